import Verif.Model.Graphite
/-!
What a graphite connection adds and logs: /repo/listener/graphite/listener.go:76-83, 106-120.

Simplified: of the lines logged, the peer's address and the text of the error are left out, and of the connection error all but that there is one. As in `Model/Graphite`, the end of the stream
is an end of file; the error of a connection that breaks would be logged in the same place as `tooLong`.
-/
namespace Rothko

/-- Something a connection does: a call of `Writer.Add` (listener.go:134), the line "invalid graphite line" with the text of the line (112-116), or the line "graphite connection error" (79-81). -/
inductive ConnEv (F : Type)
  | add (metric : Bytes) (value : F)
  | invalid (line : Bytes)
  | connError
deriving DecidableEq

/-- What is done for a line (listener.go:109-117). -/
def lineEvent {F : Type} (parse : Bytes → Option F) (line : Bytes) : ConnEv F :=
  match handleLine parse line with
  | some a => .add a.1 a.2
  | none => .invalid line

/-- The loop of `handleConn` (listener.go:107-118) with what is logged: the same recursion, over the buffer and the packets, as in `Model/Graphite`. -/
def connLog {F : Type} (parse : Bytes → Option F) (buf : Bytes) (reads : List Bytes) : List (ConnEv F) × Bool :=
  match h : cutLine buf with
  | some (l, rest) =>
    let r := connLog parse rest reads
    (lineEvent parse (dropCR l) :: r.1, r.2)
  | none =>
    if hf : maxToken ≤ buf.length then ([], true)
    else
      match reads with
      | [] => if buf = [] then ([], false) else ([lineEvent parse (dropCR buf)], false)
      | p :: ps =>
        if p.length ≤ maxToken - buf.length then connLog parse (buf ++ p) ps
        else connLog parse (buf ++ p.take (maxToken - buf.length)) (p.drop (maxToken - buf.length) :: ps)
termination_by scanSize buf reads
decreasing_by
  · have := cutLine_length _ _ _ h
    simp only [scanSize]
    omega
  · simp [scanSize]
    omega
  · simp [scanSize]
    omega

/-- The goroutine of a connection (listener.go:73-84): handleConn, and a line if it gives an error. -/
def serveConn {F : Type} (parse : Bytes → Option F) (reads : List Bytes) : List (ConnEv F) :=
  let r := connLog parse [] reads
  if r.2 then r.1 ++ [.connError] else r.1

end Rothko
