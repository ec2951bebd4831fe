/-
The graphite listener: /repo/listener/graphite/listener.go.

Bytes are `UInt8`; a newline is 10, a carriage return 13 and a space 32.
`strconv.ParseFloat` is the parameter `parse`, `none` when it reports an error.
-/
import Verif.Model.Bytes

namespace Rothko

/-- `bytes.Split(line, []byte{' '})` (listener.go:123): the fields between single spaces; always at least one. -/
def splitSp : Bytes → List Bytes
  | [] => [[]]
  | c :: rest =>
    if c = 32 then [] :: splitSp rest
    else
      match splitSp rest with
      | [] => [[c]]
      | f :: fs => (c :: f) :: fs

/-- listener.go:122-135, handleLine: the call of `Writer.Add` (metric and value) made for the line, `none` when an error is returned instead. -/
def handleLine {F : Type} (parse : Bytes → Option F) (line : Bytes) : Option (Bytes × F) :=
  match splitSp line with
  | [f0, f1, _] =>
    match parse f1 with
    | none => none
    | some v => some (f0, v)
  | _ => none

/-- bufio.ScanLines' dropCR: one trailing carriage return is removed. (listener.go:108, library code.) -/
def dropCR (l : Bytes) : Bytes :=
  if l.getLast? = some 13 then l.dropLast else l

/-- The first line of the buffer and what follows its newline (bufio.ScanLines when a newline is buffered). (listener.go:108, library code.) -/
def cutLine : Bytes → Option (Bytes × Bytes)
  | [] => none
  | c :: rest =>
    if c = 10 then some ([], rest)
    else
      match cutLine rest with
      | none => none
      | some (l, r) => some (c :: l, r)

theorem cutLine_length : ∀ (b : Bytes) (l r : Bytes), cutLine b = some (l, r) → b.length = l.length + 1 + r.length
  | [], _, _, h => by simp [cutLine] at h
  | c :: rest, l, r, h => by
    unfold cutLine at h
    split at h
    · simp at h; obtain ⟨rfl, rfl⟩ := h; simp; omega
    · split at h
      · simp at h
      · rename_i l' r' e
        simp at h
        obtain ⟨rfl, rfl⟩ := h
        have := cutLine_length rest l' r' e
        simp; omega

/-- bufio.MaxScanTokenSize. (listener.go:107, library code.) -/
def maxToken : Nat := 65536

/-- The bytes buffered in the scanner and what the reader has still to deliver: one list per packet. (listener.go:107-108, library code.) -/
def scanSize (buf : Bytes) (reads : List Bytes) : Nat := buf.length + 2 * (reads.map (fun r => r.length + 1)).sum

/-- listener.go:107-118, handleConn's loop over a bufio.Scanner.

`reads` is what the connection delivers, packet by packet, until it ends (by EOF or an error: both make the scanner hand out what is left in the buffer as a last line).
A read copies at most the room left of a full-size buffer, the rest stays in the packet. (The scanner's buffer starts at 4096 bytes and doubles; a smaller
buffer only delivers in smaller pieces, which is also a way to cut `reads`.) The result is the list of the calls of `Writer.Add`, in order, and whether
the loop ended because a line did not fit (bufio.ErrTooLong). Logging is left out. -/
def handleConn {F : Type} (parse : Bytes → Option F) (buf : Bytes) (reads : List Bytes) : List (Bytes × F) × Bool :=
  match h : cutLine buf with
  | some (l, rest) =>
    let r := handleConn parse rest reads
    ((handleLine parse (dropCR l)).toList ++ r.1, r.2)
  | none =>
    if hf : maxToken ≤ buf.length then ([], true)
    else
      match reads with
      | [] => if buf = [] then ([], false) else ((handleLine parse (dropCR buf)).toList, false)
      | p :: ps =>
        if p.length ≤ maxToken - buf.length then handleConn parse (buf ++ p) ps
        else handleConn parse (buf ++ p.take (maxToken - buf.length)) (p.drop (maxToken - buf.length) :: ps)
termination_by scanSize buf reads
decreasing_by
  · have := cutLine_length _ _ _ h
    simp only [scanSize]
    omega
  · simp [scanSize]
    omega
  · simp [scanSize]
    omega

end Rothko
