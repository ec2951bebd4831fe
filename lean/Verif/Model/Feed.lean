import Verif.Model.Process
import Verif.Model.Graphite
/-!
# A process fed by graphite connections (run.go:142-216, listener/graphite/listener.go:59-135)

The process of Model/Process, whose observations now are those of connections: each connection has a goroutine of its own (listener.go:74-83) that makes, one after the other, the calls of `Writer.Add` of Model/Graphite.

Simplifications: what a connection will deliver until it ends is chosen when it is accepted (it ends by its peer, by an error or because the listener is told to stop, listener.go:98-102: each time the scanner hands out what it has
already read, and that is then all the connection delivered); a line that makes no call is no step.
-/
namespace Rothko

/-- The process and, for each connection accepted, the calls of `Writer.Add` that its goroutine has still to make (listener.go:107-118,133). -/
structure Fed where
  proc : Proc
  conns : List (List (Bytes × F64))

/-- What happens: a connection that delivers `reads`, packet by packet (listener.go:69-83), or a step of the process (listener.go:133, run.go:72-216). -/
inductive FedEv
  | conn (reads : List Bytes)
  | op (l : Option POp)

/-- A process starts without connections (run.go:88-117). -/
def Fed.init (c : ProcCfg) (fs : Bytes → Store) : Fed := ⟨Proc.init c fs, []⟩

/-- One step (listener.go:59-135, run.go:142-216). -/
inductive Fed.Step (c : ProcCfg) (parse : Bytes → Option F64) (s : Fed) : FedEv → Fed → Prop
  /-- listener.go:69-83: a connection. -/
  | conn (reads : List Bytes) : Step c parse s (.conn reads) { s with conns := s.conns ++ [(handleConn parse [] reads).1] }
  /-- listener.go:133: the next call of a connection; there is no id. -/
  | line (i : Nat) (m : Bytes) (x : F64) (rest : List (Bytes × F64)) (tag : Nat) (now : Int64) (p : Proc) : s.conns[i]? = some ((m, x) :: rest) → s.proc.Step c (some (.add m ⟨x, [], tag⟩ now)) p →
      Step c parse s (.op (some (.add m ⟨x, [], tag⟩ now))) ⟨p, s.conns.set i rest⟩
  /-- A step of the process that neither adds an observation nor ends the process. -/
  | proc (l : Option POp) (p : Proc) : s.proc.Step c l p → (∀ m o now, l ≠ some (.add m o now)) → l ≠ some .restart → Step c parse s (.op l) { s with proc := p }
  /-- The process has ended, and its connections with it; a new one starts (run.go:72-216). -/
  | restart (p : Proc) : s.proc.Step c (some .restart) p → Step c parse s (.op (some .restart)) ⟨p, []⟩

/-- The states that can arise from the files `fs`, with the connections accepted so far and what happened. (run.go:72-216, any schedule.) -/
inductive Fed.Reach (c : ProcCfg) (parse : Bytes → Option F64) (fs : Bytes → Store) : List (List Bytes) → List POp → Fed → Prop
  | start : Reach c parse fs [] [] (Fed.init c fs)
  | conn {streams : List (List Bytes)} {ops : List POp} {s s' : Fed} {reads : List Bytes} : Reach c parse fs streams ops s → s.Step c parse (.conn reads) s' → Reach c parse fs (streams ++ [reads]) ops s'
  | op {streams : List (List Bytes)} {ops : List POp} {s s' : Fed} {l : Option POp} : Reach c parse fs streams ops s → s.Step c parse (.op l) s' → Reach c parse fs streams (ops ++ l.toList) s'

end Rothko
