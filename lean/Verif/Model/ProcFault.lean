import Verif.Model.Process
import Verif.Props.FaultCalls
/-!
# A running process when system calls may fail (run.go:142-216, dump/dump.go:69-159, database/files/db_write.go, db_read.go, metric.go, file.go)

Model/Process, with the calls of the database replaced by those of Model/FaultShared: any system call that opens, creates or removes a file, or opens a directory, may fail, as far as `SysErrors` allows it.
A worker whose write fails, or whose value is refused, reports this to the callback (db_write.go:84-88), which counts and logs it and goes on (dump.go:106-126): nothing tries the value again.
The simplifications are those of the two models.
-/
namespace Rothko

/-- What the operating system may do to the calls on a metric: how opening or creating one of its files may fail, and whether its directory cannot be opened, or files cannot be removed, during a call. (metric.go:77-104,186-212,262-266, file.go:32-127.) -/
structure SysErrors where
  file : Bytes → FileFault → Prop
  call : Bytes → Option DirFault → Bool → Prop

/-- The process. (run.go:72-216, as `Proc`.) -/
structure ProcF where
  w : WState
  sys : FsSys FltCall DbRes
  hands : List Hand
  queue : List (Bytes × Val)
  todo : List (Bytes × Val)
  taken : Bytes → Bool
  dumping : Bool
  wg : Nat

/-- A process starts (run.go:88-117, db.go:117-168). -/
def ProcF.init (c : ProcCfg) (fs : Bytes → Store) : ProcF :=
  { w := {}, sys := FsSys.init c.handles (List.replicate c.clients []) fs, hands := List.replicate c.workers .free, queue := [], todo := [], taken := fun _ => true, dumping := false, wg := 0 }

/-- What is seen of a step: an operation of Model/Pipe, or a value of a metric that `write` did not store (db_write.go:84-88, dump.go:106-126). -/
inductive PFOp
  | op (o : POp)
  | lost (m : Bytes)

/-- One step. (dump.go:71-159, db_write.go:14-135, db_read.go:20-50, writer.go:47-120.) -/
inductive ProcF.Step (c : ProcCfg) (e : SysErrors) (s : ProcF) : Option PFOp → ProcF → Prop
  /-- writer.go:47-88. -/
  | add (m : Bytes) (ob : Obs) (now : Int64) : Step c e s (some (.op (.add m ob now))) { s with w := (WOp.add m ob now).run c.pipe.d s.w }
  /-- dump.go:79: the page is swapped. -/
  | dump (order : List (Bytes × Agg) → List (Bytes × Agg)) (now : Int64) (taken : Bytes → Bool) : s.dumping = false →
      Step c e s (some (.op (.dump order now taken))) { s with w := (WOp.capture order now).run c.pipe.d s.w, todo := capturedVals c.pipe.d s.w order now, taken, dumping := true }
  /-- dump.go:105-138, db_write.go:49,56: `Queue` takes the value. -/
  | offer (x : Bytes × Val) (rest : List (Bytes × Val)) : s.todo = x :: rest → Step c e s none { s with todo := rest, queue := s.queue ++ [x], wg := s.wg + 1 }
  /-- db_write.go:28-33,51-52,58, dump.go:82-87: it does not, or the dump is cancelled. -/
  | refuse (x : Bytes × Val) (rest : List (Bytes × Val)) : s.todo = x :: rest → s.taken x.1 = false → Step c e s none { s with todo := rest }
  /-- db.go:240-246. -/
  | drain (x : Bytes × Val) (rest : List (Bytes × Val)) : s.queue = x :: rest → s.taken x.1 = false → Step c e s none { s with queue := rest, wg := s.wg - 1 }
  /-- db_write.go:83-84: a worker takes a value and calls `write`. -/
  | recv (i : Nat) (x : Bytes × Val) (rest : List (Bytes × Val)) (dir : Option DirFault) (unlink : Bool) : s.hands[i]? = some .free → s.queue = x :: rest → s.taken x.1 = true → e.call x.1 dir unlink →
      Step c e s none { s with queue := rest, hands := s.hands.set i (.busy x.1 x.2), sys := { s.sys with cl := s.sys.cl.set i ⟨[(x.1, ⟨.write c.pipe.cfg x.2, dir, unlink⟩)], .out⟩ } }
  /-- db_read.go:20,40: a request calls `Query` or `QueryLatest`. -/
  | ask (i : Nat) (m : Bytes) (o : DbCall) (dir : Option DirFault) (unlink : Bool) : c.workers ≤ i → s.sys.cl[i]? = some ⟨[], .out⟩ → o.Reads c.pipe.cfg → e.call m dir unlink →
      Step c e s none { s with sys := { s.sys with cl := s.sys.cl.set i ⟨[(m, ⟨o, dir, unlink⟩)], .out⟩ } }
  /-- A step of a call (Model/FaultShared); the result of a query is given back. -/
  | db (sys : FsSys FltCall DbRes) : s.sys.StepF dbCallsF e.file (dbPath c.dir) sys → (∀ x, sys.log = s.sys.log ++ [x] → c.workers ≤ x.1) → Step c e s none { s with sys }
  /-- db_write.go:84: `write` has stored the value. -/
  | wrote (i : Nat) (sys : FsSys FltCall DbRes) (m : Bytes) (o : FltCall) (v : Val) : s.sys.StepF dbCallsF e.file (dbPath c.dir) sys → sys.log = s.sys.log ++ [(i, m, o, .write .written)] → s.hands[i]? = some (.busy m v) →
      Step c e s none { s with sys, hands := s.hands.set i .wrote }
  /-- db_write.go:84: `write` gives an error, or says that the value was not written. -/
  | lost (i : Nat) (sys : FsSys FltCall DbRes) (m : Bytes) (o : FltCall) (r : DbRes) (v : Val) : s.sys.StepF dbCallsF e.file (dbPath c.dir) sys → sys.log = s.sys.log ++ [(i, m, o, r)] → r ≠ .write .written →
      s.hands[i]? = some (.busy m v) → Step c e s (some (.lost m)) { s with sys, hands := s.hands.set i .wrote }
  /-- db_write.go:86-88, dump.go:106-126: the callback. -/
  | answer (i : Nat) : s.hands[i]? = some .wrote → s.sys.pool.pcs[i]? = some .idle → Step c e s none { s with hands := s.hands.set i .free, wg := s.wg - 1 }
  /-- dump.go:144: `Wait` returns. -/
  | wait : s.dumping = true → s.todo = [] → s.wg = 0 → Step c e s none { s with dumping := false }
  /-- The process has ended and a new one starts (run.go:72-216). -/
  | restart : s.dumping = false → (∀ x ∈ s.sys.cl, x = ⟨[], .out⟩) → Step c e s (some (.op .restart)) (ProcF.init c s.sys.g.fs)

/-- The states that can arise from the files `fs`, with what happened. (run.go:72-216, any schedule, any errors.) -/
inductive ProcF.Reach (c : ProcCfg) (e : SysErrors) (fs : Bytes → Store) : List PFOp → ProcF → Prop
  | start : Reach c e fs [] (ProcF.init c fs)
  | step {ops : List PFOp} {s s' : ProcF} {l : Option PFOp} : Reach c e fs ops s → s.Step c e l s' → Reach c e fs (ops ++ l.toList) s'

end Rothko
