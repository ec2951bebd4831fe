import Verif.Model.Pipe
import Verif.Spec.Handles
import Verif.Props.Calls
/-!
# A running process: writer, dumper, queue, workers and requests at once (run.go:142-216, dump/dump.go:69-159, database/files/db_write.go, db_read.go)

The steps of all goroutines interleave: observations are added at any time, one dump is under way at a time (dumper.Run makes one after the other, dump.go:50-67, and the last one begins when it has returned, run.go:192-202), the
workers take values out of the queue and write them, step by step, through the locks and the file cache of Model/Calls, and so do the queries of any number of requests.

Simplifications: adding and capturing are single steps (C41 to C43 are about their interleavings); the buffers of the queue are values (C32 is about them); the queue has any length (whether there is room decides only which
values it takes, and any may be refused here); `taken` says beforehand which values of a dump will be taken: those that are not are refused when they are offered (db_write.go:47-60, dump.go:82-87) or when the
queue is emptied at the end (db.go:240-246). The process ends when all its calls have returned; a crash in the middle is the subject of C64.
-/
namespace Rothko

/-- The options of everything, the directory of the database, the number of handles, of workers and of all goroutines that call the database: the first ones are the workers (db.go:39-68,185-230). -/
structure ProcCfg where
  pipe : PipeCfg
  dir : Bytes
  handles : Nat
  workers : Nat
  clients : Nat

/-- A worker (db_write.go:78-90). -/
inductive Hand
  | free
  | busy (m : Bytes) (v : Val)   -- line 83 done
  | wrote                         -- line 84 done
deriving DecidableEq, Repr

/-- The process. `todo`: what the dump in progress has still to hand to `Queue` (dump.go:79); `wg`: its wait group (dump.go:72). (run.go:72-216.) -/
structure Proc where
  w : WState
  sys : FsSys DbCall DbRes
  hands : List Hand
  queue : List (Bytes × Val)
  todo : List (Bytes × Val)
  taken : Bytes → Bool
  dumping : Bool
  wg : Nat

/-- A process starts (run.go:88-117, db.go:117-168). -/
def Proc.init (c : ProcCfg) (fs : Bytes → Store) : Proc :=
  { w := {}, sys := FsSys.init c.handles (List.replicate c.clients []) fs, hands := List.replicate c.workers .free, queue := [], todo := [], taken := fun _ => true, dumping := false, wg := 0 }

/-- The records that `Capture` will give to its callback (writer.go:92-120), as what is given to `Queue` for them (dump.go:89-133). -/
def capturedVals (d : DistParams) (w : WState) (order : List (Bytes × Agg) → List (Bytes × Agg)) (now : Int64) : List (Bytes × Val) :=
  match w.page with
  | none => []
  | some p => (captureLoop d now (order p.m)).1.map (fun c => (c.metric, valOf c.rec_))

/-- A call that reads, with these options (db_read.go:20-50). -/
def DbCall.Reads (cfg : Cfg) : DbCall → Prop
  | .write _ _ => False
  | .query c _ _ => c = cfg
  | .latest c => c = cfg

/-- One step; the label is the operation of Model/Pipe that it is, if any. (dump.go:71-159, db_write.go:14-135, db_read.go:20-50, writer.go:47-120.) -/
inductive Proc.Step (c : ProcCfg) (s : Proc) : Option POp → Proc → Prop
  /-- writer.go:47-88. -/
  | add (m : Bytes) (ob : Obs) (now : Int64) : Step c s (some (.add m ob now)) { s with w := (WOp.add m ob now).run c.pipe.d s.w }
  /-- dump.go:79: the page is swapped. -/
  | dump (order : List (Bytes × Agg) → List (Bytes × Agg)) (now : Int64) (taken : Bytes → Bool) : s.dumping = false →
      Step c s (some (.dump order now taken)) { s with w := (WOp.capture order now).run c.pipe.d s.w, todo := capturedVals c.pipe.d s.w order now, taken, dumping := true }
  /-- dump.go:105-138, db_write.go:49,56: `Queue` takes the value. -/
  | offer (x : Bytes × Val) (rest : List (Bytes × Val)) : s.todo = x :: rest → Step c s none { s with todo := rest, queue := s.queue ++ [x], wg := s.wg + 1 }
  /-- db_write.go:28-33,51-52,58, dump.go:82-87: it does not, or the dump is cancelled. -/
  | refuse (x : Bytes × Val) (rest : List (Bytes × Val)) : s.todo = x :: rest → s.taken x.1 = false → Step c s none { s with todo := rest }
  /-- db.go:240-246. -/
  | drain (x : Bytes × Val) (rest : List (Bytes × Val)) : s.queue = x :: rest → s.taken x.1 = false → Step c s none { s with queue := rest, wg := s.wg - 1 }
  /-- db_write.go:83-84: a worker takes a value and calls `write`. -/
  | recv (i : Nat) (x : Bytes × Val) (rest : List (Bytes × Val)) : s.hands[i]? = some .free → s.queue = x :: rest → s.taken x.1 = true →
      Step c s none { s with queue := rest, hands := s.hands.set i (.busy x.1 x.2), sys := { s.sys with cl := s.sys.cl.set i ⟨[(x.1, .write c.pipe.cfg x.2)], .out⟩ } }
  /-- db_read.go:20,40: a request calls `Query` or `QueryLatest`. -/
  | ask (i : Nat) (m : Bytes) (o : DbCall) : c.workers ≤ i → s.sys.cl[i]? = some ⟨[], .out⟩ → o.Reads c.pipe.cfg →
      Step c s none { s with sys := { s.sys with cl := s.sys.cl.set i ⟨[(m, o)], .out⟩ } }
  /-- A step of a call (Model/Calls); the result of a query is given back. -/
  | db (sys : FsSys DbCall DbRes) : s.sys.Step dbCalls (dbPath c.dir) sys → (∀ e, sys.log = s.sys.log ++ [e] → c.workers ≤ e.1) → Step c s none { s with sys }
  /-- db_write.go:84: `write` gives its result. -/
  | wrote (i : Nat) (sys : FsSys DbCall DbRes) (e : Bytes × DbCall × DbRes) (m : Bytes) (v : Val) : s.sys.Step dbCalls (dbPath c.dir) sys → sys.log = s.sys.log ++ [(i, e)] → s.hands[i]? = some (.busy m v) →
      Step c s none { s with sys, hands := s.hands.set i .wrote }
  /-- db_write.go:86-88, dump.go:106-126: the callback. -/
  | answer (i : Nat) : s.hands[i]? = some .wrote → s.sys.pool.pcs[i]? = some .idle → Step c s none { s with hands := s.hands.set i .free, wg := s.wg - 1 }
  /-- dump.go:144: `Wait` returns. -/
  | wait : s.dumping = true → s.todo = [] → s.wg = 0 → Step c s none { s with dumping := false }
  /-- The process has ended and a new one starts (run.go:72-216). -/
  | restart : s.dumping = false → (∀ x ∈ s.sys.cl, x = ⟨[], .out⟩) → Step c s (some .restart) (Proc.init c s.sys.g.fs)

/-- The states that can arise from the files `fs`, with what happened. (run.go:72-216, any schedule.) -/
inductive Proc.Reach (c : ProcCfg) (fs : Bytes → Store) : List POp → Proc → Prop
  | start : Reach c fs [] (Proc.init c fs)
  | step {ops : List POp} {s s' : Proc} {l : Option POp} : Reach c fs ops s → s.Step c l s' → Reach c fs (ops ++ l.toList) s'

end Rothko
