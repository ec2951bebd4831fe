import Verif.Model.Process
import Verif.Model.Names
/-!
# A running process and its cache of metric names (database/files/db.go:39-93,185-250, db_write.go:95-135, db_read.go:53-139)

Model/Process and Model/Names at once: a worker that has written a value of a metric also sees to it that the name of the metric is listed before it gives its answer; any number of `Metrics` and `PopulateMetrics` calls go on
beside. A new process knows no names, and finds those on disk with `PopulateMetrics`, which it calls when it starts (db.go:210-229).

Simplifications: those of Model/Process and Model/Names. The name is stored while the lock of the metric is held (db_write.go:99-100); here it may also be after it was given back, which only makes more schedules.
-/
namespace Rothko

/-- The process, its names, for each worker the write of Model/Names it is at, if it has written something and owes the name, and what was on disk when the process started (not part of the program). (db.go:39-93.) -/
structure Whole where
  p : Proc
  n : NSys
  slot : Nat → Option Nat
  base : List Bytes

/-- The first process starts; no metric has data. (run.go:88-117, db.go:117-168.) -/
def Whole.init (c : ProcCfg) (fs : Bytes → Store) (nw nm np : Nat) : Whole :=
  { p := Proc.init c fs, n := NSys.init c.workers [] nw nm np, slot := fun _ => none, base := [] }

/-- The calls that have returned: the last one was a write that was acknowledged. (db_write.go:109-117, `ok`.) -/
def Proc.lastOk (p p' : Proc) : Prop := ∃ i m cfg v, p'.sys.log = p.sys.log ++ [(i, m, .write cfg v, .write .written)]

/-- One step; `excl` as in Model/Names. (db_write.go:78-135, db_read.go:53-139, db.go:185-250.) -/
inductive Whole.Step (c : ProcCfg) (excl : Bool) (w : Whole) : Option POp → Whole → Prop
  /-- Everything but the end of a write, its answer and a restart. -/
  | run (l : Option POp) (p' : Proc) : w.p.Step c l p' → l ≠ some .restart → (∀ i : Nat, w.p.hands[i]? = some Hand.wrote ↔ p'.hands[i]? = some Hand.wrote) → Step c excl w l { w with p := p' }
  /-- db_write.go:103: the first data file appears while the value is being written. -/
  | create (i : Nat) (m : Bytes) (v : Val) : w.p.hands[i]? = some (.busy m v) → Step c excl w none { w with n := { w.n with disk := m :: w.n.disk } }
  /-- db_write.go:109-117: the value is written. -/
  | wrote (i k : Nat) (m : Bytes) (v : Val) (p' : Proc) : w.p.Step c none p' → w.p.hands[i]? = some (.busy m v) → p'.hands[i]? = some .wrote → w.p.lastOk p' → w.n.writers[k]? = some .idle →
      Step c excl w none { w with p := p', n := ({ w.n with disk := m :: w.n.disk } : NSys).setW k (.wrote i m), slot := fun j => if j = i then some k else w.slot j }
  /-- db_write.go:110-112,134: it is not. -/
  | wroteNot (i : Nat) (m : Bytes) (v : Val) (p' : Proc) : w.p.Step c none p' → w.p.hands[i]? = some (.busy m v) → p'.hands[i]? = some .wrote → ¬ w.p.lastOk p' →
      Step c excl w none { w with p := p', slot := fun j => if j = i then none else w.slot j }
  /-- db_write.go:117-131, db_read.go:53-139: a step of the cache of names. -/
  | names (n' : NSys) : w.n.Step excl n' → n'.disk = w.n.disk → Step c excl w none { w with n := n' }
  /-- db_write.go:86-88: the worker answers when the name is stored. -/
  | answer (i : Nat) (p' : Proc) : w.p.Step c none p' → w.p.hands[i]? = some .wrote → p'.hands[i]? = some .free → (∀ k, w.slot i = some k → ∃ m, w.n.writers[k]? = some (.acked m)) →
      Step c excl w none { w with p := p' }
  /-- The process has ended and a new one starts, which knows no names. -/
  | restart (p' : Proc) (nw nm np : Nat) : w.p.Step c (some .restart) p' →
      Step c excl w (some .restart) { p := p', n := NSys.init c.workers w.n.disk nw nm np, slot := fun _ => none, base := w.n.disk }

/-- Any schedule, with what happened. (run.go:72-216.) -/
inductive Whole.Goes (c : ProcCfg) (excl : Bool) (w0 : Whole) : List POp → Whole → Prop
  | here : Goes c excl w0 [] w0
  | step {ops : List POp} {w w' : Whole} {l : Option POp} : Goes c excl w0 ops w → w.Step c excl l w' → Goes c excl w0 (ops ++ l.toList) w'

end Rothko
