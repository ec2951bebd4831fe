import Verif.Model.Process
import Verif.Spec.Kill
import Verif.Spec.Pipe
import Verif.Props.Proto
/-!
The whole program, killed again and again (C107).
-/
namespace Rothko

/-- What is asked of the options and of what happens in a life of the program: as for C97, without a condition on the clock. -/
structure LifeOk (c : ProcCfg) (K : Nat) (ops : List POp) : Prop where
  handles : c.handles < 9223372036854775808
  clients : c.workers ≤ c.clients
  dist : c.pipe.d.newOk = true
  geo : GeoOk c.pipe.cfg.size c.pipe.cfg.cap
  fits : Fits c.pipe K
  fair : ∀ op ∈ ops, op.Fair K
  short : ops.length < 9223372036854775808

/-- `PLives c K fs fs' lives`: on the files `fs` the program was started and killed again and again; these are its lives, the last one first, and `fs'` is what it left. -/
inductive PLives (c : ProcCfg) (K : Nat) (fs : Bytes → Store) : (Bytes → Store) → List (List POp) → Prop
  | nil : PLives c K fs fs []
  | kill {fs1 : Bytes → Store} {lives : List (List POp)} {ops : List POp} {s : Proc} (pt : Bytes → KillPoint) : PLives c K fs fs1 lives → LifeOk c K ops → Proc.Reach c fs1 ops s → s.sys.CutsOk pt →
      PLives c K fs (s.sys.killed pt) (ops :: lives)

/-- The value is a record of the metric for one interval of one of these lives: it has the interval's times, and reads back as the exact count, minimum, maximum, ids and distribution of the metric's observations in it. -/
def TrueRecord (c : ProcCfg) (lives : List (List POp)) (m : Bytes) (w : Val) : Prop :=
  ∃ ops ∈ lives, ∃ b ∈ (ops.foldl PSpec.step {}).kept m, ∃ r, RecordOf c.pipe.d b.start b.stop (obsOf m b.obs) r ∧ w = valOf r ∧ DRec.decode w.data = .ok { r with min := normZero r.min, max := normZero r.max }

/-- A process started on these files answers a query for everything before a time later than `times` with these values, newest first. -/
def ShowsAll (s : Store) (times : List Int64) (vs : List Val) : Prop :=
  ∀ (hit : Nat → Bool) (cfg : Cfg) (bound : Int64), 0 < bound → (∀ now ∈ times, now < bound) → (queryList cfg bound (fun _ _ => .more) { s.reopen with hit }).1 = (vs, none)

end Rothko
