import Verif.Model.Pipe
import Verif.Spec.Writer
import Verif.Spec.Query
/-!
# What should be stored (C70)
-/
namespace Rothko

/-- The interval in progress, and for each metric the intervals that are to be found in the database, newest first. -/
structure PSpec where
  w : WSpec := {}
  kept : Bytes → List Batch := fun _ => []

/-- A dump ends the interval: it is kept for each metric observed in it (whose value the queue takes). A restart loses the interval in progress. -/
def PSpec.step (s : PSpec) : POp → PSpec
  | .add metric o now => { s with w := s.w.step (.add metric o now) }
  | .dump order now taken =>
    { w := s.w.step (.capture order now)
      kept := fun m => match s.w.start with
        | none => s.kept m
        | some t => if taken m && (s.w.pend.map (·.1)).contains m then ⟨t, now, s.w.pend⟩ :: s.kept m else s.kept m }
  | .query _ _ _ => s
  | .restart => { s with w := {} }

/-- The times of the dumps. -/
def dumpTimes (ops : List POp) : List Int64 := ops.filterMap (fun o => match o with | .dump _ now _ => some now | _ => none)

/-- `Range` goes over the metrics in some order; ids are at most `K` bytes long. -/
def POp.Fair (K : Nat) : POp → Prop
  | .dump order _ _ => ∀ l, (order l).Perm l
  | .add _ o _ => o.id.length ≤ K
  | _ => True

/-- A record of observations with ids of at most `K` bytes leaves a slot free in an empty data file. -/
def Fits (o : PipeCfg) (K : Nat) : Prop :=
  ∀ (start stop : Int64) (vals : List Obs) (r : DRec), (∀ x ∈ vals, x.id.length ≤ K) → RecordOf o.d start stop vals r → needs o.cfg.size r.encode.length < o.cfg.cap

/-- The lists are equally long and `R` holds of each pair. -/
inductive EachOf {α β : Type} (R : α → β → Prop) : List α → List β → Prop
  | nil : EachOf R [] []
  | cons {a : α} {b : β} {l : List α} {k : List β} : R a b → EachOf R l k → EachOf R (a :: l) (b :: k)

end Rothko
