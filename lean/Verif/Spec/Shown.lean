import Verif.Spec.Pipe
import Mathlib.Data.Rat.Floor
/-!
# What a picture should show (C87)
-/
namespace Rothko

/-- The interval is over pixel `x` of `W`, each `ps` nanoseconds, the last one up to `now`: pixel `x` is from `now - (W - x)·ps` on. The leftmost one also is for all times before it. -/
def Batch.Over (now W ps : Int) (b : Batch) (x : Int) : Prop := b.start.toInt < now - (W - x) * ps + ps ∧ (x = 0 ∨ now - (W - x) * ps ≤ b.stop.toInt)

instance (now W ps : Int) (b : Batch) (x : Int) : Decidable (b.Over now W ps x) := by unfold Batch.Over; infer_instance

/-- The intervals that end at or after `stop`, and the one before them. -/
def neededBatches (stop : Int64) : List Batch → List Batch
  | [] => []
  | b :: bs => if b.stop ≥ stop then b :: neededBatches stop bs else [b]

/-- The intervals pixel `x` of a graph of the time `dur` up to `now` shows, of those in the database, newest first. -/
def batchesAt (now dur : Int64) (W : Int) (k : List Batch) (x : Int) : List Batch :=
  (if x = 0 then neededBatches (now - dur) k else k).filter (fun b => decide (b.Over now.toInt W (dur.toInt / W) x))

/-- Observations of the metric per second in the interval. -/
def Batch.rate (m : Bytes) (b : Batch) : ℚ := (obsOf m b.obs).length / ((b.stop.toInt - b.start.toInt : ℚ) / 1000000000)

end Rothko
