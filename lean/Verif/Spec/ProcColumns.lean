import Verif.Spec.ProcDrawn
import Verif.Props.Answer
/-!
The answer, as JSON, to a request for a graph up to any time (C125).
-/
namespace Rothko

/-- What a request for the columns of a metric may be answered when these are the intervals whose records are written, newest first, and nothing is known of the times: the newest record and the columns of some of them, all of which ended
before the graph's time and among which are those that the query (`r`) handed out; an error if the request met one (`failed`) or there is nothing to show. -/
def ColumnsOfSome (failed : Prop) (e : Outside) (n : ℕ) (state : List Obs → List F64) (d : DistParams) (m : Bytes) (now dur : Int64) (width height padding : Int) (kept : List Batch) (answer : RenderRes Shot) (r : DbRes) : Prop :=
  ∃ shown : List Batch, shown.Sublist kept ∧ (∀ b ∈ shown, b.stop < now) ∧ (∀ seen err, r = .query seen err → seen.map (·.stop) <+: shown.map (·.stop)) ∧
    (shown = [] → answer = .tooSmall ∨ answer = .failed) ∧
    (shown ≠ [] → (∀ b ∈ shown, 0 ≤ b.start.toInt ∧ b.start.toInt + width < 9223372036854775808 ∧ 0 ≤ b.stop.toInt) → now.toInt + dur.toInt < 9223372036854775808 → width ≤ dur.toInt →
      answer = .failed ∧ failed ∨ ∃ newest : Batch, shown.head? = some newest ∧
        ∀ gm, graphMeasure (sceneStyle e { obs := state (obsOf m newest.obs) }) (pngOpts now dur width height padding) = .ok gm → 0 < gm.width →
          ∃ first cols, RecordOf d newest.start newest.stop (obsOf m newest.obs) first ∧ ColumnsShow e state n m gm.width (batchesAt now dur gm.width shown) cols ∧ answer = .columns first.encode (Int64.ofInt gm.width) cols)

end Rothko
