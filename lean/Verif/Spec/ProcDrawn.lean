import Verif.Spec.ProcShown
/-!
The answer to a request for a graph up to any time (C121).
-/
namespace Rothko

/-- What a request for the graph of a metric may be answered when these are the intervals whose records are written, newest first, and nothing is known of the times: the picture of some of them, all of which ended before the graph's time and
among which are those that the query (`r`) handed out; an error if the request met one (`failed`) or there is nothing to show. -/
def GraphOfSome (failed : Prop) (e : Outside) (n : ℕ) (colors : List Color) (state : List Obs → List F64) (m : Bytes) (now dur : Int64) (width height padding : Int) (kept : List Batch) (page : Page) (r : DbRes) : Prop :=
  ∃ shown : List Batch, shown.Sublist kept ∧ (∀ b ∈ shown, b.stop < now) ∧ (∀ seen err, r = .query seen err → seen.map (·.stop) <+: shown.map (·.stop)) ∧
    (shown = [] → page = .tooSmall ∨ page = .failed) ∧
    (shown ≠ [] → (∀ b ∈ shown, 0 ≤ b.start.toInt ∧ b.start.toInt + width < 9223372036854775808 ∧ 0 ≤ b.stop.toInt) → now.toInt + dur.toInt < 9223372036854775808 → 0 ≤ padding → width ≤ dur.toInt → height ≤ 9007199254740992 →
      page = .failed ∧ failed ∨ ∃ newest : Batch, shown.head? = some newest ∧ ShowsIntervals e n colors state m now dur width height padding newest shown page)

/-- The times of the intervals are times after 1970, and the window does not reach the end of time. -/
def SaneTimes (width : Int) (kept : List Batch) : Prop := ∀ b ∈ kept, 0 ≤ b.start.toInt ∧ b.start.toInt + width < 9223372036854775808 ∧ 0 ≤ b.stop.toInt

end Rothko
