import Verif.Spec.Pipe
/-!
# What should be stored when the clock does not always go forward (C108)
-/
namespace Rothko

/-- Of the intervals of a metric, newest first, those that are stored: an interval is stored if it ends later than every interval that was stored before it. -/
def forward : List Batch → List Batch
  | [] => []
  | b :: older => if ∀ w ∈ forward older, w.stop < b.stop then b :: forward older else forward older

end Rothko
