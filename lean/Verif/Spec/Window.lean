import Verif.Model.DataRecord
import Verif.Model.Metric
/-! What a graph of the time from `stop` on needs of a list of values, newest first. -/
namespace Rothko

/-- The values that end at or after `stop`, and the one before them. -/
def upTo (stop : Int64) : List Val → List Val
  | [] => []
  | v :: vs => if v.stop ≥ stop then v :: upTo stop vs else [v]

/-- The same for records. -/
def needed (stop : Int64) : List DRec → List DRec
  | [] => []
  | r :: rs => if r.endTime ≥ stop then r :: needed stop rs else [r]

/-- The records a graph looks at for pixel `x`: all that are stored; for the leftmost one those that end in the graph's time, and one more. -/
def shownAt (stop : Int64) (rs : List DRec) (x : Int) : List DRec := if x = 0 then needed stop rs else rs

end Rothko
