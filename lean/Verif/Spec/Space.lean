import Verif.Model.Metric
import Verif.Spec.Query
/-!
# Space and history of a metric
-/
namespace Rothko

/-- The bytes the data files of a metric take on disk: the lengths of the files its directory lists (what `du --apparent-size` counts). -/
def Store.bytes (s : Store) : Nat := (s.dir.map (fun e => (s.disk e.2).length)).sum

/-- The slots (of `size` bytes) that a list of values takes. -/
def slots (size : Nat) (vs : List Val) : Nat := (vs.map (fun v => needs size v.data.length)).sum

end Rothko
