import Verif.Model.Fault
import Verif.Spec.History
/-! Histories of one metric during which system calls fail. -/
namespace Rothko

/-- Run one operation during which the system calls named by `flt` fail; `acc` is the list of acknowledged values, newest first. -/
def Op.runF (flt : Faults) (sa : Store × List Val) : Op → Store × List Val
  | .write cfg v =>
    match dbWriteF flt cfg v sa.1 with
    | (.written, s) => (s, v :: sa.2)
    | (_, s) => (s, sa.2)
  | .query cfg bound cb => ((dbQueryF flt cfg bound (fun seen v => (seen ++ [v], cb seen v)) ([] : List Val) sa.1).2, sa.2)
  | .latest cfg => ((dbQueryLatestF flt cfg sa.1).2, sa.2)
  | .restart => (sa.1.reopen, sa.2)

/-- Run a history: each operation with what fails during it. -/
def runFaults (ops : List (Op × Faults)) (sa : Store × List Val) : Store × List Val := ops.foldl (fun sa o => o.1.runF o.2 sa) sa

/-- No new data file is left half made: `fallocate` and the first `mmap` of a new file succeed whenever its creation does. Everything else may fail. -/
def Faults.Clean (flt : Faults) : Prop := ∀ c n, flt.file c ≠ some (.partly n)

/-- The states and acknowledged values reachable by a history in which system calls fail, from a metric without data. -/
def ReachF (ops : List (Op × Faults)) (s : Store) (acc : List Val) : Prop :=
  (∀ o ∈ ops, o.1.Ok ∧ o.2.Clean) ∧ ∃ (de : Bool) (hit : Nat → Bool), runFaults ops (Store.fresh de hit, []) = (s, acc)

/-- In how many operations of a history removing files fails. -/
def keptFiles (ops : List (Op × Faults)) : Nat := (ops.filter (fun o => o.2.unlink)).length

end Rothko
