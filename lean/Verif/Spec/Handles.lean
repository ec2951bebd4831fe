import Verif.Model.Calls
import Verif.Props.SerialDb
/-!
# What it means to be careful with handles
-/
namespace Rothko

variable {α : Type}

/-- Whatever the answers it gets, a call that holds the handles `held` (with the number of the file each was acquired for): acquires a file only if it holds no handle of it and less than two in all;
releases a handle it holds, under the file it was acquired for; evicts a file only if it holds no handle of it; looks at or changes the mapped bytes only of a handle it holds; and holds nothing at the end. -/
def FsProg.Careful : FsProg α → List (Int × FsHandle) → Prop
  | .done _, held => held = []
  | .acquire _ idx _ k, held => held.length < 2 ∧ (∀ x ∈ held, x.1 ≠ idx) ∧ (∀ e, (k (.error e)).Careful held) ∧ (∀ h, (k (.ok h)).Careful ((idx, h) :: held))
  | .release idx h k, held => (idx, h) ∈ held ∧ k.Careful (held.erase (idx, h))
  | .evict idx k, held => (∀ x ∈ held, x.1 ≠ idx) ∧ k.Careful held
  | .remove _ k, held => k.Careful held
  | .load h k, held => (∃ idx, (idx, h) ∈ held) ∧ ∀ f, (k f).Careful held
  | .store h _ _ _ k, held => (∃ idx, (idx, h) ∈ held) ∧ k.Careful held

/-- The mappings of the process (file.go:59,100): those of handles that were not closed, and those that nothing refers to any more. -/
def FsState.mappings (g : FsState) : Nat := (g.w.opened.length - g.w.closed.length) + g.leaked

/-- The number of goroutines in the middle of a call. -/
def FsSys.active {Op Res : Type} (s : FsSys Op Res) : Nat := s.cl.countP (fun c => match c.work with | .busy _ => true | _ => false)

/-- The path of a data file of a metric in the directory `dbDir` of the database (metric.go:46-61,80-86). -/
def dbPath (dbDir m : Bytes) (i : Int) : Bytes := metricFilenameAt (metricDir dbDir m) i

/-- The next step of the call looks at or changes the mapped bytes of `h`. -/
def FsProg.Touches (h : FsHandle) : FsProg α → Prop
  | .load h' _ => h' = h
  | .store h' _ _ _ _ => h' = h
  | _ => False

/-- Did a call fail? -/
def DbRes.failed : DbRes → Bool
  | .write (.failed _) => true
  | .query _ (some _) => true
  | .latest _ (some _) => true
  | _ => false

/-- Did a call fail because of what is in a data file, or because one could not be made? -/
def DbRes.broken : DbRes → Bool
  | .write (.failed (.file _)) => true
  | .query _ (some (.file _)) => true
  | .latest _ (some (.file _)) => true
  | _ => false

end Rothko
