import Verif.Model.Scan
/-! Runs of a scan (C114). -/
namespace Rothko

/-- A run: the file system is a database tree at the beginning, the descriptors `fds` are open, and at each time there is a step of the scan, a change in the file system, or nothing. -/
structure Scan.Run (whole : List Bytes → Prop) (fds : List Nat) (σ : Nat → Scan) : Prop where
  start : ∃ w : World, w.Tree ∧ σ 0 = .init w fds
  fds : fds.Nodup
  step : ∀ t, (σ t).Step whole (σ (t + 1)) ∨ σ (t + 1) = σ t

/-- Something is at the path at some time up to `t`. -/
def SeenBy (σ : Nat → Scan) (t : Nat) (p : List Bytes) : Prop := ∃ t', t' ≤ t ∧ (σ t').w p ≠ none

end Rothko
