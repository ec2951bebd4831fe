import Verif.Model.FaultShared
/-! Runs of a process without end. -/
namespace Rothko

variable {Op Res : Type}

/-- Some goroutine goes on: its place in the lock pool or in its call changes. (The other steps are those of the file system and of the file cache's `Close`.) -/
def FsSys.Goes (c : FsCallsF Op Res) (may : Bytes → FileFault → Prop) (path : Bytes → Int → Bytes) (s s' : FsSys Op Res) : Prop :=
  s.StepF c may path s' ∧ ¬ (s'.pool = s.pool ∧ s'.cl = s.cl)

/-- A run without end: at each time a step, or nothing. -/
def FsSys.Run (c : FsCallsF Op Res) (may : Bytes → FileFault → Prop) (path : Bytes → Int → Bytes) (σ : Nat → FsSys Op Res) : Prop :=
  ∀ t, (σ t).StepF c may path (σ (t + 1)) ∨ σ (t + 1) = σ t

/-- A scheduler that is not idle for ever while some goroutine can go on. -/
def FsSys.Fair (c : FsCallsF Op Res) (may : Bytes → FileFault → Prop) (path : Bytes → Int → Bytes) (σ : Nat → FsSys Op Res) : Prop :=
  ∀ t, (∃ s', (σ t).Goes c may path s') → ∃ t', t ≤ t' ∧ (σ t').Goes c may path (σ (t' + 1))

end Rothko
