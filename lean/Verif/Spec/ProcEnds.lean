import Verif.Model.ProcFault
/-!
Runs without end of a process in which system calls may fail (C119).
-/
namespace Rothko

/-- A run without end: at each time a step of which `seen t` is seen, or nothing. -/
def ProcF.Run (c : ProcCfg) (e : SysErrors) (σ : Nat → ProcF) (seen : Nat → Option PFOp) : Prop :=
  ∀ t, (σ t).Step c e (seen t) (σ (t + 1)) ∨ (seen t = none ∧ σ (t + 1) = σ t)

/-- A request comes in: a goroutine that is no worker and had nothing to do has a call to make. -/
def ProcF.Asks (c : ProcCfg) (s s' : ProcF) : Prop := ∃ i, c.workers ≤ i ∧ s.sys.cl[i]? = some ⟨[], .out⟩ ∧ ∃ x, s'.sys.cl[i]? = some ⟨[x], .out⟩

/-- The dump, the queue, the workers and the requests are where they were. -/
def ProcF.Same (s s' : ProcF) : Prop := s'.todo = s.todo ∧ s'.queue = s.queue ∧ s'.hands = s.hands ∧ s'.dumping = s.dumping ∧ s'.sys.pool = s.sys.pool ∧ s'.sys.cl = s.sys.cl

/-- The dump in progress, a worker or a request goes on. (Other steps are those of the outside - observations, the beginning of a dump, requests that come in, a new process - and of the file cache's `Close`.) -/
def ProcF.GoesOn (c : ProcCfg) (e : SysErrors) (s s' : ProcF) : Prop := (∃ l, s.Step c e l s' ∧ ∀ o, l ≠ some (.op o)) ∧ ¬ s.Asks c s' ∧ ¬ s.Same s'

/-- A scheduler that does not leave the program where it is for ever when it can go on. -/
def ProcF.Fair (c : ProcCfg) (e : SysErrors) (σ : Nat → ProcF) : Prop := ∀ t, (∃ s', (σ t).GoesOn c e s') → ∃ t', t ≤ t' ∧ (σ t').GoesOn c e (σ (t' + 1))

/-- Nothing is left to do: no dump is in progress, the queue is empty, all workers wait for values, and all requests have their answers. -/
structure ProcF.AtRest (s : ProcF) : Prop where
  dumping : s.dumping = false
  todo : s.todo = []
  queue : s.queue = []
  hands : ∀ a ∈ s.hands, a = .free
  calls : ∀ x ∈ s.sys.cl, x = ⟨[], .out⟩

/-- Only observations come from the outside. -/
def OnlyAdds : Option PFOp → Prop
  | some (.op o) => ∃ m ob now, o = .add m ob now
  | _ => True

end Rothko
