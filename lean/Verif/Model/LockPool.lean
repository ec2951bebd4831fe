import Verif.Model.Bytes
/-!
# database/files/lock_pool.go

Any number of goroutines run `Lock(key)` / `Unlock(key)`. The parts of both functions between `l.mu.Lock()` and `l.mu.Unlock()` only touch data guarded by `l.mu`, so each is one atomic step.
The other steps are `st.mu.Lock()` (possible only while that mutex is free) and `st.mu.Unlock()`.
-/
namespace Rothko

/-- `type lockPoolState` (lock_pool.go:10-13): is the mutex locked, and the reference count (a Go `int`). -/
structure LPState where
  held : Bool
  ref : Int
deriving DecidableEq

/-- Where a goroutine is. (lock_pool.go:26-52.) -/
inductive LPc
  | idle                                 -- outside
  | waiting (key : Bytes) (st : Nat)     -- in Lock, lock_pool.go:35 done, before line 36
  | holding (key : Bytes) (st : Nat)     -- Lock has returned, Unlock not yet called (`st` is not used by the code here)
  | unlocking (st : Nat)                 -- in Unlock, lock_pool.go:49 done, before line 51
deriving DecidableEq

/-- The pool (`locks`), the heap of states (by allocation number), and all goroutines. (lock_pool.go:15-18.) -/
structure LPool where
  locks : Bytes → Option Nat
  heap : Nat → LPState
  next : Nat
  pcs : List LPc
  crashed : Bool        -- a panic or a fatal error happened

/-- `newLockPool` (lock_pool.go:20-24) and `n` goroutines. -/
def LPool.init (n : Nat) : LPool :=
  { locks := fun _ => none, heap := fun _ => ⟨false, 0⟩, next := 0, pcs := List.replicate n .idle, crashed := false }

/-- lock_pool.go:10-13: assignment to a state. -/
def LPool.setHeap (s : LPool) (st : Nat) (x : LPState) : LPool := { s with heap := fun a => if a = st then x else s.heap a }
/-- lock_pool.go:26-52: goroutine `i` goes on. -/
def LPool.setPc (s : LPool) (i : Nat) (pc : LPc) : LPool := { s with pcs := s.pcs.set i pc }

/-- The first half of `Lock` (lock_pool.go:27-34): the state used. -/
def LPool.lockFirst (s : LPool) (key : Bytes) : Nat × LPool :=
  match s.locks key with
  | some st => (st, s.setHeap st { s.heap st with ref := (s.heap st).ref + 1 })
  | none =>
    let st := s.next
    let s := { s with next := s.next + 1, locks := fun k => if k = key then some st else s.locks k }
    (st, s.setHeap st ⟨false, 1⟩)

/-- The first half of `Unlock` (lock_pool.go:40-49); `none` is the panic. -/
def LPool.unlockFirst (s : LPool) (key : Bytes) : Option (Nat × LPool) :=
  match s.locks key with
  | none => none
  | some st =>
    let ref := (s.heap st).ref - 1
    let s := s.setHeap st { s.heap st with ref }
    some (st, if ref = 0 then { s with locks := fun k => if k = key then none else s.locks k } else s)

/-- One step of goroutine `i`. A goroutine calls `Unlock(key)` only when it holds `key`. (lock_pool.go:26-52.) -/
inductive LPool.Step (i : Nat) (s : LPool) : LPool → Prop
  | call (key : Bytes) : s.pcs[i]? = some .idle → Step i s ((s.lockFirst key).2.setPc i (.waiting key (s.lockFirst key).1))
  | enter (key : Bytes) (st : Nat) : s.pcs[i]? = some (.waiting key st) → (s.heap st).held = false →
      Step i s ((s.setHeap st { s.heap st with held := true }).setPc i (.holding key st))
  | leave (key : Bytes) (st st' : Nat) (s' : LPool) : s.pcs[i]? = some (.holding key st) → s.unlockFirst key = some (st', s') →
      Step i s (s'.setPc i (.unlocking st'))
  | panic (key : Bytes) (st : Nat) : s.pcs[i]? = some (.holding key st) → s.unlockFirst key = none → Step i s { s with crashed := true }
  | done (st : Nat) : s.pcs[i]? = some (.unlocking st) → (s.heap st).held = true →
      Step i s ((s.setHeap st { s.heap st with held := false }).setPc i .idle)
  | fatal (st : Nat) : s.pcs[i]? = some (.unlocking st) → (s.heap st).held = false → Step i s { s with crashed := true }

/-- The states that can arise from `n` goroutines under any interleaving. (lock_pool.go:20-52, any schedule.) -/
inductive LPool.Reach (n : Nat) : LPool → Prop
  | init : Reach n (LPool.init n)
  | step {s s' : LPool} {i : Nat} : Reach n s → s.Step i s' → Reach n s'

end Rothko
