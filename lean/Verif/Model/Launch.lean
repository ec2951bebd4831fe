/-!
# The task group (internal/junk/launcher.go)
-/
namespace Rothko

/-- A task's goroutine (launcher.go:42-45): in the task (or not yet started), returned, having sent its result, having called `wg.Done`. -/
inductive LTask (E : Type)
  | run
  | ret (r : Option E)
  | sent (r : Option E)
  | done (r : Option E)

/-- `Launch` itself: at the receive in the loop (line 49), at the cancel (52), returning `r` with the deferred calls left (36, 33), in `wg.Wait` (33), returned. (launcher.go:48-54.) -/
inductive LMain (E : Type)
  | recv
  | cancel
  | ret (r : Option E)
  | wait (r : Option E)
  | fin (r : Option E)

/-- `Launch` (launcher.go:30-55) with its goroutines. The channel has the results from `sends` that are not among the first `recvd`. -/
structure LSys (E : Type) where
  tasks : List (LTask E)
  sends : List (Option E) := []
  recvd : Nat := 0
  main : LMain E := .recv
  cancelled : Bool := false

/-- All goroutines were started; the loop of line 40 has no other effect. (launcher.go:30-46.) -/
def LSys.start (E : Type) (n : Nat) : LSys E := { tasks := List.replicate n .run }

/-- launcher.go:44: the goroutine has called `wg.Done`. -/
def LTask.isDone {E : Type} : LTask E → Bool
  | .done _ => true
  | _ => false

/-- A step. (launcher.go:30-55.) -/
inductive LStep {E : Type} : LSys E → LSys E → Prop
  /-- A task returns, at any time and with any result. -/
  | taskReturns (s : LSys E) (i : Nat) (r : Option E) (h : s.tasks[i]? = some .run) : LStep s { s with tasks := s.tasks.set i (.ret r) }
  /-- Line 43: blocks while the channel is full. -/
  | send (s : LSys E) (i : Nat) (r : Option E) (h : s.tasks[i]? = some (.ret r)) (room : s.sends.length - s.recvd < s.tasks.length) :
      LStep s { s with tasks := s.tasks.set i (.sent r), sends := s.sends ++ [r] }
  /-- Line 44. -/
  | wgDone (s : LSys E) (i : Nat) (r : Option E) (h : s.tasks[i]? = some (.sent r)) : LStep s { s with tasks := s.tasks.set i (.done r) }
  /-- The caller's context is cancelled. -/
  | parent (s : LSys E) : LStep s { s with cancelled := true }
  /-- Lines 49-50. -/
  | recvErr (s : LSys E) (e : E) (hm : s.main = .recv) (hl : s.recvd < s.tasks.length) (h : s.sends[s.recvd]? = some (some e)) : LStep s { s with recvd := s.recvd + 1, main := .ret (some e) }
  /-- Line 49, nil. -/
  | recvNil (s : LSys E) (hm : s.main = .recv) (hl : s.recvd < s.tasks.length) (h : s.sends[s.recvd]? = some none) : LStep s { s with recvd := s.recvd + 1, main := .cancel }
  /-- Line 52. -/
  | cancel (s : LSys E) (hm : s.main = .cancel) : LStep s { s with main := .recv, cancelled := true }
  /-- Line 54. -/
  | loopEnd (s : LSys E) (hm : s.main = .recv) (hl : s.recvd = s.tasks.length) : LStep s { s with main := .ret none }
  /-- Line 36. -/
  | deferCancel (s : LSys E) (r : Option E) (hm : s.main = .ret r) : LStep s { s with main := .wait r, cancelled := true }
  /-- Line 33. -/
  | waited (s : LSys E) (r : Option E) (hm : s.main = .wait r) (h : ∀ t ∈ s.tasks, t.isDone = true) : LStep s { s with main := .fin r }

/-- The executions of `Launch` with `n` tasks. (launcher.go:30-55, any schedule.) -/
inductive LReach {E : Type} (n : Nat) : LSys E → Prop
  | start : LReach n (LSys.start E n)
  | step {s s' : LSys E} (h : LReach n s) (hs : LStep s s') : LReach n s'

end Rothko
