import Verif.Props.Clock
import Verif.Props.ProcessExample
/-!
# C108: a clock that goes back
-/
namespace Rothko

/-- Three intervals of a metric; between the first and the second the clock is set back from 20 to 12. -/
def exClockChoices : List PChoice :=
  [.op (.add [97] ⟨0x4000000000000000#64, [1], 0⟩ 10), .op (.dump id 20 (fun _ => true)), .offer, .recv 0] ++ exTurns 14 ++
  [.wait, .op (.add [97] ⟨0x4008000000000000#64, [], 2⟩ 12), .op (.dump id 15 (fun _ => true)), .offer, .recv 1] ++ exTurns 14 ++
  [.wait, .op (.add [97] ⟨0x4010000000000000#64, [], 3⟩ 16), .op (.dump id 30 (fun _ => true)), .offer, .recv 0] ++ exTurns 14 ++ [.wait, .ask 2 [97] (some (100, fun _ _ => .more))] ++ exTurns 10

/-- What was observed and dumped. -/
def exClockOps : List POp :=
  [.add [97] ⟨0x4000000000000000#64, [1], 0⟩ 10, .dump id 20 (fun _ => true), .add [97] ⟨0x4008000000000000#64, [], 2⟩ 12, .dump id 15 (fun _ => true), .add [97] ⟨0x4010000000000000#64, [], 3⟩ 16, .dump id 30 (fun _ => true)]

/-- What was returned: of writes whether they were acknowledged, of queries the times of the values. -/
def exClockSeen (s : Proc) : List (Nat × Option Bool × List (Int64 × Int64)) :=
  s.sys.log.map (fun e => match e.2.2.2 with
    | .write .written => (e.1, some true, [])
    | .write .notWritten => (e.1, some false, [])
    | .query vs none => (e.1, none, vs.map (fun v => (v.start, v.stop)))
    | _ => (e.1, none, []))

set_option maxRecDepth 100000 in
set_option synthInstance.maxSize 2000 in
set_option synthInstance.maxHeartbeats 200000 in
theorem exClock_end : ((Proc.init exProc (freshFs (fun _ => false) (fun _ _ => false))).follow exProc exClockChoices).map (fun s => (exClockSeen s, s.dumping)) =
    some ([(0, some true, []), (1, some false, []), (0, some true, []), (2, none, [(15, 30), (10, 20)])], false) := by decide +kernel

theorem exClock_ok : LifeOk exProc 1 exClockOps := by
  obtain ⟨f1, _, _, f4⟩ := C70_example_hyps
  refine ⟨by decide, by decide, rfl, f4, f1, ?_, by decide⟩
  intro op hop
  simp only [exClockOps, List.mem_cons, List.not_mem_nil, or_false] at hop
  rcases hop with rfl | rfl | rfl | rfl | rfl | rfl
  · exact Nat.le_refl _
  · exact fun l => List.Perm.refl l
  · exact Nat.zero_le _
  · exact fun l => List.Perm.refl l
  · exact Nat.zero_le _
  · exact fun l => List.Perm.refl l

set_option maxRecDepth 100000 in
/-- The hypotheses of C108 are met by a process whose clock goes back. There are three intervals, of which the second ends before the first: its write is reported as not written, and a query shows the other two. -/
theorem C108_example : LifeOk exProc 1 exClockOps ∧ ¬ (dumpTimes exClockOps).Pairwise (· < ·) ∧ ((exClockOps.foldl PSpec.step {}).kept [97]).map (·.stop) = [30, 15, 20] ∧ (forward ((exClockOps.foldl PSpec.step {}).kept [97])).map (·.stop) = [30, 20] ∧
    ∃ s, Proc.Reach exProc (freshFs (fun _ => false) (fun _ _ => false)) exClockOps s ∧ s.dumping = false ∧ exClockSeen s = [(0, some true, []), (1, some false, []), (0, some true, []), (2, none, [(15, 30), (10, 20)])] := by
  refine ⟨exClock_ok, by decide, by decide +kernel, by decide +kernel, ?_⟩
  have h := exClock_end
  cases e : (Proc.init exProc (freshFs (fun _ => false) (fun _ _ => false))).follow exProc exClockChoices with
  | none => rw [e] at h; cases h
  | some s =>
    rw [e] at h
    injection h with h
    injection h with h1 h2
    have hr := follow_proc _ .start e
    rw [List.nil_append] at hr
    exact ⟨s, hr, h2, h1⟩

end Rothko
