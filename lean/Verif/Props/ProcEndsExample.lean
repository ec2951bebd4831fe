import Verif.Props.ProcEnds
import Verif.Props.ProcFaultExample
import Verif.Props.EndsExample
/-!
# C119: an example
-/
namespace Rothko

/-- The process of the example of C118, after `t` choices (of which the last 12 do nothing any more). -/
def exRunTo (t : Nat) : ProcF × List PFOp := ProcF.follow exProc exErrTable ((exChoicesF.take 352).take t) (ProcF.init exProc (freshFs (fun _ => false) (fun _ _ => false)), [])

/-- What is seen of the choice `t`. -/
def exSeenAt (t : Nat) : Option PFOp := match (exChoicesF.take 352)[t]? with
  | none => none
  | some x => match (exRunTo t).1.next exProc exErrTable x with
    | none => none
    | some (_, l) => l

theorem follow_append {c : ProcCfg} {t : ErrTable} (l l' : List PFChoice) : ∀ s, ProcF.follow c t (l ++ l') s = ProcF.follow c t l' (ProcF.follow c t l s) := by
  induction l with
  | nil => intro s; rfl
  | cons x l ih =>
    intro s
    have e : ∀ m, ProcF.follow c t (x :: m) s = match s.1.next c t x with | none => ProcF.follow c t m s | some (s', o) => ProcF.follow c t m (s', s.2 ++ o.toList) := fun _ => rfl
    rw [List.cons_append, e, e]
    cases s.1.next c t x with
    | none => exact ih _
    | some y => exact ih _

theorem exRunTo_succ (t : Nat) : (exRunTo t).1.Step exProc exErrTable.errors (exSeenAt t) (exRunTo (t + 1)).1 ∨ (exSeenAt t = none ∧ (exRunTo (t + 1)).1 = (exRunTo t).1) := by
  have e : exRunTo (t + 1) = ProcF.follow exProc exErrTable ((exChoicesF.take 352)[t]?.toList) (exRunTo t) := by
    unfold exRunTo
    rw [List.take_add_one, follow_append]
  rw [e]
  unfold exSeenAt
  cases (exChoicesF.take 352)[t]? with
  | none => exact .inr ⟨rfl, rfl⟩
  | some x =>
    dsimp only [Option.toList]
    unfold ProcF.follow
    cases hx : (exRunTo t).1.next exProc exErrTable x with
    | none => exact .inr ⟨rfl, rfl⟩
    | some y =>
      obtain ⟨s', l⟩ := y
      exact .inl (nextF_proc hx)

/-- At rest, with all locks given back, the program does not go on. -/
theorem nobody_goes_on {c : ProcCfg} {e : SysErrors} {s : ProcF} (h : s.AtRest) (hp : ∀ pc ∈ s.sys.pool.pcs, pc = .idle) : ¬ ∃ s', s.GoesOn c e s' := by
  rintro ⟨s', ⟨l, hst, hl⟩, hask, hne⟩
  have nothing : ∀ y, s.sys.StepF dbCallsF e.file (dbPath c.dir) y → y.pool = s.sys.pool ∧ y.cl = s.sys.cl := fun y hy =>
    Classical.byContradiction fun hx => nobody_goes hp h.calls ⟨y, hy, hx⟩
  cases hst with
  | add m ob now => exact hl _ rfl
  | dump order now taken hd => exact hl _ rfl
  | restart h1 h2 => exact hl _ rfl
  | offer x rest ht => rw [h.todo] at ht; cases ht
  | refuse x rest ht hx => rw [h.todo] at ht; cases ht
  | drain x rest hq hx => rw [h.queue] at hq; cases hq
  | recv i x rest dir ul hi hq hx he => rw [h.queue] at hq; cases hq
  | ask i m o dir ul hi hcl ho he => exact hask ⟨i, hi, hcl, _, List.getElem?_set_self (List.getElem?_eq_some_iff.mp hcl).1⟩
  | db sys h1 h2 => exact hne ⟨rfl, rfl, rfl, rfl, (nothing sys h1).1, (nothing sys h1).2⟩
  | wrote i sys m o v h1 h2 h3 => have := h.hands _ (List.mem_of_getElem? h3); cases this
  | lost i sys m o r v h1 h2 h3 h4 => have := h.hands _ (List.mem_of_getElem? h4); cases this
  | answer i hi hp => have := h.hands _ (List.mem_of_getElem? hi); cases this
  | wait h1 h2 h3 => rw [h.dumping] at h1; cases h1

/-- The parts of a state that are to be looked at. -/
def ProcF.look (s : ProcF) : Bool × Nat × Nat × Bool × Bool × Bool := (s.dumping, s.todo.length, s.queue.length, s.hands.all (fun a => a == .free), s.sys.pool.pcs.all isIdle, s.sys.cl.all isOver)

set_option maxRecDepth 100000 in
theorem exRunTo_look : (exRunTo 3).1.dumping = true ∧ (exRunTo 351).1.look = (false, 0, 0, true, false, true) ∧ (exRunTo 352).1.look = (false, 0, 0, true, true, true) := by decide +kernel

set_option maxRecDepth 100000 in
theorem exSeenAt_last : (exSeenAt 351).isNone = true ∧ (exSeenAt 2).isSome = true := by decide +kernel

theorem over_of {s : ProcF} (h : s.sys.cl.all isOver = true) : ∀ x ∈ s.sys.cl, x = ⟨[], .out⟩ := by
  intro x hx
  have := List.all_eq_true.mp h x hx
  unfold isOver at this
  split at this
  · rfl
  · cases this

/-- The hypotheses of C119 are met by the run of the example of C118, in which the second of three dumps meets an error: a run without end that meets the condition on the scheduler, in which a dump is in progress after three steps, and in which from the
time 352 on nothing comes from the outside. -/
theorem C119_example : ∃ (σ : Nat → ProcF) (seen : Nat → Option PFOp), ProcF.Reach exProc exErrTable.errors (freshFs (fun _ => false) (fun _ _ => false)) [] (σ 0) ∧ ProcF.Run exProc exErrTable.errors σ seen ∧
    ProcF.Fair exProc exErrTable.errors σ ∧ (∀ m, ∃ dir unlink, exErrTable.errors.call m dir unlink) ∧ (σ 3).dumping = true ∧
    (∀ t, 352 ≤ t → OnlyAdds (seen t) ∧ ¬ (σ t).Asks exProc (σ (t + 1)) ∧ (σ t).AtRest) := by
  obtain ⟨l1, l2, l3⟩ := exRunTo_look
  have hlen : ∀ t, 352 ≤ t → exRunTo t = exRunTo 352 := by
    intro t ht
    have hl : (exChoicesF.take 352).length ≤ 352 := List.length_take_le _ _
    unfold exRunTo
    rw [List.take_of_length_le (by omega), List.take_of_length_le hl]
  unfold ProcF.look at l2 l3
  injection l2 with a1 l2
  injection l2 with a2 l2
  injection l2 with a3 l2
  injection l2 with a4 l2
  injection l2 with a5 a6
  injection l3 with b1 l3
  injection l3 with b2 l3
  injection l3 with b3 l3
  injection l3 with b4 l3
  injection l3 with b5 b6
  have hrest : (exRunTo 352).1.AtRest := ⟨b1, List.eq_nil_of_length_eq_zero b2, List.eq_nil_of_length_eq_zero b3, fun a ha => by have := List.all_eq_true.mp b4 a ha; simpa using this, over_of b6⟩
  have hidle : ∀ pc ∈ (exRunTo 352).1.sys.pool.pcs, pc = .idle := by
    intro pc hpc
    have := List.all_eq_true.mp b5 pc hpc
    unfold isIdle at this
    split at this
    · rfl
    · cases this
  have hlast : (exRunTo 351).1.GoesOn exProc exErrTable.errors (exRunTo 352).1 := by
    have hsame : ¬ (exRunTo 351).1.Same (exRunTo 352).1 := by
      intro hs
      rw [hs.2.2.2.2.1, a5] at b5
      cases b5
    refine ⟨?_, ?_, hsame⟩
    · rcases exRunTo_succ 351 with h | h
      · exact ⟨_, h, fun o ho => by have hx := exSeenAt_last.1; rw [ho] at hx; cases hx⟩
      · exact absurd (by rw [h.2]; exact Same.refl _) hsame
    · rintro ⟨i, _, _, x, hx⟩
      have := over_of b6 _ (List.mem_of_getElem? hx)
      cases this
  refine ⟨fun t => (exRunTo t).1, exSeenAt, .start, exRunTo_succ, fun t hg => ?_, fun m => ⟨none, false, ?_⟩, l1, fun t ht => ⟨?_, ?_, ?_⟩⟩
  · by_cases ht : t ≤ 351
    · exact ⟨351, ht, hlast⟩
    · dsimp only at hg
      rw [hlen t (by omega)] at hg
      exact absurd hg (nobody_goes_on hrest hidle)
  · show ((m == [97]) || ((none : Option DirFault).isNone && !false)) = true
    simp
  · have : (exChoicesF.take 352)[t]? = none := List.getElem?_eq_none (Nat.le_trans (List.length_take_le _ _) ht)
    unfold exSeenAt
    rw [this]
    trivial
  · dsimp only
    rw [hlen t ht, hlen (t + 1) (by omega)]
    rintro ⟨i, _, h1, x, hx⟩
    rw [h1] at hx
    cases hx
  · dsimp only
    rw [hlen t ht]; exact hrest

end Rothko
