import Verif.Lemmas.Head
/-!
# C11: head recovery works from any stale hint
-/
namespace Rothko

/-- **C11.** If the stored chunks occupy exactly the slots `k .. cap-1`, head recovery returns the slot just before them, `k-1`, for every hint inside the
file (whether it points at an empty or at a used slot). -/
theorem C11_head_from_any_hint (has : Int → Bool) (cap : Nat) (k hint : Int)
    (hk0 : 0 ≤ k) (hkc : k ≤ cap) (hlayout : ∀ n : Int, 0 ≤ n → n < cap → (has n = true ↔ k ≤ n))
    (hh0 : 0 ≤ hint) (hhc : hint < cap) :
    headPointer has cap hint = .ok (k - 1) := by
  unfold headPointer
  rw [if_neg (by omega)]
  have hf : ∀ n : Int, 0 ≤ n → n < cap → n < k → has n = false := by
    intro n h0 h1 h2
    rw [Bool.eq_false_iff]; intro h; have := (hlayout n h0 h1).mp h; omega
  by_cases hlt : hint < k
  · rw [hf hint hh0 hhc hlt]
    exact headLoop_forward has cap k hkc _ _ hh0 hlt (fun n h1 h2 => hf n (by omega) (by omega) h2)
      (fun h => (hlayout k hk0 h).mpr (by omega)) (by omega)
  · rw [(hlayout hint hh0 hhc).mpr (by omega)]
    exact headLoop_backward has cap k hk0 _ _ hhc (by omega) (fun n h1 h2 => (hlayout n (by omega) (by omega)).mpr h1)
      (fun h => hf (k - 1) (by omega) (by omega) (by omega)) (by omega)

/-- **C11, termination.** Whatever the layout of the file (no assumption on which slots are used), head recovery from a hint inside the file terminates
with a slot number between -1 and cap-1. -/
theorem C11_terminates (has : Int → Bool) (cap : Nat) (hint : Int) (hh0 : 0 ≤ hint) (hhc : hint < cap) :
    ∃ n, headPointer has cap hint = .ok n ∧ -1 ≤ n ∧ n ≤ cap - 1 := by
  unfold headPointer
  rw [if_neg (by omega)]
  apply headLoop_total has cap _ _ _ hh0 hhc
  split <;> omega

/-- A hint below zero means "file full" and is returned unchanged. -/
theorem C11_full_hint (has : Int → Bool) (cap : Nat) (hint : Int) (h : hint < 0) : headPointer has cap hint = .ok hint := by
  unfold headPointer; rw [if_pos h]

/-- The hypothesis `hint < cap` is needed: with a hint at or beyond the capacity the search never ends (slots outside the file are
never used, so the walk goes forward for ever), however long it runs. -/
theorem C11_hint_outside_diverges (has : Int → Bool) (cap : Nat) (hint : Int) (hhc : cap ≤ hint)
    (hout : ∀ n : Int, cap ≤ n → has n = false) (fuel : Nat) :
    headLoop has cap (has hint) fuel hint = .diverges := by
  rw [hout hint hhc]
  induction fuel generalizing hint with
  | zero => rfl
  | succ fuel ih =>
    unfold headLoop
    simp only [Bool.false_eq_true, if_false]
    rw [if_neg (by omega), if_neg (by omega), hout (hint + 1) (by omega)]
    simp only [ne_eq, not_true_eq_false, if_false]
    exact ih (hint + 1) (by omega)

/-- Non-vacuity: slots 3 and 4 of a five slot file are used; every hint finds head 2. -/
example : ∀ hint ∈ [0, 1, 2, 3, 4], headPointer (fun n => decide (3 ≤ n ∧ n < 5)) 5 hint = .ok 2 := by decide

end Rothko
