import Verif.Model.File
/-! Helper lemmas on the head search. -/
namespace Rothko

/-- Walking forward over empty slots up to the first record (or the end) at `k`. -/
theorem headLoop_forward (has : Int → Bool) (cap : Nat) (k : Int) (hk : k ≤ cap) (fuel : Nat) (head : Int) (h0 : 0 ≤ head)
    (hlt : head < k) (hempty : ∀ n, head < n → n < k → has n = false) (hrec : k < cap → has k = true) (hf : k - head ≤ fuel) :
    headLoop has cap false fuel head = .ok (k - 1) := by
  induction fuel generalizing head with
  | zero => omega
  | succ fuel ih =>
    unfold headLoop
    simp only [Bool.false_eq_true, if_false]
    by_cases hkk : head + 1 = k
    · by_cases hc : head + 1 = cap
      · rw [if_pos hc, hkk]
      · rw [if_neg hc, if_neg (by omega), hkk, hrec (by omega)]; simp
    · rw [if_neg (by omega), if_neg (by omega), hempty (head + 1) (by omega) (by omega)]
      simp only [ne_eq, not_true_eq_false, if_false]
      exact ih (head + 1) (by omega) (by omega) (fun n h1 h2 => hempty n (by omega) h2) (by omega)

/-- Walking backward over records down to the first empty slot (or the start) below `k`. -/
theorem headLoop_backward (has : Int → Bool) (cap : Nat) (k : Int) (hk : 0 ≤ k) (fuel : Nat) (head : Int) (hcap : head < cap)
    (hge : k ≤ head) (hrec : ∀ n, k ≤ n → n < head → has n = true) (hempty : 0 < k → has (k - 1) = false) (hf : head - k + 1 ≤ fuel) :
    headLoop has cap true fuel head = .ok (k - 1) := by
  induction fuel generalizing head with
  | zero => omega
  | succ fuel ih =>
    unfold headLoop
    simp only [if_true]
    rw [if_neg (by omega)]
    by_cases hkk : head = k
    · by_cases h0 : head - 1 < 0
      · rw [if_pos h0]; congr 1; omega
      · rw [if_neg h0, hkk, hempty (by omega)]; simp
    · rw [if_neg (by omega), hrec (head - 1) (by omega) (by omega)]
      simp only [ne_eq, not_true_eq_false, if_false]
      exact ih (head - 1) (by omega) (by omega) (fun n h1 h2 => hrec n h1 (by omega)) (by omega)

theorem headLoop_total (has : Int → Bool) (cap : Nat) (orig : Bool) (fuel : Nat) (head : Int) (h0 : 0 ≤ head) (hc : head < cap)
    (hf : if orig then head + 1 ≤ fuel else cap - head ≤ fuel) :
    ∃ n, headLoop has cap orig fuel head = .ok n ∧ -1 ≤ n ∧ n ≤ cap - 1 := by
  induction fuel generalizing head with
  | zero => cases orig <;> simp at hf <;> omega
  | succ fuel ih =>
    unfold headLoop
    cases orig
    · simp only [Bool.false_eq_true, if_false] at hf ⊢
      split
      · exact ⟨_, rfl, by omega, by omega⟩
      · rw [if_neg (by omega)]
        split
        · exact ⟨_, rfl, by omega, by omega⟩
        · exact ih (head + 1) (by omega) (by omega) (by simp; omega)
    · simp only [if_true] at hf ⊢
      rw [if_neg (by omega)]
      split
      · exact ⟨_, rfl, by omega, by omega⟩
      · split
        · exact ⟨_, rfl, by omega, by omega⟩
        · exact ih (head - 1) (by omega) (by omega) (by simp; omega)

end Rothko
