import Verif.Model.Heat
import Verif.Lemmas.Ieee
/-!
# Rows and indices
-/
namespace Rothko

theorem toDouble_eq {n : ℕ} (h : n < 2 ^ 53) : toDouble n = n := rn_nat h

/-- One division and one product: the error is below three units of the last place. -/
theorem scaled_err {a b y : ℕ} (ha : 0 < a) (hb : 0 < b) (hy : 0 < y) (hb' : b < 2 ^ 53) :
    |rn (y * rn (a / b)) - y * a / b| ≤ (y * a / b : ℚ) * 3 / 2 ^ 53 := by
  have qa : (1 : ℚ) ≤ a := by exact_mod_cast ha
  have qb : (0 : ℚ) < b := by exact_mod_cast hb
  have qy : (1 : ℚ) ≤ y := by exact_mod_cast hy
  have qb' : (b : ℚ) ≤ 2 ^ 53 := by exact_mod_cast hb'.le
  have hsmall : (2 : ℚ) ^ (-1022 : ℤ) ≤ 1 / 2 ^ 54 := by
    rw [show (1 : ℚ) / 2 ^ 54 = 2 ^ (-54 : ℤ) by norm_num]
    exact zpow_le_zpow_right₀ (by norm_num) (by norm_num)
  have hq : (1 : ℚ) / 2 ^ 53 ≤ a / b := by
    rw [div_le_div_iff₀ (by norm_num) qb]
    nlinarith
  have e1 := rn_rel (q := (a : ℚ) / b) (hsmall.trans (le_trans (by norm_num) hq))
  rw [show (y * a / b : ℚ) = y * (a / b) by ring]
  generalize (a : ℚ) / b = t at *
  have hge := abs_le.mp e1
  have hs : t / 2 ≤ rn t := by norm_num at hge hq; linarith
  generalize rn t = s at *
  have ys : (1 : ℚ) / 2 ^ 54 ≤ y * s := by
    have : s ≤ y * s := by norm_num at hq; nlinarith
    norm_num at hq ⊢; linarith
  have e2 := rn_rel (q := y * s) (hsmall.trans ys)
  generalize rn (y * s) = v at *
  have hge2 := abs_le.mp e2
  have m1 : (y : ℚ) * s ≤ y * t + y * t / 2 ^ 53 := by
    have : (y : ℚ) * (s - t) ≤ y * (t / 2 ^ 53) := mul_le_mul_of_nonneg_left hge.2 (by linarith)
    linarith [mul_div_assoc (y : ℚ) t (2 ^ 53)]
  have m2 : (y : ℚ) * t - y * t / 2 ^ 53 ≤ y * s := by
    have : (y : ℚ) * (-(t / 2 ^ 53)) ≤ y * (s - t) := mul_le_mul_of_nonneg_left hge.1 (by linarith)
    linarith [mul_div_assoc (y : ℚ) t (2 ^ 53)]
  have yt : 0 ≤ (y : ℚ) * t := by
    have : (0 : ℚ) ≤ t := by norm_num at hq; linarith
    exact mul_nonneg (by linarith) this
  generalize (y : ℚ) * t = w at *
  generalize (y : ℚ) * s = u at *
  rw [abs_le]
  norm_num at hge2 m1 m2 ⊢
  constructor <;> linarith

/-- The index is never past the last value. -/
theorem floor_range {a b y : ℕ} (hb : 0 < b) (hy : y ≤ b) (ha' : a < 2 ^ 50) (hb' : b < 2 ^ 53) : ⌊rn (y * rn (a / b))⌋₊ ≤ a := by
  have e0 : a = 0 ∨ y = 0 → ⌊rn (y * rn (a / b))⌋₊ ≤ a := by
    rintro (rfl | rfl) <;> simp [rn_zero]
  by_cases h : a = 0 ∨ y = 0
  · exact e0 h
  have ha : 0 < a := by omega
  have hy0 : 0 < y := by omega
  have e := (abs_le.mp (scaled_err ha hb hy0 hb')).2
  have qb : (0 : ℚ) < b := by exact_mod_cast hb
  have ht : (y * a / b : ℚ) ≤ a := by
    rw [div_le_iff₀ qb, mul_comm]
    exact mul_le_mul_of_nonneg_left (by exact_mod_cast hy) (by positivity)
  have qa' : (a : ℚ) ≤ 1125899906842624 := by exact_mod_cast (by omega : a ≤ 1125899906842624)
  generalize (y * a / b : ℚ) = t at *
  generalize rn (y * rn (a / b)) = v at *
  rcases le_or_gt v 0 with h0 | h0
  · rw [Nat.floor_of_nonpos h0]; omega
  rw [← Nat.lt_succ_iff, Nat.floor_lt h0.le]
  push_cast
  norm_num at e
  linarith

/-- The index is the exact quotient rounded down, or, where the quotient is an integer, possibly one less. -/
theorem floor_row {a b y : ℕ} (hb : 0 < b) (hy : y ≤ b) (hab : a * b < 2 ^ 50) :
    ⌊rn (y * rn (a / b))⌋₊ = y * a / b ∨ (b ∣ y * a ∧ ⌊rn (y * rn (a / b))⌋₊ + 1 = y * a / b) := by
  by_cases h : a = 0 ∨ y = 0
  · left
    rcases h with rfl | rfl <;> simp [rn_zero]
  have ha : 0 < a := by omega
  have hy0 : 0 < y := by omega
  have hb' : b ≤ a * b := Nat.le_mul_of_pos_left b ha
  have e := abs_le.mp (scaled_err ha hb hy0 (by omega))
  have qb : (0 : ℚ) < b := by exact_mod_cast hb
  have hta : (y * a / b : ℚ) ≤ a := by
    rw [div_le_iff₀ qb, mul_comm]
    exact mul_le_mul_of_nonneg_left (by exact_mod_cast hy) (by positivity)
  have hab' : (a * b : ℚ) < 2 ^ 50 := by exact_mod_cast hab
  have small : (a : ℚ) * 3 / 2 ^ 53 < 1 / (2 * b) := by
    rw [div_lt_div_iff₀ (by norm_num) (by linarith)]
    nlinarith
  have hdm := Nat.div_add_mod (y * a) b
  have hr : y * a % b < b := Nat.mod_lt _ hb
  have tq : (y * a / b : ℚ) = (y * a / b : ℕ) + (y * a % b : ℕ) / b := by
    rw [eq_comm, ← sub_eq_zero]
    have : ((b * (y * a / b) + y * a % b : ℕ) : ℚ) = (y * a : ℕ) := by exact_mod_cast hdm
    push_cast at this ⊢
    field_simp
    linarith
  have hr1 : ((y * a % b : ℕ) : ℚ) / b ≤ 1 - 1 / b := by
    rw [le_sub_iff_add_le, ← add_div, div_le_one qb]
    exact_mod_cast hr
  have hv0 : 0 ≤ rn (y * rn (a / b)) := rn_nonneg (mul_nonneg (by positivity) (rn_nonneg (by positivity)))
  have half : 1 / (2 * b : ℚ) = 1 / b / 2 := by field_simp
  rw [half] at small
  have hbpos : 0 < 1 / (b : ℚ) := by positivity
  have hb1 : 1 / (b : ℚ) ≤ 1 := by rw [div_le_one qb]; exact_mod_cast hb
  have he1 : (y * a / b : ℚ) * 3 / 2 ^ 53 ≤ a * 3 / 2 ^ 53 := by norm_num; linarith
  have up : rn (y * rn (a / b)) < (y * a / b : ℕ) + 1 := by linarith
  have hle : ⌊rn (y * rn (a / b))⌋₊ ≤ y * a / b := by
    rw [← Nat.lt_succ_iff, Nat.floor_lt hv0]
    push_cast at up ⊢
    linarith
  by_cases hm : y * a % b = 0
  · have hk : (y * a / b : ℕ) ≤ ⌊rn (y * rn (a / b))⌋₊ + 1 := by
      rw [← Nat.sub_le_iff_le_add, Nat.le_floor_iff hv0]
      have : ((y * a / b - 1 : ℕ) : ℚ) ≤ (y * a / b : ℕ) - 1 ∨ (y * a / b : ℕ) = 0 := by
        rcases Nat.eq_zero_or_pos (y * a / b) with h0 | h0
        · right; exact h0
        · left; rw [Nat.cast_sub h0]; push_cast; exact le_refl _
      rcases this with h1 | h1
      · rw [hm] at tq
        push_cast at tq h1 ⊢
        rw [zero_div, add_zero] at tq
        linarith [hm, e.1]
      · rw [h1]; simpa using hv0
    rcases Nat.lt_or_ge ⌊rn (y * rn (a / b))⌋₊ (y * a / b) with h1 | h1
    · exact Or.inr ⟨Nat.dvd_of_mod_eq_zero hm, by omega⟩
    · exact Or.inl (by omega)
  · left
    refine le_antisymm hle ?_
    rw [Nat.le_floor_iff hv0]
    have hm1 : 1 / (b : ℚ) ≤ (y * a % b : ℕ) / b := by
      refine div_le_div_of_nonneg_right ?_ qb.le
      exact_mod_cast (by omega : 1 ≤ y * a % b)
    linarith [e.1]

theorem floor_mono {a b y z : ℕ} (h : y ≤ z) : ⌊rn (y * rn (a / b))⌋₊ ≤ ⌊rn (z * rn (a / b))⌋₊ := by
  have h0 : (0 : ℚ) ≤ rn (a / b) := rn_nonneg (by positivity)
  refine Nat.floor_mono (rn_mono (mul_nonneg (by positivity) h0) (mul_le_mul_of_nonneg_right (by exact_mod_cast h) h0))

end Rothko
