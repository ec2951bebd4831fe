import Verif.Model.Ieee
import Verif.Spec.Ieee
import Mathlib.Algebra.Order.Field.Power
import Mathlib.Tactic.Linarith
import Mathlib.Tactic.Positivity
import Mathlib.Tactic.NormNum
/-!
# Rounding
-/
namespace Rothko

theorem roundEven_err (q : ℚ) : |(roundEven q : ℚ) - q| ≤ 1 / 2 := by
  have h1 := Int.floor_le q
  have h2 := Int.lt_floor_add_one q
  unfold roundEven
  rw [abs_le]
  split_ifs <;> push_cast <;> constructor <;> linarith

theorem roundEven_int (n : ℤ) : roundEven n = n := by
  unfold roundEven
  simp

theorem roundEven_mono {p q : ℚ} (h : p ≤ q) : roundEven p ≤ roundEven q := by
  have hf : ⌊p⌋ ≤ ⌊q⌋ := Int.floor_mono h
  rcases lt_or_eq_of_le hf with hlt | heq
  · have : roundEven p ≤ ⌊p⌋ + 1 := by unfold roundEven; split_ifs <;> omega
    have : ⌊q⌋ ≤ roundEven q := by unfold roundEven; split_ifs <;> omega
    omega
  · unfold roundEven
    rw [heq]
    split_ifs <;> first | omega | (exfalso; linarith)

theorem roundEven_le {q : ℚ} {n : ℤ} (h : q ≤ n) : roundEven q ≤ n := by
  have := roundEven_mono h
  rwa [roundEven_int] at this

theorem roundEven_ge {q : ℚ} {n : ℤ} (h : (n : ℚ) ≤ q) : n ≤ roundEven q := by
  have := roundEven_mono h
  rwa [roundEven_int] at this

theorem two_zpow_pos (e : ℤ) : (0 : ℚ) < 2 ^ e := by positivity

theorem rn_zero : rn 0 = 0 := by
  unfold rn
  have : roundEven (0 / 2 ^ ulpExp 0) = 0 := by rw [zero_div]; exact_mod_cast roundEven_int 0
  rw [this]
  simp

theorem rn_nonneg {q : ℚ} (h : 0 ≤ q) : 0 ≤ rn q := by
  unfold rn
  have : (0 : ℤ) ≤ roundEven (q / 2 ^ ulpExp q) := roundEven_ge (by rw [Int.cast_zero]; positivity)
  have : (0 : ℚ) ≤ roundEven (q / 2 ^ ulpExp q) := by exact_mod_cast this
  positivity

/-- The error of one operation: half of the last digit. -/
theorem rn_err (q : ℚ) : |rn q - q| ≤ 2 ^ ulpExp q / 2 := by
  have h := roundEven_err (q / 2 ^ ulpExp q)
  have hp := two_zpow_pos (ulpExp q)
  have e : rn q - q = (roundEven (q / 2 ^ ulpExp q) - q / 2 ^ ulpExp q) * 2 ^ ulpExp q := by
    unfold rn
    rw [sub_mul, div_mul_cancel₀ _ hp.ne']
  rw [e, abs_mul, abs_of_pos hp]
  calc _ ≤ 1 / 2 * (2 : ℚ) ^ ulpExp q := mul_le_mul_of_nonneg_right h hp.le
    _ = _ := by ring

theorem ulp_bounds {q : ℚ} (h : 0 < q) : q < 2 ^ (ulpExp q + 53) ∧ (2 ^ (-1022 : ℤ) ≤ q → (2 : ℚ) ^ (ulpExp q + 52) ≤ q) := by
  have h1 := Int.lt_zpow_succ_log_self (R := ℚ) (b := 2) (by norm_num) q
  have h2 := Int.zpow_log_le_self (R := ℚ) (b := 2) (by norm_num) h
  push_cast at h1 h2
  refine ⟨lt_of_lt_of_le h1 (zpow_le_zpow_right₀ (by norm_num) (by unfold ulpExp; omega)), fun hq => ?_⟩
  have : -1022 ≤ Int.log 2 q := by
    rw [← Int.zpow_le_iff_le_log (R := ℚ) (by norm_num) h]
    exact_mod_cast hq
  unfold ulpExp
  rw [max_eq_left (by omega), sub_add_cancel]
  exact h2

/-- The relative error of one operation whose result is not tiny. -/
theorem rn_rel {q : ℚ} (h : 2 ^ (-1022 : ℤ) ≤ q) : |rn q - q| ≤ q / 2 ^ 53 := by
  have hq : 0 < q := lt_of_lt_of_le (two_zpow_pos _) h
  have h2 := (ulp_bounds hq).2 h
  refine (rn_err q).trans ?_
  rw [zpow_add₀ (by norm_num)] at h2
  norm_num at h2 ⊢
  linarith

/-- Doubles are kept. -/
theorem rn_double {d : ℚ} (h : IsDouble d) : rn d = d := by
  obtain ⟨m, e, hm, he, rfl⟩ := h
  rcases Nat.eq_zero_or_pos m with rfl | hpos
  · simp [rn_zero]
  have hd : (0 : ℚ) < m * 2 ^ e := by positivity
  have hle : ulpExp (m * 2 ^ e) ≤ e := by
    unfold ulpExp
    have : Int.log 2 ((m : ℚ) * 2 ^ e) < e + 53 := by
      rw [← Int.lt_zpow_iff_log_lt (by norm_num) hd]
      push_cast
      rw [zpow_add₀ (by norm_num), mul_comm]
      have : (m : ℚ) < 2 ^ (53 : ℤ) := by exact_mod_cast hm
      exact mul_lt_mul_of_pos_left this (two_zpow_pos e)
    omega
  obtain ⟨k, hk⟩ := Int.eq_ofNat_of_zero_le (sub_nonneg.mpr hle)
  have e1 : (m : ℚ) * 2 ^ e / 2 ^ ulpExp (m * 2 ^ e) = ((m * 2 ^ k : ℤ) : ℚ) := by
    rw [mul_div_assoc, ← zpow_sub₀ (by norm_num), hk]
    push_cast
    rfl
  unfold rn
  rw [e1, roundEven_int, ← e1, div_mul_cancel₀ _ (two_zpow_pos _).ne']

theorem isDouble_nat {n : ℕ} (h : n < 2 ^ 53) : IsDouble n := ⟨n, 0, h, by norm_num, by simp⟩

theorem rn_nat {n : ℕ} (h : n < 2 ^ 53) : rn n = n := rn_double (isDouble_nat h)

/-- The result is a double. -/
theorem rn_isDouble {q : ℚ} (h : 0 ≤ q) : IsDouble (rn q) := by
  rcases h.eq_or_lt with rfl | hq
  · rw [rn_zero]; exact ⟨0, 0, by norm_num, by norm_num, by simp⟩
  have hp := two_zpow_pos (ulpExp q)
  have h1 := (ulp_bounds hq).1
  have hle : roundEven (q / 2 ^ ulpExp q) ≤ 2 ^ 53 := by
    refine roundEven_le ?_
    rw [div_le_iff₀ hp]
    rw [zpow_add₀ (by norm_num)] at h1
    push_cast
    norm_num at h1 ⊢
    linarith
  have h0 : (0 : ℤ) ≤ roundEven (q / 2 ^ ulpExp q) := roundEven_ge (by rw [Int.cast_zero]; positivity)
  obtain ⟨m, hm⟩ := Int.eq_ofNat_of_zero_le h0
  rw [hm] at hle
  have hle : m ≤ 2 ^ 53 := by exact_mod_cast hle
  have he : -1074 ≤ ulpExp q := le_max_right _ _
  rcases Nat.lt_or_eq_of_le hle with hlt | heq
  · exact ⟨m, ulpExp q, hlt, he, by unfold rn; rw [hm]; rfl⟩
  · refine ⟨2 ^ 52, ulpExp q + 1, by norm_num, by omega, ?_⟩
    unfold rn
    rw [hm, heq, zpow_add₀ (by norm_num)]
    push_cast
    ring

/-- Rounding keeps the order. -/
theorem rn_mono {p q : ℚ} (h0 : 0 ≤ p) (h : p ≤ q) : rn p ≤ rn q := by
  rcases h0.eq_or_lt with rfl | hp
  · rw [rn_zero]; exact rn_nonneg h
  have hq := hp.trans_le h
  have hlog : Int.log 2 p ≤ Int.log 2 q := Int.log_mono_right hp h
  have hle : ulpExp p ≤ ulpExp q := by unfold ulpExp; omega
  rcases hle.eq_or_lt with heq | hlt
  · unfold rn
    rw [heq]
    have h2 := two_zpow_pos (ulpExp q)
    refine mul_le_mul_of_nonneg_right ?_ h2.le
    exact_mod_cast roundEven_mono (div_le_div_of_nonneg_right h h2.le)
  · -- a power of two is between the two
    have hu : ulpExp q = Int.log 2 q - 52 := by unfold ulpExp at hlt ⊢; omega
    have h1 : rn p ≤ 2 ^ (ulpExp p + 53) := by
      unfold rn
      have hpp := two_zpow_pos (ulpExp p)
      have hb := (ulp_bounds hp).1
      rw [zpow_add₀ (by norm_num)] at hb ⊢
      have : roundEven (p / 2 ^ ulpExp p) ≤ 2 ^ 53 := by
        refine roundEven_le ?_
        rw [div_le_iff₀ hpp]
        push_cast
        norm_num at hb ⊢
        linarith
      have : (roundEven (p / 2 ^ ulpExp p) : ℚ) ≤ 2 ^ (53 : ℤ) := by exact_mod_cast this
      rw [mul_comm]
      exact mul_le_mul_of_nonneg_left this hpp.le
    have h2 : (2 : ℚ) ^ (ulpExp p + 53) ≤ 2 ^ (ulpExp q + 52) := zpow_le_zpow_right₀ (by norm_num) (by omega)
    have h3 : (2 : ℚ) ^ (ulpExp q + 52) ≤ rn q := by
      have hb := Int.zpow_log_le_self (R := ℚ) (b := 2) (by norm_num) hq
      rw [show Int.log 2 q = ulpExp q + 52 by omega] at hb
      unfold rn
      have hpp := two_zpow_pos (ulpExp q)
      push_cast at hb
      rw [zpow_add₀ (by norm_num)] at hb ⊢
      have : 2 ^ 52 ≤ roundEven (q / 2 ^ ulpExp q) := by
        refine roundEven_ge ?_
        rw [le_div_iff₀ hpp]
        push_cast
        norm_num at hb ⊢
        linarith
      have : (2 : ℚ) ^ (52 : ℤ) ≤ (roundEven (q / 2 ^ ulpExp q) : ℚ) := by exact_mod_cast this
      rw [mul_comm]
      exact mul_le_mul_of_nonneg_right this hpp.le
    exact h1.trans (h2.trans h3)

theorem roundEven_nearest (q : ℚ) (n : ℤ) : |q - roundEven q| ≤ |q - n| := by
  have h1 := Int.floor_le q
  have h2 := Int.lt_floor_add_one q
  rcases lt_or_ge n (⌊q⌋ + 1) with h | h
  · have hn : (n : ℚ) ≤ ⌊q⌋ := by exact_mod_cast Int.lt_add_one_iff.mp h
    rw [abs_of_nonneg (a := q - n) (by linarith)]
    unfold roundEven
    rw [abs_le]
    split_ifs <;> push_cast <;> constructor <;> linarith
  · have hn : (⌊q⌋ : ℚ) + 1 ≤ n := by exact_mod_cast h
    rw [abs_of_nonpos (a := q - n) (by linarith)]
    unfold roundEven
    rw [abs_le]
    split_ifs <;> push_cast <;> constructor <;> linarith

/-- The result is a double nearest to the exact result. -/
theorem rn_nearest {q : ℚ} (h : 0 ≤ q) {d : ℚ} (hd : IsDouble d) : |q - rn q| ≤ |q - d| := by
  rcases h.eq_or_lt with rfl | hq
  · rw [rn_zero]; simp
  have hp := two_zpow_pos (ulpExp q)
  have lat : ∀ n : ℤ, |q - rn q| ≤ |q - n * 2 ^ ulpExp q| := by
    intro n
    have h1 := roundEven_nearest (q / 2 ^ ulpExp q) n
    have e : ∀ k : ℤ, |q - k * 2 ^ ulpExp q| = |q / 2 ^ ulpExp q - k| * 2 ^ ulpExp q := by
      intro k
      rw [← abs_of_pos hp, ← abs_mul, abs_of_pos hp, sub_mul, div_mul_cancel₀ _ hp.ne']
    rw [e n]
    unfold rn
    rw [e]
    exact mul_le_mul_of_nonneg_right h1 hp.le
  obtain ⟨m, e, hm, he, rfl⟩ := hd
  rcases le_or_gt (ulpExp q) e with hle | hlt
  · obtain ⟨k, hk⟩ := Int.eq_ofNat_of_zero_le (sub_nonneg.mpr hle)
    have := lat (m * 2 ^ k)
    have e1 : ((m * 2 ^ k : ℤ) : ℚ) * 2 ^ ulpExp q = m * 2 ^ e := by
      push_cast
      rw [mul_assoc, ← zpow_natCast, ← zpow_add₀ (by norm_num), show ((k : ℕ) : ℤ) + ulpExp q = e by omega]
    rwa [e1] at this
  · have hu : ulpExp q = Int.log 2 q - 52 := by unfold ulpExp at hlt ⊢; omega
    have hb := Int.zpow_log_le_self (R := ℚ) (b := 2) (by norm_num) hq
    rw [show Int.log 2 q = 52 + ulpExp q by omega] at hb
    push_cast at hb
    rw [zpow_add₀ (by norm_num)] at hb
    have l := lat (2 ^ 52)
    push_cast at l
    have hm' : (m : ℚ) * 2 ^ e ≤ 2 ^ 52 * 2 ^ ulpExp q := by
      have h1 : (2 : ℚ) ^ e ≤ 2 ^ (ulpExp q - 1) := zpow_le_zpow_right₀ (by norm_num) (by omega)
      have h2 : (m : ℚ) ≤ 2 ^ 53 := by exact_mod_cast hm.le
      have h3 : (m : ℚ) * 2 ^ e ≤ 2 ^ 53 * 2 ^ (ulpExp q - 1) := mul_le_mul h2 h1 (two_zpow_pos _).le (by norm_num)
      rw [zpow_sub₀ (by norm_num)] at h3
      norm_num at h3 ⊢
      linarith
    refine l.trans ?_
    norm_num at hb hm' ⊢
    rw [abs_of_nonneg (by linarith), abs_of_nonneg (by linarith)]
    linarith

theorem rn_le_nat {q : ℚ} {n : ℕ} (h0 : 0 ≤ q) (h : q ≤ n) (hn : n < 2 ^ 53) : rn q ≤ n := by
  have := rn_mono h0 h
  rwa [rn_nat hn] at this

/-- Between two integers that are equally near the even one is taken. -/
theorem roundEven_tie (q : ℚ) (n : ℤ) (h : |q - n| = |q - roundEven q|) (hn : n ≠ roundEven q) : 2 ∣ roundEven q ∧ |n - roundEven q| = 1 := by
  have h1 := Int.floor_le q
  have h2 := Int.lt_floor_add_one q
  have hcase : roundEven q = ⌊q⌋ ∨ roundEven q = ⌊q⌋ + 1 := by unfold roundEven; split_ifs <;> simp
  have key : q - ⌊q⌋ = 1 / 2 ∧ (n = ⌊q⌋ ∨ n = ⌊q⌋ + 1) := by
    have hne := roundEven_err q
    rw [abs_sub_comm] at hne
    rw [← h, abs_le] at hne
    have a1 : n < ⌊q⌋ + 2 := by
      have : (n : ℚ) < ⌊q⌋ + 2 := by linarith
      exact_mod_cast this
    have a2 : ⌊q⌋ - 1 < n := by
      have : (⌊q⌋ : ℚ) - 1 < n := by linarith
      exact_mod_cast this
    have hn2 : n = ⌊q⌋ ∨ n = ⌊q⌋ + 1 := by omega
    refine ⟨?_, hn2⟩
    rcases hcase with e | e <;> rcases hn2 with e2 | e2
    · omega
    · rw [e, e2, abs_of_nonneg (a := q - ⌊q⌋) (by linarith), abs_of_nonpos (by push_cast; linarith)] at h
      push_cast at h
      linarith
    · rw [e, e2, abs_of_nonneg (a := q - ⌊q⌋) (by linarith), abs_of_nonpos (by push_cast; linarith)] at h
      push_cast at h
      linarith
    · omega
  obtain ⟨hf, hn2⟩ := key
  have hr : roundEven q = if ⌊q⌋ % 2 = 0 then ⌊q⌋ else ⌊q⌋ + 1 := by
    unfold roundEven
    rw [hf, if_neg (by norm_num), if_neg (by norm_num)]
  rw [hr] at hn ⊢
  split_ifs at hn ⊢ <;> refine ⟨by omega, ?_⟩ <;> rcases hn2 with e | e <;> first | omega | (rw [e]; simp)

theorem rn_tie {q : ℚ} (h : 0 ≤ q) {d : ℚ} (hd : IsDouble d) (ht : |q - d| = |q - rn q|) (hn : d ≠ rn q) :
    ∃ (m : ℕ) (e : ℤ), rn q = m * 2 ^ e ∧ 2 ∣ m ∧ |d - rn q| = 2 ^ e := by
  rcases h.eq_or_lt with rfl | hq
  · rw [rn_zero] at ht hn
    simp at ht
    exact absurd ht hn
  have hp := two_zpow_pos (ulpExp q)
  have e : ∀ k : ℤ, |q - k * 2 ^ ulpExp q| = |q / 2 ^ ulpExp q - k| * 2 ^ ulpExp q := by
    intro k
    rw [← abs_of_pos hp, ← abs_mul, abs_of_pos hp, sub_mul, div_mul_cancel₀ _ hp.ne']
  have lat : ∀ n : ℤ, d = n * 2 ^ ulpExp q → ∃ (m : ℕ) (e : ℤ), rn q = m * 2 ^ e ∧ 2 ∣ m ∧ |d - rn q| = 2 ^ e := by
    intro n hdn
    subst hdn
    have h1 : |q / 2 ^ ulpExp q - n| = |q / 2 ^ ulpExp q - roundEven (q / 2 ^ ulpExp q)| := by
      unfold rn at ht
      rw [e, e] at ht
      exact mul_right_cancel₀ hp.ne' ht
    have h2 : n ≠ roundEven (q / 2 ^ ulpExp q) := by
      rintro rfl
      exact hn rfl
    obtain ⟨h3, h4⟩ := roundEven_tie _ _ h1 h2
    have h0 : (0 : ℤ) ≤ roundEven (q / 2 ^ ulpExp q) := roundEven_ge (by rw [Int.cast_zero]; positivity)
    obtain ⟨m, hm⟩ := Int.eq_ofNat_of_zero_le h0
    refine ⟨m, ulpExp q, by unfold rn; rw [hm]; rfl, by rw [hm] at h3; exact Int.natCast_dvd_natCast.mp h3, ?_⟩
    unfold rn
    rw [← sub_mul, abs_mul, abs_of_pos hp]
    have : |(n : ℚ) - roundEven (q / 2 ^ ulpExp q)| = 1 := by exact_mod_cast h4
    rw [this, one_mul]
  obtain ⟨m, e', hm, he, rfl⟩ := hd
  rcases le_or_gt (ulpExp q) e' with hle | hlt
  · obtain ⟨k, hk⟩ := Int.eq_ofNat_of_zero_le (sub_nonneg.mpr hle)
    refine lat (m * 2 ^ k) ?_
    push_cast
    rw [mul_assoc, ← zpow_natCast, ← zpow_add₀ (by norm_num), show ((k : ℕ) : ℤ) + ulpExp q = e' by omega]
  · exfalso
    have hu : ulpExp q = Int.log 2 q - 52 := by unfold ulpExp at hlt ⊢; omega
    have hb := Int.zpow_log_le_self (R := ℚ) (b := 2) (by norm_num) hq
    rw [show Int.log 2 q = 52 + ulpExp q by omega] at hb
    push_cast at hb
    rw [zpow_add₀ (by norm_num)] at hb
    have hm' : (m : ℚ) * 2 ^ e' < 2 ^ 52 * 2 ^ ulpExp q := by
      have h1 : (2 : ℚ) ^ e' ≤ 2 ^ (ulpExp q - 1) := zpow_le_zpow_right₀ (by norm_num) (by omega)
      have h2 : (m : ℚ) < 2 ^ 53 := by exact_mod_cast hm
      have h3 : (m : ℚ) * 2 ^ e' < 2 ^ 53 * 2 ^ (ulpExp q - 1) := mul_lt_mul h2 h1 (two_zpow_pos _) (by norm_num)
      rw [zpow_sub₀ (by norm_num)] at h3
      norm_num at h3 ⊢
      linarith
    have l := rn_nearest h (d := 2 ^ 52 * 2 ^ ulpExp q) ⟨2 ^ 52, ulpExp q, by norm_num, le_max_right _ _, by push_cast; rfl⟩
    rw [← ht] at l
    norm_num at hb hm' l
    rw [abs_of_nonneg (by linarith), abs_of_nonneg (by linarith)] at l
    linarith

/-- `rn` is rounding to the nearest double, ties to even. -/
theorem rn_rounds {q : ℚ} (h : 0 ≤ q) : Rounds q (rn q) := ⟨rn_isDouble h, fun _ hd => rn_nearest h hd, fun _ hd ht hn => rn_tie h hd ht hn⟩

/-- There is only one such double. -/
theorem Rounds.unique {q r s : ℚ} (h1 : Rounds q r) (h2 : Rounds q s) : r = s := by
  by_contra hne
  have heq : |q - r| = |q - s| := le_antisymm (h1.nearest s h2.double) (h2.nearest r h1.double)
  obtain ⟨m, e, hm, he, ha⟩ := h1.even s h2.double heq.symm (Ne.symm hne)
  obtain ⟨m', e', hm', he', ha'⟩ := h2.even r h1.double heq hne
  rw [abs_sub_comm, ha] at ha'
  have hee : e = e' := zpow_right_injective₀ (by norm_num : (0 : ℚ) < 2) (by norm_num) ha'
  subst hee
  rw [hm, hm', ← sub_mul, abs_mul, abs_of_pos (two_zpow_pos e)] at ha
  have h3 : |(m' : ℚ) - m| = 1 := by
    have := two_zpow_pos e
    exact mul_right_cancel₀ this.ne' (by rw [ha, one_mul])
  have h4 : |(m' : ℤ) - m| = 1 := by exact_mod_cast h3
  rcases abs_eq (by norm_num : (0 : ℤ) ≤ 1) |>.mp h4 with h | h <;> omega

end Rothko
