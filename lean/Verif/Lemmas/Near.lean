import Verif.Model.Rate
import Verif.Lemmas.Ieee
/-!
# Relative errors
-/
namespace Rothko

/-- `x` is `q` up to `k` relative errors of 2^-52. -/
def Near (k : ℕ) (x q : ℚ) : Prop := 0 ≤ x ∧ 0 ≤ q ∧ q ≤ x * (1 + 1 / 2 ^ 52) ^ k ∧ x ≤ q * (1 + 1 / 2 ^ 52) ^ k

/-- Zero or not tiny. -/
def Sized (q : ℚ) : Prop := q = 0 ∨ 2 ^ (-1022 : ℤ) ≤ q

theorem grow_pos (k : ℕ) : (0 : ℚ) < (1 + 1 / 2 ^ 52) ^ k := by positivity

theorem grow_ge (k : ℕ) : (1 : ℚ) ≤ (1 + 1 / 2 ^ 52) ^ k := one_le_pow₀ (by norm_num)

theorem Near.refl {q : ℚ} (h : 0 ≤ q) : Near 0 q q := ⟨h, h, by simp, by simp⟩

theorem Near.mono {k j : ℕ} {x q : ℚ} (h : Near k x q) (hkj : k ≤ j) : Near j x q := by
  obtain ⟨h1, h2, h3, h4⟩ := h
  have hp : ((1 : ℚ) + 1 / 2 ^ 52) ^ k ≤ (1 + 1 / 2 ^ 52) ^ j := pow_le_pow_right₀ (by norm_num) hkj
  exact ⟨h1, h2, h3.trans (mul_le_mul_of_nonneg_left hp h1), h4.trans (mul_le_mul_of_nonneg_left hp h2)⟩

theorem Near.rn {k : ℕ} {x q : ℚ} (h : Near k x q) (hs : Sized x) : Near (k + 1) (rn x) q := by
  obtain ⟨h1, h2, h3, h4⟩ := h
  rcases hs with rfl | hs
  · rw [rn_zero]
    exact Near.mono ⟨h1, h2, h3, h4⟩ (by omega)
  have e := abs_le.mp (rn_rel hs)
  have a1 : x ≤ Rothko.rn x * (1 + 1 / 2 ^ 52) := by norm_num at e ⊢; linarith
  have a2 : Rothko.rn x ≤ x * (1 + 1 / 2 ^ 52) := by norm_num at e ⊢; linarith
  refine ⟨rn_nonneg h1, h2, ?_, ?_⟩
  · rw [pow_succ, mul_comm ((1 + 1 / 2 ^ 52 : ℚ) ^ k), ← mul_assoc]
    exact h3.trans (mul_le_mul_of_nonneg_right a1 (grow_pos k).le)
  · rw [pow_succ, ← mul_assoc]
    exact a2.trans (mul_le_mul_of_nonneg_right h4 (by norm_num))

theorem Near.div {a b : ℕ} {x p y q : ℚ} (hx : Near a x p) (hy : Near b y q) (hq : 0 < q) (hy0 : 0 < y) : Near (a + b) (x / y) (p / q) := by
  obtain ⟨h1, h2, h3, h4⟩ := hx
  obtain ⟨g1, g2, g3, g4⟩ := hy
  have pa := grow_pos a
  have pb := grow_pos b
  refine ⟨by positivity, by positivity, ?_, ?_⟩
  · rw [div_mul_eq_mul_div, div_le_div_iff₀ hq hy0, pow_add]
    calc p * y ≤ (x * (1 + 1 / 2 ^ 52) ^ a) * (q * (1 + 1 / 2 ^ 52) ^ b) := mul_le_mul h3 g4 g1 (by positivity)
      _ = _ := by ring
  · rw [div_mul_eq_mul_div, div_le_div_iff₀ hy0 hq, pow_add]
    calc x * q ≤ (p * (1 + 1 / 2 ^ 52) ^ a) * (y * (1 + 1 / 2 ^ 52) ^ b) := mul_le_mul h4 g3 g2 (by positivity)
      _ = _ := by ring

theorem Near.add {k : ℕ} {x p y q : ℚ} (hx : Near k x p) (hy : Near k y q) : Near k (x + y) (p + q) := by
  obtain ⟨h1, h2, h3, h4⟩ := hx
  obtain ⟨g1, g2, g3, g4⟩ := hy
  exact ⟨by linarith, by linarith, by rw [add_mul]; linarith, by rw [add_mul]; linarith⟩

theorem rnS_nonneg {q : ℚ} (h : 0 ≤ q) : rnS q = rn q := by
  unfold rnS
  rw [if_neg (not_lt.mpr h)]

theorem rn_pow (e : ℤ) (h : -1074 ≤ e) : rn (2 ^ e) = 2 ^ e := rn_double ⟨1, e, by norm_num, h, by simp⟩

theorem rn_ge_pow {q : ℚ} {e : ℤ} (he : -1074 ≤ e) (h : 2 ^ e ≤ q) : 2 ^ e ≤ rn q := by
  have := rn_mono (two_zpow_pos e).le h
  rwa [rn_pow e he] at this

theorem rn_le_pow {q : ℚ} {e : ℤ} (he : -1074 ≤ e) (h0 : 0 ≤ q) (h : q ≤ 2 ^ e) : rn q ≤ 2 ^ e := by
  have := rn_mono h0 h
  rwa [rn_pow e he] at this

theorem Sized.of_ge {q : ℚ} {e : ℤ} (he : -1022 ≤ e) (h : 2 ^ e ≤ q) : Sized q := Or.inr ((zpow_le_zpow_right₀ (by norm_num) he).trans h)

theorem Sized.nat (n : ℕ) : Sized n := by
  rcases Nat.eq_zero_or_pos n with rfl | h
  · left; simp
  · refine Sized.of_ge (e := 0) (by norm_num) ?_
    rw [zpow_zero]
    exact_mod_cast h

end Rothko
