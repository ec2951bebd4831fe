import Verif.Model.Merge
/-!
# C47: times to pixels
-/
namespace Rothko

theorem i64_bmod {x : Int} (h1 : -9223372036854775808 ≤ x) (h2 : x < 9223372036854775808) : x.bmod 18446744073709551616 = x := by
  apply Int.bmod_eq_of_le
  · omega
  · omega

theorem i64_sub {a b : Int64} (h1 : -9223372036854775808 ≤ a.toInt - b.toInt) (h2 : a.toInt - b.toInt < 9223372036854775808) : (a - b).toInt = a.toInt - b.toInt := by
  rw [Int64.toInt_sub]; exact i64_bmod h1 h2

theorem i64_add {a b : Int64} (h1 : -9223372036854775808 ≤ a.toInt + b.toInt) (h2 : a.toInt + b.toInt < 9223372036854775808) : (a + b).toInt = a.toInt + b.toInt := by
  rw [Int64.toInt_add]; exact i64_bmod h1 h2

/-- The pixel size is positive, the width is not negative, and the arithmetic does not overflow: both hold for times from 1970 to 2200 or so and pixel sizes and widths in use. -/
def PixOk (N W P T : Int64) : Prop :=
  0 < P.toInt ∧ 0 ≤ W.toInt ∧ N.toInt - T.toInt + P.toInt < 9223372036854775808 ∧ T.toInt - N.toInt + W.toInt < 9223372036854775808

/-- The pixel of a time, in integers. -/
def pixOf (N W P T : Int) : Int := max 0 (W - (N - T + P - 1).tdiv P)

theorem timeToPixel_eq {N W P T : Int64} (h : PixOk N W P T) :
    ∃ p, timeToPixel N W P T = some p ∧ p.toInt = pixOf N.toInt W.toInt P.toInt T.toInt := by
  obtain ⟨hp, hw, h1, h2⟩ := h
  have hp0 : P ≠ 0 := by rintro rfl; simp at hp
  have t1 := i64_sub (a := N) (b := T) (by omega) (by omega)
  have t2 := i64_add (a := N - T) (b := P) (by omega) (by omega)
  have one : (1 : Int64).toInt = 1 := rfl
  have t3 := i64_sub (a := N - T + P) (b := 1) (by omega) (by omega)
  have dv : ((N - T + P - 1) / P).toInt = (N - T + P - 1).toInt.tdiv P.toInt := by
    apply Int64.toInt_div_of_ne_right
    intro hc
    rw [hc] at hp
    exact absurd hp (by decide)
  have e3 : (N - T + P - 1).toInt = N.toInt - T.toInt + P.toInt - 1 := by omega
  have q1 : (N.toInt - T.toInt + P.toInt - 1).tdiv P.toInt ≤ N.toInt - T.toInt + P.toInt - 1 ∨ N.toInt - T.toInt + P.toInt - 1 < 0 := by
    by_cases hn : 0 ≤ N.toInt - T.toInt + P.toInt - 1
    · left
      rw [Int.tdiv_eq_ediv_of_nonneg hn]
      exact Int.ediv_le_self _ hn
    · right; omega
  have q2 : (N.toInt - T.toInt + P.toInt - 1).tdiv P.toInt ≤ 0 ∨ 0 ≤ N.toInt - T.toInt + P.toInt - 1 := by
    by_cases hn : 0 ≤ N.toInt - T.toInt + P.toInt - 1
    · exact Or.inr hn
    · left; simpa using Int.tdiv_le_tdiv (a := N.toInt - T.toInt + P.toInt - 1) (b := 0) hp (by omega)
  have q3 : N.toInt - T.toInt ≤ (N.toInt - T.toInt + P.toInt - 1).tdiv P.toInt ∨ 0 ≤ (N.toInt - T.toInt + P.toInt - 1).tdiv P.toInt := by
    by_cases hn : 0 ≤ N.toInt - T.toInt + P.toInt - 1
    · right; rw [Int.tdiv_eq_ediv_of_nonneg hn]; exact Int.ediv_nonneg hn (by omega)
    · left
      have := Int.natAbs_tdiv_le_natAbs (N.toInt - T.toInt + P.toInt - 1) P.toInt
      omega
  have t4 := i64_sub (a := W) (b := (N - T + P - 1) / P) (by rw [dv, e3]; have := W.toInt_lt; omega) (by rw [dv, e3]; have := W.toInt_lt; omega)
  refine ⟨if W - (N - T + P - 1) / P < 0 then 0 else W - (N - T + P - 1) / P, by simp only [timeToPixel, if_neg hp0], ?_⟩
  rw [dv, e3] at t4
  unfold pixOf
  by_cases hc : W - (N - T + P - 1) / P < 0
  · rw [if_pos hc]
    rw [Int64.lt_iff_toInt_lt] at hc
    have z : (0 : Int64).toInt = 0 := rfl
    omega
  · rw [if_neg hc]
    rw [Int64.lt_iff_toInt_lt] at hc
    have z : (0 : Int64).toInt = 0 := rfl
    omega

theorem pixOf_mono {N W P T T' : Int} (hp : 0 < P) (h : T ≤ T') : pixOf N W P T ≤ pixOf N W P T' := by
  unfold pixOf
  have := Int.tdiv_le_tdiv (a := N - T' + P - 1) (b := N - T + P - 1) hp (by omega)
  omega

theorem pixOf_range {N W P T : Int} (hp : 0 < P) (hw : 0 < W) (h : T < N) : 0 ≤ pixOf N W P T ∧ pixOf N W P T < W := by
  unfold pixOf
  have : 1 ≤ (N - T + P - 1).tdiv P := by
    rw [Int.tdiv_eq_ediv_of_nonneg (by omega)]
    rw [Int.le_ediv_iff_mul_le hp]; omega
  omega

/-- Pixel `p` starts at `N - (W - p) * P`. -/
theorem le_pixOf {N W P T p : Int} (hp : 0 < P) (h : T < N) : p ≤ pixOf N W P T ↔ (p ≤ 0 ∨ N - (W - p) * P ≤ T) := by
  unfold pixOf
  rw [Int.tdiv_eq_ediv_of_nonneg (by omega)]
  have h1 : (N - T + P - 1) / P < W - p + 1 ↔ N - T + P - 1 < (W - p + 1) * P := Int.ediv_lt_iff_lt_mul hp
  rw [Int.add_mul] at h1
  generalize (W - p) * P = Z at h1 ⊢
  omega

/-- **C47** (monotone). Later times are at least as far right. -/
theorem C47_monotone (N W P T T' p p' : Int64) (h : PixOk N W P T) (h' : PixOk N W P T') (hT : T ≤ T')
    (e : timeToPixel N W P T = some p) (e' : timeToPixel N W P T' = some p') : p ≤ p' := by
  obtain ⟨q, hq, hv⟩ := timeToPixel_eq h
  obtain ⟨q', hq', hv'⟩ := timeToPixel_eq h'
  rw [e] at hq; rw [e'] at hq'
  cases hq; cases hq'
  rw [Int64.le_iff_toInt_le] at hT ⊢
  rw [hv, hv']
  exact pixOf_mono h.1 hT

/-- **C47** (range). Times before now are in `[0, width)`. -/
theorem C47_range (N W P T : Int64) (h : PixOk N W P T) (hw : 0 < W.toInt) (hT : T < N) :
    ∃ p, timeToPixel N W P T = some p ∧ 0 ≤ p.toInt ∧ p.toInt < W.toInt := by
  obtain ⟨q, hq, hv⟩ := timeToPixel_eq h
  rw [Int64.lt_iff_toInt_lt] at hT
  exact ⟨q, hq, by rw [hv]; exact pixOf_range h.1 hw hT⟩

/-- **C47** (intervals). Pixel `p > 0` is the `P` nanoseconds from `N - (W - p) * P`; pixel 0 also has everything earlier. -/
theorem C47_interval (N W P T p : Int64) (h : PixOk N W P T) (hT : T < N) (e : timeToPixel N W P T = some p) (x : Int) (hx : 0 ≤ x) :
    p.toInt = x ↔ ((x = 0 ∨ N.toInt - (W.toInt - x) * P.toInt ≤ T.toInt) ∧ T.toInt < N.toInt - (W.toInt - x) * P.toInt + P.toInt) := by
  obtain ⟨q, hq, hv⟩ := timeToPixel_eq h
  rw [e] at hq
  cases hq
  rw [Int64.lt_iff_toInt_lt] at hT
  rw [hv]
  have a := le_pixOf (W := W.toInt) (p := x) h.1 hT
  have b := le_pixOf (W := W.toInt) (p := x + 1) h.1 hT
  have z : W.toInt - (x + 1) = W.toInt - x - 1 := by omega
  rw [z, Int.sub_mul, Int.one_mul] at b
  generalize (W.toInt - x) * P.toInt = Z at *
  omega

/-- **C47** (panics). A duration shorter than the width in nanoseconds makes the pixel size 0, and mapping any time panics. -/
theorem C47_panics (N W T D : Int64) (hw : 0 < W.toInt) (hD : 0 ≤ D.toInt) (h : D.toInt < W.toInt) :
    ∃ P, pixelSize D W = some P ∧ timeToPixel N W P T = none := by
  have hw0 : W ≠ 0 := by rintro rfl; simp at hw
  have e : (D / W).toInt = 0 := by
    rw [Int64.toInt_div_of_ne_right]
    · rw [Int.tdiv_eq_ediv_of_nonneg hD]; exact Int.ediv_eq_zero_of_lt hD h
    · intro hc; rw [hc] at hw; exact absurd hw (by decide)
  refine ⟨D / W, by simp [pixelSize, hw0], ?_⟩
  have : D / W = 0 := by apply Int64.toInt_inj.mp; rw [e]; rfl
  simp [timeToPixel, this]

theorem C47_example : PixOk 1000 10 100 350 ∧ timeToPixel 1000 10 100 350 = some 3 ∧ timeToPixel 1000 10 100 400 = some 4 ∧ timeToPixel 1000 10 100 999 = some 9 := by
  refine ⟨?_, ?_, ?_, ?_⟩
  · unfold PixOk; decide
  all_goals decide

end Rothko
