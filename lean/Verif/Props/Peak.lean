import Verif.Props.MinusOne
import Verif.Props.LabelsScene
/-!
# The label above the bars
-/
namespace Rothko

theorem growth {j : ℕ} (hj : j ≤ 5 * 2251799813685248) : (1 + 1 / 2 ^ 52 : ℚ) ^ j ≤ 32 := by
  have half : (1 + 1 / 2 ^ 52 : ℚ) ^ 2251799813685248 ≤ 2 := by
    have b := one_add_mul_le_pow (R := ℚ) (a := -(1 / (2 ^ 52 + 1))) (by norm_num) 2251799813685248
    have e : (1 + -(1 / (2 ^ 52 + 1)) : ℚ) = (1 + 1 / 2 ^ 52)⁻¹ := by norm_num
    rw [e, inv_pow] at b
    have hpos : (0 : ℚ) < (1 + 1 / 2 ^ 52) ^ 2251799813685248 := pow_pos (by norm_num) _
    generalize (1 + 1 / 2 ^ 52 : ℚ) ^ 2251799813685248 = p at b hpos ⊢
    have : (1 / 2 : ℚ) ≤ p⁻¹ := le_trans (by norm_num) b
    rw [show (1 / 2 : ℚ) = 2⁻¹ by norm_num] at this
    exact (inv_le_inv₀ (by norm_num) hpos).mp this
  calc (1 + 1 / 2 ^ 52 : ℚ) ^ j ≤ (1 + 1 / 2 ^ 52) ^ (2251799813685248 * 5) := pow_le_pow_right₀ (by norm_num) (by omega)
    _ = ((1 + 1 / 2 ^ 52) ^ 2251799813685248) ^ 5 := pow_mul _ _ _
    _ ≤ 2 ^ 5 := pow_le_pow_left₀ (pow_nonneg (by norm_num) _) half 5
    _ = 32 := by norm_num

theorem rate_range {m : Bytes} {b : Batch} (h0 : 0 ≤ b.start.toInt) (h1 : b.start < b.stop) (h2 : obsOf m b.obs ≠ []) (h3 : (obsOf m b.obs).length < 9007199254740992) : (1 : ℚ) / 10 ^ 10 ≤ b.rate m ∧ b.rate m ≤ 10 ^ 25 := by
  have h1 := Int64.lt_iff_toInt_lt.mp h1
  have h4 := Int64.toInt_lt b.stop
  have hl : 1 ≤ (obsOf m b.obs).length := by
    cases h : obsOf m b.obs with
    | nil => exact absurd h h2
    | cons _ _ => simp
  unfold Batch.rate
  have a1 : (1 : ℚ) ≤ ((obsOf m b.obs).length : ℚ) := by exact_mod_cast hl
  have a2 : ((obsOf m b.obs).length : ℚ) ≤ 9007199254740992 := by exact_mod_cast h3.le
  have a3 : (1 : ℚ) ≤ (b.stop.toInt : ℚ) - b.start.toInt := by
    have : (b.start.toInt : ℚ) + 1 ≤ b.stop.toInt := by exact_mod_cast h1
    linarith
  have a4 : (b.stop.toInt : ℚ) - b.start.toInt ≤ 9223372036854775808 := by
    have x1 : (0 : ℚ) ≤ b.start.toInt := by exact_mod_cast h0
    have x2 : (b.stop.toInt : ℚ) ≤ 9223372036854775808 := by
      have : b.stop.toInt ≤ 9223372036854775808 := by omega
      exact_mod_cast this
    linarith
  generalize ((obsOf m b.obs).length : ℚ) = k at *
  generalize (b.stop.toInt : ℚ) - b.start.toInt = s at *
  have hs : (0 : ℚ) < s / 1000000000 := by positivity
  constructor
  · rw [le_div_iff₀ hs]
    linarith
  · rw [div_le_iff₀ hs]
    linarith

theorem mean_range {m : Bytes} {k : List Batch} (hne : k ≠ []) {lo hi : ℚ} (h : ∀ b ∈ k, lo ≤ b.rate m ∧ b.rate m ≤ hi) : lo ≤ meanRate m k ∧ meanRate m k ≤ hi := by
  have hs : lo * k.length ≤ (k.map (Batch.rate m)).sum ∧ (k.map (Batch.rate m)).sum ≤ hi * k.length := by
    clear hne
    induction k with
    | nil => simp
    | cons b k ih =>
      obtain ⟨i1, i2⟩ := ih (fun b hb => h b (List.mem_cons_of_mem _ hb))
      obtain ⟨j1, j2⟩ := h b List.mem_cons_self
      rw [List.map_cons, List.sum_cons, List.length_cons]
      push_cast
      constructor <;> linarith
  have hl : (0 : ℚ) < k.length := by
    have := List.length_pos_iff.mpr hne
    exact_mod_cast this
  unfold meanRate
  exact ⟨(le_div_iff₀ hl).mpr hs.1, (div_le_iff₀ hl).mpr hs.2⟩

/-- A computed rate is in the range that is written with two digits of exponent. -/
theorem about_range {m : Bytes} {k : List Batch} (hne : k ≠ []) (hlen : k.length < 9007199254740992)
    (hk : ∀ b ∈ k, 0 ≤ b.start.toInt ∧ b.start < b.stop ∧ obsOf m b.obs ≠ [] ∧ (obsOf m b.obs).length < 9007199254740992) {q : ℚ} (h : About (k.length + 7) (meanRate m k) q) : (10 : ℚ) ^ (-98 : ℤ) ≤ q ∧ q < 10 ^ (98 : ℤ) := by
  obtain ⟨m1, m2⟩ := mean_range (m := m) hne (fun b hb => rate_range (hk b hb).1 (hk b hb).2.1 (hk b hb).2.2.1 (hk b hb).2.2.2)
  obtain ⟨h1, h2⟩ := h
  have g := growth (j := k.length + 7) (by omega)
  have gp : (0 : ℚ) < (1 + 1 / 2 ^ 52) ^ (k.length + 7) := pow_pos (by norm_num) _
  generalize (1 + 1 / 2 ^ 52 : ℚ) ^ (k.length + 7) = p at g gp h1 h2
  generalize meanRate m k = x at *
  have l1 : x / 32 ≤ q := le_trans (div_le_div_of_nonneg_left (by linarith [show (0 : ℚ) < 1 / 10 ^ 10 by norm_num]) gp g) h1
  have l2 : q ≤ x * 32 := le_trans h2 (mul_le_mul_of_nonneg_left g (by linarith [show (0 : ℚ) < 1 / 10 ^ 10 by norm_num]))
  constructor
  · refine le_trans ?_ l1
    have : (10 : ℚ) ^ (-98 : ℤ) ≤ 1 / 10 ^ 12 := by norm_num
    linarith
  · refine lt_of_le_of_lt l2 ?_
    have : (10 : ℚ) ^ 27 < 10 ^ (98 : ℤ) := by norm_num
    linarith

/-- The intervals over a pixel are sane: they have a length and fewer than 2^53 observations of the metric, at least one. -/
def SaneRates (m : Bytes) (k : List Batch) : Prop := k.length < 9007199254740992 ∧ ∀ b ∈ k, 0 ≤ b.start.toInt ∧ b.start < b.stop ∧ b.obs.length < 9007199254740992 ∧ obsOf m b.obs ≠ []

/-- The greatest rate of the columns: it is that of a column, and about the mean rate of the intervals over each of its pixels; no pixel's is greater. -/
theorem peak_shows {e : Outside} {state : List Obs → List F64} {n : ℕ} {m : Bytes} {W : Int} {at_ : Int → List Batch} {cols : List (Col Shot)} (h : ColumnsShow e state n m W at_ cols)
    (hs : ∀ x : ℕ, (x : Int) < W → SaneRates m (at_ x)) (hne : cols ≠ []) :
    ∃ (q : ℚ) (k : Col Shot), peakOf cols (.fin 0, 0) = (.fin q, k.x) ∧ k ∈ cols ∧ ((10 : ℚ) ^ (-98 : ℤ) ≤ q ∧ q < 10 ^ (98 : ℤ)) ∧
      (∀ x : ℕ, (x : Int) < W → k.Has x → at_ x ≠ [] ∧ About ((at_ x).length + 7) (meanRate m (at_ x)) q) ∧
      ∀ x : ℕ, (x : Int) < W → at_ x ≠ [] → ∃ q', About ((at_ x).length + 7) (meanRate m (at_ x)) q' ∧ q' ≤ q := by
  have one : ∀ k ∈ cols, ∀ x : ℕ, (x : Int) < W → k.Has x → at_ x ≠ [] ∧ ∃ q, k.data.rate = .fin q ∧ 0 < q ∧ About ((at_ x).length + 7) (meanRate m (at_ x)) q := by
    intro k hk x hx hh
    have hat : at_ x ≠ [] := fun h0 => h.empty x hx h0 ⟨k, hk, hh⟩
    exact ⟨hat, h.rates x hx hat (fun b hb => ⟨((hs x hx).2 b hb).2.1, ((hs x hx).2 b hb).2.2.1⟩) (hs x hx).1 k hk hh⟩
  have first : ∀ k ∈ cols, ∃ x : ℕ, (x : Int) < W ∧ k.Has x := by
    intro k hk
    obtain ⟨a, b, c⟩ := h.inside k hk
    exact ⟨k.x.toNat, by omega, by unfold Col.Has; omega⟩
  have hr : ∀ k ∈ cols, k.data.rate = .fin (match k.data.rate with | .fin q => q | _ => 0) := by
    intro k hk
    obtain ⟨x, hx, hh⟩ := first k hk
    obtain ⟨_, q, hq, _⟩ := one k hk x hx hh
    rw [hq]
  have hpos : ∃ k ∈ cols, 0 < (match k.data.rate with | .fin q => q | _ => 0) := by
    obtain ⟨k, hk⟩ := List.exists_mem_of_ne_nil _ hne
    obtain ⟨x, hx, hh⟩ := first k hk
    obtain ⟨_, q, hq, h0, _⟩ := one k hk x hx hh
    exact ⟨k, hk, by rw [hq]; exact h0⟩
  obtain ⟨before, after, k, e1, e2, e3, e4⟩ := C85_peak cols (fun k => match k.data.rate with | .fin q => q | _ => 0) hr hpos
  have hk : k ∈ cols := by rw [e1]; simp
  have hle : ∀ k' ∈ cols, (match k'.data.rate with | .fin q => q | _ => 0) ≤ (match k.data.rate with | .fin q => q | _ => 0) := by
    intro k' hk'
    rw [e1] at hk'
    rcases List.mem_append.mp hk' with h' | h'
    · exact (e3 k' h').le
    · rcases List.mem_cons.mp h' with rfl | h'
      · exact le_refl _
      · exact e4 k' h'
  obtain ⟨x, hx, hh⟩ := first k hk
  obtain ⟨hat, q, hq, h0, hab⟩ := one k hk x hx hh
  rw [hq] at hle
  simp only [hq] at e2
  refine ⟨q, k, e2, hk, about_range hat (hs x hx).1 (fun b hb => ?_) hab, fun x' hx' hh' => ?_, fun x' hx' hne' => ?_⟩
  · obtain ⟨a1, a2, a3, a4⟩ := (hs x hx).2 b hb
    refine ⟨a1, a2, a4, lt_of_le_of_lt ?_ a3⟩
    exact obsOf_length m b.obs
  · obtain ⟨hat', q', hq', _, hab'⟩ := one k hk x' hx' hh'
    rw [hq] at hq'
    cases hq'
    exact ⟨hat', hab'⟩
  · obtain ⟨k', hk', hh', _⟩ := h.values x' hx' hne'
    obtain ⟨_, q', hq', _, hab'⟩ := one k' hk' x' hx' hh'
    have := hle k' hk'
    rw [hq'] at this
    exact ⟨q', hab', this⟩

end Rothko
