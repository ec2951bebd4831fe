import Verif.Lemmas.Rows
import Verif.Props.Cdf
/-!
# C84: the colours of the heatmap's rows
-/
namespace Rothko

/-- **C84** (arithmetic). The rounding of the model is that of IEEE 754, and there is no other. -/
theorem C84_rounds (q : ℚ) (h : 0 ≤ q) (r : ℚ) : Rounds q r ↔ r = rn q := ⟨fun hr => hr.unique (rn_rounds h), fun e => e ▸ rn_rounds h⟩

/-- The row `y` of `h` rows shows value number `i` of `n`: the one at the row's share of the way, rounded down; if that is exactly a value, possibly the one before. -/
def RowShows (n h y i : ℕ) : Prop := i < n ∧ (i = y * (n - 1) / (h - 1) ∨ ((h - 1) ∣ y * (n - 1) ∧ i + 1 = y * (n - 1) / (h - 1)))

theorem rowIndex_eq {n h y : ℕ} (h2 : 2 ≤ h) (hn : n ≤ 2 ^ 50) (hh : h ≤ 2 ^ 53) (hy : y < h) : rowIndex n h y = some ⌊rn (y * rn ((n - 1 : ℕ) / (h - 1 : ℕ)))⌋₊ := by
  unfold rowIndex
  rw [if_neg (by omega), show ((h : ℤ) - 1).toNat = h - 1 by omega, toDouble_eq (by omega), toDouble_eq (by omega), toDouble_eq (by omega)]

/-- **C84** (rows). With two rows or more, each row has an index, and it is that of a value. -/
theorem C84_range {n h y : ℕ} (h1 : 1 ≤ n) (h2 : 2 ≤ h) (hn : n ≤ 2 ^ 50) (hh : h ≤ 2 ^ 53) (hy : y < h) : ∃ i, rowIndex n h y = some i ∧ i < n := by
  refine ⟨_, rowIndex_eq h2 hn hh hy, ?_⟩
  have := floor_range (a := n - 1) (b := h - 1) (y := y) (by omega) (by omega) (by omega) (by omega)
  omega

/-- **C84** (rows). Which value a row shows. -/
theorem C84_row {n h y : ℕ} (h1 : 1 ≤ n) (h2 : 2 ≤ h) (hn : n ≤ 2 ^ 50) (hh : h ≤ 2 ^ 53) (hnh : (n - 1) * (h - 1) < 2 ^ 50) (hy : y < h) :
    ∃ i, rowIndex n h y = some i ∧ RowShows n h y i := by
  refine ⟨_, rowIndex_eq h2 hn hh hy, ?_, floor_row (by omega) (by omega) hnh⟩
  have := floor_range (a := n - 1) (b := h - 1) (y := y) (by omega) (by omega) (by omega) (by omega)
  omega

/-- **C84** (rows). Values go up with the rows. -/
theorem C84_monotone {n h y z i j : ℕ} (hi : rowIndex n h y = some i) (hj : rowIndex n h z = some j) (hyz : y ≤ z) : i ≤ j := by
  unfold rowIndex at hi hj
  split at hi
  · cases hi
  · rename_i hne
    rw [if_neg hne] at hj
    injection hi with hi
    injection hj with hj
    subst hi hj
    have h0 : 0 ≤ rn (toDouble (n - 1) / toDouble ((h : ℤ) - 1).toNat) := rn_nonneg (div_nonneg (rn_nonneg (by positivity)) (rn_nonneg (by positivity)))
    refine Nat.floor_mono (rn_mono (mul_nonneg (rn_nonneg (by positivity)) h0) (mul_le_mul_of_nonneg_right (rn_mono (by positivity) (by exact_mod_cast hyz)) h0))

/-- **C84** (rows). The lowest row shows the first value. -/
theorem C84_bottom {n h i : ℕ} (hi : rowIndex n h 0 = some i) : i = 0 := by
  unfold rowIndex at hi
  split at hi
  · cases hi
  · injection hi with hi
    subst hi
    simp [toDouble, rn_zero]

/-- The highest row need not show the last value: with the 31 values of a request that does not ask for a number, it is the one before in a heatmap of 299 rows, because `298 * (30/298)` comes out below 30. -/
theorem C84_top_refuted : ¬ ∀ h : ℕ, 2 ≤ h → h ≤ 400 → rowIndex 31 h (h - 1) = some 30 := by
  intro h
  have := h 299 (by norm_num) (by norm_num)
  revert this
  decide +kernel

/-- It does in one of 300. -/
theorem C84_top_example : rowIndex 31 300 299 = some 30 ∧ rowIndex 31 299 298 = some 29 ∧ RowShows 31 299 298 29 ∧ rowIndex 31 300 150 = some 15 ∧ rowIndex 31 300 149 = some 14 := by
  refine ⟨by decide +kernel, by decide +kernel, ⟨by norm_num, Or.inr ⟨by norm_num, by norm_num⟩⟩, by decide +kernel, by decide +kernel⟩

/-! ## Colours -/

theorem bis_grid (Q : Rat → F64) (x : F64) (n m a : ℕ) : ∃ c : ℕ, bis Q x n ((a : ℚ) / 2 ^ m) ((a + 1 : ℚ) / 2 ^ m) = (2 * c + 1 : ℚ) / 2 ^ (m + n + 1) ∧ a * 2 ^ n ≤ c ∧ c < (a + 1) * 2 ^ n := by
  induction n generalizing m a with
  | zero =>
    refine ⟨a, ?_, by omega, by omega⟩
    simp only [bis]
    rw [← add_div, div_div, ← pow_succ]
    ring_nf
  | succ n ih =>
    simp only [bis]
    have mid : ((a : ℚ) / 2 ^ m + (a + 1 : ℚ) / 2 ^ m) / 2 = (2 * a + 1 : ℚ) / 2 ^ (m + 1) := by
      rw [← add_div, div_div, ← pow_succ]
      ring_nf
    rw [mid]
    have lo : (a : ℚ) / 2 ^ m = ((2 * a : ℕ) : ℚ) / 2 ^ (m + 1) := by
      rw [pow_succ]; push_cast; field_simp
    have hi : (a + 1 : ℚ) / 2 ^ m = ((2 * a + 1 : ℕ) + 1 : ℚ) / 2 ^ (m + 1) := by
      rw [pow_succ]; push_cast; field_simp; ring
    split
    · obtain ⟨c, h2, h3, h4⟩ := ih (m + 1) (2 * a + 1)
      push_cast at h2
      rw [hi]
      push_cast
      exact ⟨c, by rw [h2, show m + 1 + n + 1 = m + (n + 1) + 1 by omega], by rw [pow_succ]; nlinarith, by rw [pow_succ]; nlinarith⟩
    · obtain ⟨c, h2, h3, h4⟩ := ih (m + 1) (2 * a)
      push_cast at h2
      rw [lo]
      push_cast
      exact ⟨c, by rw [h2, show m + 1 + n + 1 = m + (n + 1) + 1 by omega], by rw [pow_succ]; nlinarith, by rw [pow_succ]; nlinarith⟩

/-- The ranks that `CDF` gives are the 128ths. -/
theorem cdf_grid (Q : Rat → F64) (x : F64) : ∃ k : ℕ, k ≤ 128 ∧ cdfOf Q x = (k : ℚ) / 128 := by
  unfold cdfOf
  split
  · exact ⟨0, by norm_num, by norm_num⟩
  · split
    · exact ⟨128, by norm_num, by norm_num⟩
    · obtain ⟨c, h, _, h4⟩ := bis_grid Q x 6 0 0
      norm_num at h h4
      exact ⟨2 * c + 1, by omega, by rw [h]; push_cast; rfl⟩

theorem floor_div_nat {a b : ℕ} (hb : 0 < b) : ⌊(a : ℚ) / b⌋₊ = a / b := by
  have qb : (0 : ℚ) < b := by exact_mod_cast hb
  rw [Nat.floor_eq_iff (by positivity), le_div_iff₀ qb, div_lt_iff₀ qb]
  constructor
  · exact_mod_cast Nat.div_mul_le_self a b
  · have h1 := Nat.div_add_mod a b
    have h2 := Nat.mod_lt a hb
    have h3 : a < (a / b + 1) * b := by nlinarith
    exact_mod_cast h3

theorem colourIndex_grid {N k : ℕ} (hN : N ≤ 2 ^ 40) (hk : k ≤ 128) : colourIndex N ((k : ℚ) / 128) = k * (N - 1) / 128 := by
  have hb : k * (N - 1) ≤ 128 * (N - 1) := Nat.mul_le_mul_right _ hk
  unfold colourIndex
  rw [toDouble_eq (by omega), show (k : ℚ) / 128 * ((N - 1 : ℕ) : ℚ) = ((k * (N - 1) : ℕ) : ℚ) / ((128 : ℕ) : ℚ) by push_cast; ring]
  rw [rn_double, floor_div_nat (by norm_num)]
  refine ⟨k * (N - 1), -7, by omega, by norm_num, ?_⟩
  rw [div_eq_mul_inv]
  norm_num

/-- **C84** (colours). The index of the colour of a value is `⌊cdf · (N-1)⌋` of the `N` colours, always one of them, and a greater value does not have a lesser one. -/
theorem C84_shade (quant : List F64 → Rat → F64) (obs xs : List F64) {N : ℕ} (h1 : 1 ≤ N) (hN : N ≤ 2 ^ 40) (v : F64) :
    colourIndex N ((queried quant obs xs).cdf quant v).1 = ⌊((queried quant obs xs).cdf quant v).1 * (N - 1 : ℕ)⌋₊ ∧ colourIndex N ((queried quant obs xs).cdf quant v).1 < N ∧
    ∀ ys u, fLe u v = true → colourIndex N ((queried quant obs ys).cdf quant u).1 ≤ colourIndex N ((queried quant obs xs).cdf quant v).1 := by
  have hm : ∀ ys u, fLe u v = true → ((queried quant obs ys).cdf quant u).1 ≤ ((queried quant obs xs).cdf quant v).1 := fun ys u h => C48_monotone quant obs ys xs u v h
  have h0 : ∀ ys u, 0 ≤ ((queried quant obs ys).cdf quant u).1 := fun ys u => (C48_range quant obs ys u).1
  have e : ∃ k : ℕ, k ≤ 128 ∧ ((queried quant obs xs).cdf quant v).1 = (k : ℚ) / 128 := by rw [queried_cdf]; exact cdf_grid _ _
  obtain ⟨k, hk, e⟩ := e
  have hb : k * (N - 1) ≤ 128 * (N - 1) := Nat.mul_le_mul_right _ hk
  refine ⟨?_, ?_, fun ys u h => ?_⟩
  · rw [e, colourIndex_grid hN hk, show (k : ℚ) / 128 * ((N - 1 : ℕ) : ℚ) = ((k * (N - 1) : ℕ) : ℚ) / ((128 : ℕ) : ℚ) by push_cast; ring, floor_div_nat (by norm_num)]
  · rw [e, colourIndex_grid hN hk]
    omega
  · have h3 : 0 ≤ toDouble (N - 1) := rn_nonneg (by positivity)
    exact Nat.floor_mono (rn_mono (mul_nonneg (h0 ys u) h3) (mul_le_mul_of_nonneg_right (hm ys u h) h3))

theorem heatColours_spec (quant : List F64 → Rat → F64) (colors : List Color) (hc : 1 ≤ colors.length) (hN : colors.length ≤ 2 ^ 40) (data : List F64) (hd : 1 ≤ data.length) (hd' : data.length ≤ 2 ^ 50)
    {h : ℕ} (h2 : 2 ≤ h) (hh : h ≤ 2 ^ 53) (obs : List F64) (n y : ℕ) (hy : y + n ≤ h) (last : Option ℕ) (color : Color) (w : TWrap) (hw : w.Fresh quant ∧ w.obs = obs)
    (hl : ∀ i, last = some i → ∃ v, data[i]? = some v ∧ colors[colourIndex colors.length (cdfOf (quant obs) v)]? = some color) :
    ∃ rows w', heatColours quant colors data h y n last color w = some (rows, w') ∧ w'.Fresh quant ∧ w'.obs = obs ∧ rows.length = n ∧
      ∀ z, z < n → ∃ i v, rowIndex data.length h (y + z) = some i ∧ data[i]? = some v ∧ rows[z]? = colors[colourIndex colors.length (cdfOf (quant obs) v)]? := by
  induction n generalizing y last color w with
  | zero => exact ⟨[], w, rfl, hw.1, hw.2, rfl, fun z hz => absurd hz (by omega)⟩
  | succ n ih =>
    obtain ⟨i, hi, hin⟩ := C84_range hd h2 hd' hh (show y < h by omega)
    unfold heatColours
    rw [hi]
    dsimp only
    by_cases hlast : last = some i
    · rw [if_pos hlast]
      obtain ⟨rows, w', e, f, o, l, hr⟩ := ih (y + 1) (by omega) last color w hw hl
      rw [e]
      refine ⟨color :: rows, w', rfl, f, o, by simp [l], fun z hz => ?_⟩
      cases z with
      | zero =>
        obtain ⟨v, hv, hcol⟩ := hl i hlast
        exact ⟨i, v, hi, hv, hcol.symm⟩
      | succ z =>
        obtain ⟨j, v, hj, hv, hc⟩ := hr z (by omega)
        exact ⟨j, v, by rw [← hj]; congr 1; omega, hv, by simpa using hc⟩
    · rw [if_neg hlast, List.getElem?_eq_getElem hin]
      dsimp only
      obtain ⟨ec, eo, ef⟩ := cdf_fresh hw.1 data[i]
      rw [hw.2] at ec eo
      rw [ec]
      have hidx : colourIndex colors.length (cdfOf (quant obs) data[i]) < colors.length := by
        have := (C84_shade quant obs [] hc hN data[i]).2.1
        rwa [queried_cdf] at this
      rw [List.getElem?_eq_getElem hidx]
      dsimp only
      obtain ⟨rows, w', e, f, o, l, hr⟩ := ih (y + 1) (by omega) (some i) (colors[colourIndex colors.length (cdfOf (quant obs) data[i])]) (w.cdf quant data[i]).2 ⟨ef, eo⟩
        (fun j hj => by
          injection hj with hj
          subst hj
          exact ⟨data[i], List.getElem?_eq_getElem hin, List.getElem?_eq_getElem hidx⟩)
      rw [e]
      refine ⟨_ :: rows, w', rfl, f, o, by simp [l], fun z hz => ?_⟩
      cases z with
      | zero => exact ⟨i, data[i], hi, List.getElem?_eq_getElem hin, (List.getElem?_eq_getElem hidx).symm⟩
      | succ z =>
        obtain ⟨j, v, hj, hv, hc⟩ := hr z (by omega)
        exact ⟨j, v, by rw [← hj]; congr 1; omega, hv, by simpa using hc⟩

/-- **C84.** A column of a heatmap of two rows or more is drawn without a crash, and each row has the colour of a value: row `y` from below shows value number `i y` at the row's share of the way through the values, going up with the rows
from the first value; the colour's index is `⌊cdf · (N-1)⌋` for the estimated share of the newest record's observations that are below the value; if the values go up, so do the colours. Whatever was asked of the newest record before. -/
theorem C84_column (quant : List F64 → Rat → F64) (obs xs : List F64) (colors : List Color) (hc : 1 ≤ colors.length) (hN : colors.length ≤ 2 ^ 40) (data : List F64) (hd : 1 ≤ data.length) (hd' : data.length ≤ 2 ^ 50)
    {h : ℕ} (h2 : 2 ≤ h) (hh : h ≤ 2 ^ 53) (hdh : (data.length - 1) * (h - 1) < 2 ^ 50) :
    ∃ (rows : List Color) (w : TWrap) (i : ℕ → ℕ) (shade : ℕ → ℕ), columnColours quant colors data h (queried quant obs xs) = some (rows, w) ∧ rows.length = h ∧ i 0 = 0 ∧
      (∀ y, y < h → RowShows data.length h y (i y) ∧ (∀ z, z ≤ y → i z ≤ i y) ∧ shade y < colors.length ∧ rows[y]? = colors[shade y]? ∧
        ∃ v, data[i y]? = some v ∧ shade y = ⌊((queried quant obs xs).cdf quant v).1 * (colors.length - 1 : ℕ)⌋₊) ∧
      (data.Pairwise (fun a b => fLe a b = true) → ∀ y z, z ≤ y → y < h → shade z ≤ shade y) := by
  have h0 : ({ obs := obs } : TWrap).Fresh quant := by intro q v h; simp at h
  obtain ⟨f, o⟩ := cdfs_fresh quant xs _ h0
  cases colors with
  | nil => simp at hc
  | cons c cs =>
    obtain ⟨rows, w', e, _, _, l, hr⟩ := heatColours_spec quant (c :: cs) hc hN data hd hd' h2 hh obs h 0 (by omega) none c (queried quant obs xs) ⟨f, o⟩ (fun i hi => by cases hi)
    have hrow : ∀ y, ∃ i, y < h → rowIndex data.length h y = some i := fun y => by
      by_cases hy : y < h
      · obtain ⟨i, hi, _⟩ := C84_range hd h2 hd' hh hy
        exact ⟨i, fun _ => hi⟩
      · exact ⟨0, fun hy' => absurd hy' hy⟩
    obtain ⟨i, hi⟩ : ∃ i : ℕ → ℕ, ∀ y, y < h → rowIndex data.length h y = some (i y) := ⟨fun y => (hrow y).choose, fun y hy => (hrow y).choose_spec hy⟩
    have hsh : ∀ y, ∃ s, y < h → s < (c :: cs).length ∧ rows[y]? = (c :: cs)[s]? ∧ ∃ v, data[i y]? = some v ∧ s = ⌊((queried quant obs xs).cdf quant v).1 * ((c :: cs).length - 1 : ℕ)⌋₊ ∧
        s = colourIndex (c :: cs).length ((queried quant obs xs).cdf quant v).1 := fun y => by
      by_cases hy : y < h
      · obtain ⟨j, v, hj, hv, hcol⟩ := hr y hy
        rw [Nat.zero_add, hi y hy] at hj
        injection hj with hj
        subst hj
        have hs := C84_shade quant obs xs hc hN v
        refine ⟨colourIndex (c :: cs).length ((queried quant obs xs).cdf quant v).1, fun _ => ⟨hs.2.1, ?_, v, hv, hs.1, rfl⟩⟩
        rw [hcol, queried_cdf]
      · exact ⟨0, fun hy' => absurd hy' hy⟩
    refine ⟨rows, w', i, fun y => (hsh y).choose, ?_, l, C84_bottom (hi 0 (by omega)), fun y hy => ?_, fun hp y z hzy hy => ?_⟩
    · unfold columnColours
      dsimp only
      exact e
    · obtain ⟨a, b, v, c', d, _⟩ := (hsh y).choose_spec hy
      obtain ⟨j, hj, hjs⟩ := C84_row hd h2 hd' hh hdh hy
      rw [hi y hy] at hj
      injection hj with hj
      subst hj
      exact ⟨hjs, fun z hz => C84_monotone (hi z (by omega)) (hi y hy) hz, a, b, v, c', d⟩
    · obtain ⟨_, _, v, hv, _, d⟩ := (hsh y).choose_spec hy
      obtain ⟨_, _, u, hu, _, d'⟩ := (hsh z).choose_spec (by omega)
      dsimp only
      rw [d, d']
      rcases Nat.lt_or_eq_of_le (C84_monotone (hi z (by omega)) (hi y hy) hzy) with hlt | heq
      swap
      · rw [heq, hv] at hu
        injection hu with hu
        rw [hu]
      refine (C84_shade quant obs xs hc hN v).2.2 xs u ?_
      rw [List.pairwise_iff_getElem] at hp
      obtain ⟨h1, e1⟩ := List.getElem?_eq_some_iff.mp hu
      obtain ⟨h2, e2⟩ := List.getElem?_eq_some_iff.mp hv
      have := hp _ _ h1 h2 hlt
      rwa [e1, e2] at this

/-- **C84** (one row). A heatmap of one row crashes. -/
theorem C84_one_row_refuted (quant : List F64 → Rat → F64) (colors : List Color) (data : List F64) (w : TWrap) : columnColours quant colors data 1 w = none := by
  unfold columnColours
  cases colors <;> rfl

/-- **C84** (key). Row `y` of the key, from above, has the colour at its share of the way through the colours; the lowest has the first. -/
theorem C84_key (colors : List Color) (hc : 1 ≤ colors.length) (hN : colors.length ≤ 2 ^ 40) {h : ℕ} (h2 : 2 ≤ h) (hh : h ≤ 2 ^ 53) (hdh : (colors.length - 1) * (h - 1) < 2 ^ 50) :
    (∀ y, y < h → ∃ i, RowShows colors.length h (h - 1 - y) i ∧ keyColour colors h y = colors[i]?) ∧ keyColour colors h (h - 1) = colors[0]? := by
  have key : ∀ y, y < h → ∃ i, rowIndex colors.length h (h - 1 - y) = some i ∧ RowShows colors.length h (h - 1 - y) i ∧ keyColour colors h y = colors[i]? := by
    intro y hy
    obtain ⟨i, hi, hs⟩ := C84_row hc h2 (by omega) hh hdh (show h - 1 - y < h by omega)
    refine ⟨i, hi, hs, ?_⟩
    unfold keyColour
    rw [show ((h : ℤ) - 1).toNat - y = h - 1 - y by omega, hi]
  refine ⟨fun y hy => (key y hy).imp (fun i h => h.2), ?_⟩
  obtain ⟨i, hi, _, hk⟩ := key (h - 1) (by omega)
  rw [Nat.sub_self] at hi
  rw [hk, C84_bottom hi]

/-- The highest row of the key need not have the last colour. -/
theorem C84_key_top_refuted : ¬ ∀ (colors : List Color) (h : ℕ), colors.length = 256 → 2 ≤ h → h ≤ 400 → colors ≠ [] → keyColour colors h 0 = colors[255]? := by
  intro h
  have := h ((List.range 256).map (fun i => ⟨0, 0, UInt8.ofNat i⟩)) 320 (by rw [List.length_map, List.length_range]) (by norm_num) (by norm_num) (by intro h0; have := congrArg List.length h0; rw [List.length_map, List.length_range] at this; cases this)
  revert this
  decide +kernel

/-- **C84** (samples). A column asked for `n` samples has `n + 1` values: those at the ranks `0, 1/n, ..., 1`, each rounded to a double, in order and inside [0, 1]. -/
theorem C84_samples {n : ℕ} (h1 : 1 ≤ n) (hn : n < 2 ^ 53) :
    (sampleRanks n).length = n + 1 ∧ (sampleRanks n)[0]? = some (some 0) ∧ (sampleRanks n)[n]? = some (some 1) ∧
    (∀ i : ℕ, i ≤ n → ∃ r : ℚ, (sampleRanks n)[i]? = some (some r) ∧ Rounds (i / n) r ∧ 0 ≤ r ∧ r ≤ 1) ∧
    ∀ (i j : ℕ) (r s : ℚ), i ≤ j → (sampleRanks n)[i]? = some (some r) → (sampleRanks n)[j]? = some (some s) → r ≤ s := by
  have qn : (0 : ℚ) < n := by exact_mod_cast h1
  have e : sampleRanks n = (List.range (n + 1)).map (fun i => some (rn (toDouble i / toDouble n))) := by
    unfold sampleRanks
    rw [if_neg (by omega), if_neg (by omega), Int.toNat_natCast]
  have hget : ∀ i : ℕ, i ≤ n → (sampleRanks n)[i]? = some (some (rn (i / n))) := by
    intro i hi
    rw [e, List.getElem?_map, List.getElem?_range (by omega), Option.map_some, toDouble_eq (by omega), toDouble_eq hn]
  have hlen : (sampleRanks n).length = n + 1 := by rw [e, List.length_map, List.length_range]
  refine ⟨hlen, ?_, ?_, fun i hi => ?_, fun i j r s hij hr hs => ?_⟩
  · rw [hget 0 (by omega), Nat.cast_zero, zero_div, rn_zero]
  · rw [hget n (le_refl n), div_self qn.ne']
    have := rn_nat (n := 1) (by norm_num)
    rw [Nat.cast_one] at this
    rw [this]
  · have h0 : (0 : ℚ) ≤ i / n := by positivity
    refine ⟨_, hget i hi, rn_rounds h0, rn_nonneg h0, ?_⟩
    have := rn_le_nat (n := 1) h0 (by rw [Nat.cast_one, div_le_one qn]; exact_mod_cast hi) (by norm_num)
    rwa [Nat.cast_one] at this
  · have hj : j ≤ n := by
      obtain ⟨h, _⟩ := List.getElem?_eq_some_iff.mp hs
      omega
    rw [hget i (by omega)] at hr
    rw [hget j hj] at hs
    injection hr with hr
    injection hr with hr
    injection hs with hs
    injection hs with hs
    subst hr hs
    refine rn_mono (by positivity) (div_le_div_of_nonneg_right ?_ qn.le)
    exact_mod_cast hij

/-- Five rows of three values in four colours: the record has observations 1 and 2, of the values 0.5, 1.5 and 3 half are below the second. -/
theorem C84_example : ∃ w, columnColours quant2 [⟨0, 0, 0⟩, ⟨1, 0, 0⟩, ⟨2, 0, 0⟩, ⟨3, 0, 0⟩] [0x3fe0000000000000#64, 0x3ff8000000000000#64, 0x4008000000000000#64] 5
      (queried quant2 [0x3ff0000000000000#64, 0x4000000000000000#64] []) = some ([⟨0, 0, 0⟩, ⟨0, 0, 0⟩, ⟨1, 0, 0⟩, ⟨1, 0, 0⟩, ⟨3, 0, 0⟩], w) ∧
    sampleRanks 4 = [some 0, some (1 / 4), some (1 / 2), some (3 / 4), some 1] := by
  have h : (columnColours quant2 [⟨0, 0, 0⟩, ⟨1, 0, 0⟩, ⟨2, 0, 0⟩, ⟨3, 0, 0⟩] [0x3fe0000000000000#64, 0x3ff8000000000000#64, 0x4008000000000000#64] 5
      (queried quant2 [0x3ff0000000000000#64, 0x4000000000000000#64] [])).map Prod.fst = some [⟨0, 0, 0⟩, ⟨0, 0, 0⟩, ⟨1, 0, 0⟩, ⟨1, 0, 0⟩, ⟨3, 0, 0⟩] := by decide +kernel
  obtain ⟨⟨r, w⟩, h1, h2⟩ := Option.map_eq_some_iff.mp h
  exact ⟨w, by rw [h1]; dsimp only at h2; rw [h2], by decide +kernel⟩

end Rothko
