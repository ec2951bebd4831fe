import Verif.Lemmas.Near
import Verif.Props.Pixel
/-!
# C85: observations per second
-/
namespace Rothko

/-- A record's observations per second, exactly: per original record, over the time it covers. -/
def trueRate (r : DRec) : ℚ := r.observations.toInt / r.merged.toInt / ((r.endTime.toInt - r.startTime.toInt) / 1000000000)

/-- Records as the program writes and merges them: some original records, no negative count, and an end after the start. -/
structure Timed (r : DRec) : Prop where
  merged : 1 ≤ r.merged.toInt
  count : 0 ≤ r.observations.toInt
  start : 0 ≤ r.startTime.toInt
  stop : r.startTime.toInt < r.endTime.toInt

theorem seconds_near {d : Int64} (h : 0 < d.toInt) : ∃ s, seconds d = .fin s ∧ Near 2 s (d.toInt / 1000000000) ∧ 2 ^ (-31 : ℤ) ≤ s ∧ s ≤ 2 ^ (35 : ℤ) := by
  have hlt := Int64.toInt_lt d
  have e1 : (d / 1000000000).toInt = d.toInt / 1000000000 := by
    rw [Int64.toInt_div]
    rw [show (1000000000 : Int64).toInt = 1000000000 by rfl, Int.tdiv_eq_ediv_of_nonneg h.le]
    exact i64_bmod (by omega) (by omega)
  have e2 : (d % 1000000000).toInt = d.toInt % 1000000000 := by
    rw [Int64.toInt_mod, show (1000000000 : Int64).toInt = 1000000000 by rfl, Int.tmod_eq_emod_of_nonneg h.le]
  obtain ⟨a, ha⟩ := Int.eq_ofNat_of_zero_le (show 0 ≤ d.toInt / 1000000000 by omega)
  obtain ⟨b, hb⟩ := Int.eq_ofNat_of_zero_le (show 0 ≤ d.toInt % 1000000000 by omega)
  have hd : d.toInt = a * 1000000000 + b := by omega
  have hb' : b < 1000000000 := by omega
  have ha' : a < 2 ^ 34 := by omega
  unfold seconds Num.ofInt
  rw [e1, e2, ha, hb]
  simp only [Num.div, Num.add]
  rw [if_neg (by norm_num), hd]
  have r1 : rnS ((a : ℕ) : ℤ) = a := by
    rw [rnS_nonneg (by push_cast; positivity)]
    push_cast
    exact rn_nat (by omega)
  have r2 : rnS ((b : ℕ) : ℤ) = b := by
    rw [rnS_nonneg (by push_cast; positivity)]
    push_cast
    exact rn_nat (by omega)
  rw [r1, r2]
  have hbs : Sized ((b : ℚ) / 1000000000) := by
    rcases Nat.eq_zero_or_pos b with rfl | hpos
    · left; simp
    · refine Sized.of_ge (e := -30) (by norm_num) ?_
      rw [le_div_iff₀ (by norm_num)]
      have : (1 : ℚ) ≤ b := by exact_mod_cast hpos
      refine le_trans ?_ this
      norm_num
  have n1 : Near 1 (rn ((b : ℚ) / 1000000000)) ((b : ℚ) / 1000000000) := (Near.refl (by positivity)).rn hbs
  rw [rnS_nonneg (q := (b : ℚ) / 1000000000) (by positivity)]
  have n2 := ((Near.refl (q := (a : ℚ)) (by positivity)).mono (Nat.zero_le 1)).add n1
  have hb30 : 0 < b → (2 : ℚ) ^ (-30 : ℤ) ≤ rn ((b : ℚ) / 1000000000) := by
    intro hpos
    refine rn_ge_pow (by norm_num) ?_
    rw [le_div_iff₀ (by norm_num)]
    have : (1 : ℚ) ≤ b := by exact_mod_cast hpos
    refine le_trans ?_ this
    norm_num
  have hlow : (2 : ℚ) ^ (-30 : ℤ) ≤ a + rn ((b : ℚ) / 1000000000) := by
    rcases Nat.eq_zero_or_pos b with rfl | hpos
    · have : 1 ≤ a := by omega
      have : (1 : ℚ) ≤ a := by exact_mod_cast this
      have := n1.1
      refine le_trans ?_ (show (1 : ℚ) ≤ _ by linarith)
      norm_num
    · have := hb30 hpos
      have : (0 : ℚ) ≤ a := by positivity
      linarith
  have hhigh : (a : ℚ) + rn ((b : ℚ) / 1000000000) ≤ 2 ^ (35 : ℤ) := by
    have h1 : rn ((b : ℚ) / 1000000000) ≤ 1 := by
      have := rn_le_nat (q := (b : ℚ) / 1000000000) (n := 1) (by positivity) (by rw [div_le_iff₀ (by norm_num)]; push_cast; rw [one_mul]; exact_mod_cast hb'.le) (by norm_num)
      exact_mod_cast this
    have h2 : (a : ℚ) ≤ 17179869184 := by exact_mod_cast (by omega : a ≤ 17179869184)
    norm_num
    linarith
  refine ⟨_, rfl, ?_, ?_, ?_⟩
  · rw [rnS_nonneg n2.1]
    have := n2.rn (Sized.of_ge (by norm_num) hlow)
    rw [show ((a : ℚ) + b / 1000000000) = (((a : ℤ) * 1000000000 + (b : ℤ) : ℤ) : ℚ) / 1000000000 by push_cast; field_simp] at this
    exact this
  · rw [rnS_nonneg n2.1]
    exact (zpow_le_zpow_right₀ (by norm_num) (by norm_num)).trans (rn_ge_pow (by norm_num) hlow)
  · rw [rnS_nonneg n2.1]
    exact rn_le_pow (by norm_num) n2.1 hhigh

theorem ofInt_near {n : Int64} (h : 0 ≤ n.toInt) : ∃ x, Num.ofInt n.toInt = .fin x ∧ Near 1 x n.toInt ∧ x ≤ 2 ^ (63 : ℤ) ∧ (n.toInt = 0 → x = 0) ∧ (0 < n.toInt → 1 ≤ x) := by
  have hlt := Int64.toInt_lt n
  obtain ⟨a, ha⟩ := Int.eq_ofNat_of_zero_le h
  rw [ha]
  have q0 : (0 : ℚ) ≤ ((a : ℤ) : ℚ) := by push_cast; positivity
  refine ⟨_, rfl, ?_, ?_, ?_, ?_⟩
  · rw [rnS_nonneg q0]
    refine (Near.refl q0).rn ?_
    push_cast
    exact Sized.nat a
  · rw [rnS_nonneg q0]
    refine rn_le_pow (by norm_num) q0 ?_
    have : (a : ℤ) ≤ 2 ^ 63 := by rw [← ha]; exact hlt.le
    exact_mod_cast this
  · intro h0
    have : a = 0 := by omega
    subst this
    rw [rnS_nonneg q0]
    simpa using rn_zero
  · intro h0
    rw [rnS_nonneg q0]
    have := rn_ge_pow (q := ((a : ℤ) : ℚ)) (e := 0) (by norm_num) (by rw [zpow_zero]; exact_mod_cast h0)
    rwa [zpow_zero] at this

theorem recRate_near {r : DRec} (h : Timed r) : ∃ x, recRate r = .fin x ∧ Near 6 x (trueRate r) ∧ (x = 0 ∨ 2 ^ (-98 : ℤ) ≤ x) := by
  have hs := Int64.toInt_lt r.endTime
  have hs0 := h.start
  have hst := h.stop
  have hd : (r.endTime - r.startTime).toInt = r.endTime.toInt - r.startTime.toInt := by
    rw [Int64.toInt_sub]
    exact i64_bmod (by omega) (by omega)
  obtain ⟨s, es, ns, ls, us⟩ := seconds_near (d := r.endTime - r.startTime) (by rw [hd]; omega)
  obtain ⟨o, eo, no, uo, zo, po⟩ := ofInt_near h.count
  obtain ⟨g, eg, ng, ug, _, pg⟩ := ofInt_near (n := r.merged) (by have := h.merged; omega)
  have hg1 : 1 ≤ g := pg (by have := h.merged; omega)
  have hgm : (0 : ℚ) < r.merged.toInt := by exact_mod_cast (by have := h.merged; omega : 0 < r.merged.toInt)
  have hs1 : 0 < s := (two_zpow_pos _).trans_le ls
  have hdd : (0 : ℚ) < (r.endTime - r.startTime).toInt / 1000000000 := by
    rw [hd]
    have : (0 : ℚ) < ((r.endTime.toInt - r.startTime.toInt : ℤ) : ℚ) := by exact_mod_cast (by omega : 0 < r.endTime.toInt - r.startTime.toInt)
    positivity
  unfold recRate
  rw [eo, eg, es]
  simp only [Num.div]
  rw [if_neg (by intro h0; rw [h0] at hg1; norm_num at hg1)]
  dsimp only
  rw [if_neg hs1.ne']
  have n1 := no.div ng hgm (by linarith)
  rw [rnS_nonneg n1.1]
  have tr : trueRate r = (r.observations.toInt : ℚ) / r.merged.toInt / ((r.endTime - r.startTime).toInt / 1000000000) := by
    unfold trueRate
    rw [hd]
    push_cast
    rfl
  rw [tr]
  by_cases h0 : r.observations.toInt = 0
  · rw [zo h0, h0]
    refine ⟨_, rfl, ?_, Or.inl ?_⟩ <;> simp only [zero_div, rn_zero, rnS_nonneg (le_refl (0 : ℚ)), Int.cast_zero]
    exact (Near.refl (le_refl 0)).mono (by omega)
  · have ho := po (by have := h.count; omega)
    have l1 : (2 : ℚ) ^ (-63 : ℤ) ≤ o / g := by
      rw [le_div_iff₀ (by linarith)]
      calc (2 : ℚ) ^ (-63 : ℤ) * g ≤ 2 ^ (-63 : ℤ) * 2 ^ (63 : ℤ) := mul_le_mul_of_nonneg_left ug (by positivity)
        _ = 1 := by norm_num
        _ ≤ o := ho
    have n2 := n1.rn (Sized.of_ge (by norm_num) l1)
    have l2 := rn_ge_pow (by norm_num) l1
    have n3 := n2.div ns hdd hs1
    rw [rnS_nonneg n3.1]
    have l3 : (2 : ℚ) ^ (-98 : ℤ) ≤ rn (o / g) / s := by
      rw [le_div_iff₀ hs1]
      calc (2 : ℚ) ^ (-98 : ℤ) * s ≤ 2 ^ (-98 : ℤ) * 2 ^ (35 : ℤ) := mul_le_mul_of_nonneg_left us (by positivity)
        _ = 2 ^ (-63 : ℤ) := by norm_num
        _ ≤ _ := l2
    exact ⟨_, rfl, n3.rn (Sized.of_ge (by norm_num) l3), Or.inr (rn_ge_pow (by norm_num) l3)⟩

theorem sum_near (rs : List DRec) (h : ∀ r ∈ rs, Timed r) (k : ℕ) (x q : ℚ) (hk : 6 ≤ k) (hx : Near k x q) (hx0 : x = 0 ∨ 2 ^ (-98 : ℤ) ≤ x) :
    ∃ y, rs.foldl (fun acc r => Num.add acc (recRate r)) (Num.fin x) = .fin y ∧ Near (k + rs.length) y (q + (rs.map trueRate).sum) ∧ (y = 0 ∨ 2 ^ (-98 : ℤ) ≤ y) := by
  induction rs generalizing k x q with
  | nil => exact ⟨x, rfl, by simpa using hx, hx0⟩
  | cons r rs ih =>
    obtain ⟨z, ez, nz, lz⟩ := recRate_near (h r List.mem_cons_self)
    have na := hx.add (nz.mono hk)
    have hsum : x + z = 0 ∨ 2 ^ (-98 : ℤ) ≤ x + z := by
      have := hx.1
      have := nz.1
      rcases hx0 with e | e
      · rw [e, zero_add]; exact lz
      · right; linarith
    have hs : Sized (x + z) := by
      rcases hsum with e | e
      · exact Or.inl e
      · exact Sized.of_ge (by norm_num) e
    have nr := na.rn hs
    have hl : rn (x + z) = 0 ∨ 2 ^ (-98 : ℤ) ≤ rn (x + z) := by
      rcases hsum with e | e
      · left; rw [e, rn_zero]
      · right; exact rn_ge_pow (by norm_num) e
    obtain ⟨y, ey, ny, ly⟩ := ih (fun r hr => h r (List.mem_cons_of_mem _ hr)) (k + 1) (rn (x + z)) (q + trueRate r) (by omega) nr hl
    refine ⟨y, ?_, ?_, ly⟩
    · rw [List.foldl_cons, ez]
      simp only [Num.add]
      rw [rnS_nonneg na.1]
      exact ey
    · rw [List.length_cons, List.map_cons, List.sum_cons, show k + (rs.length + 1) = k + 1 + rs.length by omega, ← add_assoc]
      exact ny

/-- **C85.** The observations per second of a column: the mean over its records of the count per original record and second, but for the rounding of `n + 7` operations, each by a part of at most 2^-52. -/
theorem C85_rate (rs : List DRec) (hne : rs ≠ []) (hlen : rs.length < 2 ^ 53) (h : ∀ r ∈ rs, Timed r) :
    ∃ x, obsRate rs = .fin x ∧ (rs.map trueRate).sum / rs.length / (1 + 1 / 2 ^ 52) ^ (rs.length + 7) ≤ x ∧ x ≤ (rs.map trueRate).sum / rs.length * (1 + 1 / 2 ^ 52) ^ (rs.length + 7) := by
  obtain ⟨y, ey, ny, ly⟩ := sum_near rs h 6 0 0 (le_refl 6) ((Near.refl (le_refl 0)).mono (by omega)) (Or.inl rfl)
  have hpos : 0 < rs.length := List.length_pos_iff.mpr hne
  have qpos : (0 : ℚ) < rs.length := by exact_mod_cast hpos
  have en : Num.ofInt (rs.length : ℤ) = .fin rs.length := by
    unfold Num.ofInt
    rw [rnS_nonneg (by push_cast; positivity)]
    push_cast
    rw [rn_nat hlen]
  rw [zero_add] at ny
  have n1 := ny.div (Near.refl qpos.le) qpos qpos
  have hs : Sized (y / rs.length) := by
    rcases ly with e | e
    · left; rw [e, zero_div]
    · refine Sized.of_ge (e := -151) (by norm_num) ?_
      rw [le_div_iff₀ qpos]
      calc (2 : ℚ) ^ (-151 : ℤ) * rs.length ≤ 2 ^ (-151 : ℤ) * 2 ^ (53 : ℤ) := mul_le_mul_of_nonneg_left (by exact_mod_cast hlen.le) (by positivity)
        _ = 2 ^ (-98 : ℤ) := by norm_num
        _ ≤ y := e
  have n2 := (n1.rn hs).mono (j := rs.length + 7) (by omega)
  refine ⟨rn (y / rs.length), ?_, ?_, ?_⟩
  · unfold obsRate
    rw [ey, en]
    simp only [Num.div]
    rw [if_neg qpos.ne', rnS_nonneg n1.1]
  · rw [div_le_iff₀ (grow_pos _)]
    exact n2.2.2.1
  · exact n2.2.2.2

/-- Records from before there was a count of merged records have 0 there: the observations per second of their columns are infinite (merge.go:87-91 takes it for 1; merger.go:205 divides by it). -/
theorem C85_merged_refuted : ∃ r : DRec, r.merged = 0 ∧ 1 ≤ r.observations.toInt ∧ 0 ≤ r.startTime.toInt ∧ r.startTime.toInt < r.endTime.toInt ∧ obsRate [r] = .inf false :=
  ⟨{ observations := 5, merged := 0, startTime := 0, endTime := 1000000000 }, rfl, by decide, by decide, by decide, by decide +kernel⟩

/-! ## The bars -/

theorem rn_abs {q : ℚ} {n : ℕ} (h0 : 0 ≤ q) (h : q ≤ n) (hn : 1 ≤ n) : |rn q - q| ≤ n / 2 ^ 53 := by
  have qn : (1 : ℚ) ≤ n := by exact_mod_cast hn
  rcases le_or_gt (2 ^ (-1022 : ℤ)) q with hs | hs
  · exact (rn_rel hs).trans (div_le_div_of_nonneg_right h (by norm_num))
  · have h1 := rn_le_pow (by norm_num) h0 hs.le
    have h2 := rn_nonneg h0
    have h3 : (2 : ℚ) ^ (-1022 : ℤ) ≤ n / 2 ^ 53 := by
      have a : (2 : ℚ) ^ (-1022 : ℤ) ≤ 2 ^ (-53 : ℤ) := zpow_le_zpow_right₀ (by norm_num) (by norm_num)
      have b : (2 : ℚ) ^ (-53 : ℤ) = 1 / 2 ^ 53 := by norm_num
      rw [b] at a
      exact a.trans (div_le_div_of_nonneg_right qn (by norm_num))
    rw [abs_le]
    constructor <;> linarith

/-- The part of 255 that a bar is dark (obs.go:93). -/
def darkness (r m : ℚ) : ℚ := rn (rn (r / m) * 255)

theorem darkness_bounds {r m : ℚ} (h0 : 0 ≤ r) (hr : r ≤ m) (hm : 0 < m) : 0 ≤ darkness r m ∧ darkness r m ≤ 255 ∧ |darkness r m - r / m * 255| ≤ 1 / 2 ^ 40 := by
  have q0 : 0 ≤ r / m := by positivity
  have q1 : r / m ≤ 1 := (div_le_one hm).mpr hr
  have e1 := rn_abs (n := 1) q0 (by exact_mod_cast q1) (le_refl 1)
  have n0 := rn_nonneg q0
  have n1 := rn_le_nat (n := 1) q0 (by exact_mod_cast q1) (by norm_num)
  rw [Nat.cast_one] at e1 n1
  unfold darkness
  generalize r / m = t at *
  generalize rn t = s at *
  have s0 : 0 ≤ s * 255 := by linarith
  have s1 : s * 255 ≤ ((255 : ℕ) : ℚ) := by push_cast; linarith
  have e2 := rn_abs s0 s1 (by norm_num)
  have m1 := rn_le_nat s0 s1 (by norm_num)
  refine ⟨rn_nonneg s0, by exact_mod_cast m1, ?_⟩
  rw [abs_le] at *
  push_cast at e2
  norm_num at e1 e2 ⊢
  constructor <;> linarith

theorem barSat_eq (junk : Num → UInt8) {r m : ℚ} (h0 : 0 ≤ r) (hr : r ≤ m) (hm : 0 < m) : barSat junk (.fin r) (.fin m) = 255 - UInt8.ofNat ⌊darkness r m⌋₊ := by
  obtain ⟨d0, d1, _⟩ := darkness_bounds h0 hr hm
  have q0 : 0 ≤ r / m := by positivity
  have n0 := rn_nonneg q0
  unfold barSat
  simp only [Num.div, Num.mul]
  rw [if_neg hm.ne']
  dsimp only
  rw [rnS_nonneg q0, rnS_nonneg (by linarith : 0 ≤ rn (r / m) * 255)]
  change (if 0 ≤ darkness r m ∧ darkness r m < 256 then 255 - UInt8.ofNat ⌊darkness r m⌋₊ else _) = _
  rw [if_pos ⟨d0, by linarith⟩]

/-- **C85** (bars). With a greatest rate `m` above 0, the bar of a rate `r` is grey, `k` of 255 parts dark: `k` is `255·r/m` rounded down (up to 2^-40), from 0 (white) for no observations up to 255 (black) for the greatest rate, and a greater rate is never lighter. -/
theorem C85_bar (junk : Num → UInt8) {r m : ℚ} (h0 : 0 ≤ r) (hr : r ≤ m) (hm : 0 < m) :
    ∃ k : ℕ, k ≤ 255 ∧ (barSat junk (.fin r) (.fin m)).toNat = 255 - k ∧ (k : ℚ) ≤ r / m * 255 + 1 / 2 ^ 40 ∧ r / m * 255 < k + 1 + 1 / 2 ^ 40 ∧ (r = m → k = 255) ∧ (r = 0 → k = 0) ∧
      ∀ r', r ≤ r' → r' ≤ m → (barSat junk (.fin r') (.fin m)).toNat ≤ 255 - k := by
  have sat : ∀ q, 0 ≤ q → q ≤ m → ⌊darkness q m⌋₊ ≤ 255 ∧ (barSat junk (.fin q) (.fin m)).toNat = 255 - ⌊darkness q m⌋₊ := by
    intro q q0 qm
    obtain ⟨d0, d1, _⟩ := darkness_bounds q0 qm hm
    have hk : ⌊darkness q m⌋₊ ≤ 255 := by
      rw [← Nat.floor_ofNat (R := ℚ) 255]
      exact Nat.floor_mono d1
    refine ⟨hk, ?_⟩
    rw [barSat_eq junk q0 qm hm]
    generalize ⌊darkness q m⌋₊ = k at hk
    rw [UInt8.toNat_sub_of_le]
    · rw [UInt8.toNat_ofNat_of_lt' (by show k < 256; omega)]
      rfl
    · rw [UInt8.le_iff_toNat_le, UInt8.toNat_ofNat_of_lt' (by show k < 256; omega)]
      exact hk
  obtain ⟨d0, d1, d2⟩ := darkness_bounds h0 hr hm
  obtain ⟨hk, hs⟩ := sat r h0 hr
  have d2 := abs_le.mp d2
  refine ⟨⌊darkness r m⌋₊, hk, hs, ?_, ?_, ?_, ?_, fun r' h1 h2 => ?_⟩
  · have := Nat.floor_le d0; linarith
  · have := Nat.lt_floor_add_one (darkness r m); linarith
  · rintro rfl
    unfold darkness
    rw [div_self hm.ne', show (1 : ℚ) = ((1 : ℕ) : ℚ) by norm_num, rn_nat (by norm_num), Nat.cast_one, one_mul, show (255 : ℚ) = ((255 : ℕ) : ℚ) by norm_num, rn_nat (by norm_num), Nat.floor_natCast]
  · rintro rfl
    unfold darkness
    rw [zero_div, rn_zero, zero_mul, rn_zero, Nat.floor_zero]
  · obtain ⟨_, hs'⟩ := sat r' (h0.trans h1) h2
    rw [hs']
    have q0 : 0 ≤ r / m := by positivity
    have : ⌊darkness r m⌋₊ ≤ ⌊darkness r' m⌋₊ := by
      unfold darkness
      exact Nat.floor_mono (rn_mono (mul_nonneg (rn_nonneg q0) (by norm_num)) (mul_le_mul_of_nonneg_right (rn_mono q0 (div_le_div_of_nonneg_right h1 hm.le)) (by norm_num)))
    omega

/-- **C85** (peak). The label is put over the first of the columns with the greatest rate. -/
theorem C85_peak (cols : List (Col Shot)) (rate : Col Shot → ℚ) (hr : ∀ c ∈ cols, c.data.rate = .fin (rate c)) (hpos : ∃ c ∈ cols, 0 < rate c) :
    ∃ (before after : List (Col Shot)) (c : Col Shot), cols = before ++ c :: after ∧ peakOf cols (.fin 0, 0) = (.fin (rate c), c.x) ∧ (∀ b ∈ before, rate b < rate c) ∧ ∀ a ∈ after, rate a ≤ rate c := by
  have key : ∀ (cols : List (Col Shot)) (a : ℚ) (x : Int), (∀ c ∈ cols, c.data.rate = .fin (rate c)) →
      (peakOf cols (.fin a, x) = (.fin a, x) ∧ ∀ c ∈ cols, rate c ≤ a) ∨
      ∃ (before after : List (Col Shot)) (c : Col Shot), cols = before ++ c :: after ∧ peakOf cols (.fin a, x) = (.fin (rate c), c.x) ∧ a < rate c ∧ (∀ b ∈ before, rate b < rate c) ∧ ∀ d ∈ after, rate d ≤ rate c := by
    intro cols
    induction cols with
    | nil => intro a x _; exact Or.inl ⟨rfl, fun c hc => by cases hc⟩
    | cons c cs ih =>
      intro a x h
      have hc := h c List.mem_cons_self
      have hcs := fun d hd => h d (List.mem_cons_of_mem _ hd)
      unfold peakOf
      rw [hc]
      simp only [Num.lt, decide_eq_true_eq]
      by_cases hlt : a < rate c
      · rw [if_pos hlt]
        rcases ih (rate c) c.x hcs with ⟨e, hle⟩ | ⟨b, d, k, e1, e2, e3, e4, e5⟩
        · exact Or.inr ⟨[], cs, c, rfl, e, hlt, (fun b hb => by cases hb), hle⟩
        · refine Or.inr ⟨c :: b, d, k, by rw [e1]; rfl, e2, hlt.trans e3, fun z hz => ?_, e5⟩
          rcases List.mem_cons.mp hz with rfl | hz
          · exact e3
          · exact e4 z hz
      · rw [if_neg hlt]
        rcases ih a x hcs with ⟨e, hle⟩ | ⟨b, d, k, e1, e2, e3, e4, e5⟩
        · refine Or.inl ⟨e, fun z hz => ?_⟩
          rcases List.mem_cons.mp hz with rfl | hz
          · exact not_lt.mp hlt
          · exact hle z hz
        · refine Or.inr ⟨c :: b, d, k, by rw [e1]; rfl, e2, e3, fun z hz => ?_, e5⟩
          rcases List.mem_cons.mp hz with rfl | hz
          · exact lt_of_le_of_lt (not_lt.mp hlt) e3
          · exact e4 z hz
  rcases key cols 0 0 hr with ⟨_, hle⟩ | ⟨b, d, k, e1, e2, _, e4, e5⟩
  · obtain ⟨c, hc, hp⟩ := hpos
    exact absurd (hle c hc) (not_le.mpr hp)
  · exact ⟨b, d, k, e1, e2, e4, e5⟩

/-- One column whose rate is infinite makes the bars of all others white. -/
theorem C85_infinite_refuted (junk : Num → UInt8) (q : ℚ) : barSat junk (.fin q) (.inf false) = 255 := by
  unfold barSat
  simp only [Num.div, Num.mul]
  rw [zero_mul, rnS_nonneg (le_refl 0), rn_zero, if_pos ⟨le_refl 0, by norm_num⟩, Nat.floor_zero]
  rfl

/-- Two records, of 6 observations in 2 seconds (from two merged ones) and of 1 in a second and a half: 13/12 observations per second. -/
theorem C85_example : (∀ r ∈ [({ observations := 6, merged := 2, startTime := 0, endTime := 2000000000 } : DRec), { observations := 1, merged := 1, startTime := 5, endTime := 1500000005 }], Timed r) ∧
    ([({ observations := 6, merged := 2, startTime := 0, endTime := 2000000000 } : DRec), { observations := 1, merged := 1, startTime := 5, endTime := 1500000005 }].map trueRate).sum / 2 = 13 / 12 ∧
    (barSat (fun _ => 0) (.fin 1) (.fin 3)).toNat = 170 := by
  refine ⟨?_, by decide +kernel, by decide +kernel⟩
  intro r hr
  rcases List.mem_cons.mp hr with rfl | hr
  · exact ⟨by decide, by decide, by decide, by decide⟩
  · rw [List.mem_singleton.mp hr]
    exact ⟨by decide, by decide, by decide, by decide⟩

end Rothko
