import Verif.Lemmas.ParseFloat
import Verif.Spec.ParseFloat
import Verif.Props.Graphite
/-!
# C116 The value of a line is the number it says
-/
namespace Rothko

/-! ## Numbers of few digits -/

theorem capExp_ge : ∀ (ds : List Nat) (e : Nat), e ≤ capExp e ds
  | [], e => Nat.le_refl e
  | d :: ds, e => by
    have h := capExp_ge ds (if e < 10000 then e * 10 + d else e)
    refine le_trans ?_ h
    split <;> omega

theorem capExp_large : ∀ (ds : List Nat) (e : Nat), 10000 ≤ e * 10 ^ ds.length + digitsValue ds → 10000 ≤ capExp e ds
  | [], e, h => by simpa [capExp, digitsValue] using h
  | d :: ds, e, h => by
    show 10000 ≤ capExp (if e < 10000 then e * 10 + d else e) ds
    by_cases he : e < 10000
    · rw [if_pos he]
      apply capExp_large ds
      rw [digitsValue_cons, List.length_cons, pow_succ] at h
      have hval : (e * 10 + d) * 10 ^ ds.length + digitsValue ds = e * (10 ^ ds.length * 10) + (d * 10 ^ ds.length + digitsValue ds) := by ring
      rw [hval]
      exact h
    · rw [if_neg he]
      have := capExp_ge ds e
      omega

/-- The number without sign and power of ten. -/
def Numeral.mantissa (n : Numeral) : ℚ := digitsValue n.whole + digitsValue n.places / 10 ^ n.places.length

theorem Numeral.mantissa_nonneg (n : Numeral) : 0 ≤ n.mantissa := by unfold Numeral.mantissa; positivity

theorem Numeral.abs_value (n : Numeral) : |n.value| = n.mantissa * 10 ^ n.power := by
  have e : n.value = signOf n.sign * (n.mantissa * 10 ^ n.power) := by unfold Numeral.value Numeral.mantissa; ring
  have h0 : 0 ≤ n.mantissa * 10 ^ n.power := mul_nonneg n.mantissa_nonneg (by positivity)
  rw [e]
  unfold signOf
  split
  · push_cast; rw [neg_one_mul, abs_neg, abs_of_nonneg h0]
  · push_cast; rw [one_mul, abs_of_nonneg h0]

theorem Numeral.mantissa_range {n : Numeral} (h : n.Ok) (hl : n.whole.length + n.places.length ≤ 9000) : n.mantissa = 0 ∨ ((10 : ℚ) ^ (-9000 : ℤ) ≤ n.mantissa ∧ n.mantissa ≤ 10 ^ (9000 : ℤ)) := by
  by_cases h0 : digitsValue n.whole = 0 ∧ digitsValue n.places = 0
  · left; unfold Numeral.mantissa; rw [h0.1, h0.2]; simp
  · right
    have hw := digitsValue_lt _ h.whole
    have hf := digitsValue_lt _ h.frac
    have hP : (0 : ℚ) < 10 ^ n.places.length := by positivity
    have hcw : (digitsValue n.whole : ℚ) + 1 ≤ 10 ^ n.whole.length := by exact_mod_cast hw
    have hcf : (digitsValue n.places : ℚ) ≤ 10 ^ n.places.length := by exact_mod_cast hf.le
    constructor
    · have h1 : 1 / 10 ^ n.places.length ≤ n.mantissa := by
        unfold Numeral.mantissa
        rw [div_le_iff₀ hP, add_mul, div_mul_cancel₀ _ hP.ne']
        have : 1 ≤ digitsValue n.whole * 10 ^ n.places.length + digitsValue n.places := by
          by_cases hx : digitsValue n.places = 0
          · have : 1 ≤ digitsValue n.whole * 10 ^ n.places.length := Nat.mul_pos (by have : digitsValue n.whole ≠ 0 := fun g => h0 ⟨g, hx⟩; omega) (by positivity)
            omega
          · omega
        exact_mod_cast this
      refine le_trans ?_ h1
      rw [zpow_neg, one_div, show (9000 : ℤ) = ((9000 : ℕ) : ℤ) from rfl, zpow_natCast]
      exact inv_anti₀ hP (pow_le_pow_right₀ (by norm_num) (by omega))
    · have h1 : n.mantissa ≤ 10 ^ n.whole.length := by
        unfold Numeral.mantissa
        have : (digitsValue n.places : ℚ) / 10 ^ n.places.length ≤ 1 := (div_le_one hP).mpr hcf
        linarith
      refine le_trans h1 ?_
      rw [show (9000 : ℤ) = ((9000 : ℕ) : ℤ) from rfl, zpow_natCast]
      exact pow_le_pow_right₀ (by norm_num) (by omega)

theorem ten_1000 : (2 : ℚ) ^ 1074 * 2 < 10 ^ 1000 := by
  have h1 := two_ten
  have h2 : (10 : ℚ) ^ 1000 = 10 ^ 900 * 10 ^ 100 := by rw [← pow_add]
  rw [h2]
  exact mul_lt_mul' h1 (by norm_num) (by norm_num) (by positivity)

/-- Tiny numbers are read as zero. -/
theorem rn_tiny {q : ℚ} (h0 : 0 ≤ q) (h : q ≤ 10 ^ (-1000 : ℤ)) : rn q = 0 := by
  obtain ⟨m, e, hm, he, hr⟩ := rn_isDouble h0
  by_contra hne
  have hm1 : 1 ≤ m := by
    by_contra hn
    have : m = 0 := by omega
    rw [this] at hr
    exact hne (by rw [hr]; simp)
  have h1 : (2 : ℚ) ^ (-1074 : ℤ) ≤ rn q := by
    rw [hr]
    calc (2 : ℚ) ^ (-1074 : ℤ) ≤ 2 ^ e := zpow_le_zpow_right₀ (by norm_num) he
      _ = 1 * 2 ^ e := by ring
      _ ≤ m * 2 ^ e := mul_le_mul_of_nonneg_right (by exact_mod_cast hm1) (by positivity)
  have h2 := rn_nearest h0 (d := 0) ⟨0, 0, by norm_num, by norm_num, by simp⟩
  rw [sub_zero, abs_of_nonneg h0, abs_le] at h2
  have h3 : (10 : ℚ) ^ (-1000 : ℤ) * 2 < 2 ^ (-1074 : ℤ) := by
    rw [zpow_neg, zpow_neg, show (1000 : ℤ) = ((1000 : ℕ) : ℤ) from rfl, zpow_natCast, show (1074 : ℤ) = ((1074 : ℕ) : ℤ) from rfl, zpow_natCast]
    rw [← div_eq_inv_mul, div_lt_iff₀ (by positivity), ← div_eq_inv_mul, lt_div_iff₀ (by positivity)]
    have := ten_1000
    generalize (2 : ℚ) ^ 1074 = A at this ⊢
    generalize (10 : ℚ) ^ 1000 = B at this ⊢
    linarith
  linarith [h2.1]

theorem tooLarge_lt : tooLarge ≤ 10 ^ (1000 : ℤ) := by
  unfold tooLarge
  rw [show (1000 : ℤ) = ((1000 : ℕ) : ℤ) from rfl, zpow_natCast]
  have h1 : (2 : ℚ) ^ 1024 ≤ 2 ^ 1074 := pow_le_pow_right₀ (by norm_num) (by norm_num)
  have h2 : (0 : ℚ) < 2 ^ 970 := by positivity
  have h3 : (0 : ℚ) < 2 ^ 1074 := by positivity
  have := ten_1000
  generalize (2 : ℚ) ^ 1074 = A at *
  generalize (2 : ℚ) ^ 1024 = A' at *
  generalize (2 : ℚ) ^ 970 = A'' at *
  generalize (10 : ℚ) ^ 1000 = B at *
  linarith

/-- The power of ten said and the one read give the same double. -/
theorem cap_rounds {n : Numeral} (h : n.Ok) (hs : n.Short) :
    (tooLarge ≤ n.mantissa * 10 ^ n.capPower ↔ tooLarge ≤ n.mantissa * 10 ^ n.power) ∧ (n.mantissa * 10 ^ n.power < tooLarge → rn (n.mantissa * 10 ^ n.capPower) = rn (n.mantissa * 10 ^ n.power)) := by
  rcases hs with hl | hs
  swap
  · rw [n.cap_eq hs]
    exact ⟨Iff.rfl, fun _ => rfl⟩
  by_cases hx : ∀ c s ds, n.exp = some (c, s, ds) → digitsValue ds < 100000
  · rw [n.cap_eq hx]
    exact ⟨Iff.rfl, fun _ => rfl⟩
  push Not at hx
  obtain ⟨c, s, ds, hx, hbig⟩ := hx
  have hcap : 10000 ≤ capExp 0 ds := capExp_large ds 0 (by omega)
  have hp1 : n.capPower = signOf s * capExp 0 ds := by unfold Numeral.capPower; rw [hx]
  have hp2 : n.power = signOf s * digitsValue ds := by unfold Numeral.power; rw [hx]
  rcases n.mantissa_range h hl with h0 | ⟨lo, hi⟩
  · rw [h0, zero_mul, zero_mul]
    exact ⟨Iff.rfl, fun _ => rfl⟩
  · have large : ∀ k : ℤ, 10000 ≤ k → tooLarge ≤ n.mantissa * 10 ^ k := fun k hk => by
      refine tooLarge_lt.trans ?_
      calc (10 : ℚ) ^ (1000 : ℤ) = 10 ^ (-9000 : ℤ) * 10 ^ (10000 : ℤ) := by rw [← zpow_add₀ (by norm_num)]; norm_num
        _ ≤ n.mantissa * 10 ^ k := mul_le_mul lo (zpow_le_zpow_right₀ (by norm_num) hk) (by positivity) n.mantissa_nonneg
    have small : ∀ k : ℤ, k ≤ -10000 → n.mantissa * 10 ^ k ≤ 10 ^ (-1000 : ℤ) := fun k hk => by
      calc n.mantissa * 10 ^ k ≤ 10 ^ (9000 : ℤ) * 10 ^ (-10000 : ℤ) := mul_le_mul hi (zpow_le_zpow_right₀ (by norm_num) hk) (by positivity) (by positivity)
        _ = 10 ^ (-1000 : ℤ) := by rw [← zpow_add₀ (by norm_num)]; norm_num
    have nn : ∀ k : ℤ, 0 ≤ n.mantissa * 10 ^ k := fun k => mul_nonneg n.mantissa_nonneg (by positivity)
    by_cases hsg : s = [45]
    · have e : signOf s = -1 := by unfold signOf; rw [if_pos hsg]
      rw [hp1, hp2, e]
      have s1 := small (-1 * capExp 0 ds) (by omega)
      have s2 := small (-1 * digitsValue ds) (by omega)
      have z1 := rn_tiny (nn _) s1
      have z2 := rn_tiny (nn _) s2
      refine ⟨?_, fun _ => by rw [z1, z2]⟩
      rw [← rn_large_iff (nn _), ← rn_large_iff (nn _), z1, z2]
    · have e : signOf s = 1 := by unfold signOf; rw [if_neg hsg]
      rw [hp1, hp2, e]
      have s1 := large (1 * capExp 0 ds) (by omega)
      have s2 := large (1 * digitsValue ds) (by omega)
      exact ⟨⟨fun _ => s2, fun _ => s1⟩, fun g => absurd s2 (by linarith)⟩

/-- What a numeral is read as. -/
theorem parseFloat_numeral {n : Numeral} (h : n.Ok) : parseFloat n.text = floatBits (decide (n.sign = [45])) (n.mantissa * 10 ^ n.capPower) := by
  obtain ⟨ds, dp, hd, hq⟩ := decimalSet_numeral h
  unfold parseFloat
  rw [special_numeral h]
  dsimp only
  rw [hd]
  dsimp only
  rw [hq]
  rfl

/-- **C116** (numbers). A number of at most 9000 digits or with an exponent below 100000 is read as the nearest double, to the even one of two, with its sign; if it is 2^1024 - 2^970 or more, it is refused. -/
theorem C116_number {n : Numeral} (h : n.Ok) (hs : n.Short) :
    (¬ TooLarge n.value → ∃ x, parseFloat n.text = some x ∧ Reads n x) ∧ (TooLarge n.value → parseFloat n.text = none) := by
  obtain ⟨c1, c2⟩ := cap_rounds h hs
  have hpf := parseFloat_numeral h
  have nn : ∀ k : ℤ, 0 ≤ n.mantissa * 10 ^ k := fun k => mul_nonneg n.mantissa_nonneg (by positivity)
  obtain ⟨f1, f2⟩ := floatBits_spec (decide (n.sign = [45])) (nn n.capPower)
  have hT : TooLarge n.value ↔ tooLarge ≤ n.mantissa * 10 ^ n.power := by
    unfold TooLarge tooLarge
    rw [n.abs_value]
  rw [hT, hpf]
  constructor
  · intro hn
    obtain ⟨x, e1, e2, e3, e4⟩ := f2 (not_le.mp (fun g => hn (c1.mp g)))
    refine ⟨x, e1, e2, by rw [e3]; simp, ?_⟩
    have : |fVal x| = magVal (fMag x) := by
      unfold fVal
      split
      · rw [abs_neg, abs_of_nonneg (magVal_nonneg _)]
      · rw [abs_of_nonneg (magVal_nonneg _)]
    rw [this, e4, c2 (not_le.mp hn), n.abs_value]
    exact rn_rounds (nn _)
  · intro hl
    exact f1 (c1.mpr hl)

theorem magVal_double (m : Nat) : IsDouble (magVal m) := by
  unfold magVal
  split
  · next h => exact ⟨m, -1074, by omega, le_refl _, rfl⟩
  · next h => exact ⟨4503599627370496 + m % 4503599627370496, (m / 4503599627370496 : ℕ) - 1075, by omega, by omega, rfl⟩

theorem abs_fVal (x : F64) : |fVal x| = magVal (fMag x) := by
  unfold fVal
  split
  · rw [abs_neg, abs_of_nonneg (magVal_nonneg _)]
  · rw [abs_of_nonneg (magVal_nonneg _)]

theorem double_rounds {d : ℚ} (h0 : 0 ≤ d) (h : IsDouble d) : Rounds d d := by
  have := rn_rounds h0
  rwa [rn_double h] at this

theorem F64_ext {x y : F64} (h1 : fMag x = fMag y) (h2 : fNeg x = fNeg y) : x = y := by
  apply BitVec.eq_of_toNat_eq
  unfold fMag at h1
  unfold fNeg at h2
  have hx := x.isLt
  have hy := y.isLt
  by_cases g : 9223372036854775808 ≤ x.toNat
  · have : 9223372036854775808 ≤ y.toNat := by simpa [g] using h2
    omega
  · have : ¬ 9223372036854775808 ≤ y.toNat := by simpa [g] using h2
    omega

/-- Two doubles that a numeral can be read as are the same. -/
theorem Reads.unique {n : Numeral} {x y : F64} (hx : Reads n x) (hy : Reads n y) : x = y := by
  have h := Rounds.unique hx.nearest hy.nearest
  rw [abs_fVal, abs_fVal] at h
  refine F64_ext (magVal_mono.injective h) ?_
  cases g : fNeg x with
  | true => exact (hy.sign.mpr (hx.sign.mp g)).symm
  | false =>
    cases g' : fNeg y with
    | false => rfl
    | true => rw [hx.sign.mpr (hy.sign.mp g')] at g; cases g

/-- **C116** (exact). A number that is a double is read as that double; a zero with its sign. -/
theorem C116_exact {n : Numeral} (h : n.Ok) (hs : n.Short) (x : F64) (hx : fFinite x = true) (hv : n.value = fVal x) (h0 : n.value = 0 → (fNeg x = true ↔ n.sign = [45])) :
    parseFloat n.text = some x := by
  have hsign : fNeg x = true ↔ n.sign = [45] := by
    by_cases hz : n.value = 0
    · exact h0 hz
    · have e : n.value = signOf n.sign * |n.value| := by
        rw [n.abs_value]
        unfold Numeral.value Numeral.mantissa; ring
      have hpos : 0 < |n.value| := abs_pos.mpr hz
      have hm : 0 < magVal (fMag x) := by rw [← abs_fVal, ← hv]; exact hpos
      unfold signOf at e
      unfold fVal at hv
      constructor
      · intro g
        by_contra hn
        rw [if_neg hn] at e
        rw [if_pos g] at hv
        push_cast at e
        linarith
      · intro g
        by_contra hn
        rw [if_pos g] at e
        rw [if_neg hn] at hv
        push_cast at e
        linarith
  have hr : Reads n x := ⟨hx, hsign, by rw [hv, abs_fVal]; exact double_rounds (magVal_nonneg _) (magVal_double _)⟩
  have hT : ¬ TooLarge n.value := by
    unfold TooLarge
    rw [hv, abs_fVal]
    show ¬ tooLarge ≤ _
    rw [← rn_large_iff (magVal_nonneg _), rn_double (magVal_double _), ← magVal_top, not_le]
    exact magVal_mono (fFinite_mag hx).2.2
  obtain ⟨y, e, hy⟩ := (C116_number h hs).1 hT
  rw [e, hr.unique hy]

/-! ## Nothing else is read -/

/-- The words: in letters of either case, with or without a sign. -/
def InfWord (t : Bytes) : Prop := t.map asciiLower ∈ ["inf", "+inf", "infinity", "+infinity"].map (fun s => s.toUTF8.toList)
def NegInfWord (t : Bytes) : Prop := t.map asciiLower ∈ ["-inf", "-infinity"].map (fun s => s.toUTF8.toList)
def NanWord (t : Bytes) : Prop := t.map asciiLower = "nan".toUTF8.toList

theorem words_bytes : ["inf", "+inf", "infinity", "+infinity"].map (fun s => s.toUTF8.toList) = [[105, 110, 102], [43, 105, 110, 102], [105, 110, 102, 105, 110, 105, 116, 121], [43, 105, 110, 102, 105, 110, 105, 116, 121]] ∧
    ["-inf", "-infinity"].map (fun s => s.toUTF8.toList) = [[45, 105, 110, 102], [45, 105, 110, 102, 105, 110, 105, 116, 121]] ∧ "nan".toUTF8.toList = [110, 97, 110] := by
  decide +kernel

theorem specialFloat_iff (t : Bytes) (x : F64) : specialFloat t = some x ↔ (InfWord t ∧ x = 0x7ff0000000000000#64) ∨ (NegInfWord t ∧ x = 0xfff0000000000000#64) ∨ (NanWord t ∧ x = 0x7ff8000000000001#64) := by
  unfold InfWord NegInfWord NanWord specialFloat
  obtain ⟨w1, w2, w3⟩ := words_bytes
  rw [w1, w2, w3]
  generalize t.map asciiLower = u
  obtain ⟨A, hA⟩ : ∃ A, A = 0x7ff0000000000000#64 := ⟨_, rfl⟩
  obtain ⟨B, hB⟩ : ∃ B, B = 0xfff0000000000000#64 := ⟨_, rfl⟩
  obtain ⟨C, hC⟩ : ∃ C, C = 0x7ff8000000000001#64 := ⟨_, rfl⟩
  rw [← hA, ← hB, ← hC]
  clear hA hB hC
  dsimp only
  split
  · next h => rcases h with rfl | rfl <;> (simp; exact eq_comm)
  split
  · next h => rcases h with rfl | rfl <;> (simp; exact eq_comm)
  split
  · next h => subst h; simp; exact eq_comm
  split
  · next h => rcases h with rfl | rfl <;> (simp; exact eq_comm)
  · next h1 h2 h3 h4 => simp_all

theorem expLoop_inv : ∀ (s : Bytes) (e : Nat), (expLoop e s).2 = [] → ∃ ds : List Nat, (∀ d ∈ ds, d ≤ 9) ∧ s = digitText ds
  | [], _, _ => ⟨[], by simp, rfl⟩
  | c :: s, e, h => by
    rw [expLoop] at h
    split at h
    · next hc =>
      obtain ⟨ds, h1, h2⟩ := expLoop_inv s _ h
      obtain ⟨d, hd, hcd, _⟩ := pf_digit_of hc
      exact ⟨d :: ds, (by intro x hx; rcases List.mem_cons.mp hx with rfl | g; exact hd; exact h1 x g), (by rw [h2, hcd]; rfl)⟩
    · cases h

theorem readSign_inv (s : Bytes) : ∃ sg, (sg = [] ∨ sg = [43] ∨ sg = [45]) ∧ s = sg ++ (readSign s).2 := by
  unfold readSign
  split
  · exact ⟨[43], .inr (.inl rfl), rfl⟩
  · exact ⟨[45], .inr (.inr rfl), rfl⟩
  · exact ⟨[], .inl rfl, rfl⟩

theorem readExp_inv {s : Bytes} {e : Int} (h : readExp s = some e) : s = [] ∨ ∃ c sg ds, s = c :: (sg ++ digitText ds) ∧ (c = 101 ∨ c = 69) ∧ (sg = [] ∨ sg = [43] ∨ sg = [45]) ∧ ds ≠ [] ∧ ∀ d ∈ ds, d ≤ 9 := by
  cases s with
  | nil => exact .inl rfl
  | cons c s =>
    right
    rw [readExp] at h
    split at h
    · next hc =>
      obtain ⟨sg, hsg, es⟩ := readSign_inv s
      split at h
      · cases h
      · next d r hd =>
        split at h
        · split at h
          · next hl =>
            obtain ⟨ds, h1, h2⟩ := expLoop_inv _ _ hl
            refine ⟨c, sg, ds, ?_, hc, hsg, ?_, h1⟩
            · rw [← h2, ← hd, ← es]
            · intro e; rw [e] at h2; cases h2
          · cases h
        · cases h
    · cases h

theorem pfLoop_inv : ∀ (s : Bytes) (st st' : DecScan) (rest : Bytes), pfLoop st s = some (st', rest) → ∃ (W : List Nat) (fr : Option (List Nat)), (st.sawDot = true → fr = none) ∧ (∀ d ∈ W, d ≤ 9) ∧ (∀ d ∈ fr.getD [], d ≤ 9) ∧
    s = digitText W ++ (match fr with | none => [] | some ds => 46 :: digitText ds) ++ rest ∧ (st'.sawDigits = true → st.sawDigits = true ∨ W ≠ [] ∨ fr.getD [] ≠ [])
  | [], st, st', rest, h => by
    cases h
    exact ⟨[], none, by simp, by simp, by simp, rfl, fun g => .inl g⟩
  | c :: s, st, st', rest, h => by
    rw [pfLoop] at h
    split at h
    · next hc =>
      split at h
      · cases h
      · next hdot =>
        obtain ⟨W, fr, h1, h2, h3, h4, h5⟩ := pfLoop_inv s _ _ _ h
        have hfr := h1 rfl
        subst hfr
        refine ⟨[], some W, fun g => absurd g hdot, by simp, by simpa using h2, ?_, ?_⟩
        · rw [h4, hc]; simp [digitText]
        · intro g
          rcases h5 g with g | g | g
          · exact .inl g
          · exact .inr (.inr g)
          · exact absurd rfl g
    · split at h
      · next hc =>
        obtain ⟨d, hd, hcd, _⟩ := pf_digit_of hc
        have done : ∀ st1 : DecScan, st1.sawDot = st.sawDot → pfLoop st1 s = some (st', rest) → ∃ (W : List Nat) (fr : Option (List Nat)), (st.sawDot = true → fr = none) ∧ (∀ d ∈ W, d ≤ 9) ∧ (∀ d ∈ fr.getD [], d ≤ 9) ∧
            c :: s = digitText W ++ (match fr with | none => [] | some ds => 46 :: digitText ds) ++ rest ∧ (st'.sawDigits = true → st.sawDigits = true ∨ W ≠ [] ∨ fr.getD [] ≠ []) := fun st1 e h => by
          obtain ⟨W, fr, h1, h2, h3, h4, h5⟩ := pfLoop_inv s st1 st' rest h
          refine ⟨d :: W, fr, fun g => h1 (by rw [e]; exact g), ?_, h3, ?_, fun _ => .inr (.inl (by simp))⟩
          · intro x hx; rcases List.mem_cons.mp hx with rfl | g; exact hd; exact h2 x g
          · rw [h4, hcd]; rfl
        split at h
        · exact done { st with sawDigits := true, dp := st.dp - 1 } rfl h
        · exact done { st with sawDigits := true, ds := st.ds ++ [c.toNat - 48] } rfl h
      · cases h
        exact ⟨[], none, by simp, by simp, by simp, rfl, fun g => .inl g⟩

/-- **C116** (nothing else). Whatever is read is a number as it is written, or one of the words. -/
theorem C116_only {t : Bytes} {x : F64} (h : parseFloat t = some x) : (∃ n : Numeral, n.Ok ∧ t = n.text) ∨ InfWord t ∨ NegInfWord t ∨ NanWord t := by
  unfold parseFloat at h
  split at h
  · next y hy =>
    rcases (specialFloat_iff t y).mp hy with g | g | g
    · exact .inr (.inl g.1)
    · exact .inr (.inr (.inl g.1))
    · exact .inr (.inr (.inr g.1))
  · left
    split at h
    · cases h
    · next neg ds dp hd =>
      unfold decimalSet at hd
      dsimp only at hd
      obtain ⟨sg, hsg, et⟩ := readSign_inv t
      split at hd
      · cases hd
      · next st rest hl =>
        split at hd
        · cases hd
        · next hsaw =>
          split at hd
          · cases hd
          · next e he =>
            obtain ⟨W, fr, _, h2, h3, h4, h5⟩ := pfLoop_inv _ _ _ _ hl
            have hsome : W ≠ [] ∨ fr.getD [] ≠ [] := by
              rcases h5 (by simpa using hsaw) with g | g
              · cases g
              · exact g
            rcases readExp_inv he with rfl | ⟨c, s, es, rfl, x1, x2, x3, x4⟩
            · refine ⟨⟨sg, W, fr, none⟩, ⟨hsg, h2, h3, hsome, fun _ _ _ g => by cases g⟩, ?_⟩
              refine et.trans ?_
              rw [h4]
              unfold Numeral.text
              cases fr <;> simp
            · refine ⟨⟨sg, W, fr, some (c, s, es)⟩, ⟨hsg, h2, h3, hsome, fun _ _ _ g => by cases g; exact ⟨x1, x2, x3, x4⟩⟩, ?_⟩
              refine et.trans ?_
              rw [h4]
              unfold Numeral.text
              cases fr <;> simp

/-- **C116** (words). The words are read as the infinities and as what is no number. -/
theorem C116_word (t : Bytes) : (InfWord t → parseFloat t = some 0x7ff0000000000000#64) ∧ (NegInfWord t → parseFloat t = some 0xfff0000000000000#64) ∧ (NanWord t → ∃ x, parseFloat t = some x ∧ fIsNaN x = true) := by
  have key : ∀ x, specialFloat t = some x → parseFloat t = some x := fun x h => by unfold parseFloat; rw [h]
  refine ⟨fun h => key _ ((specialFloat_iff t _).mpr (.inl ⟨h, rfl⟩)), fun h => key _ ((specialFloat_iff t _).mpr (.inr (.inl ⟨h, rfl⟩))), fun h => ⟨_, key _ ((specialFloat_iff t _).mpr (.inr (.inr ⟨h, rfl⟩))), by decide⟩⟩

/-! ## Long numbers -/

/-- `0.` and 50000 zeros, then `1e100000`. -/
def exCap : Numeral := ⟨[], [0], some (List.replicate 50000 0 ++ [1]), some (101, [], [1, 0, 0, 0, 0, 0])⟩

theorem exCap_ok : exCap.Ok := by
  refine ⟨.inl rfl, by decide, ?_, .inl (by decide), ?_⟩
  · intro d hd
    have hd : d ∈ List.replicate 50000 0 ++ [1] := hd
    rcases List.mem_append.mp hd with g | g
    · rw [List.eq_of_mem_replicate g]; omega
    · rw [List.mem_singleton.mp g]; omega
  · intro c s ds e
    cases e
    exact ⟨.inl rfl, .inl rfl, by decide, by decide⟩

theorem exCap_places : exCap.places = List.replicate 50000 0 ++ [1] := rfl

theorem exCap_mantissa : exCap.mantissa = 10 ^ (-50001 : ℤ) := by
  unfold Numeral.mantissa
  rw [exCap_places, digitsValue_append, digitsValue_replicate, List.length_append, List.length_replicate, show exCap.whole = [0] from rfl, show digitsValue [0] = 0 from rfl, show digitsValue [1] = 1 from rfl, show ([1] : List Nat).length = 1 from rfl]
  rw [zpow_neg, show (50001 : ℤ) = ((50001 : ℕ) : ℤ) from rfl, zpow_natCast]
  simp

/-- **C116** without its condition is false: a number of 50001 digits, far too large to be a double, is read as 0, because the digits of an exponent from 10000 on are ignored. Its line is short enough to be handled. -/
theorem C116_long_refuted : exCap.Ok ∧ exCap.text.length < 60000 ∧ exCap.value = 10 ^ 49999 ∧ TooLarge exCap.value ∧ parseFloat exCap.text = some 0#64 := by
  have hp : exCap.power = 100000 := rfl
  have hc : exCap.capPower = 10000 := rfl
  have hv : exCap.value = 10 ^ 49999 := by
    have : exCap.value = |exCap.value| := by
      rw [exCap.abs_value]
      unfold Numeral.value Numeral.mantissa
      rw [show exCap.sign = [] from rfl, show signOf [] = 1 from rfl]
      push_cast
      ring
    rw [this, exCap.abs_value, exCap_mantissa, hp, ← zpow_add₀ (by norm_num), show (-50001 + 100000 : ℤ) = ((49999 : ℕ) : ℤ) from rfl, zpow_natCast]
  refine ⟨exCap_ok, ?_, hv, ?_, ?_⟩
  · unfold Numeral.text
    rw [show exCap.sign = [] from rfl, show exCap.whole = [0] from rfl, show exCap.frac = some (List.replicate 50000 0 ++ [1]) from rfl, show exCap.exp = some (101, [], [1, 0, 0, 0, 0, 0]) from rfl]
    dsimp only
    rw [List.length_append, List.length_append, List.length_append, List.length_cons, List.length_cons, List.length_append, digitText_length, digitText_length, digitText_length, List.length_append, List.length_replicate]
    show 0 + 1 + (50000 + 1 + 1) + (0 + 6 + 1) < 60000
    omega
  · unfold TooLarge
    rw [hv, abs_of_pos (by positivity)]
    refine le_trans tooLarge_lt ?_
    rw [show (1000 : ℤ) = ((1000 : ℕ) : ℤ) from rfl, zpow_natCast]
    exact pow_le_pow_right₀ (by norm_num) (by omega)
  · rw [parseFloat_numeral exCap_ok, hc, exCap_mantissa, ← zpow_add₀ (by norm_num)]
    have h0 : (0 : ℚ) ≤ 10 ^ (-50001 + 10000 : ℤ) := by positivity
    have hs : (10 : ℚ) ^ (-50001 + 10000 : ℤ) ≤ 10 ^ (-1000 : ℤ) := zpow_le_zpow_right₀ (by norm_num) (by norm_num)
    have hz := rn_tiny h0 hs
    have hT : (10 : ℚ) ^ (-50001 + 10000 : ℤ) < tooLarge := by
      rw [← not_le, ← rn_large_iff h0, hz, not_le]
      positivity
    obtain ⟨x, e, h1, h2, h3⟩ := (floatBits_spec (decide (exCap.sign = [45])) h0).2 hT
    rw [e]
    congr 1
    refine F64_ext ?_ ?_
    · apply magVal_mono.injective
      rw [h3, hz]
      exact magVal_zero.symm
    · rw [h2]
      rfl

end Rothko
