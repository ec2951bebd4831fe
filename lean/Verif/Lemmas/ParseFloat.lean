import Verif.Model.ParseFloat
import Verif.Lemmas.Numeral
import Verif.Lemmas.Ieee
/-! Lemmas for C116: reading numbers. -/
namespace Rothko

/-! ## Digits -/

theorem digit_le {d : Nat} (h : d ≤ 9) : (48 : UInt8) ≤ UInt8.ofNat (48 + d) ∧ UInt8.ofNat (48 + d) ≤ 57 := by
  constructor
  · rw [UInt8.le_iff_toNat_le, digit_nat h]; show 48 ≤ _; omega
  · rw [UInt8.le_iff_toNat_le, digit_nat h]; show _ ≤ 57; omega

theorem pf_digit_of {c : UInt8} (h : 48 ≤ c ∧ c ≤ 57) : ∃ d, d ≤ 9 ∧ c = UInt8.ofNat (48 + d) ∧ c.toNat - 48 = d := by
  obtain ⟨h1, h2⟩ := h
  rw [UInt8.le_iff_toNat_le] at h1 h2
  have h1 : 48 ≤ c.toNat := h1
  have h2 : c.toNat ≤ 57 := h2
  refine ⟨c.toNat - 48, by omega, ?_, rfl⟩
  apply UInt8.toNat_inj.mp
  rw [digit_nat (by omega)]
  omega

theorem pfLoop_digits : ∀ (F : List Nat), (∀ d ∈ F, d ≤ 9) → ∀ (st : DecScan) (rest : Bytes), ∃ st' : DecScan, pfLoop st (digitText F ++ rest) = pfLoop st' rest ∧ st'.sawDot = st.sawDot ∧
    st'.sawDigits = (st.sawDigits || !F.isEmpty) ∧ digitsValue st'.ds = digitsValue st.ds * 10 ^ F.length + digitsValue F ∧ st'.dp - st'.ds.length = st.dp - st.ds.length - F.length
  | [], _, st, rest => ⟨st, rfl, rfl, by simp, by simp [digitsValue], by simp⟩
  | d :: F, h, st, rest => by
    have hd := h d (by simp)
    have hF : ∀ d ∈ F, d ≤ 9 := fun x hx => h x (by simp [hx])
    have e : pfLoop st (digitText (d :: F) ++ rest) = if d = 0 ∧ st.ds = [] then pfLoop { st with sawDigits := true, dp := st.dp - 1 } (digitText F ++ rest)
        else pfLoop { st with sawDigits := true, ds := st.ds ++ [d] } (digitText F ++ rest) := by
      show pfLoop st (UInt8.ofNat (48 + d) :: (digitText F ++ rest)) = _
      rw [pfLoop, if_neg (digit_ne hd (.inl (by decide))), if_pos (digit_le hd), digit_nat hd, show 48 + d - 48 = d by omega]
      by_cases hz : d = 0 ∧ st.ds = []
      · rw [if_pos hz, if_pos ⟨(digit_zero hd).mpr hz.1, hz.2⟩]
      · rw [if_neg hz, if_neg (fun g => hz ⟨(digit_zero hd).mp g.1, g.2⟩)]
    rw [e]
    by_cases hz : d = 0 ∧ st.ds = []
    · rw [if_pos hz]
      obtain ⟨st', g1, g2, g3, g4, g5⟩ := pfLoop_digits F hF { st with sawDigits := true, dp := st.dp - 1 } rest
      refine ⟨st', g1, g2, by rw [g3]; simp, ?_, ?_⟩
      · rw [g4, digitsValue_cons, hz.1, List.length_cons, hz.2]; simp [digitsValue]
      · rw [g5]
        dsimp only
        rw [List.length_cons]
        push_cast
        omega
    · rw [if_neg hz]
      obtain ⟨st', g1, g2, g3, g4, g5⟩ := pfLoop_digits F hF { st with sawDigits := true, ds := st.ds ++ [d] } rest
      refine ⟨st', g1, g2, by rw [g3]; simp, ?_, ?_⟩
      · rw [g4]
        dsimp only
        rw [digitsValue_append, show digitsValue [d] = d from (show 0 * 10 + d = d by omega), show ([d] : List Nat).length = 1 from rfl, digitsValue_cons, List.length_cons, pow_succ]
        ring
      · rw [g5]
        dsimp only
        rw [List.length_append, List.length_cons, List.length_cons, List.length_nil]
        push_cast
        omega

theorem pfLoop_stop (st : DecScan) {rest : Bytes} (h : ∀ c r, rest = c :: r → c ≠ 46 ∧ ¬ (48 ≤ c ∧ c ≤ 57)) : pfLoop st rest = some (st, rest) := by
  cases rest with
  | nil => rfl
  | cons c r =>
    obtain ⟨h1, h2⟩ := h c r rfl
    rw [pfLoop, if_neg h1, if_neg h2]

/-- The capped exponent. -/
def capExp (e : Nat) (ds : List Nat) : Nat := ds.foldl (fun e d => if e < 10000 then e * 10 + d else e) e

theorem expLoop_eq : ∀ (ds : List Nat), (∀ d ∈ ds, d ≤ 9) → ∀ e, expLoop e (digitText ds) = (capExp e ds, [])
  | [], _, e => rfl
  | d :: ds, h, e => by
    have hd := h d (by simp)
    show expLoop e (UInt8.ofNat (48 + d) :: digitText ds) = _
    rw [expLoop, if_pos (digit_le hd), digit_nat hd, show 48 + d - 48 = d by omega, expLoop_eq ds (fun x hx => h x (by simp [hx]))]
    rfl

theorem capExp_small : ∀ (ds : List Nat) (e : Nat), e * 10 ^ ds.length + digitsValue ds < 100000 → capExp e ds = e * 10 ^ ds.length + digitsValue ds
  | [], e, _ => by simp [capExp, digitsValue]
  | d :: ds, e, h => by
    rw [digitsValue_cons, List.length_cons, pow_succ] at h
    have hp : 1 ≤ 10 ^ ds.length := Nat.one_le_pow _ _ (by omega)
    have he : e < 10000 := by
      by_contra hn
      have : 10000 * (10 ^ ds.length * 10) ≤ e * (10 ^ ds.length * 10) := Nat.mul_le_mul_right _ (by omega)
      omega
    have hstep : capExp e (d :: ds) = capExp (e * 10 + d) ds := by
      show capExp (if e < 10000 then e * 10 + d else e) ds = _
      rw [if_pos he]
    have hval : (e * 10 + d) * 10 ^ ds.length + digitsValue ds = e * (10 ^ ds.length * 10) + (d * 10 ^ ds.length + digitsValue ds) := by ring
    rw [hstep, capExp_small ds (e * 10 + d) (by rw [hval]; exact h), hval, digitsValue_cons, List.length_cons, pow_succ]

/-- The exponent as it is read. -/
def Numeral.capPower (n : Numeral) : ℤ := match n.exp with
  | none => 0
  | some (_, s, ds) => signOf s * capExp 0 ds

theorem Numeral.cap_eq (n : Numeral) (h : ∀ c s ds, n.exp = some (c, s, ds) → digitsValue ds < 100000) : n.capPower = n.power := by
  unfold Numeral.capPower Numeral.power
  cases hx : n.exp with
  | none => rfl
  | some p =>
    obtain ⟨c, s, ds⟩ := p
    have := capExp_small ds 0 (by have := h c s ds hx; omega)
    dsimp only
    rw [this]
    simp

theorem readSign_other {c : UInt8} {r : Bytes} (h1 : c ≠ 43) (h2 : c ≠ 45) : readSign (c :: r) = (false, c :: r) := by
  unfold readSign
  split
  · next h => injection h with h; exact absurd h h1
  · next h => injection h with h; exact absurd h h2
  · rfl

theorem readExp_eq {c : UInt8} {s : Bytes} {ds : List Nat} (hc : c = 101 ∨ c = 69) (hs : s = [] ∨ s = [43] ∨ s = [45]) (h0 : ds ≠ []) (h9 : ∀ d ∈ ds, d ≤ 9) :
    readExp (c :: (s ++ digitText ds)) = some (signOf s * capExp 0 ds) := by
  obtain ⟨d, r, rfl⟩ := List.exists_cons_of_ne_nil h0
  have hd := h9 d (by simp)
  have key := expLoop_eq (d :: r) h9 0
  have hle := digit_le hd
  have hdt : digitText (d :: r) = UInt8.ofNat (48 + d) :: digitText r := rfl
  have hsg : readSign (s ++ digitText (d :: r)) = (decide (s = [45]), digitText (d :: r)) := by
    rcases hs with rfl | rfl | rfl
    · rw [List.nil_append, hdt, readSign_other (digit_ne hd (.inl (by decide))) (digit_ne hd (.inl (by decide)))]; rfl
    · rfl
    · rfl
  rw [readExp, if_pos hc, hsg]
  dsimp only
  rw [hdt]
  dsimp only
  rw [if_pos hle, ← hdt, key, if_pos rfl]
  unfold signOf
  rcases hs with rfl | rfl | rfl <;> rfl

/-! ## Numerals -/

theorem Numeral.Ok.head_ne {n : Numeral} (h : n.Ok) : ∃ c r, n.rest = c :: r ∧ c ≠ 43 ∧ c ≠ 45 ∧ asciiLower c = c ∧ c ≠ 105 ∧ c ≠ 110 := by
  obtain ⟨c, r, e, hc⟩ := h.head
  refine ⟨c, r, e, ?_⟩
  rcases hc with rfl | ⟨h1, h2⟩
  · decide
  · have ne : ∀ k : UInt8, k.toNat < 48 ∨ 57 < k.toNat → c ≠ k := fun k hk e => by rw [e] at h1 h2; omega
    refine ⟨ne _ (.inl (by decide)), ne _ (.inl (by decide)), ?_, ne _ (.inr (by decide)), ne _ (.inr (by decide))⟩
    unfold asciiLower
    rw [if_neg]
    rintro ⟨g, _⟩
    rw [UInt8.le_iff_toNat_le] at g
    have g : 65 ≤ c.toNat := g
    omega

theorem readSign_numeral {n : Numeral} (h : n.Ok) : readSign n.text = (decide (n.sign = [45]), n.rest) := by
  obtain ⟨c, r, e, h1, h2, _⟩ := h.head_ne
  rw [n.text_eq]
  rcases h.sign with s | s | s
  · rw [s, List.nil_append, e, readSign_other h1 h2]; rfl
  · rw [s]; rfl
  · rw [s]; rfl

theorem special_numeral {n : Numeral} (h : n.Ok) : specialFloat n.text = none := by
  obtain ⟨c, r, e, h1, h2, h3, h4, h5⟩ := h.head_ne
  rw [n.text_eq, e]
  unfold specialFloat
  rcases h.sign with s | s | s
  · rw [s]
    simp only [List.nil_append, List.map_cons, h3]
    simp [h1, h2, h4, h5]
  · rw [s]
    simp only [List.cons_append, List.nil_append, List.map_cons, h3]
    simp [h4, show asciiLower 43 = 43 from rfl]
  · rw [s]
    simp only [List.cons_append, List.nil_append, List.map_cons, h3]
    simp [h4, show asciiLower 45 = 45 from rfl]

/-- The part of a numeral's text after its digits. -/
def Numeral.expText (n : Numeral) : Bytes := match n.exp with | none => [] | some (c, s, ds) => c :: (s ++ digitText ds)

theorem expText_stop {n : Numeral} (h : n.Ok) : ∀ c r, n.expText = c :: r → c ≠ 46 ∧ ¬ (48 ≤ c ∧ c ≤ 57) := by
  intro c r e
  rcases expHead h c r e with rfl | rfl <;> decide

theorem readExp_numeral {n : Numeral} (h : n.Ok) : readExp n.expText = some n.capPower := by
  unfold Numeral.expText Numeral.capPower
  cases hx : n.exp with
  | none => rfl
  | some p =>
    obtain ⟨c, s, ds⟩ := p
    obtain ⟨x1, x2, x3, x4⟩ := h.exp _ _ _ hx
    exact readExp_eq x1 x2 x3 x4

/-- Reading a numeral gives its digits and the place of its dot. -/
theorem decimalSet_numeral {n : Numeral} (h : n.Ok) : ∃ ds dp, decimalSet n.text = some (decide (n.sign = [45]), ds, dp) ∧
    (digitsValue ds : ℚ) * 10 ^ (dp - ds.length : ℤ) = (digitsValue n.whole + digitsValue n.places / 10 ^ n.places.length) * 10 ^ n.capPower := by
  unfold decimalSet
  dsimp only
  rw [readSign_numeral h]
  dsimp only
  have hrest : n.rest = digitText n.whole ++ ((match n.frac with | none => [] | some ds => 46 :: digitText ds) ++ n.expText) := rfl
  obtain ⟨st, g1, g2, g3, g4, g5⟩ := pfLoop_digits n.whole h.whole {} ((match n.frac with | none => [] | some ds => 46 :: digitText ds) ++ n.expText)
  rw [hrest, g1]
  have g4 : digitsValue st.ds = digitsValue n.whole := by rw [g4]; simp [digitsValue]
  cases hf : n.frac with
  | none =>
    have hp : n.places = [] := by unfold Numeral.places; rw [hf]; rfl
    have hw : n.whole ≠ [] := h.some_digit.resolve_right (fun g => g hp)
    dsimp only
    rw [List.nil_append, pfLoop_stop st (expText_stop h)]
    dsimp only
    rw [g3, if_neg (by cases hn : n.whole with | nil => exact absurd hn hw | cons a b => simp), readExp_numeral h]
    dsimp only
    refine ⟨st.ds, _, rfl, ?_⟩
    rw [g2, hp, if_neg (by simp), g4, show ((st.ds.length : ℤ) + n.capPower - st.ds.length) = n.capPower by omega]
    simp [digitsValue]
  | some F =>
    have hp : n.places = F := by unfold Numeral.places; rw [hf]; rfl
    have hF : ∀ d ∈ F, d ≤ 9 := by rw [← hp]; exact h.frac
    have g2 : st.sawDot = false := g2
    obtain ⟨st', k1, k2, k3, k4, k5⟩ := pfLoop_digits F hF { st with sawDot := true, dp := st.ds.length } n.expText
    have hdot : pfLoop st (46 :: digitText F ++ n.expText) = pfLoop st' n.expText := by
      rw [List.cons_append, pfLoop, if_pos rfl, g2, if_neg (by simp), k1]
    dsimp only
    rw [hdot, pfLoop_stop st' (expText_stop h)]
    dsimp only
    have hsaw : st'.sawDigits = true := by
      rw [k3]
      dsimp only
      rw [g3]
      rcases h.some_digit with g | g
      · cases hn : n.whole with
        | nil => exact absurd hn g
        | cons a b => simp
      · rw [hp] at g
        cases hn : F with
        | nil => exact absurd hn g
        | cons a b => simp
    rw [hsaw, if_neg (by simp), readExp_numeral h]
    dsimp only
    refine ⟨st'.ds, _, rfl, ?_⟩
    rw [k2, if_pos rfl, hp, k4]
    dsimp only at k5 ⊢
    rw [g4, show (st'.dp + n.capPower - st'.ds.length : ℤ) = - (F.length : ℤ) + n.capPower by omega, zpow_add₀ (by norm_num), zpow_neg, zpow_natCast]
    push_cast
    field_simp

/-! ## Rounding to bits -/

theorem magBits_val {q : ℚ} (hq : 0 < q) : magVal (magBits q) = rn q := by
  obtain ⟨hb1, hb2⟩ := ulp_bounds hq
  have hK : ∃ K : ℕ, ulpExp q = K - 1074 := ⟨(ulpExp q + 1074).toNat, by have : -1074 ≤ ulpExp q := le_max_right _ _; omega⟩
  obtain ⟨K, hK⟩ := hK
  have hp := two_zpow_pos (ulpExp q)
  have hM0 : 0 ≤ roundEven (q / 2 ^ ulpExp q) := roundEven_ge (by have := div_pos hq hp; push_cast; linarith)
  have hM1 : roundEven (q / 2 ^ ulpExp q) ≤ 9007199254740992 := by
    apply roundEven_le
    rw [div_le_iff₀ hp]
    rw [zpow_add₀ (by norm_num)] at hb1
    have : (2 : ℚ) ^ (53 : ℤ) = 9007199254740992 := by norm_num
    rw [this] at hb1
    push_cast
    linarith
  have hM2 : K ≠ 0 → 4503599627370496 ≤ roundEven (q / 2 ^ ulpExp q) := by
    intro hK0
    have hbig : (2 : ℚ) ^ (ulpExp q + 52) ≤ q := by
      apply hb2
      by_contra hn
      push Not at hn
      have h1 : Int.log 2 q < -1022 := by
        rw [← Int.lt_zpow_iff_log_lt (by norm_num) hq]
        exact_mod_cast hn
      have : ulpExp q = -1074 := by unfold ulpExp; omega
      omega
    apply roundEven_ge
    rw [le_div_iff₀ hp]
    rw [zpow_add₀ (by norm_num)] at hbig
    have : (2 : ℚ) ^ (52 : ℤ) = 4503599627370496 := by norm_num
    rw [this] at hbig
    push_cast
    linarith
  have hrn : rn q = roundEven (q / 2 ^ ulpExp q) * 2 ^ ulpExp q := rfl
  have hmb : magBits q = (roundEven (q / 2 ^ ulpExp q)).toNat + K * 4503599627370496 := by
    unfold magBits
    rw [hK, show ((K : ℤ) - 1074 + 1074).toNat = K by omega]
  rw [hrn, hmb]
  generalize roundEven (q / 2 ^ ulpExp q) = M at *
  obtain ⟨m, rfl⟩ := Int.eq_ofNat_of_zero_le hM0
  rw [hK]
  rw [Int.toNat_natCast]
  unfold magVal
  by_cases h1 : m < 4503599627370496
  · have : K = 0 := by by_contra hn; have := hM2 hn; omega
    subst this
    rw [if_pos (by omega)]
    push_cast
    norm_num
  · rw [if_neg (by omega)]
    by_cases h2 : m < 9007199254740992
    · rw [show (m + K * 4503599627370496) / 4503599627370496 = K + 1 by omega, show 4503599627370496 + (m + K * 4503599627370496) % 4503599627370496 = m by omega]
      rw [show (((K + 1 : ℕ) : ℤ) - 1075) = (K : ℤ) - 1074 by push_cast; omega]
      push_cast
      rfl
    · have : m = 9007199254740992 := by omega
      subst this
      rw [show (9007199254740992 + K * 4503599627370496) / 4503599627370496 = K + 2 by omega, show 4503599627370496 + (9007199254740992 + K * 4503599627370496) % 4503599627370496 = 4503599627370496 by omega]
      rw [show (((K + 2 : ℕ) : ℤ) - 1075) = (K : ℤ) - 1074 + 1 by push_cast; omega, zpow_add₀ (by norm_num)]
      push_cast
      ring

/-- From here on a number is too large: half way between the largest double and the next power of two. -/
def tooLarge : ℚ := 2 ^ 1024 - 2 ^ 970

theorem tooLarge_eq : tooLarge = (2 ^ 53 - 1 / 2) * 2 ^ (971 : ℤ) := by
  unfold tooLarge
  have h : (2 : ℚ) ^ 1024 = 2 ^ 54 * 2 ^ 970 := by rw [← pow_add]
  have h2 : (2 : ℚ) ^ (971 : ℤ) = 2 * 2 ^ 970 := by
    rw [show (971 : ℤ) = ((971 : ℕ) : ℤ) from rfl, zpow_natCast]
    rw [show (971 : ℕ) = 1 + 970 from rfl, pow_add, pow_one]
  rw [h, h2]
  ring

theorem tooLarge_pos : 0 < tooLarge := by
  rw [tooLarge_eq]
  exact mul_pos (by norm_num) (two_zpow_pos 971)

theorem two_1024 : (2 : ℚ) ^ 1024 = 2 ^ 53 * 2 ^ (971 : ℤ) := by
  rw [show (971 : ℤ) = ((971 : ℕ) : ℤ) from rfl, zpow_natCast, ← pow_add]

theorem rn_tooLarge : rn tooLarge = 2 ^ 1024 := by
  have hp := two_zpow_pos 971
  have hlog : Int.log 2 tooLarge = 1023 := by
    have l1 : 1023 ≤ Int.log 2 tooLarge := by
      rw [← Int.zpow_le_iff_le_log (R := ℚ) (by norm_num) tooLarge_pos, tooLarge_eq]
      push_cast
      rw [show (1023 : ℤ) = 52 + 971 from rfl, zpow_add₀ (by norm_num)]
      exact mul_le_mul_of_nonneg_right (by norm_num) hp.le
    have l2 : Int.log 2 tooLarge < 1024 := by
      rw [← Int.lt_zpow_iff_log_lt (R := ℚ) (by norm_num) tooLarge_pos, tooLarge_eq]
      push_cast
      rw [show (1024 : ℤ) = 53 + 971 from rfl, zpow_add₀ (by norm_num)]
      exact mul_lt_mul_of_pos_right (by norm_num) hp
    omega
  have hu : ulpExp tooLarge = 971 := by unfold ulpExp; rw [hlog]; rfl
  unfold rn
  rw [hu, tooLarge_eq, mul_div_assoc, div_self hp.ne', mul_one, two_1024]
  have hre : ((roundEven (2 ^ 53 - 1 / 2) : ℤ) : ℚ) = 2 ^ 53 := by
    have hfl : ⌊(2 ^ 53 - 1 / 2 : ℚ)⌋ = 9007199254740991 := by
      rw [Int.floor_eq_iff]
      norm_num
    unfold roundEven
    rw [hfl]
    norm_num
  rw [hre]

/-- The largest double. -/
theorem largest_double : IsDouble ((2 ^ 53 - 1) * 2 ^ (971 : ℤ)) := ⟨9007199254740991, 971, by norm_num, by norm_num, by norm_num⟩

theorem rn_large_iff {q : ℚ} (hq : 0 ≤ q) : (2 : ℚ) ^ 1024 ≤ rn q ↔ tooLarge ≤ q := by
  constructor
  · intro h
    by_contra hn
    push Not at hn
    have hp := two_zpow_pos 971
    have hnear := rn_nearest hq largest_double
    rw [two_1024] at h
    rw [tooLarge_eq] at hn
    by_cases hc : q ≤ (2 ^ 53 - 1) * 2 ^ (971 : ℤ)
    · have := rn_mono hq hc
      rw [rn_double largest_double] at this
      generalize (2 : ℚ) ^ (971 : ℤ) = P at *
      nlinarith
    · push Not at hc
      generalize (2 : ℚ) ^ (971 : ℤ) = P at *
      rw [abs_of_nonpos (by nlinarith), abs_of_nonneg (by linarith)] at hnear
      nlinarith
  · intro h
    rw [← rn_tooLarge]
    exact rn_mono tooLarge_pos.le h

theorem magVal_top : magVal 9218868437227405312 = 2 ^ 1024 := by
  unfold magVal
  rw [if_neg (by omega), two_1024, show (((9218868437227405312 / 4503599627370496 : ℕ) : ℤ) - 1075) = 1 + 971 from rfl, zpow_add₀ (by norm_num)]
  generalize (2 : ℚ) ^ (971 : ℤ) = P
  norm_num
  ring

theorem fFinite_of_mag {x : F64} (h : fMag x < 9218868437227405312) : fFinite x = true := by
  unfold fFinite fIsInf fIsNaN
  simp
  omega

/-- What `floatBits` gives. -/
theorem floatBits_spec (neg : Bool) {q : ℚ} (hq : 0 ≤ q) :
    (tooLarge ≤ q → floatBits neg q = none) ∧
    (q < tooLarge → ∃ x, floatBits neg q = some x ∧ fFinite x = true ∧ fNeg x = neg ∧ magVal (fMag x) = rn q) := by
  have hm : magVal (if q = 0 then 0 else magBits q) = rn q := by
    by_cases h0 : q = 0
    · rw [if_pos h0, h0, magVal_zero, rn_zero]
    · rw [if_neg h0, magBits_val (lt_of_le_of_ne hq (Ne.symm h0))]
  unfold floatBits
  dsimp only
  generalize (if q = 0 then 0 else magBits q) = m at *
  constructor
  · intro h
    rw [if_pos]
    by_contra hn
    have := magVal_mono (show m < 9218868437227405312 by omega)
    rw [hm, magVal_top] at this
    exact absurd ((rn_large_iff hq).mpr h) (by linarith)
  · intro h
    have hlt : m < 9218868437227405312 := by
      by_contra hn
      have := magVal_mono.monotone (show 9218868437227405312 ≤ m by omega)
      rw [hm, magVal_top] at this
      exact absurd ((rn_large_iff hq).mp this) (by linarith)
    rw [if_neg (by omega)]
    refine ⟨_, rfl, ?_⟩
    have e : (BitVec.ofNat 64 (m + if neg then 9223372036854775808 else 0)).toNat = m + if neg then 9223372036854775808 else 0 := by
      rw [BitVec.toNat_ofNat]
      apply Nat.mod_eq_of_lt
      cases neg <;> simp <;> omega
    have emag : fMag (BitVec.ofNat 64 (m + if neg then 9223372036854775808 else 0)) = m := by
      unfold fMag
      rw [e]
      cases neg <;> simp <;> omega
    refine ⟨?_, ?_, by rw [emag]; exact hm⟩
    · exact fFinite_of_mag (by rw [emag]; exact hlt)
    · unfold fNeg
      rw [e]
      cases neg <;> simp <;> omega

end Rothko
