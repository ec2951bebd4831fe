import Verif.Lemmas.Numeral
/-!
# C115: the labels of a graph say what they label
-/
namespace Rothko

theorem lit_nan : "NaN".toUTF8.toList = [78, 97, 78] := by decide +kernel
theorem lit_ninf : "-Inf".toUTF8.toList = [45, 73, 110, 102] := by decide +kernel
theorem lit_pinf : "+Inf".toUTF8.toList = [43, 73, 110, 102] := by decide +kernel
theorem lit_obs : "obs/sec: ".toUTF8.toList = [111, 98, 115, 47, 115, 101, 99, 58, 32] := by decide +kernel
theorem lit_slash : "/".toUTF8.toList = [47] := by decide +kernel
theorem lit_at : " @ ".toUTF8.toList = [32, 64, 32] := by decide +kernel
theorem lit_colon : ":".toUTF8.toList = [58] := by decide +kernel

theorem Numeral.neg_ok {n : Numeral} (h : n.Ok) : ({ n with sign := [45] } : Numeral).Ok := ⟨.inr (.inr rfl), h.whole, h.frac, h.some_digit, h.exp⟩

theorem Numeral.neg_text {n : Numeral} (h : n.sign = []) : ({ n with sign := [45] } : Numeral).text = 45 :: n.text := by
  rw [Numeral.text_eq, n.text_eq, h]; rfl

theorem Numeral.neg_value {n : Numeral} (h : n.sign = []) : ({ n with sign := [45] } : Numeral).value = - n.value := by
  unfold Numeral.value Numeral.places Numeral.power
  dsimp only
  rw [h, show signOf [45] = -1 from rfl, show signOf [] = 1 from rfl]
  push_cast
  ring

/-- **C115** (values). The label of a finite value is a decimal number, a nearest one of three digits to the value, so at most half a percent away, and it has 4 to 10 characters, which can be printed. -/
theorem C115_value (old : Bool) (x : F64) (hx : fFinite x = true) :
    ∃ r, Says (valueLabel old x) r ∧ Nearest3 (fVal x) r ∧ |r - fVal x| ≤ |fVal x| / 200 ∧ 4 ≤ (valueLabel old x).length ∧ (valueLabel old x).length ≤ 10 ∧ ∀ b ∈ valueLabel old x, Printable b := by
  obtain ⟨h1, h2, h3⟩ := fFinite_mag hx
  obtain ⟨n, n1, n2, n3, n4, n5, n6, n7, _⟩ := sharpG_says old (magVal_range h3)
  have hnn := magVal_nonneg (fMag x)
  unfold valueLabel fVal
  rw [h1, h2]
  simp only [Bool.false_eq_true, if_false]
  cases hs : fNeg x
  · simp only [Bool.false_eq_true, if_false, List.nil_append]
    rw [n3]
    exact ⟨n.value, ⟨n, n1, rfl, rfl⟩, n4, by rw [abs_of_nonneg hnn]; exact n5, n6, by omega, n1.printable⟩
  · simp only [if_true]
    have ht : [45] ++ sharpG old (magVal (fMag x)) = ({ n with sign := [45] } : Numeral).text := by rw [Numeral.neg_text n2, n3]; rfl
    rw [ht]
    refine ⟨_, ⟨_, Numeral.neg_ok n1, rfl, rfl⟩, ?_, ?_, ?_, ?_, (Numeral.neg_ok n1).printable⟩
    · rw [Numeral.neg_value n2]; exact n4.neg
    · rw [Numeral.neg_value n2, abs_neg, abs_of_nonneg hnn, show -n.value - -magVal (fMag x) = -(n.value - magVal (fMag x)) by ring, abs_neg]; exact n5
    · rw [Numeral.neg_text n2, List.length_cons]; omega
    · rw [Numeral.neg_text n2, List.length_cons]; omega

/-- What is not a number is labelled NaN, +Inf or -Inf. -/
theorem C115_special (old : Bool) (x : F64) : (fIsNaN x = true → valueLabel old x = "NaN".toUTF8.toList) ∧
    (fIsInf x = true → valueLabel old x = if fNeg x then "-Inf".toUTF8.toList else "+Inf".toUTF8.toList) := by
  unfold valueLabel
  refine ⟨fun h => by rw [if_pos h, lit_nan], fun h => ?_⟩
  have hn : fIsNaN x = false := by
    unfold fIsInf at h
    unfold fIsNaN
    simp at h ⊢
    omega
  rw [hn, if_neg (by simp), if_pos h]
  rw [lit_ninf, lit_pinf]

/-- Nearest numbers keep the order. -/
theorem Nearest3.mono {v v' r r' : ℚ} (h : Nearest3 v r) (h' : Nearest3 v' r') (hlt : v < v') : r ≤ r' := by
  have sign : ∀ {v r}, Nearest3 v r → (0 < v → 0 ≤ r) ∧ (v < 0 → r ≤ 0) := by
    have pos : ∀ {v r : ℚ}, Nearest3 v r → 0 < v → 0 ≤ r := by
      intro v r h hv
      rcases h with ⟨h1, _⟩ | ⟨_, h2, h3⟩
      · linarith
      · by_contra hn
        obtain ⟨m, k, m1, m2, hm⟩ := h2
        have p : (0 : ℚ) ≤ m * 10 ^ k := by positivity
        have hr : r = - (m * 10 ^ k) := by
          rcases hm with hm | hm
          · linarith
          · exact hm
        have := h3 (m * 10 ^ k) ⟨m, k, m1, m2, .inl rfl⟩
        have hp : (0 : ℚ) < m * 10 ^ k := by linarith
        rw [hr] at this
        rw [abs_sub_comm, abs_of_pos (by linarith : 0 < v - -(m * 10 ^ k : ℚ))] at this
        rcases abs_cases ((m * 10 ^ k : ℚ) - v) with ⟨e, _⟩ | ⟨e, _⟩ <;> linarith
    intro v r h
    refine ⟨pos h, fun hv => ?_⟩
    have := pos h.neg (by linarith)
    linarith
  rcases h with ⟨h1, h2⟩ | ⟨h1, h2, h3⟩
  · rw [h2]; exact (sign h').1 (by linarith)
  · rcases h' with ⟨h1', h2'⟩ | ⟨h1', h2', h3'⟩
    · rw [h2']; exact (sign (.inr ⟨h1, h2, h3⟩)).2 (by linarith)
    · by_contra hn
      have a := h3 r' h2'
      have b := h3' r h2
      rcases abs_cases (r - v) with ⟨e1, _⟩ | ⟨e1, _⟩ <;> rcases abs_cases (r' - v) with ⟨e2, _⟩ | ⟨e2, _⟩ <;> rcases abs_cases (r' - v') with ⟨e3, _⟩ | ⟨e3, _⟩ <;>
        rcases abs_cases (r - v') with ⟨e4, _⟩ | ⟨e4, _⟩ <;> linarith

/-- A greater value has no smaller number on its label. -/
theorem C115_order (old : Bool) {x y : F64} (hx : fFinite x = true) (hy : fFinite y = true) (h : fLt x y = true) {r r' : ℚ} (hr : Says (valueLabel old x) r) (hr' : Says (valueLabel old y) r') : r ≤ r' := by
  obtain ⟨q, q1, q2, _⟩ := C115_value old x hx
  obtain ⟨q', q1', q2', _⟩ := C115_value old y hy
  rw [hr.unique q1, hr'.unique q1']
  exact q2.mono q2' ((fLt_val hx hy).mp h)

/-- **C115** (rates). The label of a rate. -/
theorem C115_rate (old : Bool) {q : ℚ} (hq : q = 0 ∨ ((10 : ℚ) ^ (-98 : ℤ) ≤ q ∧ q < 10 ^ (98 : ℤ))) :
    ∃ t r, rateLabel old (.fin q) = "obs/sec: ".toUTF8.toList ++ t ∧ Says t r ∧ Nearest3 q r ∧ |r - q| ≤ q / 200 ∧ (rateLabel old (.fin q)).length ≤ 17 ∧ ∀ b ∈ rateLabel old (.fin q), Printable b := by
  have h0 : 0 ≤ q := by
    rcases hq with rfl | ⟨h, _⟩
    · exact le_refl _
    · exact le_trans (ten_zpow_pos _).le h
  have big : q = 0 ∨ ((10 : ℚ) ^ (-900 : ℤ) ≤ q ∧ q < 10 ^ (900 : ℤ)) := by
    rcases hq with h | ⟨h1, h2⟩
    · exact .inl h
    · exact .inr ⟨le_trans (zpow_le_zpow_right₀ (by norm_num) (by norm_num)) h1, lt_of_lt_of_le h2 (zpow_le_zpow_right₀ (by norm_num) (by norm_num))⟩
  obtain ⟨n, n1, n2, n3, n4, n5, n6, n7, n8⟩ := sharpG_says old big
  have hlen : n.text.length ≤ 8 := by
    rcases hq with h | ⟨h1, h2⟩
    · rw [← n3, h]; cases old <;> decide +kernel
    · exact n8 h1 h2
  have hl : rateLabel old (.fin q) = "obs/sec: ".toUTF8.toList ++ n.text := by
    unfold rateLabel
    dsimp only
    rw [if_neg (by linarith), abs_of_nonneg h0, n3, lit_obs]
    rfl
  rw [hl]
  refine ⟨n.text, n.value, rfl, ⟨n, n1, rfl, rfl⟩, n4, n5, ?_, ?_⟩
  · rw [List.length_append, lit_obs, show ([111, 98, 115, 47, 115, 101, 99, 58, 32] : Bytes).length = 9 from rfl]; omega
  · intro b hb
    rcases List.mem_append.mp hb with hb | hb
    · have : ∀ b ∈ "obs/sec: ".toUTF8.toList, 32 ≤ b.toNat ∧ b.toNat < 127 := by rw [lit_obs]; decide
      exact this b hb
    · exact n1.printable b hb

/-- **C115** (ranks). The label of a rank from 0 to 1 is the rank in hundredths, like 0.75, rounded. -/
theorem C115_rank {q : ℚ} (h0 : 0 ≤ q) (h1 : q ≤ 1) :
    ∃ r, Says (rankLabel q) r ∧ |r - q| ≤ 1 / 200 ∧ (∃ k : ℕ, r = k / 100) ∧ (rankLabel q).length = 4 ∧ ∀ b ∈ rankLabel q, Printable b := by
  have r1 := roundEven_ge (q := q * 100) (n := 0) (by push_cast; linarith)
  have r2 := roundEven_le (q := q * 100) (n := 100) (by push_cast; linarith)
  have r3 := roundEven_err (q * 100)
  obtain ⟨n, hn⟩ : ∃ n, n = (roundEven (q * 100)).toNat := ⟨_, rfl⟩
  have hv : ((roundEven (q * 100) : ℤ) : ℚ) = n := by rw [hn]; exact_mod_cast (Int.toNat_of_nonneg r1).symm
  have hN : (⟨[], [n / 100], some [n / 10 % 10, n % 10], none⟩ : Numeral).Ok := ⟨.inl rfl, by simp; omega, by simp [Numeral.places]; omega, .inl (by simp), fun _ _ _ h => by cases h⟩
  have ht : rankLabel q = (⟨[], [n / 100], some [n / 10 % 10, n % 10], none⟩ : Numeral).text := by
    unfold rankLabel Numeral.text
    dsimp only
    rw [← hn]
    simp
  have hval : (⟨[], [n / 100], some [n / 10 % 10, n % 10], none⟩ : Numeral).value = (n : ℚ) / 100 := by
    unfold Numeral.value Numeral.places Numeral.power
    dsimp only [Option.getD]
    have e1 : digitsValue [n / 100] = n / 100 := by show 0 * 10 + n / 100 = _; omega
    have e2 : digitsValue [n / 10 % 10, n % 10] = n % 100 := by show (0 * 10 + n / 10 % 10) * 10 + n % 10 = _; omega
    rw [e1, e2, show signOf [] = 1 from rfl]
    have e3 : n = n / 100 * 100 + n % 100 := by omega
    have e4 : (n : ℚ) = (n / 100 : ℕ) * 100 + (n % 100 : ℕ) := by exact_mod_cast e3
    rw [e4]
    norm_num
    ring
  refine ⟨(n : ℚ) / 100, ⟨_, hN, ht, hval.symm⟩, ?_, ⟨n, rfl⟩, rfl, by rw [ht]; exact hN.printable⟩
  rw [hv] at r3
  rw [show (n : ℚ) / 100 - q = (n - q * 100) / 100 by ring, abs_div, abs_of_pos (show (0 : ℚ) < 100 by norm_num), div_le_iff₀ (by norm_num)]
  linarith

/-- Rank 1 is 1.00 and rank 0 is 0.00. -/
theorem C115_ends : rankLabel 1 = "1.00".toUTF8.toList ∧ rankLabel 0 = "0.00".toUTF8.toList := by decide +kernel

/-! ## Times -/

theorem plainInt_ok {n : Nat} (h : n < 100) : ∃ ds : List Nat, plainInt n = digitText ds ∧ (∀ d ∈ ds, d ≤ 9) ∧ ds ≠ [] ∧ ds.length ≤ 2 ∧ digitsValue ds = n := by
  unfold plainInt
  split
  · exact ⟨[n], rfl, by simp; omega, by simp, by simp, (show 0 * 10 + n = n by omega)⟩
  · exact ⟨[n / 10, n % 10], rfl, by simp; omega, by simp, by simp, (show (0 * 10 + n / 10) * 10 + n % 10 = n by omega)⟩

theorem two_ok {n : Nat} (h : n < 100) : (∀ d ∈ [n / 10, n % 10], d ≤ 9) ∧ digitsValue [n / 10, n % 10] = n := ⟨by simp; omega, (show (0 * 10 + n / 10) * 10 + n % 10 = n by omega)⟩

/-- The first of January 1970 is 719162 days after that of the year 1. -/
theorem C115_epoch : dayNo 719162 = ⟨1970, 1, 1⟩ := by rw [← goDay_eq]; decide +kernel

/-- The label of a time, whatever it is. -/
theorem timeLabel_text (zone : Int → Int) (x : Int) {s : Nat} (hs' : s = (localSec zone x).toNat) :
    SaysTime (timeLabel zone x) (dayNo (s / 86400)).month (dayNo (s / 86400)).day (s % 86400 / 3600) (s % 86400 % 3600 / 60) ∧ 11 ≤ (timeLabel zone x).length ∧ (timeLabel zone x).length ≤ 13 ∧
      ∀ b ∈ timeLabel zone x, Printable b := by
  have hday := goDay_eq (s / 86400)
  obtain ⟨g1, g2, g3, g4⟩ := goDay_range (s / 86400)
  have hm : (goMonth (goLeap (goYear (s / 86400)).1) (goYear (s / 86400)).2).1 = (dayNo (s / 86400)).month := by rw [← hday]; rfl
  have hd : (goMonth (goLeap (goYear (s / 86400)).1) (goYear (s / 86400)).2).2 = (dayNo (s / 86400)).day := by rw [← hday]; rfl
  obtain ⟨a, a1, a2, a3, a4, a5⟩ := plainInt_ok (n := (dayNo (s / 86400)).month) (by omega)
  obtain ⟨b, b1, b2, b3, b4, b5⟩ := plainInt_ok (n := (dayNo (s / 86400)).day) (by omega)
  obtain ⟨c1, c2⟩ := two_ok (n := s % 86400 / 3600) (by omega)
  obtain ⟨d1, d2⟩ := two_ok (n := s % 86400 % 3600 / 60) (by omega)
  have ht : timeLabel zone x = digitText a ++ "/".toUTF8.toList ++ digitText b ++ " @ ".toUTF8.toList ++ digitText [s % 86400 / 3600 / 10, s % 86400 / 3600 % 10] ++ ":".toUTF8.toList ++
      digitText [s % 86400 % 3600 / 60 / 10, s % 86400 % 3600 / 60 % 10] := by
    unfold timeLabel
    dsimp only
    rw [← hs', hm, hd, a1, b1, lit_slash, lit_at, lit_colon]
  have l1 : 1 ≤ a.length := List.length_pos_iff.mpr a3
  have l2 : 1 ≤ b.length := List.length_pos_iff.mpr b3
  refine ⟨⟨a, b, _, _, ?_, a3, b3, rfl, rfl, ht, a5, b5, c2, d2⟩, ?_, ?_, ?_⟩
  · intro z hz
    rw [List.mem_append, List.mem_append, List.mem_append] at hz
    rcases hz with ((hz | hz) | hz) | hz
    · exact a2 z hz
    · exact b2 z hz
    · exact c1 z hz
    · exact d1 z hz
  · rw [ht]
    simp only [List.length_append, digitText_length, lit_slash, lit_at, lit_colon, List.length_cons, List.length_nil]
    omega
  · rw [ht]
    simp only [List.length_append, digitText_length, lit_slash, lit_at, lit_colon, List.length_cons, List.length_nil]
    omega
  · have hdt : ∀ {ds : List Nat}, (∀ d ∈ ds, d ≤ 9) → ∀ b ∈ digitText ds, Printable b := fun hds b hb => by
      obtain ⟨d, g, rfl⟩ := List.mem_map.mp hb
      unfold Printable
      have := hds d g
      rw [digit_nat this]; omega
    rw [ht]
    intro z hz
    simp only [List.mem_append] at hz
    rcases hz with (((((hz | hz) | hz) | hz) | hz) | hz) | hz
    · exact hdt a2 z hz
    · exact (show ∀ b ∈ "/".toUTF8.toList, 32 ≤ b.toNat ∧ b.toNat < 127 by rw [lit_slash]; decide) z hz
    · exact hdt b2 z hz
    · exact (show ∀ b ∈ " @ ".toUTF8.toList, 32 ≤ b.toNat ∧ b.toNat < 127 by rw [lit_at]; decide) z hz
    · exact hdt c1 z hz
    · exact (show ∀ b ∈ ":".toUTF8.toList, 32 ≤ b.toNat ∧ b.toNat < 127 by rw [lit_colon]; decide) z hz
    · exact hdt d1 z hz

/-- **C115** (times). The label of a time says the month, day, hour and minute of it, in local time. (`x` is in nanoseconds since 1970, as an `int64`; local time is `zone` seconds ahead then.) -/
theorem C115_time (zone : Int → Int) {x : Int} (hx : -9223372036854775808 ≤ x) (hz : -86400 ≤ zone (x / 1000000000)) :
    ∃ day sec : Nat, sec < 86400 ∧ ((day : Int) - 719162) * 86400 + sec = x / 1000000000 + zone (x / 1000000000) ∧
      SaysTime (timeLabel zone x) (dayNo day).month (dayNo day).day (sec / 3600) (sec % 3600 / 60) ∧ 11 ≤ (timeLabel zone x).length ∧ (timeLabel zone x).length ≤ 13 ∧ ∀ b ∈ timeLabel zone x, Printable b := by
  have hs : 0 ≤ localSec zone x := by unfold localSec; omega
  obtain ⟨s, hs'⟩ : ∃ s, s = (localSec zone x).toNat := ⟨_, rfl⟩
  have hsec : (s : Int) = x / 1000000000 + zone (x / 1000000000) + 62135596800 := by
    rw [hs', Int.toNat_of_nonneg hs]; rfl
  obtain ⟨a, b, c, d⟩ := timeLabel_text zone x hs'
  exact ⟨s / 86400, s % 86400, by omega, by omega, a, b, c, d⟩

end Rothko
