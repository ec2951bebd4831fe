import Verif.Lemmas.DurationFrac
import Verif.Spec.Pipe
/-!
# A duration is read as it is written (C111)
-/
namespace Rothko

/-! ## A term -/

theorem isNumChar_digit {c : UInt8} (h : isNumChar c = false) : isDigit c = false := by
  unfold isNumChar at h
  simp only [Bool.or_eq_false_iff] at h
  exact h.2

/-- What the units are for the program. -/
theorem durUnits_read {u : Bytes} {n : Nat} (h : (u, n) ∈ durUnits) :
    durUnit u = some (i64 n) ∧ 9223372036854775807 / i64 n = i64 (9223372036854775807 / n) ∧ u ≠ [] ∧ ∀ c ∈ u, isNumChar c = false := by
  have e : durUnits = [([110, 115], 1), ([117, 115], 1000), ([194, 181, 115], 1000), ([206, 188, 115], 1000), ([109, 115], 1000000), ([115], 1000000000), ([109], 60000000000), ([104], 3600000000000)] := by decide +kernel
  rw [e] at h
  simp only [List.mem_cons, List.not_mem_nil, or_false, Prod.mk.injEq] at h
  rcases h with ⟨rfl, rfl⟩ | ⟨rfl, rfl⟩ | ⟨rfl, rfl⟩ | ⟨rfl, rfl⟩ | ⟨rfl, rfl⟩ | ⟨rfl, rfl⟩ | ⟨rfl, rfl⟩ | ⟨rfl, rfl⟩ <;> exact ⟨by decide +kernel, by decide +kernel, by decide, by decide⟩

/-- What follows a term: nothing, or another number. -/
def TermEnd (rest : Bytes) : Prop := ∀ c, rest.head? = some c → isNumChar c = true

theorem unit_split {u rest : Bytes} (hu : ∀ c ∈ u, isNumChar c = false) (hr : TermEnd rest) :
    (u ++ rest).takeWhile (fun c => !isNumChar c) = u ∧ (u ++ rest).dropWhile (fun c => !isNumChar c) = rest := by
  induction u with
  | nil =>
    cases rest with
    | nil => exact ⟨rfl, rfl⟩
    | cons c s =>
      have := hr c rfl
      exact ⟨by simp [this], by simp [this]⟩
  | cons c u ih =>
    obtain ⟨i1, i2⟩ := ih (fun x hx => hu x (List.mem_cons_of_mem _ hx))
    have := hu c List.mem_cons_self
    simp [this, i1, i2]

/-- The unit of a term: its value is what the digits say, times the unit. -/
theorem termUnit_read {W f n i : Nat} {scale : ℚ} {u rest : Bytes} (hW : W < 9223372036854775808) (hf : f < 9223372036854775808) (hu : (u, n) ∈ durUnits) (hr : TermEnd rest)
    (hs : 0 < f → scale = tens i ∧ f < 10 ^ i) :
    ∃ F : Nat, termUnit (i64 W) (i64 f) scale (u ++ rest) = (if W * n + F < 9223372036854775808 then some (i64 (W * n + F), rest) else none) ∧
      |(F : ℚ) - f * n / 10 ^ i| < 1 + 1 / 200 ∧ (10 ^ i ∣ n → (F : ℚ) = f * n / 10 ^ i) := by
  obtain ⟨r1, r2, r3, r4⟩ := durUnits_read hu
  obtain ⟨s1, s2⟩ := unit_split r4 hr
  have hn := durUnits_size hu
  have hdiv : (9223372036854775807 / n < W) ↔ 9223372036854775808 ≤ W * n := by
    rw [Nat.div_lt_iff_lt_mul (by omega)]
    omega
  have hdl : 9223372036854775807 / n < 9223372036854775808 := by
    have := Nat.div_le_self 9223372036854775807 n
    omega
  have hov : (9223372036854775807 / i64 n < i64 W) ↔ 9223372036854775808 ≤ W * n := by
    rw [r2, i64_lt hdl hW, hdiv]
  have hmul : W * n < 9223372036854775808 → i64 W * i64 n = i64 (W * n) := fun h => i64_mul hW (by omega) h
  unfold termUnit
  rw [s1, s2, if_neg r3, r1]
  dsimp only
  rcases Nat.eq_zero_or_pos f with rfl | hpos
  · refine ⟨0, ?_, by norm_num, by norm_num⟩
    by_cases h : 9223372036854775808 ≤ W * n
    · rw [if_pos (hov.mpr h), if_neg (by omega)]
    · rw [if_neg (fun x => h (hov.mp x)), if_neg (by decide), hmul (by omega), if_pos (by omega)]; rfl
  · obtain ⟨rfl, hfi⟩ := hs hpos
    obtain ⟨F, F1, F2, F3, F4⟩ := fracNs_eq hf hfi hn
    refine ⟨F, ?_, F3, F4⟩
    by_cases h : 9223372036854775808 ≤ W * n
    · rw [if_pos (hov.mpr h), if_neg (by omega)]
    · have hp : (0 : Int64) < i64 f := (i64_lt (a := 0) (by omega) hf).mpr hpos
      obtain ⟨a1, a2⟩ := i64_sum (a := W * n) (b := F) (by omega) (by omega)
      rw [if_neg (fun x => h (hov.mp x)), if_pos hp, hmul (by omega), F2]
      by_cases h2 : 9223372036854775808 ≤ W * n + F
      · rw [if_pos (a1.mpr h2), if_neg (by omega)]
      · rw [if_neg (fun x => h2 (a1.mp x)), if_pos (by omega), a2 (by omega)]

/-- A number read for a term: within 1.01 nanoseconds of what the term says, and what it says if its last digit is worth whole nanoseconds. -/
def TermValue (t : DTerm) (v : Nat) : Prop := |(v : ℚ) - t.ns| < 1 + 1 / 100 ∧ (t.Fine → (v : ℚ) = t.ns)

theorem head_text {t : DTerm} (h : t.Ok) (rest : Bytes) : ∃ c s, t.text ++ rest = c :: s ∧ isNumChar c = true ∧ c ≠ 43 ∧ c ≠ 45 := by
  obtain ⟨whole, frac, unit, size⟩ := t
  cases whole with
  | cons d ds =>
    have hd : d ≤ 9 := h.whole d List.mem_cons_self
    have ht := digit_toNat hd
    refine ⟨UInt8.ofNat (48 + d), _, rfl, ?_, ?_, ?_⟩
    · unfold isNumChar
      rw [isDigit_text hd, Bool.or_true]
    · intro hc
      rw [hc] at ht
      have : (43 : UInt8).toNat = 43 := rfl
      omega
    · intro hc
      rw [hc] at ht
      have : (45 : UInt8).toNat = 45 := rfl
      omega
  | nil =>
    cases frac with
    | none => exact absurd h.some_digit (by rintro (h | h) <;> exact h rfl)
    | some ds => exact ⟨46, _, rfl, rfl, by decide, by decide⟩

/-- A term is read as what it says. -/
theorem term_read {t : DTerm} (h : t.Ok) {rest : Bytes} (hr : TermEnd rest) :
    ∃ v : Nat, TermValue t v ∧ parseTerm (t.text ++ rest) = if v < 9223372036854775808 then some (i64 v, rest) else none := by
  obtain ⟨r1, r2, r3, r4⟩ := durUnits_read h.unit
  have hn := durUnits_size h.unit
  obtain ⟨c, s, e, hc, _⟩ := head_text h rest
  have hunit : ∃ c s, t.unit ++ rest = c :: s ∧ isNumChar c = false := by
    cases hu : t.unit with
    | nil => exact absurd hu r3
    | cons c u => exact ⟨c, _, rfl, r4 c (by rw [hu]; exact List.mem_cons_self)⟩
  have hnd : NoDigit (t.unit ++ rest) := by
    obtain ⟨c, s, e, hc⟩ := hunit
    rw [e]
    rintro x ⟨⟩
    exact isNumChar_digit hc
  have hparse : parseTerm (t.text ++ rest) = match leadingInt 0 (t.text ++ rest) with
    | none => none
    | some (v, s1) => termFrac (s1.length != (t.text ++ rest).length) v s1 := by
    unfold parseTerm
    rw [if_neg (by rw [e]; simp [hc])]
    rfl
  rw [hparse]
  obtain ⟨W, hWdef⟩ : ∃ W, W = digitsValue t.whole := ⟨_, rfl⟩
  have hW0 : moreDigits 0 t.whole = W := by rw [hWdef]; rfl
  cases hfr : t.frac with
  | none =>
    have hp : t.places = [] := by unfold DTerm.places; rw [hfr]; rfl
    have hw : t.whole ≠ [] := by
      rcases h.some_digit with h | h
      · exact h
      · exact absurd hp h
    have ht : t.text ++ rest = digitText t.whole ++ (t.unit ++ rest) := by
      unfold DTerm.text; rw [hfr]; simp
    have hlen : ((t.unit ++ rest).length != (t.text ++ rest).length) = true := by
      rw [ht, List.length_append (as := digitText t.whole)]
      have : 0 < (digitText t.whole).length := by
        unfold digitText
        rw [List.length_map]
        exact List.length_pos_iff.mpr hw
      simp only [bne_iff_ne, ne_eq]
      omega
    have hns : t.ns = W * t.size := by
      unfold DTerm.ns
      rw [hp, hWdef]
      simp [digitsValue]
    have hl := leadingInt_read hnd t.whole 0 h.whole (by omega)
    rw [hW0, ← ht] at hl
    rw [show (0 : Int64) = i64 0 from rfl, hl]
    have hval : TermValue t (W * t.size) := by
      unfold TermValue
      rw [hns]
      push_cast
      exact ⟨by norm_num, fun _ => rfl⟩
    refine ⟨W * t.size, hval, ?_⟩
    by_cases hW : W < 9223372036854775808
    · rw [if_pos hW]
      dsimp only
      obtain ⟨F, F1, F2, F3⟩ := termUnit_read (f := 0) (scale := 1) (i := 0) hW (by omega) h.unit hr (by omega)
      have hF : F = 0 := by
        have := F3 (one_dvd _)
        rw [Nat.cast_zero, zero_mul, zero_div] at this
        exact_mod_cast this
      rw [hlen]
      unfold termFrac
      rw [if_neg (by
        obtain ⟨c, s, e, hc⟩ := hunit
        rw [e]
        intro x
        cases x
        simp [isNumChar] at hc), if_neg (by simp), show (0 : Int64) = i64 0 from rfl, F1, hF, Nat.add_zero]
    · rw [if_neg hW, if_neg (by nlinarith)]
  | some ds =>
    have hp : t.places = ds := by unfold DTerm.places; rw [hfr]; rfl
    have h9 : ∀ d ∈ ds, d ≤ 9 := by rw [← hp]; exact h.frac
    have ht : t.text ++ rest = digitText t.whole ++ (46 :: (digitText ds ++ (t.unit ++ rest))) := by
      unfold DTerm.text; rw [hfr]; simp
    have hl := leadingInt_read (rest := 46 :: (digitText ds ++ (t.unit ++ rest))) (by rintro x ⟨⟩; rfl) t.whole 0 h.whole (by omega)
    rw [hW0, ← ht] at hl
    rw [show (0 : Int64) = i64 0 from rfl, hl]
    obtain ⟨i, i1, i2, i3, i4⟩ := leadingFraction_read hnd ds 0 0 h9 (by omega)
    rw [Nat.zero_add] at i4
    obtain ⟨f, hfdef⟩ : ∃ f, f = digitsValue (ds.take i) := ⟨_, rfl⟩
    have hf0 : moreDigits 0 (ds.take i) = f := by rw [hfdef]; rfl
    rw [hf0] at i2 i4
    have hfi : f < 10 ^ i := by
      have := digitsValue_lt (ds.take i) (fun d hd => h9 d (List.mem_of_mem_take hd))
      rw [List.length_take, Nat.min_eq_left i1] at this
      omega
    obtain ⟨c1, c2⟩ := digits_cut ds h9 i i1
    have hns : t.ns = W * t.size + digitsValue ds / 10 ^ ds.length * t.size := by
      unfold DTerm.ns
      rw [hp, hWdef]
      ring
    have hnq : (1 : ℚ) ≤ t.size := by exact_mod_cast hn.1
    have hnq2 : (t.size : ℚ) ≤ 3600000000000 := by exact_mod_cast hn.2
    have h18 : i = ds.length ∨ 18 ≤ i := by
      rcases i3 with h | h
      · exact .inl h
      · right
        have hv := digitsValue_lt (ds.take (i + 1)) (fun d hd => h9 d (List.mem_of_mem_take hd))
        have hv2 : moreDigits 0 (ds.take (i + 1)) = digitsValue (ds.take (i + 1)) := rfl
        have hle : (ds.take (i + 1)).length ≤ i + 1 := by rw [List.length_take]; omega
        have hpw : 10 ^ (ds.take (i + 1)).length ≤ 10 ^ (i + 1) := Nat.pow_le_pow_right (by norm_num) hle
        by_contra hc
        have : 10 ^ (i + 1) ≤ 10 ^ 18 := Nat.pow_le_pow_right (by norm_num) (by omega)
        have : (10 : ℕ) ^ 18 = 1000000000000000000 := by norm_num
        omega
    have hval : ∀ F : ℕ, |(F : ℚ) - f * t.size / 10 ^ i| < 1 + 1 / 200 → (10 ^ i ∣ t.size → (F : ℚ) = f * t.size / 10 ^ i) → TermValue t (W * t.size + F) := by
      intro F F2 F3
      unfold TermValue
      rw [hns]
      push_cast
      obtain ⟨b1, b2⟩ := abs_lt.mp F2
      have e0 : (f : ℚ) * t.size / 10 ^ i = f / 10 ^ i * t.size := by ring
      rw [← hfdef] at c1 c2
      constructor
      · have hd : 0 ≤ (digitsValue ds : ℚ) / 10 ^ ds.length * t.size - f * t.size / 10 ^ i ∧ (digitsValue ds : ℚ) / 10 ^ ds.length * t.size - f * t.size / 10 ^ i ≤ 1 / 250000 := by
          rw [e0]
          constructor
          · have := mul_le_mul_of_nonneg_right c1 (by linarith : (0 : ℚ) ≤ t.size)
            linarith
          · rcases h18 with h | h
            · have : ds.take i = ds := by rw [h, List.take_length]
              rw [hfdef, this, h]
              norm_num
            · have hpw : (10 : ℚ) ^ 18 ≤ 10 ^ i := pow_le_pow_right₀ (by norm_num) h
              have h1 : (1 : ℚ) / 10 ^ i ≤ 1 / 10 ^ 18 := one_div_le_one_div_of_le (by norm_num) hpw
              have h2 : (1 : ℚ) / 10 ^ i * t.size ≤ 1 / 10 ^ 18 * 3600000000000 := mul_le_mul h1 hnq2 (by linarith) (by positivity)
              have h3 := mul_lt_mul_of_pos_right c2 (by linarith : (0 : ℚ) < t.size)
              have h4 : ((f : ℚ) + 1) / 10 ^ i * t.size = f / 10 ^ i * t.size + 1 / 10 ^ i * t.size := by ring
              have h5 : (1 : ℚ) / 10 ^ 18 * 3600000000000 ≤ 1 / 250000 := by norm_num
              linarith
        obtain ⟨d1, d2⟩ := hd
        rw [abs_lt]
        constructor <;> linarith
      · intro hfine
        unfold DTerm.Fine at hfine
        rw [hp] at hfine
        have hil : i = ds.length := by
          rcases h18 with h | h
          · exact h
          · exfalso
            have h1 := Nat.le_of_dvd (by omega) hfine
            have h2 : 10 ^ 18 ≤ 10 ^ ds.length := Nat.pow_le_pow_right (by norm_num) (by omega)
            have : (10 : ℕ) ^ 18 = 1000000000000000000 := by norm_num
            omega
        have htk : ds.take i = ds := by rw [hil, List.take_length]
        rw [F3 (by rw [hil]; exact hfine), hfdef, htk, hil]
        ring
    by_cases hW : W < 9223372036854775808
    · rw [if_pos hW]
      dsimp only
      obtain ⟨F, F1, F2, F3⟩ := termUnit_read (f := f) (scale := tens i) (i := i) hW i2 h.unit hr (fun _ => ⟨rfl, hfi⟩)
      refine ⟨W * t.size + F, hval F F2 F3, ?_⟩
      unfold termFrac
      rw [if_pos (show (46 :: (digitText ds ++ (t.unit ++ rest))).head? = some 46 from rfl)]
      have i4' : leadingFraction 0 1 false (List.tail (46 :: (digitText ds ++ (t.unit ++ rest)))) = (i64 f, tens i, t.unit ++ rest) := i4
      rw [i4', if_neg, F1]
      rintro ⟨x1, x2⟩
      have hw : t.whole = [] := by
        rw [ht] at x1
        simp only [bne_eq_false_iff_eq, List.length_append, digitText, List.length_map] at x1
        have : t.whole.length = 0 := by omega
        exact List.length_eq_zero_iff.mp this
      have hds : ds = [] := by
        have x2 : (t.unit ++ rest).length = (digitText ds ++ (t.unit ++ rest)).length := x2
        rw [List.length_append (as := digitText ds)] at x2
        have : (digitText ds).length = 0 := by omega
        unfold digitText at this
        rw [List.length_map] at this
        exact List.length_eq_zero_iff.mp this
      rcases h.some_digit with h | h
      · exact h hw
      · exact h (by rw [hp, hds])
    · rw [if_neg hW]
      obtain ⟨F, _, F2, F3⟩ := termUnit_read (W := 0) (f := f) (scale := tens i) (i := i) (by omega) i2 h.unit hr (fun _ => ⟨rfl, hfi⟩)
      exact ⟨W * t.size + F, hval F F2 F3, by rw [if_neg (by nlinarith)]⟩

/-! ## All of them -/

/-- The terms as text. -/
def termsText (ts : List DTerm) : Bytes := ts.flatMap DTerm.text

theorem termsText_end {ts : List DTerm} (h : ∀ t ∈ ts, t.Ok) : TermEnd (termsText ts) := by
  cases ts with
  | nil => rintro c ⟨⟩
  | cons t ts =>
    obtain ⟨c, s, e, hc, _⟩ := head_text (h t List.mem_cons_self) (termsText ts)
    have : termsText (t :: ts) = t.text ++ termsText ts := rfl
    rw [this, e]
    rintro x ⟨⟩
    exact hc

theorem terms_read : ∀ (ts : List DTerm) (n D : Nat), (∀ t ∈ ts, t.Ok) → ts.length ≤ n → D < 9223372036854775808 →
    ∃ vs : List Nat, EachOf TermValue ts vs ∧ termsLoop n (i64 D) (termsText ts) = if D + vs.sum < 9223372036854775808 then some (i64 (D + vs.sum)) else none := by
  intro ts
  induction ts with
  | nil =>
    intro n D _ _ hD
    refine ⟨[], .nil, ?_⟩
    rw [List.sum_nil, Nat.add_zero, if_pos hD]
    show termsLoop n (i64 D) [] = _
    unfold termsLoop; rfl
  | cons t ts ih =>
    intro n D hok hn hD
    have hok' : ∀ t ∈ ts, t.Ok := fun x hx => hok x (List.mem_cons_of_mem _ hx)
    cases n with
    | zero => exact absurd hn (by simp)
    | succ n =>
      obtain ⟨v, v1, v2⟩ := term_read (hok t List.mem_cons_self) (termsText_end hok')
      have e : termsText (t :: ts) = t.text ++ termsText ts := rfl
      obtain ⟨c, s, e2, _⟩ := head_text (hok t List.mem_cons_self) (termsText ts)
      rw [e2] at v2
      rw [e, e2]
      unfold termsLoop
      rw [v2]
      by_cases hv : v < 9223372036854775808
      · rw [if_pos hv]
        dsimp only
        obtain ⟨a1, a2⟩ := i64_sum hD hv
        by_cases hs : 9223372036854775808 ≤ D + v
        · rw [if_pos (a1.mpr hs)]
          obtain ⟨vs, h1, _⟩ := ih n 0 hok' (by simp at hn; omega) (by omega)
          refine ⟨v :: vs, .cons v1 h1, ?_⟩
          rw [List.sum_cons, if_neg (by omega)]
        · rw [if_neg (fun x => hs (a1.mp x)), a2 (by omega)]
          obtain ⟨vs, h1, h2⟩ := ih n (D + v) hok' (by simp at hn; omega) (by omega)
          refine ⟨v :: vs, .cons v1 h1, ?_⟩
          rw [List.sum_cons, ← Nat.add_assoc]
          exact h2
      · rw [if_neg hv]
        obtain ⟨vs, h1, _⟩ := ih n 0 hok' (by simp at hn; omega) (by omega)
        refine ⟨v :: vs, .cons v1 h1, ?_⟩
        rw [List.sum_cons, if_neg (by omega)]

theorem text_length {t : DTerm} (h : t.Ok) : 2 ≤ t.text.length := by
  obtain ⟨_, _, r3, _⟩ := durUnits_read h.unit
  have h1 := List.length_pos_iff.mpr r3
  unfold DTerm.text
  rcases h.some_digit with hw | hp
  · have := List.length_pos_iff.mpr hw
    simp only [List.length_append, digitText, List.length_map]
    omega
  · have hf : ∃ ds, t.frac = some ds ∧ ds ≠ [] := by
      unfold DTerm.places at hp
      cases hf : t.frac with
      | none => rw [hf] at hp; exact absurd rfl hp
      | some ds => rw [hf] at hp; exact ⟨ds, rfl, hp⟩
    obtain ⟨ds, hf, _⟩ := hf
    rw [hf]
    simp only [List.length_append, List.length_cons]
    omega

theorem termsText_length {ts : List DTerm} (h : ∀ t ∈ ts, t.Ok) : 2 * ts.length ≤ (termsText ts).length := by
  induction ts with
  | nil => simp
  | cons t ts ih =>
    have h1 := text_length (h t List.mem_cons_self)
    have h2 := ih (fun x hx => h x (List.mem_cons_of_mem _ hx))
    have e : termsText (t :: ts) = t.text ++ termsText ts := rfl
    rw [e, List.length_append, List.length_cons]
    omega

theorem unsigned_read {ts : List DTerm} (hne : ts ≠ []) (hok : ∀ t ∈ ts, t.Ok) :
    ∃ vs : List Nat, EachOf TermValue ts vs ∧ unsignedDuration (termsText ts) = if vs.sum < 9223372036854775808 then some (i64 vs.sum) else none := by
  have hl := termsText_length hok
  have hp := List.length_pos_iff.mpr hne
  obtain ⟨vs, h1, h2⟩ := terms_read ts (termsText ts).length 0 hok (by omega) (by omega)
  refine ⟨vs, h1, ?_⟩
  unfold unsignedDuration
  rw [if_neg (fun h => by rw [h] at hl; have hl : 2 * ts.length ≤ 1 := hl; omega), if_neg (fun h => by rw [h] at hl; have hl : 2 * ts.length ≤ 0 := hl; omega), show (0 : Int64) = i64 0 from rfl, h2, Nat.zero_add]

theorem i64_neg {n : Nat} (h : n < 9223372036854775808) : (-(i64 n)).toInt = - (n : Int) := by
  rw [Int64.toInt_neg, i64_toInt h, Int.bmod_eq_of_le] <;> omega

/-- Signs. -/
theorem signed {sign : Bytes} {sg : Int} (hs : (sign, sg) ∈ durSigns) {s : Bytes} (h : ∀ c, s.head? = some c → c ≠ 43 ∧ c ≠ 45) {m : Nat} {p : Prop} [Decidable p] (hm : p → m < 9223372036854775808)
    (hu : unsignedDuration s = if p then some (i64 m) else none) : (parseDuration (sign ++ s)).map Int64.toInt = if p then some (sg * m) else none := by
  simp only [durSigns, List.mem_cons, List.not_mem_nil, or_false, Prod.mk.injEq] at hs
  rcases hs with ⟨rfl, rfl⟩ | ⟨rfl, rfl⟩ | ⟨rfl, rfl⟩
  · unfold parseDuration
    rw [List.nil_append, if_neg (fun x => (h _ x).2 rfl), if_neg (fun x => (h _ x).1 rfl), hu]
    split
    · rename_i hp
      rw [Option.map_some, i64_toInt (hm hp), one_mul]
    · rfl
  · show (unsignedDuration s).map _ = _
    rw [hu]
    split
    · rename_i hp
      rw [Option.map_some, i64_toInt (hm hp), one_mul]
    · rfl
  · show ((unsignedDuration s).map _).map _ = _
    rw [hu]
    split
    · rename_i hp
      rw [Option.map_some, Option.map_some, i64_neg (hm hp), neg_one_mul]
    · rfl

/-- **C111** (read). A sign or none and terms are read as the sum of their values with that sign, each value within 1.01 nanoseconds of what its term says, and exactly that if its last digit is worth whole nanoseconds; if the
sum is 2^63 nanoseconds or more (292 years) the text is refused. -/
theorem C111_read {sign : Bytes} {sg : Int} (hs : (sign, sg) ∈ durSigns) {ts : List DTerm} (hne : ts ≠ []) (hok : ∀ t ∈ ts, t.Ok) :
    ∃ vs : List Nat, EachOf (fun (t : DTerm) (v : Nat) => |(v : ℚ) - t.ns| < 1 + 1 / 100 ∧ (t.Fine → (v : ℚ) = t.ns)) ts vs ∧
      (parseDuration (sign ++ ts.flatMap DTerm.text)).map Int64.toInt = if vs.sum < 9223372036854775808 then some (sg * vs.sum) else none := by
  obtain ⟨vs, h1, h2⟩ := unsigned_read hne hok
  refine ⟨vs, h1, signed hs ?_ (fun h => h) h2⟩
  intro c hc
  cases ts with
  | nil => exact absurd rfl hne
  | cons t ts =>
    obtain ⟨c', s, e, _, h3⟩ := head_text (hok t List.mem_cons_self) (termsText ts)
    have e' : termsText (t :: ts) = t.text ++ termsText ts := rfl
    have hc : (termsText (t :: ts)).head? = some c := hc
    rw [e', e] at hc
    cases hc
    exact h3

/-- **C111** (exact). If in every term the last digit is worth whole nanoseconds, the text is read as exactly what it says. -/
theorem C111_exact {sign : Bytes} {sg : Int} (hs : (sign, sg) ∈ durSigns) {ts : List DTerm} (hne : ts ≠ []) (hok : ∀ t ∈ ts, t.Ok) (hf : ∀ t ∈ ts, t.Fine) :
    ((ts.map DTerm.ns).sum < 9223372036854775808 → ∃ d, parseDuration (sign ++ ts.flatMap DTerm.text) = some d ∧ (d.toInt : ℚ) = sg * (ts.map DTerm.ns).sum) ∧
      (9223372036854775808 ≤ (ts.map DTerm.ns).sum → parseDuration (sign ++ ts.flatMap DTerm.text) = none) := by
  obtain ⟨vs, h1, h2⟩ := C111_read hs hne hok
  have hsum : ((vs.sum : ℕ) : ℚ) = (ts.map DTerm.ns).sum := by
    clear h2 hne hok
    induction h1 with
    | nil => simp
    | cons hR _ ih =>
      rw [List.sum_cons, List.map_cons, List.sum_cons, Nat.cast_add, ih (fun x hx => hf x (List.mem_cons_of_mem _ hx)), hR.2 (hf _ List.mem_cons_self)]
  rw [← hsum]
  constructor
  · intro h
    have h : vs.sum < 9223372036854775808 := by exact_mod_cast h
    rw [if_pos h] at h2
    cases hp : parseDuration (sign ++ ts.flatMap DTerm.text) with
    | none => rw [hp] at h2; cases h2
    | some d =>
      rw [hp] at h2
      refine ⟨d, rfl, ?_⟩
      rw [Option.map_some] at h2
      rw [Option.some.inj h2]
      push_cast; rfl
  · intro h
    have h : 9223372036854775808 ≤ vs.sum := by exact_mod_cast h
    rw [if_neg (by omega)] at h2
    exact Option.map_eq_none_iff.mp h2

/-- **C111** (zero). A zero needs no unit. -/
theorem C111_zero {sign : Bytes} {sg : Int} (hs : (sign, sg) ∈ durSigns) : parseDuration (sign ++ [48]) = some 0 := by
  simp only [durSigns, List.mem_cons, List.not_mem_nil, or_false, Prod.mk.injEq] at hs
  rcases hs with ⟨rfl, rfl⟩ | ⟨rfl, rfl⟩ | ⟨rfl, rfl⟩ <;> rfl

/-! ## Nothing else is read -/

theorem digit_of {c : UInt8} (h : isDigit c = true) : ∃ d, d ≤ 9 ∧ c = UInt8.ofNat (48 + d) := by
  unfold isDigit at h
  rw [Bool.and_eq_true, decide_eq_true_eq, decide_eq_true_eq, UInt8.le_iff_toNat_le, UInt8.le_iff_toNat_le] at h
  have h1 : (48 : UInt8).toNat = 48 := rfl
  have h2 : (57 : UInt8).toNat = 57 := rfl
  refine ⟨c.toNat - 48, by omega, ?_⟩
  apply UInt8.toNat_inj.mp
  rw [digit_toNat (by omega)]
  omega

theorem leadingInt_only : ∀ (s : Bytes) (x v : Int64) (r : Bytes), leadingInt x s = some (v, r) → ∃ ds : List Nat, (∀ d ∈ ds, d ≤ 9) ∧ s = digitText ds ++ r := by
  intro s
  induction s with
  | nil =>
    intro x v r h
    unfold leadingInt at h
    cases h
    exact ⟨[], by simp, rfl⟩
  | cons c s ih =>
    intro x v r h
    rw [leadingInt] at h
    split at h
    · cases h
      exact ⟨[], by simp, rfl⟩
    · rename_i hd
      split at h
      · cases h
      · split at h
        · cases h
        · obtain ⟨ds, d1, d2⟩ := ih _ _ _ h
          obtain ⟨d, d3, d4⟩ := digit_of (c := c) (by simpa using hd)
          exact ⟨d :: ds, by intro y hy; rcases List.mem_cons.mp hy with rfl | hy; exacts [d3, d1 y hy], by rw [d2, d4]; rfl⟩

theorem leadingFraction_only : ∀ (s : Bytes) (x : Int64) (scale : ℚ) (o : Bool), ∃ ds : List Nat, (∀ d ∈ ds, d ≤ 9) ∧ s = digitText ds ++ (leadingFraction x scale o s).2.2 := by
  intro s
  induction s with
  | nil => intro x scale o; exact ⟨[], by simp, rfl⟩
  | cons c s ih =>
    intro x scale o
    by_cases hd : isDigit c = false
    · rw [leadingFraction, if_pos hd]
      exact ⟨[], by simp, rfl⟩
    · obtain ⟨d, d3, d4⟩ := digit_of (c := c) (by simpa using hd)
      have go : ∀ x scale o, ∃ ds : List Nat, (∀ d ∈ ds, d ≤ 9) ∧ c :: s = digitText ds ++ (leadingFraction x scale o s).2.2 := by
        intro x scale o
        obtain ⟨ds, d1, d2⟩ := ih x scale o
        exact ⟨d :: ds, by intro y hy; rcases List.mem_cons.mp hy with rfl | hy; exacts [d3, d1 y hy], by rw [d4]; exact congrArg (UInt8.ofNat (48 + d) :: ·) d2⟩
      rw [leadingFraction, if_neg hd]
      split
      · exact go _ _ _
      · split
        · exact go _ _ _
        · split
          · exact go _ _ _
          · exact go _ _ _

theorem durUnit_only {u : Bytes} {k : Int64} (h : durUnit u = some k) : ∃ n, (u, n) ∈ durUnits := by
  have e : durUnits = [([110, 115], 1), ([117, 115], 1000), ([194, 181, 115], 1000), ([206, 188, 115], 1000), ([109, 115], 1000000), ([115], 1000000000), ([109], 60000000000), ([104], 3600000000000)] := by decide +kernel
  rw [e]
  unfold durUnit at h
  repeat' split at h
  all_goals first
    | (cases h; done)
    | (subst_vars; simp)

theorem termUnit_only {v f w : Int64} {scale : ℚ} {s rest : Bytes} (h : termUnit v f scale s = some (w, rest)) : ∃ u n, (u, n) ∈ durUnits ∧ s = u ++ rest := by
  have hs := (List.takeWhile_append_dropWhile (p := fun c => !isNumChar c) (l := s)).symm
  unfold termUnit at h
  split at h
  · cases h
  · cases hu : durUnit (s.takeWhile (fun c => !isNumChar c)) with
    | none => rw [hu] at h; cases h
    | some k =>
      obtain ⟨n, hn⟩ := durUnit_only hu
      rw [hu] at h
      dsimp only at h
      split at h
      · cases h
      · split at h
        · split at h
          · cases h
          · cases h
            exact ⟨_, n, hn, hs⟩
        · cases h
          exact ⟨_, n, hn, hs⟩

theorem parseTerm_only {s rest : Bytes} {v : Int64} (h : parseTerm s = some (v, rest)) : ∃ t : DTerm, t.Ok ∧ s = t.text ++ rest := by
  unfold parseTerm at h
  split at h
  · cases h
  · cases hl : leadingInt 0 s with
    | none => rw [hl] at h; cases h
    | some p =>
      obtain ⟨w, s1⟩ := p
      rw [hl] at h
      dsimp only at h
      obtain ⟨ws, w1, w2⟩ := leadingInt_only _ _ _ _ hl
      have hlen : (s1.length != s.length) = false → False ∨ ws = [] := by
        intro hx
        right
        rw [w2, List.length_append] at hx
        simp only [bne_eq_false_iff_eq, digitText, List.length_map] at hx
        exact List.length_eq_zero_iff.mp (by omega)
      have hlen' : ¬ ((s1.length != s.length) = false) → ws ≠ [] := by
        rintro hx rfl
        apply hx
        rw [w2]
        simp [digitText]
      unfold termFrac at h
      split at h
      · rename_i hd
        obtain ⟨s2, rfl⟩ : ∃ s2, s1 = 46 :: s2 := by
          cases s1 with
          | nil => cases hd
          | cons c s2 => cases hd; exact ⟨s2, rfl⟩
        obtain ⟨ds, d1, d2⟩ := leadingFraction_only s2 0 1 false
        split at h
        · cases h
        · rename_i hc
          obtain ⟨u, n, u1, u2⟩ := termUnit_only h
          rw [List.tail_cons] at u2 hc
          refine ⟨⟨ws, some ds, u, n⟩, ⟨w1, d1, ?_, u1⟩, ?_⟩
          · by_cases hw : ws = []
            · right
              rintro hds
              apply hc
              have hds : ds = [] := hds
              refine ⟨?_, ?_⟩
              · by_contra hx
                exact hlen' hx hw
              · have := congrArg List.length d2
                rw [hds] at this
                simp [digitText] at this
                exact this.symm
            · exact .inl hw
          · rw [u2] at d2
            rw [w2, d2]
            unfold DTerm.text
            simp
      · split at h
        · cases h
        · rename_i hx
          obtain ⟨u, n, u1, u2⟩ := termUnit_only h
          refine ⟨⟨ws, none, u, n⟩, ⟨w1, (fun d hd => by cases hd), .inl (hlen' hx), u1⟩, ?_⟩
          rw [w2, u2]
          unfold DTerm.text
          simp

theorem termsLoop_only : ∀ (n : Nat) (D d : Int64) (s : Bytes), termsLoop n D s = some d → ∃ ts : List DTerm, (∀ t ∈ ts, t.Ok) ∧ s = termsText ts := by
  intro n
  induction n with
  | zero =>
    intro D d s h
    cases s with
    | nil => exact ⟨[], by simp, rfl⟩
    | cons c s => simp [termsLoop] at h
  | succ n ih =>
    intro D d s h
    cases s with
    | nil => exact ⟨[], by simp, rfl⟩
    | cons c s =>
      rw [termsLoop] at h
      cases hp : parseTerm (c :: s) with
      | none => rw [hp] at h; cases h
      | some p =>
        obtain ⟨v, rest⟩ := p
        rw [hp] at h
        dsimp only at h
        split at h
        · cases h
        · obtain ⟨t, t1, t2⟩ := parseTerm_only hp
          obtain ⟨ts, h1, h2⟩ := ih _ _ _ h
          refine ⟨t :: ts, ?_, ?_⟩
          · intro x hx
            rcases List.mem_cons.mp hx with rfl | hx
            exacts [t1, h1 x hx]
          · rw [t2, h2]; rfl
      · intro h; cases h

/-- **C111** (only). Nothing else is read: a text that is read is a sign or none and a zero, or a sign or none and terms. -/
theorem C111_only {s : Bytes} {d : Int64} (h : parseDuration s = some d) :
    ∃ sign sg, (sign, sg) ∈ durSigns ∧ (s = sign ++ [48] ∨ ∃ ts : List DTerm, ts ≠ [] ∧ (∀ t ∈ ts, t.Ok) ∧ s = sign ++ ts.flatMap DTerm.text) := by
  have un : ∀ s d, unsignedDuration s = some d → s = [48] ∨ ∃ ts : List DTerm, ts ≠ [] ∧ (∀ t ∈ ts, t.Ok) ∧ s = ts.flatMap DTerm.text := by
    intro s d h
    unfold unsignedDuration at h
    split at h
    · left; assumption
    · split at h
      · cases h
      · rename_i hne
        obtain ⟨ts, h1, h2⟩ := termsLoop_only _ _ _ _ h
        refine .inr ⟨ts, ?_, h1, h2⟩
        rintro rfl
        exact hne h2
  have cons : ∀ c, s.head? = some c → s = c :: s.tail := by
    intro c hc
    cases s with
    | nil => cases hc
    | cons x s => cases hc; rfl
  unfold parseDuration at h
  split at h
  · rename_i hc
    cases hu : unsignedDuration s.tail with
    | none => rw [hu] at h; cases h
    | some k =>
      refine ⟨[45], -1, by simp [durSigns], ?_⟩
      rcases un _ _ hu with e | ⟨ts, h1, h2, e⟩
      · left; rw [cons _ hc, e]; rfl
      · right; exact ⟨ts, h1, h2, by rw [cons _ hc, e]; rfl⟩
  · split at h
    · rename_i hc
      refine ⟨[43], 1, by simp [durSigns], ?_⟩
      rcases un _ _ h with e | ⟨ts, h1, h2, e⟩
      · left; rw [cons _ hc, e]; rfl
      · right; exact ⟨ts, h1, h2, by rw [cons _ hc, e]; rfl⟩
    · refine ⟨[], 1, by simp [durSigns], ?_⟩
      exact un _ _ h

end Rothko
