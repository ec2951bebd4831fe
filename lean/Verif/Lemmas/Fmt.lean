import Verif.Model.Fmt
import Verif.Lemmas.Ieee
import Verif.Props.DurationText
import Mathlib.Tactic.Linarith
import Mathlib.Tactic.Positivity
import Mathlib.Tactic.NormNum
import Mathlib.Tactic.IntervalCases
import Mathlib.Tactic.Ring
import Mathlib.Tactic.FieldSimp
/-! Lemmas for C115: the decimal digits of numbers. -/
namespace Rothko

/-! ## Three digits -/

theorem ten_zpow_pos (e : ℤ) : (0 : ℚ) < 10 ^ e := by positivity

theorem ten_zpow_nat {e : ℤ} (h : 0 ≤ e) : ∃ n : ℕ, (10 : ℚ) ^ e = n := ⟨10 ^ e.toNat, by
  have : (10 : ℚ) ^ e = 10 ^ (e.toNat : ℤ) := by rw [Int.toNat_of_nonneg h]
  rw [this, zpow_natCast]; push_cast; rfl⟩

/-- The rounded number: `m` times ten to the `e - 2`. -/
theorem round3 {q : ℚ} (hq : 0 < q) : ∃ (m : ℕ) (e : ℤ), e = Int.log 10 q ∧ m = (roundEven (q / 10 ^ (e - 2))).toNat ∧ 100 ≤ m ∧ m ≤ 1000 ∧ |(m : ℚ) * 10 ^ (e - 2) - q| ≤ 10 ^ (e - 2) / 2 ∧
    (10 : ℚ) ^ e ≤ q ∧ ∀ n : ℤ, |(m : ℚ) * 10 ^ (e - 2) - q| ≤ |(n : ℚ) * 10 ^ (e - 2) - q| := by
  obtain ⟨e, he⟩ : ∃ e, e = Int.log 10 q := ⟨_, rfl⟩
  have h1 : (10 : ℚ) ^ e ≤ q := by rw [he]; exact_mod_cast Int.zpow_log_le_self (b := 10) (by norm_num) hq
  have h2 : q < (10 : ℚ) ^ (e + 1) := by rw [he]; exact_mod_cast Int.lt_zpow_succ_log_self (b := 10) (by norm_num) q
  have hp := ten_zpow_pos (e - 2)
  have p1 : (10 : ℚ) ^ e = 100 * 10 ^ (e - 2) := by
    rw [show e = (e - 2) + 2 by omega, zpow_add₀ (by norm_num)]; norm_num; ring
  have p2 : (10 : ℚ) ^ (e + 1) = 1000 * 10 ^ (e - 2) := by
    rw [show e + 1 = (e - 2) + 3 by omega, zpow_add₀ (by norm_num)]; norm_num; ring
  obtain ⟨s, hs⟩ : ∃ s, s = q / 10 ^ (e - 2) := ⟨_, rfl⟩
  have hq' : q = s * 10 ^ (e - 2) := by rw [hs]; field_simp
  have s1 : (100 : ℤ) ≤ s := by
    rw [hs, le_div_iff₀ hp]; push_cast; linarith
  have s2 : s ≤ (1000 : ℤ) := by
    rw [hs, div_le_iff₀ hp]; push_cast; linarith
  have r1 := roundEven_ge s1
  have r2 := roundEven_le s2
  have hm : ((roundEven s).toNat : ℚ) = (roundEven s : ℚ) := by exact_mod_cast Int.toNat_of_nonneg (by omega : 0 ≤ roundEven s)
  refine ⟨(roundEven s).toNat, e, he, by rw [hs], by omega, by omega, ?_, h1, fun n => ?_⟩
  · rw [hm, hq', ← sub_mul, abs_mul, abs_of_pos hp]
    have := roundEven_err s
    nlinarith
  · rw [hm, hq', ← sub_mul, abs_mul, abs_of_pos hp, ← sub_mul, abs_mul, abs_of_pos hp]
    have := roundEven_nearest s n
    rw [abs_sub_comm s, abs_sub_comm s] at this
    nlinarith

/-- It is nearest to `q` among the numbers of three digits, and less than half a percent away. -/
theorem round3_nearest {q : ℚ} (hq : 0 < q) {m : ℕ} {e : ℤ} (h1 : 100 ≤ m) (h2 : m ≤ 1000) (h3 : |(m : ℚ) * 10 ^ (e - 2) - q| ≤ 10 ^ (e - 2) / 2) (h4 : (10 : ℚ) ^ e ≤ q)
    (h5 : ∀ n : ℤ, |(m : ℚ) * 10 ^ (e - 2) - q| ≤ |(n : ℚ) * 10 ^ (e - 2) - q|) :
    Nearest3 q (m * 10 ^ (e - 2)) ∧ |(m : ℚ) * 10 ^ (e - 2) - q| ≤ q / 200 := by
  have hp := ten_zpow_pos (e - 2)
  have p1 : (10 : ℚ) ^ e = 100 * 10 ^ (e - 2) := by
    rw [show e = (e - 2) + 2 by omega, zpow_add₀ (by norm_num)]; norm_num; ring
  have hhalf : |(m : ℚ) * 10 ^ (e - 2) - q| ≤ q / 200 := by
    refine h3.trans ?_
    linarith
  refine ⟨.inr ⟨hq.ne', ?_, ?_⟩, hhalf⟩
  · by_cases hm : m = 1000
    · refine ⟨100, e - 1, by omega, by omega, .inl ?_⟩
      rw [hm, show e - 1 = (e - 2) + 1 by omega, zpow_add₀ (by norm_num)]; norm_num; ring
    · exact ⟨m, e - 2, h1, by omega, .inl rfl⟩
  · rintro r' ⟨m', k, g1, g2, g⟩
    have hk := ten_zpow_pos k
    rcases g with g | g
    · by_cases hke : e - 2 ≤ k
      · obtain ⟨n, hn⟩ := ten_zpow_nat (e := k - (e - 2)) (by omega)
        have : r' = ((m' * n : ℕ) : ℤ) * 10 ^ (e - 2) := by
          rw [g, show k = (k - (e - 2)) + (e - 2) by omega, zpow_add₀ (by norm_num), hn]; push_cast; ring
        rw [this]; exact h5 _
      · have h100 := h5 100
        have hk3 : (10 : ℚ) ^ k * 10 ≤ 10 ^ (e - 2) := by
          have : (10 : ℚ) ^ k * 10 = 10 ^ (k + 1) := by rw [zpow_add₀ (by norm_num)]; norm_num
          rw [this]; exact zpow_le_zpow_right₀ (by norm_num) (by omega)
        have hr' : r' ≤ 100 * 10 ^ (e - 2) := by
          rw [g]
          have : (m' : ℚ) ≤ 999 := by exact_mod_cast g2
          nlinarith
        push_cast at h100
        refine h100.trans ?_
        rw [abs_sub_comm, abs_sub_comm r', abs_of_nonneg (by linarith), abs_of_nonneg (by linarith)]
        linarith
    · have : r' ≤ 0 := by
        rw [g]
        have : (0 : ℚ) ≤ m' := by positivity
        nlinarith
      rw [abs_sub_comm r', abs_of_nonneg (by linarith : 0 ≤ q - r')]
      linarith

/-- The digits are one to three, the first not zero; without the zeros cut off they are those of the rounded number. -/
theorem threeDigits_ok {q : ℚ} (hq : 0 < q) : ∃ (ds : List Nat) (dp : Int), threeDigits q = ⟨ds, dp⟩ ∧ (∃ a b c, a ≠ 0 ∧ a ≤ 9 ∧ b ≤ 9 ∧ c ≤ 9 ∧ (ds = [a] ∨ ds = [a, b] ∨ ds = [a, b, c])) ∧
    Nearest3 q (digitsValue ds * 10 ^ (dp - ds.length)) ∧ |digitsValue ds * 10 ^ (dp - ds.length) - q| ≤ q / 200 ∧ 0 < (digitsValue ds : ℚ) ∧ Int.log 10 q + 1 ≤ dp ∧ dp ≤ Int.log 10 q + 2 := by
  obtain ⟨m, e, he, hm, m1, m2, m3, m4, m5⟩ := round3 hq
  obtain ⟨n1, n2⟩ := round3_nearest hq m1 m2 m3 m4 m5
  unfold threeDigits
  dsimp only
  rw [← he, ← hm]
  by_cases h0 : m = 1000
  · rw [if_pos h0]
    refine ⟨[1], e + 2, rfl, ⟨1, 0, 0, by omega, by omega, by omega, by omega, .inl rfl⟩, ?_⟩
    have : (digitsValue [1] : ℚ) * 10 ^ (e + 2 - (([1] : List Nat).length : ℤ)) = m * 10 ^ (e - 2) := by
      rw [h0, show e + 2 - (([1] : List Nat).length : ℤ) = (e - 2) + 3 by simp; omega, zpow_add₀ (by norm_num)]; norm_num [digitsValue]; ring
    rw [this]
    exact ⟨n1, n2, by norm_num [digitsValue], by omega, by omega⟩
  · rw [if_neg h0]
    obtain ⟨a, b, c, ha⟩ : ∃ a b c, a = m / 100 ∧ b = m / 10 % 10 ∧ c = m % 10 := ⟨_, _, _, rfl, rfl, rfl⟩
    obtain ⟨ha, hb, hc⟩ := ha
    rw [← ha, ← hb, ← hc]
    have hval : m = a * 100 + b * 10 + c := by omega
    have a1 : a ≠ 0 := by omega
    have a2 : a ≤ 9 := by omega
    have a3 : b ≤ 9 := by omega
    have a4 : c ≤ 9 := by omega
    have hvq : (m : ℚ) = a * 100 + b * 10 + c := by exact_mod_cast hval
    have apos : (0 : ℚ) < a := by exact_mod_cast Nat.pos_of_ne_zero a1
    by_cases c0 : c = 0
    · by_cases b0 : b = 0
      · have ht : trimZeros [a, b, c] = [a] := by simp [trimZeros, c0, b0, a1]
        rw [ht]
        refine ⟨[a], e + 1, rfl, ⟨a, 0, 0, a1, a2, by omega, by omega, .inl rfl⟩, ?_⟩
        have : (digitsValue [a] : ℚ) * 10 ^ (e + 1 - (([a] : List Nat).length : ℤ)) = m * 10 ^ (e - 2) := by
          rw [hvq, c0, b0, show e + 1 - (([a] : List Nat).length : ℤ) = (e - 2) + 2 by simp, zpow_add₀ (by norm_num)]; norm_num [digitsValue]; ring
        rw [this]
        exact ⟨n1, n2, by simp [digitsValue]; omega, by omega, by omega⟩
      · have ht : trimZeros [a, b, c] = [a, b] := by simp [trimZeros, c0, b0]
        rw [ht]
        refine ⟨[a, b], e + 1, rfl, ⟨a, b, 0, a1, a2, a3, by omega, .inr (.inl rfl)⟩, ?_⟩
        have : (digitsValue [a, b] : ℚ) * 10 ^ (e + 1 - (([a, b] : List Nat).length : ℤ)) = m * 10 ^ (e - 2) := by
          rw [hvq, c0, show e + 1 - (([a, b] : List Nat).length : ℤ) = (e - 2) + 1 by simp; omega, zpow_add₀ (by norm_num)]; norm_num [digitsValue]; ring
        rw [this]
        exact ⟨n1, n2, by exact_mod_cast (show 0 < (0 * 10 + a) * 10 + b by omega), by omega, by omega⟩
    · have ht : trimZeros [a, b, c] = [a, b, c] := by simp [trimZeros, c0]
      rw [ht]
      refine ⟨[a, b, c], e + 1, rfl, ⟨a, b, c, a1, a2, a3, a4, .inr (.inr rfl)⟩, ?_⟩
      have : (digitsValue [a, b, c] : ℚ) * 10 ^ (e + 1 - (([a, b, c] : List Nat).length : ℤ)) = m * 10 ^ (e - 2) := by
        rw [show e + 1 - (([a, b, c] : List Nat).length : ℤ) = e - 2 by simp; omega, show digitsValue [a, b, c] = m from (show ((0 * 10 + a) * 10 + b) * 10 + c = m by omega)]
      rw [this]
      exact ⟨n1, n2, by exact_mod_cast (show 0 < ((0 * 10 + a) * 10 + b) * 10 + c by omega), by omega, by omega⟩

/-! ## The flag # -/

theorem digit_nat {d : Nat} (h : d ≤ 9) : (UInt8.ofNat (48 + d)).toNat = 48 + d := by
  rw [UInt8.toNat_ofNat']; omega

theorem digit_ne {d : Nat} (h : d ≤ 9) {c : UInt8} (hc : c.toNat < 48 ∨ 57 < c.toNat) : UInt8.ofNat (48 + d) ≠ c := fun e => by
  have := congrArg UInt8.toNat e
  rw [digit_nat h] at this; omega

theorem digit_zero {d : Nat} (h : d ≤ 9) : UInt8.ofNat (48 + d) = 48 ↔ d = 0 := ⟨fun e => by
  have := congrArg UInt8.toNat e
  rw [digit_nat h] at this
  have : (48 : UInt8).toNat = 48 := rfl
  omega, fun e => by subst e; rfl⟩

theorem digitText_append (a b : List Nat) : digitText (a ++ b) = digitText a ++ digitText b := List.map_append ..

theorem digitText_all {ds : List Nat} (h : ∀ d ∈ ds, d ≤ 9) {c : UInt8} (hc : c.toNat < 48 ∨ 57 < c.toNat) : ∀ b ∈ digitText ds, b ≠ c := fun b hb => by
  obtain ⟨d, hd, rfl⟩ := List.mem_map.mp hb
  exact digit_ne (h d hd) hc

/-- A dot and digits, or nothing if there are none. -/
def dotted (F : List Nat) : Bytes := if F = [] then [] else 46 :: digitText F

theorem dotted_all {F : List Nat} (h : ∀ d ∈ F, d ≤ 9) : ∀ b ∈ dotted F, b ≠ 101 := fun b hb => by
  unfold dotted at hb
  split at hb
  · cases hb
  · rcases List.mem_cons.mp hb with rfl | hb
    · decide
    · exact digitText_all h (.inr (by decide)) b hb

theorem takeWhile_stop {p : UInt8 → Bool} {a t : Bytes} (h : ∀ b ∈ a, p b = true) (ht : t = [] ∨ ∃ c r, t = c :: r ∧ p c = false) : (a ++ t).takeWhile p = a ∧ (a ++ t).dropWhile p = t := by
  induction a with
  | nil =>
    rcases ht with rfl | ⟨c, r, rfl, hc⟩
    · exact ⟨rfl, rfl⟩
    · simp [hc]
  | cons b a ih =>
    have hb := h b (by simp)
    obtain ⟨i1, i2⟩ := ih (fun x hx => h x (by simp [hx]))
    rw [List.cons_append, List.takeWhile_cons_of_pos hb, List.dropWhile_cons_of_pos hb]
    exact ⟨by rw [i1], i2⟩

theorem filter_digitText {ds : List Nat} (h : ∀ d ∈ ds, d ≤ 9) : (digitText ds).filter (fun c => decide (c ≠ 46)) = digitText ds :=
  List.filter_eq_self.mpr (fun b hb => by simpa using digitText_all h (.inl (by decide)) b hb)

theorem dropWhile_digitText : ∀ {ds : List Nat}, (∀ d ∈ ds, d ≤ 9) → ((digitText ds).dropWhile (fun c => decide (c = 48))) = digitText (ds.dropWhile (fun d => d = 0))
  | [], _ => rfl
  | d :: ds, h => by
    have hd := h d (by simp)
    by_cases h0 : d = 0
    · subst h0
      rw [List.dropWhile_cons_of_pos (by simp)]
      show List.dropWhile _ (48 :: digitText ds) = _
      rw [List.dropWhile_cons_of_pos (by simp)]
      exact dropWhile_digitText (fun x hx => h x (by simp [hx]))
    · rw [List.dropWhile_cons_of_neg (by simpa using h0)]
      show List.dropWhile _ (UInt8.ofNat (48 + d) :: digitText ds) = _
      rw [List.dropWhile_cons_of_neg (by simpa using fun e => h0 ((digit_zero hd).mp e))]
      rfl

theorem digitText_replicate (k : Nat) : digitText (List.replicate k 0) = List.replicate k 48 := by
  unfold digitText; rw [List.map_replicate]; rfl

/-- How many digits # counts. -/
def sigCount (old : Bool) (W F : List Nat) : Nat := if old then (W ++ F).length else if W = [0] ∧ F = [] then 1 else ((W ++ F).dropWhile (fun d => d = 0)).length

theorem digitText_inj : ∀ {a b : List Nat}, (∀ d ∈ a, d ≤ 9) → (∀ d ∈ b, d ≤ 9) → digitText a = digitText b → a = b
  | [], [], _, _, _ => rfl
  | [], _ :: _, _, _, h => by cases h
  | _ :: _, [], _, _, h => by cases h
  | x :: a, y :: b, ha, hb, h => by
    injection h with h1 h2
    have := congrArg UInt8.toNat h1
    rw [digit_nat (ha x (by simp)), digit_nat (hb y (by simp))] at this
    rw [digitText_inj (fun d hd => ha d (by simp [hd])) (fun d hd => hb d (by simp [hd])) h2, show x = y by omega]

theorem sharp_eq (old : Bool) {W F : List Nat} (hW : ∀ d ∈ W, d ≤ 9) (hF : ∀ d ∈ F, d ≤ 9) {tail : Bytes} (ht : tail = [] ∨ ∃ r, tail = 101 :: r) :
    sharp old (digitText W ++ dotted F ++ tail) = digitText W ++ 46 :: digitText (F ++ List.replicate (3 - sigCount old W F) 0) ++ tail := by
  obtain ⟨t1, t2⟩ := takeWhile_stop (p := fun c => decide (c ≠ 101)) (a := digitText W ++ dotted F) (t := tail) (fun b hb => by
    rcases List.mem_append.mp hb with hb | hb
    · simpa using digitText_all hW (.inr (by decide)) b hb
    · simpa using dotted_all hF b hb) (by
    rcases ht with rfl | ⟨r, rfl⟩
    · exact .inl rfl
    · exact .inr ⟨101, r, rfl, by simp⟩)
  have hfil : (digitText W ++ dotted F).filter (fun c => decide (c ≠ 46)) = digitText (W ++ F) := by
    rw [List.filter_append, filter_digitText hW, digitText_append]
    congr 1
    unfold dotted
    split
    · next h => subst h; rfl
    · rw [List.filter_cons_of_neg (by simp), filter_digitText hF]
  have hmem : 46 ∈ digitText W ++ dotted F ↔ F ≠ [] := by
    constructor
    · intro h e
      subst e
      have : (46 : UInt8) ∈ digitText W := by simpa [dotted] using h
      exact digitText_all hW (c := 46) (.inl (by decide)) _ this rfl
    · intro h
      unfold dotted
      rw [if_neg h]
      simp
  have hone : digitText W ++ dotted F = [48] ↔ W = [0] ∧ F = [] := by
    constructor
    · intro h
      by_cases hf : F = []
      · subst hf
        have h' : digitText W = [48] := by simpa [dotted] using h
        exact ⟨digitText_inj hW (by simp) (h' : digitText W = digitText [0]), rfl⟩
      · have : (46 : UInt8) ∈ ([48] : Bytes) := by rw [← h]; exact hmem.mpr hf
        simp at this
    · rintro ⟨rfl, rfl⟩; rfl
  have hcount : (if old = true then ((digitText W ++ dotted F).filter (fun c => decide (c ≠ 46))).length else if digitText W ++ dotted F = [48] then 1
      else (((digitText W ++ dotted F).filter (fun c => decide (c ≠ 46))).dropWhile (fun c => decide (c = 48))).length) = sigCount old W F := by
    have hWF : ∀ d ∈ W ++ F, d ≤ 9 := fun d hd => by rcases List.mem_append.mp hd with hd | hd; exacts [hW d hd, hF d hd]
    rw [hfil, dropWhile_digitText hWF]
    unfold sigCount
    by_cases ho : old = true
    · rw [if_pos ho, if_pos ho]; simp [digitText]
    · rw [if_neg ho, if_neg ho]
      by_cases h1 : W = [0] ∧ F = []
      · rw [if_pos h1, if_pos (hone.mpr h1)]
      · rw [if_neg h1, if_neg (fun h => h1 (hone.mp h))]; simp [digitText]
  unfold sharp
  dsimp only
  rw [t1, t2, hcount, digitText_append, digitText_replicate]
  unfold dotted at *
  by_cases hf : F = []
  · subst hf
    rw [if_neg (fun h => hmem.mp h rfl)]
    simp [digitText]
  · rw [if_pos (hmem.mpr hf), if_neg hf]
    simp

/-! ## %g -/

theorem digitsValue_append (a b : List Nat) : digitsValue (a ++ b) = digitsValue a * 10 ^ b.length + digitsValue b := by
  induction a with
  | nil => simp [digitsValue]
  | cons x a ih => rw [List.cons_append, digitsValue_cons, ih, digitsValue_cons, List.length_append, pow_add]; ring

theorem digitsValue_replicate (k : Nat) : digitsValue (List.replicate k 0) = 0 := by
  induction k with
  | zero => rfl
  | succ k ih => rw [List.replicate_succ, digitsValue_cons, ih]; simp

theorem expDigits_ok {n : Nat} (h : n < 1000) : (∀ d ∈ expDigits n, d ≤ 9) ∧ expDigits n ≠ [] ∧ digitsValue (expDigits n) = n ∧ (expDigits n).length ≤ 3 ∧ 2 ≤ (expDigits n).length ∧ (n < 100 → (expDigits n).length = 2) := by
  unfold expDigits
  by_cases h1 : n < 10
  · rw [if_pos h1]
    exact ⟨by simp; omega, by simp, (show (0 * 10 + 0) * 10 + n = n by omega), by simp, by simp, fun _ => rfl⟩
  · rw [if_neg h1]
    by_cases h2 : n < 100
    · rw [if_pos h2]
      exact ⟨by simp; omega, by simp, (show (0 * 10 + n / 10) * 10 + n % 10 = n by omega), by simp, by simp, fun _ => rfl⟩
    · rw [if_neg h2]
      exact ⟨by simp; omega, by simp, (show ((0 * 10 + n / 100) * 10 + n / 10 % 10) * 10 + n % 10 = n by omega), by simp, by simp, fun h => absurd h h2⟩

/-- The digits of the parts of a %g: `W` and `F` before and after the dot, without an exponent. -/
theorem fmtF_ok {ds : List Nat} {dp : Int} {a b c : Nat} (ha : a ≠ 0) (ha' : a ≤ 9) (hb : b ≤ 9) (hc : c ≤ 9) (hds : ds = [a] ∨ ds = [a, b] ∨ ds = [a, b, c]) (h1 : -3 ≤ dp) (h2 : dp ≤ 3) :
    ∃ W F, fmtF ⟨ds, dp⟩ (ds.length - dp).toNat = digitText W ++ dotted F ∧ (∀ d ∈ W, d ≤ 9) ∧ (∀ d ∈ F, d ≤ 9) ∧ W ≠ [] ∧
      ((digitsValue W : ℚ) + digitsValue F / 10 ^ F.length) = digitsValue ds * 10 ^ (dp - ds.length) ∧
      ∀ old, 3 ≤ W.length + (F.length + (3 - sigCount old W F)) ∧ W.length + (F.length + (3 - sigCount old W F)) ≤ 7 := by
  have e0 : ∀ W F : List Nat, digitText W ++ (if 0 < F.length then 46 :: digitText F else []) = digitText W ++ dotted F := fun W F => by
    unfold dotted
    cases F <;> simp
  have key : ∀ W F : List Nat, fmtF ⟨ds, dp⟩ (ds.length - dp).toNat = digitText W ++ (if 0 < F.length then 46 :: digitText F else []) → (∀ d ∈ W, d ≤ 9) → (∀ d ∈ F, d ≤ 9) → W ≠ [] →
      (digitsValue W : ℚ) + digitsValue F / 10 ^ F.length = digitsValue ds * 10 ^ (dp - ds.length) →
      (∀ old, 3 ≤ W.length + (F.length + (3 - sigCount old W F)) ∧ W.length + (F.length + (3 - sigCount old W F)) ≤ 7) →
      ∃ W F, fmtF ⟨ds, dp⟩ (ds.length - dp).toNat = digitText W ++ dotted F ∧ (∀ d ∈ W, d ≤ 9) ∧ (∀ d ∈ F, d ≤ 9) ∧ W ≠ [] ∧
      ((digitsValue W : ℚ) + digitsValue F / 10 ^ F.length) = digitsValue ds * 10 ^ (dp - ds.length) ∧
      ∀ old, 3 ≤ W.length + (F.length + (3 - sigCount old W F)) ∧ W.length + (F.length + (3 - sigCount old W F)) ≤ 7 :=
    fun W F g1 g2 g3 g4 g5 g6 => ⟨W, F, by rw [g1, e0], g2, g3, g4, g5, g6⟩
  rcases hds with rfl | rfl | rfl
  · interval_cases dp
    · refine key [0] [0, 0, 0, a] rfl (by simp <;> omega) (by simp <;> omega) (by simp) (by simp only [digitsValue, List.foldl, List.length]; norm_num [zpow_neg] <;> ring) (by intro old; cases old <;> simp [sigCount, ha])
    · refine key [0] [0, 0, a] rfl (by simp <;> omega) (by simp <;> omega) (by simp) (by simp only [digitsValue, List.foldl, List.length]; norm_num [zpow_neg] <;> ring) (by intro old; cases old <;> simp [sigCount, ha])
    · refine key [0] [0, a] rfl (by simp <;> omega) (by simp <;> omega) (by simp) (by simp only [digitsValue, List.foldl, List.length]; norm_num [zpow_neg] <;> ring) (by intro old; cases old <;> simp [sigCount, ha])
    · refine key [0] [a] rfl (by simp <;> omega) (by simp <;> omega) (by simp) (by simp only [digitsValue, List.foldl, List.length]; norm_num [zpow_neg] <;> ring) (by intro old; cases old <;> simp [sigCount, ha])
    · refine key [a] [] rfl (by simp <;> omega) (by simp <;> omega) (by simp) (by simp only [digitsValue, List.foldl, List.length]; norm_num [zpow_neg] <;> ring) (by intro old; cases old <;> simp [sigCount, ha])
    · refine key [a, 0] [] rfl (by simp <;> omega) (by simp <;> omega) (by simp) (by simp only [digitsValue, List.foldl, List.length]; norm_num [zpow_neg] <;> ring) (by intro old; cases old <;> simp [sigCount, ha])
    · refine key [a, 0, 0] [] rfl (by simp <;> omega) (by simp <;> omega) (by simp) (by simp only [digitsValue, List.foldl, List.length]; norm_num [zpow_neg] <;> ring) (by intro old; cases old <;> simp [sigCount, ha])
  · interval_cases dp
    · refine key [0] [0, 0, 0, a, b] rfl (by simp <;> omega) (by simp <;> omega) (by simp) (by simp only [digitsValue, List.foldl, List.length]; norm_num [zpow_neg] <;> ring) (by intro old; cases old <;> simp [sigCount, ha])
    · refine key [0] [0, 0, a, b] rfl (by simp <;> omega) (by simp <;> omega) (by simp) (by simp only [digitsValue, List.foldl, List.length]; norm_num [zpow_neg] <;> ring) (by intro old; cases old <;> simp [sigCount, ha])
    · refine key [0] [0, a, b] rfl (by simp <;> omega) (by simp <;> omega) (by simp) (by simp only [digitsValue, List.foldl, List.length]; norm_num [zpow_neg] <;> ring) (by intro old; cases old <;> simp [sigCount, ha])
    · refine key [0] [a, b] rfl (by simp <;> omega) (by simp <;> omega) (by simp) (by simp only [digitsValue, List.foldl, List.length]; norm_num [zpow_neg] <;> ring) (by intro old; cases old <;> simp [sigCount, ha])
    · refine key [a] [b] rfl (by simp <;> omega) (by simp <;> omega) (by simp) (by simp only [digitsValue, List.foldl, List.length]; norm_num [zpow_neg] <;> ring) (by intro old; cases old <;> simp [sigCount, ha])
    · refine key [a, b] [] rfl (by simp <;> omega) (by simp <;> omega) (by simp) (by simp only [digitsValue, List.foldl, List.length]; norm_num [zpow_neg] <;> ring) (by intro old; cases old <;> simp [sigCount, ha])
    · refine key [a, b, 0] [] rfl (by simp <;> omega) (by simp <;> omega) (by simp) (by simp only [digitsValue, List.foldl, List.length]; norm_num [zpow_neg] <;> ring) (by intro old; cases old <;> simp [sigCount, ha])
  · interval_cases dp
    · refine key [0] [0, 0, 0, a, b, c] rfl (by simp <;> omega) (by simp <;> omega) (by simp) (by simp only [digitsValue, List.foldl, List.length]; norm_num [zpow_neg] <;> ring) (by intro old; cases old <;> simp [sigCount, ha])
    · refine key [0] [0, 0, a, b, c] rfl (by simp <;> omega) (by simp <;> omega) (by simp) (by simp only [digitsValue, List.foldl, List.length]; norm_num [zpow_neg] <;> ring) (by intro old; cases old <;> simp [sigCount, ha])
    · refine key [0] [0, a, b, c] rfl (by simp <;> omega) (by simp <;> omega) (by simp) (by simp only [digitsValue, List.foldl, List.length]; norm_num [zpow_neg] <;> ring) (by intro old; cases old <;> simp [sigCount, ha])
    · refine key [0] [a, b, c] rfl (by simp <;> omega) (by simp <;> omega) (by simp) (by simp only [digitsValue, List.foldl, List.length]; norm_num [zpow_neg] <;> ring) (by intro old; cases old <;> simp [sigCount, ha])
    · refine key [a] [b, c] rfl (by simp <;> omega) (by simp <;> omega) (by simp) (by simp only [digitsValue, List.foldl, List.length]; norm_num [zpow_neg] <;> ring) (by intro old; cases old <;> simp [sigCount, ha])
    · refine key [a, b] [c] rfl (by simp <;> omega) (by simp <;> omega) (by simp) (by simp only [digitsValue, List.foldl, List.length]; norm_num [zpow_neg] <;> ring) (by intro old; cases old <;> simp [sigCount, ha])
    · refine key [a, b, c] [] rfl (by simp <;> omega) (by simp <;> omega) (by simp) (by simp only [digitsValue, List.foldl, List.length]; norm_num [zpow_neg] <;> ring) (by intro old; cases old <;> simp [sigCount, ha])

theorem Nearest3.neg {v r : ℚ} (h : Nearest3 v r) : Nearest3 (-v) (-r) := by
  have three_neg : ∀ {r}, Three r → Three (-r) := by
    rintro r ⟨m, k, h1, h2, h3⟩
    refine ⟨m, k, h1, h2, ?_⟩
    rcases h3 with rfl | rfl
    · exact .inr rfl
    · exact .inl (by ring)
  rcases h with ⟨h1, h2⟩ | ⟨h1, h2, h3⟩
  · exact .inl ⟨by rw [h1]; ring, by rw [h2]; ring⟩
  · refine .inr ⟨by simpa using h1, three_neg h2, fun r' hr' => ?_⟩
    have := h3 (-r') (three_neg hr')
    rw [show -r - -v = -(r - v) by ring, abs_neg, show r' - -v = -(-r' - v) by ring, abs_neg]
    exact this

/-- The length of a text in digits. -/
theorem digitText_length (ds : List Nat) : (digitText ds).length = ds.length := List.length_map ..

/-- What "%#.3g" gives for a number without a sign. -/
theorem sharpG_says (old : Bool) {q : ℚ} (hq : q = 0 ∨ ((10 : ℚ) ^ (-900 : ℤ) ≤ q ∧ q < 10 ^ (900 : ℤ))) :
    ∃ n : Numeral, n.Ok ∧ n.sign = [] ∧ sharpG old q = n.text ∧ Nearest3 q n.value ∧ |n.value - q| ≤ q / 200 ∧ 4 ≤ n.text.length ∧ n.text.length ≤ 9 ∧ ((10 : ℚ) ^ (-98 : ℤ) ≤ q → q < 10 ^ (98 : ℤ) → n.text.length ≤ 8) := by
  rcases hq with rfl | ⟨l1, l2⟩
  · refine ⟨⟨[], [0], some [0, 0], none⟩, ⟨.inl rfl, by simp, by simp [Numeral.places], .inl (by simp), by simp⟩, rfl, ?_, .inl ⟨rfl, by simp [Numeral.value, Numeral.places, digitsValue]⟩,
      by simp [Numeral.value, Numeral.places, digitsValue], by decide, by decide, fun _ _ => by decide⟩
    unfold sharpG
    rw [if_pos rfl]
    cases old <;> decide
  · have hq : 0 < q := lt_of_lt_of_le (ten_zpow_pos _) l1
    obtain ⟨ds, dp, hd, ⟨a, b, c, ha, ha', hb, hc, hds⟩, hnear, herr, hpos, hdp1, hdp2⟩ := threeDigits_ok hq
    have log1 : ∀ k : ℤ, (10 : ℚ) ^ k ≤ q → k ≤ Int.log 10 q := fun k h => (Int.zpow_le_iff_le_log (b := 10) (by norm_num) hq).mp (by exact_mod_cast h)
    have log2 : ∀ k : ℤ, q < (10 : ℚ) ^ k → Int.log 10 q < k := fun k h => (Int.lt_zpow_iff_log_lt (b := 10) (by norm_num) hq).mp (by exact_mod_cast h)
    have d1 := log1 _ l1
    have d2 := log2 _ l2
    have hlen : 1 ≤ ds.length ∧ ds.length ≤ 3 := by rcases hds with rfl | rfl | rfl <;> simp
    have hd9 : ∀ d ∈ ds, d ≤ 9 := by rcases hds with rfl | rfl | rfl <;> simp <;> omega
    unfold sharpG
    rw [if_neg hq.ne', hd]
    have hbig : ∀ (W F : List Nat) k, (digitsValue W : ℚ) + digitsValue (F ++ List.replicate k 0) / 10 ^ (F ++ List.replicate k 0).length = digitsValue W + digitsValue F / 10 ^ F.length := fun W F k => by
      rw [digitsValue_append, digitsValue_replicate, List.length_append, List.length_replicate, pow_add]
      push_cast
      field_simp
      ring
    by_cases hexp : dp - 1 < -4 ∨ dp - 1 ≥ 3
    · -- with an exponent
      have hg : fmtG ⟨ds, dp⟩ = fmtE ⟨ds, dp⟩ := by
        unfold fmtG
        dsimp only
        rw [if_pos]
        rcases hexp with h | h
        · exact .inl h
        · right
          split
          · omega
          · exact h
      obtain ⟨x1, x2, x3, x4, x5, x6⟩ := expDigits_ok (n := (dp - 1).natAbs) (by omega)
      obtain ⟨F, hF⟩ : ∃ F, F = ds.drop 1 := ⟨_, rfl⟩
      obtain ⟨W, hW⟩ : ∃ W, W = ds.take 1 := ⟨_, rfl⟩
      have hW1 : W = [a] := by rw [hW]; rcases hds with rfl | rfl | rfl <;> rfl
      have hFl : F.length = ds.length - 1 := by rw [hF]; simp
      have hF9 : ∀ d ∈ F, d ≤ 9 := fun d hd => hd9 d (List.mem_of_mem_drop (by rw [← hF]; exact hd))
      have hW9 : ∀ d ∈ W, d ≤ 9 := fun d hd => hd9 d (List.mem_of_mem_take (by rw [← hW]; exact hd))
      have he : fmtE ⟨ds, dp⟩ = digitText W ++ dotted F ++ (101 :: ([if dp - 1 < 0 then 45 else 43] ++ digitText (expDigits (dp - 1).natAbs))) := by
        unfold fmtE dotted
        dsimp only
        rw [← hW, ← hF]
        by_cases h1 : F = []
        · rw [if_neg (by rw [h1] at hFl; simp at hFl; omega), if_pos h1]; simp
        · have : F.length ≠ 0 := fun h => h1 (List.length_eq_zero_iff.mp h)
          rw [if_pos (by omega), if_neg h1]; simp
      have hcount : sigCount old W F = ds.length := by
        have hl : (W ++ F) = ds := by rw [hW, hF]; exact List.take_append_drop 1 ds
        unfold sigCount
        rw [hl]
        cases old
        · rw [if_neg (by simp), if_neg (by rw [hW1]; simp; omega)]
          rcases hds with rfl | rfl | rfl <;> simp [ha]
        · rw [if_pos rfl]
      have hden : ((⟨[], W, some (F ++ List.replicate (3 - ds.length) 0), some (101, [if dp - 1 < 0 then 45 else 43], expDigits (dp - 1).natAbs)⟩ : Numeral)).value = digitsValue ds * 10 ^ (dp - ds.length) := by
        unfold Numeral.value Numeral.places Numeral.power
        dsimp only [Option.getD]
        rw [hbig, x3]
        have hs : signOf [if dp - 1 < 0 then (45 : UInt8) else 43] * ((dp - 1).natAbs : ℤ) = dp - 1 := by
          by_cases hneg : dp - 1 < 0
          · rw [if_pos hneg]
            show (-1 : ℤ) * _ = _
            omega
          · rw [if_neg hneg]
            show (1 : ℤ) * _ = _
            omega
        rw [hs]
        have hv : (digitsValue W : ℚ) + digitsValue F / 10 ^ F.length = digitsValue ds / 10 ^ F.length := by
          have : digitsValue ds = digitsValue W * 10 ^ F.length + digitsValue F := by
            rw [← digitsValue_append, hW, hF, List.take_append_drop]
          rw [this]
          push_cast
          field_simp
        rw [hv, show dp - (ds.length : ℤ) = (dp - 1) - (F.length : ℤ) by omega]
        generalize dp - 1 = k
        rw [zpow_sub₀ (by norm_num), zpow_natCast]
        show ((1 : ℤ) : ℚ) * _ * _ = _
        push_cast
        field_simp
      refine ⟨⟨[], W, some (F ++ List.replicate (3 - ds.length) 0), some (101, [if dp - 1 < 0 then 45 else 43], expDigits (dp - 1).natAbs)⟩, ⟨.inl rfl, hW9, ?_, .inl (by rw [hW1]; simp), ?_⟩, rfl, ?_, ?_, ?_, ?_, ?_, ?_⟩
      · intro d hd
        rcases List.mem_append.mp hd with hd | hd
        · exact hF9 d hd
        · rw [List.eq_of_mem_replicate hd]; omega
      · rintro c s ds' h
        injection h with h
        injection h with h1 h2
        injection h2 with h2 h3
        subst h1 h2 h3
        refine ⟨.inl rfl, ?_, x2, x1⟩
        split <;> simp
      · rw [hg, he, sharp_eq old hW9 hF9 (.inr ⟨_, rfl⟩), hcount]
        simp [Numeral.text]
      · rw [hden]; exact hnear
      · rw [hden]; exact herr
      · unfold Numeral.text
        simp only [List.length_append, List.length_cons, digitText_length, List.length_replicate, List.length_nil, hW1]
        omega
      · unfold Numeral.text
        simp only [List.length_append, List.length_cons, digitText_length, List.length_replicate, List.length_nil, hW1]
        omega
      · intro g1 g2
        have := log1 _ g1
        have := log2 _ g2
        have := x6 (by omega)
        unfold Numeral.text
        simp only [List.length_append, List.length_cons, digitText_length, List.length_replicate, List.length_nil, hW1]
        omega
    · have hg : fmtG ⟨ds, dp⟩ = fmtF ⟨ds, dp⟩ (ds.length - dp).toNat := by
        unfold fmtG
        dsimp only
        rw [if_neg]
        rintro (h | h)
        · exact hexp (.inl h)
        · split at h
          · omega
          · exact hexp (.inr h)
      obtain ⟨W, F, e1, e2, e3, e4, e5, e6⟩ := fmtF_ok ha ha' hb hc hds (show -3 ≤ dp by omega) (show dp ≤ 3 by omega)
      obtain ⟨b1, b2⟩ := e6 old
      have hden : ((⟨[], W, some (F ++ List.replicate (3 - sigCount old W F) 0), none⟩ : Numeral)).value = digitsValue ds * 10 ^ (dp - ds.length) := by
        unfold Numeral.value Numeral.places Numeral.power
        dsimp only [Option.getD]
        rw [hbig, e5]
        show ((1 : ℤ) : ℚ) * _ * _ = _
        push_cast
        norm_num
      refine ⟨⟨[], W, some (F ++ List.replicate (3 - sigCount old W F) 0), none⟩, ⟨.inl rfl, e2, ?_, .inl e4, fun _ _ _ h => by cases h⟩, rfl, ?_, ?_, ?_, ?_, ?_, ?_⟩
      · intro d hd
        rcases List.mem_append.mp hd with hd | hd
        · exact e3 d hd
        · rw [List.eq_of_mem_replicate hd]; omega
      · have := sharp_eq old e2 e3 (tail := []) (.inl rfl)
        rw [List.append_nil, List.append_nil] at this
        rw [hg, e1, this]
        simp [Numeral.text]
      · rw [hden]; exact hnear
      · rw [hden]; exact herr
      all_goals
        unfold Numeral.text
        simp only [List.length_append, List.length_cons, digitText_length, List.length_replicate, List.length_nil]
        omega

end Rothko
