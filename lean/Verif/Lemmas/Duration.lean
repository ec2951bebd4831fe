import Verif.Model.Duration
import Verif.Spec.Duration
import Verif.Lemmas.Near
import Mathlib.Tactic.Linarith
import Mathlib.Tactic.Positivity
import Mathlib.Tactic.NormNum
/-!
# Reading durations: digits, units, and the fraction of a unit
-/
namespace Rothko

/-! ## 64 bits -/

/-- A natural number below 2^63 as an `int64`. -/
def i64 (n : Nat) : Int64 := Int64.ofNat n

theorem i64_toInt {n : Nat} (h : n < 9223372036854775808) : (i64 n).toInt = n := Int64.toInt_ofNat_of_lt (by omega)

theorem i64_lt {a b : Nat} (ha : a < 9223372036854775808) (hb : b < 9223372036854775808) : i64 a < i64 b ↔ a < b := by
  rw [Int64.lt_iff_toInt_lt, i64_toInt ha, i64_toInt hb]; omega

/-- Addition wraps to negative numbers. -/
theorem i64_sum {a b : Nat} (ha : a < 9223372036854775808) (hb : b < 9223372036854775808) :
    (i64 a + i64 b < 0 ↔ 9223372036854775808 ≤ a + b) ∧ (a + b < 9223372036854775808 → i64 a + i64 b = i64 (a + b)) := by
  have e : (i64 a + i64 b).toInt = Int.bmod (a + b) 18446744073709551616 := by
    rw [Int64.toInt_add, i64_toInt ha, i64_toInt hb]
  have e1 : a + b < 9223372036854775808 → (i64 a + i64 b).toInt = a + b := by
    intro h
    rw [e, Int.bmod_eq_of_le] <;> omega
  refine ⟨?_, fun h => ?_⟩
  · rw [Int64.lt_iff_toInt_lt, show (0 : Int64).toInt = 0 from rfl]
    constructor
    · intro h
      by_contra hc
      rw [e1 (by omega)] at h
      omega
    · intro h
      rw [e, Int.bmod_def]
      split <;> omega
  · apply Int64.toInt_inj.mp
    rw [e1 h, i64_toInt h]
    push_cast; rfl

theorem i64_mul {a b : Nat} (ha : a < 9223372036854775808) (hb : b < 9223372036854775808) (h : a * b < 9223372036854775808) : i64 a * i64 b = i64 (a * b) := by
  apply Int64.toInt_inj.mp
  rw [Int64.toInt_mul, i64_toInt ha, i64_toInt hb, i64_toInt h, Int.bmod_eq_of_le]
  · push_cast; rfl
  · have : (0 : Int) ≤ (a : Int) * b := by positivity
    omega
  · have : ((a * b : Nat) : Int) < 9223372036854775808 := by exact_mod_cast h
    push_cast at this
    omega

theorem pushDigit_eq {n d : Nat} (hn : n ≤ 922337203685477580) (hd : d ≤ 9) :
    (pushDigit (i64 n) (UInt8.ofNat (48 + d)) < 0 ↔ 9223372036854775808 ≤ n * 10 + d) ∧ (n * 10 + d < 9223372036854775808 → pushDigit (i64 n) (UInt8.ofNat (48 + d)) = i64 (n * 10 + d)) := by
  have h1 : pushDigit (i64 n) (UInt8.ofNat (48 + d)) = i64 (n * 10) + i64 d := by
    unfold pushDigit
    rw [digit_toNat hd, show (10 : Int64) = i64 10 from rfl, i64_mul (by omega) (by omega) (by omega), show Int64.ofNat (48 + d) = i64 (48 + d) from rfl, ← (i64_sum (a := 48) (b := d) (by omega) (by omega)).2 (by omega),
      show (48 : Int64) = i64 48 from rfl]
    rw [Int64.add_comm (i64 48), ← Int64.add_assoc, Int64.add_sub_cancel]
  rw [h1]
  exact i64_sum (by omega) (by omega)

/-! ## Digits -/

theorem isDigit_text {d : Nat} (h : d ≤ 9) : isDigit (UInt8.ofNat (48 + d)) = true := by
  have h1 := digit_toNat h
  unfold isDigit
  rw [Bool.and_eq_true, decide_eq_true_eq, decide_eq_true_eq, UInt8.le_iff_toNat_le, UInt8.le_iff_toNat_le, h1]
  exact ⟨by show 48 ≤ _; omega, by show _ ≤ 57; omega⟩

/-- The digits of `ds` after those of `n`. -/
def moreDigits (n : Nat) (ds : List Nat) : Nat := ds.foldl (fun n d => n * 10 + d) n

theorem moreDigits_ge (ds : List Nat) : ∀ n, n ≤ moreDigits n ds := by
  induction ds with
  | nil => exact fun n => Nat.le_refl n
  | cons d ds ih =>
    intro n
    have := ih (n * 10 + d)
    show n ≤ moreDigits (n * 10 + d) ds
    omega

/-- What follows a run of digits is none. -/
def NoDigit (s : Bytes) : Prop := ∀ c, s.head? = some c → isDigit c = false

theorem leadingInt_read {rest : Bytes} (hr : NoDigit rest) : ∀ (ds : List Nat) (n : Nat), (∀ d ∈ ds, d ≤ 9) → n < 9223372036854775808 →
    leadingInt (i64 n) (digitText ds ++ rest) = if moreDigits n ds < 9223372036854775808 then some (i64 (moreDigits n ds), rest) else none := by
  intro ds
  induction ds with
  | nil =>
    intro n _ hn
    show leadingInt (i64 n) rest = if n < _ then _ else _
    rw [if_pos hn]
    cases rest with
    | nil => rfl
    | cons c s => rw [leadingInt, if_pos (hr c rfl)]; rfl
  | cons d ds ih =>
    intro n h9 hn
    have hd := h9 d List.mem_cons_self
    have hm : moreDigits n (d :: ds) = moreDigits (n * 10 + d) ds := rfl
    have hge := moreDigits_ge ds (n * 10 + d)
    show leadingInt (i64 n) (UInt8.ofNat (48 + d) :: (digitText ds ++ rest)) = _
    rw [leadingInt, if_neg (by rw [isDigit_text hd]; simp), show (922337203685477580 : Int64) = i64 922337203685477580 from rfl, hm]
    by_cases h1 : 922337203685477580 < n
    · rw [if_pos ((i64_lt (by omega) hn).mpr h1), if_neg (by omega)]
    · rw [if_neg (fun h => h1 ((i64_lt (by omega) hn).mp h))]
      obtain ⟨p1, p2⟩ := pushDigit_eq (n := n) (by omega) hd
      by_cases h2 : 9223372036854775808 ≤ n * 10 + d
      · rw [if_pos (p1.mpr h2), if_neg (by omega)]
      · rw [if_neg (fun h => h2 (p1.mp h)), p2 (by omega)]
        exact ih _ (fun x hx => h9 x (List.mem_cons_of_mem _ hx)) (by omega)

/-- The power of ten that `scale` becomes. -/
def tens : Nat → ℚ
  | 0 => 1
  | n + 1 => rn (tens n * 10)

theorem moreDigits_snoc (n d : Nat) (ds : List Nat) : moreDigits n (ds ++ [d]) = moreDigits n ds * 10 + d := by
  unfold moreDigits
  rw [List.foldl_append]; rfl

/-- When too many digits have been read, the others are skipped. -/
theorem leadingFraction_skip {rest : Bytes} (hr : NoDigit rest) (x : Int64) (scale : ℚ) : ∀ ds : List Nat, (∀ d ∈ ds, d ≤ 9) → leadingFraction x scale true (digitText ds ++ rest) = (x, scale, rest) := by
  intro ds
  induction ds with
  | nil =>
    intro _
    show leadingFraction x scale true rest = _
    cases rest with
    | nil => rfl
    | cons c s => rw [leadingFraction, if_pos (hr c rfl)]
  | cons d ds ih =>
    intro h9
    show leadingFraction x scale true (UInt8.ofNat (48 + d) :: (digitText ds ++ rest)) = _
    rw [leadingFraction, if_neg (by rw [isDigit_text (h9 d List.mem_cons_self)]; simp), if_pos rfl]
    exact ih (fun x hx => h9 x (List.mem_cons_of_mem _ hx))

/-- The digits after the dot are read as far as they fit. -/
theorem leadingFraction_read {rest : Bytes} (hr : NoDigit rest) : ∀ (ds : List Nat) (n k : Nat), (∀ d ∈ ds, d ≤ 9) → n < 9223372036854775808 →
    ∃ i, i ≤ ds.length ∧ moreDigits n (ds.take i) < 9223372036854775808 ∧ (i = ds.length ∨ 9223372036854775808 ≤ moreDigits n (ds.take (i + 1))) ∧
      leadingFraction (i64 n) (tens k) false (digitText ds ++ rest) = (i64 (moreDigits n (ds.take i)), tens (k + i), rest) := by
  intro ds
  induction ds with
  | nil =>
    intro n k _ hn
    refine ⟨0, Nat.le_refl _, hn, .inl rfl, ?_⟩
    show leadingFraction (i64 n) (tens k) false rest = (i64 n, tens k, rest)
    cases rest with
    | nil => rfl
    | cons c s => rw [leadingFraction, if_pos (hr c rfl)]
  | cons d ds ih =>
    intro n k h9 hn
    have hd := h9 d List.mem_cons_self
    have h9' : ∀ d ∈ ds, d ≤ 9 := fun x hx => h9 x (List.mem_cons_of_mem _ hx)
    have stop : 9223372036854775808 ≤ n * 10 + d → leadingFraction (i64 n) (tens k) true (digitText ds ++ rest) = (i64 n, tens k, rest) → ∃ i, i ≤ (d :: ds).length ∧ moreDigits n ((d :: ds).take i) < 9223372036854775808 ∧
        (i = (d :: ds).length ∨ 9223372036854775808 ≤ moreDigits n ((d :: ds).take (i + 1))) ∧ (i64 n, tens k, rest) = (i64 (moreDigits n ((d :: ds).take i)), tens (k + i), rest) := by
      intro h _
      refine ⟨0, Nat.zero_le _, hn, .inr ?_, rfl⟩
      show 9223372036854775808 ≤ n * 10 + d
      exact h
    have hskip := leadingFraction_skip hr (i64 n) (tens k) ds h9'
    show ∃ i, _ ∧ _ ∧ _ ∧ leadingFraction (i64 n) (tens k) false (UInt8.ofNat (48 + d) :: (digitText ds ++ rest)) = _
    rw [leadingFraction, if_neg (by rw [isDigit_text hd]; simp), if_neg (by simp), show (922337203685477580 : Int64) = i64 922337203685477580 from rfl]
    by_cases h1 : 922337203685477580 < n
    · rw [if_pos ((i64_lt (by omega) hn).mpr h1), hskip]
      exact stop (by omega) hskip
    · rw [if_neg (fun h => h1 ((i64_lt (by omega) hn).mp h))]
      obtain ⟨p1, p2⟩ := pushDigit_eq (n := n) (by omega) hd
      by_cases h2 : 9223372036854775808 ≤ n * 10 + d
      · rw [if_pos (p1.mpr h2), hskip]
        exact stop h2 hskip
      · rw [if_neg (fun h => h2 (p1.mp h)), p2 (by omega)]
        obtain ⟨i, i1, i2, i3, i4⟩ := ih (n * 10 + d) (k + 1) h9' (by omega)
        refine ⟨i + 1, Nat.succ_le_succ i1, i2, ?_, ?_⟩
        · rcases i3 with rfl | i3
          · exact .inl rfl
          · exact .inr i3
        · show leadingFraction (i64 (n * 10 + d)) (tens (k + 1)) false _ = _
          rw [i4, show k + 1 + i = k + (i + 1) by omega]
          rfl

end Rothko
