import Verif.Spec.Duration
import Verif.Model.Float
import Mathlib.Algebra.Order.Field.Power
/-!
# Numbers as texts, and the numbers doubles are (C115)
-/
namespace Rothko

/-- A decimal number as it is written: a sign or none, digits, a dot and digits or none, and a power of ten or none (its mark, sign and digits), like -1.50e+03. -/
structure Numeral where
  sign : Bytes
  whole : List Nat
  frac : Option (List Nat)
  exp : Option (UInt8 × Bytes × List Nat)

/-- The sign's factor. -/
def signOf (s : Bytes) : ℤ := if s = [45] then -1 else 1

/-- The digits after the dot. -/
def Numeral.places (n : Numeral) : List Nat := n.frac.getD []

/-- The power of ten. -/
def Numeral.power (n : Numeral) : ℤ := match n.exp with
  | none => 0
  | some (_, s, ds) => signOf s * digitsValue ds

/-- The text. -/
def Numeral.text (n : Numeral) : Bytes :=
  n.sign ++ digitText n.whole ++ (match n.frac with | none => [] | some ds => 46 :: digitText ds) ++ (match n.exp with | none => [] | some (c, s, ds) => c :: (s ++ digitText ds))

/-- The number. -/
def Numeral.value (n : Numeral) : ℚ := signOf n.sign * (digitsValue n.whole + digitsValue n.places / 10 ^ n.places.length) * 10 ^ n.power

/-- Signs are none, + or -; there is a digit before or after the dot, and one in the power of ten if there is one; its mark is e or E. -/
structure Numeral.Ok (n : Numeral) : Prop where
  sign : n.sign = [] ∨ n.sign = [43] ∨ n.sign = [45]
  whole : ∀ d ∈ n.whole, d ≤ 9
  frac : ∀ d ∈ n.places, d ≤ 9
  some_digit : n.whole ≠ [] ∨ n.places ≠ []
  exp : ∀ c s ds, n.exp = some (c, s, ds) → (c = 101 ∨ c = 69) ∧ (s = [] ∨ s = [43] ∨ s = [45]) ∧ ds ≠ [] ∧ ∀ d ∈ ds, d ≤ 9

/-- The text `t` says the number `r`. -/
def Says (t : Bytes) (r : ℚ) : Prop := ∃ n : Numeral, n.Ok ∧ t = n.text ∧ r = n.value

/-- The number without its sign that a finite double is (IEEE 754: 52 bits of fraction below 11 of exponent). -/
def magVal (m : Nat) : ℚ := if m < 4503599627370496 then m * 2 ^ (-1074 : ℤ) else (4503599627370496 + m % 4503599627370496 : ℕ) * 2 ^ ((m / 4503599627370496 : ℕ) - 1075 : ℤ)

/-- The number a finite double is. -/
def fVal (x : F64) : ℚ := if fNeg x then - magVal (fMag x) else magVal (fMag x)

/-- Numbers with at most three digits before a power of ten, none of them leading zeros. -/
def Three (r : ℚ) : Prop := ∃ (m : ℕ) (k : ℤ), 100 ≤ m ∧ m ≤ 999 ∧ (r = m * 10 ^ k ∨ r = - (m * 10 ^ k))

/-- `r` is a nearest number of three digits to `v`; zero is zero. -/
def Nearest3 (v r : ℚ) : Prop := (v = 0 ∧ r = 0) ∨ (v ≠ 0 ∧ Three r ∧ ∀ r', Three r' → |r - v| ≤ |r' - v|)

/-! ## Dates -/

/-- A day of the Gregorian calendar. -/
structure Day where
  year : Nat
  month : Nat
  day : Nat
  deriving DecidableEq

/-- Leap years. -/
def LeapYear (y : Nat) : Prop := (4 ∣ y ∧ ¬ 100 ∣ y) ∨ 400 ∣ y

instance (y : Nat) : Decidable (LeapYear y) := by unfold LeapYear; infer_instance

/-- The days of a month: thirty days hath September, April, June and November. -/
def monthDays (y m : Nat) : Nat := if m = 2 then (if LeapYear y then 29 else 28) else if m = 4 ∨ m = 6 ∨ m = 9 ∨ m = 11 then 30 else 31

/-- The day after. -/
def Day.next (d : Day) : Day :=
  if d.day < monthDays d.year d.month then ⟨d.year, d.month, d.day + 1⟩ else if d.month < 12 then ⟨d.year, d.month + 1, 1⟩ else ⟨d.year + 1, 1, 1⟩

/-- The day `n` days after the first of January of the year 1. -/
def dayNo : Nat → Day
  | 0 => ⟨1, 1, 1⟩
  | n + 1 => (dayNo n).next

/-- The text says a month, a day, an hour and a minute: like 2/28 @ 07:30. -/
def SaysTime (t : Bytes) (month day hour minute : Nat) : Prop := ∃ a b c d : List Nat, (∀ x ∈ a ++ b ++ c ++ d, x ≤ 9) ∧ a ≠ [] ∧ b ≠ [] ∧ c.length = 2 ∧ d.length = 2 ∧
  t = digitText a ++ "/".toUTF8.toList ++ digitText b ++ " @ ".toUTF8.toList ++ digitText c ++ ":".toUTF8.toList ++ digitText d ∧
  digitsValue a = month ∧ digitsValue b = day ∧ digitsValue c = hour ∧ digitsValue d = minute

end Rothko
