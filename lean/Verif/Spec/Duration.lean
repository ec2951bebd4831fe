import Verif.Model.Bytes
import Mathlib.Data.Rat.Floor
import Verif.Props.Params
/-!
# What a text for a duration means (C111)

A sign or none, and terms one after the other, like 1h30m or 2.5s: each is a decimal number and a unit, and the duration is their sum.
-/
namespace Rothko

/-- The units, and how many nanoseconds they have. -/
def durUnits : List (Bytes × Nat) :=
  [("ns".toUTF8.toList, 1), ("us".toUTF8.toList, 1000), ("µs".toUTF8.toList, 1000), ("μs".toUTF8.toList, 1000), ("ms".toUTF8.toList, 1000 * 1000), ("s".toUTF8.toList, 1000 * 1000 * 1000),
    ("m".toUTF8.toList, 60 * (1000 * 1000 * 1000)), ("h".toUTF8.toList, 60 * 60 * (1000 * 1000 * 1000))]

/-- A term: the digits before the dot, those after it if there is one, the unit and its size. -/
structure DTerm where
  whole : List Nat
  frac : Option (List Nat)
  unit : Bytes
  size : Nat

/-- Digits as text. -/
def digitText (ds : List Nat) : Bytes := ds.map (fun d => UInt8.ofNat (48 + d))

/-- The term as text. -/
def DTerm.text (t : DTerm) : Bytes := digitText t.whole ++ (match t.frac with | none => [] | some ds => 46 :: digitText ds) ++ t.unit

/-- The digits after the dot. -/
def DTerm.places (t : DTerm) : List Nat := t.frac.getD []

/-- There is at least one digit, before or after the dot, and a unit. -/
structure DTerm.Ok (t : DTerm) : Prop where
  whole : ∀ d ∈ t.whole, d ≤ 9
  frac : ∀ d ∈ t.places, d ≤ 9
  some_digit : t.whole ≠ [] ∨ t.places ≠ []
  unit : (t.unit, t.size) ∈ durUnits

/-- Its value in nanoseconds. -/
def DTerm.ns (t : DTerm) : ℚ := (digitsValue t.whole + digitsValue t.places / 10 ^ t.places.length) * t.size

/-- The last digit after the dot is worth a whole number of nanoseconds: at most 9 digits for seconds, 6 for milliseconds, 3 for microseconds, none for nanoseconds, 10 for minutes, 11 for hours. -/
def DTerm.Fine (t : DTerm) : Prop := 10 ^ t.places.length ∣ t.size

/-- A sign, or none. -/
def durSigns : List (Bytes × Int) := [([], 1), ([43], 1), ([45], -1)]

end Rothko
