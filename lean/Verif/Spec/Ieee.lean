import Mathlib.Data.Rat.Floor
import Mathlib.Algebra.Order.Field.Power
/-!
# IEEE 754 double precision

Numbers are rationals; only those that are not negative, and below the overflow.
-/
namespace Rothko

/-- Doubles: 53 binary digits. -/
def IsDouble (d : ℚ) : Prop := ∃ (m : ℕ) (e : ℤ), m < 2 ^ 53 ∧ -1074 ≤ e ∧ d = m * 2 ^ e

/-- `r` is `q` rounded to a nearest double, and to the one with an even last digit if there are two. (IEEE 754-2008, 4.3.1; the Go specification requires it of `float64`.) -/
structure Rounds (q r : ℚ) : Prop where
  double : IsDouble r
  nearest : ∀ d, IsDouble d → |q - r| ≤ |q - d|
  even : ∀ d, IsDouble d → |q - d| = |q - r| → d ≠ r → ∃ (m : ℕ) (e : ℤ), r = m * 2 ^ e ∧ 2 ∣ m ∧ |d - r| = 2 ^ e

end Rothko
