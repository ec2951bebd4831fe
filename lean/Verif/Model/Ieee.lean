import Mathlib.Data.Int.Log
import Mathlib.Data.Rat.Floor
/-!
# Double precision arithmetic

Go's `float64` is an IEEE 754 double and its operators round to nearest, ties to even.
-/
namespace Rothko

/-- An integer nearest to `q`, the even one if there are two. (IEEE 754 rounding, as the operators in draw/heatmap/heatmap.go:54,61 do it.) -/
def roundEven (q : ℚ) : ℤ :=
  if q - ⌊q⌋ < 1 / 2 then ⌊q⌋ else if 1 / 2 < q - ⌊q⌋ then ⌊q⌋ + 1 else if ⌊q⌋ % 2 = 0 then ⌊q⌋ else ⌊q⌋ + 1

/-- The exponent of the last of the 53 digits of a double near `q`. (draw/heatmap/heatmap.go:54,61.) -/
def ulpExp (q : ℚ) : ℤ := max (Int.log 2 q - 52) (-1074)

/-- The double that a positive operation with the exact result `q` gives, below the overflow at 2^1024. (draw/heatmap/heatmap.go:54,61.) -/
def rn (q : ℚ) : ℚ := roundEven (q / 2 ^ ulpExp q) * 2 ^ ulpExp q

end Rothko
