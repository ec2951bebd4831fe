import Verif.Model.Bytes
/-!
# `float64` values, by their IEEE 754 bits

Only the comparisons of Go are needed (data/agg.go:57,68,72, merge/merge.go:75,79, dist/tdigest/wrapper.go), and `math.IsNaN`, `math.IsInf` (data/writer.go:51).
-/
namespace Rothko

/-- A `float64`, by its bits (data/agg.go:34). -/
abbrev F64 := BitVec 64

/-- The bits without the sign. (Go `float64`.) -/
def fMag (x : F64) : Nat := x.toNat % 9223372036854775808

/-- The sign bit. (Go `float64`.) -/
def fNeg (x : F64) : Bool := 9223372036854775808 ≤ x.toNat

/-- `math.IsNaN`: exponent all ones, mantissa not zero. (data/writer.go:51.) -/
def fIsNaN (x : F64) : Bool := fMag x > 9218868437227405312

/-- `math.IsInf(x, 0)`: exponent all ones, mantissa zero. (data/writer.go:51.) -/
def fIsInf (x : F64) : Bool := fMag x = 9218868437227405312

/-- Values in order: the bits without the sign order the magnitudes; both zeros are 0. (data/agg.go:57,68,72.) -/
def fKey (x : F64) : Int := if fNeg x then -(fMag x : Int) else fMag x

/-- `a < b`: false if one of them is not a number. (data/agg.go:57,68,72, merge/merge.go:75,79.) -/
def fLt (a b : F64) : Bool := !fIsNaN a && !fIsNaN b && fKey a < fKey b

/-- `a <= b`. (dist/tdigest/wrapper.go:93-120.) -/
def fLe (a b : F64) : Bool := !fIsNaN a && !fIsNaN b && fKey a ≤ fKey b

/-- Neither infinite nor not a number. (data/writer.go:51.) -/
def fFinite (x : F64) : Bool := !fIsInf x && !fIsNaN x

/-- 1.0 < 1.5 < 2.0, -2.0 < -1.0 < -0.0 = 0.0, and not a number compares false. -/
example : fLt 0x3ff0000000000000#64 0x3ff8000000000000#64 ∧ fLt 0x3ff8000000000000#64 0x4000000000000000#64 ∧ fLt 0xc000000000000000#64 0xbff0000000000000#64 ∧
    fLt 0xbff0000000000000#64 0x8000000000000000#64 ∧ ¬ fLt 0x8000000000000000#64 0#64 ∧ ¬ fLt 0#64 0x8000000000000000#64 ∧ ¬ fLt 0x7ff8000000000000#64 0#64 ∧
    fIsInf 0xfff0000000000000#64 ∧ fIsNaN 0x7ff8000000000000#64 ∧ fFinite 0x7fefffffffffffff#64 := by decide +kernel

end Rothko
