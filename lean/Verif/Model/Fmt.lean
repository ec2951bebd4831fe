import Verif.Model.Scene
import Verif.Spec.Numeral
/-!
# The texts of a graph (draw/graph/graph.go:106,135,145,188, draw/observations/obs.go:88)

`fmt.Sprintf` with "%0.2f" and "%#.3g", and `time.Time.Format` with "1/2 @ 15:04": library code, modelled from its source (`fmt.fmtFloat`, `strconv.FormatFloat` with its decimals, `time.absDate`). The rounding of strconv is
exact, half to even. Up to Go 1.14 the flag # counts zeros in front as digits when it fills up with zeros, from 1.15 on it does not: `old` tells which. The time zone is a parameter: how many seconds local time is ahead
at a time in seconds since 1970.
-/
namespace Rothko

/-- `strconv.decimalSlice`: the digits and where the dot is: 0.d₁d₂d₃... times ten to the `dp`. (graph.go:135, library code.) -/
structure DSlice where
  ds : List Nat
  dp : Int

/-- Digits without the zeros at the end (`strconv.trim`; graph.go:135, library code). -/
def trimZeros (ds : List Nat) : List Nat := (ds.reverse.dropWhile (fun d => d = 0)).reverse

/-- The three digits of a number above 0, rounded (`decimal.Round`; graph.go:135, library code). -/
def threeDigits (q : ℚ) : DSlice :=
  let e := Int.log 10 q
  let m := (roundEven (q / 10 ^ (e - 2))).toNat
  if m = 1000 then ⟨[1], e + 2⟩ else ⟨trimZeros [m / 100, m / 10 % 10, m % 10], e + 1⟩

/-- The digits of an exponent, at least two (`strconv.fmtE`; graph.go:135, library code). -/
def expDigits (n : Nat) : List Nat := if n < 10 then [0, n] else if n < 100 then [n / 10, n % 10] else [n / 100, n / 10 % 10, n % 10]

/-- `strconv.fmtE` with all the digits there are (graph.go:135, library code). -/
def fmtE (d : DSlice) : Bytes :=
  digitText (d.ds.take 1) ++ (if 1 < d.ds.length then 46 :: digitText (d.ds.drop 1) else []) ++ [101, if d.dp - 1 < 0 then 45 else 43] ++ digitText (expDigits (d.dp - 1).natAbs)

/-- `strconv.fmtF` with `prec` digits after the dot (graph.go:107,135, library code). -/
def fmtF (d : DSlice) (prec : Nat) : Bytes :=
  (if 0 < d.dp then digitText (d.ds.take d.dp.toNat ++ List.replicate (d.dp.toNat - d.ds.length) 0) else digitText [0]) ++
    (if 0 < prec then 46 :: digitText ((List.range prec).map (fun i => if 0 ≤ d.dp + i then d.ds.getD (d.dp + i).toNat 0 else 0)) else [])

/-- %g with three digits (`strconv.formatDigits`; graph.go:135, library code). -/
def fmtG (d : DSlice) : Bytes :=
  let eprec : Int := if 3 > d.ds.length ∧ (d.ds.length : Int) ≥ d.dp then d.ds.length else 3
  if d.dp - 1 < -4 ∨ d.dp - 1 ≥ eprec then fmtE d else fmtF d (d.ds.length - d.dp).toNat

/-- The flag #: a dot, and zeros up to three digits, in front of the exponent (`fmt.fmtFloat`; graph.go:135, library code). -/
def sharp (old : Bool) (b : Bytes) : Bytes :=
  let num := b.takeWhile (fun c => c ≠ 101)
  let digits := num.filter (fun c => c ≠ 46)
  let count := if old then digits.length else if num = [48] then 1 else (digits.dropWhile (fun c => c = 48)).length
  num ++ (if 46 ∈ num then [] else [46]) ++ List.replicate (3 - count) 48 ++ b.dropWhile (fun c => c ≠ 101)

/-- "%#.3g" of a number without its sign (graph.go:135, library code). -/
def sharpG (old : Bool) (q : ℚ) : Bytes := sharp old (fmtG (if q = 0 then ⟨[], 0⟩ else threeDigits q))

/-- "%#.3g" (graph.go:135,145): +Inf, -Inf, NaN, or the number. -/
def valueLabel (old : Bool) (x : F64) : Bytes :=
  if fIsNaN x then [78, 97, 78]
  else if fIsInf x then (if fNeg x then [45, 73, 110, 102] else [43, 73, 110, 102])
  else (if fNeg x then [45] else []) ++ sharpG old (magVal (fMag x))

/-- "obs/sec: %#.3g" (obs.go:88). The sign of zero is not modelled: the rate is never below 0, and `max` starts as the 0 without a sign. -/
def rateLabel (old : Bool) (x : Num) : Bytes :=
  [111, 98, 115, 47, 115, 101, 99, 58, 32] ++ (match x with
    | .nan => [78, 97, 78]
    | .inf true => [45, 73, 110, 102]
    | .inf false => [43, 73, 110, 102]
    | .fin q => (if q < 0 then [45] else []) ++ sharpG old |q|)

/-- "%0.2f" of a rank (graph.go:107), a number from 0 to 1: rounded to hundredths, one digit before the dot. (The "0.00" of graph.go:112 is that of rank 0.) -/
def rankLabel (q : ℚ) : Bytes :=
  let n := (roundEven (q * 100)).toNat
  digitText [n / 100] ++ 46 :: digitText [n / 10 % 10, n % 10]

/-! ## Times -/

/-- `isLeap` (graph.go:188, library code). -/
def goLeap (y : Nat) : Bool := y % 4 = 0 && (y % 100 != 0 || y % 400 = 0)

/-- The year and the day in it, for the `d`-th day since the first of January of the year 1 (`absDate`; graph.go:188, library code. The library counts from the year -292277022399; the calendar repeats every 400 years.) -/
def goYear (d : Nat) : Nat × Nat :=
  let n400 := d / 146097
  let d := d - 146097 * n400
  let n := d / 36524
  let n100 := n - n / 4
  let d := d - 36524 * n100
  let n4 := d / 1461
  let d := d - 1461 * n4
  let n := d / 365
  let n1 := n - n / 4
  let d := d - 365 * n1
  (400 * n400 + 100 * n100 + 4 * n4 + n1 + 1, d)

/-- `daysBefore` (graph.go:188, library code). -/
def daysBefore : List Nat := [0, 31, 59, 90, 120, 151, 181, 212, 243, 273, 304, 334, 365]

/-- The month and the day of it (`absDate`; graph.go:188, library code). -/
def goMonth (leap : Bool) (yday : Nat) : Nat × Nat :=
  if leap ∧ yday = 59 then (2, 29)
  else
    let day := if leap ∧ 59 < yday then yday - 1 else yday
    let month := day / 31
    let e := daysBefore.getD (month + 1) 0
    if e ≤ day then (month + 2, day - e + 1) else (month + 1, day - daysBefore.getD month 0 + 1)

/-- A number below 100 without zeros in front (`appendInt` with width 0; graph.go:188, library code). -/
def plainInt (n : Nat) : Bytes := if n < 10 then digitText [n] else digitText [n / 10, n % 10]

/-- Seconds since the first of January of the year 1, local time (`Time.abs`; graph.go:188, library code). `x` is in nanoseconds since 1970. -/
def localSec (zone : Int → Int) (x : Int) : Int := x / 1000000000 + zone (x / 1000000000) + 62135596800

/-- `time.Unix(0, x).Format("1/2 @ 15:04")` (graph.go:188). -/
def timeLabel (zone : Int → Int) (x : Int) : Bytes :=
  let s := (localSec zone x).toNat
  let y := goYear (s / 86400)
  let md := goMonth (goLeap y.1) y.2
  let sec := s % 86400
  plainInt md.1 ++ [47] ++ plainInt md.2 ++ [32, 64, 32] ++ digitText [sec / 3600 / 10, sec / 3600 % 10] ++ [58] ++ digitText [sec % 3600 / 60 / 10, sec % 3600 / 60 % 10]

/-- What is not in the repository, with the texts as the library makes them (graph.go:106,135,145,188, obs.go:88). -/
def withTexts (e : Outside) (old : Bool) (zone : Int → Int) : Outside := { e with rankText := rankLabel, valueText := valueLabel old, rateText := rateLabel old, timeText := timeLabel zone }

end Rothko
