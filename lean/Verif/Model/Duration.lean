import Verif.Model.Bytes
import Verif.Model.Ieee
/-!
# Durations (api/common.go:73-78, config/common.go:14-26)

The duration of a request and the period between dumps are given as texts and read by `time.ParseDuration`; `time.Duration.String` writes them (config.go:25-27 by way of config/common.go:24-26). Both are Go's library code, transcribed from
its source. Doubles are the rationals they stand for, and their operations those of Model/Ieee (`scale` overflows after 308 zeros behind the dot; the fraction is 0 then, as it is here). The buffer of 32 bytes that `String` fills from its end is a list.
-/
namespace Rothko

/-- A digit (config/common.go:20, library code). -/
def isDigit (c : UInt8) : Bool := 48 ≤ c && c ≤ 57

/-- A digit or a dot (config/common.go:20, library code). -/
def isNumChar (c : UInt8) : Bool := c == 46 || isDigit c

/-- `x*10 + int64(c) - '0'` (config/common.go:20, library code). -/
def pushDigit (x : Int64) (c : UInt8) : Int64 := x * 10 + Int64.ofNat c.toNat - 48

/-- `leadingInt` (config/common.go:20, library code). -/
def leadingInt (x : Int64) : Bytes → Option (Int64 × Bytes)
  | [] => some (x, [])
  | c :: s =>
    if isDigit c = false then some (x, c :: s)
    else if 922337203685477580 < x then none
    else if pushDigit x c < 0 then none
    else leadingInt (pushDigit x c) s

/-- `leadingFraction` (config/common.go:20, library code). -/
def leadingFraction (x : Int64) (scale : ℚ) (overflow : Bool) : Bytes → Int64 × ℚ × Bytes
  | [] => (x, scale, [])
  | c :: s =>
    if isDigit c = false then (x, scale, c :: s)
    else if overflow then leadingFraction x scale true s
    else if 922337203685477580 < x then leadingFraction x scale true s
    else if pushDigit x c < 0 then leadingFraction x scale true s
    else leadingFraction (pushDigit x c) (rn (scale * 10)) false s

/-- `unitMap`: nanoseconds, microseconds (with u, the micro sign or a mu), milliseconds, seconds, minutes, hours (config/common.go:20, library code). -/
def durUnit (u : Bytes) : Option Int64 :=
  if u = [110, 115] then some 1
  else if u = [117, 115] then some 1000
  else if u = [194, 181, 115] then some 1000
  else if u = [206, 188, 115] then some 1000
  else if u = [109, 115] then some 1000000
  else if u = [115] then some 1000000000
  else if u = [109] then some 60000000000
  else if u = [104] then some 3600000000000
  else none

/-- `int64(float64(f) * (float64(unit) / scale))` (config/common.go:20, library code). -/
def fracNs (f unit : Int64) (scale : ℚ) : Int64 := Int64.ofInt ⌊rn (rn f.toInt * rn (rn unit.toInt / scale))⌋

/-- The unit of a term and its value (config/common.go:20, library code). -/
def termUnit (v f : Int64) (scale : ℚ) (s : Bytes) : Option (Int64 × Bytes) :=
  if s.takeWhile (fun c => !isNumChar c) = [] then none
  else match durUnit (s.takeWhile (fun c => !isNumChar c)) with
    | none => none
    | some unit =>
      if 9223372036854775807 / unit < v then none
      else if 0 < f then
        if v * unit + fracNs f unit scale < 0 then none else some (v * unit + fracNs f unit scale, s.dropWhile (fun c => !isNumChar c))
      else some (v * unit, s.dropWhile (fun c => !isNumChar c))

/-- The part of a term from the dot on, if there is one. `pre`: there was a digit before. (config/common.go:20, library code.) -/
def termFrac (pre : Bool) (v : Int64) (s : Bytes) : Option (Int64 × Bytes) :=
  if s.head? = some 46 then
    if pre = false ∧ (leadingFraction 0 1 false s.tail).2.2.length = s.tail.length then none
    else termUnit v (leadingFraction 0 1 false s.tail).1 (leadingFraction 0 1 false s.tail).2.1 (leadingFraction 0 1 false s.tail).2.2
  else if pre = false then none
  else termUnit v 0 1 s

/-- A term: its value and what follows (config/common.go:20, library code). -/
def parseTerm (s : Bytes) : Option (Int64 × Bytes) :=
  if (s.head?.map isNumChar).getD false = false then none
  else match leadingInt 0 s with
    | none => none
    | some (v, s1) => termFrac (s1.length != s.length) v s1

/-- The loop over the terms; `d` is the sum so far. The first argument bounds their number. (config/common.go:20, library code.) -/
def termsLoop : Nat → Int64 → Bytes → Option Int64
  | _, d, [] => some d
  | 0, _, _ => none
  | n + 1, d, s => match parseTerm s with
    | none => none
    | some (v, rest) => if d + v < 0 then none else termsLoop n (d + v) rest

/-- The text after the sign (config/common.go:20, library code). -/
def unsignedDuration (s : Bytes) : Option Int64 :=
  if s = [48] then some 0 else if s = [] then none else termsLoop s.length 0 s

/-- `time.ParseDuration` (config/common.go:20, api/common.go:74, library code). -/
def parseDuration (s : Bytes) : Option Int64 :=
  if s.head? = some 45 then (unsignedDuration s.tail).map (fun d => -d)
  else if s.head? = some 43 then unsignedDuration s.tail
  else unsignedDuration s

/-- `fmtInt`: the decimal digits of `v` before `buf` (config/common.go:25, library code). The first argument bounds their number. -/
def fmtIntLoop : Nat → Nat → Bytes → Bytes
  | 0, _, buf => buf
  | n + 1, v, buf => if v = 0 then buf else fmtIntLoop n (v / 10) (UInt8.ofNat (48 + v % 10) :: buf)

/-- `fmtInt` (config/common.go:25, library code). -/
def fmtInt (v : Nat) (buf : Bytes) : Bytes := if v = 0 then 48 :: buf else fmtIntLoop 20 v buf

/-- The loop of `fmtFrac`: digits of `v` before `buf`, without zeros at the end (config/common.go:25, library code). -/
def fmtFracLoop : Nat → Nat → Bool → Bytes → Bool × Nat × Bytes
  | 0, v, print, buf => (print, v, buf)
  | n + 1, v, print, buf => fmtFracLoop n (v / 10) (print || v % 10 != 0) (if print || v % 10 != 0 then UInt8.ofNat (48 + v % 10) :: buf else buf)

/-- `fmtFrac`: the fraction of v/10^prec before `buf`, and what is left (config/common.go:25, library code). -/
def fmtFrac (v prec : Nat) (buf : Bytes) : Nat × Bytes :=
  ((fmtFracLoop prec v false buf).2.1, if (fmtFracLoop prec v false buf).1 then 46 :: (fmtFracLoop prec v false buf).2.2 else (fmtFracLoop prec v false buf).2.2)

/-- The text of a duration without its sign, `u` nanoseconds (config/common.go:25, library code). -/
def durationText (u : Nat) : Bytes :=
  if u < 1000000000 then
    if u = 0 then [48, 115]
    else if u < 1000 then fmtInt (fmtFrac u 0 [110, 115]).1 (fmtFrac u 0 [110, 115]).2
    else if u < 1000000 then fmtInt (fmtFrac u 3 [194, 181, 115]).1 (fmtFrac u 3 [194, 181, 115]).2
    else fmtInt (fmtFrac u 6 [109, 115]).1 (fmtFrac u 6 [109, 115]).2
  else
    if (fmtFrac u 9 [115]).1 / 60 = 0 then fmtInt ((fmtFrac u 9 [115]).1 % 60) (fmtFrac u 9 [115]).2
    else if (fmtFrac u 9 [115]).1 / 60 / 60 = 0 then fmtInt ((fmtFrac u 9 [115]).1 / 60 % 60) (109 :: fmtInt ((fmtFrac u 9 [115]).1 % 60) (fmtFrac u 9 [115]).2)
    else fmtInt ((fmtFrac u 9 [115]).1 / 60 / 60) (104 :: fmtInt ((fmtFrac u 9 [115]).1 / 60 % 60) (109 :: fmtInt ((fmtFrac u 9 [115]).1 % 60) (fmtFrac u 9 [115]).2))

/-- `Duration.String` (config/common.go:25, library code). -/
def durationString (d : Int64) : Bytes := if d < 0 then 45 :: durationText d.toInt.natAbs else durationText d.toInt.natAbs

end Rothko
