import Verif.Model.Ieee
import Verif.Model.Graphite
import Verif.Spec.Numeral
/-!
# Reading a value (listener/graphite/listener.go:128)

`strconv.ParseFloat(s, 64)`: library code, modelled from its source as it was until Go 1.12 (later versions also read hexadecimal numbers). Its decimals have room for 800 digits and remember whether others followed, which is
enough to round exactly; here they have all digits. Its two short cuts (exact powers of ten, extended precision) give the same results and are not modelled.
-/
namespace Rothko

/-- A letter in lower case (listener.go:128, library code). -/
def asciiLower (c : UInt8) : UInt8 := if 65 ≤ c ∧ c ≤ 90 then c + 32 else c

/-- `special`: the texts for infinities and what is no number, in letters of either case (listener.go:128, library code). -/
def specialFloat (s : Bytes) : Option F64 :=
  let t := s.map asciiLower
  if t = [43, 105, 110, 102] ∨ t = [43, 105, 110, 102, 105, 110, 105, 116, 121] then some 0x7ff0000000000000#64
  else if t = [45, 105, 110, 102] ∨ t = [45, 105, 110, 102, 105, 110, 105, 116, 121] then some 0xfff0000000000000#64
  else if t = [110, 97, 110] then some 0x7ff8000000000001#64
  else if t = [105, 110, 102] ∨ t = [105, 110, 102, 105, 110, 105, 116, 121] then some 0x7ff0000000000000#64
  else none

/-- What the loop over the digits has seen (`decimal.set`; listener.go:128, library code). -/
structure DecScan where
  sawDot : Bool := false
  sawDigits : Bool := false
  ds : List Nat := []
  dp : Int := 0

/-- The loop over digits and dot; `none` for a second dot (`decimal.set`; listener.go:128, library code). -/
def pfLoop (st : DecScan) : Bytes → Option (DecScan × Bytes)
  | [] => some (st, [])
  | c :: s =>
    if c = 46 then (if st.sawDot then none else pfLoop { st with sawDot := true, dp := st.ds.length } s)
    else if 48 ≤ c ∧ c ≤ 57 then
      (if c = 48 ∧ st.ds = [] then pfLoop { st with sawDigits := true, dp := st.dp - 1 } s
       else pfLoop { st with sawDigits := true, ds := st.ds ++ [c.toNat - 48] } s)
    else some (st, c :: s)

/-- The loop over the digits of the exponent: from 10000 on they are ignored (`decimal.set`; listener.go:128, library code). -/
def expLoop (e : Nat) : Bytes → Nat × Bytes
  | [] => (e, [])
  | c :: s => if 48 ≤ c ∧ c ≤ 57 then expLoop (if e < 10000 then e * 10 + (c.toNat - 48) else e) s else (e, c :: s)

/-- The sign of a number or of an exponent (`decimal.set`; listener.go:128, library code). -/
def readSign : Bytes → Bool × Bytes
  | 43 :: s => (false, s)
  | 45 :: s => (true, s)
  | s => (false, s)

/-- The exponent (`decimal.set`; listener.go:128, library code): nothing may follow. -/
def readExp : Bytes → Option Int
  | [] => some 0
  | c :: s =>
    if c = 101 ∨ c = 69 then
      match (readSign s).2 with
      | [] => none
      | d :: r =>
        if 48 ≤ d ∧ d ≤ 57 then
          (if (expLoop 0 (d :: r)).2 = [] then some ((if (readSign s).1 then -1 else 1) * ((expLoop 0 (d :: r)).1 : Int)) else none)
        else none
    else none

/-- `decimal.set`: sign, digits and where the dot is (listener.go:128, library code). -/
def decimalSet (s : Bytes) : Option (Bool × List Nat × Int) :=
  let sg := readSign s
  match pfLoop {} sg.2 with
  | none => none
  | some (st, rest) =>
    if st.sawDigits = false then none
    else match readExp rest with
      | none => none
      | some e => some (sg.1, st.ds, (if st.sawDot then st.dp else st.ds.length) + e)

/-- The bits of the double nearest to `q`, without sign: fraction plus 2^52 times exponent (`decimal.floatBits`; listener.go:128, library code). -/
def magBits (q : ℚ) : Nat := (roundEven (q / 2 ^ ulpExp q)).toNat + (ulpExp q + 1074).toNat * 4503599627370496

/-- `decimal.floatBits` (listener.go:128, library code); `none` for an overflow. -/
def floatBits (neg : Bool) (q : ℚ) : Option F64 :=
  let m := if q = 0 then 0 else magBits q
  if 9218868437227405312 ≤ m then none else some (BitVec.ofNat 64 (m + if neg then 9223372036854775808 else 0))

/-- `strconv.ParseFloat(s, 64)` (listener.go:128); `none` for an error. -/
def parseFloat (s : Bytes) : Option F64 :=
  match specialFloat s with
  | some x => some x
  | none => match decimalSet s with
    | none => none
    | some (neg, ds, dp) => floatBits neg (digitsValue ds * 10 ^ (dp - ds.length))

end Rothko
