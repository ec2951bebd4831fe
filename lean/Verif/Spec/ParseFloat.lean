import Verif.Spec.Numeral
import Verif.Spec.Ieee
import Verif.Spec.Pipe
/-!
# Values sent as texts (C116)
-/
namespace Rothko

/-- The double `x` is the one nearest to the number that the numeral says, of two the one with an even last digit, with the numeral's sign (also if it is zero). -/
structure Reads (n : Numeral) (x : F64) : Prop where
  finite : fFinite x = true
  sign : fNeg x = true ↔ n.sign = [45]
  nearest : Rounds |n.value| |fVal x|

/-- Numbers that round to none of the doubles: 2^1024 - 2^970 and more. -/
def TooLarge (q : ℚ) : Prop := 2 ^ 1024 - 2 ^ 970 ≤ |q|

/-- At most 9000 digits, or an exponent below 100000. -/
def Numeral.Short (n : Numeral) : Prop := n.whole.length + n.places.length ≤ 9000 ∨ ∀ c s ds, n.exp = some (c, s, ds) → digitsValue ds < 100000

/-- A line that a client sends: a metric, a number, and a time. -/
structure SentLine where
  metric : Bytes
  number : Numeral
  time : Bytes

/-- Its text, without the newline. -/
def SentLine.text (l : SentLine) : Bytes := l.metric ++ 32 :: (l.number.text ++ 32 :: l.time)

/-- No spaces or line ends in the fields, a number that is not too large, and fewer than 65536 bytes. -/
structure SentLine.Ok (l : SentLine) : Prop where
  metric : ∀ c ∈ l.metric, c ≠ 32 ∧ c ≠ 10 ∧ c ≠ 13
  time : ∀ c ∈ l.time, c ≠ 32 ∧ c ≠ 10 ∧ c ≠ 13
  number : l.number.Ok
  short : l.number.Short
  range : ¬ TooLarge l.number.value
  length : l.text.length < 65536

/-- What a connection receives is these lines, each with a newline. -/
def SaysLines (reads : List Bytes) (ls : List SentLine) : Prop := (∀ l ∈ ls, l.Ok) ∧ reads.flatten = (ls.map (fun l => l.text ++ [10])).flatten

end Rothko
