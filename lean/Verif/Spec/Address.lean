import Verif.Spec.ParseFloat
import Verif.Spec.Duration
import Verif.Model.ParseFloat
/-!
# What an address written by hand says (C123)

The part of an address after the question mark: parameters, each separated from the next by `&` (or `;`), each a key, `=` and a value, in which any character may be written as an escape.
-/
namespace Rothko

/-- `c` is a hexadecimal digit, of either case, of value `n`. -/
def HexIs (c : UInt8) (n : Nat) : Prop := (n < 10 ∧ c.toNat = 48 + n) ∨ (10 ≤ n ∧ n < 16 ∧ (c.toNat = 55 + n ∨ c.toNat = 87 + n))

/-- A text written in an address without the bytes `stop` in it: a byte stands for itself, or as `%` and two hexadecimal digits; a plus is a space. -/
inductive Written (stop : List UInt8) : Bytes → Bytes → Prop
  | nil : Written stop [] []
  | byte {s t : Bytes} (c : UInt8) : c ≠ 37 → c ≠ 43 → c ∉ stop → Written stop s t → Written stop (c :: s) (c :: t)
  | plus {s t : Bytes} : Written stop s t → Written stop (43 :: s) (32 :: t)
  | escape {s t : Bytes} (a b : UInt8) (x y : Nat) (c : UInt8) : HexIs a x → HexIs b y → c.toNat = x * 16 + y → Written stop s t → Written stop (37 :: a :: b :: s) (c :: t)

/-- A text that is not well written: there is a `%`, the first such, that two hexadecimal digits do not follow. -/
def Misspelt (stop : List UInt8) (s : Bytes) : Prop :=
  ∃ good meant rest, Written stop good meant ∧ s = good ++ 37 :: rest ∧ (∀ c ∈ rest, c ∉ stop) ∧ ¬ ∃ a b r x y, rest = a :: b :: r ∧ HexIs a x ∧ HexIs b y

/-- A parameter, and the key and the value it gives. Neither `&` nor `;` is in it, and the first `=` ends its key. -/
inductive ParamIs : Bytes → Option (Bytes × Bytes) → Prop
  | pair {ks k vs v : Bytes} : Written [38, 59, 61] ks k → Written [38, 59] vs v → ParamIs (ks ++ 61 :: vs) (some (k, v))
  | bare {ks k : Bytes} : ks ≠ [] → Written [38, 59, 61] ks k → ParamIs ks (some (k, []))
  | empty : ParamIs [] none
  | badKey {ks vs : Bytes} : Misspelt [38, 59, 61] ks → (∀ c ∈ vs, c ≠ 38 ∧ c ≠ 59) → ParamIs (ks ++ 61 :: vs) none
  | badBare {ks : Bytes} : Misspelt [38, 59, 61] ks → ParamIs ks none
  | badValue {ks k vs : Bytes} : Written [38, 59, 61] ks k → Misspelt [38, 59] vs → ParamIs (ks ++ 61 :: vs) none

/-- What follows the question mark, and the keys and the values in their order. -/
inductive QueryIs : Bytes → List (Bytes × Bytes) → Prop
  | last {seg : Bytes} {o : Option (Bytes × Bytes)} : ParamIs seg o → QueryIs seg o.toList
  | more {seg q : Bytes} {o : Option (Bytes × Bytes)} {ps : List (Bytes × Bytes)} (sep : UInt8) : ParamIs seg o → sep = 38 ∨ sep = 59 → QueryIs q ps → QueryIs (seg ++ sep :: q) (o.toList ++ ps)

/-- The first value that a key has. -/
inductive FirstIs : List (Bytes × Bytes) → Bytes → Bytes → Prop
  | here (k v : Bytes) (ps : List (Bytes × Bytes)) : FirstIs ((k, v) :: ps) k v
  | later {k' v' k v : Bytes} {ps : List (Bytes × Bytes)} : k' ≠ k → FirstIs ps k v → FirstIs ((k', v') :: ps) k v

/-- The text of a parameter: its first value, nothing if there is none. -/
def TextOf (ps : List (Bytes × Bytes)) (key : String) (text : Bytes) : Prop :=
  FirstIs ps key.toUTF8.toList text ∨ ((∀ v, (key.toUTF8.toList, v) ∉ ps) ∧ text = [])

/-- A whole number that fits into 64 bits is itself; any other text is the default. -/
def IntOf (text : Bytes) (dflt v : Int64) : Prop :=
  (∀ i : Int, Decimal text i → -(2 ^ 63) ≤ i → i < 2 ^ 63 → v.toInt = i) ∧ ((¬ ∃ i : Int, Decimal text i ∧ -(2 ^ 63) ≤ i ∧ i < 2 ^ 63) → v = dflt)

/-- A sum of numbers with units, signed or not, of whole nanoseconds and less than 2^63 of them, is itself; a text that is none is 24 hours. -/
def DurationOf (text : Bytes) (d : Int64) : Prop :=
  (∀ sign sg, (sign, sg) ∈ durSigns → ∀ ts : List DTerm, ts ≠ [] → (∀ t ∈ ts, t.Ok) → (∀ t ∈ ts, t.Fine) → text = sign ++ ts.flatMap DTerm.text → (ts.map DTerm.ns).sum < 9223372036854775808 →
    (d.toInt : ℚ) = sg * (ts.map DTerm.ns).sum) ∧
  ((¬ ∃ sign sg, (sign, sg) ∈ durSigns ∧ (text = sign ++ [48] ∨ ∃ ts : List DTerm, ts ≠ [] ∧ (∀ t ∈ ts, t.Ok) ∧ text = sign ++ ts.flatMap DTerm.text)) → d.toInt = 24 * 60 * 60 * 1000000000)

/-- A decimal number that is not too large, of at most 9000 digits or with an exponent below 100000, is the nearest double; a text that is neither a number nor a word for an infinity or for no number, and a number that is too large, are 5. -/
def CompressionOf (text : Bytes) (x : F64) : Prop :=
  (∀ n : Numeral, n.Ok → n.Short → text = n.text → (¬ TooLarge n.value → Reads n x) ∧ (TooLarge n.value → fVal x = 5)) ∧
  ((¬ ∃ n : Numeral, n.Ok ∧ text = n.text) → text.map asciiLower ∉ ["inf", "+inf", "infinity", "+infinity", "-inf", "-infinity", "nan"].map (fun s => s.toUTF8.toList) → fVal x = 5)

end Rothko
