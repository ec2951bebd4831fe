import Verif.Model.BasicAuth
/-!
RFC 4648 (base64) and RFC 7617 (Basic authentication), from the side of the client.
-/
namespace Rothko

/-- The character for six bits: RFC 4648, table 1. -/
def b64Char (n : Nat) : UInt8 :=
  if n < 26 then UInt8.ofNat (65 + n) else if n < 52 then UInt8.ofNat (97 + (n - 26)) else if n < 62 then UInt8.ofNat (48 + (n - 52)) else if n = 62 then 43 else 47

/-- RFC 4648, section 4: each three bytes, read as a number of 24 bits, are four characters of six bits each; what is left is filled up with zero bits and the text with `=`. -/
def b64Encode : Bytes → Bytes
  | [] => []
  | [a] => [b64Char (a.toNat / 4), b64Char (a.toNat % 4 * 16), 61, 61]
  | [a, b] => [b64Char (a.toNat / 4), b64Char (a.toNat % 4 * 16 + b.toNat / 16), b64Char (b.toNat % 16 * 4), 61]
  | a :: b :: c :: s => b64Char (a.toNat / 4) :: b64Char (a.toNat % 4 * 16 + b.toNat / 16) :: b64Char (b.toNat % 16 * 4 + c.toNat / 64) :: b64Char (c.toNat % 64) :: b64Encode s

/-- What a client sends for a name and a password: RFC 7617, section 2. -/
def basicHeader (user password : Bytes) : Bytes := [66, 97, 115, 105, 99, 32] ++ b64Encode (user ++ 58 :: password)

/-- `B64Spells x s`: the text `x` stands for the bytes `s`, as RFC 4648 has it, except that the bits left over in the last group need not be zero. -/
inductive B64Spells : Bytes → Bytes → Prop
  | done : B64Spells [] []
  | one (x y : Nat) (a : UInt8) : x < 64 → y < 64 → x * 4 + y / 16 = a.toNat → B64Spells [b64Char x, b64Char y, 61, 61] [a]
  | two (x y z : Nat) (a b : UInt8) : x < 64 → y < 64 → z < 64 → x * 4 + y / 16 = a.toNat → y % 16 * 16 + z / 4 = b.toNat → B64Spells [b64Char x, b64Char y, b64Char z, 61] [a, b]
  | three (x y z w : Nat) (a b c : UInt8) {r s : Bytes} : x < 64 → y < 64 → z < 64 → w < 64 → x * 4 + y / 16 = a.toNat → y % 16 * 16 + z / 4 = b.toNat → z % 4 * 64 + w = c.toNat → B64Spells r s →
      B64Spells (b64Char x :: b64Char y :: b64Char z :: b64Char w :: r) (a :: b :: c :: s)

/-- The header is the word Basic - in any case, if `fold` -, a space and a text that stands for the bytes, line breaks aside. -/
def Credentials (fold : Bool) (header s : Bytes) : Prop :=
  (header.take 6 = [66, 97, 115, 105, 99, 32] ∨ (fold = true ∧ (header.take 6).map foldLetter = [66, 97, 115, 105, 99, 32].map foldLetter)) ∧
  B64Spells ((header.drop 6).filter (fun c => c != 13 && c != 10)) s

end Rothko
