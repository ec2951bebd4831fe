import Verif.Model.Url
/-!
# The answer of a query as JSON (api/server.go:285-287)

`encoding/json` is library code, transcribed for a list of strings.
-/
namespace Rothko

/-- A lower-case hexadecimal digit (api/server.go:287, library code). -/
def hexLower (n : Nat) : UInt8 := if n < 10 then UInt8.ofNat (48 + n) else UInt8.ofNat (87 + n)

/-- One byte of ASCII (api/server.go:287, library code): as it is but for control characters, quotes, backslashes and the characters HTML uses. -/
def jsonAscii (b : UInt8) : Bytes :=
  if b = 92 ∨ b = 34 then [92, b]
  else if b = 10 then [92, 110]
  else if b = 13 then [92, 114]
  else if b = 9 then [92, 116]
  else if b < 32 ∨ b = 60 ∨ b = 62 ∨ b = 38 then [92, 117, 48, 48, hexLower (b.toNat / 16), hexLower (b.toNat % 16)]
  else [b]

/-- One rune with its bytes (api/server.go:287, library code): a byte that begins none is written as U+FFFD; the line separators are escaped. -/
def jsonRune (c : Nat × Bytes) : Bytes :=
  if c.1 < 128 then jsonAscii (UInt8.ofNat c.1)
  else if c.1 = 65533 ∧ c.2.length = 1 then [92, 117, 102, 102, 102, 100]
  else if c.1 = 8232 ∨ c.1 = 8233 then [92, 117, 50, 48, 50, hexLower (c.1 % 16)]
  else c.2

/-- A string (api/server.go:287, library code). -/
def jsonString (s : Bytes) : Bytes := 34 :: (runes s).flatMap jsonRune ++ [34]

/-- `json.NewEncoder(w).Encode` of a list of strings that is not nil (api/server.go:287, library code). -/
def jsonList (names : List Bytes) : Bytes := 91 :: joinWith 44 (names.map jsonString) ++ [93, 10]

end Rothko
