/-!
# Byte strings

Go `[]byte` values are modelled as `List UInt8` (contents only).
-/
namespace Rothko

/-- A Go byte slice / string: contents only, no aliasing. (used for `[]byte` and `string` throughout, e.g. database/files/record.go:17-24.) -/
abbrev Bytes := List UInt8

/-- `encoding/binary.BigEndian.PutUintN`: the `n` bytes of `x`, most significant first
(used in database/files/record.go:73-75,82). Higher bytes of `x` are cut off. -/
def beBytes : Nat → Nat → Bytes
  | 0, _ => []
  | n + 1, x => UInt8.ofNat (x / 256 ^ n) :: beBytes n x

/-- `encoding/binary.BigEndian.UintN` (used in database/files/record.go:107-109,122). -/
def beNat (bs : Bytes) : Nat :=
  bs.foldl (fun a b => a * 256 + b.toNat) 0

deriving instance DecidableEq for Except

end Rothko
