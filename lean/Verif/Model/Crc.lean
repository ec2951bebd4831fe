import Verif.Model.Bytes
/-!
# CRC-32C as computed by Go's `hash/crc32`

database/files/record.go:11 builds `castTable := crc32.MakeTable(crc32.Castagnoli)`; lines 79-82 and
119-122 call `crc32.Update`.  The standard library is not part of the repository; this is the
reference (`slicing1`/`simpleUpdate`) algorithm of `hash/crc32`: a 256-entry table, one lookup per byte, with the register
complemented before and after.
-/
namespace Rothko

/-- `crc32.Castagnoli`, the reflected polynomial. (record.go:11.) -/
def castagnoli : BitVec 32 := 0x82f63b78#32

/-- One round of the inner loop of `simpleMakeTable` (record.go:11). -/
def crcStep (c : BitVec 32) : BitVec 32 :=
  if c.getLsbD 0 then (c >>> 1) ^^^ castagnoli else c >>> 1

/-- `f` iterated `n` times. (record.go:11, the loop of the table of hash/crc32.) -/
def iter (f : α → α) : Nat → α → α
  | 0, x => x
  | n + 1, x => iter f n (f x)

/-- Entry `i` of `castTable` (record.go:11): eight rounds starting at `i`. -/
def castTable (i : BitVec 8) : BitVec 32 :=
  iter crcStep 8 (i.setWidth 32)

/-- Loop body of `simpleUpdate`: `crc = tab[byte(crc)^v] ^ (crc >> 8)`. (record.go:81,121, hash/crc32.) -/
def crcByte (crc : BitVec 32) (v : UInt8) : BitVec 32 :=
  castTable (crc.setWidth 8 ^^^ v.toBitVec) ^^^ (crc >>> 8)

/-- `crc32.Update(crc, castTable, p)` (record.go:80,81,120,121). -/
def crcUpdate (crc : BitVec 32) (p : Bytes) : BitVec 32 :=
  ~~~ (p.foldl crcByte (~~~ crc))

end Rothko
