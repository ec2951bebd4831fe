import Verif.Model.Crc
/-!
# Chunk records: database/files/record.go
-/
namespace Rothko

/-- `recordVersion` (database/files/record.go:14). -/
def recordVersion : UInt8 := 1

/-- `recordHeaderSize` (database/files/record.go:29). -/
def recordHeaderSize : Nat := (1 + 1 + 8 + 8 + 2) + 4

/-- `recordKind_metadata` etc. (database/files/record.go:34-49). -/
def kindMetadata : UInt8 := 1
/-- record.go:34-49: the kinds. -/
def kindComplete : UInt8 := 2
/-- record.go:34-49. -/
def kindBegin : UInt8 := 3
/-- record.go:34-49. -/
def kindContinue : UInt8 := 4
/-- record.go:34-49. -/
def kindEnd : UInt8 := 5

/-- `type record struct` (database/files/record.go:17-24). The int8 fields `version` and `kind` are kept as
their byte. -/
structure Rec where
  version : UInt8
  kind : UInt8
  start : Int64
  stop : Int64
  size : UInt16
  data : Bytes
deriving DecidableEq, Repr, Inhabited

/-- `record.Size` (database/files/record.go:52-54). -/
def Rec.marshalledSize (r : Rec) : Nat := recordHeaderSize + r.size.toNat

/-- The first 20 bytes of the header (database/files/record.go:71-75). -/
def Rec.head20 (r : Rec) : Bytes :=
  [r.version, r.kind] ++ beBytes 8 r.start.toUInt64.toNat ++ beBytes 8 r.stop.toUInt64.toNat
    ++ beBytes 2 r.size.toNat

/-- The checksum of a header prefix and payload (database/files/record.go:79-81 and 119-121). -/
def recCrc (h data : Bytes) : BitVec 32 := crcUpdate (crcUpdate 0#32 h) data

/-- `record.MarshalHeader` (database/files/record.go:62-85): the 24 header bytes. The buffer reuse of the Go code
has no effect on the contents. `r.data[:r.size]` panics if the slice has less capacity than `size`: `none`. -/
def Rec.marshalHeader (r : Rec) : Option Bytes :=
  if r.data.length < r.size.toNat then none
  else some (r.head20 ++ beBytes 4 (recCrc r.head20 (r.data.take r.size.toNat)).toNat)

/-- `record.Marshal` (database/files/record.go:88-92). -/
def Rec.marshal (r : Rec) : Option Bytes :=
  (r.marshalHeader).map (· ++ r.data.take r.size.toNat)

/-- The ways `parse` refuses a buffer (database/files/record.go:98,103,113,123). -/
inductive ParseErr | header | version | data | crc
deriving DecidableEq, Repr

/-- `buf[lo:hi]` (record.go:96-127.) -/
def slice (buf : Bytes) (lo hi : Nat) : Bytes := (buf.take hi).drop lo

/-- `parse` (database/files/record.go:96-127). On error the Go code also returns a partially filled record, which
every caller ignores. -/
def parse (buf : Bytes) : Except ParseErr Rec :=
  if buf.length < recordHeaderSize then .error .header
  else
    let version := buf.getD 0 0
    if version ≠ recordVersion then .error .version
    else
      let kind := buf.getD 1 0
      let start := (UInt64.ofNat (beNat (slice buf 2 10))).toInt64
      let stop := (UInt64.ofNat (beNat (slice buf 10 18))).toInt64
      let size := UInt16.ofNat (beNat (slice buf 18 20))
      let dataEnd := recordHeaderSize + size.toNat
      if buf.length < dataEnd then .error .data
      else
        let data := slice buf recordHeaderSize dataEnd
        if (recCrc (slice buf 0 (recordHeaderSize - 4)) data).toNat ≠ beNat (slice buf 20 24) then .error .crc
        else .ok { version, kind, start, stop, size, data }

/-- The validity test on the record size shared by `numRecords` and `iterateRecords`
(database/files/record.go:132-135 and 149-152): `int(uint16(chunk)) != chunk` is `chunk > 65535` for `chunk ≥ 0`. -/
def chunkInvalid (size : Int) : Bool :=
  let chunk := size - recordHeaderSize
  chunk < 0 || chunk % 65536 != chunk

/-- `numRecords` (database/files/record.go:131-140). `none` is the division-by-zero panic at line 139
(`size = recordHeaderSize`, `len > 0`). -/
def numRecords (len : Nat) (size : Int) : Option Nat :=
  if chunkInvalid size then some 0
  else if len = 0 then some 1
  else
    let chunk := (size - recordHeaderSize).toNat
    if chunk = 0 then none
    else some ((len + chunk - 1) / chunk)

/-- The loop and final record of `iterateRecords` (database/files/record.go:157-187) with a callback that never fails: the
list of records handed to the callback. `complete` is computed once, before the loop (line 154); `kind` is the kind of
the next non-final chunk.
`chunk = 0` with data left never terminates in Go; here it is cut short, and `iterateRecords` below reports it. -/
def chunksFrom (start stop : Int64) (chunk : Nat) (complete : Bool) (kind : UInt8) (data : Bytes) : List Rec :=
  if data.length > chunk ∧ chunk > 0 then
    { version := recordVersion, kind := kind, start := start, stop := stop,
      size := UInt16.ofNat chunk, data := data.take chunk }
      :: chunksFrom start stop chunk complete kindContinue (data.drop chunk)
  else
    [{ version := recordVersion, kind := if complete then kindComplete else kindEnd,
       start := start, stop := stop, size := UInt16.ofNat data.length, data := data }]
termination_by data.length
decreasing_by simp; omega

/-- Result of `iterateRecords`: refused, does not terminate, or the records passed to the callback in order. (record.go:146-188.) -/
inductive IterRes
  | invalid
  | diverges
  | recs (l : List Rec)
deriving DecidableEq, Repr

/-- `iterateRecords` (database/files/record.go:146-188), for a callback that accepts every record (a failing callback stops the
iteration after a prefix of the same list). -/
def iterateRecords (start stop : Int64) (data : Bytes) (size : Int) : IterRes :=
  if chunkInvalid size then .invalid
  else
    let chunk := (size - recordHeaderSize).toNat
    if chunk = 0 ∧ data.length > 0 then .diverges
    else .recs (chunksFrom start stop chunk (decide (data.length ≤ chunk)) kindBegin data)

end Rothko
