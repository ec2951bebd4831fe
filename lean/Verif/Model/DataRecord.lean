import Verif.Model.Proto
import Verif.Model.Meta
/-!
# Distribution records: data/record.pb.go
-/
namespace Rothko

/-- `data.Record` (data/record.pb.go:24-41). A `float64` is its IEEE bit pattern; a nil and an empty byte slice are not distinguished. -/
structure DRec where
  startTime : Int64 := 0
  endTime : Int64 := 0
  observations : Int64 := 0
  distribution : Bytes := []
  kind : Bytes := []
  min : BitVec 64 := 0#64
  max : BitVec 64 := 0#64
  minId : Bytes := []
  maxId : Bytes := []
  merged : Int64 := 0
deriving DecidableEq, Repr, Inhabited

/-- Float comparison `x != 0`: false for +0 and -0 only (NaN compares unequal). (record.pb.go:89,95.) -/
def floatNonZero (x : BitVec 64) : Bool := x &&& 0x7fffffffffffffff#64 ≠ 0#64

/-- A length-delimited field of `MarshalTo` (data/record.pb.go:77-82): omitted when empty. -/
def putBytesField (tag : UInt8) (b : Bytes) : Bytes :=
  if b.length > 0 then tag :: (encodeVarint (BitVec.ofNat 64 b.length) ++ b) else []

/-- A fixed64 field of `MarshalTo` (data/record.pb.go:89-94). -/
def putFixedField (tag : UInt8) (v : BitVec 64) : Bytes :=
  if floatNonZero v then tag :: leBytes 8 v.toNat else []

/-- `Record.MarshalTo` (data/record.pb.go:57-119): the bytes written. -/
def DRec.encode (m : DRec) : Bytes :=
  putVarintField 0x08 m.startTime ++ putVarintField 0x10 m.endTime ++ putVarintField 0x18 m.observations
    ++ putBytesField 0x22 m.distribution ++ putBytesField 0x2a m.kind
    ++ putFixedField 0x31 m.min ++ putFixedField 0x39 m.max
    ++ putBytesField 0x42 m.minId ++ putBytesField 0x4a m.maxId
    ++ putVarintField 0x50 m.merged

/-- `1 + l + sovRecord(uint64(l))` if non-empty (data/record.pb.go:142-145). -/
def sizeBytesField (b : Bytes) : Nat := if b.length > 0 then 1 + b.length + sov (BitVec.ofNat 64 b.length) else 0

/-- `Record.Size` (data/record.pb.go:130-168). -/
def DRec.encSize (m : DRec) : Nat :=
  sizeVarintField m.startTime + sizeVarintField m.endTime + sizeVarintField m.observations
    + sizeBytesField m.distribution + sizeBytesField m.kind
    + (if floatNonZero m.min then 9 else 0) + (if floatNonZero m.max then 9 else 0)
    + sizeBytesField m.minId + sizeBytesField m.maxId + sizeVarintField m.merged

/-- The `switch fieldNum` of `Record.Unmarshal` (data/record.pb.go:211-431). -/
def DRec.field (m : DRec) (num : Int) (wt : Nat) (d : Bytes) (i : Int) : Option (Outcome (DRec × Int)) :=
  if num = 1 then some (varintField (fun v => { m with startTime := ⟨⟨v⟩⟩ }) wt d i)
  else if num = 2 then some (varintField (fun v => { m with endTime := ⟨⟨v⟩⟩ }) wt d i)
  else if num = 3 then some (varintField (fun v => { m with observations := ⟨⟨v⟩⟩ }) wt d i)
  else if num = 4 then some (bytesField (fun v => { m with distribution := v }) wt d i)
  else if num = 5 then some (bytesField (fun v => { m with kind := v }) wt d i)
  else if num = 6 then some (fixed64Field (fun v => { m with min := v }) wt d i)
  else if num = 7 then some (fixed64Field (fun v => { m with max := v }) wt d i)
  else if num = 8 then some (bytesField (fun v => { m with minId := v }) wt d i)
  else if num = 9 then some (bytesField (fun v => { m with maxId := v }) wt d i)
  else if num = 10 then some (varintField (fun v => { m with merged := ⟨⟨v⟩⟩ }) wt d i)
  else none

/-- `Record.Unmarshal` into `m` (data/record.pb.go:183-452). -/
def DRec.decodeInto (m : DRec) (d : Bytes) : Outcome DRec := unmarshalLoop DRec.field d (d.length + 1) m 0

/-- `Record.Unmarshal` into a zero Record. (record.pb.go:183-452.) -/
def DRec.decode (d : Bytes) : Outcome DRec := DRec.decodeInto {} d

end Rothko
