import Verif.Model.Proto
import Verif.Model.Record
/-!
# File metadata: database/files/internal/meta/meta.pb.go
-/
namespace Rothko

/-- `meta.Metadata` (meta.pb.go:20-30). Go `int` and `int64` fields are 64 bit. -/
structure Meta where
  size : Int64 := 0
  head : Int64 := 0
  start : Int64 := 0
  stop : Int64 := 0
  smallestEnd : Int64 := 0
deriving DecidableEq, Repr, Inhabited

/-- One field of `MarshalTo`: omitted when zero (meta.pb.go:51-55). -/
def putVarintField (tag : UInt8) (v : Int64) : Bytes :=
  if v ≠ 0 then tag :: encodeVarint v.toBitVec else []

/-- `Metadata.MarshalTo` (meta.pb.go:46-77): the bytes written. -/
def Meta.encode (m : Meta) : Bytes :=
  putVarintField 0x08 m.size ++ putVarintField 0x10 m.head ++ putVarintField 0x18 m.start
    ++ putVarintField 0x20 m.stop ++ putVarintField 0x28 m.smallestEnd

/-- One field of `Size`. (meta.pb.go:88-108.) -/
def sizeVarintField (v : Int64) : Nat := if v ≠ 0 then 1 + sov v.toBitVec else 0

/-- `Metadata.Size` (meta.pb.go:88-108). -/
def Meta.encSize (m : Meta) : Nat :=
  sizeVarintField m.size + sizeVarintField m.head + sizeVarintField m.start + sizeVarintField m.stop
    + sizeVarintField m.smallestEnd

/-- The `switch fieldNum` of `Metadata.Unmarshal` (meta.pb.go:150-245). -/
def Meta.field (m : Meta) (num : Int) (wt : Nat) (d : Bytes) (i : Int) : Option (Outcome (Meta × Int)) :=
  if num = 1 then some (varintField (fun v => { m with size := ⟨⟨v⟩⟩ }) wt d i)
  else if num = 2 then some (varintField (fun v => { m with head := ⟨⟨v⟩⟩ }) wt d i)
  else if num = 3 then some (varintField (fun v => { m with start := ⟨⟨v⟩⟩ }) wt d i)
  else if num = 4 then some (varintField (fun v => { m with stop := ⟨⟨v⟩⟩ }) wt d i)
  else if num = 5 then some (varintField (fun v => { m with smallestEnd := ⟨⟨v⟩⟩ }) wt d i)
  else none

/-- `Metadata.Unmarshal` into a zero value (meta.pb.go:122-266, called from file_helpers.go:57). -/
def Meta.decode (d : Bytes) : Outcome Meta := unmarshalLoop Meta.field d (d.length + 1) {} 0

end Rothko
