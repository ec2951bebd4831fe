import Verif.Model.DataRecord
/-!
The protocol buffer wire format, as documented, independently of the generated code: base 128 varints, and the fields of a message with their five kinds of payload, groups nested to any depth.
-/
namespace Rothko

/-- The base 128 varint of a number: seven bits per byte, least significant first, the top bit set in all but the last byte. -/
def leb (n : Nat) : Bytes := if n < 128 then [UInt8.ofNat n] else UInt8.ofNat (n % 128 + 128) :: leb (n / 128)

/-- The tag of a field: its number and the kind of its payload. -/
def wireTag (num kind : Nat) : Bytes := leb (num * 8 + kind)

mutual
/-- `WireField n b`: `b` is one complete field with number `n`. -/
inductive WireField : Nat → Bytes → Prop
  | varint (n v : Nat) (hn : 1 ≤ n ∧ n < 536870912) (hv : v < 18446744073709551616) : WireField n (wireTag n 0 ++ leb v)
  | fixed64 (n : Nat) (b : Bytes) (hn : 1 ≤ n ∧ n < 536870912) (hb : b.length = 8) : WireField n (wireTag n 1 ++ b)
  | bytes (n : Nat) (b : Bytes) (hn : 1 ≤ n ∧ n < 536870912) : WireField n (wireTag n 2 ++ (leb b.length ++ b))
  | group (n : Nat) (body : Bytes) (hn : 1 ≤ n ∧ n < 536870912) (h : WireFields body) : WireField n (wireTag n 3 ++ (body ++ wireTag n 4))
  | fixed32 (n : Nat) (b : Bytes) (hn : 1 ≤ n ∧ n < 536870912) (hb : b.length = 4) : WireField n (wireTag n 5 ++ b)
/-- Any number of complete fields. -/
inductive WireFields : Bytes → Prop
  | nil : WireFields []
  | cons (n : Nat) (b rest : Bytes) (h : WireField n b) (hr : WireFields rest) : WireFields (b ++ rest)
end

/-- The fields of a distribution record, and fields of other numbers written by some other version. -/
inductive RField
  | startTime (v : Int64)
  | endTime (v : Int64)
  | observations (v : Int64)
  | distribution (b : Bytes)
  | kind (b : Bytes)
  | min (x : BitVec 64)
  | max (x : BitVec 64)
  | minId (b : Bytes)
  | maxId (b : Bytes)
  | merged (v : Int64)
  | other (n : Nat) (b : Bytes)

/-- Eight bytes, least significant first. -/
def le8 (x : Nat) : Bytes := (List.range 8).map (fun i => UInt8.ofNat (x / 256 ^ i))

/-- How a field is written (data/record.proto). -/
def RField.wire : RField → Bytes
  | .startTime v => wireTag 1 0 ++ leb v.toBitVec.toNat
  | .endTime v => wireTag 2 0 ++ leb v.toBitVec.toNat
  | .observations v => wireTag 3 0 ++ leb v.toBitVec.toNat
  | .distribution b => wireTag 4 2 ++ (leb b.length ++ b)
  | .kind b => wireTag 5 2 ++ (leb b.length ++ b)
  | .min x => wireTag 6 1 ++ le8 x.toNat
  | .max x => wireTag 7 1 ++ le8 x.toNat
  | .minId b => wireTag 8 2 ++ (leb b.length ++ b)
  | .maxId b => wireTag 9 2 ++ (leb b.length ++ b)
  | .merged v => wireTag 10 0 ++ leb v.toBitVec.toNat
  | .other _ b => b

/-- What it means. -/
def RField.set (m : DRec) : RField → DRec
  | .startTime v => { m with startTime := v }
  | .endTime v => { m with endTime := v }
  | .observations v => { m with observations := v }
  | .distribution b => { m with distribution := b }
  | .kind b => { m with kind := b }
  | .min x => { m with min := x }
  | .max x => { m with max := x }
  | .minId b => { m with minId := b }
  | .maxId b => { m with maxId := b }
  | .merged v => { m with merged := v }
  | .other _ _ => m

/-- Fields of other numbers are complete fields, of any kind. -/
def RField.Ok : RField → Prop
  | .other n b => 10 < n ∧ WireField n b
  | _ => True

/-- A message: its fields one after the other. -/
def RField.message (fs : List RField) : Bytes := (fs.map RField.wire).flatten

/-- The fields of the metadata of a data file, and others. -/
inductive MField
  | size (v : Int64)
  | head (v : Int64)
  | start (v : Int64)
  | stop (v : Int64)
  | smallestEnd (v : Int64)
  | other (n : Nat) (b : Bytes)

/-- How it is written (meta.proto). -/
def MField.wire : MField → Bytes
  | .size v => wireTag 1 0 ++ leb v.toBitVec.toNat
  | .head v => wireTag 2 0 ++ leb v.toBitVec.toNat
  | .start v => wireTag 3 0 ++ leb v.toBitVec.toNat
  | .stop v => wireTag 4 0 ++ leb v.toBitVec.toNat
  | .smallestEnd v => wireTag 5 0 ++ leb v.toBitVec.toNat
  | .other _ b => b

/-- What it means. -/
def MField.set (m : Meta) : MField → Meta
  | .size v => { m with size := v }
  | .head v => { m with head := v }
  | .start v => { m with start := v }
  | .stop v => { m with stop := v }
  | .smallestEnd v => { m with smallestEnd := v }
  | .other _ _ => m

/-- Fields of other numbers are complete fields. -/
def MField.Ok : MField → Prop
  | .other n b => 5 < n ∧ WireField n b
  | _ => True

/-- A metadata message. -/
def MField.message (fs : List MField) : Bytes := (fs.map MField.wire).flatten

end Rothko
