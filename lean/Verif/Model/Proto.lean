import Verif.Model.Bytes
/-!
# Protocol buffer primitives

The generated code of data/record.pb.go and database/files/internal/meta/meta.pb.go contains the same helper functions twice
(`skipRecord` and `skipMeta` are textually the same); they are modelled once here.

Indexes are Go `int`s (64 bit, wrapping on overflow): `Int` with explicit `wrap64`. A byte access at a negative index is a Go
run-time panic.
-/
namespace Rothko

/-- Errors returned by generated unmarshalling code. (data/record.pb.go:553-556.) -/
inductive PErr
  | overflow      -- ErrIntOverflow
  | eof           -- io.ErrUnexpectedEOF
  | endGroup      -- "wiretype end group for non-group"
  | illegalTag    -- "illegal tag"
  | wrongWire     -- "wrong wireType"
  | length        -- ErrInvalidLength
  | illegalWire   -- "illegal wireType"
deriving DecidableEq, Repr

/-- Outcome of a Go call: a value, an error return, a run-time panic, or (model artefact) out of fuel. (data/record.pb.go:183-547.) -/
inductive Outcome (α : Type) where
  | ok (a : α)
  | err (e : PErr)
  | panic
  | stuck
deriving DecidableEq, Repr

namespace Outcome
/-- Go sequencing: errors and panics end the call (data/record.pb.go:183-547). -/
def bind {α β : Type} (x : Outcome α) (f : α → Outcome β) : Outcome β :=
  match x with
  | .ok a => f a
  | .err e => .err e
  | .panic => .panic
  | .stuck => .stuck
instance : Monad Outcome where
  pure := Outcome.ok
  bind := Outcome.bind
@[simp] theorem ok_bind (a : α) (f : α → Outcome β) : (Outcome.ok a >>= f) = f a := rfl
@[simp] theorem pure_eq (a : α) : (pure a : Outcome α) = Outcome.ok a := rfl
@[simp] theorem err_bind (e : PErr) (f : α → Outcome β) : ((Outcome.err e : Outcome α) >>= f) = Outcome.err e := rfl
@[simp] theorem panic_bind (f : α → Outcome β) : ((Outcome.panic : Outcome α) >>= f) = Outcome.panic := rfl
@[simp] theorem stuck_bind (f : α → Outcome β) : ((Outcome.stuck : Outcome α) >>= f) = Outcome.stuck := rfl
end Outcome

/-- 64-bit two's complement wrap-around of Go `int` arithmetic. (data/record.pb.go:212-230.) -/
def wrap64 (x : Int) : Int := Int.bmod x (2 ^ 64)

/-- `encodeVarintRecord` / `encodeVarintMeta` (data/record.pb.go:121-129, meta.pb.go:79-87): the bytes written. The first argument bounds the
number of bytes with the continuation bit; nine are enough for any 64-bit value. -/
def encodeVarintLoop : Nat → BitVec 64 → Bytes
  | 0, v => [UInt8.ofBitVec (v.setWidth 8)]
  | n + 1, v =>
    if v ≥ 128#64 then UInt8.ofBitVec ((v &&& 0x7f#64 ||| 0x80#64).setWidth 8) :: encodeVarintLoop n (v >>> 7)
    else [UInt8.ofBitVec (v.setWidth 8)]

/-- data/record.pb.go:121-129. -/
def encodeVarint (v : BitVec 64) : Bytes := encodeVarintLoop 9 v

/-- `sovRecord` / `sovMeta` (data/record.pb.go:170-179, meta.pb.go:109-118). -/
def sovLoop : Nat → BitVec 64 → Nat
  | 0, _ => 1
  | n + 1, x => if x >>> 7 = 0#64 then 1 else 1 + sovLoop n (x >>> 7)

/-- data/record.pb.go:170-179. -/
def sov (x : BitVec 64) : Nat := sovLoop 9 x

/-- `if iNdEx >= l { return io.ErrUnexpectedEOF }; b := dAtA[iNdEx]` (data/record.pb.go:193-196 and every other varint loop);
a negative index panics. -/
def byteAt (d : Bytes) (i : Int) : Outcome UInt8 :=
  if i ≥ d.length then .err .eof
  else if i < 0 then .panic
  else .ok (d.getD i.toNat 0)

/-- The varint loops, e.g. data/record.pb.go:189-202: the first argument counts the remaining iterations (shift reaches 64 after ten).
Returns the value and the new index. -/
def readVarintLoop (d : Bytes) : Nat → Nat → BitVec 64 → Int → Outcome (BitVec 64 × Int)
  | 0, _, _, _ => .err .overflow
  | n + 1, shift, acc, i => do
    let b ← byteAt d i
    let acc := acc ||| ((b.toBitVec.setWidth 64 &&& 0x7f#64) <<< shift)
    if b < 0x80 then pure (acc, i + 1)
    else readVarintLoop d n (shift + 7) acc (i + 1)

/-- data/record.pb.go:189-202. -/
def readVarint (d : Bytes) (i : Int) : Outcome (BitVec 64 × Int) := readVarintLoop d 10 0 0#64 i

mutual
/-- `skipRecord` / `skipMeta` (data/record.pb.go:453-547, meta.pb.go:267-361). The `for iNdEx < l` loop never iterates twice. Reaching
its end (empty input) is `panic("unreachable")`. First argument: fuel. -/
def skipField : Nat → Bytes → Outcome Int
  | 0, _ => .stuck
  | fuel + 1, d =>
    if d.length = 0 then .panic
    else do
      let (wire, i) ← readVarint d 0
      match (wire &&& 7#64).toNat with
      | 0 => do
        let (_, i) ← readVarint d i
        pure i
      | 1 => pure (wrap64 (i + 8))
      | 2 => do
        let (len, i) ← readVarint d i
        if len.toInt < 0 then .err .length
        else pure (wrap64 (i + len.toInt))
      | 3 => skipGroup fuel d i
      | 4 => pure i
      | 5 => pure (wrap64 (i + 4))
      | _ => .err .illegalWire
/-- The group loop inside `skipRecord` / `skipMeta` (data/record.pb.go:510-537). -/
def skipGroup : Nat → Bytes → Int → Outcome Int
  | 0, _, _ => .stuck
  | fuel + 1, d, start => do
    let (inner, i) ← readVarint d start
    if (inner &&& 7#64).toNat = 4 then pure i
    else do
      let next ← skipField fuel (d.drop start.toNat)
      skipGroup fuel d (wrap64 (start + next))
end

/-- The common skeleton of the generated `Unmarshal` methods (data/record.pb.go:184-211 and 432-451): read a tag, dispatch on the field number, skip
unknown fields. `field m num wt d i` handles the known fields: `none` if the number is unknown. -/
def unmarshalLoop (field : σ → Int → Nat → Bytes → Int → Option (Outcome (σ × Int))) (d : Bytes) :
    Nat → σ → Int → Outcome σ
  | 0, _, _ => .stuck
  | fuel + 1, m, i =>
    if i < d.length then do
      let pre := i
      let (wire, i) ← readVarint d i
      let num := Int.bmod (wire >>> 3).toNat (2 ^ 32)
      let wt := (wire &&& 7#64).toNat
      if wt = 4 then .err .endGroup
      else if num ≤ 0 then .err .illegalTag
      else match field m num wt d i with
        | some r => do
          let (m, i) ← r
          unmarshalLoop field d fuel m i
        | none => do
          let skippy ← skipField (2 * d.length + 2) (d.drop pre.toNat)
          if skippy < 0 then .err .length
          else if wrap64 (pre + skippy) > d.length then .err .eof
          else unmarshalLoop field d fuel m (wrap64 (pre + skippy))
    else if i > d.length then .err .eof
    else .ok m

/-- A varint field: `if wireType != 0 {error}; v = 0; loop` (data/record.pb.go:212-230). -/
def varintField (set : BitVec 64 → σ) (wt : Nat) (d : Bytes) (i : Int) : Outcome (σ × Int) :=
  if wt ≠ 0 then .err .wrongWire
  else do
    let (v, i) ← readVarint d i
    pure (set v, i)

/-- A bytes or string field (data/record.pb.go:269-299 and 300-328): `dAtA[iNdEx:postIndex]` panics when the sum overflowed. -/
def bytesField (set : Bytes → σ) (wt : Nat) (d : Bytes) (i : Int) : Outcome (σ × Int) :=
  if wt ≠ 2 then .err .wrongWire
  else do
    let (len, i) ← readVarint d i
    if len.toInt < 0 then .err .length
    else
      let post := wrap64 (i + len.toInt)
      if post > d.length then .err .eof
      else if post < i then .panic
      else pure (set ((d.take post.toNat).drop i.toNat), post)

/-- `encoding/binary.LittleEndian.Uint64` / `PutUint64`. (data/record.pb.go:89-94,269-299.) -/
def leNat : Bytes → Nat
  | [] => 0
  | b :: t => b.toNat + 256 * leNat t
/-- `PutUint64`, `n` bytes (data/record.pb.go:89-94). -/
def leBytes : Nat → Nat → Bytes
  | 0, _ => []
  | n + 1, x => UInt8.ofNat x :: leBytes n (x / 256)

/-- A fixed64 field (data/record.pb.go:329-339). -/
def fixed64Field (set : BitVec 64 → σ) (wt : Nat) (d : Bytes) (i : Int) : Outcome (σ × Int) :=
  if wt ≠ 1 then .err .wrongWire
  else if i + 8 > d.length then .err .eof
  else pure (set (BitVec.ofNat 64 (leNat ((d.drop i.toNat).take 8))), i + 8)

end Rothko
