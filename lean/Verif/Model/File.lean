import Verif.Model.Meta
/-!
# Data files: database/files/file.go, file_helpers.go, file_ops.go

A `File` is an open handle (record size and capacity) together with the current contents of the mapped file.  The Go methods
mutate the shared mapping; here they return the new file.  `data.length` is the Go field `len`.
-/
namespace Rothko

/-- Errors of the file layer. `panic` is a Go run-time panic (slice out of range, division by zero, decoder panic). (file.go, file_helpers.go, record.go.) -/
inductive FErr
  | bounds        -- file.go:168,177
  | tooLarge      -- file_helpers.go:28,37,67
  | parse (e : ParseErr)
  | proto (e : PErr)
  | tooSmall      -- file.go:99
  | invalidSize   -- file.go:117
  | capacity      -- file.go:51
  | panic
deriving DecidableEq, Repr

/-- `type file struct` (file.go:21-27) plus the mapped bytes. -/
structure File where
  size : Nat
  cap : Nat
  data : Bytes
deriving DecidableEq, Repr, Inhabited

/-- Overwrite bytes in place: `copy(buf[off:], bs)`. (file.go:175-181, file_helpers.go:40-46.) -/
def splice (buf : Bytes) (off : Nat) (bs : Bytes) : Bytes :=
  buf.take off ++ bs ++ buf.drop (off + bs.length)

/-- `file.offset` (file.go:133-135). -/
def File.offset (f : File) (n : Nat) : Nat := (n + 1) * f.size

/-- Bounds test of `Record`, `SetRecord`, `HasRecord`: `n >= f.cap || n < 0` (file.go:167,176,185). -/
def File.oob (f : File) (n : Int) : Bool := n ≥ f.cap || n < 0

/-- `file.Record` (file.go:166-172) with `readRecord` = `parse` (file_helpers.go:74-76). -/
def File.record (f : File) (n : Int) : Except FErr Rec :=
  if f.oob n then .error .bounds
  else
    let off := f.offset n.toNat
    match parse (slice f.data off (off + f.size)) with
    | .ok r => .ok r
    | .error e => .error (.parse e)

/-- `file.SetRecord` (file.go:175-181) with `writeRecord` (file_helpers.go:65-71): on failure nothing is written. -/
def File.setRecord (f : File) (n : Int) (r : Rec) : Except FErr File :=
  if f.oob n then .error .bounds
  else if r.marshalledSize > f.size then .error .tooLarge
  else match r.marshal with
    | none => .error .panic
    | some b => .ok { f with data := splice f.data (f.offset n.toNat) b }

/-- `file.HasRecord` (file.go:184-193): the first byte of the slot is non-zero. -/
def File.hasRecord (f : File) (n : Int) : Bool :=
  if f.oob n then false
  else f.data.getD (f.offset n.toNat) 0 != 0

/-- Unmarshalling outcome as an error value. (file_helpers.go:57.) -/
def ofOutcome : Outcome α → Except FErr α
  | .ok a => .ok a
  | .err e => .error (.proto e)
  | .panic => .error .panic
  | .stuck => .error .panic

/-- `readMetadata` (file_helpers.go:52-61). -/
def readMetadata (buf : Bytes) : Except FErr Meta :=
  match parse buf with
  | .error e => .error (.parse e)
  | .ok r => ofOutcome (Meta.decode r.data)

/-- `writeMetadata` (file_helpers.go:23-49), first phase: the payload is stored behind the (old) header. Returns the new buffer. -/
def writeMetaPayload (buf : Bytes) (m : Meta) : Except FErr Bytes :=
  if m.encSize % 65536 ≠ m.encSize then .error .tooLarge
  else if recordHeaderSize + m.encSize > buf.length then .error .tooLarge
  else .ok (splice buf recordHeaderSize m.encode)

/-- The record header `writeMetadata` puts in front (file_helpers.go:31-35,45-46). -/
def metaRec (m : Meta) : Rec :=
  { version := recordVersion, kind := kindComplete, start := 0, stop := 0, size := UInt16.ofNat m.encSize, data := m.encode }

/-- `writeMetadata` (file_helpers.go:23-49): payload, then header (which contains the checksum). -/
def writeMetadata (buf : Bytes) (m : Meta) : Except FErr Bytes :=
  match writeMetaPayload buf m with
  | .error e => .error e
  | .ok buf1 =>
    match ({ metaRec m with data := buf1.drop recordHeaderSize } : Rec).marshalHeader with
    | none => .error .panic
    | some h => .ok (splice buf1 0 h)

/-- `file.Metadata` (file.go:156-158). -/
def File.metadata (f : File) : Except FErr Meta := readMetadata (slice f.data 0 f.size)

/-- `file.SetMetadata` (file.go:161-163). -/
def File.setMetadata (f : File) (m : Meta) : Except FErr File :=
  match writeMetadata (slice f.data 0 f.size) m with
  | .error e => .error e
  | .ok b => .ok { f with data := splice f.data 0 b }

/-- int32 truncation as in file.go:47-49. -/
def int32 (x : Int) : Int := Int.bmod x 4294967296

/-- The overflow checks of `createFile` (file.go:46-52): refused iff `some true`; `none` is the division by zero when
`int32(cap) = 0`. (`cap+1 < cap` is false for all values that pass the next test.) -/
def createRefused (size cap : Int) : Option Bool :=
  if int32 cap ≠ cap ∨ int32 size ≠ size then some true
  else if int32 cap = 0 then none
  else some (int32 (Int.tdiv (int32 (size * cap)) cap) ≠ size)

/-- The initial metadata (file.go:66-69). -/
def initMeta (size cap : Nat) : Meta := { size := Int64.ofInt size, head := Int64.ofInt (cap - 1) }

/-- A freshly allocated file: zero bytes (file.go:54-64, fallocate). -/
def zeroFile (size cap : Nat) : File := { size, cap, data := List.replicate (size * (cap + 1)) 0 }

/-- `createFile` (file.go:32-81) after the overflow checks (file.go:46-52) gave the first argument. -/
def createChecked (refused : Option Bool) (size cap : Nat) : Except FErr File × Bytes :=
  match refused with
  | none => (.error .panic, [])
  | some true => (.error .capacity, [])
  | some false =>
    match (zeroFile size cap).setMetadata (initMeta size cap) with
    | .error e => (.error e, (zeroFile size cap).data)
    | .ok f' => (.ok f', f'.data)

/-- `createFile` (file.go:32-81) on a fresh, truncated file: zero bytes (fallocate), then the initial metadata. The second component
is what is on disk afterwards, also when an error is returned. -/
def createFile (size cap : Nat) : Except FErr File × Bytes := createChecked (createRefused size cap) size cap

/-- `openFile` (file.go:84-127) on a file with the given contents. When the file is shorter than one record the Go code returns a handle whose every use
panics (`slice()[:size]`); this is reported here as `panic`. -/
def openFile (data : Bytes) : Except FErr File :=
  if data.length < recordHeaderSize then .error .tooSmall
  else match readMetadata data with
    | .error e => .error e
    | .ok m =>
      if m.size.toInt < recordHeaderSize then .error .invalidSize
      else if (data.length : Int) < m.size.toInt then .error .panic
      else .ok { size := m.size.toInt.toNat, cap := data.length / m.size.toInt.toNat - 1, data }

/-- Result of the head search: it may not terminate. (file_ops.go:9-50.) -/
inductive HeadRes
  | ok (n : Int)
  | diverges
deriving DecidableEq, Repr

/-- The loop of `getHeadPointer` (file_ops.go:32-49) over any `HasRecord` function; first argument: fuel. -/
def headLoop (has : Int → Bool) (cap : Nat) (origHas : Bool) : Nat → Int → HeadRes
  | 0, _ => .diverges
  | fuel + 1, head =>
    let head := if origHas then head - 1 else head + 1
    if head = cap then .ok (head - 1)
    else if head < 0 then .ok (-1)
    else if has head ≠ origHas then
      if origHas then .ok head else .ok (head - 1)
    else headLoop has cap origHas fuel head

/-- `getHeadPointer` (file_ops.go:9-50) given the metadata hint. A hint at or above the capacity makes the Go loop run past the end of
the file without stopping. -/
def headPointer (has : Int → Bool) (cap : Nat) (hint : Int) : HeadRes :=
  if hint < 0 then .ok hint
  else headLoop has cap (has hint) (cap + 1) hint

/-- `getHeadPointer` on a file. Divergence is reported as `panic` (it never happens in a reachable state, see the properties). (file_ops.go:9-50.) -/
def File.headPointer (f : File) : Except FErr Int :=
  match f.metadata with
  | .error e => .error e
  | .ok m =>
    match Rothko.headPointer f.hasRecord f.cap m.head.toInt with
    | .ok n => .ok n
    | .diverges => .error .panic

end Rothko
