import Verif.Model.Convert
import Verif.Model.SSet
/-!
# Directory entries (database/files/internal/system/dirent.go, dirent_read_linux.go) and the walk of the database tree (database/files/db_read.go:141-246)

`syscall.Dirent` on linux (amd64): `Ino` at 0 (8 bytes), `Off` at 8, `Reclen` at 16 (2 bytes), `Type` at 18, `Name` at 19.
-/
namespace Rothko

/-- `encoding/binary.LittleEndian.UintN` (dirent.go:17-21). -/
def leVal : Bytes → Nat
  | [] => 0
  | b :: bs => b.toNat + 256 * leVal bs

/-- `readInt` (dirent.go:9-25) for the sizes in use; `none` is `!ok`. -/
def readInt (b : Bytes) (off size : Nat) : Option Nat :=
  if b.length < off + size then none else some (leVal ((b.drop off).take size))

/-- `nameOffset` (dirent_read_linux.go:10). -/
def nameOffset : Nat := 19

/-- `direntReadIno` (dirent_read_linux.go:12-16). -/
def direntReadIno (b : Bytes) : Option Nat := readInt b 0 8

/-- `direntReadReclen` (dirent_read_linux.go:18-22). -/
def direntReadReclen (b : Bytes) : Option Nat := readInt b 16 2

/-- A `uint64` result. (dirent.go:27-61.) -/
def u64 (n : Int) : Nat := (n % 18446744073709551616).toNat

/-- `direntReadNamlen` (dirent_read_linux.go:24-30); the subtraction wraps. -/
def direntReadNamlen (b : Bytes) : Option Nat :=
  match direntReadReclen b with
  | none => none
  | some reclen => some (u64 ((reclen : Int) - nameOffset))

/-- What `NextDirent` does: a slice expression out of range panics, else it returns. (dirent.go:27-61.) -/
inductive DirentRes
  | panic
  | ret (buf name : Bytes) (ok : Bool)
deriving DecidableEq, Repr

/-- The truncation at the first zero byte (dirent.go:53-58). -/
def untilNul (b : Bytes) : Bytes := b.takeWhile (· != 0)

/-- `NextDirent` (dirent.go:27-61). -/
def nextDirent (buf : Bytes) : DirentRes :=
  match direntReadReclen buf with
  | none => .ret [] [] false
  | some recLen =>
    if recLen > buf.length then .ret [] [] false
    else
      let rec_ := buf.take recLen
      let buf := buf.drop recLen
      match direntReadIno rec_ with
      | none => .ret buf [] false
      | some ino =>
        if ino = 0 then .ret buf [] false
        else match direntReadNamlen rec_ with
          | none => .ret buf [] false
          | some nameLen =>
            let stop := u64 ((nameOffset : Int) + nameLen)
            if stop > rec_.length then .ret buf [] false
            else if stop < nameOffset then .panic
            else
              let name := untilNul ((rec_.take stop).drop nameOffset)
              .ret buf name (decide (name ≠ [46]) && decide (name ≠ [46, 46]))

/-- What the loop over one buffer does (db_read.go:204-212). -/
inductive ReadRes
  | panic
  | forever
  | names (l : List Bytes)
deriving DecidableEq, Repr

/-- The loop over one buffer (db_read.go:204-212), collecting the names. `NextDirent` depends on nothing but the buffer, so if it gives back the same buffer the loop
never ends. -/
def readBuf (buf : Bytes) (acc : List Bytes) : ReadRes :=
  if buf = [] then .names acc
  else match nextDirent buf with
    | .panic => .panic
    | .ret buf' name ok =>
      if _h : buf'.length < buf.length then readBuf buf' (if ok then acc ++ [name] else acc) else .forever
termination_by buf.length

/-- The loop over `ReadDirent` (db_read.go:190-204) for the buffers the kernel returns before the empty one. -/
def readDir : List Bytes → List Bytes → ReadRes
  | [], acc => .names acc
  | b :: bs, acc =>
    match readBuf b acc with
    | .names acc => readDir bs acc
    | r => r

/-! ## The walk -/

/-- A file system node, with the entries of a directory in listing order (without `.` and `..`). (what db_read.go:161-246 walks.) -/
inductive FTree
  | file
  | dir (es : List (Bytes × FTree))

mutual
/-- `populate` (db_read.go:161-246) of the node at the current `dirbuf`: `dirbuf` and `out` afterwards, or `none` for an error. A node that is not a directory is
read with `ENOTDIR`, and nothing is done (lines 194-196). Cancellation (lines 164-168) and other errors of the system calls abort the scan and publish nothing;
they are in Model/Scan, as are changes of the tree during the scan. -/
def populate : FTree → Bytes → SSet → Option (Bytes × SSet)
  | .file, dirbuf, out => some (dirbuf, out)
  | .dir es, dirbuf, out => populateLoop es dirbuf.length false dirbuf out

/-- The loop over the entries (db_read.go:205-244), with `dirbuf_len` and `added`. -/
def populateLoop : List (Bytes × FTree) → Nat → Bool → Bytes → SSet → Option (Bytes × SSet)
  | [], _, _, dirbuf, out => some (dirbuf, out)
  | (name, t) :: es, len, added, dirbuf, out =>
    if !dataSuffix.isSuffixOf name then
      match populate t ((if len > 0 then dirbuf ++ [47] else dirbuf) ++ name) out with
      | none => none
      | some (dirbuf, out) => populateLoop es len added (dirbuf.take len) out
    else if added then populateLoop es len added dirbuf out
    else match dirToMetric [] dirbuf with
      | none => none
      | some metric => populateLoop es len true dirbuf (out.add metric)
end

/-- `newDBPopulator(dir).populate(ctx)` (db_read.go:125-126,154-159) on the tree at the database directory. `none` for the tree: it does not exist (lines 178-180). -/
def populateDb (t : Option FTree) : Option SSet :=
  match t with
  | none => some .new
  | some t => (populate t [] .new).map (·.2)

end Rothko
