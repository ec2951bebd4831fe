import Verif.Model.Dirent
import Verif.Spec.Scan
/-!
# The scan of `PopulateMetrics` while the file system changes (database/files/db_read.go:122-246)

A transition system: the steps of the scan, each with the answer of one system call (or one directory entry), and changes of the file system between them. `populate` calls itself; its activations are the frames of `stack`, the innermost first.
Each activation has its own buffer for entries (db_read.go:187), `dirbuf` and `out` are shared (db_read.go:146-152).

Simplifications: which error a system call reports is not kept, except `ENOENT` of `open` (only if there is nothing at the path), `ENOTDIR` and `EINVAL` of `getdents` (only if it is not a directory); of `Done` of the context only whether it is there.
The bytes of the path that are opened are those of the database directory, a slash, and `dirbuf` (lines 173-176): the file system is asked for `dirbuf` below the database directory.
-/
namespace Rothko

/-- Why a scan ends early (db_read.go:166, 182, 198, 238). `canceled`: `context.Canceled`; `ctx`: another error of the context. -/
inductive ScanErr
  | canceled
  | ctx
  | os
  | name
deriving DecidableEq, Repr

/-- Where the scan is. `call`: `populate` begins (db_read.go:161); `loop`: in the loop of the innermost activation (db_read.go:190-244); `back r`: an activation has returned `r`; `over r stored`: `PopulateMetrics` has returned `r` and has stored a set of names
(or none, db_read.go:126-138). -/
inductive ScanMode
  | call
  | loop
  | back (r : Option ScanErr)
  | over (r : Option ScanErr) (stored : Option SSet)
  | panic

/-- An activation of `populate` (db_read.go:161-246): its descriptor, `dirbuf_len`, `added` and `buf`. -/
structure ScanFrame where
  fd : DirFd
  num : Nat
  len : Nat
  added : Bool
  buf : Bytes

/-- The file system, the open descriptors of the process, and the scan (db_read.go:146-152). -/
structure Scan where
  w : World
  fds : List Nat
  stack : List ScanFrame
  mode : ScanMode
  dirbuf : Bytes
  out : SSet

/-- `newDBPopulator(db.dir)` and the call (db_read.go:125-126, 154-159). -/
def Scan.init (w : World) (fds : List Nat) : Scan := { w, fds, stack := [], mode := .call, dirbuf := [], out := .new }

/-- An activation returns; its descriptor is closed (db_read.go:184). -/
def Scan.leave (s : Scan) (f : ScanFrame) (rest : List ScanFrame) (r : Option ScanErr) : Scan := { s with stack := rest, fds := s.fds.erase f.num, mode := .back r }

/-- The body of the loop over the entries of a buffer (db_read.go:205-244), in the innermost activation `f`. -/
def Scan.entry (s : Scan) (f : ScanFrame) (rest : List ScanFrame) : Scan :=
  match nextDirent f.buf with
  | .panic => { s with mode := .panic }
  | .ret buf name ok =>
    if !ok then { s with stack := { f with buf } :: rest }
    else if !dataSuffix.isSuffixOf name then
      { s with stack := { f with buf } :: rest, dirbuf := (if f.len > 0 then s.dirbuf ++ [47] else s.dirbuf) ++ name, mode := .call }
    else if f.added then { s with stack := { f with buf } :: rest }
    else match dirToMetric [] s.dirbuf with
      | none => s.leave f rest (some .name)
      | some m => { s with stack := { f with buf, added := true } :: rest, out := s.out.add m }

/-- One step of the scan. `whole p`: the directory `p` is small, `getdents` returns it at once. (db_read.go:122-246.) -/
inductive Scan.Go (whole : List Bytes → Prop) (s : Scan) : Scan → Prop
  /-- db_read.go:164-168. -/
  | done (e : ScanErr) : s.mode = .call → e = .canceled ∨ e = .ctx → Go whole s { s with mode := .back (some e) }
  /-- db_read.go:177-180. -/
  | noent : s.mode = .call → s.w (pathComps s.dirbuf) = none → Go whole s { s with mode := .back none }
  /-- db_read.go:181-183. -/
  | openErr : s.mode = .call → Go whole s { s with mode := .back (some .os) }
  /-- db_read.go:177-188. -/
  | opened (k : NodeKind) (num : Nat) : s.mode = .call → s.w (pathComps s.dirbuf) = some k → num ∉ s.fds →
      Go whole s { s with stack := ⟨DirFd.opened s.w k (pathComps s.dirbuf), num, s.dirbuf.length, false, []⟩ :: s.stack, fds := num :: s.fds, mode := .loop }
  /-- db_read.go:194-196. -/
  | notDir (f : ScanFrame) (rest : List ScanFrame) : s.mode = .loop → s.stack = f :: rest → f.buf = [] → f.fd.kind = .file → Go whole s (s.leave f rest none)
  /-- db_read.go:197-199. -/
  | readErr (f : ScanFrame) (rest : List ScanFrame) : s.mode = .loop → s.stack = f :: rest → f.buf = [] → Go whole s (s.leave f rest (some .os))
  /-- db_read.go:200-202. -/
  | eof (f : ScanFrame) (rest : List ScanFrame) : s.mode = .loop → s.stack = f :: rest → f.buf = [] → f.fd.kind = .dir → f.fd.CanEnd (whole f.fd.path) s.w → Go whole s (s.leave f rest none)
  /-- db_read.go:191-193, 204. -/
  | read (f : ScanFrame) (rest : List ScanFrame) (es : List Entry) : s.mode = .loop → s.stack = f :: rest → f.buf = [] → f.fd.kind = .dir → f.fd.CanRead (whole f.fd.path) s.w es →
      Go whole s { s with stack := { f with fd := f.fd.returned es, buf := (es.map Entry.bytes).flatten } :: rest }
  /-- db_read.go:205-244. -/
  | entry (f : ScanFrame) (rest : List ScanFrame) : s.mode = .loop → s.stack = f :: rest → f.buf ≠ [] → Go whole s (s.entry f rest)
  /-- db_read.go:222-224. -/
  | failed (f : ScanFrame) (rest : List ScanFrame) (e : ScanErr) : s.mode = .back (some e) → s.stack = f :: rest → Go whole s (s.leave f rest (some e))
  /-- db_read.go:226-229. -/
  | resume (f : ScanFrame) (rest : List ScanFrame) : s.mode = .back none → s.stack = f :: rest → Go whole s { s with dirbuf := s.dirbuf.take f.len, mode := .loop }
  /-- db_read.go:127-128. -/
  | canceled : s.mode = .back (some .canceled) → s.stack = [] → Go whole s { s with mode := .over none none }
  /-- db_read.go:129-131. -/
  | error (e : ScanErr) : s.mode = .back (some e) → e ≠ .canceled → s.stack = [] → Go whole s { s with mode := .over (some e) none }
  /-- db_read.go:134-138. -/
  | store : s.mode = .back none → s.stack = [] → Go whole s { s with mode := .over none (some s.out) }

/-- Something changes in the file system. (What db_read.go:161-246 runs beside: db_write.go:95-135.) -/
def Scan.change (s : Scan) (w : World) : Scan := { s with w, stack := s.stack.map fun f => { f with fd := f.fd.see w } }

/-- One step of the scan, or a change in the file system. (db_read.go:122-246.) -/
def Scan.Step (whole : List Bytes → Prop) (s s' : Scan) : Prop := s.Go whole s' ∨ ∃ w : World, w.Tree ∧ s' = s.change w

end Rothko
