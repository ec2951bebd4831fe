import Verif.Model.Calls
/-!
# Calls during which the operating system reports errors

database/files/metric.go:88-104,141-147,186-201,262-277,353-358 and file.go:32-127. Model/Metric and Model/Calls describe the calls when `open`, `fstat`, `mmap`, `fallocate`, `mkdir`,
`readdir` and `unlink` succeed. Here any of them can fail, as the oracle `Faults` says (a full disk, too many open files, missing rights, an I/O error). The program is the one of Model/Calls.

What a failing system call leaves behind: `open` of an existing file, `fstat`, `mmap` of an existing file: nothing. `open` with `O_CREATE`: nothing. `fallocate` (or `mmap` of the new file, after
`fallocate`) in `createFile`: the file, with some number of zero bytes, because `createFile` does not remove it (file.go:54-66). `unlink`: the file stays, and the program goes on (metric.go:201,264).
`mkdir`, `open` and `readdir` of the directory: the directory may have been made.

Not modelled: a failing `munmap` (it changes nothing that a later call could see) and faults while mapped memory is used (SIGBUS).
-/
namespace Rothko

/-- How opening or creating a file fails: without a trace (`open`, `fstat`, `mmap` of an existing file), or leaving a new file with `n` zero bytes (file.go:54-66, the latter only in `createFile`). -/
inductive FileFault
  | clean
  | partly (n : Nat)
deriving DecidableEq, Repr

/-- How opening the directory fails (metric.go:88-104): before it is there, or after it was made (the second `open`, or `readdir`). -/
inductive DirFault
  | before
  | after
deriving DecidableEq, Repr

/-- What fails during one call: the directory, opening or creating a file at a lookup (by the number of the lookup), removing files. (metric.go:88-104,186-201,262-277, file.go:32-127.) -/
structure Faults where
  dir : Option DirFault
  file : Nat → Option FileFault
  unlink : Bool

/-- Nothing fails. (Model/Metric; metric.go:88-104, file.go:32-127.) -/
def Faults.none : Faults := ⟨.none, fun _ => .none, false⟩

/-- What is left when `openFile` or `createFile` fails (file.go:36-39,54-66,85-103). The overflow checks come before `fallocate` (file.go:46-52). -/
def Store.failed (s : Store) (cfg : Cfg) (idx : Int) (ex : Bool) : FileFault → Except MErr Handle × Store
  | .clean => (.error .os, s)
  | .partly n =>
    if ex then (.error .os, s)
    else if createRefused cfg.size cfg.cap = some false then (.error .os, (s.install (.error .panic, List.replicate n 0) idx).2)
    else s.createAt cfg idx

/-- `fileCache.acquireFile` (file_cache.go:69-87) when opening or creating may fail; a handle from the cache needs no system call. -/
def Store.acquireF (flt : Faults) (cfg : Cfg) (s : Store) (idx : Int) (ex : Bool) : Except MErr Handle × Store :=
  let s' : Store := { s.evict idx with clock := s.clock + 1 }
  match s.cache idx, s.hit s.clock with
  | some h, true => (.ok h, s')
  | _, _ =>
    match flt.file s.clock with
    | .none => s'.openNew cfg idx ex
    | some f => s'.failed cfg idx ex f

/-- The steps of a call (Model/Calls) carried out on the state of one metric; the error of `os.Remove` is ignored (metric.go:201,264). -/
def FsProg.runF (flt : Faults) {α : Type} : FsProg α → Store → α × Store
  | .done a, s => (a, s)
  | .acquire cfg idx ex k, s =>
    match s.acquireF flt cfg idx ex with
    | (.error e, s') => (k (.error e)).runF flt s'
    | (.ok h, s') => (k (.ok ⟨s.clock, h⟩)).runF flt s'
  | .release idx h k, s => k.runF flt (s.release idx h.geo)
  | .evict idx k, s => k.runF flt (s.evict idx)
  | .remove idx k, s => k.runF flt (if flt.unlink then s else s.remove idx)
  | .load h k, s => (k (s.file h.geo)).runF flt s
  | .store h _ _ f k, s => k.runF flt (s.setFile h.geo f)

/-- Opening (or making) and reading the directory (metric.go:88-104) when this may fail. -/
def openDirF (flt : Option DirFault) (ro : Bool) (s : Store) : Except MErr (Option (List Int)) × Store :=
  match flt with
  | .none => (.ok (dirNames ro s).1, (dirNames ro s).2)
  | some .before => (.error .os, s)
  | some .after => (.error .os, { s with dirExists := s.dirExists || !ro })

/-- `db.write` (db_write.go:95-110). -/
def dbWriteF (flt : Faults) (cfg : Cfg) (v : Val) (s : Store) : WRes × Store :=
  match openDirF flt.dir false s with
  | (.error e, s) => (.failed e, s)
  | (.ok names, s) => (dbWriteP cfg v names .done).runF flt s

/-- `DB.Query` (db_read.go:20-33). -/
def dbQueryF {σ : Type} (flt : Faults) (cfg : Cfg) (bound : Int64) (cb : σ → Val → σ × Cb) (st : σ) (s : Store) : (σ × Option MErr) × Store :=
  match openDirF flt.dir true s with
  | (.error e, s) => ((st, some e), s)
  | (.ok names, s) => (dbQueryP cfg bound cb st names .done).runF flt s

/-- `DB.QueryLatest` (db_read.go:37-50). -/
def dbQueryLatestF (flt : Faults) (cfg : Cfg) (s : Store) : (Option Val × Option MErr) × Store :=
  dbQueryF flt cfg 0x7fffffffffffffff (fun _ v => (some v, .stop)) none s

end Rothko
