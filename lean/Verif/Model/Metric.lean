import Verif.Model.File
/-!
# One metric of the database: database/files/metric.go, with file_cache.go and db_write.go / db_read.go around it

The state is what one metric's directory and its share of the handle cache look like.  Names in the directory that are not `<integer>.data` are
ignored by the Go code (metric.go:118-125) and are not represented.  A file is an inode: the directory maps numbers to inodes, and
an open handle keeps its inode alive after the name is removed.

The handle cache evicts entries at random moments (cache.go), and entries of other metrics compete for the same places.  For
one metric this means: when a path is looked up, its entry may or may not still be there.  The field `hit` is an arbitrary oracle that answers this at
each lookup; theorems quantify over it, so they hold for every cache size and every eviction policy (`fun _ => false` is "no cache").
-/
namespace Rothko

/-- A stored value: `start`, `end` and data as given to `Queue` (db_write.go:14). -/
structure Val where
  start : Int64
  stop : Int64
  data : Bytes
deriving DecidableEq, Repr, Inhabited

/-- The options used here: `Size`, `Cap`, `Files` (db.go `Options`). -/
structure Cfg where
  size : Nat
  cap : Nat
  max : Int
deriving DecidableEq, Repr

/-- An open handle: which mapped file, and the geometry remembered in `type file` (file.go:21-27). -/
structure Handle where
  ino : Nat
  size : Nat
  cap : Nat
deriving DecidableEq, Repr

/-- Errors of the metric layer. (metric.go, file.go.) -/
inductive MErr
  | file (e : FErr)
  | noDir           -- metric.go:96 (os.Open on a missing directory, read only)
  | noFile          -- file.go:85 (os.OpenFile on a missing file)
  | numRecords      -- metric.go:246,285
  | valueTooLarge   -- metric.go:254,288
  | noLast          -- metric.go:211
  | callback        -- an error returned by the callback, metric.go:411,468
  | cancelled       -- metric.go:418,475
  | os              -- an error of the operating system (Model/Fault)
deriving DecidableEq, Repr

/-- The metric directory, the inodes, and the cached handles by file number. (metric.go:77-161, file_cache.go:24-30.) -/
structure Store where
  dirExists : Bool
  dir : List (Int × Nat)
  disk : Nat → Bytes
  next : Nat
  cache : Int → Option Handle
  hit : Nat → Bool
  clock : Nat

/-- A metric that was never written, in a fresh database; `hit` is the cache oracle. (db.go:117-168.) -/
def Store.empty (hit : Nat → Bool) : Store :=
  { dirExists := false, dir := [], disk := fun _ => [], next := 0, cache := fun _ => none, hit, clock := 0 }

/-- Process restart: all handles are gone, the file system stays. (db.go:117-168, 233.) -/
def Store.reopen (s : Store) : Store := { s with cache := fun _ => none }

/-- The inode a file number currently names. (file.go:32-81,84-127.) -/
def Store.lookup (s : Store) (idx : Int) : Option Nat := (s.dir.find? (fun p => p.1 == idx)).map Prod.snd

/-- The file seen through a handle. (file.go:21-27.) -/
def Store.file (s : Store) (h : Handle) : File := { size := h.size, cap := h.cap, data := s.disk h.ino }

/-- A store through the mapping of a handle. (file.go:175-181.) -/
def Store.setFile (s : Store) (h : Handle) (f : File) : Store :=
  { s with disk := fun i => if i = h.ino then f.data else s.disk i }

/-- `os.Remove(path)` (metric.go:201,264). -/
def Store.remove (s : Store) (idx : Int) : Store := { s with dir := s.dir.filter (fun p => !(p.1 == idx)) }

/-- `fileCache.releaseFile` (file_cache.go:55-65): the handle goes to the cache; a possible eviction shows at the next lookup. -/
def Store.release (s : Store) (idx : Int) (h : Handle) : Store :=
  { s with cache := fun i => if i = idx then some h else s.cache i }

/-- `fileCache.evictFile` (file_cache.go:90-104). -/
def Store.evict (s : Store) (idx : Int) : Store := { s with cache := fun i => if i = idx then none else s.cache i }

/-- `openFile` by path (file.go:84-127). -/
def Store.openAt (s : Store) (idx : Int) : Except MErr Handle × Store :=
  match s.lookup idx with
  | none => (.error .noFile, s)
  | some ino =>
    match openFile (s.disk ino) with
    | .error e => (.error (.file e), s)
    | .ok f => (.ok { ino, size := f.size, cap := f.cap }, s)

/-- `createFile` by path (file.go:32-81): `O_CREATE|O_TRUNC`, so an existing file of that name is truncated, otherwise a new inode is made.
The first argument is the result of `createFile` (handle or error, and the bytes left on disk). -/
def Store.install (s : Store) (c : Except FErr File × Bytes) (idx : Int) : Except MErr Handle × Store :=
  let ino := (s.lookup idx).getD s.next
  let s' : Store := { s with
    dir := if (s.lookup idx).isSome then s.dir else (idx, s.next) :: s.dir
    next := if (s.lookup idx).isSome then s.next else s.next + 1
    disk := fun i => if i = ino then c.2 else s.disk i }
  match c.1 with
  | .error e => (.error (.file e), s')
  | .ok f => (.ok { ino, size := f.size, cap := f.cap }, s')

/-- `createFile` by path (file.go:32-81). -/
def Store.createAt (cfg : Cfg) (s : Store) (idx : Int) : Except MErr Handle × Store :=
  s.install (createFile cfg.size cfg.cap) idx

/-- `fileCache.acquireFile` (file_cache.go:69-87). -/
def Store.acquire (cfg : Cfg) (s : Store) (idx : Int) (ex : Bool) : Except MErr Handle × Store :=
  let s' : Store := { s.evict idx with clock := s.clock + 1 }
  match s.cache idx, s.hit s.clock with
  | some h, true => (.ok h, s')
  | _, _ => if ex then s'.openAt idx else s'.createAt cfg idx

/-- The scan of `newMetric` (metric.go:115-136): `(first, last, first_set)` over the numbers found, in directory order. -/
def scanStep (acc : Int × Int × Bool) (iv : Int) : Int × Int × Bool :=
  let last := if iv > acc.2.1 then iv else acc.2.1
  if iv < acc.1 || !acc.2.2 then (iv, last, true) else (acc.1, last, acc.2.2)

/-- `newMetric` (metric.go:77-161): the range of file numbers; creates the directory (unless read only) and file 1 (always) when there is none. -/
def newMetric (cfg : Cfg) (ro : Bool) (s : Store) : Except MErr (Int × Int) × Store :=
  if !s.dirExists && ro then (.error .noDir, s)
  else
    let s : Store := { s with dirExists := true }
    let r := (s.dir.map Prod.fst).foldl scanStep (0, 0, false)
    if r.2.2 then (.ok (r.1, r.2.1), s)
    else
      match s.acquire cfg 1 false with
      | (.error e, s) => (.error e, s)
      | (.ok h, s) => (.ok (1, 1), s.release 1 h)

/-- `acquireLast` (metric.go:177-212); the fuel argument is the number of files left. Result: handle, head, and the new `last`. -/
def acquireLast (cfg : Cfg) (first : Int) : Nat → Int → Store → Except MErr (Handle × Int × Int) × Store
  | 0, _, s => (.error .noLast, s)
  | fuel + 1, last, s =>
    match s.acquire cfg last true with
    | (.error e, s) => (.error e, s)
    | (.ok h, s) =>
      match (s.file h).headPointer with
      | .error e => (.error (.file e), s.release last h)
      | .ok head =>
        if head = h.cap - 1 ∧ last > first then
          acquireLast cfg first fuel (last - 1) ((s.release last h).remove last)
        else (.ok (h, head, last), s)

/-- Outcome of a write as reported to the callback of `Queue`: `(true, nil)`, `(false, nil)` or an error (db_write.go:95-135). -/
inductive WRes
  | written
  | notWritten
  | failed (e : MErr)
deriving DecidableEq, Repr

/-- Handles to be released when `Write` returns (the deferred calls, metric.go:226,276). -/
def Store.releaseAll (s : Store) (held : List (Int × Handle)) : Store := held.foldl (fun s p => s.release p.1 p.2) s

/-- What the first half of `Write` decides: an early return, or the handle, the first slot and the number of slots to fill. (metric.go:218-295.) -/
inductive Prep
  | ret (r : WRes)
  | go (h : Handle) (head : Int) (nr : Nat)
deriving DecidableEq, Repr

/-- `Write`, lines 218-295: everything before the first byte of the value is stored. Also returns the handles to release. (metric.go:218-295.) -/
def writePrep (cfg : Cfg) (first last : Int) (v : Val) (s : Store) : Prep × List (Int × Handle) × Store :=
  match acquireLast cfg first (last - first + 1).toNat last s with
  | (.error e, s) => (.ret (.failed e), [], s)
  | (.ok (h, head0, last), s) =>
    let held := [(last, h)]
    let head := head0 + 1
    let f := s.file h
    -- monotonicity with the newest record, lines 232-240
    match (if f.hasRecord head then
        match f.record head with
        | .error e => some (WRes.failed (.file e))
        | .ok r => if r.stop ≥ v.stop then some .notWritten else none
      else none) with
    | some r => (.ret r, held, s)
    | none =>
      match numRecords v.data.length h.size with
      | none => (.ret (.failed (.file .panic)), held, s)
      | some 0 => (.ret (.failed .numRecords), held, s)
      | some nr =>
        if head - nr < 0 then
          if last = 1 ∧ head = h.cap - 1 then (.ret (.failed .valueTooLarge), held, s)
          else
            -- rotation, lines 261-290
            let s := if last - first ≥ cfg.max ∧ cfg.max > 0 then (s.evict first).remove first else s
            match s.acquire cfg (last + 1) false with
            | (.error e, s) => (.ret (.failed e), held, s)
            | (.ok h2, s) =>
              let held := (last + 1, h2) :: held
              match numRecords v.data.length h2.size with
              | none => (.ret (.failed (.file .panic)), held, s)
              | some 0 => (.ret (.failed .numRecords), held, s)
              | some nr =>
                if (h2.cap : Int) - nr < 0 then (.ret (.failed .valueTooLarge), held, s)
                else (.go h2 (h2.cap - nr) nr, held, s)
        else (.go h (head - nr) nr, held, s)

/-- The callback loop of lines 298-303: store the records in consecutive slots, stopping at the first failure (what was stored stays). (metric.go:298-303.) -/
def storeRecs (f : File) (n : Int) : List Rec → Option FErr × File
  | [] => (none, f)
  | r :: rs =>
    match f.setRecord n r with
    | .error e => (some e, f)
    | .ok f' => storeRecs f' (n + 1) rs

/-- The metadata update of lines 310-326. (metric.go:310-326.) -/
def updateMeta (m : Meta) (newHead : Int) (v : Val) : Meta :=
  { m with
    head := Int64.ofInt newHead
    stop := v.stop
    start := if m.start = 0 then v.start else m.start
    smallestEnd := if m.smallestEnd = 0 ∨ v.stop < m.smallestEnd then v.stop else m.smallestEnd }

/-- `Write`, lines 297-328, on the chosen file: store the value and then the metadata. (metric.go:297-328.) -/
def writeBody (f : File) (head : Int) (v : Val) : WRes × File :=
  match iterateRecords v.start v.stop v.data f.size with
  | .invalid => (.failed (.file .tooLarge), f)
  | .diverges => (.failed (.file .panic), f)
  | .recs rs =>
    match storeRecs f head rs with
    | (some e, f) => (.failed (.file e), f)
    | (none, f) =>
      match f.metadata with
      | .error e => (.failed (.file e), f)
      | .ok m =>
        match f.setMetadata (updateMeta m (head - 1) v) with
        | .error e => (.failed (.file e), f)
        | .ok f => (.written, f)

/-- `metric.Write` (metric.go:218-329), with the error handling of `db.write` (db_write.go:108-112: an error means "not ok"). -/
def metricWrite (cfg : Cfg) (first last : Int) (v : Val) (s : Store) : WRes × Store :=
  match writePrep cfg first last v s with
  | (.ret r, held, s) => (r, s.releaseAll held)
  | (.go h head _, held, s) =>
    let b := writeBody (s.file h) head v
    (b.1, (s.setFile h b.2).releaseAll held)

/-- `db.write` (db_write.go:95-135) without the bookkeeping of names. -/
def dbWrite (cfg : Cfg) (v : Val) (s : Store) : WRes × Store :=
  match newMetric cfg false s with
  | (.error e, s) => (.failed e, s)
  | (.ok (first, last), s) => metricWrite cfg first last v s

/-- Why a scan over the records of a file ended: go on with the next file, stop without error, stop with an error. (metric.go:348-485.) -/
inductive Ctl
  | more
  | stop
  | fail (e : MErr)
deriving DecidableEq, Repr

/-- Result of a callback: `(true, nil)`, `(false, nil)`, `(_, err)`; `cancel` is `(true, nil)` with the context already done
(metric.go:417-421,474-478). -/
inductive Cb
  | more
  | stop
  | err
  | cancel
deriving DecidableEq, Repr

/-- The slots of a file from `head` up to the capacity, as `Record` reads them (a slot beyond the capacity reads as an error and ends the loop). (metric.go:375-481.) -/
def File.recordsFrom (f : File) (head : Int) : List (Except FErr Rec) :=
  (List.range (f.cap - head).toNat).map (fun (i : Nat) => f.record (head + i))

/-- The record loop of `Read` (metric.go:375-481) over the slots that are left. `buf` is `none` between values (the outer loop) and holds the data collected so far
inside a value (the inner loop). The state of the callback is threaded through. -/
def readSlots (bound : Int64) (cb : σ → Val → σ × Cb) : Option Bytes → List (Except FErr Rec) → σ → σ × Ctl
  | _, [], st => (st, .more)
  | none, .error _ :: rest, st => readSlots bound cb none rest st
  | none, .ok r :: rest, st =>
    if r.stop ≥ bound then readSlots bound cb none rest st
    else if r.kind = kindComplete then
      match cb st ⟨r.start, r.stop, r.data⟩ with
      | (st, .more) => readSlots bound cb none rest st
      | (st, .stop) => (st, .stop)
      | (st, .err) => (st, .fail .callback)
      | (st, .cancel) => (st, .fail .cancelled)
    else if r.kind ≠ kindBegin then readSlots bound cb none rest st
    else readSlots bound cb (some r.data) rest st
  | some _, .error _ :: rest, st => readSlots bound cb none rest st
  | some buf, .ok r :: rest, st =>
    if r.kind = kindContinue then readSlots bound cb (some (buf ++ r.data)) rest st
    else if r.kind ≠ kindEnd then readSlots bound cb none rest st
    else
      match cb st ⟨r.start, r.stop, buf ++ r.data⟩ with
      | (st, .more) => readSlots bound cb none rest st
      | (st, .stop) => (st, .stop)
      | (st, .err) => (st, .fail .callback)
      | (st, .cancel) => (st, .fail .cancelled)

/-- Reading one file (metric.go:348-485) through an acquired handle. -/
def readFile (bound : Int64) (cb : σ → Val → σ × Cb) (f : File) (st : σ) : σ × Ctl :=
  match f.metadata with
  | .error e => (st, .fail (.file e))
  | .ok m =>
    if m.smallestEnd ≥ bound then (st, .stop)
    else
      match f.headPointer with
      | .error e => (st, .fail (.file e))
      | .ok head => readSlots bound cb none (f.recordsFrom (head + 1)) st

/-- `metric.Read` (metric.go:337-495): files from `num` down to `first`; the fuel is their number. -/
def metricRead (cfg : Cfg) (bound : Int64) (cb : σ → Val → σ × Cb) : Nat → Int → Store → σ → (σ × Option MErr) × Store
  | 0, _, s, st => ((st, none), s)
  | fuel + 1, num, s, st =>
    match s.acquire cfg num true with
    | (.error e, s) => ((st, some e), s)
    | (.ok h, s) =>
      match readFile bound cb (s.file h) st with
      | (st, .more) => metricRead cfg bound cb fuel (num - 1) (s.release num h) st
      | (st, .stop) => ((st, none), s.release num h)
      | (st, .fail e) => ((st, some e), s.release num h)

/-- `DB.Query` (db_read.go:20-33) on this metric: final callback state, error. -/
def dbQuery (cfg : Cfg) (bound : Int64) (cb : σ → Val → σ × Cb) (st : σ) (s : Store) : (σ × Option MErr) × Store :=
  match newMetric cfg true s with
  | (.error e, s) => ((st, some e), s)
  | (.ok (first, last), s) => metricRead cfg bound cb (last - first + 1).toNat last s st

/-- `DB.QueryLatest` (db_read.go:37-50) with `ReadLast` (metric.go:499-514); `none` stands for the zero results. -/
def dbQueryLatest (cfg : Cfg) (s : Store) : (Option Val × Option MErr) × Store :=
  dbQuery cfg 0x7fffffffffffffff (fun _ v => (some v, .stop)) none s

end Rothko
