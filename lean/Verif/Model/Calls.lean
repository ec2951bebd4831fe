import Verif.Model.Metric
import Verif.Model.Serial
import Verif.Model.Convert
import Verif.Spec.FileCache
/-!
# The calls on metrics step by step, with the file cache that all metrics share

database/files/metric.go:77-514, db_write.go:95-110, db_read.go:20-50 and file_cache.go:24-104 together. Model/Metric describes what a call does to its own metric, with an oracle in
place of the file cache. Here a call is a sequence of steps (`FsProg`) that acquire, use and release handles, and the steps of calls on different metrics interleave on one file cache
(Model/FileCache), which closes handles as it evicts them.

A handle is an identity (which call of `mmap` made it: `file.data` in Go) with what Model/Metric knows of it. `FWorld` (Spec/FileCache) is the file cache together with the lists of handles
that are in use, closed, and were ever opened; the program does not see these lists.

Not modelled here: errors of the operating system (`mmap`, `open` of an existing file, ...); Model/Fault has them, for one metric at a time.
-/
namespace Rothko

/-- `type file` (file.go:21-27): the mapping, and the inode and geometry. -/
structure FsHandle where
  id : Nat
  geo : Handle
deriving DecidableEq, Repr

/-- The steps of a call (metric.go:138-495). `load` and `store` stand for all accesses to the mapped bytes until the next step: the calls on a metric exclude each other, so they can be taken together; `store h head v f k` stores the value `v` from slot `head` on, and `f` is the file when that is done. -/
inductive FsProg (α : Type)
  | done (a : α)
  | acquire (cfg : Cfg) (idx : Int) (ex : Bool) (k : Except MErr FsHandle → FsProg α)
  | release (idx : Int) (h : FsHandle) (k : FsProg α)
  | evict (idx : Int) (k : FsProg α)
  | remove (idx : Int) (k : FsProg α)
  | load (h : FsHandle) (k : File → FsProg α)
  | store (h : FsHandle) (head : Int) (v : Val) (f : File) (k : FsProg α)

variable {α : Type}

/-- `newMetric` (metric.go:106-161) after the directory was read: `none` if there is none and none was made (metric.go:96). -/
def newMetricP (cfg : Cfg) (names : Option (List Int)) (k : Except MErr (Int × Int) → FsProg α) : FsProg α :=
  match names with
  | none => k (.error .noDir)
  | some names =>
    let r := names.foldl scanStep (0, 0, false)
    if r.2.2 then k (.ok (r.1, r.2.1))
    else .acquire cfg 1 false (fun x =>
      match x with
      | .error e => k (.error e)
      | .ok h => .release 1 h (k (.ok (1, 1))))

/-- `acquireLast` (metric.go:177-212). -/
def acquireLastP (cfg : Cfg) (first : Int) (k : Except MErr (FsHandle × Int × Int) → FsProg α) : Nat → Int → FsProg α
  | 0, _ => k (.error .noLast)
  | fuel + 1, last => .acquire cfg last true (fun x =>
      match x with
      | .error e => k (.error e)
      | .ok h => .load h (fun f =>
        match f.headPointer with
        | .error e => .release last h (k (.error (.file e)))
        | .ok head =>
          if head = h.geo.cap - 1 ∧ last > first then .release last h (.remove last (acquireLastP cfg first k fuel (last - 1)))
          else k (.ok (h, head, last))))

/-- The deferred calls of `releaseFile` (metric.go:226,276), the last one first. -/
def releaseAllP (p : FsProg α) : List (Int × FsHandle) → FsProg α
  | [] => p
  | (idx, h) :: held => .release idx h (releaseAllP p held)

/-- `Write` from the newest record on (metric.go:228-240): whether it returns at once. -/
def writeEarly (f : File) (head : Int) (v : Val) : Option WRes :=
  if f.hasRecord head then
    match f.record head with
    | .error e => some (WRes.failed (.file e))
    | .ok r => if r.stop ≥ v.stop then some .notWritten else none
  else none

/-- `Write`, once the place is found (metric.go:292-328). -/
def storeP (h : FsHandle) (head : Int) (v : Val) (held : List (Int × FsHandle)) (k : WRes → FsProg α) : FsProg α :=
  .load h (fun f => .store h head v (writeBody f head v).2 (releaseAllP (k (writeBody f head v).1) held))

/-- `Write` into a new file (metric.go:268-290). -/
def rotateP (cfg : Cfg) (last : Int) (h : FsHandle) (v : Val) (k : WRes → FsProg α) : FsProg α :=
  .acquire cfg (last + 1) false (fun x =>
    match x with
    | .error e => releaseAllP (k (.failed e)) [(last, h)]
    | .ok h2 =>
      match numRecords v.data.length h2.geo.size with
      | none => releaseAllP (k (.failed (.file .panic))) [(last + 1, h2), (last, h)]
      | some 0 => releaseAllP (k (.failed .numRecords)) [(last + 1, h2), (last, h)]
      | some nr =>
        if (h2.geo.cap : Int) - nr < 0 then releaseAllP (k (.failed .valueTooLarge)) [(last + 1, h2), (last, h)]
        else storeP h2 (h2.geo.cap - nr) v [(last + 1, h2), (last, h)] k)

/-- `Write` (metric.go:218-329). -/
def writeP (cfg : Cfg) (first last : Int) (v : Val) (k : WRes → FsProg α) : FsProg α :=
  acquireLastP cfg first (fun x =>
    match x with
    | .error e => k (.failed e)
    | .ok (h, head0, last) => .load h (fun f =>
      match writeEarly f (head0 + 1) v with
      | some r => releaseAllP (k r) [(last, h)]
      | none =>
        match numRecords v.data.length h.geo.size with
        | none => releaseAllP (k (.failed (.file .panic))) [(last, h)]
        | some 0 => releaseAllP (k (.failed .numRecords)) [(last, h)]
        | some nr =>
          if head0 + 1 - nr < 0 then
            if last = 1 ∧ head0 + 1 = h.geo.cap - 1 then releaseAllP (k (.failed .valueTooLarge)) [(last, h)]
            else if last - first ≥ cfg.max ∧ cfg.max > 0 then .evict first (.remove first (rotateP cfg last h v k))
            else rotateP cfg last h v k
          else storeP h (head0 + 1 - nr) v [(last, h)] k)) (last - first + 1).toNat last

/-- `Read` (metric.go:337-495). -/
def readP {σ : Type} (cfg : Cfg) (bound : Int64) (cb : σ → Val → σ × Cb) (k : σ × Option MErr → FsProg α) : Nat → Int → σ → FsProg α
  | 0, _, st => k (st, none)
  | fuel + 1, num, st => .acquire cfg num true (fun x =>
      match x with
      | .error e => k (st, some e)
      | .ok h => .load h (fun f =>
        match readFile bound cb f st with
        | (st, .more) => .release num h (readP cfg bound cb k fuel (num - 1) st)
        | (st, .stop) => .release num h (k (st, none))
        | (st, .fail e) => .release num h (k (st, some e))))

/-- `db.write` (db_write.go:95-110) after the directory was read. -/
def dbWriteP (cfg : Cfg) (v : Val) (names : Option (List Int)) (k : WRes → FsProg α) : FsProg α :=
  newMetricP cfg names (fun x =>
    match x with
    | .error e => k (.failed e)
    | .ok (first, last) => writeP cfg first last v k)

/-- `DB.Query` (db_read.go:20-33) after the directory was read. -/
def dbQueryP {σ : Type} (cfg : Cfg) (bound : Int64) (cb : σ → Val → σ × Cb) (st : σ) (names : Option (List Int)) (k : σ × Option MErr → FsProg α) : FsProg α :=
  newMetricP cfg names (fun x =>
    match x with
    | .error e => k (st, some e)
    | .ok (first, last) => readP cfg bound cb k (last - first + 1).toNat last st)

/-! ## All metrics on one file cache -/

/-- The file system by metric (the handles and the oracle in `Store` are not used here), the file cache, what each handle is, and the number of mappings that no `file` value refers to any more. (db.go:72-97.) -/
structure FsState where
  fs : Bytes → Store
  w : FWorld
  table : Nat → Handle
  leaked : Nat

/-- A change in the directory of one metric or in its files (metric.go:91,201,264, file.go:32-81). -/
def FsState.setFs (g : FsState) (k : Bytes) (s : Store) : FsState := { g with fs := fun k' => if k' = k then s else g.fs k' }

/-- Does a call of `openFile` or `createFile` come past `mmap` (file.go:98-103, 59-64)? -/
def mapsAt (cfg : Cfg) (s : Store) (idx : Int) (ex : Bool) : Bool :=
  if ex then (match s.lookup idx with | none => false | some ino => decide (recordHeaderSize ≤ (s.disk ino).length))
  else decide (createRefused cfg.size cfg.cap = some false)

/-- What `acquireFile` does when the cache has no handle (file_cache.go:83-86). -/
def Store.openNew (cfg : Cfg) (s : Store) (idx : Int) (ex : Bool) : Except MErr Handle × Store := if ex then s.openAt idx else s.createAt cfg idx

/-- Did it succeed? (file_cache.go:83-86.) -/
def isOk : Except MErr Handle → Bool
  | .ok _ => true
  | .error _ => false

/-- The next step of a call on the metric `m`; `none` if there is none or the program panics. A handle that is not older than the call was opened by it. If opening fails after `mmap`, the mapping stays (file.go:66-72,111-117). (metric.go:138-495.) -/
def FsProg.exec (path : Bytes → Int → Bytes) (m : Bytes) : FsProg α → FsState → Option (FsProg α × FsState)
  | .done _, _ => none
  | .acquire cfg idx ex k, g =>
    match g.w.step (.acquire (path m idx) (isOk ((g.fs m).openNew cfg idx ex).1)) with
    | none => none
    | some (some f, w) =>
      if f.id < g.w.opened.length then some (k (.ok ⟨f.id, g.table f.id⟩), { g with w })
      else match (g.fs m).openNew cfg idx ex with
        | (.error _, _) => none
        | (.ok h, s) => some (k (.ok ⟨f.id, h⟩), { g.setFs m s with w, table := fun i => if i = f.id then h else g.table i })
    | some (none, w) =>
      match (g.fs m).openNew cfg idx ex with
      | (.ok _, _) => none
      | (.error e, s) => some (k (.error e), { g.setFs m s with w, leaked := g.leaked + (if mapsAt cfg (g.fs m) idx ex then 1 else 0) })
  | .release idx h k, g =>
    match g.w.step (.release ⟨h.id, path m idx⟩) with
    | none => none
    | some (_, w) => some (k, { g with w })
  | .evict idx k, g =>
    match g.w.step (.evict (path m idx)) with
    | none => none
    | some (_, w) => some (k, { g with w })
  | .remove idx k, g => some (k, g.setFs m ((g.fs m).remove idx))
  | .load h k, g => some (k ((g.fs m).file h.geo), g)
  | .store h _ _ f k, g => some (k, g.setFs m ((g.fs m).setFile h.geo f))

/-- A kind of call: is it read only, and its steps once the directory was read. (db_write.go:95-110, db_read.go:20-50.) -/
structure FsCalls (Op Res : Type) where
  ro : Op → Bool
  body : Op → Option (List Int) → FsProg Res

variable {Op Res : Type}

/-- Opening (or making) and reading the directory (metric.go:88-104): the numbers of the files found. -/
def dirNames (ro : Bool) (s : Store) : Option (List Int) × Store :=
  if !s.dirExists && ro then (none, s) else (some (s.dir.map Prod.fst), { s with dirExists := true })

/-- The goroutines, the lock pool, the files. (db.go:72-97.) -/
structure FsSys (Op Res : Type) where
  pool : LPool
  g : FsState
  cl : List (Client Op (FsProg Res))
  log : List (Nat × Bytes × Op × Res)

/-- db.go:117-168: a process starts on the file system `fs`, with room for `handles` handles. -/
def FsSys.init (handles : Nat) (progs : List (List (Bytes × Op))) (fs : Bytes → Store) : FsSys Op Res :=
  { pool := LPool.init progs.length, g := ⟨fs, ⟨.new handles, [], [], []⟩, fun _ => ⟨0, 0, 0⟩, 0⟩, cl := progs.map (fun p => ⟨p, .out⟩), log := [] }

/-- One step of some goroutine. (db_write.go:95-135, db_read.go:20-50, lock_pool.go:26-52, db.go:233.) -/
inductive FsSys.Step (c : FsCalls Op Res) (path : Bytes → Int → Bytes) (s : FsSys Op Res) : FsSys Op Res → Prop
  /-- The directory of a metric is made on the way to one with a longer name (metric.go:91). -/
  | mkdir (m : Bytes) : Step c path s { s with g := s.g.setFs m { s.g.fs m with dirExists := true } }
  /-- `Close` of the file cache (db.go:233, file_cache.go:43-52). -/
  | close (r : Option FHandle) (w : FWorld) : s.g.w.step .close = some (r, w) → Step c path s { s with g := { s.g with w } }
  /-- db_write.go:99, db_read.go:23,43: Lock, first half. -/
  | call (i : Nat) (m : Bytes) (o : Op) (rest : List (Bytes × Op)) : s.pool.pcs[i]? = some .idle → s.cl[i]? = some ⟨(m, o) :: rest, .out⟩ →
      Step c path s { s with pool := (s.pool.lockFirst m).2.setPc i (.waiting m (s.pool.lockFirst m).1) }
  /-- Lock returns. -/
  | enter (i : Nat) (m : Bytes) (o : Op) (rest : List (Bytes × Op)) (a : Nat) : s.pool.pcs[i]? = some (.waiting m a) → (s.pool.heap a).held = false → s.cl[i]? = some ⟨(m, o) :: rest, .out⟩ →
      Step c path s { s with pool := (s.pool.setHeap a { s.pool.heap a with held := true }).setPc i (.holding m a), cl := s.cl.set i ⟨(m, o) :: rest, .begin⟩ }
  /-- The directory is read. -/
  | first (i : Nat) (m : Bytes) (o : Op) (rest : List (Bytes × Op)) : s.cl[i]? = some ⟨(m, o) :: rest, .begin⟩ →
      Step c path s { s with g := s.g.setFs m (dirNames (c.ro o) (s.g.fs m)).2, cl := s.cl.set i ⟨(m, o) :: rest, .busy (c.body o (dirNames (c.ro o) (s.g.fs m)).1)⟩ }
  /-- A further step. -/
  | work (i : Nat) (m : Bytes) (o : Op) (rest : List (Bytes × Op)) (p p' : FsProg Res) (g : FsState) : s.cl[i]? = some ⟨(m, o) :: rest, .busy p⟩ → p.exec path m s.g = some (p', g) →
      Step c path s { s with g, cl := s.cl.set i ⟨(m, o) :: rest, .busy p'⟩ }
  /-- The call is finished and its deferred Unlock begins. -/
  | finish (i : Nat) (m : Bytes) (o : Op) (rest : List (Bytes × Op)) (r : Res) (a a' : Nat) (p : LPool) : s.cl[i]? = some ⟨(m, o) :: rest, .busy (.done r)⟩ →
      s.pool.pcs[i]? = some (.holding m a) → s.pool.unlockFirst m = some (a', p) →
      Step c path s { s with pool := p.setPc i (.unlocking a'), cl := s.cl.set i ⟨rest, .out⟩, log := s.log ++ [(i, m, o, r)] }
  /-- Unlock returns. -/
  | done (i a : Nat) : s.pool.pcs[i]? = some (.unlocking a) → (s.pool.heap a).held = true →
      Step c path s { s with pool := (s.pool.setHeap a { s.pool.heap a with held := false }).setPc i .idle }

/-- The states that can arise. (db.go:117-233, any schedule.) -/
inductive FsSys.Reach (c : FsCalls Op Res) (path : Bytes → Int → Bytes) (handles : Nat) (progs : List (List (Bytes × Op))) (fs : Bytes → Store) : FsSys Op Res → Prop
  | init : Reach c path handles progs fs (FsSys.init handles progs fs)
  | step {s s' : FsSys Op Res} : Reach c path handles progs fs s → s.Step c path s' → Reach c path handles progs fs s'

end Rothko
