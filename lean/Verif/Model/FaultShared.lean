import Verif.Model.Fault
/-!
# Errors of the operating system in calls on all metrics, with the file cache that they share

database/files/metric.go:77-514, file.go:32-127, file_cache.go:24-104, db_write.go:95-135, db_read.go:20-50: Model/Calls (any number of goroutines, all metrics, one file cache) with the errors of Model/Fault.
Whether opening or creating a file fails is decided step by step, when the cache has no handle and the system is asked; whether the directory can be opened, and whether removing files works,
is given with the call (a call removes at most one file unless there is an empty one behind the newest, metric.go:186-212,262-266).

A mapping whose `mmap` failed is no mapping: nothing is lost when the system fails, only when the bytes of a file make opening it fail (Model/Calls).
-/
namespace Rothko

variable {α : Type}

/-- `openFile` or `createFile` (file.go:32-127), when it may fail. -/
def Store.openF (cfg : Cfg) (s : Store) (idx : Int) (ex : Bool) : Option FileFault → Except MErr Handle × Store
  | none => s.openNew cfg idx ex
  | some f => s.failed cfg idx ex f

/-- The steps of a call during which `os.Remove` fails: its error is ignored and the file stays (metric.go:201,264). -/
def FsProg.keep : FsProg α → FsProg α
  | .done a => .done a
  | .acquire cfg idx ex k => .acquire cfg idx ex (fun x => (k x).keep)
  | .release idx h k => .release idx h k.keep
  | .evict idx k => .evict idx k.keep
  | .remove _ k => k.keep
  | .load h k => .load h (fun f => (k f).keep)
  | .store h head v f k => .store h head v f k.keep

/-- The next step of a call on the metric `m` if opening a file fails as `flt` says. Everything but the first line of `acquire` is as in Model/Calls. (metric.go:138-495, file_cache.go:69-87.) -/
def FsProg.execF (flt : Option FileFault) (path : Bytes → Int → Bytes) (m : Bytes) : FsProg α → FsState → Option (FsProg α × FsState)
  | .done _, _ => none
  | .acquire cfg idx ex k, g =>
    match g.w.step (.acquire (path m idx) (isOk ((g.fs m).openF cfg idx ex flt).1)) with
    | none => none
    | some (some f, w) =>
      if f.id < g.w.opened.length then some (k (.ok ⟨f.id, g.table f.id⟩), { g with w })
      else match (g.fs m).openF cfg idx ex flt with
        | (.error _, _) => none
        | (.ok h, s) => some (k (.ok ⟨f.id, h⟩), { g.setFs m s with w, table := fun i => if i = f.id then h else g.table i })
    | some (none, w) =>
      match (g.fs m).openF cfg idx ex flt with
      | (.ok _, _) => none
      | (.error e, s) => some (k (.error e), { g.setFs m s with w, leaked := g.leaked + (if flt.isNone && mapsAt cfg (g.fs m) idx ex then 1 else 0) })
  | .release idx h k, g =>
    match g.w.step (.release ⟨h.id, path m idx⟩) with
    | none => none
    | some (_, w) => some (k, { g with w })
  | .evict idx k, g =>
    match g.w.step (.evict (path m idx)) with
    | none => none
    | some (_, w) => some (k, { g with w })
  | .remove idx k, g => some (k, g.setFs m ((g.fs m).remove idx))
  | .load h k, g => some (k ((g.fs m).file h.geo), g)
  | .store h _ _ f k, g => some (k, g.setFs m ((g.fs m).setFile h.geo f))

/-- A kind of call: is it read only, does opening its directory fail, and its steps once this was tried. (db_write.go:95-110, db_read.go:20-50, metric.go:88-104.) -/
structure FsCallsF (Op Res : Type) where
  ro : Op → Bool
  dir : Op → Option DirFault
  body : Op → Except MErr (Option (List Int)) → FsProg Res

variable {Op Res : Type}

/-- One step of some goroutine; `may m f`: opening or creating a file of the metric `m` can fail with `f`. (db_write.go:95-135, db_read.go:20-50, lock_pool.go:26-52, db.go:233.) -/
inductive FsSys.StepF (c : FsCallsF Op Res) (may : Bytes → FileFault → Prop) (path : Bytes → Int → Bytes) (s : FsSys Op Res) : FsSys Op Res → Prop
  /-- The directory of a metric is made on the way to one with a longer name (metric.go:91). -/
  | mkdir (m : Bytes) : StepF c may path s { s with g := s.g.setFs m { s.g.fs m with dirExists := true } }
  /-- `Close` of the file cache (db.go:233, file_cache.go:43-52). -/
  | close (r : Option FHandle) (w : FWorld) : s.g.w.step .close = some (r, w) → StepF c may path s { s with g := { s.g with w } }
  /-- db_write.go:99, db_read.go:23,43: Lock, first half. -/
  | call (i : Nat) (m : Bytes) (o : Op) (rest : List (Bytes × Op)) : s.pool.pcs[i]? = some .idle → s.cl[i]? = some ⟨(m, o) :: rest, .out⟩ →
      StepF c may path s { s with pool := (s.pool.lockFirst m).2.setPc i (.waiting m (s.pool.lockFirst m).1) }
  /-- Lock returns. -/
  | enter (i : Nat) (m : Bytes) (o : Op) (rest : List (Bytes × Op)) (a : Nat) : s.pool.pcs[i]? = some (.waiting m a) → (s.pool.heap a).held = false → s.cl[i]? = some ⟨(m, o) :: rest, .out⟩ →
      StepF c may path s { s with pool := (s.pool.setHeap a { s.pool.heap a with held := true }).setPc i (.holding m a), cl := s.cl.set i ⟨(m, o) :: rest, .begin⟩ }
  /-- The directory is read, or this fails. -/
  | first (i : Nat) (m : Bytes) (o : Op) (rest : List (Bytes × Op)) : s.cl[i]? = some ⟨(m, o) :: rest, .begin⟩ →
      StepF c may path s { s with g := s.g.setFs m (openDirF (c.dir o) (c.ro o) (s.g.fs m)).2, cl := s.cl.set i ⟨(m, o) :: rest, .busy (c.body o (openDirF (c.dir o) (c.ro o) (s.g.fs m)).1)⟩ }
  /-- A further step. -/
  | work (i : Nat) (m : Bytes) (o : Op) (rest : List (Bytes × Op)) (flt : Option FileFault) (p p' : FsProg Res) (g : FsState) : s.cl[i]? = some ⟨(m, o) :: rest, .busy p⟩ → (∀ f, flt = some f → may m f) →
      p.execF flt path m s.g = some (p', g) → StepF c may path s { s with g, cl := s.cl.set i ⟨(m, o) :: rest, .busy p'⟩ }
  /-- The call is finished and its deferred Unlock begins. -/
  | finish (i : Nat) (m : Bytes) (o : Op) (rest : List (Bytes × Op)) (r : Res) (a a' : Nat) (p : LPool) : s.cl[i]? = some ⟨(m, o) :: rest, .busy (.done r)⟩ →
      s.pool.pcs[i]? = some (.holding m a) → s.pool.unlockFirst m = some (a', p) →
      StepF c may path s { s with pool := p.setPc i (.unlocking a'), cl := s.cl.set i ⟨rest, .out⟩, log := s.log ++ [(i, m, o, r)] }
  /-- Unlock returns. -/
  | done (i a : Nat) : s.pool.pcs[i]? = some (.unlocking a) → (s.pool.heap a).held = true →
      StepF c may path s { s with pool := (s.pool.setHeap a { s.pool.heap a with held := false }).setPc i .idle }

/-- The states that can arise. (db.go:117-233, any schedule, any errors.) -/
inductive FsSys.ReachF (c : FsCallsF Op Res) (may : Bytes → FileFault → Prop) (path : Bytes → Int → Bytes) (handles : Nat) (progs : List (List (Bytes × Op))) (fs : Bytes → Store) : FsSys Op Res → Prop
  | init : ReachF c may path handles progs fs (FsSys.init handles progs fs)
  | step {s s' : FsSys Op Res} : ReachF c may path handles progs fs s → s.StepF c may path s' → ReachF c may path handles progs fs s'

end Rothko
