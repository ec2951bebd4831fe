/-
Concurrent calls of the database, each working on one metric under its lock: database/files/db_write.go:93-135 (write, run by the workers), db_read.go:20-33 (Query) and 37-50 (QueryLatest),
with the lock pool of Model/LockPool.

Any number of goroutines, each with a list of calls to make. While a goroutine holds the lock of a metric it works on the state of that metric in any number of atomic steps: how a call
is cut into steps is left open (`Machine`), so the results hold for every granularity. The state of a metric is its directory and its part of the handle cache (Model/Metric):
different metrics use different paths (C10), and the handle cache hands a handle out to one caller at a time (C27). What a metric sees of the others is `env`, which can happen at any moment:
a directory made on the way to a metric with a longer name (metric.go:85), and evictions, which are in the oracle of Model/Metric.
-/
import Verif.Model.LockPool

namespace Rothko

/-- A way to carry out calls in atomic steps on the state of one metric. The first step looks at the directory (newMetric opens it, metric.go:77-104); `step` is `none` when the call is finished. -/
structure Machine (Op Res σ L : Type) where
  first : Op → σ → L × σ
  step : L → σ → Option (L × σ)
  result : L → Res

/-- Where a goroutine is inside its call. (db_write.go:95-135, db_read.go:20-50.) -/
inductive Work (L : Type)
  | out                -- not in a call that holds its lock
  | begin              -- it has the lock and did nothing yet
  | busy (l : L)
deriving DecidableEq

/-- A goroutine: the calls it has still to make, the current one first, and the work on the current one. (db_write.go:95-135, db_read.go:20-50.) -/
structure Client (Op L : Type) where
  todo : List (Bytes × Op)
  work : Work L

/-- The system: the lock pool, the state of each metric, the goroutines (as many as the pool has), and the finished calls in the order in which they finished. (db.go:72-97.) -/
structure SSys (Op Res σ L : Type) where
  pool : LPool
  st : Bytes → σ
  cl : List (Client Op L)
  log : List (Nat × Bytes × Op × Res)

variable {Op Res σ L : Type}

/-- db.go:117-168. -/
def SSys.init (progs : List (List (Bytes × Op))) (st : Bytes → σ) : SSys Op Res σ L :=
  { pool := LPool.init progs.length, st := st, cl := progs.map (fun p => ⟨p, .out⟩), log := [] }

/-- db_write.go:109: the state of metric `k` changes. -/
def SSys.setSt (s : SSys Op Res σ L) (k : Bytes) (x : σ) : Bytes → σ := fun k' => if k' = k then x else s.st k'

/-- One step. (db_write.go:95-135, db_read.go:20-50, lock_pool.go:26-52.) -/
inductive SSys.Step (m : Machine Op Res σ L) (env : σ → σ) (s : SSys Op Res σ L) : SSys Op Res σ L → Prop
  /-- Another metric's call changes what this metric sees. -/
  | env (k : Bytes) : Step m env s { s with st := s.setSt k (env (s.st k)) }
  /-- db_write.go:99, db_read.go:23,40: Lock, first half. -/
  | call (i : Nat) (k : Bytes) (o : Op) (rest : List (Bytes × Op)) : s.pool.pcs[i]? = some .idle → s.cl[i]? = some ⟨(k, o) :: rest, .out⟩ →
      Step m env s { s with pool := (s.pool.lockFirst k).2.setPc i (.waiting k (s.pool.lockFirst k).1) }
  /-- Lock returns. -/
  | enter (i : Nat) (k : Bytes) (o : Op) (rest : List (Bytes × Op)) (a : Nat) : s.pool.pcs[i]? = some (.waiting k a) → (s.pool.heap a).held = false → s.cl[i]? = some ⟨(k, o) :: rest, .out⟩ →
      Step m env s { s with pool := (s.pool.setHeap a { s.pool.heap a with held := true }).setPc i (.holding k a), cl := s.cl.set i ⟨(k, o) :: rest, .begin⟩ }
  /-- The first step of the work. -/
  | first (i : Nat) (k : Bytes) (o : Op) (rest : List (Bytes × Op)) : s.cl[i]? = some ⟨(k, o) :: rest, .begin⟩ →
      Step m env s { s with st := s.setSt k (m.first o (s.st k)).2, cl := s.cl.set i ⟨(k, o) :: rest, .busy (m.first o (s.st k)).1⟩ }
  /-- A further step. -/
  | work (i : Nat) (k : Bytes) (o : Op) (rest : List (Bytes × Op)) (l l' : L) (x : σ) : s.cl[i]? = some ⟨(k, o) :: rest, .busy l⟩ → m.step l (s.st k) = some (l', x) →
      Step m env s { s with st := s.setSt k x, cl := s.cl.set i ⟨(k, o) :: rest, .busy l'⟩ }
  /-- The call is finished and its deferred Unlock begins. -/
  | finish (i : Nat) (k : Bytes) (o : Op) (rest : List (Bytes × Op)) (l : L) (a a' : Nat) (p : LPool) : s.cl[i]? = some ⟨(k, o) :: rest, .busy l⟩ → m.step l (s.st k) = none →
      s.pool.pcs[i]? = some (.holding k a) → s.pool.unlockFirst k = some (a', p) →
      Step m env s { s with pool := p.setPc i (.unlocking a'), cl := s.cl.set i ⟨rest, .out⟩, log := s.log ++ [(i, k, o, m.result l)] }
  /-- Unlock returns. -/
  | done (i a : Nat) : s.pool.pcs[i]? = some (.unlocking a) → (s.pool.heap a).held = true →
      Step m env s { s with pool := (s.pool.setHeap a { s.pool.heap a with held := false }).setPc i .idle }

/-- The states that can arise when goroutine `i` makes the calls `progs[i]`. (db_write.go:95-135, db_read.go:20-50, any schedule.) -/
inductive SSys.Reach (m : Machine Op Res σ L) (env : σ → σ) (progs : List (List (Bytes × Op))) (st : Bytes → σ) : SSys Op Res σ L → Prop
  | init : Reach m env progs st (SSys.init progs st)
  | step {s s' : SSys Op Res σ L} : Reach m env progs st s → s.Step m env s' → Reach m env progs st s'

end Rothko
