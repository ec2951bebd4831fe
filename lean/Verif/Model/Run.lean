import Verif.Model.Launch
/-!
# The life of the program (run.go:72-217, dump/dump.go:52-67)

`run` starts two tasks under one launcher: the services (listeners, the periodic dumper, the api server, under a second launcher whose context ends with SIGINT), followed by a last dump,
and the database.
-/
namespace Rothko

/-- Where the task with the services is (run.go:188-204): in `launcher.Run` (192), in the last `dumper.Dump` (202), returned. -/
inductive RPhase
  | serving
  | dumping
  | over
deriving DecidableEq

/-- The program (run.go:72-217). `inner` is `launcher.Run`, `outer` is `parent.Run` with the services as task 0 and the database as task 1.
`held` counts the observations in the writer, `added` all that were ever added, `given` those in records handed to the database's `Queue`,
`dropped` those captured by a dump that was interrupted before it handed them over. `late`: the 60 seconds of the last dump ran out. `ctxDone`: the context given to `run` was cancelled
(run.go:58 gives one that never is). `dumped`: the last dump returned.
A dump is one step here (its inside is Model/Dump), and so is an `Add` (Model/AggConc). -/
structure RSys (E : Type) where
  inner : LSys E
  outer : LSys E
  phase : RPhase := .serving
  added : Nat := 0
  held : Nat := 0
  given : Nat := 0
  dropped : Nat := 0
  late : Bool := false
  ctxDone : Bool := false
  dumped : Bool := false

/-- `n` services (run.go:142-175: the listeners, the dumper and the api server) about to start. -/
def RSys.start (E : Type) (n : Nat) : RSys E := { inner := LSys.start E n, outer := LSys.start E 2 }

/-- A step of `Launch` (launcher.go:30-55) other than a task's return or a cancellation from outside. -/
def LOwn {E : Type} (s t : LSys E) : Prop :=
  LStep s t ∧ (∀ i : Nat, s.tasks[i]? = some .run → t.tasks[i]? = some .run) ∧ (t.cancelled = s.cancelled ∨ t.main ≠ s.main)

/-- One step (run.go:185-216, dump.go:52-67). `files`: the database is the one of database/files, whose `Run` returns when its context is cancelled and not before (db.go:185-250). -/
inductive RStep {E : Type} (files : Bool) (s : RSys E) : RSys E → Prop
  /-- The inner launcher; its context may be cancelled at any time by SIGINT. -/
  | inner (t : LSys E) (hp : s.phase = .serving) (h : LStep s.inner t) : RStep files s { s with inner := t }
  /-- The outer launcher. -/
  | outer (t : LSys E) (h : LOwn s.outer t) : RStep files s { s with outer := t }
  /-- The context given to `run` is cancelled. -/
  | ctx : RStep files s { s with outer := { s.outer with cancelled := true }, ctxDone := true }
  /-- A service adds an observation. -/
  | add (i : Nat) (hp : s.phase = .serving) (h : s.inner.tasks[i]? = some .run) : RStep files s { s with held := s.held + 1, added := s.added + 1 }
  /-- A periodic dump, by the service that runs the dumper: its context is never cancelled (dump.go:64). -/
  | periodic (i : Nat) (hp : s.phase = .serving) (h : s.inner.tasks[i]? = some .run) : RStep files s { s with held := 0, given := s.given + s.held }
  /-- Line 193: the task returns the services' error. -/
  | fail (e : E) (hp : s.phase = .serving) (h : s.inner.main = .fin (some e)) : RStep files s { s with phase := .over, outer := { s.outer with tasks := s.outer.tasks.set 0 (.ret (some e)) } }
  /-- Line 202. -/
  | lastDump (hp : s.phase = .serving) (h : s.inner.main = .fin none) : RStep files s { s with phase := .dumping }
  /-- Line 198: the 60 seconds are over. -/
  | deadline (hp : s.phase = .dumping) : RStep files s { s with late := true }
  /-- Line 203: the last dump returned. It hands over everything, unless its context ended. -/
  | dumpDone (k l : Nat) (hp : s.phase = .dumping) (hk : s.held = k + l) (hl : l = 0 ∨ s.late = true ∨ s.outer.cancelled = true) :
      RStep files s { s with phase := .over, dumped := true, held := 0, given := s.given + k, dropped := s.dropped + l, outer := { s.outer with tasks := s.outer.tasks.set 0 (.ret none) } }
  /-- Line 212: the database returns. -/
  | db (r : Option E) (h : s.outer.tasks[1]? = some .run) (hf : files = true → s.outer.cancelled = true) : RStep files s { s with outer := { s.outer with tasks := s.outer.tasks.set 1 (.ret r) } }

/-- The executions of `run` with `n` services (run.go:185-216, any schedule). -/
inductive RReach {E : Type} (files : Bool) (n : Nat) : RSys E → Prop
  | start : RReach files n (RSys.start E n)
  | step {s t : RSys E} (h : RReach files n s) (hs : RStep files s t) : RReach files n t

end Rothko
