import Verif.Model.Run
/-!
# Interrupting the program (internal/junk/signal.go, run.go:188-204)

`run` as in Model/Run, with the goroutine of `junk.WithSignal` that turns SIGINT into the end of the services' context. The operating system and os/signal: while a channel is registered a SIGINT is put into it if it
has room and is dropped otherwise; while none is, a SIGINT ends the process at once.
-/
namespace Rothko

/-- The goroutine of `WithSignal` (signal.go:21-31): at the `select` (or not yet there), at `cancel()` (28), at `signal.Stop` (29), ended. -/
inductive Watch
  | select
  | cancel
  | stop
  | gone
deriving DecidableEq, Repr

/-- The program and its handling of SIGINT (signal.go:13-34, run.go:188-204). `notified`: `signal.Notify` was called (19). `buf`: signals in the channel (18). `stopped`: `signal.Stop` was called. `ended`: `cancel` of the
services' context was called, by the goroutine (28) or by the `defer` of run.go:190. `early` and `sent` count the SIGINTs that came before and after `Notify`, `killed`: one of them ended the process. -/
structure ISys (E : Type) where
  run : RSys E
  notified : Bool := false
  buf : Nat := 0
  watch : Watch := .select
  stopped : Bool := false
  ended : Bool := false
  early : Nat := 0
  sent : Nat := 0
  killed : Bool := false

/-- The program about to start its tasks (run.go:185-216). -/
def ISys.start (E : Type) (n : Nat) : ISys E := { run := RSys.start E n }

/-- What a SIGINT does (os/signal; signal.go:18-19,29; the channel has room for one). -/
def ISys.sigint {E : Type} (s : ISys E) : ISys E :=
  if s.notified = false then { s with early := s.early + 1, killed := true }
  else if s.stopped then { s with sent := s.sent + 1, killed := true }
  else if s.buf < 1 then { s with sent := s.sent + 1, buf := s.buf + 1 }
  else { s with sent := s.sent + 1 }

/-- The services' context has ended: it was cancelled or the one above it was (signal.go:16, run.go:189). -/
def ISys.over {E : Type} (s : ISys E) : Bool := s.ended || s.run.outer.cancelled

/-- A step of the goroutine (signal.go:21-31). `select` takes any branch that is ready. -/
inductive WatchStep {E : Type} (s : ISys E) : ISys E → Prop
  | done (h : s.watch = .select) (hn : s.notified = true) (hd : s.over = true) : WatchStep s { s with watch := .gone }
  | take (h : s.watch = .select) (hn : s.notified = true) (hb : 0 < s.buf) : WatchStep s { s with buf := s.buf - 1, watch := .cancel }
  | cancel (h : s.watch = .cancel) : WatchStep s { s with ended := true, watch := .stop }
  | stop (h : s.watch = .stop) : WatchStep s { s with stopped := true, watch := .gone }

/-- A step of the process, while no signal has ended it (run.go:185-216, signal.go:13-34). The services start after `WithSignal` returned (run.go:189-192); before that only the outer launcher and the database move. Their context is cancelled
from outside only when the one of `WithSignal` has ended. -/
inductive IStep {E : Type} (files : Bool) (s : ISys E) : ISys E → Prop
  | signal : IStep files s s.sigint
  | notify (h : s.notified = false) : IStep files s { s with notified := true }
  | watch (t : ISys E) (h : WatchStep s t) : IStep files s t
  | outside (o : LSys E) (b : Bool) (h : RStep files s.run { s.run with outer := o, ctxDone := b }) : IStep files s { s with run := { s.run with outer := o, ctxDone := b } }
  | service (r : RSys E) (h : RStep files s.run r) (hn : s.notified = true) (hc : r.inner.cancelled = s.run.inner.cancelled ∨ r.inner.main ≠ s.run.inner.main ∨ s.over = true) :
      IStep files s { s with run := r }
  /-- run.go:190. -/
  | defer (h : s.run.phase = .over) (hn : s.notified = true) : IStep files s { s with ended := true }

/-- The executions of the process with `n` services (run.go:185-216, signal.go:13-34, any schedule and any signals). -/
inductive IReach {E : Type} (files : Bool) (n : Nat) : ISys E → Prop
  | start : IReach files n (ISys.start E n)
  | step {s t : ISys E} (h : IReach files n s) (hk : s.killed = false) (hs : IStep files s t) : IReach files n t

/-- The executions from a state on (run.go:185-216, signal.go:13-34). -/
inductive ILater {E : Type} (files : Bool) (s : ISys E) : ISys E → Prop
  | refl : ILater files s s
  | step {t u : ISys E} (h : ILater files s t) (hk : t.killed = false) (hs : IStep files t u) : ILater files s u

end Rothko
