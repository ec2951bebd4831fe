/-!
# Running the api server (run.go:219-269)

`runServer` with its goroutine, and as much of net/http's `Server` as it uses, after its documentation and source: `Serve` registers the listener and accepts connections until `Accept` fails, and then returns
`ErrServerClosed` if `Shutdown` was called and the error otherwise; `Shutdown` closes the registered listeners and then waits until no connection is active or its context ends. Newer versions of Go have `Serve` return at
once if `Shutdown` was called before (`checks`).
-/
namespace Rothko

/-- Where `runServer` is: about to call `Serve` or `ServeTLS` (run.go:259-263), in the loop of `Serve`, having a result (264-267), after the deferred `cancel` (241), returned (with `lis.Close` of 238). -/
inductive VMain (E : Type)
  | call
  | loop
  | ret (r : Option E)
  | closing (r : Option E)
  | fin (r : Option E)

/-- The goroutine that waits for the end of the context (run.go:242-257): at `<-ctx.Done()`, at `Shutdown`, waiting inside it for active connections, at `lis.Close`, ended. -/
inductive VMon
  | wait
  | shutdown
  | poll
  | close
  | gone
deriving DecidableEq

/-- `runServer` after `net.Listen` succeeded (run.go:232-269). `lis`: the listener is open. `ctx`: the caller's context has ended. `cancelled`: `cancel` of 239 was called. `shut`: `Shutdown` was called. `known`: `Serve` has registered the
listener. `active`: connections with a request under way. `late`: the 60 seconds of 249 are over. `own`: errors that were not caused by `runServer` itself (the certificate cannot be loaded, `accept` fails). -/
structure VSys (E : Type) where
  lis : Bool := true
  ctx : Bool := false
  cancelled : Bool := false
  shut : Bool := false
  known : Bool := false
  active : Nat := 0
  late : Bool := false
  own : List E := []
  main : VMain E := .call
  mon : VMon := .wait

/-- What `runServer` makes of the result of `Serve` when `Accept` has failed with `e` (run.go:264-267; net/http: the error is `ErrServerClosed` after `Shutdown`). -/
def VSys.served {E : Type} (s : VSys E) (e : E) : Option E := if s.shut then none else some e

/-- One step (run.go:232-269). `shutErr` is the error of `Accept` on a closed listener. -/
inductive VStep {E : Type} (checks : Bool) (shutErr : E) (s : VSys E) : VSys E → Prop
  | ctx : VStep checks shutErr s { s with ctx := true }
  /-- `ServeTLS` cannot load the certificate (run.go:261). -/
  | cert (e : E) (h : s.main = .call) : VStep checks shutErr s { s with main := .ret (some e), own := e :: s.own }
  /-- `Serve` refuses to start after `Shutdown`, in newer versions. -/
  | refuse (h : s.main = .call) (hc : checks = true) (hs : s.shut = true) : VStep checks shutErr s { s with main := .ret none, lis := false }
  /-- `Serve` starts. -/
  | serve (h : s.main = .call) (hs : checks = true → s.shut = false) : VStep checks shutErr s { s with main := .loop, known := true }
  /-- A connection is accepted (run.go:277-285) and has a request. -/
  | accept (h : s.main = .loop) (hl : s.lis = true) : VStep checks shutErr s { s with active := s.active + 1 }
  /-- A request was answered. -/
  | answer (h : 0 < s.active) : VStep checks shutErr s { s with active := s.active - 1 }
  /-- `accept` fails by itself. -/
  | fails (e : E) (h : s.main = .loop) (hl : s.lis = true) : VStep checks shutErr s { s with main := .ret (s.served e), own := e :: s.own, lis := false, known := false }
  /-- `accept` fails because the listener was closed. -/
  | closed (h : s.main = .loop) (hl : s.lis = false) : VStep checks shutErr s { s with main := .ret (s.served shutErr), known := false }
  /-- Line 241. -/
  | defer1 (r : Option E) (h : s.main = .ret r) : VStep checks shutErr s { s with main := .closing r, cancelled := true }
  /-- Line 238. -/
  | defer2 (r : Option E) (h : s.main = .closing r) : VStep checks shutErr s { s with main := .fin r, lis := false }
  /-- Line 245. -/
  | wake (h : s.mon = .wait) (hc : s.ctx = true ∨ s.cancelled = true) : VStep checks shutErr s { s with mon := .shutdown }
  /-- Line 252, until it waits. -/
  | shutdown (h : s.mon = .shutdown) : VStep checks shutErr s { s with mon := .poll, shut := true, lis := if s.known then false else s.lis }
  /-- Line 249. -/
  | deadline (h : s.mon = .poll) : VStep checks shutErr s { s with late := true }
  /-- Line 252 returns. -/
  | polled (h : s.mon = .poll) (hd : s.active = 0 ∨ s.late = true) : VStep checks shutErr s { s with mon := .close }
  /-- Line 256. -/
  | close (h : s.mon = .close) : VStep checks shutErr s { s with mon := .gone, lis := false }

/-- The executions of `runServer` (run.go:232-269, any schedule). -/
inductive VReach {E : Type} (checks : Bool) (shutErr : E) : VSys E → Prop
  | start : VReach checks shutErr {}
  | step {s t : VSys E} (h : VReach checks shutErr s) (hs : VStep checks shutErr s t) : VReach checks shutErr t

end Rothko
