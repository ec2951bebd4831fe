/-!
# The goroutines of the graphite listener (listener/graphite/listener.go:31-119)

What the lines mean is in Model/Graphite; here the connections come and go.
-/
namespace Rothko

/-- `handleConn` on a connection (listener.go:88-119), with the goroutine around it (listener.go:74-83): in the scanner's loop (108-117), after it with the deferred `cancel` done and in `wg.Wait` (92), finished (75).
`lines`: the lines given to `handleLine`. `own`: its own context was cancelled (95). `closed`: the other goroutine saw a cancelled context and closed the connection (100-101). -/
structure GConn where
  pc : Nat := 0
  lines : Nat := 0
  own : Bool := false
  closed : Bool := false

/-- In the scanner's loop (listener.go:108-117). -/
def GConn.scanning (c : GConn) : Prop := c.pc = 0

/-- The goroutine of the connection has ended (listener.go:75). -/
def GConn.ended (c : GConn) : Prop := c.pc = 2

/-- `handleListener` and the goroutine it runs in (listener.go:42-45,59-85): in the loop with `Accept`, returning an error with the deferred calls left (66), in `wg.Wait` (63), returned, having sent the error (44), having called `wg.Done` (43). -/
inductive GAcc (E : Type)
  | accept
  | cancel (e : E)
  | wait (e : E)
  | ret (e : E)
  | sent (e : E)
  | done (e : E)

/-- `Run` (listener.go:47-54): in the select, after closing the listener in `wg.Wait`, returning with the deferred close (36) left, returned. -/
inductive GMain (E : Type)
  | select
  | wait
  | ret (r : Option E)
  | fin (r : Option E)

/-- A running listener. `ctx`: the context of `Run` was cancelled; `hctx`: `handleListener` cancelled its own (66); `shut`: the listening socket was closed. -/
structure GSys (E : Type) where
  conns : List GConn := []
  acc : GAcc E := .accept
  main : GMain E := .select
  ctx : Bool := false
  hctx : Bool := false
  shut : Bool := false

/-- One step (listener.go:31-119). -/
inductive GStep {E : Type} (s : GSys E) : GSys E → Prop
  /-- The caller cancels. -/
  | stop : GStep s { s with ctx := true }
  /-- Lines 69-83: a connection. -/
  | accept (h : s.acc = .accept) (ho : s.shut = false) : GStep s { s with conns := s.conns ++ [{}] }
  /-- Lines 69-72: an error, at any time, and in particular when the socket was closed. -/
  | acceptErr (e : E) (h : s.acc = .accept) : GStep s { s with acc := .cancel e }
  /-- Line 109. Lines that are already in the scanner's buffer are handled after the connection was closed. -/
  | line (i : Nat) (c : GConn) (h : s.conns[i]? = some c) (hc : c.scanning) : GStep s { s with conns := s.conns.set i { c with lines := c.lines + 1 } }
  /-- Lines 108, 118, 95: the scanner stops, because the stream ended, failed or was closed. -/
  | scanEnd (i : Nat) (c : GConn) (h : s.conns[i]? = some c) (hc : c.scanning) : GStep s { s with conns := s.conns.set i { c with pc := 1, own := true } }
  /-- Lines 100-101. -/
  | close (i : Nat) (c : GConn) (h : s.conns[i]? = some c) (hc : c.closed = false) (hd : c.own = true ∨ s.hctx = true ∨ s.ctx = true) : GStep s { s with conns := s.conns.set i { c with closed := true } }
  /-- Lines 92, 75. -/
  | connEnd (i : Nat) (c : GConn) (h : s.conns[i]? = some c) (hc : c.pc = 1) (hd : c.closed = true) : GStep s { s with conns := s.conns.set i { c with pc := 2 } }
  /-- Line 66. -/
  | accCancel (e : E) (h : s.acc = .cancel e) : GStep s { s with acc := .wait e, hctx := true }
  /-- Line 63. -/
  | accWait (e : E) (h : s.acc = .wait e) (ha : ∀ c ∈ s.conns, c.ended) : GStep s { s with acc := .ret e }
  /-- Line 44; the channel has room for the only value. -/
  | accSend (e : E) (h : s.acc = .ret e) : GStep s { s with acc := .sent e }
  /-- Line 43. -/
  | accDone (e : E) (h : s.acc = .sent e) : GStep s { s with acc := .done e }
  /-- Lines 48-49. -/
  | recv (e : E) (hm : s.main = .select) (h : s.acc = .sent e ∨ s.acc = .done e) : GStep s { s with main := .ret (some e) }
  /-- Lines 50-51. -/
  | stopped (hm : s.main = .select) (hc : s.ctx = true) : GStep s { s with main := .wait, shut := true }
  /-- Line 52. -/
  | waited (e : E) (hm : s.main = .wait) (h : s.acc = .done e) : GStep s { s with main := .ret none }
  /-- Line 36. -/
  | deferClose (r : Option E) (hm : s.main = .ret r) : GStep s { s with main := .fin r, shut := true }

/-- The executions of `Run` (listener.go:31-119, any schedule). -/
inductive GReach {E : Type} : GSys E → Prop
  | start : GReach {}
  | step {s t : GSys E} (h : GReach s) (hs : GStep s t) : GReach t

end Rothko
