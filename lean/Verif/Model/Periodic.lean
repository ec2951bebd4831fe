import Verif.Model.Dump
import Verif.Model.Config
/-!
# Dumping periodically (dump/dump.go:50-67)

The loop of `Run` around any number of dumps, ticks and a cancellation, in any interleaving. A dump is `Model/Dump`; `Run` gives it `context.Background()`, which is never cancelled.
-/
namespace Rothko

/-- Where `Run` is (dump.go:52-67). -/
inductive PdPc
  | begin
  | select
  | dumping (caps : List DRecd) (d : DSys)
  | returned
  | panicked

/-- `Run` (dump.go:52-67): the options, the ticker's channel, which holds at most one tick, and the pool. `past`, which is not part of the program, has for each dump that is over what it captured and what it queued. -/
structure PdSys where
  period : Int
  pc : PdPc
  cancelled : Bool
  tick : Bool
  pool : List Nat
  heap : Nat → Bytes
  cap : Nat → Nat
  nbuf : Nat
  past : List (List DRecd × List DReq)

/-- dump.go:36-48: a new dumper whose `Run` is called. -/
def PdSys.init (period : Int) : PdSys := { period := period, pc := .begin, cancelled := false, tick := false, pool := [], heap := fun _ => [], cap := fun _ => 0, nbuf := 0, past := [] }

/-- One step (dump.go:52-67). -/
inductive PdSys.Step (s : PdSys) : PdSys → Prop
  /-- dump.go:54: `NewTicker` panics unless the period is positive. -/
  | bad : s.pc = .begin → s.period ≤ 0 → Step s { s with pc := .panicked }
  | start : s.pc = .begin → 0 < s.period → Step s { s with pc := .select }
  | cancel : Step s { s with cancelled := true }
  /-- The ticker fires; the tick is dropped if one is there already. -/
  | fire : s.pc ≠ .begin → s.pc ≠ .panicked → Step s { s with tick := true }
  /-- dump.go:59-60. -/
  | stop : s.pc = .select → s.cancelled = true → Step s { s with pc := .returned }
  /-- dump.go:62-64: `caps` is what the writer's `Capture` will hand out. -/
  | dump (caps : List DRecd) : s.pc = .select → s.tick = true → Step s { s with tick := false, pc := .dumping caps (DSys.init caps s.pool s.heap s.cap s.nbuf) }
  | inner (caps : List DRecd) (d d' : DSys) : s.pc = .dumping caps d → d.Step d' → d'.cancelled = false → Step s { s with pc := .dumping caps d' }
  | over (caps : List DRecd) (d : DSys) : s.pc = .dumping caps d → d.pc = .returned →
      Step s { s with pc := .select, pool := d.pool, heap := d.heap, cap := d.cap, nbuf := d.nbuf, past := s.past ++ [(caps, d.calls)] }

/-- The states of a `Run` (dump.go:52-67, any schedule). -/
inductive PdSys.Reach (period : Int) : PdSys → Prop
  | init : Reach period (PdSys.init period)
  | step {s s' : PdSys} : Reach period s → s.Step s' → Reach period s'

end Rothko
