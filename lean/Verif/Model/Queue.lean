import Verif.Model.Bytes
/-!
# The write queue: `Queue`, `worker` and `Run` (database/files/db_write.go:14-91, database/files/db.go:185-250, internal/junk/flag.go)

A transition system for any number of concurrent calls of `Queue` and `Run`. Each step is one channel operation, one pool operation, one load or store of the
current queue, one callback, or one call of `db.write`; steps of different goroutines interleave arbitrarily.

Simplifications: a `context.Context` may be cancelled at any moment, so the corresponding steps are always possible. What `db.write` does is the subject of the metric model;
here it only reads the buffer (its contents are recorded in `written`). The task of `Run` that populates the names does not touch the queue.
`sync.Pool` may drop what it holds at any moment, and `append` may allocate a new array: both are covered by `lose` and `getNew`. A receive from a closed, empty channel by a worker
(it would return a zero value), and closing a closed channel, set `bad`.
-/
namespace Rothko

/-- `queuedValue` (db.go:107-113): which call of `Queue` it comes from (this determines `metric`, `start`, `end` and `done`) and its buffer. -/
structure QVal where
  call : Nat
  buf : Nat
deriving DecidableEq, Repr

/-- A channel `chan queuedValue`. (db.go:78,142.) -/
structure QChan where
  items : List QVal
  closed : Bool
deriving DecidableEq, Repr

/-- A call of `Queue` (db_write.go:14-63). -/
inductive CPc
  | start
  | copied (buf : Nat)             -- line 20 done
  | loaded (buf q : Nat)           -- line 38 done, at the select
  | sent (q : Nat)                 -- handled, returned
  | failing (buf : Nat)            -- in the deferred function, not handled (line 29)
  | failed                         -- line 30 done
  | finished                       -- line 32 done, returned
deriving DecidableEq, Repr

/-- A worker (db_write.go:67-91). -/
inductive WPc
  | ready                          -- at the select
  | got (v : QVal)                 -- line 83 done
  | wrote (v : QVal)               -- line 84 done
  | put (v : QVal)                 -- line 85 done
  | exited
deriving DecidableEq, Repr

/-- A call of `Run` (db.go:185-250). -/
inductive RPc
  | idle
  | refused                        -- line 188
  | started                        -- line 187 done
  | running (q : Nat) (ws : List WPc)   -- line 193-230
  | closing (q : Nat)              -- line 233 done
  | stored (q : Nat)               -- line 236 done
  | draining (q : Nat) (cur : Option (QVal × Bool))  -- line 240 done; the value in hand and whether line 242 is done
  | stopping (q : Nat)             -- loop finished
  | returned (q : Nat)             -- the deferred Stop has run
deriving DecidableEq, Repr

/-- The whole system. `log` lists the calls whose callback was invoked, with `true` if it was given the result of `db.write` and `false` if it was given `(false, nil)`; `written` the bytes given to `db.write` for a call. (db.go:72-97.) -/
structure QSys where
  chans : List QChan
  current : Nat
  on : Bool
  calls : List CPc
  runs : List RPc
  pool : List Nat
  bufData : Nat → Bytes
  nextBuf : Nat
  log : List (Nat × Bool)
  written : List (Nat × Bytes)
  bad : Bool

/-- `New` (db.go:141-142), with `n` calls of `Queue` and `m` calls of `Run` to come. -/
def QSys.init (n m : Nat) : QSys :=
  { chans := [⟨[], false⟩], current := 0, on := false, calls := List.replicate n .start, runs := List.replicate m .idle,
    pool := [], bufData := fun _ => [], nextBuf := 0, log := [], written := [], bad := false }

/-- db_write.go:14-63: call `c` goes on. -/
def QSys.setCall (s : QSys) (c : Nat) (pc : CPc) : QSys := { s with calls := s.calls.set c pc }
/-- db.go:185-250: `Run` call `r` goes on. -/
def QSys.setRun (s : QSys) (r : Nat) (pc : RPc) : QSys := { s with runs := s.runs.set r pc }
/-- db_write.go:49,56,83, db.go:240-241: a channel operation. -/
def QSys.setChan (s : QSys) (q : Nat) (ch : QChan) : QSys := { s with chans := s.chans.set q ch }
/-- db_write.go:30,85, db.go:242: `bufs.Put`. -/
def QSys.putBuf (s : QSys) (b : Nat) : QSys := { s with pool := b :: s.pool }
/-- db_write.go:32,87, db.go:244: the callback is invoked. -/
def QSys.callback (s : QSys) (c : Nat) (result : Bool) : QSys := { s with log := (c, result) :: s.log }
/-- db_write.go:20: the data is copied to the buffer. -/
def QSys.fill (s : QSys) (b : Nat) (d : Bytes) : QSys := { s with bufData := fun x => if x = b then d else s.bufData x }

/-- `cap` is `Tuning.Buffer`, `drop` is `Tuning.Drop`, `workers` is `Tuning.Workers`, `data c` is the argument of call `c`. (db.go:47-68.) -/
structure QParams where
  cap : Nat
  drop : Bool
  workers : Nat
  data : Nat → Bytes

/-- One step of the system. (db_write.go:14-91, db.go:185-250.) -/
inductive QSys.Step (p : QParams) (s : QSys) : QSys → Prop
  /-- db_write.go:19-20: a pooled buffer, overwritten in place. -/
  | getOld (c b : Nat) : s.calls[c]? = some .start → b ∈ s.pool →
      Step p s (({ s with pool := s.pool.erase b }.fill b (p.data c)).setCall c (.copied b))
  /-- db_write.go:19-20: a new buffer (from `New`, or because `append` had to grow). -/
  | getNew (c : Nat) : s.calls[c]? = some .start →
      Step p s (({ s with nextBuf := s.nextBuf + 1 }.fill s.nextBuf (p.data c)).setCall c (.copied s.nextBuf))
  /-- The pool drops a buffer. -/
  | lose (b : Nat) : b ∈ s.pool → Step p s { s with pool := s.pool.erase b }
  /-- db_write.go:38. -/
  | load (c b : Nat) : s.calls[c]? = some (.copied b) → Step p s (s.setCall c (.loaded b s.current))
  /-- db_write.go:49,56: there is room in the channel. -/
  | send (c b q : Nat) (ch : QChan) : s.calls[c]? = some (.loaded b q) → s.chans[q]? = some ch → ch.closed = false → ch.items.length < p.cap →
      Step p s ((s.setChan q { ch with items := ch.items ++ [⟨c, b⟩] }).setCall c (.sent q))
  /-- db_write.go:49,56: a worker is waiting and takes the value directly. -/
  | handoff (c b q r w : Nat) (ws : List WPc) (ch : QChan) : s.calls[c]? = some (.loaded b q) → s.chans[q]? = some ch → ch.closed = false → ch.items = [] →
      s.runs[r]? = some (.running q ws) → ws[w]? = some .ready →
      Step p s ((s.setRun r (.running q (ws.set w (.got ⟨c, b⟩)))).setCall c (.sent q))
  /-- A send on a closed channel panics; recovered at db_write.go:28. -/
  | sendClosed (c b q : Nat) (ch : QChan) : s.calls[c]? = some (.loaded b q) → s.chans[q]? = some ch → ch.closed = true → Step p s (s.setCall c (.failing b))
  /-- db_write.go:51,58: the context is done. -/
  | cancel (c b q : Nat) : s.calls[c]? = some (.loaded b q) → Step p s (s.setCall c (.failing b))
  /-- db_write.go:52. -/
  | dropped (c b q : Nat) : p.drop = true → s.calls[c]? = some (.loaded b q) → Step p s (s.setCall c (.failing b))
  /-- db_write.go:30. -/
  | failPut (c b : Nat) : s.calls[c]? = some (.failing b) → Step p s ((s.putBuf b).setCall c .failed)
  /-- db_write.go:31-33. -/
  | failDone (c : Nat) : s.calls[c]? = some .failed → Step p s ((s.callback c false).setCall c .finished)
  /-- db.go:187, flag.go:16-25. -/
  | runStart (r : Nat) : s.runs[r]? = some .idle → s.on = false → Step p s ({ s with on := true }.setRun r .started)
  | runRefused (r : Nat) : s.runs[r]? = some .idle → s.on = true → Step p s (s.setRun r .refused)
  /-- db.go:193-230. -/
  | runLoad (r : Nat) : s.runs[r]? = some .started → Step p s (s.setRun r (.running s.current (List.replicate p.workers .ready)))
  /-- db_write.go:83. -/
  | recv (r q w : Nat) (ws : List WPc) (v : QVal) (rest : List QVal) (closed : Bool) : s.runs[r]? = some (.running q ws) → ws[w]? = some .ready →
      s.chans[q]? = some ⟨v :: rest, closed⟩ → Step p s ((s.setChan q ⟨rest, closed⟩).setRun r (.running q (ws.set w (.got v))))
  | recvClosed (r q w : Nat) (ws : List WPc) : s.runs[r]? = some (.running q ws) → ws[w]? = some .ready → s.chans[q]? = some ⟨[], true⟩ → Step p s { s with bad := true }
  /-- db_write.go:84. -/
  | write (r q w : Nat) (ws : List WPc) (v : QVal) : s.runs[r]? = some (.running q ws) → ws[w]? = some (.got v) →
      Step p s ({ s with written := (v.call, s.bufData v.buf) :: s.written }.setRun r (.running q (ws.set w (.wrote v))))
  /-- db_write.go:85. -/
  | workerPut (r q w : Nat) (ws : List WPc) (v : QVal) : s.runs[r]? = some (.running q ws) → ws[w]? = some (.wrote v) →
      Step p s ((s.putBuf v.buf).setRun r (.running q (ws.set w (.put v))))
  /-- db_write.go:86-88. -/
  | workerDone (r q w : Nat) (ws : List WPc) (v : QVal) : s.runs[r]? = some (.running q ws) → ws[w]? = some (.put v) →
      Step p s ((s.callback v.call true).setRun r (.running q (ws.set w .ready)))
  /-- db_write.go:80-81. -/
  | workerExit (r q w : Nat) (ws : List WPc) : s.runs[r]? = some (.running q ws) → ws[w]? = some .ready →
      Step p s (s.setRun r (.running q (ws.set w .exited)))
  /-- db.go:230: `launcher.Run` returns when every task has returned. -/
  | launched (r q : Nat) (ws : List WPc) : s.runs[r]? = some (.running q ws) → (∀ w ∈ ws, w = .exited) → Step p s (s.setRun r (.closing q))
  /-- db.go:236. -/
  | store (r q : Nat) : s.runs[r]? = some (.closing q) →
      Step p s (({ s with chans := s.chans ++ [(⟨[], false⟩ : QChan)], current := s.chans.length } : QSys).setRun r (.stored q))
  /-- db.go:240. -/
  | close (r q : Nat) (ch : QChan) : s.runs[r]? = some (.stored q) → s.chans[q]? = some ch → ch.closed = false →
      Step p s ((s.setChan q { ch with closed := true }).setRun r (.draining q none))
  | closeClosed (r q : Nat) (ch : QChan) : s.runs[r]? = some (.stored q) → s.chans[q]? = some ch → ch.closed = true → Step p s { s with bad := true }
  /-- db.go:241. -/
  | drainRecv (r q : Nat) (v : QVal) (rest : List QVal) (closed : Bool) : s.runs[r]? = some (.draining q none) → s.chans[q]? = some ⟨v :: rest, closed⟩ →
      Step p s ((s.setChan q ⟨rest, closed⟩).setRun r (.draining q (some (v, false))))
  /-- db.go:242. -/
  | drainPut (r q : Nat) (v : QVal) : s.runs[r]? = some (.draining q (some (v, false))) → Step p s ((s.putBuf v.buf).setRun r (.draining q (some (v, true))))
  /-- db.go:243-245. -/
  | drainDone (r q : Nat) (v : QVal) : s.runs[r]? = some (.draining q (some (v, true))) → Step p s ((s.callback v.call false).setRun r (.draining q none))
  /-- db.go:246: the channel is closed and empty. -/
  | drainEnd (r q : Nat) : s.runs[r]? = some (.draining q none) → s.chans[q]? = some ⟨[], true⟩ → Step p s (s.setRun r (.stopping q))
  /-- db.go:190,249, flag.go:27-32. -/
  | stop (r q : Nat) : s.runs[r]? = some (.stopping q) → Step p s ({ s with on := false }.setRun r (.returned q))

/-- The states that can arise. (db_write.go:14-91, db.go:185-250, any schedule.) -/
inductive QSys.Reach (p : QParams) (n m : Nat) : QSys → Prop
  | init : Reach p n m (QSys.init n m)
  | step {s s' : QSys} : Reach p n m s → s.Step p s' → Reach p n m s'

end Rothko
