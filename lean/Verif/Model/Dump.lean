/-
Dumper.Dump: /repo/dump/dump.go:69-159.

One call of Dump, the callbacks `complete` (run by whoever the database chooses, at any time after Queue was called) and cancellation, in any interleaving.

The database is anything that keeps the contract of database/types.go:10-20: a call of Queue that returns an error does not invoke the callback, any other call invokes it at most once,
possibly before it returns. (The files database does so: C31.) MarshalTo of a record never fails and fills exactly Size bytes (data/record.pb.go, generated; C06), so the branch at
dump.go:97-102 is left out; so are logging and the reported metrics. Get, marshal, wg.Add and the start of Queue are one step: the other goroutines only add to the pool and to the counters meanwhile.
-/
import Verif.Model.Bytes

namespace Rothko

/-- What happened to a call of DB.Queue. (dump.go:106-136.) -/
inductive DAns
  | waiting                             -- the callback was not invoked yet
  | reported (written : Bool) (err : Bool)   -- the callback was invoked with this result
  | refused                             -- Queue returned an error
deriving DecidableEq, Repr

/-- A record that Capture hands to the callback: metric, start, end and the marshalled bytes of the record. (dump.go:79-80,96,127-131.) -/
structure DRecd where
  metric : Bytes
  start : Int
  fin : Int
  bytes : Bytes
deriving DecidableEq, Repr

/-- A call of DB.Queue (dump.go:127-133): its arguments, the buffer that holds the data, and what became of it. -/
structure DReq where
  arg : DRecd
  buf : Nat
  ans : DAns
deriving DecidableEq, Repr

/-- Where the goroutine that runs Dump is. (dump.go:79-144.) -/
inductive DPc
  | capturing                 -- between two calls of the callback of Capture (dump.go:79)
  | queueing (i : Nat)        -- inside DB.Queue for request i (dump.go:127)
  | waiting                   -- wg.Wait (dump.go:144)
  | returned
deriving DecidableEq, Repr

/-- A running call of Dump. (dump.go:71-80.) -/
structure DSys where
  todo : List DRecd           -- what Capture has still to hand out
  cancelled : Bool
  pc : DPc
  calls : List DReq           -- the calls of DB.Queue, in order
  wg : Nat                    -- the counter of the wait group
  writes : Nat
  skips : Nat
  errors : Nat
  pool : List Nat             -- d.bufs
  heap : Nat → Bytes          -- the contents of the buffers
  cap : Nat → Nat             -- their capacities
  nbuf : Nat                  -- buffers allocated so far
  bad : Bool                  -- wg.Done below zero: panic

/-- dump.go:72-77. The pool is left from earlier dumps. -/
def DSys.init (caps : List DRecd) (pool : List Nat) (heap : Nat → Bytes) (cap : Nat → Nat) (nbuf : Nat) : DSys :=
  { todo := caps, cancelled := false, pc := .capturing, calls := [], wg := 0, writes := 0, skips := 0, errors := 0, pool := pool, heap := heap, cap := cap, nbuf := nbuf, bad := false }

/-- dump.go:96-127: marshal into buffer `b`, wg.Add(1), call Queue. -/
def DSys.issue (s : DSys) (r : DRecd) (rest : List DRecd) (b : Nat) : DSys :=
  { s with
    todo := rest
    heap := fun x => if x = b then r.bytes else s.heap x
    wg := s.wg + 1
    pc := .queueing s.calls.length
    calls := s.calls ++ [{ arg := r, buf := b, ans := .waiting }] }

/-- dump.go:106-126, complete(written, err) for request `i`. -/
def DSys.complete (s : DSys) (i : Nat) (r : DReq) (a : DAns) (written err : Bool) : DSys :=
  { s with
    calls := s.calls.set i { r with ans := a }
    writes := if written then s.writes + 1 else s.writes
    skips := if written then s.skips else s.skips + 1
    errors := if err then s.errors + 1 else s.errors
    pool := r.buf :: s.pool
    wg := s.wg - 1
    bad := s.bad || s.wg == 0 }

/-- One step. (dump.go:71-159.) -/
inductive DSys.Step (s : DSys) : DSys → Prop
  /-- The context is cancelled. -/
  | cancel : s.cancelled = false → Step s { s with cancelled := true }
  /-- dump.go:83-85: cancelled, the record in hand and the rest of the capture are dropped. -/
  | stop (r : DRecd) (rest : List DRecd) : s.pc = .capturing → s.todo = r :: rest → s.cancelled = true → Step s { s with todo := [], pc := .waiting }
  /-- Capture has no more records. -/
  | finish : s.pc = .capturing → s.todo = [] → Step s { s with pc := .waiting }
  /-- dump.go:90-94: a pooled buffer that is large enough. -/
  | reuse (r : DRecd) (rest : List DRecd) (b : Nat) : s.pc = .capturing → s.todo = r :: rest → s.cancelled = false → b ∈ s.pool → r.bytes.length ≤ s.cap b →
      Step s ({ s with pool := s.pool.erase b }.issue r rest b)
  /-- dump.go:90-92: a pooled buffer that is too small is replaced. -/
  | grow (r : DRecd) (rest : List DRecd) (b : Nat) : s.pc = .capturing → s.todo = r :: rest → s.cancelled = false → b ∈ s.pool → s.cap b < r.bytes.length →
      Step s ({ s with pool := s.pool.erase b, cap := fun x => if x = s.nbuf then r.bytes.length else s.cap x, nbuf := s.nbuf + 1 }.issue r rest s.nbuf)
  /-- dump.go:44-46,90-92: a new buffer of capacity `c` (Bufsize, or the size of the record if that is more). -/
  | fresh (r : DRecd) (rest : List DRecd) (c : Nat) : s.pc = .capturing → s.todo = r :: rest → s.cancelled = false → r.bytes.length ≤ c →
      Step s ({ s with cap := fun x => if x = s.nbuf then c else s.cap x, nbuf := s.nbuf + 1 }.issue r rest s.nbuf)
  /-- sync.Pool drops a buffer. -/
  | lose (b : Nat) : b ∈ s.pool → Step s { s with pool := s.pool.erase b }
  /-- The database invokes the callback. -/
  | report (i : Nat) (r : DReq) (written err : Bool) : s.calls[i]? = some r → r.ans = .waiting → Step s (s.complete i r (.reported written err) written err)
  /-- Queue returns nil (dump.go:134,138). -/
  | queued (i : Nat) : s.pc = .queueing i → Step s { s with pc := .capturing }
  /-- Queue returns an error (dump.go:134-136). -/
  | refuse (i : Nat) (r : DReq) : s.pc = .queueing i → s.calls[i]? = some r → r.ans = .waiting → Step s { s.complete i r .refused false true with pc := .capturing }
  /-- dump.go:144: the wait group is at zero. -/
  | wait : s.pc = .waiting → s.wg = 0 → Step s { s with pc := .returned }

/-- The states of a Dump of the captured records `caps`. (dump.go:71-159, any schedule.) -/
inductive DSys.Reach (caps : List DRecd) (pool : List Nat) (heap : Nat → Bytes) (cap : Nat → Nat) (nbuf : Nat) : DSys → Prop
  | init : Reach caps pool heap cap nbuf (DSys.init caps pool heap cap nbuf)
  | step {s s' : DSys} : Reach caps pool heap cap nbuf s → s.Step s' → Reach caps pool heap cap nbuf s'

end Rothko
