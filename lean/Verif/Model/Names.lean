import Verif.Model.SSet
/-!
# The cache of metric names (database/files/db_read.go:52-139, database/files/db_write.go:95-135)

A transition system for any number of writes, `Metrics` calls and `PopulateMetrics` calls. Sets live in a heap, because the code passes pointers around.
Each step is one access to shared state or one critical section: the sections under `names_w_mu[i]` are single steps (they are protected from each other by that mutex),
`names_mu` is explicit (`mu`).

Simplifications: the data file of a metric appears (`create`) at any time before, or when, a value is written (`write`); both put the name on `disk`. The scan of `PopulateMetrics` takes time: its result is any set
that has all the names on disk when it began and only names on disk when it ends (C114_names, from the system calls of the scan). Unlocking `names_mu` is one step with the store before it.
-/
namespace Rothko

/-- A write of a value (db_write.go:95-135), by worker `i` to metric `x`. -/
inductive NwPc
  | idle
  | wrote (i : Nat) (x : Bytes)       -- line 109 done, ok
  | adding (i : Nat) (x : Bytes)      -- line 126 with should_store
  | acked (x : Bytes)                 -- returned true
deriving DecidableEq

/-- A call of `Metrics` (db_read.go:53-120). `a0` is what `acked` was when it began (not part of the program). -/
inductive MtPc
  | start
  | loop (a0 : List Bytes) (i ptr : Nat) (copied : Bool)        -- line 65, `locked` is equal to `copied` here
  | have_ (a0 : List Bytes) (i ptr : Nat) (copied : Bool) (p : Nat)  -- names_w loaded
  | wantMu (a0 : List Bytes) (i ptr p : Nat)                    -- line 76, not locked
  | wantW (a0 : List Bytes) (i ptr : Nat) (copied : Bool) (p : Nat)  -- line 83, mutex held
  | done (a0 : List Bytes) (out : List Bytes)

/-- A call of `PopulateMetrics` (db_read.go:124-139). `base` is what was on disk when it began. -/
inductive PpPc
  | start
  | scan (base : List Bytes)
  | done (ok : Bool)   -- with or without a new set of names

/-- db.go:85-93: the sets of names, by address, and the goroutines. `acked` is not part of the program: the names that a write was acknowledged for or that a `PopulateMetrics` that ended has found. -/
structure NSys where
  heap : Nat → SSet
  next : Nat
  names : Option Nat
  namesW : List Nat
  mu : Bool
  disk : List Bytes
  acked : List Bytes
  writers : List NwPc
  mets : List MtPc
  pops : List PpPc

/-- `New` (db.go:144-147), with writes and calls to come. `disk` is what is stored already. -/
def NSys.init (workers : Nat) (disk : List Bytes) (nw nm np : Nat) : NSys :=
  { heap := fun _ => .new, next := workers, names := none, namesW := List.range workers, mu := false, disk := disk, acked := [],
    writers := List.replicate nw .idle, mets := List.replicate nm .start, pops := List.replicate np .start }

/-- db_read.go:97,100, db_write.go:129: assignment to the set at `p`. -/
def NSys.put (s : NSys) (p : Nat) (v : SSet) : NSys := { s with heap := fun q => if q = p then v else s.heap q }
/-- db_write.go:95-135: the writer goes on. -/
def NSys.setW (s : NSys) (k : Nat) (pc : NwPc) : NSys := { s with writers := s.writers.set k pc }
/-- db_read.go:53-120: the call goes on. -/
def NSys.setM (s : NSys) (k : Nat) (pc : MtPc) : NSys := { s with mets := s.mets.set k pc }
/-- db_read.go:124-139: the call goes on. -/
def NSys.setP (s : NSys) (k : Nat) (pc : PpPc) : NSys := { s with pops := s.pops.set k pc }
/-- db_write.go:134, the write is acknowledged. -/
def NSys.ack (s : NSys) (x : Bytes) : NSys := { s with acked := x :: s.acked }

/-- db_read.go:53-120: the call is in progress. -/
def MtPc.busy : MtPc → Bool
  | .start => false
  | .done _ _ => false
  | _ => true

/-- db_read.go:124-139: the call is in progress. -/
def PpPc.busy : PpPc → Bool
  | .scan _ => true
  | _ => false

/-- No `Metrics` or `PopulateMetrics` call is in progress. (db_read.go:53-139.) -/
def NSys.quiet (s : NSys) : Prop := (∀ pc ∈ s.mets, pc.busy = false) ∧ ∀ pc ∈ s.pops, pc.busy = false

/-- The names set published, if there is one (db_read.go:57-60, db_write.go:117-125). -/
def NSys.published (s : NSys) (x : Bytes) : Bool :=
  match s.names with
  | none => false
  | some p => (s.heap p).has x

/-- The body of the loop in `Metrics` under both mutexes (db_read.go:83-101): the set to merge into. -/
def NSys.target (s : NSys) (ptr : Nat) (copied : Bool) : NSys × Nat :=
  if copied then (s, ptr)
  else match s.names with
    | some q => if (s.heap q).len > 0 then ({ s.put s.next (s.heap q).copy with next := s.next + 1 }, s.next) else (s, ptr)
    | none => (s, ptr)

/-- One step. If `excl` is set, calls of `Metrics` and `PopulateMetrics` do not overlap. (db_read.go:53-139, db_write.go:95-135.) -/
inductive NSys.Step (excl : Bool) (s : NSys) : NSys → Prop
  /-- db_write.go:103, file.go:60-130: the first data file of a metric appears, before anything is written to it. -/
  | create (x : Bytes) : Step excl s { s with disk := x :: s.disk }
  /-- db_write.go:99-109. -/
  | write (k i : Nat) (x : Bytes) : s.writers[k]? = some .idle → i < s.namesW.length → Step excl s (({ s with disk := x :: s.disk } : NSys).setW k (.wrote i x))
  /-- db_write.go:117-125: present already. -/
  | known (k i : Nat) (x : Bytes) : s.writers[k]? = some (.wrote i x) → s.published x = true → Step excl s ((s.ack x).setW k (.acked x))
  | unknown (k i : Nat) (x : Bytes) : s.writers[k]? = some (.wrote i x) → s.published x = false → Step excl s (s.setW k (.adding i x))
  /-- db_write.go:127-131. -/
  | add (k i p : Nat) (x : Bytes) : s.writers[k]? = some (.adding i x) → s.namesW[i]? = some p →
      Step excl s (((s.put p ((s.heap p).add x)).ack x).setW k (.acked x))
  /-- db_read.go:57-60. -/
  | begin (k q : Nat) : (excl = true → s.quiet) → s.mets[k]? = some .start → s.names = some q → Step excl s (s.setM k (.loop s.acked 0 q false))
  | beginNew (k : Nat) : (excl = true → s.quiet) → s.mets[k]? = some .start → s.names = none →
      Step excl s (({ s.put s.next .new with next := s.next + 1 } : NSys).setM k (.loop s.acked 0 s.next false))
  /-- db_read.go:65. -/
  | range (k i ptr p : Nat) (a0 : List Bytes) (copied : Bool) : s.mets[k]? = some (.loop a0 i ptr copied) → s.namesW[i]? = some p →
      Step excl s (s.setM k (.have_ a0 i ptr copied p))
  /-- db_read.go:66-73. -/
  | skip (k i ptr p : Nat) (a0 : List Bytes) (copied : Bool) : s.mets[k]? = some (.have_ a0 i ptr copied p) → (s.heap p).len = 0 →
      Step excl s (s.setM k (.loop a0 (i + 1) ptr copied))
  | need (k i ptr p : Nat) (a0 : List Bytes) : s.mets[k]? = some (.have_ a0 i ptr false p) → (s.heap p).len ≠ 0 →
      Step excl s (s.setM k (.wantMu a0 i ptr p))
  | needLocked (k i ptr p : Nat) (a0 : List Bytes) : s.mets[k]? = some (.have_ a0 i ptr true p) → (s.heap p).len ≠ 0 →
      Step excl s (s.setM k (.wantW a0 i ptr true p))
  /-- db_read.go:76-79. -/
  | lock (k i ptr p : Nat) (a0 : List Bytes) : s.mets[k]? = some (.wantMu a0 i ptr p) → s.mu = false →
      Step excl s (({ s with mu := true } : NSys).setM k (.wantW a0 i ptr false p))
  /-- db_read.go:83-101. -/
  | merge (k i ptr p : Nat) (a0 : List Bytes) (copied : Bool) (s1 : NSys) (t : Nat) : s.mets[k]? = some (.wantW a0 i ptr copied p) → s.target ptr copied = (s1, t) →
      Step excl s (({ (s1.put t ((s1.heap t).merge (s1.heap p))).put s1.next .new with next := s1.next + 1, namesW := s1.namesW.set i s1.next } : NSys).setM k (.loop a0 (i + 1) t true))
  /-- db_read.go:105-119: with every worker's set considered. -/
  | finish (k ptr : Nat) (i : Nat) (a0 : List Bytes) : s.mets[k]? = some (.loop a0 i ptr true) → s.namesW.length ≤ i →
      Step excl s (({ s with names := some ptr, mu := false } : NSys).setM k (.done a0 (s.heap ptr).order))
  | finishClean (k ptr : Nat) (i : Nat) (a0 : List Bytes) : s.mets[k]? = some (.loop a0 i ptr false) → s.namesW.length ≤ i →
      Step excl s (s.setM k (.done a0 (s.heap ptr).order))
  /-- db_read.go:125-126. -/
  | scan (k : Nat) : (excl = true → s.quiet) → s.pops[k]? = some .start → Step excl s (s.setP k (.scan s.disk))
  /-- db_read.go:126-131: cancelled or failed. -/
  | giveUp (k : Nat) (base : List Bytes) : s.pops[k]? = some (.scan base) → Step excl s (s.setP k (.done false))
  /-- db_read.go:134-136. `els` are the names found. -/
  | publish (k : Nat) (base els : List Bytes) : s.pops[k]? = some (.scan base) → s.mu = false → (∀ x ∈ base, x ∈ els) → (∀ x ∈ els, x ∈ s.disk) →
      Step excl s (({ s.put s.next (els.foldl SSet.add .new) with next := s.next + 1, names := some s.next, acked := els ++ s.acked } : NSys).setP k (.done true))

/-- db_read.go:53-139, db_write.go:95-135, any schedule. -/
inductive NSys.Reach (excl : Bool) (workers : Nat) (disk : List Bytes) (nw nm np : Nat) : NSys → Prop
  | init : Reach excl workers disk nw nm np (NSys.init workers disk nw nm np)
  | step {s s' : NSys} : Reach excl workers disk nw nm np s → s.Step excl s' → Reach excl workers disk nw nm np s'

end Rothko
