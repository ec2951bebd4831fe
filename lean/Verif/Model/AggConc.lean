import Verif.Model.Agg
/-!
# Aggregation under concurrency (data/agg.go, data/writer.go)

The steps are: one critical section of `Observe`, one atomic operation on the page pointer, one operation on the `sync.Map`, the critical section of `Finish`, its reads of the distribution.
-/
namespace Rothko

/-! ## Calls to `Observe` of one agg -/

/-- Where a call to `Observe` (agg.go:34-78) is. `gone`: it returned at line 43. -/
inductive ObsPc
  | start
  | mid (m : ObsMid)
  | done
  | gone
deriving DecidableEq, Repr

/-- An agg and the calls to `Observe`. (agg.go:13-18,34.) -/
structure ObsSys where
  agg : Agg
  calls : List (Obs × ObsPc)

/-- One step of one call. A call waits while the mutex was left locked. (agg.go:34-78.) -/
inductive ObsSys.Step (d : DistParams) : ObsSys → ObsSys → Prop
  /-- Lines 35-57. -/
  | first {s : ObsSys} {i : Nat} {o : Obs} {a : Agg} {m : ObsMid} : s.calls[i]? = some (o, .start) → s.agg.locked = false → s.agg.observe1 d o = (a, some m) →
      Step d s ⟨a, s.calls.set i (o, if m.need o then .mid m else .done)⟩
  /-- Lines 35-43: `params.New` fails. -/
  | fail {s : ObsSys} {i : Nat} {o : Obs} {a : Agg} : s.calls[i]? = some (o, .start) → s.agg.locked = false → s.agg.observe1 d o = (a, none) →
      Step d s ⟨a, s.calls.set i (o, .gone)⟩
  /-- Lines 67-76. -/
  | second {s : ObsSys} {i : Nat} {o : Obs} {m : ObsMid} : s.calls[i]? = some (o, .mid m) → s.agg.locked = false →
      Step d s ⟨s.agg.observe2 o m, s.calls.set i (o, .done)⟩

/-- Any number of steps. (agg.go:34-78, any schedule.) -/
inductive ObsSys.Reach (d : DistParams) (s₀ : ObsSys) : ObsSys → Prop
  | refl : Reach d s₀ s₀
  | step {s t : ObsSys} : Reach d s₀ s → ObsSys.Step d s t → Reach d s₀ t

/-- Calls for `os` about to start on the agg. (agg.go:34.) -/
def ObsSys.init (a : Agg) (os : List Obs) : ObsSys := ⟨a, os.map (fun o => (o, .start))⟩

/-- All calls have returned. (agg.go:78.) -/
def ObsSys.Done (s : ObsSys) : Prop := ∀ c ∈ s.calls, c.2 = .done

/-! ## Calls to a writer -/

/-- `page` (writer.go:18-21): the map has references to aggs (indices of `WSys.aggs`). -/
structure CPage where
  now : Int64
  m : List (Bytes × Nat) := []

/-- `p.m.Load` (writer.go:78). -/
def CPage.load (p : CPage) (metric : Bytes) : Option Nat := (p.m.find? (fun e => e.1 == metric)).map (·.2)

/-- A record given to a callback by `Capture` (`cap`) or `Iterate`. `page` is the page it came from; the code does not have it. (writer.go:118,141.) -/
structure Report where
  cap : Bool
  page : Nat
  metric : Bytes
  rec_ : DRec
  vals : List Obs

/-- Where a call is. (writer.go:47-143, agg.go:34-93.) -/
inductive WrPc
  /-- `Add` before the pointer is loaded (writer.go:58). -/
  | add0 (metric : Bytes) (o : Obs)
  /-- Before the compare and swap (line 66). -/
  | add1 (metric : Bytes) (o : Obs) (now : Int64)
  /-- Before `Load` (line 78). -/
  | add2 (metric : Bytes) (o : Obs) (p : Nat)
  /-- Before `LoadOrStore` (line 82). -/
  | add3 (metric : Bytes) (o : Obs) (p : Nat)
  /-- Before `Observe` (line 86). -/
  | add4 (o : Obs) (a : Nat)
  /-- Between the critical sections of `Observe`. -/
  | add5 (o : Obs) (a : Nat) (m : ObsMid)
  /-- `Capture` before the pointer is loaded (line 98). -/
  | cap0
  /-- Before the compare and swap (line 109). -/
  | cap1 (p : Nat) (now : Int64)
  /-- `Iterate` before the pointer is loaded (line 129). -/
  | it0
  /-- Before `Range` (lines 115, 138). -/
  | range0 (cap : Bool) (p : Nat) (now : Int64)
  /-- In `Range`: `must` are the keys in the map when it began, `seen` the keys visited. -/
  | range (cap : Bool) (p : Nat) (now : Int64) (must seen : List Bytes)
  /-- Before the critical section of `Finish` (agg.go:83). -/
  | fin1 (cap : Bool) (p : Nat) (now : Int64) (must seen : List Bytes) (metric : Bytes) (a : Nat)
  /-- Before the reads of the distribution (agg.go:88-89). -/
  | fin2 (cap : Bool) (p : Nat) (now : Int64) (must seen : List Bytes) (metric : Bytes) (a : Nat) (r : DRec)
  | done
  | panic

/-- A writer, and the calls. `out`: the records given to callbacks. (writer.go:18-34.) -/
structure WSys where
  page : Option Nat := none
  pages : List CPage := []
  aggs : List Agg := []
  out : List Report := []
  th : List WrPc

/-- One step of one call. `stop`: callbacks may return false. (writer.go:47-143, agg.go:34-93.) -/
inductive WSys.Step (d : DistParams) (stop : Bool) : WSys → WSys → Prop
  /-- writer.go:51-53. -/
  | skip {s : WSys} {i : Nat} {k : Bytes} {o : Obs} : s.th[i]? = some (.add0 k o) → fFinite o.val = false → Step d stop s { s with th := s.th.set i .done }
  /-- Lines 58-60. -/
  | load {s : WSys} {i : Nat} {k : Bytes} {o : Obs} {p : Nat} : s.th[i]? = some (.add0 k o) → fFinite o.val = true → s.page = some p →
      Step d stop s { s with th := s.th.set i (.add2 k o p) }
  /-- Lines 58-65. -/
  | loadNil {s : WSys} {i : Nat} {k : Bytes} {o : Obs} {now : Int64} : s.th[i]? = some (.add0 k o) → fFinite o.val = true → s.page = none →
      Step d stop s { s with th := s.th.set i (.add1 k o now) }
  /-- Line 66, success. -/
  | cas {s : WSys} {i : Nat} {k : Bytes} {o : Obs} {now : Int64} : s.th[i]? = some (.add1 k o now) → s.page = none →
      Step d stop s { s with page := some s.pages.length, pages := s.pages ++ [{ now := now }], th := s.th.set i (.add2 k o s.pages.length) }
  /-- Line 66, failure: again. -/
  | casFail {s : WSys} {i : Nat} {k : Bytes} {o : Obs} {now : Int64} {p : Nat} : s.th[i]? = some (.add1 k o now) → s.page = some p →
      Step d stop s { s with th := s.th.set i (.add0 k o) }
  /-- Line 78, found. -/
  | hit {s : WSys} {i : Nat} {k : Bytes} {o : Obs} {p a : Nat} {pg : CPage} : s.th[i]? = some (.add2 k o p) → s.pages[p]? = some pg → pg.load k = some a →
      Step d stop s { s with th := s.th.set i (.add4 o a) }
  /-- Line 78, not found. -/
  | miss {s : WSys} {i : Nat} {k : Bytes} {o : Obs} {p : Nat} {pg : CPage} : s.th[i]? = some (.add2 k o p) → s.pages[p]? = some pg → pg.load k = none →
      Step d stop s { s with th := s.th.set i (.add3 k o p) }
  /-- Line 82, found. -/
  | hit2 {s : WSys} {i : Nat} {k : Bytes} {o : Obs} {p a : Nat} {pg : CPage} : s.th[i]? = some (.add3 k o p) → s.pages[p]? = some pg → pg.load k = some a →
      Step d stop s { s with th := s.th.set i (.add4 o a) }
  /-- Line 82, stored. -/
  | store {s : WSys} {i : Nat} {k : Bytes} {o : Obs} {p : Nat} {pg : CPage} : s.th[i]? = some (.add3 k o p) → s.pages[p]? = some pg → pg.load k = none →
      Step d stop s { s with aggs := s.aggs ++ [newAgg pg.now], pages := s.pages.set p { pg with m := pg.m ++ [(k, s.aggs.length)] }, th := s.th.set i (.add4 o s.aggs.length) }
  /-- agg.go:35-57. -/
  | obs1 {s : WSys} {i : Nat} {o : Obs} {a : Nat} {ag ag' : Agg} {m : ObsMid} : s.th[i]? = some (.add4 o a) → s.aggs[a]? = some ag → ag.locked = false → ag.observe1 d o = (ag', some m) →
      Step d stop s { s with aggs := s.aggs.set a ag', th := s.th.set i (if m.need o then .add5 o a m else .done) }
  /-- agg.go:35-43. -/
  | obsFail {s : WSys} {i : Nat} {o : Obs} {a : Nat} {ag ag' : Agg} : s.th[i]? = some (.add4 o a) → s.aggs[a]? = some ag → ag.locked = false → ag.observe1 d o = (ag', none) →
      Step d stop s { s with aggs := s.aggs.set a ag', th := s.th.set i .done }
  /-- agg.go:67-76. -/
  | obs2 {s : WSys} {i : Nat} {o : Obs} {a : Nat} {m : ObsMid} {ag : Agg} : s.th[i]? = some (.add5 o a m) → s.aggs[a]? = some ag → ag.locked = false →
      Step d stop s { s with aggs := s.aggs.set a (ag.observe2 o m), th := s.th.set i .done }
  /-- writer.go:98-101. -/
  | capNil {s : WSys} {i : Nat} : s.th[i]? = some .cap0 → s.page = none → Step d stop s { s with th := s.th.set i .done }
  /-- Lines 98-103. -/
  | capLoad {s : WSys} {i : Nat} {p : Nat} {now : Int64} : s.th[i]? = some .cap0 → s.page = some p → Step d stop s { s with th := s.th.set i (.cap1 p now) }
  /-- Lines 108-109, success. -/
  | capCas {s : WSys} {i : Nat} {p : Nat} {now : Int64} : s.th[i]? = some (.cap1 p now) → s.page = some p →
      Step d stop s { s with page := some s.pages.length, pages := s.pages ++ [{ now := now }], th := s.th.set i (.range0 true p now) }
  /-- Lines 109-111, failure. -/
  | capFail {s : WSys} {i : Nat} {p : Nat} {now : Int64} : s.th[i]? = some (.cap1 p now) → s.page ≠ some p → Step d stop s { s with th := s.th.set i .done }
  /-- Lines 129-132. -/
  | itNil {s : WSys} {i : Nat} : s.th[i]? = some .it0 → s.page = none → Step d stop s { s with th := s.th.set i .done }
  /-- Lines 129-134. -/
  | itLoad {s : WSys} {i : Nat} {p : Nat} {now : Int64} : s.th[i]? = some .it0 → s.page = some p → Step d stop s { s with th := s.th.set i (.range0 false p now) }
  /-- `Range` begins (lines 115, 138). -/
  | begin {s : WSys} {i : Nat} {cap : Bool} {p : Nat} {now : Int64} {pg : CPage} : s.th[i]? = some (.range0 cap p now) → s.pages[p]? = some pg →
      Step d stop s { s with th := s.th.set i (.range cap p now (pg.m.map (·.1)) []) }
  /-- `Range` visits a key of the map it did not visit before. -/
  | visit {s : WSys} {i : Nat} {cap : Bool} {p : Nat} {now : Int64} {must seen : List Bytes} {pg : CPage} {k : Bytes} {a : Nat} :
      s.th[i]? = some (.range cap p now must seen) → s.pages[p]? = some pg → (k, a) ∈ pg.m → k ∉ seen → Step d stop s { s with th := s.th.set i (.fin1 cap p now must (k :: seen) k a) }
  /-- `Range` is over when it visited at least the keys that were in the map when it began. -/
  | finish {s : WSys} {i : Nat} {cap : Bool} {p : Nat} {now : Int64} {must seen : List Bytes} : s.th[i]? = some (.range cap p now must seen) → (∀ k ∈ must, k ∈ seen) →
      Step d stop s { s with th := s.th.set i .done }
  /-- agg.go:83-87. -/
  | copy {s : WSys} {i : Nat} {cap : Bool} {p : Nat} {now : Int64} {must seen : List Bytes} {k : Bytes} {a : Nat} {ag : Agg} :
      s.th[i]? = some (.fin1 cap p now must seen k a) → s.aggs[a]? = some ag → ag.locked = false →
      Step d stop s { s with th := s.th.set i (.fin2 cap p now must seen k a { ag.rec_ with endTime := now }) }
  /-- agg.go:88: a method call on a nil interface. -/
  | crash {s : WSys} {i : Nat} {cap : Bool} {p : Nat} {now : Int64} {must seen : List Bytes} {k : Bytes} {a : Nat} {r : DRec} {ag : Agg} :
      s.th[i]? = some (.fin2 cap p now must seen k a r) → s.aggs[a]? = some ag → ag.dist = none → Step d stop s { s with th := s.th.set i .panic }
  /-- agg.go:88-92, and the callback (writer.go:118) returns true. -/
  | report {s : WSys} {i : Nat} {cap : Bool} {p : Nat} {now : Int64} {must seen : List Bytes} {k : Bytes} {a : Nat} {r : DRec} {ag : Agg} {l : List Obs} :
      s.th[i]? = some (.fin2 cap p now must seen k a r) → s.aggs[a]? = some ag → ag.dist = some l →
      Step d stop s { s with out := s.out ++ [⟨cap, p, k, { r with kind := d.kind, distribution := d.marshal l }, l⟩], th := s.th.set i (.range cap p now must seen) }
  /-- The same, and the callback returns false: `Range` is over. -/
  | reportStop {s : WSys} {i : Nat} {cap : Bool} {p : Nat} {now : Int64} {must seen : List Bytes} {k : Bytes} {a : Nat} {r : DRec} {ag : Agg} {l : List Obs} :
      stop = true → s.th[i]? = some (.fin2 cap p now must seen k a r) → s.aggs[a]? = some ag → ag.dist = some l →
      Step d stop s { s with out := s.out ++ [⟨cap, p, k, { r with kind := d.kind, distribution := d.marshal l }, l⟩], th := s.th.set i .done }

/-- A call. (writer.go:47,92,124.) -/
inductive WCall
  | add (metric : Bytes) (o : Obs)
  | capture
  | iterate

/-- A call that has not begun. (writer.go:47,92,124.) -/
def WCall.pc : WCall → WrPc
  | .add k o => .add0 k o
  | .capture => .cap0
  | .iterate => .it0

/-- A new writer, and the calls about to begin. (writer.go:38-42.) -/
def WSys.init (calls : List WCall) : WSys := { th := calls.map WCall.pc }

/-- Any number of steps. (writer.go:47-143, any schedule.) -/
inductive WSys.Reach (d : DistParams) (stop : Bool) (s₀ : WSys) : WSys → Prop
  | refl : Reach d stop s₀ s₀
  | step {s t : WSys} : Reach d stop s₀ s → WSys.Step d stop s t → Reach d stop s₀ t

end Rothko
