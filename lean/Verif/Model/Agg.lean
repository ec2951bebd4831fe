import Verif.Model.DataRecord
import Verif.Model.Float
/-!
# Aggregating observations (data/agg.go, data/writer.go)

A distribution (interface `dist.Dist`, dist/common.go) is modelled by the list of observations it was given: what `Marshal` returns is some function of it. `dist.Params` is
whether `New` succeeds, the kind, and this function.
-/
namespace Rothko

/-- An observation: the value and id passed to `Add`. `tag` names the call; the code does not have it. (data/writer.go:47-48, agg.go:34.) -/
structure Obs where
  val : F64
  id : Bytes := []
  tag : Nat := 0
deriving DecidableEq, Repr

/-- `dist.Params` (dist/common.go:28-40). -/
structure DistParams where
  newOk : Bool := true
  kind : Bytes := []
  marshal : List Obs → Bytes := fun _ => []

/-- `agg` (agg.go:13-18). `locked`: the mutex was left locked. -/
structure Agg where
  rec_ : DRec
  dist : Option (List Obs) := none
  locked : Bool := false

/-- `newAgg(params, now)` (agg.go:21-29). -/
def newAgg (now : Int64) : Agg := { rec_ := { startTime := now, merged := 1 } }

/-- The variables of `Observe` after the first critical section (agg.go:50). -/
structure ObsMid where
  min : F64
  max : F64
  obs : Int64
deriving DecidableEq, Repr

/-- The first critical section of `Observe` (agg.go:35-53), for an unlocked mutex. If `params.New` fails, the function returns without unlocking (line 43): no `ObsMid`. -/
def Agg.observe1 (p : DistParams) (a : Agg) (o : Obs) : Agg × Option ObsMid :=
  match a.dist with
  | none =>
    if p.newOk then
      ({ a with dist := some [o], rec_ := { a.rec_ with observations := a.rec_.observations + 1 } }, some ⟨a.rec_.min, a.rec_.max, a.rec_.observations⟩)
    else ({ a with locked := true }, none)
  | some l =>
    ({ a with dist := some (l ++ [o]), rec_ := { a.rec_ with observations := a.rec_.observations + 1 } }, some ⟨a.rec_.min, a.rec_.max, a.rec_.observations⟩)

/-- Line 57: whether the second critical section is needed. (agg.go:57.) -/
def ObsMid.need (m : ObsMid) (o : Obs) : Bool := m.obs = 0 || fLt o.val m.min || fLt m.max o.val

/-- Lines 68-71. The copy of the id (lines 62-65) has the same bytes. (agg.go:68-71.) -/
def Agg.updMin (a : Agg) (o : Obs) (first : Bool) : Agg :=
  if first || fLt o.val a.rec_.min then { a with rec_ := { a.rec_ with min := o.val, minId := o.id } } else a

/-- Lines 72-75. (agg.go:72-75.) -/
def Agg.updMax (a : Agg) (o : Obs) (first : Bool) : Agg :=
  if first || fLt a.rec_.max o.val then { a with rec_ := { a.rec_ with max := o.val, maxId := o.id } } else a

/-- The second critical section (agg.go:67-76). -/
def Agg.observe2 (a : Agg) (o : Obs) (m : ObsMid) : Agg := (a.updMin o (m.obs = 0)).updMax o (m.obs = 0)

/-- `Observe` (agg.go:34-78) without another call at the same time. `none`: it blocks forever on the mutex. -/
def Agg.observe (p : DistParams) (a : Agg) (o : Obs) : Option Agg :=
  if a.locked then none
  else match a.observe1 p o with
    | (a, none) => some a
    | (a, some m) => some (if m.need o then a.observe2 o m else a)

/-- What `Finish` does. (agg.go:82-93.) -/
inductive FinishRes
  | blocked
  | panic
  | ok (rec_ : DRec) (vals : List Obs)

/-- `Finish` (agg.go:82-93) without another call at the same time; `vals` is what the distribution in the record was given. A method call on the nil `dist` panics (line 88). -/
def Agg.finish (p : DistParams) (a : Agg) (now : Int64) : FinishRes :=
  if a.locked then .blocked
  else match a.dist with
    | none => .panic
    | some l => .ok { a.rec_ with endTime := now, kind := p.kind, distribution := p.marshal l } l

/-! ## The writer, whole calls -/

/-- `page` (writer.go:18-21). The `sync.Map` is an association list; `Range` goes over it in some order. -/
structure WPage where
  now : Int64
  m : List (Bytes × Agg) := []

/-- `p.m.Load(metric)` (writer.go:78). -/
def WPage.load (p : WPage) (metric : Bytes) : Option Agg := (p.m.find? (fun e => e.1 == metric)).map (·.2)

/-- The map with the agg of a metric replaced or added (`LoadOrStore`, writer.go:82, and the effect of `Observe` on the agg). -/
def WPage.store (p : WPage) (metric : Bytes) (a : Agg) : WPage :=
  if p.m.any (fun e => e.1 == metric) then { p with m := p.m.map (fun e => if e.1 == metric then (e.1, a) else e) } else { p with m := p.m ++ [(metric, a)] }

/-- A captured record: metric, record, the observations of its distribution. (writer.go:116-118,139-141.) -/
structure Captured where
  metric : Bytes
  rec_ : DRec
  vals : List Obs

/-- A writer and what happened so far: `page` is the field (writer.go:31-34), `out` has, for each `Capture` that had a page, the records given to its callback. `dead`: blocked forever or panicked. -/
structure WState where
  page : Option WPage := none
  out : List (List Captured) := []
  dead : Bool := false

/-- `Add` (writer.go:47-87) as a whole. -/
def WState.add (d : DistParams) (s : WState) (metric : Bytes) (o : Obs) (now : Int64) : WState :=
  if fIsInf o.val || fIsNaN o.val then s
  else
    let p := s.page.getD { now := now }
    let a := (p.load metric).getD (newAgg p.now)
    match a.observe d o with
    | none => { s with page := some (p.store metric a), dead := true }
    | some a => { s with page := some (p.store metric a) }

/-- The loop of `Range` over the aggs with a callback that wants them all (writer.go:114-120). -/
def captureLoop (d : DistParams) (now : Int64) : List (Bytes × Agg) → List Captured × Bool
  | [] => ([], false)
  | (metric, a) :: rest =>
    match a.finish d now with
    | .ok r vals => let x := captureLoop d now rest; (⟨metric, r, vals⟩ :: x.1, x.2)
    | _ => ([], true)

/-- `Capture` (writer.go:92-120) as a whole, with a callback that returns true. `order` is the order in which `Range` visits. -/
def WState.capture (d : DistParams) (s : WState) (order : List (Bytes × Agg) → List (Bytes × Agg)) (now : Int64) : WState :=
  match s.page with
  | none => s
  | some p =>
    let x := captureLoop d now (order p.m)
    { page := some { now := now }, out := s.out ++ [x.1], dead := s.dead || x.2 }

/-- `Iterate` (writer.go:124-143) as a whole: the records given to the callback. The state stays. -/
def WState.iterate (d : DistParams) (s : WState) (order : List (Bytes × Agg) → List (Bytes × Agg)) (now : Int64) : List Captured × Bool :=
  match s.page with
  | none => ([], false)
  | some p => captureLoop d now (order p.m)

/-- A call. `order` is the order in which `Range` visits the map; what `Iterate` returns is looked at separately. (writer.go:47,92,124.) -/
inductive WOp
  | add (metric : Bytes) (o : Obs) (now : Int64)
  | capture (order : List (Bytes × Agg) → List (Bytes × Agg)) (now : Int64)
  | iterate (order : List (Bytes × Agg) → List (Bytes × Agg)) (now : Int64)

/-- One call after the other. Nothing happens after a call that did not return. (writer.go:47-143.) -/
def WOp.run (d : DistParams) (s : WState) (op : WOp) : WState :=
  if s.dead then s
  else match op with
    | .add metric o now => s.add d metric o now
    | .capture order now => s.capture d order now
    | .iterate order now => { s with dead := s.dead || (s.iterate d order now).2 }

end Rothko
