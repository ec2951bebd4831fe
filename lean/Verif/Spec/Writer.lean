import Verif.Model.Agg
/-!
# Specification of aggregation (C41, C43)
-/
namespace Rothko

/-- The observations of an interval of time, all metrics, in order. -/
structure Batch where
  start : Int64
  stop : Int64
  obs : List (Bytes × Obs)

/-- The intervals captured so far, and the interval in progress: when it began (if at all) and its observations. -/
structure WSpec where
  batches : List Batch := []
  start : Option Int64 := none
  pend : List (Bytes × Obs) := []

/-- The first observation begins the first interval; a capture ends an interval and begins the next. Observations that are infinite or not a number do not count. -/
def WSpec.step (s : WSpec) : WOp → WSpec
  | .add metric o now => if fFinite o.val then { s with start := some (s.start.getD now), pend := s.pend ++ [(metric, o)] } else s
  | .capture _ now =>
    match s.start with
    | none => s
    | some t => { batches := s.batches ++ [⟨t, now, s.pend⟩], start := some now, pend := [] }
  | .iterate _ _ => s

/-- The observations of one metric. -/
def obsOf (metric : Bytes) (l : List (Bytes × Obs)) : List Obs := (l.filter (fun e => e.1 == metric)).map (·.2)

/-- `x` with `id` is the smallest of the observations. -/
def IsMin (vals : List Obs) (x : F64) (id : Bytes) : Prop := (∃ o ∈ vals, o.val = x ∧ o.id = id) ∧ ∀ o ∈ vals, fLt o.val x = false

/-- `x` with `id` is the largest of the observations. -/
def IsMax (vals : List Obs) (x : F64) (id : Bytes) : Prop := (∃ o ∈ vals, o.val = x ∧ o.id = id) ∧ ∀ o ∈ vals, fLt x o.val = false

/-- The record is right for the observations `vals` of the interval. -/
structure RecordOf (d : DistParams) (start stop : Int64) (vals : List Obs) (r : DRec) : Prop where
  start : r.startTime = start
  stop : r.endTime = stop
  count : r.observations = Int64.ofNat vals.length
  merged : r.merged = 1
  min : IsMin vals r.min r.minId
  max : IsMax vals r.max r.maxId
  dist : r.distribution = d.marshal vals
  kind : r.kind = d.kind

/-- The records reported are right for the interval: one for each metric that was observed. -/
structure GroupOf (d : DistParams) (b : Batch) (group : List Captured) : Prop where
  once : (group.map (·.metric)).Nodup
  metrics : ∀ m, m ∈ group.map (·.metric) ↔ m ∈ b.obs.map (·.1)
  vals : ∀ c ∈ group, c.vals = obsOf c.metric b.obs
  recs : ∀ c ∈ group, RecordOf d b.start b.stop c.vals c.rec_

/-- Interval by interval. -/
inductive GroupsOf (d : DistParams) : List Batch → List (List Captured) → Prop
  | nil : GroupsOf d [] []
  | snoc {bs : List Batch} {gs : List (List Captured)} {b : Batch} {g : List Captured} : GroupsOf d bs gs → GroupOf d b g → GroupsOf d (bs ++ [b]) (gs ++ [g])

end Rothko
