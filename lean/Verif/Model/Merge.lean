import Verif.Model.DataRecord
import Verif.Model.Float
/-!
# Merging records (merge/merge.go, merge/merger.go)

The t-digest and the resampler (merge/resample.go) are not modelled: what they make of the records is a parameter.
-/
namespace Rothko

/-- merge.go:35-44: the earliest start. -/
def mergeStart (out : Int64) : List DRec → Int64
  | [] => out
  | r :: rs => mergeStart (if r.startTime < out then r.startTime else out) rs

/-- merge.go:36-44: the latest end. -/
def mergeEnd (out : Int64) : List DRec → Int64
  | [] => out
  | r :: rs => mergeEnd (if r.endTime > out then r.endTime else out) rs

/-- merge.go:74-78. -/
def mergeMin (out : F64 × Bytes) : List DRec → F64 × Bytes
  | [] => out
  | r :: rs => mergeMin (if fLt r.min out.1 then (r.min, r.minId) else out) rs

/-- merge.go:79-82. -/
def mergeMax (out : F64 × Bytes) : List DRec → F64 × Bytes
  | [] => out
  | r :: rs => mergeMax (if fLt out.1 r.max then (r.max, r.maxId) else out) rs

/-- merge.go:47-49. -/
def mergeObs (out : Int64) : List DRec → Int64
  | [] => out
  | r :: rs => mergeObs (out + r.observations) rs

/-- merge.go:86-93. -/
def mergeMerged (out : Int64) : List DRec → Int64
  | [] => out
  | r :: rs => mergeMerged (out + (if r.merged = 0 then 1 else r.merged)) rs

/-- `Merge` (merge.go:27-96). `dist` is what lines 52-70 make of the records: the distribution and kind, or an error. `none`: an error is returned. -/
def mergeRecs (dist : List DRec → Option (Bytes × Bytes)) : List DRec → Option DRec
  | [] => none
  | r :: rs =>
    match dist (r :: rs) with
    | none => none
    | some (d, kind) =>
      let mn := mergeMin (r.min, []) rs
      let mx := mergeMax (r.max, []) rs
      some { startTime := mergeStart r.startTime rs, endTime := mergeEnd r.endTime rs, observations := mergeObs 0 (r :: rs), distribution := d, kind := kind,
             min := mn.1, max := mx.1, minId := mn.2, maxId := mx.2, merged := mergeMerged 0 (r :: rs) }

/-! ## The merger -/

/-- `SetWidth` (merger.go:63-67): the pixel size. `none`: division by zero panics. -/
def pixelSize (duration width : Int64) : Option Int64 := if width = 0 then none else some (duration / width)

/-- `timeToPixel` (merger.go:70-77). `none`: division by zero panics. -/
def timeToPixel (now width ps time : Int64) : Option Int64 :=
  if ps = 0 then none
  else
    let delta := now - time + ps - 1
    let px := width - delta / ps
    some (if px < 0 then 0 else px)

/-- `mergeRecord` (merger.go:28-31). Pixels are integers here: they are sums and differences of values no larger than the width. -/
structure MRec where
  rec_ : DRec
  start : Int
  end_ : Int

/-- `draw.Column`: X, W, and what is drawn. (draw/common.go:19-23.) -/
structure Col (α : Type) where
  x : Int
  w : Int
  data : α

/-- `Merger` (merger.go:44-52). -/
structure Merger (α : Type) where
  now : Int64
  width : Int64
  ps : Int64
  completed : Int
  records : List MRec := []
  columns : List (Col α) := []

/-- `NewMerger` and `SetWidth` (merger.go:55-67). -/
def Merger.new (α : Type) (now duration width : Int64) : Option (Merger α) :=
  (pixelSize duration width).map (fun ps => { now := now, width := width, ps := ps, completed := width.toInt })

/-- merger.go:123-128: the indices of the records over the pixel, from index `i` on. -/
def candEmit (px : Int) (i : Nat) : List MRec → List Nat
  | [] => []
  | r :: rs => if r.start ≤ px ∧ px ≤ r.end_ then i :: candEmit px (i + 1) rs else candEmit px (i + 1) rs

/-- The records at the indices (merger.go:137-140). An index out of range would panic; `candEmit` gives none. -/
def atIdx (rs : List MRec) (l : List Nat) : List DRec := l.filterMap (fun i => (rs[i]?).map (·.rec_))

/-- `emit` (merger.go:195-238): `draw` is what is drawn of the records (merging, loading and sampling); `none` is an error. -/
def emitCol {α : Type} (draw : List DRec → Option α) (cols : List (Col α)) (start end_ : Int) (recs : List DRec) : Option (List (Col α)) :=
  (draw recs).map (fun d => cols ++ [⟨start, end_ - start + 1, d⟩])

/-- The loop of `completed` (merger.go:121-150) for the `n` pixels from `lo + n - 1` down to `lo`. -/
def completedLoop {α : Type} (draw : List DRec → Option α) (rs : List MRec) (lo : Int) : Nat → Int → List Nat → List (Col α) → Option (Int × List Nat × List (Col α))
  | 0, toEmitEnd, toEmit, cols => some (toEmitEnd, toEmit, cols)
  | n + 1, toEmitEnd, toEmit, cols =>
    let px := lo + n
    let cand := candEmit px 0 rs
    if cand = toEmit then completedLoop draw rs lo n toEmitEnd toEmit cols
    else if toEmit.length > 0 then
      match emitCol draw cols (px + 1) toEmitEnd (atIdx rs toEmit) with
      | none => none
      | some cols => completedLoop draw rs lo n px cand cols
    else completedLoop draw rs lo n px cand cols

/-- `completed` (merger.go:110-192). Lines 166-187 filter out the records that start and end after the pixel. -/
def Merger.complete {α : Type} (draw : List DRec → Option α) (m : Merger α) (c : Int) : Option (Merger α) :=
  match completedLoop draw m.records c (m.completed - c).toNat 0 [] m.columns with
  | none => none
  | some (toEmitEnd, toEmit, cols) =>
    let rest := m.records.filter (fun r => !(decide (r.start > c) && decide (r.end_ > c)))
    if toEmit.length > 0 then
      match emitCol draw cols c toEmitEnd (atIdx m.records toEmit) with
      | none => none
      | some cols => some { m with columns := cols, records := rest, completed := c }
    else some { m with columns := cols, records := rest, completed := c }

/-- `Push` (merger.go:81-97). `none`: an error or a panic. -/
def Merger.push {α : Type} (draw : List DRec → Option α) (m : Merger α) (r : DRec) : Option (Merger α) :=
  if m.width = 0 then none
  else
    match timeToPixel m.now m.width m.ps r.startTime, timeToPixel m.now m.width m.ps r.endTime with
    | some s, some e =>
      match m.complete draw (e.toInt + 1) with
      | none => none
      | some m => some { m with records := m.records ++ [⟨r, s.toInt, e.toInt⟩] }
    | _, _ => none

/-- `Finish` (merger.go:100-105). -/
def Merger.finish {α : Type} (draw : List DRec → Option α) (m : Merger α) : Option (List (Col α)) := (m.complete draw 0).map (·.columns)

/-- Pushes in a row. (merger.go:110-192.) -/
def Merger.pushAll {α : Type} (draw : List DRec → Option α) (m : Merger α) : List DRec → Option (Merger α)
  | [] => some m
  | r :: rs => match m.push draw r with
    | none => none
    | some m => m.pushAll draw rs

/-- A new merger, the records pushed in order, and the columns. (merger.go:55-238, api/server.go:180-231.) -/
def renderColumns {α : Type} (draw : List DRec → Option α) (now duration width : Int64) (rs : List DRec) : Option (List (Col α)) :=
  match Merger.new α now duration width with
  | none => none
  | some m => match m.pushAll draw rs with
    | none => none
    | some m => m.finish draw

end Rothko
