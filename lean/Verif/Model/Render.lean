import Verif.Model.Metric
import Verif.Model.Merge
/-!
# Rendering a graph (api/server.go:149-271)
-/
namespace Rothko

/-- What `graph.Measure` (draw/graph/graph.go:74-86) does: a panic (a width below 100 divides by zero, graph.go:172), `ok` false, or the width of the heatmap. -/
inductive Meas
  | panic
  | small
  | ok (width : Int64)

/-- What is used but not modelled: loading the distribution of a record (data/load/load.go:16-22), measuring the graph given the distribution on its right edge (graph.go:74-219),
merging, loading and sampling the records of a column (merger.go:195-238). -/
structure RenderParams (D α : Type) where
  load : DRec → Option D
  measure : D → Meas
  draw : List DRec → Option α

/-- The variables of `serveRender` that the callback changes (server.go:170-186). `earliest` is set together with `measure_opts.Earliest`; the merger is there once its width is set (212). -/
structure RenderSt (α : Type) where
  earliest : Option Bytes := none
  ok : Bool := false
  width : Int64 := 0
  merger : Option (Merger α) := none
  panicked : Bool := false

/-- server.go:215-221. -/
def renderPush {D α : Type} (p : RenderParams D α) (stop : Int64) (st : RenderSt α) (m : Merger α) (r : DRec) (v : Val) : RenderSt α × Cb :=
  match m.push p.draw r with
  | none => (st, .err)
  | some m => ({ st with merger := some m }, if v.stop ≥ stop then .more else .stop)

/-- The callback (server.go:190-222). `stop` is `stop_before` (server.go:167). Once it panicked, nothing more happens. -/
def renderCb {D α : Type} (p : RenderParams D α) (now dur stop : Int64) (st : RenderSt α) (v : Val) : RenderSt α × Cb :=
  match DRec.decode v.data with
  | .ok r =>
    match st.earliest with
    | some _ => match st.merger with
      | some m => renderPush p stop st m r v
      | none => (st, .err)
    | none =>
      match p.load r with
      | none => (st, .err)
      | some d =>
        match p.measure d with
        | .panic => ({ st with panicked := true }, .stop)
        | .small => ({ st with earliest := some v.data }, .stop)
        | .ok w =>
          match Merger.new α now dur w with
          | none => ({ st with panicked := true }, .stop)
          | some m => renderPush p stop { st with earliest := some v.data, ok := true, width := w } m r v
  | .err _ => (st, .err)
  | _ => ({ st with panicked := true }, .stop)

/-- What a request for a graph comes to: the columns (with the newest record and the width of the heatmap), from which the picture or the json is made, an error (500), the error "too small" (500), a panic. -/
inductive RenderRes (α : Type)
  | columns (earliest : Bytes) (width : Int64) (cols : List (Col α))
  | failed
  | tooSmall
  | panicked

/-- server.go:223-234, after the query. -/
def renderEnd {D α : Type} (p : RenderParams D α) (st : RenderSt α) (err : Option MErr) : RenderRes α :=
  if st.panicked then .panicked
  else match err with
    | some _ => .failed
    | none =>
      if st.ok then
        match st.merger with
        | none => .failed
        | some m => match m.finish p.draw with
          | none => .failed
          | some cols => .columns (st.earliest.getD []) st.width cols
      else .tooSmall

/-- `serveRender` (server.go:149-234) for the metric of the store: the window is `dur` before `now`; the subtraction is that of int64. -/
def serveRender {D α : Type} (p : RenderParams D α) (cfg : Cfg) (now dur : Int64) (s : Store) : RenderRes α × Store :=
  let q := dbQuery cfg now (renderCb p now dur (now - dur)) {} s
  (renderEnd p q.1.1 q.1.2, q.2)

end Rothko
