import Verif.Model.Render
import Verif.Model.Picture
/-!
# The answer to a request for a picture (api/server.go:149-271)
-/
namespace Rothko

/-- What is used but not modelled: loading the distribution of a record (data/load/load.go:16-22); merging, loading and sampling the records of a column (merge/merger.go:195-238); the labels, which are made of quantiles of the
newest record's distribution (draw/graph/graph.go:98-141), and the colours, which depend on it as well (heatmap.go:36-48). -/
structure Scene (D α P : Type) where
  load : DRec → Option D
  draw : List DRec → Option α
  style : D → Style P
  brush : D → Brush α

/-- `graph.Measure` as `serveRender` calls it (server.go:206-212): the heatmap's width is what it goes on with. -/
def measureOf {D P : Type} (style : D → Style P) (o : GraphOpts) (d : D) : Meas :=
  match graphMeasure (style d) o with
  | .panic => .panic
  | .small => .small
  | .ok m => .ok (Int64.ofInt m.width)

/-- What a request for a graph needs (server.go:190-222). -/
def Scene.params {D α P : Type} (sc : Scene D α P) (o : GraphOpts) : RenderParams D α := ⟨sc.load, measureOf sc.style o, sc.draw⟩

/-- The answer (server.go:228-271): a picture (before it is encoded as png), an error (500), the error "too small" (500), a panic. -/
inductive Page
  | png (c : Canvas) (pix : Bytes)
  | failed
  | tooSmall
  | panicked

/-- What is made of the columns (server.go:236-271) without "Accept: application/json". `measured` was computed by the callback (server.go:208); here it is computed again from the same newest record. -/
def pngOf {D α P : Type} (sc : Scene D α P) (o : GraphOpts) : RenderRes α → Page
  | .columns newest _ cols =>
    match DRec.decode newest with
    | .ok rec_ => match sc.load rec_ with
      | none => .failed
      | some d => match graphMeasure (sc.style d) o with
        | .ok m => match drawGraph (sc.style d) (sc.brush d) m cols with
          | none => .panicked
          | some (c, pix) => .png c pix
        | .small => .tooSmall
        | .panic => .panicked
    | _ => .failed
  | .failed => .failed
  | .tooSmall => .tooSmall
  | .panicked => .panicked

/-- The options that a request gives to `Measure` (server.go:170-186); `width`, `height` and `padding` are the parameters of the request (server.go:160-162). -/
def pngOpts (now dur : Int64) (width height padding : Int) : GraphOpts := { earliest := true, now := now.toInt, duration := dur.toInt, width := width, height := height, padding := padding }

/-- `serveRender` (server.go:149-271) without "Accept: application/json". -/
def servePng {D α P : Type} (sc : Scene D α P) (cfg : Cfg) (now dur : Int64) (width height padding : Int) (s : Store) : Page × Store :=
  let r := serveRender (sc.params (pngOpts now dur width height padding)) cfg now dur s
  (pngOf sc (pngOpts now dur width height padding) r.1, r.2)

end Rothko
