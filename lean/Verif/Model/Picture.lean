import Verif.Model.Layout
import Verif.Model.Canvas
import Verif.Model.Merge
/-!
# The picture of a graph (draw/graph/graph.go:235-303, draw/observations/obs.go:65-118, draw/axis/axis.go:151-217,269-337)
-/
namespace Rothko

/-- What is not modelled of drawing: the glyphs (`font.Drawer.DrawString`, obs.go:107-115, axis.go:213,331), which change the bytes of the canvas a view shows, and colours, which come of floating point arithmetic
(heatmap.go:54-68: the colour of row `y`, from below, of `height` for a column's data; key.go:31-34: that of row `y` from above; obs.go:93). `none`: the index of the colour is out of range, a panic. `peak` is the `X` of the
column with the most observations (obs.go:79-86), `label` what is written above it (obs.go:88). -/
structure Brush (α : Type) where
  ink : Canvas → Int → Int → Bytes → Bytes → Bytes
  heat : α → Int → Nat → Option Color
  key : Int → Nat → Option Color
  bar : List (Col α) → α → Color
  peak : List (Col α) → Int
  label : List (Col α) → Bytes

/-- Black (axis.go:179,191,290,309,324). -/
def black : Color := ⟨0, 0, 0⟩

/-- One mark (axis.go:179,191,213,290,309,324,331). -/
def Mark.paint {α : Type} (b : Brush α) (c : Canvas) (pix : Bytes) : Mark → Option Bytes
  | .dot x y => c.set pix x y black
  | .text x y t => some (b.ink c x y t pix)

/-- Marks one after the other; `none` is a panic. (axis.go:176-214, 287-334.) -/
def paintMarks {α : Type} (b : Brush α) (c : Canvas) : List Mark → Bytes → Option Bytes
  | [], pix => some pix
  | k :: ks, pix => match k.paint b c pix with
    | none => none
    | some pix => paintMarks b c ks pix

/-- Columns one after the other; `none` is a panic. (obs.go:92-100, graph.go:270-272.) -/
def paintCols {α : Type} (step : Col α → Bytes → Option Bytes) : List (Col α) → Bytes → Option Bytes
  | [], pix => some pix
  | k :: ks, pix => match step k pix with
    | none => none
    | some pix => paintCols step ks pix

/-- `observations.Measured.Draw` (obs.go:68-118) on a canvas that is large enough. The bars are 5 high (graph.go:24,164), `padding` is 2 (obs.go:16). The fraction of a pixel in the label's height is dropped. -/
def paintObs {α P : Type} (s : Style P) (b : Brush α) (c : Canvas) (width : Int) (cols : List (Col α)) (pix : Bytes) : Option Bytes :=
  match paintCols (fun k => obsRows c (2 + s.font.high s.obsText) k.x k.w (b.bar cols k.data) 0 5) cols pix with
  | none => none
  | some pix =>
    let x := if b.peak cols + s.font.wide s.obsText > width then width - s.font.wide s.obsText else b.peak cols
    some (b.ink c x (-s.font.top s.obsText) (b.label cols) pix)

/-- One column of the heatmap (heatmap.go:51-107). A colour that cannot be found panics; here before anything is drawn. -/
def paintColumn {α : Type} (b : Brush α) (c : Canvas) (k : Col α) (pix : Bytes) : Option Bytes :=
  if (List.range c.height.toNat).all (fun y => (b.heat k.data c.height y).isSome) then heatDraw c k.x k.w (fun y => (b.heat k.data c.height y).getD black) pix else none

/-- `key.Draw` (key.go:22-42), likewise. -/
def paintKey {α : Type} (b : Brush α) (c : Canvas) (pix : Bytes) : Option Bytes :=
  if (List.range c.height.toNat).all (fun y => (b.key c.height y).isSome) then keyRows c 10 (fun y => (b.key c.height y).getD black) 0 c.height.toNat pix else none

/-- The view for a part (graph.go:245-300). -/
def Canvas.box (c : Canvas) (b : Box) : Canvas := c.view b.x b.y b.w b.h

/-- graph.go:259-293: the heatmap, its key and the right axis, when there is a newest record. -/
def paintRight {α P : Type} (s : Style P) (b : Brush α) (m : GraphM P) (c : Canvas) (cols : List (Col α)) (pix : Bytes) : Option Bytes :=
  match m.right with
  | none => some pix
  | some r =>
    match paintCols (paintColumn b (c.box m.heatBox)) cols pix with
    | none => none
    | some pix =>
      match paintKey b (c.box m.keyBox) pix with
      | none => none
      | some pix => paintMarks b (c.box (m.rightBox r)) (r.draw s.font s.px) pix

/-- `graph.Measured.Draw` (graph.go:235-303) without a canvas to draw on: a new one of the size of the graph and its padding. -/
def drawGraph {α P : Type} (s : Style P) (b : Brush α) (m : GraphM P) (cols : List (Col α)) : Option (Canvas × Bytes) :=
  match newRGB (m.opts.width + 2 * m.opts.padding) (m.opts.height + 2 * m.opts.padding) with
  | none => none
  | some (c, pix) =>
    match paintObs s b (c.box m.obsBox) m.obsWidth cols pix with
    | none => none
    | some pix =>
      match paintMarks b (c.box m.leftBox) (m.left.draw s.font s.px) pix with
      | none => none
      | some pix =>
        match paintRight s b m c cols pix with
        | none => none
        | some pix =>
          match paintMarks b (c.box m.bottomBox) (m.bottom.draw s.font s.px) pix with
          | none => none
          | some pix => some (c, pix)

end Rothko
