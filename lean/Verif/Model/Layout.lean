import Verif.Model.Axis
/-!
# The layout of a graph (draw/graph/graph.go, draw/graph/common.go, draw/observations/obs.go:50-61)

Times and durations are integers of nanoseconds (no overflow of int64). Positions and texts of labels are parameters.
-/
namespace Rothko

/-- The parts that are not modelled: the font, float positions and the texts of labels. (graph.go:103-107, 128-136, 139-146, 186-189; obs.go:53.) -/
structure Style (P : Type) where
  font : Font
  px : Int → P → Int
  /-- `float64(y) / float64(height)` -/
  posY : Int → Int → P
  /-- the position 1 -/
  one : P
  /-- `1 - float64(now-x)/float64(duration)` -/
  posT : Int → Int → Int → P
  leftText : Int → Int → Bytes
  rightText : Int → Int → Bytes
  timeText : Int → Bytes
  obsText : Bytes

/-- `MeasureOptions` (graph.go:53-71); of `Earliest` only whether it is nil. -/
structure GraphOpts where
  earliest : Bool
  now : Int
  duration : Int
  width : Int
  height : Int
  padding : Int

/-- `naturalUnits` (draw/graph/common.go:7-21), in nanoseconds. -/
def naturalUnits : List Int := [1, 2, 4, 6, 8, 10, 12, 14, 16, 18, 20, 22, 24].map (fun h => h * 3600000000000)

/-- The loop that chooses the unit (graph.go:174-180). -/
def chooseUnit (chunk : Int) : Int → List Int → Int
  | natural, [] => natural
  | natural, u :: us => if u < chunk then chooseUnit chunk u us else natural

/-- The unit of the time axis (graph.go:172-180); `none`: division by zero. Division truncates. -/
def naturalUnit (duration width : Int) : Option Int :=
  if Int.tdiv width 100 = 0 then none
  else some (chooseUnit (Int.tdiv duration (Int.tdiv width 100)) (naturalUnits.headD 0) naturalUnits.tail)

/-- The times of the labels (graph.go:183-191), latest first: from `x` down by `unit` while they are after `stop`. `n` bounds the number of iterations; `Layout.timesFrom` gives enough. -/
def timesLoop (unit stop : Int) : Nat → Int → List Int
  | 0, _ => []
  | n + 1, x => if x > stop then x :: timesLoop unit stop n (x - unit) else []

/-- graph.go:183-191: `Truncate` rounds toward zero to a multiple of the unit. -/
def timesFrom (unit now duration : Int) : List Int :=
  timesLoop unit (now - duration) (Int.tdiv now unit * unit - (now - duration)).toNat (Int.tdiv now unit * unit)

/-- The `y` of the labels of the left and right axes (graph.go:102,127): 0, 30, ... up to `height - 30`. `n` bounds the number of iterations. -/
def rowsLoop (height : Int) : Nat → Int → List Int
  | 0, _ => []
  | n + 1, y => if y ≤ height - 30 then y :: rowsLoop height n (y + 30) else []

/-- The labels of the left and right axes (graph.go:101-112, 126-146). -/
def sideLabels {P : Type} (s : Style P) (text : Int → Int → Bytes) (height : Int) : List (Label P) :=
  (rowsLoop height height.toNat 0).map (fun y => ⟨s.posY y height, text y height⟩) ++ [⟨s.one, text height height⟩]

/-- `graph.Measured` (graph.go:28-50). -/
structure GraphM (P : Type) where
  bottom : AxisM P
  obsWidth : Int
  obsHeight : Int
  right : Option (AxisM P)
  left : AxisM P
  width : Int
  height : Int
  x : Int
  y : Int
  opts : GraphOpts

/-- The width of the right axis, 0 if there is none (graph.go:123,159). -/
def GraphM.rightWidth {P : Type} (m : GraphM P) : Int := (m.right.map (·.width)).getD 0

/-- How measuring ends: a run time error, `false`, or a measured graph (graph.go:74, 90). -/
inductive Tried (P : Type)
  | panic
  | small
  | ok (m : GraphM P)

/-- `tryMeasure` (graph.go:90-219). -/
def tryMeasure {P : Type} (s : Style P) (o : GraphOpts) (guess : Int) : Tried P :=
  let height := o.height - guess
  if height < 0 then .small
  else
    let left := axisMeasure s.font s.px { labels := sideLabels s s.leftText height, vertical := true, length := height, flip := true }
    let right := if o.earliest then some (axisMeasure s.font s.px { labels := sideLabels s s.rightText height, vertical := true, length := height }) else none
    let heat := o.width - (left.width + 5 + 10 + (right.map (·.width)).getD 0)
    match naturalUnit o.duration o.width with
    | none => .panic
    | some unit =>
      let labels := (timesFrom unit o.now o.duration).reverse.map (fun x => (⟨s.posT o.now x o.duration, s.timeText x⟩ : Label P))
      let bottom := axisMeasure s.font s.px { labels := labels, vertical := false, length := heat + 2, dontBleed := true }
      let obsH := 5 + 2 + s.font.high s.obsText
      .ok { bottom, obsWidth := heat, obsHeight := obsH, right, left, width := heat, height, x := o.padding + left.width, y := o.padding + obsH, opts := o }

/-- `Measure` (graph.go:74-86). -/
def graphMeasure {P : Type} (s : Style P) (o : GraphOpts) : Tried P :=
  match tryMeasure s o 50 with
  | .ok m => if m.bottom.height + m.obsHeight ≠ 50 then tryMeasure s o (m.bottom.height + m.obsHeight) else .ok m
  | r => r

/-- A part of the canvas (draw/common.go:74-80). -/
structure Box where
  x : Int
  y : Int
  w : Int
  h : Int
deriving DecidableEq

/-- The views of `Measured.Draw` (graph.go:245-300). -/
def GraphM.obsBox {P : Type} (m : GraphM P) : Box := ⟨m.opts.padding + m.left.width, m.opts.padding, m.obsWidth, m.obsHeight⟩
/-- graph.go:252-257 -/
def GraphM.leftBox {P : Type} (m : GraphM P) : Box := ⟨m.opts.padding, m.opts.padding + m.obsHeight, m.left.width, m.left.height⟩
/-- graph.go:261-266 -/
def GraphM.heatBox {P : Type} (m : GraphM P) : Box := ⟨m.opts.padding + m.left.width, m.opts.padding + m.obsHeight, m.width, m.height⟩
/-- graph.go:274-279 -/
def GraphM.keyBox {P : Type} (m : GraphM P) : Box := ⟨m.opts.padding + m.left.width + m.width + 5, m.opts.padding + m.obsHeight, 10, m.height⟩
/-- graph.go:286-291 -/
def GraphM.rightBox {P : Type} (m : GraphM P) (r : AxisM P) : Box := ⟨m.opts.padding + m.left.width + m.width + 5 + 10, m.opts.padding + m.obsHeight, r.width, r.height⟩
/-- graph.go:295-300 -/
def GraphM.bottomBox {P : Type} (m : GraphM P) : Box := ⟨m.left.width - 1 + m.opts.padding, m.height + m.obsHeight + m.opts.padding, m.bottom.width, m.bottom.height⟩

end Rothko
