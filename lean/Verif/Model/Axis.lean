import Verif.Model.Bytes
/-!
# Axes (draw/axis/axis.go)

Coordinates are integers (`int` is far from overflow). The font is a parameter: what `font.BoundString` says of a text, rounded as the code rounds it. So are positions, which are floats in the code:
`px length pos` is `int(float64(length-1) * pos)`.
-/
namespace Rothko

/-- What the code uses of `font.BoundString` (axis.go:117,231) and of the advance of `DrawString` (axis.go:331). -/
structure Font where
  /-- `(b.Max.X - b.Min.X).Ceil()` -/
  wide : Bytes → Int
  /-- `b.Max.X.Ceil()` -/
  right : Bytes → Int
  /-- `b.Min.Y.Ceil()` -/
  top : Bytes → Int
  /-- `(b.Max.Y - b.Min.Y).Ceil()` -/
  high : Bytes → Int
  /-- how far `DrawString` moves the dot, rounded up -/
  adv : Bytes → Int

/-- What `font.BoundString` says of ASCII texts in the font used (draw/iosevka/font.go:18-25: a `basicfont.Face`, all glyphs 6 wide, 11 above and 3 below the line; nothing for an empty text). -/
def iosevka : Font where
  wide t := 6 * t.length
  right t := 6 * t.length
  top t := if t = [] then 0 else -11
  high t := if t = [] then 0 else 14
  adv t := 6 * t.length

/-- `Label` (axis.go:43-49). -/
structure Label (P : Type) where
  pos : P
  text : Bytes

/-- `Options` (axis.go:52-71) without the font. -/
structure AxisOpts (P : Type) where
  labels : List (Label P)
  vertical : Bool
  length : Int
  flip : Bool := false
  dontBleed : Bool := false

/-- `Measured` (axis.go:24-35); the bounds of the labels are asked of the font again. -/
structure AxisM (P : Type) where
  width : Int
  height : Int
  opts : AxisOpts P

/-- The loop of `measureVertical` (axis.go:116-140): `max_width`, `max_height`. (`occupied` decides nothing there.) -/
def measVLoop {P : Type} (f : Font) (px : Int → P → Int) (o : AxisOpts P) : List (Label P) → Int → Int → Int × Int
  | [], mw, mh => (mw, mh)
  | l :: ls, mw, mh =>
    let y := px o.length l.pos
    let height := y - f.top l.text
    if o.dontBleed ∧ height > o.length then measVLoop f px o ls mw mh
    else measVLoop f px o ls (if f.right l.text > mw then f.right l.text else mw) (if height > mh then height else mh)

/-- Whether a label at `x` is drawn (axis.go:224-228, 296-300). -/
def axisFits (occupied x : Int) : Bool := occupied = 0 || x < 10 || x > occupied + 10

/-- Where a label of a horizontal axis goes (axis.go:234-242, 305-318): its `x` and `label_end`. -/
def labelAt {P : Type} (f : Font) (px : Int → P → Int) (o : AxisOpts P) (l : Label P) : Int × Int :=
  let x := px o.length l.pos
  let e := x + f.wide l.text
  if o.dontBleed ∧ e > o.length then (o.length - f.wide l.text, o.length) else (x, e)

/-- The loop of `measureHorizontal` (axis.go:230-257): `max_width`, `max_height`, from `occupied` on. -/
def measHLoop {P : Type} (f : Font) (px : Int → P → Int) (o : AxisOpts P) : List (Label P) → Int → Int → Int → Int × Int
  | [], mw, mh, _ => (mw, mh)
  | l :: ls, mw, mh, occ =>
    let p := labelAt f px o l
    if !axisFits occ p.1 then measHLoop f px o ls mw mh occ
    else measHLoop f px o ls (if p.2 > mw then p.2 else mw) (if f.high l.text + 2 > mh then f.high l.text + 2 else mh) p.2

/-- `Measure` (axis.go:89-94, 106-149, 219-267). `textOffset` is 13. -/
def axisMeasure {P : Type} (f : Font) (px : Int → P → Int) (o : AxisOpts P) : AxisM P :=
  if o.vertical then
    let r := measVLoop f px o o.labels 0 o.length
    ⟨13 + r.1, r.2, o⟩
  else
    let r := measHLoop f px o o.labels o.length 0 0
    ⟨r.1, 13 + r.2, o⟩

/-- What drawing does: set a pixel to black, or draw a text with its dot at a point (axis.go:179,191,290,309,324: `Set`; axis.go:203-213,327-331: `DrawString`). -/
inductive Mark
  | dot (x y : Int)
  | text (x y : Int) (t : Bytes)
deriving DecidableEq

/-- `maybeFlip` (axis.go:169-174). -/
def maybeFlip {P : Type} (m : AxisM P) (x : Int) : Int := if m.opts.flip then m.width - 1 - x else x

/-- The loop over the labels in `drawVertical` (axis.go:185-214). -/
def drawVLoop {P : Type} (f : Font) (px : Int → P → Int) (m : AxisM P) : List (Label P) → Int → List Mark
  | [], _ => []
  | l :: ls, occ =>
    let y := px m.opts.length l.pos
    let height := y - f.top l.text
    let tick := (List.range 10).map (fun (x : Nat) => Mark.dot (maybeFlip m (1 + x)) y)
    if m.opts.dontBleed ∧ height > m.opts.length then tick ++ drawVLoop f px m ls occ
    else if occ > 0 ∧ y < occ + 2 then tick ++ drawVLoop f px m ls occ
    else tick ++ Mark.text (if m.opts.flip then m.width - 13 - f.wide l.text else 13) height l.text :: drawVLoop f px m ls height

/-- The loop over the labels in `drawHorizontal` (axis.go:302-334). -/
def drawHLoop {P : Type} (f : Font) (px : Int → P → Int) (m : AxisM P) : List (Label P) → Int → List Mark
  | [], _ => []
  | l :: ls, occ =>
    let t := px m.opts.length l.pos
    let p := labelAt f px m.opts l
    let tick := (List.range 10).map (fun (y : Nat) => Mark.dot t (1 + y))
    if !axisFits occ p.1 then tick ++ drawHLoop f px m ls occ
    else tick ++ (List.range 3).map (fun (y : Nat) => Mark.dot t (11 + y)) ++ Mark.text p.1 (13 - f.top l.text) l.text :: drawHLoop f px m ls (p.1 + f.adv l.text)

/-- `Measured.Draw` on a canvas that is large enough (axis.go:99-104, 151-217, 269-337). -/
def AxisM.draw {P : Type} (f : Font) (px : Int → P → Int) (m : AxisM P) : List Mark :=
  if m.opts.vertical then (List.range m.opts.length.toNat).map (fun (y : Nat) => Mark.dot (maybeFlip m 0) y) ++ drawVLoop f px m m.opts.labels 0
  else (List.range m.opts.length.toNat).map (fun (x : Nat) => Mark.dot x 0) ++ drawHLoop f px m m.opts.labels 0

end Rothko
