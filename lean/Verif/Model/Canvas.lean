import Verif.Model.Bytes
/-!
# The canvas and what is drawn on it (draw/common.go, draw/heatmap/heatmap.go, draw/key/key.go)

`int` is modelled by the integers: coordinates are far from overflow.
-/
namespace Rothko

/-- `Color` (common.go:26-28). -/
structure Color where
  r : UInt8
  g : UInt8
  b : UInt8
deriving DecidableEq

/-- `RGB` (common.go:32-38) without `Pix`, which all the views of a canvas share and is passed along here. -/
structure Canvas where
  stride : Int
  width : Int
  height : Int
  x : Int := 0
  y : Int := 0
deriving DecidableEq

/-- `NewRGB` (common.go:41-48); a negative size panics (`none`). -/
def newRGB (w h : Int) : Option (Canvas × Bytes) :=
  if 4 * w * h < 0 then none else some ({ stride := 4 * w, width := w, height := h }, List.replicate (4 * w * h).toNat 255)

/-- Offset of a pixel (common.go:58,69). -/
def Canvas.offset (m : Canvas) (x y : Int) : Int := (y + m.y) * m.stride + (x + m.x) * 4

/-- `pix[low:high]` and writing `new` over its start. `none`: the bounds are wrong. The capacity of `Pix` is its length. (heatmap.go:89-96, draw/common.go:59-63.) -/
def overwrite (pix : Bytes) (low high : Int) (new : Bytes) : Option Bytes :=
  if low < 0 ∨ high < low ∨ (pix.length : Int) < high then none else some (pix.take low.toNat ++ new ++ pix.drop (low.toNat + new.length))

/-- The four bytes of a pixel. (draw/common.go:60-63.) -/
def Color.bytes (c : Color) : Bytes := [c.r, c.g, c.b, 255]

/-- `Set` (common.go:57-64). -/
def Canvas.set (m : Canvas) (pix : Bytes) (x y : Int) (c : Color) : Option Bytes := overwrite pix (m.offset x y) (m.offset x y + 4) c.bytes

/-- `Raw` (common.go:68-71), as it is when called. -/
def Canvas.raw (m : Canvas) (pix : Bytes) (x y : Int) : Option Bytes :=
  if m.offset x y < 0 ∨ (pix.length : Int) < m.offset x y + 4 then none else some ((pix.drop (m.offset x y).toNat).take 4)

/-- `View` (common.go:74-80). -/
def Canvas.view (m : Canvas) (x y w h : Int) : Canvas := { m with x := x, y := y, width := w, height := h }

/-- `AsImage` (common.go:82-90): the offset of a pixel in the `image.RGBA`, by `PixOffset` of the standard library, with `Rect.Min = (-X, -Y)`. -/
def Canvas.imageOffset (m : Canvas) (x y : Int) : Int := (y - -m.y) * m.stride + (x - -m.x) * 4

/-! ## Heatmap -/

/-- The loop over `pix` (heatmap.go:89-96): four bytes at a time. -/
def paint (c : Color) : Bytes → Bytes
  | _ :: _ :: _ :: _ :: rest => c.bytes ++ paint c rest
  | rest => rest

/-- One row of `Heatmap.Draw` on a canvas that is an `RGB` (heatmap.go:70-97, not the gopherjs variant). -/
def heatRow (m : Canvas) (pix : Bytes) (colX colW : Int) (y : Int) (c : Color) : Option Bytes :=
  let row := (m.height - 1 - y + m.y) * m.stride
  let low := row + 4 * (colX + m.x)
  let high := low + 4 * colW
  let high := if high > pix.length then (pix.length : Int) else high
  if low < 0 ∨ high < low then none
  else some (pix.take low.toNat ++ paint c ((pix.drop low.toNat).take (high - low).toNat) ++ pix.drop high.toNat)

/-- `Heatmap.Draw` (heatmap.go:51-107) on an `RGB`, rows `y` to `y + n - 1`. `color y` is the colour for row `y` (lines 54-68, floating point). -/
def heatRows (m : Canvas) (colX colW : Int) (color : Nat → Color) : Nat → Nat → Bytes → Option Bytes
  | _, 0, pix => some pix
  | y, n + 1, pix =>
    match heatRow m pix colX colW y (color y) with
    | none => none
    | some pix => heatRows m colX colW color (y + 1) n pix

/-- heatmap.go:51-107: the rows of one column, from the bottom up. -/
def heatDraw (m : Canvas) (colX colW : Int) (color : Nat → Color) (pix : Bytes) : Option Bytes := heatRows m colX colW color 0 m.height.toNat pix

/-- Sets of a row of pixels from `x` on. (heatmap.go:100-103, draw/key/key.go:33-39, draw/observations/obs.go:92-100.) -/
def setRow (m : Canvas) (y : Int) (c : Color) : Int → Nat → Bytes → Option Bytes
  | _, 0, pix => some pix
  | x, n + 1, pix =>
    match m.set pix x y c with
    | none => none
    | some pix => setRow m y c (x + 1) n pix

/-- `Heatmap.Draw` on another `Canvas` (heatmap.go:99-104), here one that sets pixels as `RGB` does. -/
def heatRowsGeneric (m : Canvas) (colX colW : Int) (color : Nat → Color) : Nat → Nat → Bytes → Option Bytes
  | _, 0, pix => some pix
  | y, n + 1, pix =>
    match setRow m y (color y) colX (min (colX + colW) m.width - colX).toNat pix with
    | none => none
    | some pix => heatRowsGeneric m colX colW color (y + 1) n pix

/-- The rows of `key.Draw` (key.go:33-39): `color y` is the colour for row `y` (lines 34-35, floating point). -/
def keyRows (m : Canvas) (width : Nat) (color : Nat → Color) : Nat → Nat → Bytes → Option Bytes
  | _, 0, pix => some pix
  | y, n + 1, pix =>
    match setRow m y (color y) 0 width pix with
    | none => none
    | some pix => keyRows m width color (y + 1) n pix

/-- The bars of `observations.Draw` (obs.go:92-100): for `y` outside and `x` inside; `top` is the padding and label height. -/
def obsRows (m : Canvas) (top colX colW : Int) (c : Color) : Nat → Nat → Bytes → Option Bytes
  | _, 0, pix => some pix
  | y, n + 1, pix =>
    match setRow m (y + top) c colX colW.toNat pix with
    | none => none
    | some pix => obsRows m top colX colW c (y + 1) n pix

end Rothko
