import Verif.Model.Ieee
import Verif.Model.Cdf
import Verif.Model.Picture
/-!
# The colours of the heatmap and of its key (draw/heatmap/heatmap.go:51-68, draw/key/key.go:32-35, merge/merger.go:222-235)
-/
namespace Rothko

/-- The double nearest to an integer: `float64(n)`. (draw/heatmap/heatmap.go:54,61.) -/
def toDouble (n : Nat) : ℚ := rn n

/-- The index into `n` values for row `y` from below of `height` (heatmap.go:54,61). With one row it is `int(NaN)`, which is no index. Without values (`n = 0`) the index does not matter. -/
def rowIndex (n : Nat) (height : Int) (y : Nat) : Option Nat :=
  if height = 1 then none else some ⌊rn (toDouble y * rn (toDouble (n - 1) / toDouble (height - 1).toNat))⌋₊

/-- The index of a colour for a rank (heatmap.go:44,65). -/
def colourIndex (ncolors : Nat) (rank : ℚ) : Nat := ⌊rn (rank * toDouble (ncolors - 1))⌋₊

/-- The loop over the rows of a column (heatmap.go:57-68): the colours of the rows from `y` on, the index that was last looked up and its colour, and the newest record's digest, whose quantiles are kept (dist/tdigest/wrapper.go:80-90).
`none`: an index out of range, a panic. -/
def heatColours (quant : List F64 → Rat → F64) (colors : List Color) (data : List F64) (height : Int) : Nat → Nat → Option Nat → Color → TWrap → Option (List Color × TWrap)
  | _, 0, _, _, w => some ([], w)
  | y, n + 1, last, color, w =>
    match rowIndex data.length height y with
    | none => none
    | some index =>
      if last = some index then (heatColours quant colors data height (y + 1) n last color w).map (fun r => (color :: r.1, r.2))
      else match data[index]? with
        | none => none
        | some v =>
          let r := w.cdf quant v
          match colors[colourIndex colors.length r.1]? with
          | none => none
          | some color => (heatColours quant colors data height (y + 1) n (some index) color r.2).map (fun r => (color :: r.1, r.2))

/-- `Heatmap.Draw`'s colours of all rows (heatmap.go:51-68). `Colors[0]` is read first. -/
def columnColours (quant : List F64 → Rat → F64) (colors : List Color) (data : List F64) (height : Int) (w : TWrap) : Option (List Color × TWrap) :=
  match colors with
  | [] => none
  | c :: _ => heatColours quant colors data height 0 height.toNat none c w

/-- The colour of row `y` of the key, from above (key.go:32-35). -/
def keyColour (colors : List Color) (height : Int) (y : Nat) : Option Color :=
  match rowIndex colors.length height ((height - 1).toNat - y) with
  | none => none
  | some i => colors[i]?

/-- The ranks that a column samples (merger.go:227-228): `i / samples` for `i` from 0 to `samples`. For no samples it is the rank `0/0`, not a number: here `none`. -/
def sampleRanks (samples : Int) : List (Option ℚ) :=
  if samples < 0 then [] else if samples = 0 then [none] else (List.range (samples.toNat + 1)).map (fun i => some (rn (toDouble i / toDouble samples.toNat)))

end Rothko
