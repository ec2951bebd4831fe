import Verif.Model.Request
import Verif.Spec.ProcFault
import Verif.Props.Scene
/-!
The picture of some intervals of a metric (C120).
-/
namespace Rothko

/-- The answer is the picture of these intervals, newest first: as soon as there is room for the heatmap, it is a picture of the size asked for in which a pixel of the heatmap is white if none of the intervals is over its time, and else has
the colour of its row for the observations in the intervals over it; the key has in each row the colour at its share of the way through the colours; and if each interval lasted, the bars are dark in proportion to the mean number of observations
per second. -/
def ShowsIntervals (e : Outside) (n : ℕ) (colors : List Color) (state : List Obs → List F64) (m : Bytes) (now dur : Int64) (width height padding : Int) (newest : Batch) (stored : List Batch) (page : Page) : Prop :=
  ∀ gm, graphMeasure (sceneStyle e { obs := state (obsOf m newest.obs) }) (pngOpts now dur width height padding) = .ok gm → 0 < gm.width → 2 ≤ gm.height →
    (n : Int) * (gm.height - 1) < 1125899906842624 → ((colors.length - 1 : ℕ) : Int) * (gm.height - 1) < 1125899906842624 →
    ∃ cv pix, page = .png cv pix ∧ cv.width = width + 2 * padding ∧ cv.height = height + 2 * padding ∧ IsImage pix cv.width.toNat cv.height.toNat ∧
      (∀ x y : Nat, x < gm.width → y < gm.height → ∃ k, pixel pix cv.width.toNat (gm.x + x).toNat (gm.y + y).toNat = some (k, 255) ∧
        if batchesAt now dur gm.width stored x = [] then k = white
        else RowColour e state colors n gm.height.toNat (obsOf m newest.obs) ((batchesAt now dur gm.width stored x).map (fun b => obsOf m b.obs)) (gm.height - 1 - y).toNat k) ∧
      (∀ x y : Nat, x < 10 → y < gm.height → ∃ i k, RowShows colors.length gm.height.toNat (gm.height.toNat - 1 - y) i ∧ colors[i]? = some k ∧ pixel pix cv.width.toNat (gm.x + gm.width + 5 + x).toNat (gm.y + y).toNat = some (k, 255)) ∧
      ((∀ b ∈ stored, b.start < b.stop ∧ b.obs.length < 9007199254740992) → stored.length < 9007199254740992 → ∃ bar : ℕ → Color, BarsShow m gm.width (batchesAt now dur gm.width stored) bar ∧
        ∀ x y : Nat, x < gm.width → y < 5 → pixel pix cv.width.toNat (gm.x + x).toNat (gm.y - 5 + y).toNat = some (bar x, 255))

/-- What a request for the graph of a metric may be answered when these are the intervals whose records are written, newest first; `failed` says whether an error is allowed although there is something to show. -/
def GraphOf (c : ProcCfg) (failed : Prop) (e : Outside) (n : ℕ) (colors : List Color) (state : List Obs → List F64) (m : Bytes) (now dur : Int64) (width height padding : Int) (kept : List Batch) (page : Page) : Prop :=
  (kept = [] → page = .tooSmall ∨ page = .failed) ∧
  (kept ≠ [] → (∀ b ∈ kept, 0 ≤ b.start.toInt ∧ b.start.toInt + width < 9223372036854775808 ∧ 0 ≤ b.stop.toInt ∧ b.stop < now) → now.toInt + dur.toInt < 9223372036854775808 → 0 ≤ padding → width ≤ dur.toInt → height ≤ 9007199254740992 →
    page = .failed ∧ failed ∨ ∃ (newest : Batch) (stored dropped : List Batch), kept = stored ++ dropped ∧ stored.head? = some newest ∧ (c.pipe.cfg.max ≤ 0 → dropped = []) ∧
      ShowsIntervals e n colors state m now dur width height padding newest stored page)

end Rothko
