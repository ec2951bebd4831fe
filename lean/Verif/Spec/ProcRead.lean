import Verif.Props.LabelsScene
import Verif.Props.Answer
/-!
What one reads from the picture of a graph (C126).
-/
namespace Rothko

/-- The texts of the picture `pix` (of `stride` pixels to a row) of the metric `m`, drawn of the intervals `at_ p` over each pixel `p` of the heatmap, the newest of which has the digest `obs`. The heatmap is `gm.width` by `gm.height` at
`gm.x`, `gm.y`.
* Beside the ticks every 30 rows, and the lowest one, stand on the left the ranks of their rows, to half a hundredth, and on the right the values of these ranks, if they are finite, to half a percent.
* Under the heatmap stand, unless they are too close together, the local times of the ticks, to the minute.
* Above the bars stands, over a pixel where it is greatest (or as far to the right as there is room), the mean number of observations per second of the intervals over it, to half a percent and the rounding of the sum. -/
structure TextsSay (e : Outside) (zone : Int → Int) (m : Bytes) (obs : List F64) (o : GraphOpts) (at_ : Int → List Batch) (gm : GraphM Pos) (pix : Bytes) (stride : Nat) : Prop where
  sides : ∃ (rank : Int → ℚ) (row : Int → Int), row gm.height = gm.height - 1 ∧ row 0 = 0 ∧ (∀ y, 0 < y → y < gm.height → row y = y - 1) ∧
    (∀ y, 0 ≤ y → y ≤ gm.height → 0 ≤ rank y ∧ rank y ≤ 1 ∧ |rank y - (1 - (y : ℚ) / gm.height)| ≤ 1 / 2 ^ 52) ∧
    ∀ y, (∃ k, y = 30 * k ∧ 0 ≤ y ∧ y ≤ gm.height - 30) ∨ y = gm.height →
      (∃ t r, Seen pix stride (gm.x - 37) (gm.y + row y) 0 11 t ∧ t.length = 4 ∧ Says t r ∧ |r - (1 - (y : ℚ) / gm.height)| ≤ 1 / 200 + 1 / 2 ^ 52) ∧
      (fFinite (e.half (e.quant obs (rank y))) = true → ∃ t r, Seen pix stride (gm.x + gm.width + 28) (gm.y + row y) 0 11 t ∧ Says t r ∧ Nearest3 (fVal (e.half (e.quant obs (rank y)))) r ∧
        |r - fVal (e.half (e.quant obs (rank y)))| ≤ |fVal (e.half (e.quant obs (rank y)))| / 200)
  times : ∃ unit, naturalUnit o.duration o.width = some unit ∧ 3600000000000 ≤ unit ∧ (12 * o.duration ≤ (gm.width + 1) * unit → o.duration ≤ o.now → (∀ s, -86400 ≤ zone s) →
    ∀ x y txt, Mark.text x y txt ∈ gm.bottom.draw iosevka pxOf → Seen pix stride (gm.x - 1 + x) (gm.y + gm.height + 13) 1 14 txt ∧
      ∃ t, unit ∣ t ∧ o.now - o.duration < t ∧ t ≤ o.now ∧ ∃ day sec : Nat, sec < 86400 ∧ ((day : Int) - 719162) * 86400 + sec = t / 1000000000 + zone (t / 1000000000) ∧
        SaysTime txt (dayNo day).month (dayNo day).day (sec / 3600) (sec % 3600 / 60))
  rate : ∃ (p : ℕ) (t : Bytes) (q r : ℚ), (p : Int) < gm.width ∧ at_ p ≠ [] ∧
    Seen pix stride (gm.x + if (p : Int) + 102 > gm.width then gm.width - 102 else p) o.padding 0 14 ("obs/sec: ".toUTF8.toList ++ t) ∧ Says t r ∧ Nearest3 q r ∧ |r - q| ≤ q / 200 ∧
    About ((at_ p).length + 7) (meanRate m (at_ p)) q ∧ ∀ p' : ℕ, (p' : Int) < gm.width → at_ p' ≠ [] → ∃ q', About ((at_ p').length + 7) (meanRate m (at_ p')) q' ∧ q' ≤ q

/-- The intervals have a length and fewer than 2^53 observations, and are fewer than 2^53. -/
def SaneLengths (kept : List Batch) : Prop := kept.length < 9007199254740992 ∧ ∀ b ∈ kept, b.start < b.stop ∧ b.obs.length < 9007199254740992

end Rothko
