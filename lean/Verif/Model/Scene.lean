import Verif.Model.Rate
import Verif.Model.Response
/-!
# The positions, texts and colours of pictures (draw/axis/axis.go:120,234, draw/graph/graph.go:98-191, merge/merge.go:52-70, merge/resample.go, data/load/load.go)

The scene of `Model/Response` with everything filled in but the t-digest and float16 libraries, the formatting of numbers and times, and the glyphs. Doubles that are positions are rationals between 0 and 1.
-/
namespace Rothko

/-- Positions on an axis: doubles from 0 to 1 (axis.go:43-46). -/
abbrev Pos := {q : ℚ // 0 ≤ q ∧ q ≤ 1}

/-- A position; what the code computes is always in range already (`C86_positions`) and not changed here. (graph.go:103,128,187.) -/
def clampPos (q : ℚ) : Pos := ⟨max 0 (min 1 q), le_max_left _ _, max_le zero_le_one (min_le_left _ _)⟩

/-- `int(x)` of a double in range: toward zero. (axis.go:120,187,234,305.) -/
def truncQ (q : ℚ) : Int := if q < 0 then -⌊-q⌋ else ⌊q⌋

/-- `int(float64(length-1) * pos)` (axis.go:120,187,234,305). Lengths beyond 2^53, which no memory holds, are taken without rounding. -/
def pxOf (n : Int) (p : Pos) : Int := if n ≤ 9007199254740992 then truncQ (rnS (rnS (n - 1 : Int) * p.1)) else truncQ ((n - 1 : Int) * p.1)

/-- `float64(y) / float64(height)` (graph.go:103,128). -/
def posOf (y height : Int) : ℚ := rn (toDouble y.toNat / toDouble height.toNat)

/-- `1 - float64(now-x)/float64(duration)` (graph.go:187), for `x` up to `now`. -/
def timeAt (now x dur : Int) : ℚ := rnS (1 - rn (toDouble (now - x).toNat / toDouble dur.toNat))

/-- What is not in the repository. A digest of github.com/zeebo/tdigest is opaque (its state written as a list of numbers): reading one (merge/resample.go:36), an empty one (wrapper.go:26), merging (resample.go:40), writing
(resample.go:47), quantiles (wrapper.go:75); `half` is rounding to float16 where that does not overflow (merger.go:229-232, graph.go:130-132); then the formats "%0.2f", "%#.3g" (graph.go:107,135), "obs/sec: %#.3g"
(obs.go:88) and "1/2 @ 15:04" (graph.go:188), the glyphs, and what the conversion of a number out of range to a byte gives (obs.go:93). -/
structure Outside where
  fromBytes : Bytes → Option (List F64)
  empty : List F64
  merge : List F64 → List F64 → Option (List F64)
  marshal : List F64 → Bytes
  quant : List F64 → ℚ → F64
  half : F64 → F64
  rankText : ℚ → Bytes
  valueText : F64 → Bytes
  rateText : Num → Bytes
  timeText : Int → Bytes
  ink : Canvas → Int → Int → Bytes → Bytes → Bytes
  junk : Num → UInt8

/-- "tdigest" (wrapper.go:18). -/
def tdigestKind : Bytes := [116, 100, 105, 103, 101, 115, 116]

/-- `load.Load` (data/load/load.go:16-22) with the one kind there is registered (dist/tdigest/register.go:14); `Unmarshal` (wrapper.go:30-36). The cache of quantiles is empty. -/
def loadRec (e : Outside) (r : DRec) : Option TWrap := if r.kind = tdigestKind then (e.fromBytes r.distribution).map (fun t => { obs := t }) else none

/-- `resampler.Sample` for each record (merge.go:61-66, resample.go:33-44). -/
def resampleAll (e : Outside) : List F64 → List DRec → Option (List F64)
  | t, [] => some t
  | t, r :: rs => if r.kind = tdigestKind then (match e.fromBytes r.distribution with
      | none => none
      | some o => match e.merge t o with
        | none => none
        | some t => resampleAll e t rs) else none

/-- The distribution and kind of merged records (merge.go:52-70, resample.go:46-48), with a compression other than 0 (wrapper.go:22-27). -/
def distOf (e : Outside) (rs : List DRec) : Option (Bytes × Bytes) := (resampleAll e e.empty rs).map (fun t => (e.marshal t, tdigestKind))

/-- `emit` (merger.go:195-238): the values and the rate of a column. `samples` is at least 1. -/
def emitShot (e : Outside) (samples : Int) (rs : List DRec) : Option Shot :=
  match mergeRecs (distOf e) rs with
  | none => none
  | some out => match loadRec e out with
    | none => none
    | some w => some ⟨(sampleRanks samples).map (fun q => e.half (e.quant w.obs (q.getD 0))), obsRate rs⟩

/-- The colour of one row of a column (heatmap.go:54-68), by itself: without the memory of the row before and of quantiles asked for before (`C87_rows`: that makes no difference). -/
def heatAt (e : Outside) (colors : List Color) (newest : TWrap) (s : Shot) (height : Int) (y : Nat) : Option Color :=
  match rowIndex s.data.length height y with
  | none => none
  | some i => match s.data[i]? with
    | none => none
    | some v => colors[colourIndex colors.length (TWrap.cdf e.quant { obs := newest.obs } v).1]?

/-- The axes, and their texts, for the newest record's distribution (graph.go:98-191, obs.go:53). -/
def sceneStyle (e : Outside) (w : TWrap) : Style Pos where
  font := iosevka
  px := pxOf
  posY y h := clampPos (posOf y h)
  one := ⟨1, zero_le_one, le_refl 1⟩
  posT now x dur := clampPos (timeAt now x dur)
  leftText y h := e.rankText (if y = h then 0 else rnS (1 - posOf y h))
  rightText y h := e.valueText (e.half (e.quant w.obs (if y = h then 0 else rnS (1 - posOf y h))))
  timeText := e.timeText
  obsText := [111, 98, 115, 47, 115, 101, 99, 58, 32, 48, 46, 48, 48, 101, 45, 48, 48]

/-- The colours for the newest record's distribution (heatmap.go:54-68, key.go:32-35, obs.go:79-94). -/
def sceneBrush (e : Outside) (colors : List Color) (w : TWrap) : Brush Shot where
  ink := e.ink
  heat s h y := heatAt e colors w s h y
  key h y := keyColour colors h y
  bar cols s := barColour e.junk cols s
  peak cols := (peakOf cols (.fin 0, 0)).2
  label cols := e.rateText (peakOf cols (.fin 0, 0)).1

/-- Pictures as `serveRender` makes them (server.go:149-271). -/
def theScene (e : Outside) (samples : Int) (colors : List Color) : Scene TWrap Shot Pos := ⟨loadRec e, emitShot e samples, sceneStyle e, sceneBrush e colors⟩

end Rothko
