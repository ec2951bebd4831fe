import Verif.Props.KillShown
import Verif.Props.KillOrder
import Verif.Props.ProcRead
/-!
# C128: the texts and the columns of a graph after a kill
-/
namespace Rothko

/-- What the server makes of the values shown, whatever it draws. -/
theorem columns_same {D α : Type} (p : RenderParams D α) {cfg cfg' : Cfg} {now : Int64} (dur : Int64) {s t : Store} {vs : List Val} (hs : (queryList cfg now (fun _ _ => .more) s).1 = (vs, none))
    (ht : (queryList cfg' now (fun _ _ => .more) t).1 = (vs, none)) : (serveRender p cfg now dur s).1 = (serveRender p cfg' now dur t).1 := by
  unfold serveRender
  dsimp only
  rw [query_any hs, query_any ht]

/-- Only values that were read are handed out. -/
theorem seen_mem {D α P : Type} (sc : Scene D α P) (now dur : Int64) (width height padding : Int) : ∀ (L seen : List Val), ∀ v ∈ (visit (seenCb sc now dur width height padding) L seen).1, v ∈ seen ∨ v ∈ L := by
  intro L
  induction L with
  | nil => exact fun seen v hv => .inl hv
  | cons x L ih =>
    intro seen v hv
    rw [visit] at hv
    cases hc : seenCb sc now dur width height padding seen x with
    | mk s' k =>
      have hs : s' = seen ++ [x] := (congrArg Prod.fst hc).symm
      have hout : v ∈ s' → v ∈ seen ∨ v ∈ x :: L := fun h => by
        rw [hs] at h
        rcases List.mem_append.mp h with h | h
        · exact .inl h
        · exact .inr (by rw [List.mem_singleton.mp h]; exact List.mem_cons_self)
      rw [hc] at hv
      cases k with
      | more =>
        rcases ih s' v hv with h | h
        · exact hout h
        · exact .inr (List.mem_cons_of_mem _ h)
      | stop => exact hout hv
      | err => exact hout hv
      | cancel => exact hout hv

/-- The columns, and the texts of the picture, of a store that shows just these records. -/
theorem read_of {c : ProcCfg} {e0 : Outside} {old : Bool} {zone : Int → Int} {e : Outside} (he0 : e = withTexts e0 old zone) (hink : e0.ink = inkText) {n : ℕ} (h1 : 1 ≤ n) (hn : n < 2 ^ 50) {colors : List Color} {state : List Obs → List F64}
    (lib : Library e c.pipe.d state) (hg : GeoOk c.pipe.cfg.size c.pipe.cfg.cap) {m : Bytes} {sh : List DRec} {shown : List Batch} (p2 : EachOf (Right c.pipe.d m) sh shown) (r2 : ∀ r ∈ sh, needs c.pipe.cfg.size r.encode.length < c.pipe.cfg.cap)
    (hsne : shown ≠ []) (hvsort : (sh.map valOf).Pairwise (fun a b => b.stop < a.stop)) {now dur : Int64} {width height padding : Int} (hbound : ∀ v ∈ sh.map valOf, v.stop < now) (htimes : SaneTimes width shown) (hlens : SaneLengths shown)
    (hfar : now.toInt + dur.toInt < 9223372036854775808) (hpad : 0 ≤ padding) (hwd : width ≤ dur.toInt) (hwidth : 214 ≤ width) (hwidth2 : width < 2147483646) (hheight : 52 ≤ height) (hheight2 : height < 33554432) {cfg : Cfg} {s : Store}
    (hs : (queryList cfg now (fun _ _ => .more) s).1 = (sh.map valOf, none)) :
    ∃ newest gm, shown.head? = some newest ∧ graphMeasure (sceneStyle e { obs := state (obsOf m newest.obs) }) (pngOpts now dur width height padding) = .ok gm ∧ 0 < gm.width ∧
      (∃ first cols, RecordOf c.pipe.d newest.start newest.stop (obsOf m newest.obs) first ∧ ColumnsShow e state n m gm.width (batchesAt now dur gm.width shown) cols ∧
        (serveRender ((theScene e n colors).params (pngOpts now dur width height padding)) cfg now dur s).1 = .columns first.encode (Int64.ofInt gm.width) cols) ∧
      ∀ cv pix, (servePng (theScene e n colors) cfg now dur width height padding s).1 = .png cv pix →
        TextsSay e zone m (state (obsOf m newest.obs)) (pngOpts now dur width height padding) (batchesAt now dur gm.width shown) gm pix cv.width.toNat := by
  have he : e.Ok := by rw [he0]; exact withTexts_ok e0 old zone hink
  have hshort : e.Short := by rw [he0]; exact withTexts_short e0 old zone
  obtain ⟨t, ht⟩ := reachCfg_list { c.pipe.cfg with max := 0 } hg (sh.map valOf) hvsort (by
    intro v hv
    obtain ⟨r, hr, rfl⟩ := List.mem_map.mp hv
    exact r2 r hr)
  have hstop := (stops_before p2 now).mp hbound
  have hshne : sh.map valOf ≠ [] := fun e => hsne ((eachOf_nil p2).mp (List.map_eq_nil_iff.mp e))
  obtain ⟨newest, st, dr, z1, z2, z3, z4⟩ := columns_records he h1 hn (colors := colors) { c.pipe with cfg := { c.pipe.cfg with max := 0 } } lib hg p2 r2 ht hsne now dur width height padding
    (fun b hb => ⟨(htimes b hb).1, (htimes b hb).2.1, (htimes b hb).2.2, hstop b hb⟩) hfar hwd
  have z5 := z3 (Int.le_refl _)
  subst z5
  rw [List.append_nil] at z1
  subst z1
  obtain ⟨gm, m1, m2, m3, m4⟩ := any_room he hshort { obs := state (obsOf m newest.obs) } now dur (padding := padding) (show 126 ≤ width by omega) hheight (by omega)
  have hgw : 0 < gm.width := by omega
  obtain ⟨first, cols, f1, f2, f3⟩ := z4 gm m1 hgw
  have hq : (queryList { c.pipe.cfg with max := 0 } now (fun _ _ => .more) t).1 = (sh.map valOf, none) := by
    rcases ht.inv with ⟨_, _, ha⟩ | ⟨first, last, H, V, d, inv, hc⟩
    · exact absurd ha hshne
    · have q := inv.stored_query { c.pipe.cfg with max := 0 } now hbound
      have hd : d = [] := Classical.byContradiction fun hx => by have := (hc.drop hx).1; revert this; show ¬ (0 : Int) < 0; omega
      rw [q, inv.eq, hd, List.append_nil]
  have f4 : (serveRender ((theScene e n colors).params (pngOpts now dur width height padding)) cfg now dur s).1 = .columns first.encode (Int64.ofInt gm.width) cols := by
    rw [columns_same _ dur hs hq]
    exact f3
  refine ⟨newest, gm, z2, m1, hgw, ⟨first, cols, f1, f2, f4⟩, fun cv pix hpng => ?_⟩
  have hlen : first.encode.length < 2 ^ 63 := by
    have f3 := f3
    rw [columns_list (theScene e n colors) { c.pipe.cfg with max := 0 } now dur width height padding hg (Int.le_refl _) ht hshne hbound] at f3
    rcases answer_newest f3 with h0 | ⟨v, hv, h0⟩
    · rw [h0]; decide
    · rcases seen_mem _ _ _ _ _ _ _ _ v hv with h | h
      · cases h
      · obtain ⟨x, hx, rfl⟩ := List.mem_map.mp h
        rw [← h0]
        exact fits_small (o := c.pipe) hg r2 x hx
  refine read_core he0 hink lib hstop htimes hlens (fun b hb h0 => ?_) hwd hwidth hwidth2 hheight hheight2 hpad z2 m1 f1 f2 hlen f4 hpng
  obtain ⟨r, _, hr⟩ := eachOf_right' p2 b hb
  obtain ⟨⟨o, ho, _⟩, _⟩ := hr.min
  rw [h0] at ho
  cases ho

section
variable {c : ProcCfg} {K : Nat} {de : Bytes → Bool} {hit : Bytes → Nat → Bool} {ops : List POp} {s : Proc}

/-- **C128.** The program is killed as in C127, and the texts are those of Go's libraries. A request for the graph of a metric in the next process is answered with the newest record and the columns of the intervals that C127 says are shown, and
from the picture, of a graph at least 214 pixels wide, one reads their ranks, values, times and greatest rate. -/
theorem C128_read {e0 : Outside} {old : Bool} {zone : Int → Int} {e : Outside} (he0 : e = withTexts e0 old zone) (hink : e0.ink = inkText) {n : ℕ} (h1 : 1 ≤ n) (hn : n < 2 ^ 50) {colors : List Color} {state : List Obs → List F64}
    (lib : Library e c.pipe.d state) (h : Proc.Reach c (freshFs de hit) ops s) (hok : ProcOk c K ops) (pt : Bytes → KillPoint) (hcut : s.sys.CutsOk pt) (m : Bytes) :
    ∃ found : List Batch, (found = (ops.foldl PSpec.step {}).kept m ∨ s.dumping = true ∧ ∃ b, (ops.foldl PSpec.step {}).kept m = b :: found) ∧
      (found ≠ [] → ∃ shown, shown <+: found ∧ shown ≠ [] ∧ (c.pipe.cfg.max ≤ 0 → shown = found) ∧
        ∀ (hit' : Nat → Bool) (cfg : Cfg) (now dur : Int64) (width height padding : Int), (∀ t ∈ dumpTimes ops, t < now) → SaneTimes width shown → SaneLengths shown → now.toInt + dur.toInt < 9223372036854775808 → 0 ≤ padding →
          width ≤ dur.toInt → 214 ≤ width → width < 2147483646 → 52 ≤ height → height < 33554432 →
          ∃ newest gm, shown.head? = some newest ∧ graphMeasure (sceneStyle e { obs := state (obsOf m newest.obs) }) (pngOpts now dur width height padding) = .ok gm ∧ 0 < gm.width ∧
            (∃ first cols, RecordOf c.pipe.d newest.start newest.stop (obsOf m newest.obs) first ∧ ColumnsShow e state n m gm.width (batchesAt now dur gm.width shown) cols ∧
              (serveRender ((theScene e n colors).params (pngOpts now dur width height padding)) cfg now dur { (s.sys.killed pt m).reopen with hit := hit' }).1 = .columns first.encode (Int64.ofInt gm.width) cols) ∧
            ∀ cv pix, (servePng (theScene e n colors) cfg now dur width height padding { (s.sys.killed pt m).reopen with hit := hit' }).1 = .png cv pix →
              TextsSay e zone m (state (obsOf m newest.obs)) (pngOpts now dur width height padding) (batchesAt now dur gm.width shown) gm pix cv.width.toNat) := by
  obtain ⟨found, f1, f2⟩ := killed_shown h hok pt hcut m
  refine ⟨found, f1, fun hne => ?_⟩
  obtain ⟨shown, sh, g1, g2, g3, g4, g5, g6, g7⟩ := f2 hne
  refine ⟨shown, g1, g2, g3, fun hit' cfg now dur width height padding hnow htimes hlens hfar hpad hwd hw1 hw2 hh1 hh2 => ?_⟩
  obtain ⟨k1, k2⟩ := g7 hit' cfg now width hnow htimes
  exact read_of he0 hink h1 hn lib hok.geo g4 g5 g2 g6 k1 htimes hlens hfar hpad hwd hw1 hw2 hh1 hh2 k2

end

/-- **C128** (again and again). As C127 with a clock that goes forward: what one reads from the columns and from the picture after many kills. -/
theorem C128_forward {c : ProcCfg} {K : Nat} {de : Bytes → Bool} {hit : Bytes → Nat → Bool} {fs : Bytes → Store} {lives : List (List POp)} {e0 : Outside} {old : Bool} {zone : Int → Int} {e : Outside} (he0 : e = withTexts e0 old zone) (hink : e0.ink = inkText)
    {n : ℕ} (h1 : 1 ≤ n) (hn : n < 2 ^ 50) {colors : List Color} {state : List Obs → List F64} (lib : Library e c.pipe.d state) (hg : GeoOk c.pipe.cfg.size c.pipe.cfg.cap) (h : PLives c K (freshFs de hit) fs lives)
    (hclock : (lives.flatMap (fun ops => (dumpTimes ops).reverse)).Pairwise (fun a b => b < a)) (m : Bytes) (hd : (fs m).dir ≠ []) :
    ∃ (vs : List Val) (shown : List Batch), ShowsAll (fs m) (lives.flatMap dumpTimes) vs ∧ shown.Sublist (keptOf lives m) ∧ EachOf (fun v (b : Batch) => v.start = b.start ∧ v.stop = b.stop) vs shown ∧
      (vs ≠ [] → ∀ (hit' : Nat → Bool) (cfg : Cfg) (now dur : Int64) (width height padding : Int), (∀ t ∈ lives.flatMap dumpTimes, t < now) → SaneTimes width shown → SaneLengths shown → now.toInt + dur.toInt < 9223372036854775808 →
        0 ≤ padding → width ≤ dur.toInt → 214 ≤ width → width < 2147483646 → 52 ≤ height → height < 33554432 →
        ∃ newest gm, shown.head? = some newest ∧ graphMeasure (sceneStyle e { obs := state (obsOf m newest.obs) }) (pngOpts now dur width height padding) = .ok gm ∧ 0 < gm.width ∧
          (∃ first cols, RecordOf c.pipe.d newest.start newest.stop (obsOf m newest.obs) first ∧ ColumnsShow e state n m gm.width (batchesAt now dur gm.width shown) cols ∧
            (serveRender ((theScene e n colors).params (pngOpts now dur width height padding)) cfg now dur { (fs m).reopen with hit := hit' }).1 = .columns first.encode (Int64.ofInt gm.width) cols) ∧
          ∀ cv pix, (servePng (theScene e n colors) cfg now dur width height padding { (fs m).reopen with hit := hit' }).1 = .png cv pix →
            TextsSay e zone m (state (obsOf m newest.obs)) (pngOpts now dur width height padding) (batchesAt now dur gm.width shown) gm pix cv.width.toNat) := by
  obtain ⟨recs, shown, hall, e2, e3, e4, hvsort, hst, heach⟩ := forward_shown h hclock m hd
  refine ⟨recs.map valOf, shown, hall, e3, heach, fun hne hit' cfg now dur width height padding hnow htimes hlens hfar hpad hwd hw1 hw2 hh1 hh2 => ?_⟩
  have hsne : shown ≠ [] := fun e => hne (by rw [(eachOf_nil e2).mpr e]; rfl)
  have hbound : ∀ v ∈ recs.map valOf, v.stop < now := fun v hv => hnow _ (hst v hv)
  have hpos : 0 < now := by
    obtain ⟨b, hb⟩ := List.exists_mem_of_ne_nil _ hsne
    have a := Int64.lt_iff_toInt_lt.mp ((stops_before e2 now).mp hbound b hb)
    have b := (htimes b hb).2.2
    exact Int64.lt_iff_toInt_lt.mpr (by show (0 : Int) < _; omega)
  exact read_of he0 hink h1 hn lib hg e2 e4 hsne hvsort hbound htimes hlens hfar hpad hwd hw1 hw2 hh1 hh2 (hall hit' cfg now hpos hnow)

end Rothko
