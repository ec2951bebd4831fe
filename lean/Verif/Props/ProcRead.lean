import Verif.Spec.ProcRead
import Verif.Props.Peak
import Verif.Props.ByHand
/-!
# C126: what one reads from the picture a running program draws
-/
namespace Rothko

theorem withTexts_short (e0 : Outside) (old : Bool) (zone : Int → Int) : (withTexts e0 old zone).Short where
  ranks q h0 h1 := by
    obtain ⟨_, _, _, _, h, _⟩ := C115_rank h0 h1
    exact le_of_eq h
  values v := by
    show (valueLabel old v).length ≤ 10
    obtain ⟨s1, s2⟩ := C115_special old v
    by_cases hn : fIsNaN v = true
    · rw [s1 hn]; decide +kernel
    · by_cases hi : fIsInf v = true
      · rw [s2 hi]
        split <;> decide +kernel
      · obtain ⟨_, _, _, _, _, h, _⟩ := C115_value old v (by unfold fFinite; simp [hn, hi])
        exact h

theorem withTexts_ok (e0 : Outside) (old : Bool) (zone : Int → Int) (hink : e0.ink = inkText) : (withTexts e0 old zone).Ok where
  times x h := by
    have h : timeLabel zone x = [] := h
    have := (timeLabel_text zone x rfl).2.1
    rw [h] at this
    simp at this
  ink := C95_inside _ hink

theorem earliest_seen {D α : Type} (p : RenderParams D α) (now dur : Int64) (seen : List Val) : (renderAfter p now dur seen).earliest = none ∨ ∃ v ∈ seen, (renderAfter p now dur seen).earliest = some v.data := by
  unfold renderAfter
  suffices h : ∀ (l : List Val) (st : RenderSt α), (st.earliest = none ∨ ∃ v ∈ seen, st.earliest = some v.data) → (∀ v ∈ l, v ∈ seen) →
      ((l.foldl (fun st v => (renderCb p now dur (now - dur) st v).1) st).earliest = none ∨ ∃ v ∈ seen, (l.foldl (fun st v => (renderCb p now dur (now - dur) st v).1) st).earliest = some v.data) from h seen {} (.inl rfl) (fun v h => h)
  intro l
  induction l with
  | nil => exact fun st h _ => h
  | cons v l ih =>
    intro st hst hl
    refine ih _ ?_ (fun x hx => hl x (List.mem_cons_of_mem _ hx))
    have hv := hl v List.mem_cons_self
    have hpush : ∀ (st : RenderSt α) m r, (renderPush p (now - dur) st m r v).1.earliest = st.earliest := by
      intro st m r
      unfold renderPush
      cases m.push p.draw r <;> rfl
    obtain ⟨ea, ok, width, merger, pan⟩ := st
    dsimp only
    unfold renderCb
    cases DRec.decode v.data with
    | ok r =>
      cases ea with
      | some e => cases merger with
        | none => exact hst
        | some m => exact (hpush ⟨some e, ok, width, some m, pan⟩ m r).symm ▸ hst
      | none =>
        dsimp only
        cases p.load r with
        | none => exact hst
        | some d =>
          dsimp only
          cases p.measure d with
          | panic => exact hst
          | small => exact .inr ⟨v, hv, rfl⟩
          | ok w =>
            dsimp only
            cases Merger.new α now dur w with
            | none => exact hst
            | some m => exact .inr ⟨v, hv, hpush ⟨some v.data, true, w, merger, pan⟩ m r⟩
    | err e => exact hst
    | _ => exact hst

theorem answer_newest {D α : Type} {p : RenderParams D α} {now dur : Int64} {seen : List Val} {err : Option MErr} {nb : Bytes} {w : Int64} {cols : List (Col α)} (h : renderAnswer p now dur (.query seen err) = .columns nb w cols) :
    nb = [] ∨ ∃ v ∈ seen, v.data = nb := by
  have h : renderEnd p (renderAfter p now dur seen) err = _ := h
  have hs := earliest_seen p now dur seen
  generalize renderAfter p now dur seen = st at h hs
  unfold renderEnd at h
  split at h
  · cases h
  · split at h
    · cases h
    · split at h
      · split at h
        · cases h
        · split at h
          · cases h
          · cases h
            rcases hs with hs | ⟨v, hv, hs⟩
            · exact .inl (by rw [hs]; rfl)
            · exact .inr ⟨v, hv, by rw [hs]; rfl⟩
      · cases h

theorem paintCols_some {α : Type} {step : Col α → Bytes → Option Bytes} {cols : List (Col α)} {pix pix' : Bytes} (h : paintCols step cols pix = some pix') : ∀ k ∈ cols, ∃ p p', step k p = some p' := by
  induction cols generalizing pix with
  | nil => intro k hk; cases hk
  | cons c cs ih =>
    rw [paintCols.eq_2] at h
    cases hc : step c pix with
    | none => rw [hc] at h; cases h
    | some p =>
      rw [hc] at h
      intro k hk
      rcases List.mem_cons.mp hk with rfl | hk
      · exact ⟨_, _, hc⟩
      · exact ih h k hk

/-- A picture that was drawn has a colour for each row of its columns and of its key. -/
theorem drawn_colours {e : Outside} {colors : List Color} {w : TWrap} {gm : GraphM Pos} {cols : List (Col Shot)} {x : Canvas × Bytes} (h : drawGraph (sceneStyle e w) (sceneBrush e colors w) gm cols = some x) (hr : gm.right ≠ none) :
    (∀ k ∈ cols, ∀ y, y < gm.height.toNat → ((sceneBrush e colors w).heat k.data gm.height y).isSome) ∧ ∀ y, y < gm.height.toNat → ((sceneBrush e colors w).key gm.height y).isSome := by
  unfold drawGraph at h
  split at h
  · cases h
  · split at h
    · cases h
    · split at h
      · cases h
      · split at h
        · cases h
        · rename_i hp
          unfold paintRight at hp
          split at hp
          · rename_i h0; exact absurd h0 hr
          · split at hp
            · cases hp
            · rename_i hcols
              split at hp
              · cases hp
              · rename_i hkey
                refine ⟨fun k hk y hy => ?_, fun y hy => ?_⟩
                · obtain ⟨p, p', hstep⟩ := paintCols_some hcols k hk
                  unfold paintColumn at hstep
                  split at hstep
                  · rename_i hall
                    exact List.all_eq_true.mp hall y (List.mem_range.mpr hy)
                  · cases hstep
                · unfold paintKey at hkey
                  split at hkey
                  · rename_i hall
                    exact List.all_eq_true.mp hall y (List.mem_range.mpr hy)
                  · cases hkey

theorem eachOf_right' {α β : Type} {R : α → β → Prop} {l : List α} {k : List β} (h : EachOf R l k) : ∀ b ∈ k, ∃ a ∈ l, R a b := by
  induction h with
  | nil => intro a ha; cases ha
  | cons hr _ ih =>
    intro b hb
    rcases List.mem_cons.mp hb with rfl | hb
    · exact ⟨_, List.mem_cons_self, hr⟩
    · obtain ⟨a, ha, h⟩ := ih b hb
      exact ⟨a, List.mem_cons_of_mem _ ha, h⟩

/-- What one reads from a picture made of the columns of these intervals. -/
theorem read_core {e0 : Outside} {old : Bool} {zone : Int → Int} {e : Outside} (he0 : e = withTexts e0 old zone) (hink : e0.ink = inkText) {n : ℕ} {colors : List Color} {state : List Obs → List F64} {d : DistParams} (lib : Library e d state)
    {m : Bytes} {now dur : Int64} {width height padding : Int} {shown : List Batch} {newest : Batch} (hstop : ∀ b ∈ shown, b.stop < now) (htimes : SaneTimes width shown) (hlens : SaneLengths shown) (hobs : ∀ b ∈ shown, obsOf m b.obs ≠ [])
    (hwd : width ≤ dur.toInt) (hwidth : 214 ≤ width) (hwidth2 : width < 2147483646) (hheight : 52 ≤ height) (hheight2 : height < 33554432) (hpad : 0 ≤ padding) (hnew : shown.head? = some newest) {gm : GraphM Pos}
    (hgm : graphMeasure (sceneStyle e { obs := state (obsOf m newest.obs) }) (pngOpts now dur width height padding) = .ok gm) {first : DRec} {cols : List (Col Shot)} (f1 : RecordOf d newest.start newest.stop (obsOf m newest.obs) first)
    (f2 : ColumnsShow e state n m gm.width (batchesAt now dur gm.width shown) cols) (hlen : first.encode.length < 2 ^ 63) {answer : RenderRes Shot} (f3 : answer = .columns first.encode (Int64.ofInt gm.width) cols) {cv : Canvas} {pix : Bytes}
    (hpng : pngOf (theScene e n colors) (pngOpts now dur width height padding) answer = .png cv pix) :
    TextsSay e zone m (state (obsOf m newest.obs)) (pngOpts now dur width height padding) (batchesAt now dur gm.width shown) gm pix cv.width.toNat := by
  have he : e.Ok := by rw [he0]; exact withTexts_ok e0 old zone hink
  have hshort : e.Short := by rw [he0]; exact withTexts_short e0 old zone
  obtain ⟨gm', m1, m2, m3, m4⟩ := any_room he hshort { obs := state (obsOf m newest.obs) } now dur (padding := padding) (show 126 ≤ width by omega) hheight (by omega)
  cases hgm.symm.trans m1
  have hmem : newest ∈ shown := List.mem_of_mem_head? hnew
  have hdec : DRec.decode first.encode = .ok first.norm := (C06_record_round_trip first hlen).1
  have hload : loadRec e first.norm = some { obs := state (obsOf m newest.obs) } := by
    unfold loadRec
    rw [if_pos (by rw [show first.norm.kind = first.kind from rfl, f1.kind, lib.kind]), show first.norm.distribution = first.distribution from rfl, f1.dist, lib.reads]
    rfl
  rw [f3] at hpng
  unfold pngOf at hpng
  dsimp only at hpng
  rw [hdec] at hpng
  dsimp only at hpng
  rw [show (theScene e (n : Int) colors).load first.norm = loadRec e first.norm from rfl, hload] at hpng
  dsimp only at hpng
  rw [show (theScene e (n : Int) colors).style = sceneStyle e from rfl, show (theScene e (n : Int) colors).brush = sceneBrush e colors from rfl, m1] at hpng
  dsimp only at hpng
  cases hdraw : drawGraph (sceneStyle e { obs := state (obsOf m newest.obs) }) (sceneBrush e colors { obs := state (obsOf m newest.obs) }) gm cols with
  | none => rw [hdraw] at hpng; cases hpng
  | some x =>
    obtain ⟨cv', pix'⟩ := x
    rw [hdraw] at hpng
    cases hpng
    obtain ⟨guess, ht⟩ := graphMeasure_try m1
    obtain ⟨_, _, _, _, _, t6, _, t8, _, _, _, _, t13, _⟩ := tryMeasure_ok (sceneStyle_ok he _) ht
    have hr : gm.right ≠ none := fun h0 => by
      have := t8.mp rfl
      rw [h0] at this
      cases this
    obtain ⟨hheat, hkey⟩ := drawn_colours hdraw hr
    have hnow : 0 ≤ now.toInt := by
      have a := Int64.lt_iff_toInt_lt.mp (hstop newest hmem)
      have b := (htimes newest hmem).2.2
      omega
    obtain ⟨c', p', s1, ⟨rank, row, s2, s3, s4, s5, s6, s7⟩, s8, s9⟩ := C115_scene old zone he0 (by rw [he0]; exact hink) colors m1 (by omega) (by omega) (by omega) (by omega) hpad rfl (show 100 ≤ width by omega) hnow (show 0 < dur.toInt by omega) cols
      (fun k hk => by obtain ⟨a, b, c⟩ := f2.inside k hk; exact ⟨a, by omega, c⟩) f2.apart hheat hkey
    rw [hdraw] at s1
    cases s1
    have hps : 0 < dur.toInt / gm.width := by
      have := Int.ediv_le_ediv (show 0 < gm.width by omega) (show gm.width ≤ dur.toInt by omega)
      rw [Int.ediv_self (by omega)] at this
      omega
    have hcols : cols ≠ [] := by
      rintro rfl
      obtain ⟨x, x1, x2⟩ := newest_over (now := now) (dur := dur) (by omega) hps (Int64.le_of_lt (hlens.2 newest hmem).1) (hstop newest hmem) hnew
      obtain ⟨k, hk, _⟩ := f2.values x x1 x2
      cases hk
    have hsub := batchesAt_sub now dur gm.width shown
    obtain ⟨q, k, p1, p2, p3, p4, p5⟩ := peak_shows f2 (fun x hx => ⟨by
        have := (hsub x).2
        have := hlens.1
        omega, fun b hb => by
        have hb := (hsub x).1 b hb
        exact ⟨(htimes b hb).1, (hlens.2 b hb).1, (hlens.2 b hb).2, hobs b hb⟩⟩) hcols
    obtain ⟨k1, k2, k3⟩ := f2.inside k p2
    have hpk : (sceneBrush e colors { obs := state (obsOf m newest.obs) }).peak cols = k.x := by
      show (peakOf cols (.fin 0, 0)).2 = k.x
      rw [p1]
    have t13 : gm.x = padding + gm.left.width := t13
    obtain ⟨t, r', u1, u2, u3, u4⟩ := s9 q (by rw [p1]) (.inr p3) (by rw [hpk]; exact k1) (by omega)
    rw [hpk] at u1
    obtain ⟨v1, v2⟩ := p4 k.x.toNat (by omega) (by unfold Col.Has; omega)
    exact ⟨⟨rank, row, s3, s4, s5, s6, s7⟩, s8, ⟨k.x.toNat, t, q, r', by omega, v1, by rw [show ((k.x.toNat : ℕ) : Int) = k.x by omega]; exact u1, u2, u3, u4, v2, p5⟩⟩

section
variable {c : ProcCfg} {er : SysErrors} {K : Nat} {de : Bytes → Bool} {hit : Bytes → Nat → Bool} {ops : List PFOp} {s s' : ProcF} {l : Option PFOp}

/-- The intervals of a metric have observations of it. -/
theorem kept_observed (h : ProcF.Reach c er (freshFs de hit) ops s) (hok : LifeOk c K (plainOps ops)) (m : Bytes) : ∀ b ∈ (ops.foldl PSpec.stepF {}).kept m, obsOf m b.obs ≠ [] := by
  have inv := fltInv_reach (goodStart_fresh c er de hit) h hok
  obtain ⟨progs, base, acc, hs⟩ := inv.sys
  obtain ⟨recs, r1, _⟩ := hs.db m
  intro b hb h0
  obtain ⟨r, _, hr⟩ := eachOf_right' r1 b hb
  obtain ⟨⟨o, ho, _⟩, _⟩ := hr.min
  rw [h0] at ho
  cases ho

/-- **C126**. The program runs as in C121, and the texts are those of Go's libraries. From any picture it answers with, of a graph at least 214 pixels wide, one reads ranks, values, times and the greatest rate as `TextsSay` says, of intervals of the
metric that were not reported as lost and ended before the time asked for; the values are those of the newest of them. -/
theorem C126_read {e0 : Outside} {old : Bool} {zone : Int → Int} {e : Outside} (he0 : e = withTexts e0 old zone) (hink : e0.ink = inkText) {n : ℕ} (h1 : 1 ≤ n) (hn : n < 2 ^ 50) {colors : List Color} {state : List Obs → List F64} (lib : Library e c.pipe.d state)
    (h : ProcF.Reach c er (freshFs de hit) ops s) (hok : LifeOk c K (plainOps ops)) (hst : s.Step c er l s') {i : Nat} {m : Bytes} {now dur : Int64} {width height padding : Int} {dir : Option DirFault} {unlink : Bool} {r : DbRes}
    (hw : er.Whole m) (hlog : s'.sys.log = s.sys.log ++ [(i, m, ⟨pngCall (theScene e n colors) c.pipe.cfg now dur width height padding, dir, unlink⟩, r)])
    (htimes : SaneTimes width ((ops.foldl PSpec.stepF {}).kept m)) (hlens : SaneLengths ((ops.foldl PSpec.stepF {}).kept m)) (hfar : now.toInt + dur.toInt < 9223372036854775808) (hwd : width ≤ dur.toInt)
    (hwidth : 214 ≤ width) (hwidth2 : width < 2147483646) (hheight : 52 ≤ height) (hheight2 : height < 33554432) (hpad : 0 ≤ padding)
    {cv : Canvas} {pix : Bytes} (hpng : pngAnswer (theScene e n colors) now dur width height padding r = .png cv pix) :
    ∃ (shown : List Batch) (newest : Batch) (gm : GraphM Pos), shown.Sublist ((ops.foldl PSpec.stepF {}).kept m) ∧ (∀ b ∈ shown, b.stop < now) ∧ (∀ seen err, r = .query seen err → seen.map (·.stop) <+: shown.map (·.stop)) ∧
      shown.head? = some newest ∧ graphMeasure (sceneStyle e { obs := state (obsOf m newest.obs) }) (pngOpts now dur width height padding) = .ok gm ∧
      TextsSay e zone m (state (obsOf m newest.obs)) (pngOpts now dur width height padding) (batchesAt now dur gm.width shown) gm pix cv.width.toNat := by
  have he : e.Ok := by rw [he0]; exact withTexts_ok e0 old zone hink
  have hshort : e.Short := by rw [he0]; exact withTexts_short e0 old zone
  unfold pngAnswer at hpng
  obtain ⟨shown, g1, g2, g3, g4, g5⟩ := C125_columns he h1 hn (colors := colors) lib h hok hst hw hlog
  have hne : shown ≠ [] := by
    intro h0
    rcases g4 h0 with e | e <;> rw [e] at hpng <;> cases hpng
  rcases g5 hne (fun b hb => htimes b (g1.subset hb)) hfar hwd with ⟨e, _⟩ | ⟨newest, hnew, key⟩
  · rw [e] at hpng; cases hpng
  obtain ⟨gm, m1, m2, m3, m4⟩ := any_room he hshort { obs := state (obsOf m newest.obs) } now dur (padding := padding) (show 126 ≤ width by omega) hheight (by omega)
  obtain ⟨first, cols, f1, f2, f3⟩ := key gm m1 (by omega)
  have hmem : newest ∈ shown := List.mem_of_mem_head? hnew
  refine ⟨shown, newest, gm, g1, g2, g3, hnew, m1, ?_⟩
  -- the newest record is read back
  have hlen : first.encode.length < 2 ^ 63 := by
    obtain ⟨d1, _, _, _, q3, _, _, q6, _⟩ := queryF_list h hok hst hw hlog
    cases r with
    | query seen err =>
      rcases answer_newest f3 with h0 | ⟨v, hv, h0⟩
      · rw [h0]; decide
      · obtain ⟨x, hx, rfl⟩ := List.mem_map.mp ((q6 seen err rfl).subset hv)
        rw [← h0]
        exact fits_small (o := c.pipe) hok.geo q3 x hx
    | _ => cases f3
  exact read_core he0 hink lib g2 (fun b hb => htimes b (g1.subset hb)) ⟨lt_of_le_of_lt g1.length_le hlens.1, fun b hb => hlens.2 b (g1.subset hb)⟩ (fun b hb => kept_observed h hok m b (g1.subset hb)) hwd hwidth hwidth2 hheight hheight2 hpad hnew m1 f1 f2 hlen f3 hpng

/-- **C126, as asked for.** The same of the request for a graph with any address whose sizes are usable. -/
theorem C126_asked {b : Backend TWrap Shot Pos} {ext : F64 → Outside} (hb : b.Real ext) {ask : RenderAsk} {e0 : Outside} {old : Bool} {zone : Int → Int} (he0 : ext ask.compression = withTexts e0 old zone) (hink : e0.ink = inkText)
    {state : List Obs → List F64} (lib : Library (ext ask.compression) c.pipe.d state)
    (h : ProcF.Reach c er (freshFs de hit) ops s) (hok : LifeOk c K (plainOps ops)) (hst : s.Step c er l s') {i : Nat} {dir : Option DirFault} {unlink : Bool} {r : DbRes}
    (hw : er.Whole ask.metric) (hlog : s'.sys.log = s.sys.log ++ [(i, ask.metric, ⟨ask.call b c.pipe.cfg, dir, unlink⟩, r)])
    (hu : ask.Usable) (hwidth : 214 ≤ ask.nums.width.toInt) (hwidth2 : ask.nums.width.toInt < 2147483646) (htimes : SaneTimes ask.nums.width.toInt ((ops.foldl PSpec.stepF {}).kept ask.metric))
    (hlens : SaneLengths ((ops.foldl PSpec.stepF {}).kept ask.metric)) {cv : Canvas} {pix : Bytes} (hpng : ask.page b r = .png cv pix) :
    ∃ (shown : List Batch) (newest : Batch) (gm : GraphM Pos), shown.Sublist ((ops.foldl PSpec.stepF {}).kept ask.metric) ∧ (∀ b ∈ shown, b.stop < ask.nums.now) ∧ (∀ seen err, r = .query seen err → seen.map (·.stop) <+: shown.map (·.stop)) ∧
      shown.head? = some newest ∧
      graphMeasure (sceneStyle (ext ask.compression) { obs := state (obsOf ask.metric newest.obs) }) (pngOpts ask.nums.now ask.dur ask.nums.width.toInt ask.nums.height.toInt ask.nums.padding.toInt) = .ok gm ∧
      TextsSay (ext ask.compression) zone ask.metric (state (obsOf ask.metric newest.obs)) (pngOpts ask.nums.now ask.dur ask.nums.width.toInt ask.nums.height.toInt ask.nums.padding.toInt) (batchesAt ask.nums.now ask.dur gm.width shown) gm pix
        cv.width.toNat := by
  obtain ⟨n, hn⟩ : ∃ n : ℕ, ask.nums.samples.toInt = n := ⟨ask.nums.samples.toInt.toNat, by have := hu.samples.1; omega⟩
  have hsc : ask.scene b = theScene (ext ask.compression) (n : ℕ) viridis := by
    unfold RenderAsk.scene
    rw [hb.scene, hn]
  unfold RenderAsk.call at hlog
  unfold RenderAsk.page at hpng
  rw [hsc] at hlog hpng
  have := hu.samples
  have := hu.high
  have := hu.padding
  exact C126_read he0 hink (n := n) (by omega) (by omega) lib h hok hst hw hlog htimes hlens hu.time hu.duration hwidth hwidth2 hu.height (by omega) hu.padding hpng

end

end Rothko
