import Verif.Props.ProcColumns
/-!
# A graph of -1 samples (api/server.go:165, merge/merger.go:222-235, draw/heatmap/heatmap.go:54-66)
-/
namespace Rothko

section
variable {α β : Type} (g : α → β)

/-- A column of other data. -/
def Col.to (c : Col α) : Col β := ⟨c.x, c.w, g c.data⟩

/-- A merger of columns of other data. -/
def Merger.to (m : Merger α) : Merger β := ⟨m.now, m.width, m.ps, m.completed, m.records, m.columns.map (Col.to g)⟩

variable {draw : List DRec → Option α}

theorem emitCol_to (cols : List (Col α)) (a b : Int) (recs : List DRec) :
    emitCol (fun r => (draw r).map g) (cols.map (Col.to g)) a b recs = (emitCol draw cols a b recs).map (List.map (Col.to g)) := by
  unfold emitCol
  cases h : draw recs <;> simp [h, Col.to]

theorem completedLoop_to (rs : List MRec) (lo : Int) (n : Nat) (a : Int) (t : List Nat) (cols : List (Col α)) :
    completedLoop (fun r => (draw r).map g) rs lo n a t (cols.map (Col.to g)) = (completedLoop draw rs lo n a t cols).map (fun x => (x.1, x.2.1, x.2.2.map (Col.to g))) := by
  induction n generalizing a t cols with
  | zero => rfl
  | succ n ih =>
    rw [completedLoop.eq_2, completedLoop.eq_2, emitCol_to]
    split
    · exact ih _ _ _
    · split
      · cases emitCol draw cols (lo + n + 1) a (atIdx rs t) with
        | none => rfl
        | some cols => exact ih _ _ _
      · exact ih _ _ _

theorem complete_to (m : Merger α) (c : Int) : (m.to g).complete (fun r => (draw r).map g) c = (m.complete draw c).map (Merger.to g) := by
  unfold Merger.complete
  show (match completedLoop _ m.records c (m.completed - c).toNat 0 [] (m.columns.map (Col.to g)) with | none => _ | some (a, b, d) => _) = _
  rw [completedLoop_to]
  cases completedLoop draw m.records c (m.completed - c).toNat 0 [] m.columns with
  | none => rfl
  | some x =>
    obtain ⟨a, t, cols⟩ := x
    dsimp only [Option.map_some]
    show (if t.length > 0 then match emitCol _ (cols.map (Col.to g)) c a (atIdx m.records t) with | none => _ | some cols => _ else _) = _
    rw [emitCol_to]
    by_cases ht : t.length > 0
    · rw [if_pos ht, if_pos ht]
      cases emitCol draw cols c a (atIdx m.records t) <;> rfl
    · rw [if_neg ht, if_neg ht]
      rfl

theorem push_to (m : Merger α) (r : DRec) : (m.to g).push (fun r => (draw r).map g) r = (m.push draw r).map (Merger.to g) := by
  unfold Merger.push
  show (if m.width = 0 then _ else match timeToPixel m.now m.width m.ps r.startTime, timeToPixel m.now m.width m.ps r.endTime with | some s, some e => _ | _, _ => _) = _
  by_cases h : m.width = 0
  · rw [if_pos h, if_pos h]
    rfl
  · rw [if_neg h, if_neg h]
    cases timeToPixel m.now m.width m.ps r.startTime with
    | none => rfl
    | some s => cases timeToPixel m.now m.width m.ps r.endTime with
      | none => rfl
      | some e =>
        dsimp only
        rw [complete_to]
        cases m.complete draw (e.toInt + 1) <;> rfl

theorem finish_to (m : Merger α) : (m.to g).finish (fun r => (draw r).map g) = (m.finish draw).map (List.map (Col.to g)) := by
  unfold Merger.finish
  rw [complete_to]
  cases m.complete draw 0 <;> rfl

theorem new_to (now dur w : Int64) : Merger.new β now dur w = (Merger.new α now dur w).map (Merger.to g) := by
  unfold Merger.new
  cases pixelSize dur w <;> rfl

/-- The state of a request with columns of other data. -/
def RenderSt.to (s : RenderSt α) : RenderSt β := ⟨s.earliest, s.ok, s.width, s.merger.map (Merger.to g), s.panicked⟩

/-- The columns, of other data. -/
def RenderRes.to : RenderRes α → RenderRes β
  | .columns a w cols => .columns a w (cols.map (Col.to g))
  | .failed => .failed
  | .tooSmall => .tooSmall
  | .panicked => .panicked

variable {D : Type} (p : RenderParams D α)

/-- The same with other data. -/
def RenderParams.to : RenderParams D β := ⟨p.load, p.measure, fun r => (p.draw r).map g⟩

theorem renderPush_to (stop : Int64) (st : RenderSt α) (m : Merger α) (r : DRec) (v : Val) :
    renderPush (p.to g) stop (st.to g) (m.to g) r v = (((renderPush p stop st m r v).1).to g, (renderPush p stop st m r v).2) := by
  unfold renderPush
  show (match (m.to g).push (fun r => (p.draw r).map g) r with | none => _ | some m => _) = _
  rw [push_to]
  cases m.push p.draw r <;> rfl

theorem renderCb_to (now dur stop : Int64) (st : RenderSt α) (v : Val) :
    renderCb (p.to g) now dur stop (st.to g) v = (((renderCb p now dur stop st v).1).to g, (renderCb p now dur stop st v).2) := by
  obtain ⟨ea, ok, width, merger, pan⟩ := st
  unfold renderCb
  cases DRec.decode v.data with
  | ok r =>
    cases ea with
    | some e => cases merger with
      | none => rfl
      | some m => exact renderPush_to g p stop ⟨some e, ok, width, some m, pan⟩ m r v
    | none =>
      dsimp only [RenderSt.to, RenderParams.to]
      cases p.load r with
      | none => rfl
      | some d =>
        dsimp only
        cases p.measure d with
        | panic => rfl
        | small => rfl
        | ok w =>
          dsimp only
          rw [new_to g]
          cases Merger.new α now dur w with
          | none => rfl
          | some m => exact renderPush_to g p stop ⟨some v.data, true, w, merger, pan⟩ m r v
  | err e => rfl
  | _ => rfl

theorem renderAfter_to (now dur : Int64) (seen : List Val) : renderAfter (p.to g) now dur seen = (renderAfter p now dur seen).to g := by
  unfold renderAfter
  suffices h : ∀ (l : List Val) (st : RenderSt α), l.foldl (fun st v => (renderCb (p.to g) now dur (now - dur) st v).1) (st.to g) = (l.foldl (fun st v => (renderCb p now dur (now - dur) st v).1) st).to g from h seen {}
  intro l
  induction l with
  | nil => intro st; rfl
  | cons v l ih =>
    intro st
    rw [List.foldl_cons, List.foldl_cons, renderCb_to]
    exact ih _

theorem renderCall_to (cfg : Cfg) (now dur : Int64) : renderCall (p.to g) cfg now dur = renderCall p cfg now dur := by
  unfold renderCall
  congr 1
  funext seen v
  rw [renderAfter_to, renderCb_to]

theorem renderAnswer_to (now dur : Int64) (r : DbRes) : renderAnswer (p.to g) now dur r = (renderAnswer p now dur r).to g := by
  cases r with
  | query seen err =>
    show renderEnd (p.to g) (renderAfter (p.to g) now dur seen) err = (renderEnd p (renderAfter p now dur seen) err).to g
    rw [renderAfter_to]
    obtain ⟨ea, ok, width, merger, pan⟩ := renderAfter p now dur seen
    unfold renderEnd
    cases pan with
    | true => rfl
    | false => cases err with
      | some e => rfl
      | none => cases ok with
        | false => rfl
        | true => cases merger with
          | none => rfl
          | some m =>
            dsimp only [RenderSt.to, RenderParams.to, Option.map_some]
            rw [finish_to]
            cases m.finish p.draw <;> rfl
  | _ => rfl

end

/-- A column without values. -/
def Shot.bare (s : Shot) : Shot := ⟨[], s.rate⟩

theorem emit_bare (e : Outside) (n : ℕ) (rs : List DRec) : emitShot e (-1) rs = (emitShot e n rs).map Shot.bare := by
  unfold emitShot
  cases mergeRecs (distOf e) rs with
  | none => rfl
  | some out =>
    dsimp only
    cases loadRec e out with
    | none => rfl
    | some w => rfl

theorem params_bare (e : Outside) (n : ℕ) (colors : List Color) (o : GraphOpts) : (theScene e (-1) colors).params o = ((theScene e n colors).params o).to Shot.bare := by
  show RenderParams.mk _ _ _ = RenderParams.mk _ _ _
  congr 1
  funext rs
  exact emit_bare e n rs

theorem paintCols_none {α : Type} {step : Col α → Bytes → Option Bytes} {cols : List (Col α)} (h : ∀ c ∈ cols, ∀ pix, step c pix = none) (hne : cols ≠ []) (pix : Bytes) : paintCols step cols pix = none := by
  cases cols with
  | nil => exact absurd rfl hne
  | cons c cs => rw [paintCols.eq_2, h c List.mem_cons_self]

/-- Drawing columns without values in a heatmap that has rows panics. -/
theorem draw_bare {e : Outside} {colors : List Color} {w : TWrap} {gm : GraphM Pos} {cols : List (Col Shot)} (hne : cols ≠ []) (hc : ∀ c ∈ cols, c.data.data = []) (hr : gm.right ≠ none) (hh : 1 ≤ gm.height) :
    drawGraph (sceneStyle e w) (sceneBrush e colors w) gm cols = none := by
  have hp : ∀ (c : Canvas) pix, paintRight (sceneStyle e w) (sceneBrush e colors w) gm c cols pix = none := by
    intro c pix
    unfold paintRight
    cases hg : gm.right with
    | none => exact absurd hg hr
    | some r =>
      dsimp only
      rw [paintCols_none (fun k hk pix => ?_) hne]
      unfold paintColumn
      rw [if_neg]
      intro hall
      have h0 := List.all_eq_true.mp hall 0 (List.mem_range.mpr (by show 0 < gm.height.toNat; omega))
      have : (sceneBrush e colors w).heat k.data (c.box gm.heatBox).height 0 = none := by
        show heatAt e colors w k.data _ 0 = none
        unfold heatAt
        rw [hc k hk]
        cases rowIndex _ _ 0 <;> rfl
      rw [this] at h0
      cases h0
  unfold drawGraph
  split
  · rfl
  · split
    · rfl
    · split
      · rfl
      · rw [hp]

/-- The pixel where the newest interval ends shows it. -/
theorem newest_over {now dur : Int64} {W : Int} {newest : Batch} {shown : List Batch} (hW : 0 < W) (hps : 0 < dur.toInt / W) (hb : newest.start ≤ newest.stop) (hs : newest.stop < now) (hhead : shown.head? = some newest) :
    ∃ x : ℕ, (x : Int) < W ∧ batchesAt now dur W shown x ≠ [] := by
  have hb := Int64.le_iff_toInt_le.mp hb
  have hs := Int64.lt_iff_toInt_lt.mp hs
  obtain ⟨ps, hpe⟩ : ∃ ps, ps = dur.toInt / W := ⟨_, rfl⟩
  rw [← hpe] at hps
  have key : ∃ x : ℕ, (x : Int) < W ∧ newest.Over now.toInt W ps x := by
    obtain ⟨k, hk⟩ : ∃ k, k = (now.toInt - newest.stop.toInt + ps - 1) / ps := ⟨_, rfl⟩
    have e1 := Int.mul_ediv_add_emod (now.toInt - newest.stop.toInt + ps - 1) ps
    have e2 := Int.emod_nonneg (now.toInt - newest.stop.toInt + ps - 1) (show ps ≠ 0 by omega)
    have e3 := Int.emod_lt_of_pos (now.toInt - newest.stop.toInt + ps - 1) hps
    rw [← hk] at e1
    have hk1 : 1 ≤ k := by
      rw [hk]
      exact Int.le_ediv_of_mul_le hps (by omega)
    by_cases hx : k ≤ W
    · refine ⟨(W - k).toNat, by omega, ?_⟩
      unfold Batch.Over
      rw [show (((W - k).toNat : ℕ) : Int) = W - k by omega, show W - (W - k) = k by omega, Int.mul_comm k ps]
      exact ⟨by omega, .inr (by omega)⟩
    · refine ⟨0, by omega, ?_⟩
      unfold Batch.Over
      refine ⟨?_, .inl rfl⟩
      have : W * ps ≤ (k - 1) * ps := Int.mul_le_mul_of_nonneg_right (by omega) (by omega)
      rw [Int.sub_mul, Int.one_mul, Int.mul_comm k ps] at this
      rw [show W - ((0 : ℕ) : Int) = W by omega]
      omega
  obtain ⟨x, hx, ho⟩ := key
  refine ⟨x, hx, ?_⟩
  cases shown with
  | nil => cases hhead
  | cons b bs =>
    cases hhead
    have hm : newest ∈ (if (x : Int) = 0 then neededBatches (now - dur) (newest :: bs) else newest :: bs) := by
      split
      · unfold neededBatches
        split <;> exact List.mem_cons_self
      · exact List.mem_cons_self
    intro h0
    have := List.mem_filter (p := fun b => decide (Batch.Over now.toInt W (dur.toInt / W) b x)).mpr ⟨hm, decide_eq_true (by rw [← hpe]; exact ho)⟩
    unfold batchesAt at h0
    rw [h0] at this
    cases this

section
variable {c : ProcCfg} {er : SysErrors} {K : Nat} {de : Bytes → Bool} {hit : Bytes → Nat → Bool} {ops : List PFOp} {s s' : ProcF} {l : Option PFOp}

/-- The number of samples must be positive: a request for a picture of -1 samples, of sizes that are usable, panics whenever there is anything to show and the query met no error. -/
theorem C124_minus_one {b : Backend TWrap Shot Pos} {ext : F64 → Outside} (hb : b.Real ext) {ask : RenderAsk} (he : (ext ask.compression).Ok) (hshort : (ext ask.compression).Short) {state : List Obs → List F64} (lib : Library (ext ask.compression) c.pipe.d state)
    (h : ProcF.Reach c er (freshFs de hit) ops s) (hok : LifeOk c K (plainOps ops)) (hst : s.Step c er l s') {i : Nat} {dir : Option DirFault} {unlink : Bool} {seen : List Val}
    (hw : er.Whole ask.metric) (hlog : s'.sys.log = s.sys.log ++ [(i, ask.metric, ⟨ask.call b c.pipe.cfg, dir, unlink⟩, .query seen none)]) (hne : seen ≠ [])
    (hsamples : ask.nums.samples = -1) (hu : RenderAsk.Usable { ask with nums := { ask.nums with samples := 1 } }) (htimes : SaneTimes ask.nums.width.toInt ((ops.foldl PSpec.stepF {}).kept ask.metric))
    (hspan : ∀ b ∈ (ops.foldl PSpec.stepF {}).kept ask.metric, b.start ≤ b.stop) (accept : String) (hacc : accept ≠ "application/json") :
    ask.reply b accept (.query seen none) = none := by
  have hwd := hu.width
  have hht := hu.height
  have hhi := hu.high
  have hpd := hu.padding
  have hdu := hu.duration
  have htm := hu.time
  dsimp only at hwd hht hhi hpd hdu htm
  have hsc : ask.scene b = theScene (ext ask.compression) (-1) viridis := by
    unfold RenderAsk.scene
    rw [hb.scene, hsamples]
    rfl
  have hpar := params_bare (ext ask.compression) 1 viridis (pngOpts ask.nums.now ask.dur ask.nums.width.toInt ask.nums.height.toInt ask.nums.padding.toInt)
  have hcall : ask.call b c.pipe.cfg = pngCall (theScene (ext ask.compression) (1 : ℕ) viridis) c.pipe.cfg ask.nums.now ask.dur ask.nums.width.toInt ask.nums.height.toInt ask.nums.padding.toInt := by
    unfold RenderAsk.call pngCall
    rw [hsc, hpar, renderCall_to]
  rw [hcall] at hlog
  obtain ⟨shown, g1, g2, g3, g4, g5⟩ := C125_columns he (Nat.le_refl 1) (by decide) (colors := viridis) lib h hok hst hw hlog
  have hsne : shown ≠ [] := by
    rintro rfl
    have := (g3 seen none rfl).length_le
    rw [List.length_map] at this
    exact hne (List.length_eq_zero_iff.mp (Nat.le_zero.mp this))
  rcases g5 hsne (fun b hb => htimes b (g1.subset hb)) htm hdu with ⟨_, _, seen', hx⟩ | ⟨newest, hnew, key⟩
  · cases hx
  obtain ⟨gm, m1, m2, m3, m4⟩ := any_room he hshort { obs := state (obsOf ask.metric newest.obs) } ask.nums.now ask.dur (padding := ask.nums.padding.toInt) hwd hht (by omega)
  obtain ⟨first, cols, f1, f2, f3⟩ := key gm m1 (by omega)
  have hmem : newest ∈ shown := List.mem_of_mem_head? hnew
  have hps : 0 < ask.dur.toInt / gm.width := by
    have := Int.ediv_le_ediv (show 0 < gm.width by omega) (show gm.width ≤ ask.dur.toInt by omega)
    rw [Int.ediv_self (by omega)] at this
    omega
  obtain ⟨x, x1, x2⟩ := newest_over (now := ask.nums.now) (dur := ask.dur) (by omega) hps (hspan newest (g1.subset hmem)) (g2 newest hmem) hnew
  obtain ⟨k, hk, _⟩ := f2.values x x1 x2
  have hone : ∃ cv pix, pngAnswer (theScene (ext ask.compression) (1 : ℕ) viridis) ask.nums.now ask.dur ask.nums.width.toInt ask.nums.height.toInt ask.nums.padding.toInt (.query seen none) = .png cv pix := by
    obtain ⟨shown', j1, j2, j3, j4, j5⟩ := C121_any_time he (Nat.le_refl 1) (by decide) (colors := viridis) (by rw [viridis_length]; norm_num) (by rw [viridis_length]; norm_num) lib h hok hst hw hlog
    have hsne' : shown' ≠ [] := by
      rintro rfl
      have := (j3 seen none rfl).length_le
      rw [List.length_map] at this
      exact hne (List.length_eq_zero_iff.mp (Nat.le_zero.mp this))
    rcases j5 hsne' (fun b hb => htimes b (j1.subset hb)) htm hpd hdu (by omega) with ⟨_, _, seen', hx⟩ | ⟨newest', _, key'⟩
    · cases hx
    · obtain ⟨gm', k1, k2, _, k3⟩ := any_room he hshort { obs := state (obsOf ask.metric newest'.obs) } ask.nums.now ask.dur (padding := ask.nums.padding.toInt) hwd hht (by omega)
      have hk : gm'.height - 1 ≤ 33554432 := by omega
      have hk0 : 0 ≤ gm'.height - 1 := by omega
      have mm : ((viridis.length - 1 : ℕ) : Int) * (gm'.height - 1) ≤ 16777216 * 33554432 := Int.mul_le_mul (by rw [viridis_length]; decide) hk hk0 (by decide)
      obtain ⟨cv, pix, p1, _⟩ := key' gm' k1 (by omega) (by omega) (by omega) (by omega)
      exact ⟨cv, pix, p1⟩
  obtain ⟨cv, pix, hone⟩ := hone
  unfold pngAnswer at hone
  rw [f3] at hone
  unfold RenderAsk.reply
  rw [if_neg hacc]
  have hpage : ask.page b (.query seen none) = .panicked := by
    unfold RenderAsk.page pngAnswer
    rw [hsc, hpar, renderAnswer_to, f3]
    show pngOf _ _ (.columns first.encode _ (cols.map (Col.to Shot.bare))) = _
    unfold pngOf at hone ⊢
    dsimp only at hone ⊢
    cases hd : DRec.decode first.encode with
    | ok rec_ =>
      rw [hd] at hone
      dsimp only at hone ⊢
      rw [show (theScene (ext ask.compression) ((1 : ℕ) : Int) viridis).load rec_ = loadRec (ext ask.compression) rec_ from rfl] at hone
      rw [show (theScene (ext ask.compression) (-1) viridis).load rec_ = loadRec (ext ask.compression) rec_ from rfl]
      cases hl : loadRec (ext ask.compression) rec_ with
      | none => rw [hl] at hone; cases hone
      | some d =>
        obtain ⟨gm', k1, k2, _, k3⟩ := any_room he hshort d ask.nums.now ask.dur (padding := ask.nums.padding.toInt) hwd hht (by omega)
        dsimp only
        have k1' : graphMeasure ((theScene (ext ask.compression) (-1) viridis).style d) (pngOpts ask.nums.now ask.dur ask.nums.width.toInt ask.nums.height.toInt ask.nums.padding.toInt) = .ok gm' := k1
        rw [k1']
        dsimp only
        obtain ⟨guess, ht⟩ := graphMeasure_try k1
        obtain ⟨_, _, _, _, _, _, _, h8, _⟩ := tryMeasure_ok (sceneStyle_ok he d) ht
        have hr : gm'.right ≠ none := fun h0 => by
          have := h8.mp rfl
          rw [h0] at this
          cases this
        have hd' : drawGraph ((theScene (ext ask.compression) (-1) viridis).style d) ((theScene (ext ask.compression) (-1) viridis).brush d) gm' (cols.map (Col.to Shot.bare)) = none :=
          draw_bare (fun h0 => by rw [List.map_eq_nil_iff.mp h0] at hk; cases hk) (fun c hc => by obtain ⟨c', _, rfl⟩ := List.mem_map.mp hc; rfl) hr (by omega)
        rw [hd']
    | _ => rw [hd] at hone; cases hone
  rw [hpage]
  rfl

end

end Rothko
