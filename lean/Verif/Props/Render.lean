import Verif.Model.Render
import Verif.Spec.Window
import Verif.Props.Merger
import Verif.Props.MetricRefuted
import Verif.Props.Proto
/-!
# C69: what a graph shows
-/
namespace Rothko

/-! ## The window -/

/-- **C69** (window). Of values in decreasing order of their ends: it is a prefix; what is left out ends before the window; and at most the last one that is kept ends before the window. -/
theorem C69_window (stop : Int64) (L : List Val) (hs : L.Pairwise (fun a b => b.stop < a.stop)) :
    upTo stop L <+: L ∧ (∀ v ∈ L, v.stop ≥ stop → v ∈ upTo stop L) ∧ (∀ v ∈ (upTo stop L).dropLast, v.stop ≥ stop) ∧ (∀ v ∈ L, v ∉ upTo stop L → v.stop < stop) ∧ (L ≠ [] → upTo stop L ≠ []) := by
  have ge : ∀ a b : Int64, a ≥ b ↔ b.toInt ≤ a.toInt := fun a b => Int64.le_iff_toInt_le
  have key : ∀ v ∈ L, v.stop ≥ stop → v ∈ upTo stop L := by
    induction L with
    | nil => intro v hv; cases hv
    | cons w L ih =>
      intro v hv hge
      have hp := List.pairwise_cons.mp hs
      rcases List.mem_cons.mp hv with rfl | hv
      · rw [upTo, if_pos hge]; exact List.mem_cons_self
      · have := hp.1 v hv
        rw [ge] at hge
        rw [Int64.lt_iff_toInt_lt] at this
        rw [upTo, if_pos ((ge _ _).mpr (by omega))]
        exact List.mem_cons_of_mem _ (ih hp.2 v hv ((ge _ _).mpr hge))
  refine ⟨?_, key, ?_, ?_, ?_⟩
  · clear hs key
    induction L with
    | nil => exact List.prefix_refl _
    | cons w L ih =>
      rw [upTo]
      split
      · exact (List.cons_prefix_cons).mpr ⟨rfl, ih⟩
      · exact ⟨L, rfl⟩
  · clear hs key
    induction L with
    | nil => intro v hv; cases hv
    | cons w L ih =>
      intro v hv
      rw [upTo] at hv
      split at hv
      · rename_i h
        cases hu : upTo stop L with
        | nil => rw [hu] at hv; cases hv
        | cons a l =>
          rw [hu] at hv
          rw [List.dropLast_cons_cons] at hv
          rcases List.mem_cons.mp hv with rfl | hv
          · exact h
          · exact ih v (by rw [hu]; exact hv)
      · cases hv
  · intro v hv hn
    exact Classical.byContradiction (fun h => hn (key v hv (by rw [ge]; rw [Int64.lt_iff_toInt_lt] at h; omega)))
  · intro hne
    cases L with
    | nil => exact absurd rfl hne
    | cons w L => rw [upTo]; split <;> (intro h; cases h)

/-! ## Running the callback -/

private theorem visit_push {D α : Type} (p : RenderParams D α) (now dur stop : Int64) (dec : Val → DRec) (L : List Val) (st : RenderSt α) (m : Merger α) (e : Bytes)
    (he : st.earliest = some e) (hm : st.merger = some m) (hdec : ∀ v ∈ upTo stop L, DRec.decode v.data = .ok (dec v)) :
    (∀ m', m.pushAll p.draw ((upTo stop L).map dec) = some m' →
      (visit (renderCb p now dur stop) L st).1 = { st with merger := some m' } ∧ (visit (renderCb p now dur stop) L st).2.error = none) ∧
    (m.pushAll p.draw ((upTo stop L).map dec) = none →
      (visit (renderCb p now dur stop) L st).1.panicked = st.panicked ∧ (visit (renderCb p now dur stop) L st).2.error = some .callback) := by
  induction L generalizing st m with
  | nil =>
    refine ⟨fun m' h => ?_, fun h => ?_⟩
    · simp only [upTo, List.map_nil, Merger.pushAll, Option.some.injEq] at h
      subst h
      simp only [visit, Ctl.error, and_true]
      rw [← hm]
    · simp [upTo, Merger.pushAll] at h
  | cons v L ih =>
    have hd : DRec.decode v.data = .ok (dec v) := by
      apply hdec
      rw [upTo]
      split <;> exact List.mem_cons_self
    have hcb : renderCb p now dur stop st v = renderPush p stop st m (dec v) v := by
      unfold renderCb
      rw [hd, he, hm]
    by_cases hge : v.stop ≥ stop
    · rw [upTo, if_pos hge] at hdec ⊢
      simp only [List.map_cons, Merger.pushAll]
      cases hp : m.push p.draw (dec v) with
      | none =>
        have hr : renderPush p stop st m (dec v) v = (st, .err) := by unfold renderPush; rw [hp]
        refine ⟨fun m' h => (by cases h), fun _ => ?_⟩
        simp only [visit, hcb, hr, Ctl.error, and_self]
      | some m1 =>
        have hr : renderPush p stop st m (dec v) v = ({ st with merger := some m1 }, .more) := by unfold renderPush; rw [hp]; simp only [if_pos hge]
        have := ih { st with merger := some m1 } m1 he rfl (fun w hw => hdec w (List.mem_cons_of_mem _ hw))
        simp only [visit, hcb, hr]
        exact this
    · rw [upTo, if_neg hge]
      simp only [List.map_cons, List.map_nil, Merger.pushAll]
      cases hp : m.push p.draw (dec v) with
      | none =>
        have hr : renderPush p stop st m (dec v) v = (st, .err) := by unfold renderPush; rw [hp]
        refine ⟨fun m' h => (by cases h), fun _ => ?_⟩
        simp only [visit, hcb, hr, Ctl.error, and_self]
      | some m1 =>
        have hr : renderPush p stop st m (dec v) v = ({ st with merger := some m1 }, .stop) := by unfold renderPush; rw [hp]; simp only [if_neg hge]
        refine ⟨fun m' h => ?_, fun h => (by cases h)⟩
        simp only [Option.some.injEq] at h
        subst h
        simp only [visit, hcb, hr, Ctl.error, and_self]

/-- What the query leaves, given what it shows. -/
private theorem render_visit {D α : Type} (p : RenderParams D α) (now dur stop : Int64) (dec : Val → DRec) (v : Val) (L : List Val) (d : D) (w : Int64)
    (hw : w ≠ 0) (hdec : ∀ u ∈ upTo stop (v :: L), DRec.decode u.data = .ok (dec u)) (hl : p.load (dec v) = some d) (hm : p.measure d = .ok w) :
    renderEnd p (visit (renderCb p now dur stop) (v :: L) {}).1 (visit (renderCb p now dur stop) (v :: L) {}).2.error =
      match renderColumns p.draw now dur w ((upTo stop (v :: L)).map dec) with
      | none => .failed
      | some cols => .columns v.data w cols := by
  have hd : DRec.decode v.data = .ok (dec v) := by
    apply hdec
    rw [upTo]
    split <;> exact List.mem_cons_self
  have hnew : Merger.new α now dur w = some { now := now, width := w, ps := dur / w, completed := w.toInt } := by
    unfold Merger.new pixelSize
    rw [if_neg hw]
    rfl
  generalize hm0 : ({ now := now, width := w, ps := dur / w, completed := w.toInt } : Merger α) = m0 at hnew
  generalize hst : ({ earliest := some v.data, ok := true, width := w } : RenderSt α) = st1
  have hcb : renderCb p now dur stop {} v = renderPush p stop st1 m0 (dec v) v := by
    unfold renderCb
    rw [hd]
    dsimp only
    rw [hl]
    dsimp only
    rw [hm]
    dsimp only
    rw [hnew, ← hst]
  -- the same as starting with the merger there
  have hcb' : renderCb p now dur stop { st1 with merger := some m0 } v = renderPush p stop { st1 with merger := some m0 } m0 (dec v) v := by
    unfold renderCb
    rw [hd, ← hst]
  have hv : (∀ m', m0.pushAll p.draw ((upTo stop (v :: L)).map dec) = some m' →
      (visit (renderCb p now dur stop) (v :: L) {}).1 = { st1 with merger := some m' } ∧ (visit (renderCb p now dur stop) (v :: L) {}).2.error = none) ∧
    (m0.pushAll p.draw ((upTo stop (v :: L)).map dec) = none →
      (visit (renderCb p now dur stop) (v :: L) {}).1.panicked = false ∧ (visit (renderCb p now dur stop) (v :: L) {}).2.error = some .callback) := by
    have hold := visit_push p now dur stop dec (v :: L) { st1 with merger := some m0 } m0 v.data (by rw [← hst]) rfl hdec
    have hpan : st1.panicked = false := by rw [← hst]
    have step : ∀ m1, m0.push p.draw (dec v) = some m1 →
        visit (renderCb p now dur stop) (v :: L) ({} : RenderSt α) = visit (renderCb p now dur stop) (v :: L) { st1 with merger := some m0 } := by
      intro m1 h1
      simp only [visit, hcb, hcb']
      unfold renderPush
      rw [h1]
    cases hp : m0.push p.draw (dec v) with
    | some m1 =>
      rw [step m1 hp]
      refine ⟨fun m' h => ?_, fun h => ?_⟩
      · exact hold.1 m' h
      · have := hold.2 h
        exact ⟨this.1.trans hpan, this.2⟩
    | none =>
      have hr : renderPush p stop st1 m0 (dec v) v = (st1, .err) := by unfold renderPush; rw [hp]
      have hnone : m0.pushAll p.draw ((upTo stop (v :: L)).map dec) = none := by
        have : ∃ rest, upTo stop (v :: L) = v :: rest := by rw [upTo]; split <;> exact ⟨_, rfl⟩
        obtain ⟨rest, hrest⟩ := this
        rw [hrest, List.map_cons, Merger.pushAll, hp]
      refine ⟨fun m' h => (by rw [hnone] at h; cases h), fun _ => ?_⟩
      simp only [visit, hcb, hr, Ctl.error, and_true]
      exact hpan
  have hrc : renderColumns p.draw now dur w ((upTo stop (v :: L)).map dec) =
      match m0.pushAll p.draw ((upTo stop (v :: L)).map dec) with
      | none => none
      | some m => m.finish p.draw := by
    unfold renderColumns
    rw [hnew]
    dsimp only
    cases m0.pushAll p.draw ((upTo stop (v :: L)).map dec) <;> rfl
  rw [hrc]
  cases hpa : m0.pushAll p.draw ((upTo stop (v :: L)).map dec) with
  | none =>
    obtain ⟨h1, h2⟩ := hv.2 hpa
    unfold renderEnd
    rw [h1, h2]
    rfl
  | some m' =>
    obtain ⟨h1, h2⟩ := hv.1 m' hpa
    unfold renderEnd
    rw [h1, h2, ← hst]
    dsimp only
    cases m'.finish p.draw <;> rfl

/-! ## Requests -/

/-- **C69** (graph). A request for a graph up to a time after everything acknowledged: the newest acknowledged values (all but those in dropped files) are there, and of these exactly those that end in the window, and the
one before them, are decoded and made into columns; the newest one is the reference for the colours. (`w` is the width the layout leaves for the heatmap, given the newest record.) -/
theorem C69_graph {D α : Type} (p : RenderParams D α) {s : Store} {acc : List Val} (h : Reach s acc) (cfg : Cfg) (hg : GeoOk cfg.size cfg.cap) (now dur : Int64) (hne : acc ≠ [])
    (hnow : ∀ v ∈ acc, v.stop < now) (dec : Val → DRec) (hdec : ∀ v ∈ acc, DRec.decode v.data = .ok (dec v)) (d : D) (w : Int64) (hw : w ≠ 0) (hl : ∀ v ∈ acc.head?, p.load (dec v) = some d) (hm : p.measure d = .ok w) :
    ∃ (newest : Val) (rest dropped : List Val), acc = newest :: rest ++ dropped ∧ (queryList cfg now (fun _ _ => .more) s).1.1 = newest :: rest ∧
      (serveRender p cfg now dur s).1 =
        match renderColumns p.draw now dur w ((upTo (now - dur) (newest :: rest)).map dec) with
        | none => .failed
        | some cols => .columns newest.data w cols := by
  obtain ⟨stored, dropped, ha, hsne, hq⟩ := C13_acknowledged_stored h
  have hst := (hq cfg now hg hnow).1
  have hde : s.dirExists = true := by
    cases hx : s.dirExists with
    | true => rfl
    | false => exact absurd ((C15_query_sound h cfg hg now).1 hx).1 hne
  obtain ⟨L, hsub, _, hpw, hvis⟩ := (C15_query_sound h cfg hg now).2 hde
  have hL : L = stored := by
    have := hvis (List Val) (fun seen v => (seen ++ [v], Cb.more)) []
    rw [visit_collect] at this
    unfold queryList at hst
    rw [this] at hst
    simpa using hst
  subst hL
  obtain ⟨newest, rest, hLs⟩ : ∃ a l, L = a :: l := by
    cases L with
    | nil => exact absurd rfl (hsne hne)
    | cons a l => exact ⟨a, l, rfl⟩
  subst hLs
  refine ⟨newest, rest, dropped, ha, hst, ?_⟩
  unfold serveRender
  dsimp only
  rw [hvis]
  have hmem : ∀ u ∈ upTo (now - dur) (newest :: rest), u ∈ acc := by
    intro u hu
    rw [ha]
    refine List.mem_append_left _ ?_
    have hpre : upTo (now - dur) (newest :: rest) <+: newest :: rest := (C69_window (now - dur) (newest :: rest) hpw).1
    exact hpre.subset hu
  exact render_visit p now dur (now - dur) dec newest rest d w hw (fun u hu => hdec u (hmem u hu)) (hl newest (by rw [ha]; rfl)) hm

/-- What is left out of the window does not reach into any pixel but the leftmost. -/
private theorem window_over (now dur w : Int64) (hw : 0 < w.toInt) (hp : 0 < (dur / w).toInt) (ho : -9223372036854775808 ≤ now.toInt - dur.toInt ∧ now.toInt - dur.toInt < 9223372036854775808) (dec : Val → DRec)
    (L : List Val) (hs : L.Pairwise (fun a b => b.stop < a.stop)) (hend : ∀ v ∈ L, (dec v).endTime = v.stop) (x : Int) (hx : 1 ≤ x) :
    over now.toInt w.toInt (dur / w).toInt ((upTo (now - dur) L).map dec) x = over now.toInt w.toInt (dur / w).toInt (L.map dec) x := by
  have hsub : (now - dur).toInt = now.toInt - dur.toInt := i64_sub ho.1 ho.2
  have hd0 : w.toInt * (dur / w).toInt ≤ dur.toInt := by
    have hd := hp
    rw [Int64.toInt_div_of_ne_right _ _ (by intro h; subst h; revert hw; decide)] at hp ⊢
    have hdp : 0 ≤ dur.toInt := by
      refine Classical.byContradiction (fun h => ?_)
      have h1 := Int.tdiv_nonneg (a := -dur.toInt) (b := w.toInt) (by omega) (by omega)
      rw [Int.neg_tdiv] at h1
      omega
    rw [Int.tdiv_eq_ediv_of_nonneg hdp]
    exact Int.mul_ediv_self_le (by omega)
  have key : ∀ v ∈ L, v.stop < now - dur → ¬ Overlaps now.toInt w.toInt (dur / w).toInt (dec v) x := by
    intro v hv hlt ⟨_, h2⟩
    rcases h2 with h2 | h2
    · omega
    · rw [hend v hv] at h2
      rw [Int64.lt_iff_toInt_lt, hsub] at hlt
      have : (w.toInt - x) * (dur / w).toInt ≤ (w.toInt) * (dur / w).toInt := Int.mul_le_mul_of_nonneg_right (by omega) (by omega)
      omega
  unfold over
  induction L with
  | nil => rfl
  | cons v L ih =>
    have hpw := List.pairwise_cons.mp hs
    by_cases hge : v.stop ≥ now - dur
    · rw [upTo, if_pos hge, List.map_cons, List.map_cons, List.filter_cons, List.filter_cons,
        ih hpw.2 (fun u hu => hend u (List.mem_cons_of_mem _ hu)) (fun u hu => key u (List.mem_cons_of_mem _ hu))]
    · rw [upTo, if_neg hge, List.map_cons, List.map_cons, List.filter_cons, List.filter_cons]
      have hrest : (L.map dec).filter (fun r => decide (Overlaps now.toInt w.toInt (dur / w).toInt r x)) = [] := by
        rw [List.filter_eq_nil_iff]
        intro r hr
        obtain ⟨u, hu, rfl⟩ := List.mem_map.mp hr
        have h1 := hpw.1 u hu
        have : u.stop < now - dur := by
          rw [Int64.lt_iff_toInt_lt] at h1 ⊢
          have : ¬ (now - dur).toInt ≤ v.stop.toInt := fun h => hge (Int64.le_iff_toInt_le.mpr h)
          omega
        simpa using key u (List.mem_cons_of_mem _ hu) this
      rw [hrest]
      rfl

theorem needed_upTo (stop : Int64) (dec : Val → DRec) (L : List Val) (h : ∀ v ∈ L, (dec v).endTime = v.stop) : needed stop (L.map dec) = (upTo stop L).map dec := by
  induction L with
  | nil => rfl
  | cons v L ih =>
    unfold upTo needed
    rw [List.map_cons]
    dsimp only
    rw [h v List.mem_cons_self]
    split
    · rw [List.map_cons, ih (fun u hu => h u (List.mem_cons_of_mem _ hu))]
    · rfl

/-- **C69** (pixels). Every pixel of the graph but the leftmost one shows exactly the stored records over it: the columns are disjoint and inside the graph, a pixel is in a column exactly when some stored record is over it,
and the column then shows all stored records over it, merged. The leftmost one shows those of the records the graph needs (`needed`: those that end in its time, and the one before) that start before its right end. The stored records are those a query shows, the acknowledged ones but those in dropped files. -/
theorem C69_pixels {D α : Type} (p : RenderParams D α) {s : Store} {acc : List Val} (h : Reach s acc) (cfg : Cfg) (hg : GeoOk cfg.size cfg.cap) (now dur : Int64) (hne : acc ≠ [])
    (hnow : ∀ v ∈ acc, v.stop < now) (dec : Val → DRec) (hdec : ∀ v ∈ acc, DRec.decode v.data = .ok (dec v)) (hend : ∀ v ∈ acc, (dec v).endTime = v.stop)
    (d : D) (w : Int64) (hl : ∀ v ∈ acc.head?, p.load (dec v) = some d) (hm : p.measure d = .ok w)
    (hw : 0 < w.toInt) (hp : 0 < (dur / w).toInt) (ho : -9223372036854775808 ≤ now.toInt - dur.toInt ∧ now.toInt - dur.toInt < 9223372036854775808)
    (hr : ∀ v ∈ acc, RecOk now w (dur / w) (dec v)) (hdraw : ∀ l, l ≠ [] → (∀ r ∈ l, ∃ v ∈ acc, r = dec v) → p.draw l ≠ none) :
    ∃ (newest : Val) (rest dropped : List Val) (cols : List (Col α)), acc = newest :: rest ++ dropped ∧ (queryList cfg now (fun _ _ => .more) s).1.1 = newest :: rest ∧
      (serveRender p cfg now dur s).1 = .columns newest.data w cols ∧
      cols.Pairwise (fun a b => b.x + b.w ≤ a.x) ∧ (∀ c ∈ cols, 0 ≤ c.x ∧ 1 ≤ c.w ∧ c.x + c.w ≤ w.toInt ∧ ∃ l, l ≠ [] ∧ (∀ r ∈ l, ∃ v ∈ newest :: rest, r = dec v) ∧ p.draw l = some c.data) ∧
      ∀ x : Int, 0 ≤ x → x < w.toInt →
        ((over now.toInt w.toInt (dur / w).toInt (shownAt (now - dur) ((newest :: rest).map dec) x) x ≠ [] ↔ ∃ c ∈ cols, c.Has x) ∧
          ∀ c ∈ cols, c.Has x → p.draw (over now.toInt w.toInt (dur / w).toInt (shownAt (now - dur) ((newest :: rest).map dec) x) x) = some c.data) := by
  have hw0 : w ≠ 0 := by intro h; subst h; revert hw; decide
  obtain ⟨newest, rest, dropped, ha, hq, hres⟩ := C69_graph p h cfg hg now dur hne hnow dec hdec d w hw0 hl hm
  have hsorted : acc.Pairwise (fun a b => b.stop < a.stop) := by
    rcases h.inv with ⟨_, _, h0⟩ | ⟨_, _, _, _, _, inv, _⟩
    · exact absurd h0 hne
    · exact inv.sorted
  have hpw : (newest :: rest).Pairwise (fun a b => b.stop < a.stop) := by
    rw [ha] at hsorted
    exact (List.pairwise_append.mp hsorted).1
  have hacc : ∀ v ∈ newest :: rest, v ∈ acc := fun v hv => by rw [ha]; exact List.mem_append_left _ hv
  have hpre := (C69_window (now - dur) (newest :: rest) hpw).1
  have hrs : ∀ r ∈ (upTo (now - dur) (newest :: rest)).map dec, RecOk now w (dur / w) r := by
    intro r hrr
    obtain ⟨v, hv, rfl⟩ := List.mem_map.mp hrr
    exact hr v (hacc v (hpre.subset hv))
  have hds : ((upTo (now - dur) (newest :: rest)).map dec).Pairwise (fun a b => b.endTime ≤ a.endTime) := by
    rw [List.pairwise_map]
    refine (hpw.sublist hpre.sublist).imp_of_mem ?_
    intro a b ha hb hab
    rw [hend a (hacc a (hpre.subset ha)), hend b (hacc b (hpre.subset hb))]
    rw [Int64.lt_iff_toInt_lt] at hab
    rw [Int64.le_iff_toInt_le]
    omega
  obtain ⟨cols, hcols⟩ := C46_succeeds p.draw now dur w _ hw hp hrs hds (fun l h1 h2 => hdraw l h1 (fun r hr => by
    obtain ⟨v, hv, rfl⟩ := List.mem_map.mp (h2 r hr)
    exact ⟨v, hacc v (hpre.subset hv), rfl⟩))
  have ht := C46_columns p.draw now dur w _ cols hw hp hrs hds hcols
  rw [hcols] at hres
  refine ⟨newest, rest, dropped, cols, ha, hq, hres, ht.ordered, fun c hc => ?_, fun x hx1 hx2 => ?_⟩
  · obtain ⟨i1, i2, i3⟩ := ht.inside c hc
    obtain ⟨s1, s2⟩ := ht.shows c hc c.x ⟨Int.le_refl _, by omega⟩
    refine ⟨i1, i2, i3, _, s1, fun r hr => ?_, s2⟩
    obtain ⟨v, hv, rfl⟩ := List.mem_map.mp (List.mem_filter.mp hr).1
    exact ⟨v, hpre.subset hv, rfl⟩
  have hov : over now.toInt w.toInt (dur / w).toInt ((upTo (now - dur) (newest :: rest)).map dec) x = over now.toInt w.toInt (dur / w).toInt (shownAt (now - dur) ((newest :: rest).map dec) x) x := by
    unfold shownAt
    by_cases h0 : x = 0
    · rw [if_pos h0, needed_upTo _ _ _ (fun v hv => hend v (hacc v hv))]
    · rw [if_neg h0]
      exact window_over now dur w hw hp ho dec (newest :: rest) hpw (fun v hv => hend v (hacc v hv)) x (by omega)
  rw [← hov]
  exact ⟨⟨fun hn => ht.covered x (by omega) hx2 hn, fun ⟨c, hc, hh⟩ => (ht.shows c hc x hh).1⟩, fun c hc hh => (ht.shows c hc x hh).2⟩

/-- **C69** (nothing stored). With nothing acknowledged the answer is an error: the metric is unknown, or "too small". -/
theorem C69_empty {D α : Type} (p : RenderParams D α) {s : Store} (h : Reach s []) (cfg : Cfg) (hg : GeoOk cfg.size cfg.cap) (now dur : Int64) :
    (serveRender p cfg now dur s).1 = if s.dirExists then .tooSmall else .failed := by
  unfold serveRender
  dsimp only
  cases hx : s.dirExists with
  | false =>
    rw [((C15_query_sound h cfg hg now).1 hx).2]
    rfl
  | true =>
    obtain ⟨L, hsub, _, _, hvis⟩ := (C15_query_sound h cfg hg now).2 hx
    rw [hvis]
    have : L = [] := List.sublist_nil.mp hsub
    subst this
    rfl

/-- The callback has a state it can go on from. -/
private def Going {α : Type} (st : RenderSt α) : Prop := st.panicked = false ∧ (st.earliest = none ∨ st.merger ≠ none)

private theorem visit_bad {D α : Type} (p : RenderParams D α) (now dur stop : Int64) (hm : ∀ d, ∃ w, p.measure d = .ok w ∧ w ≠ 0) (L : List Val)
    (hdec : ∀ v ∈ upTo stop L, (∃ r, DRec.decode v.data = .ok r) ∨ ∃ e, DRec.decode v.data = .err e) (hbad : ∃ v ∈ upTo stop L, ∃ e, DRec.decode v.data = .err e)
    (st : RenderSt α) (hst : Going st) :
    (visit (renderCb p now dur stop) L st).1.panicked = false ∧ (visit (renderCb p now dur stop) L st).2.error = some .callback := by
  induction L generalizing st with
  | nil => obtain ⟨v, hv, _⟩ := hbad; cases hv
  | cons v L ih =>
    have hpush : ∀ (st : RenderSt α) (m : Merger α) (r : DRec), st.panicked = false → st.earliest ≠ none →
        (renderPush p stop st m r v).2 = .err ∧ (renderPush p stop st m r v).1.panicked = false ∨
        (renderPush p stop st m r v).2 = (if v.stop ≥ stop then .more else .stop) ∧ Going (renderPush p stop st m r v).1 := by
      intro st m r h1 h2
      unfold renderPush
      cases m.push p.draw r with
      | none => exact .inl ⟨rfl, h1⟩
      | some m' => exact .inr ⟨rfl, h1, .inr (by simp)⟩
    have hstep : (renderCb p now dur stop st v).2 = .err ∧ (renderCb p now dur stop st v).1.panicked = false ∨
        (∃ r, DRec.decode v.data = .ok r) ∧ (renderCb p now dur stop st v).2 = (if v.stop ≥ stop then .more else .stop) ∧ Going (renderCb p now dur stop st v).1 := by
      have hv : v ∈ upTo stop (v :: L) := by rw [upTo]; split <;> exact List.mem_cons_self
      unfold renderCb
      rcases hdec v hv with ⟨r, hr⟩ | ⟨e, hr⟩
      · rw [hr]
        dsimp only
        cases he : st.earliest with
        | some b =>
          dsimp only
          cases hmg : st.merger with
          | none => exact absurd hmg (hst.2.resolve_left (by rw [he]; simp))
          | some m =>
            dsimp only
            rcases hpush st m r hst.1 (by rw [he]; simp) with h | h
            · exact .inl h
            · exact .inr ⟨⟨r, rfl⟩, h⟩
        | none =>
          dsimp only
          cases hl : p.load r with
          | none => exact .inl ⟨rfl, hst.1⟩
          | some d =>
            obtain ⟨w, hw, hw0⟩ := hm d
            dsimp only
            rw [hw]
            dsimp only
            have hnew : Merger.new α now dur w = some { now := now, width := w, ps := dur / w, completed := w.toInt } := by
              unfold Merger.new pixelSize
              rw [if_neg hw0]
              rfl
            rw [hnew]
            dsimp only
            rcases hpush { st with earliest := some v.data, ok := true, width := w } { now := now, width := w, ps := dur / w, completed := w.toInt } r hst.1 (by simp) with h | h
            · exact .inl h
            · exact .inr ⟨⟨r, rfl⟩, h⟩
      · rw [hr]
        exact .inl ⟨rfl, hst.1⟩
    rcases hstep with ⟨h1, h2⟩ | ⟨⟨r, hr⟩, h1, h2⟩
    · rw [visit]
      generalize renderCb p now dur stop st v = q at h1 h2
      obtain ⟨a, b⟩ := q
      dsimp only at h1 h2
      subst h1
      exact ⟨h2, rfl⟩
    · by_cases hge : v.stop ≥ stop
      · rw [if_pos hge] at h1
        rw [upTo, if_pos hge] at hdec hbad
        have := ih (fun u hu => hdec u (List.mem_cons_of_mem _ hu)) (by
          obtain ⟨u, hu, e, he⟩ := hbad
          rcases List.mem_cons.mp hu with rfl | hu
          · rw [hr] at he; cases he
          · exact ⟨u, hu, e, he⟩) _ h2
        rw [visit]
        generalize renderCb p now dur stop st v = q at h1 this
        obtain ⟨a, b⟩ := q
        dsimp only at h1 this
        subst h1
        exact this
      · rw [upTo, if_neg hge] at hbad
        obtain ⟨u, hu, e, he⟩ := hbad
        rw [List.mem_singleton] at hu
        subst hu
        rw [hr] at he
        cases he

/-- **C69** (bad record). When a stored value that the graph needs is not an encoded record, the answer is an error: nothing is left out without notice. -/
theorem C69_undecodable {D α : Type} (p : RenderParams D α) {s : Store} {acc : List Val} (h : Reach s acc) (cfg : Cfg) (hg : GeoOk cfg.size cfg.cap) (now dur : Int64)
    (hnow : ∀ v ∈ acc, v.stop < now) (hm : ∀ d, ∃ w, p.measure d = .ok w ∧ w ≠ 0)
    (hdec : ∀ v ∈ acc, (∃ r, DRec.decode v.data = .ok r) ∨ ∃ e, DRec.decode v.data = .err e) :
    ∃ stored dropped, acc = stored ++ dropped ∧ (acc ≠ [] → stored ≠ []) ∧
      ((∃ v ∈ upTo (now - dur) stored, ∃ e, DRec.decode v.data = .err e) → (serveRender p cfg now dur s).1 = .failed) := by
  obtain ⟨stored, dropped, ha, hsne, hq⟩ := C13_acknowledged_stored h
  refine ⟨stored, dropped, ha, hsne, fun hbad => ?_⟩
  have hst := (hq cfg now hg hnow).1
  have hde : s.dirExists = true := by
    cases hx : s.dirExists with
    | true => rfl
    | false =>
      have h0 := ((C15_query_sound h cfg hg now).1 hx).1
      rw [h0] at ha
      have hs0 := (List.append_eq_nil_iff.mp ha.symm).1
      rw [hs0] at hbad
      obtain ⟨v, hv, _⟩ := hbad
      cases hv
  obtain ⟨L, hsub, _, hpw, hvis⟩ := (C15_query_sound h cfg hg now).2 hde
  have hL : L = stored := by
    have := hvis (List Val) (fun seen v => (seen ++ [v], Cb.more)) []
    rw [visit_collect] at this
    unfold queryList at hst
    rw [this] at hst
    simpa using hst
  subst hL
  have := visit_bad p now dur (now - dur) hm L (fun v hv => hdec v (by
    rw [ha]; exact List.mem_append_left _ ((C69_window (now - dur) L hpw).1.subset hv))) hbad {} ⟨rfl, .inl rfl⟩
  unfold serveRender
  dsimp only
  rw [hvis]
  unfold renderEnd
  rw [this.1, this.2]
  rfl

/-! ## A case -/

/-- The stored value of a record. -/
def exRVal (a b : Int64) : Val := ⟨a, b, DRec.encode { startTime := a, endTime := b }⟩

/-- Three records, in two files. -/
def exROps : List Op := [.write exCfg (exRVal 10 20), .write exCfg (exRVal 150 350), .write exCfg (exRVal 650 860), .write exCfg (exRVal 850 980)]
def exRState : Store := (runOps exROps (Store.fresh false (fun _ => true), [])).1
def exRParams : RenderParams Unit (List DRec) := ⟨fun _ => some (), fun _ => .ok 10, some⟩

set_option maxRecDepth 100000 in
theorem exRState_reach : Reach exRState [exRVal 850 980, exRVal 650 860, exRVal 150 350, exRVal 10 20] := by
  have : ReachMax 0 exRState [exRVal 850 980, exRVal 650 860, exRVal 150 350, exRVal 10 20] := by
    unfold exRState
    refine reachMax_run _ _ _ _ ?_ (by decide +kernel)
    intro o ho
    simp only [exROps, List.mem_cons, List.not_mem_nil, or_false] at ho
    rcases ho with rfl | rfl | rfl | rfl <;> exact ⟨⟨exCfg_ok, by decide⟩, by intro m h; cases h; rfl⟩
  exact this.reach

/-- The record of a stored value. -/
def exRDec (v : Val) : DRec := { startTime := v.start, endTime := v.stop }

/-- The hypotheses of `C69_pixels` hold of a store with four records in two files. -/
example : Reach exRState [exRVal 850 980, exRVal 650 860, exRVal 150 350, exRVal 10 20] ∧
    (∀ v ∈ [exRVal 850 980, exRVal 650 860, exRVal 150 350, exRVal 10 20], v.stop < 1000 ∧ DRec.decode v.data = .ok (exRDec v) ∧ (exRDec v).endTime = v.stop ∧ RecOk 1000 10 (600 / 10) (exRDec v)) ∧
    0 < (10 : Int64).toInt ∧ 0 < ((600 : Int64) / 10).toInt := by
  refine ⟨exRState_reach, ?_, by decide, by decide⟩
  intro v hv
  simp only [List.mem_cons, List.not_mem_nil, or_false] at hv
  rcases hv with rfl | rfl | rfl | rfl <;>
    exact ⟨by decide, by decide +kernel, rfl, by unfold RecOk PixOk; decide⟩

/-- What the columns of a result are. -/
def RenderRes.cols? {α : Type} : RenderRes α → Option (List (Int × Int × α))
  | .columns _ _ cols => some (cols.map (fun c => (c.x, c.w, c.data)))
  | _ => none

set_option maxRecDepth 100000 in
/-- The graph of the last 600: the record from 150 to 350 ended before that, and is still shown in the leftmost pixel; the one from 10 to 20 is not. -/
theorem C69_example : (serveRender exRParams exCfg 1000 600 exRState).1.cols? =
    some [(8, 2, [exRDec (exRVal 850 980)]), (7, 1, [exRDec (exRVal 850 980), exRDec (exRVal 650 860)]), (4, 3, [exRDec (exRVal 650 860)]), (0, 1, [exRDec (exRVal 150 350)])] := by
  decide +kernel

/-- The leftmost pixel is different: it can show a record that ended before the time of the graph began. -/
theorem C69_leftmost_refuted : ¬ ∀ (cfg : Cfg) (s : Store) (acc : List Val) (now dur : Int64), Reach s acc → GeoOk cfg.size cfg.cap →
    ∀ cols, (serveRender exRParams cfg now dur s).1.cols? = some cols → ∀ c ∈ cols, ∀ r ∈ c.2.2, (now - dur) ≤ r.endTime := by
  intro h
  have := h exCfg exRState _ 1000 600 exRState_reach exCfg_ok _ C69_example (0, 1, [exRDec (exRVal 150 350)]) (by decide) (exRDec (exRVal 150 350)) (by decide)
  revert this
  decide

end Rothko
