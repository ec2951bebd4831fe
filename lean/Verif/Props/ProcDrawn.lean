import Verif.Spec.ProcDrawn
import Verif.Props.ProcShown
import Verif.Props.Browser
/-!
# C121: the picture up to any time, and that it never panics
-/
namespace Rothko

theorem eachOf_sublist {α β : Type} {R : α → β → Prop} {l l' : List α} (hs : l'.Sublist l) : ∀ {k : List β}, EachOf R l k → ∃ k', k'.Sublist k ∧ EachOf R l' k' := by
  induction hs with
  | slnil => intro k h; exact ⟨k, List.Sublist.refl _, h⟩
  | cons a _ ih =>
    intro k h
    cases h with
    | cons _ h =>
      obtain ⟨k', h1, h2⟩ := ih h
      exact ⟨k', h1.cons _, h2⟩
  | cons_cons a _ ih =>
    intro k h
    cases h with
    | cons hr h =>
      obtain ⟨k', h1, h2⟩ := ih h
      exact ⟨_, h1.cons_cons _, .cons hr h2⟩

theorem eachOf_stops {d : DistParams} {m : Bytes} {recs : List DRec} {bs : List Batch} (h : EachOf (Right d m) recs bs) : recs.map ((fun v : Val => v.stop) ∘ valOf) = bs.map (·.stop) := by
  induction h with
  | nil => rfl
  | cons hr _ ih =>
    rw [List.map_cons, List.map_cons, ih]
    congr 1
    exact hr.stop

theorem seen_prefix {D α P : Type} (sc : Scene D α P) (now dur : Int64) (width height padding : Int) (L : List Val) : (visit (seenCb sc now dur width height padding) L []).1 <+: L := by
  have : ∀ (L acc : List Val), ∃ P, P <+: L ∧ (visit (seenCb sc now dur width height padding) L acc).1 = acc ++ P := by
    intro L
    induction L with
    | nil => intro acc; exact ⟨[], List.prefix_refl _, (List.append_nil _).symm⟩
    | cons v L ih =>
      intro acc
      rw [visit]
      rcases hx : seenCb sc now dur width height padding acc v with ⟨st, cb⟩
      have hst : st = acc ++ [v] := (congrArg Prod.fst hx).symm
      subst hst
      have one : ∃ P, P <+: v :: L ∧ acc ++ [v] = acc ++ P := ⟨[v], ⟨L, rfl⟩, rfl⟩
      cases cb with
      | more =>
        obtain ⟨P, h1, h2⟩ := ih (acc ++ [v])
        exact ⟨v :: P, List.prefix_cons_inj v |>.mpr h1, by rw [h2]; simp⟩
      | stop => exact one
      | err => exact one
      | cancel => exact one
  obtain ⟨P, h1, h2⟩ := this L []
  rw [h2]
  exact h1

section
variable {c : ProcCfg} {er : SysErrors} {K : Nat} {de : Bytes → Bool} {hit : Bytes → Nat → Bool} {ops : List PFOp} {s s' : ProcF} {l : Option PFOp}

/-- **C121.** The program runs as in C120, whatever the clock gives and whatever calls fail, as long as none leaves a new data file of this metric half made. A request for the graph of a metric up to any time, also one before intervals that are stored,
gets the picture of intervals of the metric that were not reported as lost and that ended before the time; or an error, if there are none or its query met one. -/
theorem C121_any_time {e : Outside} (he : e.Ok) {n : ℕ} (h1 : 1 ≤ n) (hn : n < 2 ^ 50) {colors : List Color} (hc : 1 ≤ colors.length) (hN : colors.length ≤ 2 ^ 40) {state : List Obs → List F64} (lib : Library e c.pipe.d state)
    (h : ProcF.Reach c er (freshFs de hit) ops s) (hok : LifeOk c K (plainOps ops)) (hst : s.Step c er l s') {i : Nat} {m : Bytes} {now dur : Int64} {width height padding : Int} {dir : Option DirFault} {unlink : Bool} {r : DbRes}
    (hw : er.Whole m) (hlog : s'.sys.log = s.sys.log ++ [(i, m, ⟨pngCall (theScene e n colors) c.pipe.cfg now dur width height padding, dir, unlink⟩, r)]) :
    GraphOfSome (¬ er.Spares m ∧ ∃ seen, r = .query seen (some .os)) e n colors state m now dur width height padding ((ops.foldl PSpec.stepF {}).kept m) (pngAnswer (theScene e n colors) now dur width height padding r) r := by
  have inv := fltInv_reach (goodStart_fresh c er de hit) h hok
  have hst := stepF_log hst hlog
  obtain ⟨progs, base, acc, hs⟩ := inv.sys
  obtain ⟨recs, r1, r2, r3⟩ := hs.db m
  obtain ⟨done, e1, e2⟩ := inv.acked r3
  obtain ⟨_, hres, hsp⟩ := hs.result hok.handles hst hlog
  obtain ⟨file, hist, u, hu, hlim, hr⟩ := hres hw
  rw [← e1] at hu
  have hkeep : ∃ kept : List Batch, kept.Sublist ((ops.foldl PSpec.stepF {}).kept m) ∧ EachOf (Right c.pipe.d m) done kept ∧
      ∀ r ∈ done, needs c.pipe.cfg.size r.encode.length < c.pipe.cfg.cap := by
    rcases e2 with rfl | ⟨hd, r', rfl⟩
    · exact ⟨_, List.Sublist.refl _, r1, r2⟩
    · obtain ⟨b, k', e, h5⟩ := eachOf_tail r1
      exact ⟨k', by rw [e]; exact List.sublist_cons_self _ _, h5, fun r hr => r2 r (List.mem_cons_of_mem _ hr)⟩
  obtain ⟨kept, k0, k1, k2⟩ := hkeep
  have hq : answerAt (theScene e n colors) now dur width height padding (dbQueryF ⟨dir, file, unlink⟩ c.pipe.cfg now (seenCb (theScene e n colors) now dur width height padding) [] u).1 = pngAnswer (theScene e n colors) now dur width height padding r := by
    rw [← hr]
    rfl
  have hmain : ∃ L : List Val, L.Sublist (done.map valOf) ∧ (∀ v ∈ L, v.stop < now) ∧ (∀ seen err, r = .query seen err → seen <+: L) ∧
      ((pngAnswer (theScene e n colors) now dur width height padding r = .failed ∧ ((¬ er.Spares m ∧ ∃ seen, r = .query seen (some .os)) ∨ L = [])) ∨
        pngAnswer (theScene e n colors) now dur width height padding r = answerAt (theScene e n colors) now dur width height padding
          ((visit (seenCb (theScene e n colors) now dur width height padding) L []).1, (visit (seenCb (theScene e n colors) now dur width height padding) L []).2.error)) := by
    by_cases hspare : er.Spares m
    · obtain ⟨u2, hu2, hr2⟩ := hsp hspare
      rw [← e1] at hu2
      have hx2 : r = .query (dbQuery c.pipe.cfg now (seenCb (theScene e n colors) now dur width height padding) [] u2).1.1 (dbQuery c.pipe.cfg now (seenCb (theScene e n colors) now dur width height padding) [] u2).1.2 := hr2.symm
      have hr2 : answerAt (theScene e n colors) now dur width height padding (dbQuery c.pipe.cfg now (seenCb (theScene e n colors) now dur width height padding) [] u2).1 = pngAnswer (theScene e n colors) now dur width height padding r := by
        rw [← hr2]
        rfl
      rw [← hr2]
      obtain ⟨s1, s2⟩ := C15_query_sound hu2.reach c.pipe.cfg hok.geo now
      cases hd : u2.dirExists with
      | false =>
        rw [(s1 hd).2] at hx2
        exact ⟨[], List.nil_sublist _, fun _ h => (by cases h), (fun seen err h => by rw [hx2] at h; cases h; exact List.prefix_refl _), .inl ⟨by rw [(s1 hd).2]; rfl, .inr rfl⟩⟩
      | true =>
        obtain ⟨L, a1, a2, _, a3⟩ := s2 hd
        rw [a3] at hx2
        exact ⟨L, a1, a2, (fun seen err h => by rw [hx2] at h; cases h; exact seen_prefix ..), .inr (by rw [a3])⟩
    · obtain ⟨L, l1, l2, l3, l4⟩ := C99_query_partial hu c.pipe.cfg hok.geo now
      have hx3 : r = .query (dbQueryF ⟨dir, file, unlink⟩ c.pipe.cfg now (seenCb (theScene e n colors) now dur width height padding) [] u).1.1 (dbQueryF ⟨dir, file, unlink⟩ c.pipe.cfg now (seenCb (theScene e n colors) now dur width height padding) [] u).1.2 := hr.symm
      rw [← hq]
      rcases (l4 ⟨dir, file, unlink⟩ _ (seenCb (theScene e n colors) now dur width height padding) []).1 with hx | hx
      · rw [hx] at hx3 ⊢
        cases hde : u.dirExists with
        | false =>
          rw [((sound_of_inv hu.inv c.pipe.cfg hok.geo now).1 hde).2] at hx3
          exact ⟨[], List.nil_sublist _, fun _ h => (by cases h), (fun seen err h => by rw [hx3] at h; cases h; exact List.prefix_refl _), .inl ⟨by rw [((sound_of_inv hu.inv c.pipe.cfg hok.geo now).1 hde).2]; rfl, .inr rfl⟩⟩
        | true =>
          rw [l3 hde] at hx3
          exact ⟨L, l1, l2, (fun seen err h => by rw [hx3] at h; cases h; exact seen_prefix ..), .inr (by rw [l3 hde])⟩
      · refine ⟨L, l1, l2, (fun seen err h => by
          obtain ⟨L', hp, _, hcut⟩ := hx
          rw [hx3, hcut] at h
          cases h
          exact (seen_prefix ..).trans hp), .inl ⟨answer_cut _ _ _ _ _ _ hx, .inl ⟨hspare, ?_⟩⟩⟩
        obtain ⟨L', _, _, hcut⟩ := hx
        refine ⟨(visit (seenCb (theScene e n colors) now dur width height padding) L' []).1, ?_⟩
        rw [← hr]
        show DbRes.query (dbQueryF ⟨dir, file, unlink⟩ c.pipe.cfg now (seenCb (theScene e n colors) now dur width height padding) [] u).1.1 (dbQueryF ⟨dir, file, unlink⟩ c.pipe.cfg now (seenCb (theScene e n colors) now dur width height padding) [] u).1.2 = _
        rw [hcut]
  obtain ⟨L, l1, l2, l2', l3⟩ := hmain
  obtain ⟨d1, hd1, rfl⟩ := List.sublist_map_iff.mp l1
  obtain ⟨shown, hb0, hb1⟩ := eachOf_sublist hd1 k1
  refine ⟨shown, hb0.trans k0, (stops_before hb1 now).mp l2, fun seen err h => by rw [← eachOf_stops hb1, ← List.map_map]; exact (l2' seen err h).map _, ?_, fun hne htimes hfar hpad hwd hht => ?_⟩
  · rintro rfl
    have hd : d1 = [] := (eachOf_nil hb1).mpr rfl
    subst hd
    rcases l3 with ⟨hx, _⟩ | hx
    · exact .inr hx
    · exact .inl hx
  · have hd1ne : d1.map valOf ≠ [] := fun e => hne ((eachOf_nil hb1).mp (List.map_eq_nil_iff.mp e))
    rcases l3 with ⟨hx, hy | hy⟩ | hx
    · exact .inl ⟨hx, hy⟩
    · exact absurd hy hd1ne
    refine .inr ?_
    have hm : done.map valOf ≠ [] := fun e => hd1ne (by rw [e] at l1; exact List.sublist_nil.mp l1)
    have hsort : (d1.map valOf).Pairwise (fun a b => b.stop < a.stop) := by
      have : (done.map valOf).Pairwise (fun a b => b.stop < a.stop) := by
        rcases hu.inv with ⟨_, _, ha⟩ | ⟨_, _, _, _, _, inv, _⟩
        · exact absurd ha hm
        · exact inv.sorted
      exact this.sublist l1
    obtain ⟨t, ht⟩ := reachCfg_list { c.pipe.cfg with max := 0 } hok.geo (d1.map valOf) hsort (by
      intro v hv
      obtain ⟨r, hr, rfl⟩ := List.mem_map.mp hv
      exact k2 r (hd1.subset hr))
    have hstop := (stops_before hb1 now).mp l2
    obtain ⟨newest, st, dr, z1, z2, z3, z4⟩ := shows_records he h1 hn hc hN { c.pipe with cfg := { c.pipe.cfg with max := 0 } } lib hok.geo hb1 (fun r hr => k2 r (hd1.subset hr)) ht hne now dur width height padding
      (fun b hb => ⟨(htimes b hb).1, (htimes b hb).2.1, (htimes b hb).2.2, hstop b hb⟩) hfar hpad hwd hht
    have z5 := z3 (Int.le_refl _)
    subst z5
    rw [List.append_nil] at z1
    subst z1
    refine ⟨newest, z2, ?_⟩
    have z4 := z4 (.inr rfl)
    rw [answer_list _ { c.pipe.cfg with max := 0 } _ _ _ _ _ hok.geo (Int.le_refl _) ht hd1ne l2] at z4
    rw [hx]
    exact z4

/-- **C121** (no panic). If moreover the size of the picture has room for the heatmap whatever the newest interval is, the answer is a picture of that size or an error, and never a panic. -/
theorem C121_no_panic {e : Outside} (he : e.Ok) {n : ℕ} (h1 : 1 ≤ n) (hn : n < 2 ^ 50) {colors : List Color} (hc : 1 ≤ colors.length) (hN : colors.length ≤ 2 ^ 40) {state : List Obs → List F64} (lib : Library e c.pipe.d state)
    (h : ProcF.Reach c er (freshFs de hit) ops s) (hok : LifeOk c K (plainOps ops)) (hst : s.Step c er l s') {i : Nat} {m : Bytes} {now dur : Int64} {width height padding : Int} {dir : Option DirFault} {unlink : Bool} {r : DbRes}
    (hw : er.Whole m) (hlog : s'.sys.log = s.sys.log ++ [(i, m, ⟨pngCall (theScene e n colors) c.pipe.cfg now dur width height padding, dir, unlink⟩, r)])
    (htimes : SaneTimes width ((ops.foldl PSpec.stepF {}).kept m)) (hfar : now.toInt + dur.toInt < 9223372036854775808) (hpad : 0 ≤ padding) (hwd : width ≤ dur.toInt) (hht : height ≤ 9007199254740992)
    (hroom : 0 ≤ now.toInt → ∀ w : TWrap, ∃ gm, graphMeasure (sceneStyle e w) (pngOpts now dur width height padding) = .ok gm ∧ 0 < gm.width ∧ 2 ≤ gm.height ∧
      (n : Int) * (gm.height - 1) < 1125899906842624 ∧ ((colors.length - 1 : ℕ) : Int) * (gm.height - 1) < 1125899906842624) :
    (∃ cv pix, pngAnswer (theScene e n colors) now dur width height padding r = .png cv pix ∧ cv.width = width + 2 * padding ∧ cv.height = height + 2 * padding ∧ IsImage pix cv.width.toNat cv.height.toNat) ∨
      pngAnswer (theScene e n colors) now dur width height padding r = .tooSmall ∨ pngAnswer (theScene e n colors) now dur width height padding r = .failed := by
  obtain ⟨shown, g1, g2, _, g3, g4⟩ := C121_any_time he h1 hn hc hN lib h hok hst hw hlog
  by_cases hs : shown = []
  · exact .inr (g3 hs)
  · rcases g4 hs (fun b hb => htimes b (g1.subset hb)) hfar hpad hwd hht with ⟨hx, _⟩ | ⟨newest, hnew, hshow⟩
    · exact .inr (.inr hx)
    · have hmem : newest ∈ shown := List.mem_of_mem_head? (by rw [hnew]; rfl)
      have h0 : 0 ≤ now.toInt := by
        have := Int64.lt_iff_toInt_lt.mp (g2 newest hmem)
        have := (htimes newest (g1.subset hmem)).2.2
        omega
      obtain ⟨gm, a1, a2, a3, a4, a5⟩ := hroom h0 { obs := state (obsOf m newest.obs) }
      obtain ⟨cv, pix, p1, p2, p3, p4, _⟩ := hshow gm a1 a2 a3 a4 a5
      exact .inl ⟨cv, pix, p1, p2, p3, p4⟩

/-- **C121** (the page). What the page asks for in a window of at least 164 pixels is answered with a picture of the size of the page's image or an error, and never with a panic. -/
theorem C121_page {e : Outside} (he : e.Ok) (hshort : e.Short) {state : List Obs → List F64} (lib : Library e c.pipe.d state)
    (h : ProcF.Reach c er (freshFs de hit) ops s) (hok : LifeOk c K (plainOps ops)) (hst : s.Step c er l s') {i : Nat} {m : Bytes} {now : Int64} {window : Int} (hw1 : 164 ≤ window) (hw2 : window ≤ 2147483647) {dir : Option DirFault} {unlink : Bool} {r : DbRes}
    (hw : er.Whole m) (hlog : s'.sys.log = s.sys.log ++ [(i, m, ⟨pngCall (theScene e 30 viridis) c.pipe.cfg now 86400000000000 (window - 38) 350 5, dir, unlink⟩, r)])
    (htimes : SaneTimes window ((ops.foldl PSpec.stepF {}).kept m)) (hfar : now.toInt + 86400000000000 < 9223372036854775808) :
    (∃ cv pix, pngAnswer (theScene e 30 viridis) now 86400000000000 (window - 38) 350 5 r = .png cv pix ∧ cv.width = window - 28 ∧ cv.height = 360 ∧ IsImage pix cv.width.toNat cv.height.toNat) ∨
      pngAnswer (theScene e 30 viridis) now 86400000000000 (window - 38) 350 5 r = .tooSmall ∨ pngAnswer (theScene e 30 viridis) now 86400000000000 (window - 38) 350 5 r = .failed := by
  have := C121_no_panic he (n := 30) (by norm_num) (by norm_num) (by rw [viridis_length]; norm_num) (by rw [viridis_length]; norm_num) lib h hok hst hw hlog (fun b hb => ⟨(htimes b hb).1, (by have := (htimes b hb).2.1; omega), (htimes b hb).2.2⟩)
    hfar (by decide) (by rw [show (86400000000000 : Int64).toInt = 86400000000000 from rfl]; omega) (by decide) (fun h0 w => by
      obtain ⟨gm, g1, g2, g3, _, _, _, _⟩ := page_room he hshort w now h0 (window - 38) (by omega)
      exact ⟨gm, g1, by omega, by omega, by rw [g2]; decide, by rw [g2, viridis_length]; decide⟩)
  rcases this with ⟨cv, pix, p1, p2, p3, p4⟩ | hx
  · exact .inl ⟨cv, pix, p1, by rw [p2]; omega, p3, p4⟩
  · exact .inr hx

end

end Rothko
