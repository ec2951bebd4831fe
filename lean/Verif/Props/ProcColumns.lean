import Verif.Spec.ProcColumns
import Verif.Props.ByHand
/-!
# C125: the columns as JSON, up to any time, while storing fails
-/
namespace Rothko

section
variable {D α P : Type} (sc : Scene D α P) (cfg : Cfg) (now dur : Int64) (width height padding : Int)

/-- What is made of the values that the query called back with, and of what it returned. -/
def columnsAt (x : List Val × Option MErr) : RenderRes α := renderAnswer (sc.params (pngOpts now dur width height padding)) now dur (.query x.1 x.2)

theorem columns_cut {L : List Val} {x : List Val × Option MErr} (h : CutShort (seenCb sc now dur width height padding) L [] x) : columnsAt sc now dur width height padding x = .failed := by
  obtain ⟨L', _, h1, rfl⟩ := h
  obtain ⟨v1, v2⟩ := visit_seen (renderCb (sc.params (pngOpts now dur width height padding)) now dur (now - dur)) {} L' []
  have v1 : renderAfter (sc.params (pngOpts now dur width height padding)) now dur (visit (seenCb sc now dur width height padding) L' []).1 = (visit (renderCb (sc.params (pngOpts now dur width height padding)) now dur (now - dur)) L' {}).1 := v1
  have v2 : (visit (seenCb sc now dur width height padding) L' []).2 = (visit (renderCb (sc.params (pngOpts now dur width height padding)) now dur (now - dur)) L' {}).2 := v2
  have hcalm := visit_calm (sc.params (pngOpts now dur width height padding)) now dur (now - dur) L' {} rfl (by rw [← v2]; exact h1)
  unfold columnsAt renderAnswer
  dsimp only
  rw [v1]
  unfold renderEnd
  rw [if_neg (by rw [hcalm]; decide)]

theorem columns_list (hg : GeoOk cfg.size cfg.cap) (hmax : cfg.max ≤ 0) {t : Store} {L : List Val} (ht : ReachCfg cfg t L) (hne : L ≠ []) (hb : ∀ v ∈ L, v.stop < now) :
    (serveRender (sc.params (pngOpts now dur width height padding)) cfg now dur t).1 =
      columnsAt sc now dur width height padding ((visit (seenCb sc now dur width height padding) L []).1, (visit (seenCb sc now dur width height padding) L []).2.error) := by
  rw [← answer_of_call _ ht.reach cfg hg now dur]
  obtain ⟨h1, h2⟩ := C15_query_sound ht.reach cfg hg now
  cases hd : t.dirExists with
  | false => exact absurd (h1 hd).1 hne
  | true =>
    obtain ⟨L', _, _, _, hL⟩ := h2 hd
    have hLL : L' = L := by
      rcases ht.inv with ⟨_, _, ha⟩ | ⟨first, last, H, V, d, inv, hc⟩
      · exact absurd ha hne
      · have q := inv.stored_query cfg now hb
        have hd : d = [] := Classical.byContradiction fun hx => by have := (hc.drop hx).1; omega
        have := hL _ (fun (seen : List Val) v => (seen ++ [v], Cb.more)) []
        unfold queryList at q
        rw [q, visit_collect] at this
        rw [inv.eq, hd, List.append_nil]
        injection this with this
        simpa using this.symm
    subst hLL
    unfold columnsAt
    rw [← hL _ (seenCb sc now dur width height padding) []]
    rfl

end

section
variable {c : ProcCfg} {er : SysErrors} {K : Nat} {de : Bytes → Bool} {hit : Bytes → Nat → Bool} {ops : List PFOp} {s s' : ProcF} {l : Option PFOp}

/-- What the query of a request gave back, at any point of a run of the program. -/
theorem queryF_list {D α P : Type} {sc : Scene D α P}
    (h : ProcF.Reach c er (freshFs de hit) ops s) (hok : LifeOk c K (plainOps ops)) (hst : s.Step c er l s') {i : Nat} {m : Bytes} {now dur : Int64} {width height padding : Int} {dir : Option DirFault} {unlink : Bool} {r : DbRes}
    (hw : er.Whole m) (hlog : s'.sys.log = s.sys.log ++ [(i, m, ⟨pngCall sc c.pipe.cfg now dur width height padding, dir, unlink⟩, r)]) :
    ∃ (d1 : List DRec) (shown : List Batch), shown.Sublist ((ops.foldl PSpec.stepF {}).kept m) ∧ EachOf (Right c.pipe.d m) d1 shown ∧ (∀ r ∈ d1, needs c.pipe.cfg.size r.encode.length < c.pipe.cfg.cap) ∧
      (d1.map valOf).Pairwise (fun a b => b.stop < a.stop) ∧ (∀ v ∈ d1.map valOf, v.stop < now) ∧ (∀ seen err, r = .query seen err → seen <+: d1.map valOf) ∧
      ((d1 = [] ∧ ∃ err, r = .query [] (some err)) ∨ ((¬ er.Spares m ∧ ∃ seen, r = .query seen (some .os)) ∧ ∃ x, CutShort (seenCb sc now dur width height padding) (d1.map valOf) [] x ∧ r = .query x.1 x.2) ∨
        r = .query (visit (seenCb sc now dur width height padding) (d1.map valOf) []).1 (visit (seenCb sc now dur width height padding) (d1.map valOf) []).2.error) := by
  have inv := fltInv_reach (goodStart_fresh c er de hit) h hok
  have hst := stepF_log hst hlog
  obtain ⟨progs, base, acc, hs⟩ := inv.sys
  obtain ⟨recs, r1, r2, r3⟩ := hs.db m
  obtain ⟨done, e1, e2⟩ := inv.acked r3
  obtain ⟨_, hres, hsp⟩ := hs.result hok.handles hst hlog
  obtain ⟨file, hist, u, hu, hlim, hr⟩ := hres hw
  rw [← e1] at hu
  have hkeep : ∃ kept : List Batch, kept.Sublist ((ops.foldl PSpec.stepF {}).kept m) ∧ EachOf (Right c.pipe.d m) done kept ∧
      ∀ r ∈ done, needs c.pipe.cfg.size r.encode.length < c.pipe.cfg.cap := by
    rcases e2 with rfl | ⟨hd, r', rfl⟩
    · exact ⟨_, List.Sublist.refl _, r1, r2⟩
    · obtain ⟨b, k', e, h5⟩ := eachOf_tail r1
      exact ⟨k', by rw [e]; exact List.sublist_cons_self _ _, h5, fun r hr => r2 r (List.mem_cons_of_mem _ hr)⟩
  obtain ⟨kept, k0, k1, k2⟩ := hkeep
  have hx3 : r = .query (dbQueryF ⟨dir, file, unlink⟩ c.pipe.cfg now (seenCb sc now dur width height padding) [] u).1.1 (dbQueryF ⟨dir, file, unlink⟩ c.pipe.cfg now (seenCb sc now dur width height padding) [] u).1.2 := hr.symm
  have hmain : ∃ L : List Val, L.Sublist (done.map valOf) ∧ (∀ v ∈ L, v.stop < now) ∧ (∀ seen err, r = .query seen err → seen <+: L) ∧
      ((L = [] ∧ ∃ err, r = .query [] (some err)) ∨ ((¬ er.Spares m ∧ ∃ seen, r = .query seen (some .os)) ∧ ∃ x, CutShort (seenCb sc now dur width height padding) L [] x ∧ r = .query x.1 x.2) ∨
        r = .query (visit (seenCb sc now dur width height padding) L []).1 (visit (seenCb sc now dur width height padding) L []).2.error) := by
    by_cases hspare : er.Spares m
    · obtain ⟨u2, hu2, hr2⟩ := hsp hspare
      rw [← e1] at hu2
      have hx2 : r = .query (dbQuery c.pipe.cfg now (seenCb sc now dur width height padding) [] u2).1.1 (dbQuery c.pipe.cfg now (seenCb sc now dur width height padding) [] u2).1.2 := hr2.symm
      obtain ⟨s1, s2⟩ := C15_query_sound hu2.reach c.pipe.cfg hok.geo now
      cases hd : u2.dirExists with
      | false =>
        rw [(s1 hd).2] at hx2
        exact ⟨[], List.nil_sublist _, fun _ h => (by cases h), (fun seen err h => by rw [hx2] at h; cases h; exact List.prefix_refl _), .inl ⟨rfl, _, hx2⟩⟩
      | true =>
        obtain ⟨L, a1, a2, _, a3⟩ := s2 hd
        rw [a3] at hx2
        exact ⟨L, a1, a2, (fun seen err h => by rw [hx2] at h; cases h; exact seen_prefix ..), .inr (.inr hx2)⟩
    · obtain ⟨L, l1, l2, l3, l4⟩ := C99_query_partial hu c.pipe.cfg hok.geo now
      rcases (l4 ⟨dir, file, unlink⟩ _ (seenCb sc now dur width height padding) []).1 with hx | hx
      · rw [hx] at hx3
        cases hde : u.dirExists with
        | false =>
          rw [((sound_of_inv hu.inv c.pipe.cfg hok.geo now).1 hde).2] at hx3
          exact ⟨[], List.nil_sublist _, fun _ h => (by cases h), (fun seen err h => by rw [hx3] at h; cases h; exact List.prefix_refl _), .inl ⟨rfl, _, hx3⟩⟩
        | true =>
          rw [l3 hde] at hx3
          exact ⟨L, l1, l2, (fun seen err h => by rw [hx3] at h; cases h; exact seen_prefix ..), .inr (.inr hx3)⟩
      · refine ⟨L, l1, l2, (fun seen err h => by
          obtain ⟨L', hp, _, hcut⟩ := hx
          rw [hx3, hcut] at h
          cases h
          exact (seen_prefix ..).trans hp), .inr (.inl ⟨⟨hspare, ?_⟩, _, hx, hx3⟩)⟩
        obtain ⟨L', _, _, hcut⟩ := hx
        exact ⟨(visit (seenCb sc now dur width height padding) L' []).1, by rw [hx3, hcut]⟩
  obtain ⟨L, l1, l2, l2', l3⟩ := hmain
  obtain ⟨d1, hd1, rfl⟩ := List.sublist_map_iff.mp l1
  obtain ⟨shown, hb0, hb1⟩ := eachOf_sublist hd1 k1
  refine ⟨d1, shown, hb0.trans k0, hb1, fun r hr => k2 r (hd1.subset hr), ?_, l2, l2', ?_⟩
  · by_cases hm : done.map valOf = []
    · rw [hm] at l1
      rw [List.sublist_nil.mp l1]
      exact List.Pairwise.nil
    · have : (done.map valOf).Pairwise (fun a b => b.stop < a.stop) := by
        rcases hu.inv with ⟨_, _, ha⟩ | ⟨_, _, _, _, _, inv, _⟩
        · exact absurd ha hm
        · exact inv.sorted
      exact this.sublist l1
  · rcases l3 with ⟨a, b⟩ | l3
    · exact .inl ⟨List.map_eq_nil_iff.mp a, b⟩
    · exact .inr l3

/-- **C125** (columns). The program runs as in C121. What a request gives as JSON is the newest stored record and columns that for each pixel have the values and the rate of the intervals over it, of intervals of the metric that were not reported as
lost and ended before the time asked for; or an error, if there are none or its query met one. -/
theorem C125_columns {e : Outside} (he : e.Ok) {n : ℕ} (h1 : 1 ≤ n) (hn : n < 2 ^ 50) {colors : List Color} {state : List Obs → List F64} (lib : Library e c.pipe.d state)
    (h : ProcF.Reach c er (freshFs de hit) ops s) (hok : LifeOk c K (plainOps ops)) (hst : s.Step c er l s') {i : Nat} {m : Bytes} {now dur : Int64} {width height padding : Int} {dir : Option DirFault} {unlink : Bool} {r : DbRes}
    (hw : er.Whole m) (hlog : s'.sys.log = s.sys.log ++ [(i, m, ⟨pngCall (theScene e n colors) c.pipe.cfg now dur width height padding, dir, unlink⟩, r)]) :
    ColumnsOfSome (¬ er.Spares m ∧ ∃ seen, r = .query seen (some .os)) e n state c.pipe.d m now dur width height padding ((ops.foldl PSpec.stepF {}).kept m)
      (renderAnswer ((theScene e n colors).params (pngOpts now dur width height padding)) now dur r) r := by
  obtain ⟨d1, shown, g1, g2, g3, g4, g5, g6, g7⟩ := queryF_list h hok hst hw hlog
  have hstop := (stops_before g2 now).mp g5
  refine ⟨shown, g1, hstop, fun seen err h => by rw [← eachOf_stops g2, ← List.map_map]; exact (g6 seen err h).map _, ?_, fun hne htimes hfar hwd => ?_⟩
  · rintro rfl
    have hd : d1 = [] := (eachOf_nil g2).mpr rfl
    subst hd
    rcases g7 with ⟨_, err, rfl⟩ | ⟨_, x, hx, rfl⟩ | rfl
    · exact .inr rfl
    · exact .inr (columns_cut _ _ _ _ _ _ hx)
    · exact .inl rfl
  · have hd1ne : d1 ≠ [] := fun e => hne ((eachOf_nil g2).mp e)
    have hmne : d1.map valOf ≠ [] := fun e => hd1ne (List.map_eq_nil_iff.mp e)
    rcases g7 with ⟨hx, _⟩ | ⟨hf, x, hx, rfl⟩ | hr
    · exact absurd hx hd1ne
    · exact .inl ⟨columns_cut _ _ _ _ _ _ hx, hf⟩
    refine .inr ?_
    obtain ⟨t, ht⟩ := reachCfg_list { c.pipe.cfg with max := 0 } hok.geo (d1.map valOf) g4 (by
      intro v hv
      obtain ⟨r, hr, rfl⟩ := List.mem_map.mp hv
      exact g3 r hr)
    obtain ⟨newest, st, dr, z1, z2, z3, z4⟩ := columns_records he h1 hn (colors := colors) { c.pipe with cfg := { c.pipe.cfg with max := 0 } } lib hok.geo g2 g3 ht hne now dur width height padding
      (fun b hb => ⟨(htimes b hb).1, (htimes b hb).2.1, (htimes b hb).2.2, hstop b hb⟩) hfar hwd
    have z5 := z3 (Int.le_refl _)
    subst z5
    rw [List.append_nil] at z1
    subst z1
    refine ⟨newest, z2, fun gm a1 a2 => ?_⟩
    obtain ⟨first, cols, y1, y2, y3⟩ := z4 gm a1 a2
    refine ⟨first, cols, y1, y2, ?_⟩
    rw [← y3, columns_list _ { c.pipe.cfg with max := 0 } _ _ _ _ _ hok.geo (Int.le_refl _) ht hmne g5, hr]
    rfl

/-- **C125.** The program runs as in C121. A request for a graph that accepts `application/json`, whatever its address says of sizes that are usable, of the time, the duration and the compression, is answered: with the JSON of the newest record and of
the columns, or with status 500 if nothing can be shown, the query met an error or they have no JSON; it never panics. They are those of intervals of the metric that were not reported as lost and ended before the time asked for. -/
theorem C125_json {b : Backend TWrap Shot Pos} {ext : F64 → Outside} (hb : b.Real ext) {q : Bytes} {clock : Int64} {ask : RenderAsk} (hask : ask = renderAsk b (goForm q) clock)
    (he : (ext ask.compression).Ok) (hshort : (ext ask.compression).Short) {state : List Obs → List F64} (lib : Library (ext ask.compression) c.pipe.d state)
    (h : ProcF.Reach c er (freshFs de hit) ops s) (hok : LifeOk c K (plainOps ops)) (hst : s.Step c er l s') {i : Nat} {dir : Option DirFault} {unlink : Bool} {r : DbRes}
    (hw : er.Whole ask.metric) (hlog : s'.sys.log = s.sys.log ++ [(i, ask.metric, ⟨ask.call b c.pipe.cfg, dir, unlink⟩, r)])
    (hm : ask.metric ≠ []) (hu : ask.Usable) (htimes : SaneTimes ask.nums.width.toInt ((ops.foldl PSpec.stepF {}).kept ask.metric)) (auth : Option (Bytes × Bytes)) :
    ColumnsOfSome (¬ er.Spares ask.metric ∧ ∃ seen, r = .query seen (some .os)) (ext ask.compression) ask.nums.samples.toInt.toNat state c.pipe.d ask.metric ask.nums.now ask.dur ask.nums.width.toInt ask.nums.height.toInt
      ask.nums.padding.toInt ((ops.foldl PSpec.stepF {}).kept ask.metric) (ask.columns b r) r ∧
    ∃ reply, ask.reply b "application/json" r = some reply ∧ ∀ hash msg srv req, req = getRequest "/api/render" q auth "application/json" → Passed hash srv req → srv.render req = reply →
      ((serve hash msg srv req).status = 500 ∧ ∀ newest width cols body, ask.columns b r = .columns newest width cols → b.json ask.metric cols newest ask.nums.now ask.dur ask.nums.width ask.nums.height ask.nums.padding ≠ some body) ∨
      ((serve hash msg srv req).status = 200 ∧ ("Content-Type", "application/json") ∈ (serve hash msg srv req).headers ∧
        ∃ newest width cols, ask.columns b r = .columns newest width cols ∧
          b.json ask.metric cols newest ask.nums.now ask.dur ask.nums.width ask.nums.height ask.nums.padding = some (serve hash msg srv req).body) := by
  obtain ⟨n, hn⟩ : ∃ n : ℕ, ask.nums.samples.toInt = n := ⟨ask.nums.samples.toInt.toNat, by have := hu.samples.1; omega⟩
  have hsc : ask.scene b = theScene (ext ask.compression) (n : ℕ) viridis := by
    unfold RenderAsk.scene
    rw [hb.scene, hn]
  have hcall : ask.call b c.pipe.cfg = pngCall (theScene (ext ask.compression) (n : ℕ) viridis) c.pipe.cfg ask.nums.now ask.dur ask.nums.width.toInt ask.nums.height.toInt ask.nums.padding.toInt := by
    unfold RenderAsk.call
    rw [hsc]
  have hcol : ask.columns b r = renderAnswer ((theScene (ext ask.compression) (n : ℕ) viridis).params (pngOpts ask.nums.now ask.dur ask.nums.width.toInt ask.nums.height.toInt ask.nums.padding.toInt)) ask.nums.now ask.dur r := by
    unfold RenderAsk.columns
    rw [hsc]
  have n1 : 1 ≤ n := by have := hu.samples.1; omega
  have n2 : n ≤ 16777216 := by have := hu.samples.2; omega
  rw [hcall] at hlog
  have hN : n < 2 ^ 50 := by omega
  rw [show ask.nums.samples.toInt.toNat = n by omega]
  have hg := C125_columns he n1 hN (colors := viridis) lib h hok hst hw hlog
  rw [← hcol] at hg
  refine ⟨hg, ?_⟩
  have hp : ask.columns b r = .failed ∨ ask.columns b r = .tooSmall ∨ ∃ newest width cols, ask.columns b r = .columns newest width cols := by
    obtain ⟨shown, g1, g2, _, g4, g5⟩ := hg
    by_cases hne : shown = []
    · rcases g4 hne with e | e
      · exact .inr (.inl e)
      · exact .inl e
    · rcases g5 hne (fun b hb => htimes b (g1.subset hb)) hu.time hu.duration with ⟨e, _⟩ | ⟨newest, _, key⟩
      · exact .inl e
      · obtain ⟨gm, m1, m2, _⟩ := any_room he hshort { obs := state (obsOf ask.metric newest.obs) } ask.nums.now ask.dur (padding := ask.nums.padding.toInt) hu.width hu.height (by have := hu.high; have := hu.padding; omega)
        obtain ⟨first, cols, _, _, e⟩ := key gm m1 (by have := hu.width; omega)
        exact .inr (.inr ⟨_, _, _, e⟩)
  have qm : ∀ req : HReq, req = getRequest "/api/render" q auth "application/json" → req.method = "GET" ∧ req.path = "/api/render" ∧ req.form "metric" ≠ [] := by
    rintro req rfl
    exact ⟨rfl, rfl, by rw [hask] at hm; exact hm⟩
  have hempty : ∀ hash msg srv req, req = getRequest "/api/render" q auth "application/json" → Passed hash srv req → ∀ acts : List HAct, (∀ a ∈ acts, a.sends = false) → srv.render req = (acts, some .other) → (serve hash msg srv req).status = 500 := by
    intro hash msg srv req hreq hpass acts ha hr
    obtain ⟨q1, q2, q3⟩ := qm req hreq
    exact (C51_failure hash msg srv req hpass q1 acts ha (.inl ⟨q2, q3, hr⟩)).1
  rcases hp with hp | hp | ⟨newest, width, cols, hp⟩
  · refine ⟨([], some .other), by unfold RenderAsk.reply; rw [if_pos rfl, hp], fun hash msg srv req hreq hpass hr => .inl ⟨hempty hash msg srv req hreq hpass [] (fun a ha => by cases ha) hr, fun _ _ _ _ e => by rw [hp] at e; cases e⟩⟩
  · refine ⟨([], some .other), by unfold RenderAsk.reply; rw [if_pos rfl, hp], fun hash msg srv req hreq hpass hr => .inl ⟨hempty hash msg srv req hreq hpass [] (fun a ha => by cases ha) hr, fun _ _ _ _ e => by rw [hp] at e; cases e⟩⟩
  · cases hj : b.json ask.metric cols newest ask.nums.now ask.dur ask.nums.width ask.nums.height ask.nums.padding with
    | some body =>
      refine ⟨([.setHeader "Content-Type" "application/json", .write body], none), by unfold RenderAsk.reply; rw [if_pos rfl, hp]; dsimp only; rw [hj], fun hash msg srv req hreq hpass hr => .inr ?_⟩
      obtain ⟨q1, q2, q3⟩ := qm req hreq
      obtain ⟨w1, w2, w3, _⟩ := serve_written (msg := msg) hpass q1 q2 q3 hr
      exact ⟨w1, w3, newest, width, cols, hp, by rw [hj, w2]⟩
    | none =>
      refine ⟨([.setHeader "Content-Type" "application/json"], some .other), by unfold RenderAsk.reply; rw [if_pos rfl, hp]; dsimp only; rw [hj], fun hash msg srv req hreq hpass hr => .inl ⟨hempty hash msg srv req hreq hpass _ (fun a ha => by rcases List.mem_singleton.mp ha with rfl; rfl) hr, ?_⟩⟩
      intro n' w' c' body e
      rw [hp] at e
      cases e
      rw [hj]
      exact fun h => by cases h

end

end Rothko
