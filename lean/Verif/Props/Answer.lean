import Verif.Props.Browser
/-!
# The columns as JSON (C104)

A request for a graph that accepts `application/json` is answered with the newest record and the columns of the heatmap. The text of the JSON is library code; what is encoded is not.
-/
namespace Rothko

/-- The columns of a heatmap `W` pixels wide: they are inside of it and apart; a pixel without an interval over it (`at_`) is in none; each other pixel is in one, which has the `n + 1` values of the merged digest of the observations in
these intervals at the ranks `i / n`, and, if each interval lasted, the mean rate of observations. -/
structure ColumnsShow (e : Outside) (state : List Obs → List F64) (n : ℕ) (m : Bytes) (W : Int) (at_ : Int → List Batch) (cols : List (Col Shot)) : Prop where
  inside : ∀ k ∈ cols, 0 ≤ k.x ∧ 1 ≤ k.w ∧ k.x + k.w ≤ W
  apart : cols.Pairwise (fun a b => b.x + b.w ≤ a.x)
  empty : ∀ x : ℕ, (x : Int) < W → at_ x = [] → ¬ ∃ k ∈ cols, k.Has x
  values : ∀ x : ℕ, (x : Int) < W → at_ x ≠ [] → ∃ k ∈ cols, k.Has x ∧ k.data.data.length = n + 1 ∧
    ∃ t, ((at_ x).map (fun b => state (obsOf m b.obs))).foldlM e.merge e.empty = some t ∧ ∀ i : ℕ, i ≤ n → ∃ r, Rounds ((i : ℚ) / n) r ∧ k.data.data[i]? = some (e.half (e.quant t r))
  rates : ∀ x : ℕ, (x : Int) < W → at_ x ≠ [] → (∀ b ∈ at_ x, b.start < b.stop ∧ b.obs.length < 9007199254740992) → (at_ x).length < 9007199254740992 → ∀ k ∈ cols, k.Has x →
    ∃ q, k.data.rate = .fin q ∧ 0 < q ∧ About ((at_ x).length + 7) (meanRate m (at_ x)) q

/-- The columns of a request (server.go:223-234) over the records of the intervals `kept` of a metric, newest first. -/
theorem columns_records {e : Outside} (he : e.Ok) {n : ℕ} (h1 : 1 ≤ n) (hn : n < 2 ^ 50) {colors : List Color}
    (o : PipeCfg) {state : List Obs → List F64} (lib : Library e o.d state) (hg : GeoOk o.cfg.size o.cfg.cap) {m : Bytes} {recs : List DRec} {kept : List Batch} {s : Store} (k1 : EachOf (Right o.d m) recs kept)
    (k2 : ∀ r ∈ recs, needs o.cfg.size r.encode.length < o.cfg.cap) (k3 : ReachCfg o.cfg s (recs.map valOf)) (hne : kept ≠ []) (now dur : Int64) (width height padding : Int)
    (htimes : ∀ b ∈ kept, 0 ≤ b.start.toInt ∧ b.start.toInt + width < 9223372036854775808 ∧ 0 ≤ b.stop.toInt ∧ b.stop < now) (hfar : now.toInt + dur.toInt < 9223372036854775808) (hwd : width ≤ dur.toInt) :
    ∃ (newest : Batch) (stored dropped : List Batch), kept = stored ++ dropped ∧ stored.head? = some newest ∧ (o.cfg.max ≤ 0 → dropped = []) ∧
      ∀ gm, graphMeasure (sceneStyle e { obs := state (obsOf m newest.obs) }) (pngOpts now dur width height padding) = .ok gm → 0 < gm.width →
        ∃ first cols, RecordOf o.d newest.start newest.stop (obsOf m newest.obs) first ∧ ColumnsShow e state n m gm.width (batchesAt now dur gm.width stored) cols ∧
          (serveRender ((theScene e n colors).params (pngOpts now dur width height padding)) o.cfg now dur s).1 = .columns first.encode (Int64.ofInt gm.width) cols := by
  have hsmall := fits_small hg k2
  have hreach := k3.reach
  obtain ⟨S, dr, ha, hSne, hq⟩ := C13_acknowledged_stored hreach
  have hrne : recs ≠ [] := fun h => hne ((eachOf_nil k1).mp h)
  have hacc : recs.map valOf ≠ [] := fun h => hrne (List.map_eq_nil_iff.mp h)
  have hbound : ∀ v ∈ recs.map valOf, v.stop < now := by
    intro v hv
    obtain ⟨r, hr, rfl⟩ := List.mem_map.mp hv
    obtain ⟨b, hb, hrb⟩ := eachOf_left k1 r hr
    show r.endTime < now
    rw [hrb.stop]
    exact (htimes b hb).2.2.2
  have hqn := (hq o.cfg now hg hbound).1
  have hmax : o.cfg.max ≤ 0 → dr = [] := by
    intro hmax
    have hall := (C18_retention k3.reachMax).2 hmax o.cfg now hg hbound
    rw [hqn, ha] at hall
    exact List.self_eq_append_right.mp hall
  obtain ⟨R1, R2, hR, e1, e2⟩ := List.map_eq_append_iff.mp ha
  have hdec : ∀ r ∈ recs, DRec.decode (valOf r).data = .ok r.norm := fun r hr => (C06_record_round_trip r (hsmall r hr)).1
  let dec : Val → DRec := fun v => match DRec.decode v.data with
    | .ok r => r
    | _ => {}
  have hdv : ∀ r ∈ recs, dec (valOf r) = r.norm := by
    intro r hr
    simp only [dec]
    rw [hdec r hr]
  have hR1 : ∀ r ∈ R1, r ∈ recs := fun r hr => by rw [hR]; exact List.mem_append_left _ hr
  rw [hR] at k1
  obtain ⟨stored, dropped, hks, hS, hD⟩ := eachOf_append k1
  rw [← hR] at k1
  have hload : ∀ b r, Right o.d m r b → loadRec e r.norm = some { obs := state (obsOf m b.obs) } := by
    intro b r h0
    unfold loadRec
    rw [if_pos (by rw [show r.norm.kind = r.kind from rfl, h0.kind, lib.kind]), show r.norm.distribution = r.distribution from rfl, h0.dist, lib.reads]
    rfl
  obtain ⟨newest, first, R1', hnew, hR1c, hfirst⟩ : ∃ b r l, stored.head? = some b ∧ R1 = r :: l ∧ Right o.d m r b := by
    cases hS with
    | nil => exact absurd (by rw [← e1]; rfl) (hSne hacc)
    | cons hrb _ => exact ⟨_, _, _, rfl, rfl, hrb⟩
  refine ⟨newest, stored, dropped, hks, hnew, fun h => ?_, fun gm hgm hgw => ?_⟩
  · have := hmax h
    rw [← e2] at this
    rw [List.map_eq_nil_iff.mp this] at hD
    exact (eachOf_nil hD).mp rfl
  have hgle : gm.width ≤ width := by
    obtain ⟨guess, ht⟩ := graphMeasure_try hgm
    obtain ⟨_, _, _, _, _, h6, h7, _, h9, _⟩ := tryMeasure_ok (sceneStyle_ok he _) ht
    have : 0 ≤ gm.rightWidth := by
      unfold GraphM.rightWidth
      cases hr : gm.right with
      | none => exact Int.le_refl 0
      | some r => have := (h9 r hr).1; show 0 ≤ r.width; omega
    have h7 : gm.width = width - (gm.left.width + 15 + gm.rightWidth) := h7
    omega
  have hd0 : dur.toInt < 9223372036854775808 := Int64.toInt_lt dur
  have ew : (Int64.ofInt gm.width).toInt = gm.width := int64_ofInt_small (by omega) (by omega)
  have hq : 0 < dur.toInt / gm.width := by
    have := Int.ediv_le_ediv hgw (show gm.width ≤ dur.toInt by omega)
    rw [Int.ediv_self (by omega)] at this
    omega
  have hq2 : dur.toInt / gm.width ≤ dur.toInt := Int.ediv_le_self _ (by omega)
  have eq : (dur / Int64.ofInt gm.width).toInt = dur.toInt / gm.width := by
    rw [Int64.toInt_div, ew, Int.tdiv_eq_ediv_of_nonneg (by omega)]
    exact i64_bmod (by omega) (by omega)
  have hN : 0 ≤ now.toInt := by
    obtain ⟨b, hb⟩ := List.exists_mem_of_ne_nil _ hne
    have h2 := Int64.lt_iff_toInt_lt.mp (htimes b hb).2.2.2
    have := (htimes b hb).2.2.1
    omega
  have hpx : ∀ T : Int64, 0 ≤ T.toInt → T.toInt + width < 9223372036854775808 → PixOk now (Int64.ofInt gm.width) (dur / Int64.ofInt gm.width) T := by
    intro T h0 h1
    refine ⟨by rw [eq]; exact hq, by rw [ew]; omega, by rw [eq]; omega, by rw [ew]; omega⟩
  have hmeas : ((theScene e n colors).params (pngOpts now dur width height padding)).measure { obs := state (obsOf m newest.obs) } = .ok (Int64.ofInt gm.width) := by
    show measureOf _ _ _ = _
    unfold measureOf
    have hgm : graphMeasure ((theScene e n colors).style { obs := state (obsOf m newest.obs) }) (pngOpts now dur width height padding) = .ok gm := hgm
    rw [hgm]
  have hright : ∀ v ∈ recs.map valOf, ∃ r ∈ recs, v = valOf r ∧ dec v = r.norm ∧ ∃ b ∈ kept, Right o.d m r b := by
    intro v hv
    obtain ⟨r, hr, rfl⟩ := List.mem_map.mp hv
    obtain ⟨b, hb, hrb⟩ := eachOf_left k1 r hr
    exact ⟨r, hr, rfl, hdv r hr, b, hb, hrb⟩
  obtain ⟨nv, rest, dropped', cols, ha', hqs, hres, hord, hin, hcol⟩ := C69_pixels ((theScene e n colors).params (pngOpts now dur width height padding)) hreach o.cfg hg now dur hacc hbound dec
    (fun v hv => by obtain ⟨r, hr, rfl, hd, _⟩ := hright v hv; rw [hd, hdec r hr])
    (fun v hv => by obtain ⟨r, hr, rfl, hd, _⟩ := hright v hv; rw [hd]; rfl)
    { obs := state (obsOf m newest.obs) } (Int64.ofInt gm.width)
    (fun v hv => by
      rw [hR, hR1c] at hv
      have hv : some (valOf first) = some v := hv
      injection hv with hv
      rw [← hv, hdv first (hR1 first (by rw [hR1c]; exact List.mem_cons_self))]
      exact hload _ _ hfirst)
    hmeas (by rw [ew]; exact hgw) (by rw [eq]; exact hq) ⟨by omega, by omega⟩
    (fun v hv => by
      obtain ⟨r, hr, rfl, hd, b, hb, hrb⟩ := hright v hv
      obtain ⟨t1, t2, t3, t4⟩ := htimes b hb
      have es : (dec (valOf r)).startTime = b.start := by rw [hd]; exact hrb.start
      have ee : (dec (valOf r)).endTime = b.stop := by rw [hd]; exact hrb.stop
      refine ⟨by rw [es]; exact hpx _ t1 t2, by rw [ee]; exact hpx _ t3 (by have := Int64.lt_iff_toInt_lt.mp t4; omega), by rw [ee]; exact t4⟩)
    (fun l hl hr => by
      have hE : ∃ ts, EachOf (fun (r : DRec) t => r.kind = tdigestKind ∧ e.fromBytes r.distribution = some t) l ts := by
        clear hl
        induction l with
        | nil => exact ⟨[], .nil⟩
        | cons a l ih =>
          obtain ⟨ts, hts⟩ := ih (fun r hr' => hr r (List.mem_cons_of_mem _ hr'))
          obtain ⟨v, hv, rfl⟩ := hr a List.mem_cons_self
          obtain ⟨r, _, rfl, hd, b, _, h0⟩ := hright v hv
          rw [hd]
          exact ⟨_, .cons ⟨by rw [show r.norm.kind = r.kind from rfl, h0.kind, lib.kind], by rw [show r.norm.distribution = r.distribution from rfl, h0.dist, lib.reads]⟩ hts⟩
      obtain ⟨ts, hts⟩ := hE
      obtain ⟨t, ht⟩ := foldlM_some lib.merges ts e.empty
      obtain ⟨s, hs, _⟩ := C87_column lib.again h1 hn hl hts ht
      intro h0
      have h0 : emitShot e n l = none := h0
      rw [hs] at h0
      cases h0)
  have hnv : nv :: rest = R1.map valOf := by rw [← hqs, hqn, e1]
  have hfv : nv = valOf first := by
    rw [hR1c] at hnv
    injection hnv
  have hmap : (nv :: rest).map dec = R1.map DRec.norm := by
    rw [hnv, List.map_map]
    exact List.map_congr_left (fun r hr => hdv r (hR1 r hr))
  rw [ew] at hin
  rw [ew, eq, hmap] at hcol
  have hSn : EachOf (ReadBack o.d m) (R1.map DRec.norm) stored := eachOf_norm hS
  have hO := fun x => over_batches hSn now dur gm.width x
  refine ⟨first, cols, hfirst, ⟨fun k hk => ?_, hord, fun x hx hb => ?_, fun x hx hb => ?_, fun x hx hb hlast hlen k hk hkx => ?_⟩, ?_⟩
  · obtain ⟨a, b, c, _⟩ := hin k hk
    exact ⟨a, b, c⟩
  · obtain ⟨hiff, _⟩ := hcol x (by omega) hx
    exact fun h0 => (hiff.mpr h0) ((eachOf_nil (hO x)).mpr hb)
  · obtain ⟨hiff, hdata⟩ := hcol x (by omega) hx
    obtain ⟨k, hk, hkx⟩ := hiff.mp (fun h0 => hb ((eachOf_nil (hO x)).mp h0))
    obtain ⟨t, s, ht, hs, _, hsl, hsd⟩ := draw_batches lib h1 hn (hO x) hb
    have hkd : emitShot e n _ = some k.data := hdata k hk hkx
    rw [hs] at hkd
    injection hkd with hkd
    subst hkd
    exact ⟨k, hk, hkx, hsl, t, ht, hsd⟩
  · obtain ⟨hiff, hdata⟩ := hcol x (by omega) hx
    have hkd : emitShot e n _ = some k.data := hdata k hk hkx
    rw [(emitShot_data h1 hkd).2]
    exact rate_back (hO x) hb (fun b hb' => ⟨by have := (hlast b hb').2; omega, by
      have := (batchesAt_sub now dur gm.width stored x).1 b hb'
      exact (htimes b (by rw [hks]; exact List.mem_append_left _ this)).1, (hlast b hb').1⟩) (by omega)
  · rw [hres, hfv]
    rfl

variable {c : ProcCfg} {K : Nat} {de : Bytes → Bool} {hit : Bytes → Nat → Bool} {ops : List POp} {s s' : Proc} {l : Option POp}

/-- **C104.** At any point of any run of the program, a request for a graph that accepts `application/json`, with at least one sample, is answered (if it is let in) with what was observed: if the queue took no interval of the metric an
error, and else, if these ended before the time asked for and there is room for a heatmap, the JSON of the metric, the stored record of the newest interval, the request's time, duration, width, height and padding, and columns that for
each pixel of the heatmap have the values and the rate of the observations in the stored intervals over it. If this has no JSON, the answer is an error. -/
theorem C104_json {b : Backend TWrap Shot Pos} {ext : F64 → Outside} (hb : b.Real ext) {form : List (String × Bytes)} {clock : Int64} {ask : RenderAsk} (hask : ask = renderAsk b form clock) {e : Outside} (hext : ext ask.compression = e)
    (he : e.Ok) {state : List Obs → List F64} (lib : Library e c.pipe.d state) {n : ℕ} (hn : ask.nums.samples.toInt = n) (h1 : 1 ≤ n) (hn2 : n < 2 ^ 50)
    (h : Proc.Reach c (freshFs de hit) ops s) (hok : ProcOk c K ops) (hst : s.Step c l s') {i : Nat} {r : DbRes} (hlog : s'.sys.log = s.sys.log ++ [(i, ask.metric, ask.call b c.pipe.cfg, r)])
    {req : HReq} (hq1 : req.method = "GET") (hq2 : req.path = "/api/render") (hq3 : req.form = formValue form) (hq4 : req.accept = "application/json") (hm : ask.metric ≠ []) :
    ∃ kept : List Batch, ((ops.foldl PSpec.step {}).kept ask.metric = kept ∨ s.dumping = true ∧ ∃ b, (ops.foldl PSpec.step {}).kept ask.metric = b :: kept) ∧
      (kept = [] → ∃ reply, ask.reply b req.accept r = some reply ∧ ∀ hash msg srv, Passed hash srv req → srv.render req = reply → (serve hash msg srv req).status = 500) ∧
      (kept ≠ [] → (∀ b ∈ kept, 0 ≤ b.start.toInt ∧ b.start.toInt + ask.nums.width.toInt < 9223372036854775808 ∧ 0 ≤ b.stop.toInt ∧ b.stop < ask.nums.now) → ask.nums.now.toInt + ask.dur.toInt < 9223372036854775808 → ask.nums.width.toInt ≤ ask.dur.toInt →
        ∃ (newest : Batch) (stored dropped : List Batch), kept = stored ++ dropped ∧ stored.head? = some newest ∧ (c.pipe.cfg.max ≤ 0 → dropped = []) ∧
        ∀ gm, graphMeasure (sceneStyle e { obs := state (obsOf ask.metric newest.obs) }) (pngOpts ask.nums.now ask.dur ask.nums.width.toInt ask.nums.height.toInt ask.nums.padding.toInt) = .ok gm → 0 < gm.width →
          ∃ first cols reply, RecordOf c.pipe.d newest.start newest.stop (obsOf ask.metric newest.obs) first ∧
            ColumnsShow e state n ask.metric gm.width (batchesAt ask.nums.now ask.dur gm.width stored) cols ∧ ask.reply b req.accept r = some reply ∧
            ∀ hash msg srv, Passed hash srv req → srv.render req = reply → (serve hash msg srv req).touched = [.query ask.metric] ∧
              match b.json ask.metric cols first.encode ask.nums.now ask.dur ask.nums.width ask.nums.height ask.nums.padding with
              | some body => (serve hash msg srv req).status = 200 ∧ (serve hash msg srv req).body = body ∧ ("Content-Type", "application/json") ∈ (serve hash msg srv req).headers
              | none => (serve hash msg srv req).status = 500) := by
  have hsc : ask.scene b = theScene e n viridis := by
    unfold RenderAsk.scene
    rw [hb.scene, hext, hn]
  have hcall : ask.call b c.pipe.cfg = renderCall ((theScene e n viridis).params (pngOpts ask.nums.now ask.dur ask.nums.width.toInt ask.nums.height.toInt ask.nums.padding.toInt)) c.pipe.cfg ask.nums.now ask.dur := by
    unfold RenderAsk.call pngCall
    rw [hsc]
  have hcol : ask.columns b r = renderAnswer ((theScene e n viridis).params (pngOpts ask.nums.now ask.dur ask.nums.width.toInt ask.nums.height.toInt ask.nums.padding.toInt)) ask.nums.now ask.dur r := by
    unfold RenderAsk.columns
    rw [hsc]
  have hmet : req.form "metric" = ask.metric := by rw [hq3, hask]; rfl
  rw [hcall] at hlog
  obtain ⟨kept, done, k0, k1, k2, t, k3, hrun⟩ := call_kept h hok hst hlog
  subst hrun
  rw [answer_of_call _ k3.reach _ hok.geo] at hcol
  generalize hR : (DbCall.run _ t).1 = R at hcol ⊢
  refine ⟨kept, k0, fun hk => ?_, fun hne ht hfar hwd => ?_⟩
  · have hd : done = [] := (eachOf_nil k1).mpr hk
    subst hd
    rw [C69_empty _ k3.reach _ hok.geo] at hcol
    refine ⟨([], some .other), ?_, fun hash msg srv hp hr => (C51_failure hash msg srv req hp hq1 [] (fun a ha => by cases ha) (.inl ⟨hq2, by rw [hmet]; exact hm, hr⟩)).1⟩
    unfold RenderAsk.reply
    rw [if_pos hq4, hcol]
    cases t.dirExists <;> rfl
  · obtain ⟨newest, stored, dropped, j1, j2, j3, key⟩ := columns_records he h1 hn2 (colors := viridis) c.pipe lib hok.geo k1 k2 k3 hne ask.nums.now ask.dur ask.nums.width.toInt ask.nums.height.toInt ask.nums.padding.toInt ht hfar hwd
    refine ⟨newest, stored, dropped, j1, j2, j3, fun gm g1 g2 => ?_⟩
    obtain ⟨first, cols, f1, f2, f3⟩ := key gm g1 g2
    rw [f3] at hcol
    cases hj : b.json ask.metric cols first.encode ask.nums.now ask.dur ask.nums.width ask.nums.height ask.nums.padding with
    | some body =>
      refine ⟨first, cols, ([.setHeader "Content-Type" "application/json", .write body], none), f1, f2, ?_, fun hash msg srv hp hr => ?_⟩
      · unfold RenderAsk.reply
        rw [if_pos hq4, hcol]
        dsimp only
        rw [hj]
      · rw [hj]
        obtain ⟨a1, a2, a3, a4⟩ := serve_written (msg := msg) hp hq1 hq2 (by rw [hmet]; exact hm) hr
        exact ⟨by rw [a4, hmet], a1, a2, a3⟩
    | none =>
      refine ⟨first, cols, ([.setHeader "Content-Type" "application/json"], some .other), f1, f2, ?_, fun hash msg srv hp hr => ?_⟩
      · unfold RenderAsk.reply
        rw [if_pos hq4, hcol]
        dsimp only
        rw [hj]
      · rw [hj]
        refine ⟨?_, (C51_failure hash msg srv req hp hq1 _ (fun a ha => by rcases List.mem_singleton.mp ha with rfl; rfl) (.inl ⟨hq2, by rw [hmet]; exact hm, hr⟩)).1⟩
        simp [serve, serveHTTP_passed hp, hq1, hq2, hmet, hm, hr, route]

end Rothko
