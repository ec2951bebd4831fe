import Verif.Model.Handler
import Verif.Props.RequestExample
import Verif.Props.Page
import Verif.Props.GraphRead
import Verif.Props.Http
/-!
# From the browser to the picture (C103, C104)

What the page shows, as an image, is what the server answers to the image's address. The size of the image leaves nothing open: the heatmap is 300 pixels high and has the width that the axes leave.
-/
namespace Rothko

/-! ## The room in the picture -/

/-- The texts of the axes are no longer than Go's formats make them: "%0.2f" of a number from 0 to 1 has four characters, "%#.3g" at most ten. -/
structure Outside.Short (e : Outside) : Prop where
  ranks : ∀ q : ℚ, 0 ≤ q → q ≤ 1 → (e.rankText q).length ≤ 4
  values : ∀ v, (e.valueText v).length ≤ 10

theorem measV_wide {P : Type} (f : Font) (px : Int → P → Int) (o : AxisOpts P) (B : Int) (ls : List (Label P)) (h : ∀ l ∈ ls, f.right l.text ≤ B) (mw mh : Int) (hm : mw ≤ B) :
    (measVLoop f px o ls mw mh).1 ≤ B := by
  induction ls generalizing mw mh with
  | nil => exact hm
  | cons l ls ih =>
    have hl := h l List.mem_cons_self
    unfold measVLoop
    dsimp only
    split
    · exact ih (fun x hx => h x (List.mem_cons_of_mem _ hx)) _ _ hm
    · refine ih (fun x hx => h x (List.mem_cons_of_mem _ hx)) _ _ ?_
      split <;> omega

/-- The texts at the side of a heatmap 300 pixels high. -/
theorem sideLabels_all {e : Outside} {w : TWrap} {text : Int → Int → Bytes} {p : Bytes → Prop} (h0 : p (text 300 300)) (h : ∀ y, 0 ≤ y → y ≤ 270 → p (text y 300)) :
    ∀ l ∈ sideLabels (sceneStyle e w) text 300, p l.text := by
  intro l hl
  unfold sideLabels at hl
  rcases List.mem_append.mp hl with hl | hl
  · obtain ⟨y, hy, rfl⟩ := List.mem_map.mp hl
    obtain ⟨a, b, _⟩ := (rowsLoop_spec 300 (300 : Int).toNat 0).1 y hy
    exact h y a (by omega)
  · rcases List.mem_singleton.mp hl with rfl
    exact h0

theorem day_times {u now : Int} (hu : 0 < u) (hu2 : u ≤ 86400000000000) (hnow : 0 ≤ now) : timesFrom u now 86400000000000 ≠ [] := by
  unfold timesFrom
  have hm : Int.tdiv now u * u = now - now % u := by
    rw [Int.tdiv_eq_ediv_of_nonneg hnow]
    have := Int.mul_ediv_add_emod now u
    rw [Int.mul_comm] at this
    omega
  have h1 := Int.emod_lt_of_pos now hu
  have h2 := Int.emod_nonneg now (show u ≠ 0 by omega)
  rw [hm]
  intro h
  have hin := (timesLoop_mem u (now - 86400000000000) hu (now - now % u - (now - 86400000000000)).toNat (now - now % u) (Nat.le_refl _) (now - now % u)).mpr ⟨by omega, by omega, by simp⟩
  rw [h] at hin
  cases hin

/-- The picture the page asks for has room for a heatmap of 300 rows. -/
theorem page_room {e : Outside} (he : e.Ok) (hs : e.Short) (w : TWrap) (now : Int64) (hnow : 0 ≤ now.toInt) (width : Int) (hw : 164 - 38 ≤ width) :
    ∃ gm, graphMeasure (sceneStyle e w) (pngOpts now 86400000000000 width 350 5) = .ok gm ∧ gm.height = 300 ∧ width - 125 ≤ gm.width ∧ gm.width ≤ width - 41 ∧
      5 ≤ gm.x ∧ gm.x + gm.width ≤ width + 5 ∧ gm.y = 26 := by
  obtain ⟨u, hu, hmem, hu1, _, _⟩ := C74_unit 86400000000000 width (by omega)
  have hu2 : u ≤ 86400000000000 := by
    have : ∀ v ∈ naturalUnits, v ≤ 86400000000000 := by decide
    exact this u hmem
  have hk : ∃ gm, tryMeasure (sceneStyle e w) (pngOpts now 86400000000000 width 350 5) 50 = .ok gm ∧ gm.left.width ≤ 37 ∧ gm.rightWidth ≤ 73 := by
    unfold tryMeasure pngOpts
    dsimp only
    rw [if_neg (by decide)]
    rw [show (86400000000000 : Int64).toInt = 86400000000000 from rfl, hu]
    refine ⟨_, rfl, ?_, ?_⟩
    · show (13 : Int) + _ ≤ 37
      have := measV_wide iosevka (sceneStyle e w).px { labels := sideLabels (sceneStyle e w) (sceneStyle e w).leftText (350 - 50), vertical := true, length := 350 - 50, flip := true } 24
        (sideLabels (sceneStyle e w) (sceneStyle e w).leftText 300) (sideLabels_all (p := fun t => iosevka.right t ≤ 24) (by
          show 6 * ((e.rankText _).length : Int) ≤ 24
          rw [if_pos rfl]
          have := hs.ranks 0 (by norm_num) (by norm_num)
          omega) (fun y h0 h1 => by
          show 6 * ((e.rankText _).length : Int) ≤ 24
          rw [if_neg (by omega)]
          obtain ⟨a, b, _⟩ := rank_near (y := y) (h := 300) h0 (by omega) (by omega) (by omega)
          have := hs.ranks _ a b
          omega)) 0 (350 - 50) (by omega)
      have this : (measVLoop iosevka (sceneStyle e w).px _ _ _ _).1 ≤ 24 := this
      show (13 : Int) + (measVLoop iosevka (sceneStyle e w).px _ (sideLabels (sceneStyle e w) (sceneStyle e w).leftText 300) 0 (350 - 50)).1 ≤ 37
      omega
    · show (13 : Int) + (measVLoop iosevka (sceneStyle e w).px _ (sideLabels (sceneStyle e w) (sceneStyle e w).rightText 300) 0 (350 - 50)).1 ≤ 73
      have := measV_wide iosevka (sceneStyle e w).px { labels := sideLabels (sceneStyle e w) (sceneStyle e w).rightText (350 - 50), vertical := true, length := 350 - 50 } 60
        (sideLabels (sceneStyle e w) (sceneStyle e w).rightText 300) (sideLabels_all (p := fun t => iosevka.right t ≤ 60) (by
          show 6 * ((e.valueText _).length : Int) ≤ 60
          have := hs.values (e.half (e.quant w.obs 0))
          rw [if_pos rfl]
          omega) (fun y h0 h1 => by
          show 6 * ((e.valueText _).length : Int) ≤ 60
          have := hs.values (e.half (e.quant w.obs (if y = 300 then 0 else rnS (1 - posOf y 300))))
          omega)) 0 (350 - 50) (by omega)
      omega
  obtain ⟨gm, ht, hl, hr⟩ := hk
  obtain ⟨h1, h2, _, h4, _, h6, h7, h8, h9, _, _, _, h13, h14, h15⟩ := tryMeasure_ok (sceneStyle_ok he w) ht
  have hob : gm.obsHeight = 21 := by rw [h4]; rfl
  have hbo : gm.bottom.height = 29 := by
    rw [h15]
    show 13 + (if (match naturalUnit 86400000000000 width with | some u => timesFrom u now.toInt 86400000000000 | none => []) = [] then (0 : Int) else 14 + 2) = 29
    rw [hu]
    rw [if_neg (day_times (by omega) hu2 hnow)]
    rfl
  have hrw : 13 ≤ gm.rightWidth := by
    have : gm.right.isSome := h8.mp rfl
    unfold GraphM.rightWidth
    cases hr : gm.right with
    | none => rw [hr] at this; cases this
    | some r => exact (h9 r hr).1
  have h7 : gm.width = width - (gm.left.width + 15 + gm.rightWidth) := h7
  have h2 : gm.height = 350 - 50 := h2
  have h13 : gm.x = 5 + gm.left.width := h13
  have h14 : gm.y = 5 + gm.obsHeight := h14
  refine ⟨gm, ?_, by omega, by omega, by omega, by omega, by omega, by omega⟩
  unfold graphMeasure
  rw [ht]
  dsimp only
  rw [if_neg (by omega)]

/-! ## The answer -/

/-- The program's own pictures: `ext` is what is not in the repository, for each compression; an empty text is neither a duration nor a number. -/
structure Backend.Real (b : Backend TWrap Shot Pos) (ext : F64 → Outside) : Prop where
  scene : ∀ samples compression, b.scene samples compression = theScene (ext compression) samples.toInt viridis
  duration : b.duration [] = none
  float : b.float [] = none

/-- What the server makes of the request for the image that is seen. -/
theorem image_ask {b : Backend TWrap Shot Pos} {ext : F64 → Outside} (hb : b.Real ext) (m : Bytes) (w clock : Int64) :
    renderAsk b (goForm (browserQuery (imageQuery (m, w.toInt)))) clock = ⟨m, { width := w, height := 350, padding := 5, now := clock, samples := 30 }, 86400000000000, 0x4014000000000000#64⟩ := by
  obtain ⟨h1, h2, h3, h4⟩ := C92_image m w clock
  unfold renderAsk getDuration getFloat
  rw [h1, h2, h3, h4, hb.duration, hb.float]
  rfl

theorem image_form (m : Bytes) (w : Int64) (auth : Option (Bytes × Bytes)) (accept : String) :
    (imageRequest (m, w.toInt) auth accept).method = "GET" ∧ (imageRequest (m, w.toInt) auth accept).path = "/api/render" ∧ (imageRequest (m, w.toInt) auth accept).form "metric" = m :=
  ⟨rfl, rfl, (C92_image m w 0).1⟩

/-- A handler that sets the kind of its answer and writes it. -/
theorem serve_written {hash : Bytes → Bytes} {msg : HErr → Bytes} {srv : HServer} {req : HReq} (hp : Passed hash srv req) (hm : req.method = "GET") (hpath : req.path = "/api/render") (hf : req.form "metric" ≠ []) {kind : String} {body : Bytes}
    (hr : srv.render req = ([.setHeader "Content-Type" kind, .write body], none)) :
    (serve hash msg srv req).status = 200 ∧ (serve hash msg srv req).body = body ∧ ("Content-Type", kind) ∈ (serve hash msg srv req).headers ∧ (serve hash msg srv req).touched = [.query (req.form "metric")] := by
  simp [serve, serveHTTP_passed hp, hm, hpath, hf, hr, route, Tracker.acts, Tracker.act, Raw.act, Raw.response]

variable {c : ProcCfg} {K : Nat} {de : Bytes → Bool} {hit : Bytes → Nat → Bool} {ops : List POp} {s s' : Proc} {l : Option POp}

/-- **C103.** What is selected in the browser is what was observed. After any history of the page, when nothing is under way, its address names a metric and the window has at least 164 pixels, the page shows an image of that metric. The
server, at any point of any run of the program, answers the image's request (if it is let in) with what was observed: if the queue took no interval of the metric an error, and else, if these ended before the request, a picture as wide
as the window but for 28 pixels and 360 high. In its heatmap of 300 rows, which has all but at most 163 pixels of the window's width, the pixel of a time is white if no interval in the database is over it, and else has the colour
of its row for the observations in the intervals over it; right of it is the key, and above it are the bars. -/
theorem C103_seen {b : Backend TWrap Shot Pos} {ext : F64 → Outside} (hb : b.Real ext) (he : (ext 0x4014000000000000#64).Ok) (hs : (ext 0x4014000000000000#64).Short) {state : List Obs → List F64}
    (lib : Library (ext 0x4014000000000000#64) c.pipe.d state)
    (u : UUrl) (w : Int) (t : Nat) (es : List UEv) (page : UPage) (hpage : page = (UPage.load u w t).runs es) (hidle : page.pending = [] ∧ page.viewports = 0 ∧ page.timers = [])
    (m : Bytes) (hm : m ≠ []) (ha : page.address.metric = some m) (hw1 : 164 ≤ page.window) (hw2 : page.window ≤ 2147483647)
    (h : Proc.Reach c (freshFs de hit) ops s) (hok : ProcOk c K ops) (hst : s.Step c l s') {i : Nat} {clock : Int64} {r : DbRes} {ask : RenderAsk}
    (hask : ask = renderAsk b (goForm (browserQuery (imageQuery (m, page.window - 38)))) clock) (hlog : s'.sys.log = s.sys.log ++ [(i, ask.metric, ask.call b c.pipe.cfg, r)])
    (auth : Option (Bytes × Bytes)) (accept : String) (hacc : accept ≠ "application/json") {req : HReq} (hreq : req = imageRequest (m, page.window - 38) auth accept) :
    page.model.graph.view = some (m, page.window - 38) ∧ ask.metric = m ∧
    ∃ kept : List Batch, ((ops.foldl PSpec.step {}).kept m = kept ∨ s.dumping = true ∧ ∃ b, (ops.foldl PSpec.step {}).kept m = b :: kept) ∧
      (kept = [] → ∃ reply, ask.reply b accept r = some reply ∧
        ∀ hash msg srv, Passed hash srv req → srv.render req = reply → (serve hash msg srv req).status = 500) ∧
      (kept ≠ [] → (∀ b ∈ kept, 0 ≤ b.start.toInt ∧ b.start.toInt + page.window < 9223372036854775808 ∧ 0 ≤ b.stop.toInt ∧ b.stop < clock) → clock.toInt + 86400000000000 < 9223372036854775808 →
        ∃ (newest : Batch) (stored dropped : List Batch), kept = stored ++ dropped ∧ stored.head? = some newest ∧ (c.pipe.cfg.max ≤ 0 → dropped = []) ∧
        ∃ reply cv pix, ask.reply b accept r = some reply ∧
          (∀ hash msg srv, Passed hash srv req → srv.render req = reply → (serve hash msg srv req).status = 200 ∧ (serve hash msg srv req).body = b.encode cv pix ∧
            ("Content-Type", "image/png") ∈ (serve hash msg srv req).headers ∧ (serve hash msg srv req).touched = [.query m]) ∧
          cv.width = page.window - 28 ∧ cv.height = 360 ∧ IsImage pix cv.width.toNat 360 ∧
          ∃ left wide : ℕ, 5 ≤ left ∧ page.window - 163 ≤ wide ∧ (left : Int) + wide ≤ page.window - 33 ∧
            (∀ x y : ℕ, x < wide → y < 300 → ∃ k, pixel pix cv.width.toNat (left + x) (26 + y) = some (k, 255) ∧
              if batchesAt clock 86400000000000 wide stored x = [] then k = white
              else RowColour (ext 0x4014000000000000#64) state viridis 30 300 (obsOf m newest.obs) ((batchesAt clock 86400000000000 wide stored x).map (fun b => obsOf m b.obs)) (299 - y) k) ∧
            (∀ x y : ℕ, x < 10 → y < 300 → ∃ i k, RowShows viridis.length 300 (299 - y) i ∧ viridis[i]? = some k ∧ pixel pix cv.width.toNat (left + wide + 5 + x) (26 + y) = some (k, 255)) ∧
            ((∀ b ∈ stored, b.start < b.stop) → ops.length < 9007199254740992 → ∃ bar : ℕ → Color, BarsShow m wide (batchesAt clock 86400000000000 wide stored) bar ∧
              ∀ x y : ℕ, x < wide → y < 5 → pixel pix cv.width.toNat (left + x) (21 + y) = some (bar x, 255))) := by
  obtain ⟨w', hw'⟩ : ∃ w' : Int64, w'.toInt = page.window - 38 := ⟨Int64.ofInt (page.window - 38), Int64.toInt_ofInt_of_le (by omega) (by omega)⟩
  rw [← hw'] at hask hreq
  rw [image_ask hb] at hask
  have hsc : ask.scene b = theScene (ext 0x4014000000000000#64) (30 : ℕ) viridis := by
    rw [hask]
    exact hb.scene _ _
  obtain ⟨q1, q2, q3⟩ := image_form m w' auth accept
  rw [← hreq] at q1 q2 q3
  have hcall : ask.call b c.pipe.cfg = pngCall (theScene (ext 0x4014000000000000#64) (30 : ℕ) viridis) c.pipe.cfg clock 86400000000000 w'.toInt 350 5 := by
    unfold RenderAsk.call
    rw [hsc, hask]
    rfl
  have hpg : ask.page b r = pngAnswer (theScene (ext 0x4014000000000000#64) (30 : ℕ) viridis) clock 86400000000000 w'.toInt 350 5 r := by
    unfold RenderAsk.page
    rw [hsc, hask]
    rfl
  have hrep : ask.reply b accept r = pageActs b.encode (ask.page b r) := by
    unfold RenderAsk.reply
    rw [if_neg hacc]
  have hmet : ask.metric = m := by rw [hask]
  refine ⟨(C91_address u w t es page hpage hidle.1 m hm ha).2 hidle.2.1 hidle.2.2, hmet, ?_⟩
  rw [hmet, hcall] at hlog
  obtain ⟨kept, k0, k1, k2⟩ := C98_shown he (n := 30) (by norm_num) (by norm_num) (colors := viridis) (by rw [viridis_length]; norm_num) (by rw [viridis_length]; norm_num) lib h hok hst hlog
  refine ⟨kept, k0, fun hk => ?_, fun hk ht hfar => ?_⟩
  · refine ⟨([], some .other), ?_, fun hash msg srv hp hr => ?_⟩
    · rw [hrep, hpg]
      rcases k1 hk with e | e <;> rw [e] <;> rfl
    · exact (C51_failure hash msg srv req hp q1 [] (fun a ha => by cases ha) (.inl ⟨q2, by rw [q3]; exact hm, hr⟩)).1
  · obtain ⟨newest, stored, dropped, j1, j2, j3, key⟩ := k2 hk (fun b hb => ⟨(ht b hb).1, (by have := (ht b hb).2.1; omega), (ht b hb).2.2⟩) hfar (by decide) (by rw [hw', show (86400000000000 : Int64).toInt = 86400000000000 from rfl]; omega) (by decide)
    have hnow : 0 ≤ clock.toInt := by
      cases hkk : kept with
      | nil => exact absurd hkk hk
      | cons b0 _ =>
        have h0 := ht b0 (by rw [hkk]; exact List.mem_cons_self)
        have := Int64.lt_iff_toInt_lt.mp h0.2.2.2
        have := h0.2.2.1
        omega
    obtain ⟨gm, g1, g2, g3, g4, g5, g6, g7⟩ := page_room he hs { obs := state (obsOf m newest.obs) } clock hnow w'.toInt (by omega)
    obtain ⟨cv, pix, p1, p2, p3, p4, p5, p6, p7⟩ := key gm g1 (by omega) (by omega) (by rw [g2]; decide) (by rw [g2, viridis_length]; decide)
    obtain ⟨wide, hwide⟩ : ∃ n : ℕ, gm.width = n := ⟨gm.width.toNat, by omega⟩
    obtain ⟨left, hleft⟩ : ∃ n : ℕ, gm.x = n := ⟨gm.x.toNat, by omega⟩
    have hcw : cv.width = page.window - 28 := by rw [p2]; omega
    have hch : cv.height = 360 := p3
    refine ⟨newest, stored, dropped, j1, j2, j3, ([.setHeader "Content-Type" "image/png", .write (b.encode cv pix)], none), cv, pix, ?_, fun hash msg srv hp hr => ?_, hcw, hch, ?_, left, wide, by omega, by omega, by omega, fun x y hx hy => ?_, fun x y hx hy => ?_, fun hsp hsm => ?_⟩
    · rw [hrep, hpg, p1]
      rfl
    · have := serve_written (msg := msg) hp q1 q2 (by rw [q3]; exact hm) hr
      rw [q3] at this
      exact this
    · rw [hch] at p4
      exact p4
    · obtain ⟨k, e1, e2⟩ := p5 x y (by omega) (by omega)
      rw [show (gm.x + x).toNat = left + x by omega, show (gm.y + y).toNat = 26 + y by omega] at e1
      refine ⟨k, e1, ?_⟩
      rw [g2, hwide, show ((300 : Int) - 1 - y).toNat = 299 - y by omega] at e2
      exact e2
    · obtain ⟨i, k, e1, e2, e3⟩ := p6 x y hx (by omega)
      rw [show (gm.x + gm.width + 5 + x).toNat = left + wide + 5 + x by omega, show (gm.y + y).toNat = 26 + y by omega] at e3
      rw [g2] at e1
      exact ⟨i, k, e1, e2, e3⟩
    · obtain ⟨bar, e1, e2⟩ := p7 hsp hsm
      rw [hwide] at e1
      refine ⟨bar, e1, fun x y hx hy => ?_⟩
      have := e2 x y (by omega) hy
      rw [show (gm.x + x).toNat = left + x by omega, show (gm.y - 5 + y).toNat = 21 + y by omega] at this
      exact this

/-! ## A narrow window -/

/-- If measuring the picture for the newest record panics, so does the request. -/
theorem C69_panics {D α : Type} (p : RenderParams D α) {s : Store} {acc : List Val} (h : Reach s acc) (cfg : Cfg) (hg : GeoOk cfg.size cfg.cap) (now dur : Int64) (hne : acc ≠ []) (hnow : ∀ v ∈ acc, v.stop < now)
    (hpan : ∀ v ∈ acc, ∃ r d, DRec.decode v.data = .ok r ∧ p.load r = some d ∧ p.measure d = .panic) : (serveRender p cfg now dur s).1 = .panicked := by
  obtain ⟨stored, dropped, ha, hsne, hq⟩ := C13_acknowledged_stored h
  have hst := (hq cfg now hg hnow).1
  have hde : s.dirExists = true := by
    cases hx : s.dirExists with
    | true => rfl
    | false => exact absurd ((C15_query_sound h cfg hg now).1 hx).1 hne
  obtain ⟨L, hsub, _, hpw, hvis⟩ := (C15_query_sound h cfg hg now).2 hde
  have hL : L = stored := by
    have := hvis (List Val) (fun seen v => (seen ++ [v], Cb.more)) []
    rw [visit_collect] at this
    unfold queryList at hst
    rw [this] at hst
    simpa using hst
  subst hL
  cases L with
  | nil => exact absurd rfl (hsne hne)
  | cons v rest =>
    obtain ⟨r, d, h1, h2, h3⟩ := hpan v (by rw [ha]; exact List.mem_cons_self)
    unfold serveRender
    dsimp only
    rw [hvis]
    have e : renderCb p now dur (now - dur) ({} : RenderSt α) v = ({ panicked := true }, .stop) := by
      unfold renderCb
      rw [h1]
      dsimp only
      rw [h2]
      dsimp only
      rw [h3]
    unfold visit
    rw [e]
    rfl

/-- **C103** is false of narrow windows: below 138 pixels (and above -62) the handler panics on every metric with intervals before the request (`Measure` divides by the width over 100), and the browser gets no answer. -/
theorem C103_narrow_refuted {b : Backend TWrap Shot Pos} {ext : F64 → Outside} (hb : b.Real ext) {state : List Obs → List F64} (lib : Library (ext 0x4014000000000000#64) c.pipe.d state)
    (window : Int) (hw1 : -62 < window) (hw2 : window < 138) (m : Bytes)
    (h : Proc.Reach c (freshFs de hit) ops s) (hok : ProcOk c K ops) (hst : s.Step c l s') {i : Nat} {clock : Int64} {r : DbRes} {ask : RenderAsk}
    (hask : ask = renderAsk b (goForm (browserQuery (imageQuery (m, window - 38)))) clock) (hlog : s'.sys.log = s.sys.log ++ [(i, ask.metric, ask.call b c.pipe.cfg, r)]) (accept : String) :
    ∃ kept : List Batch, ((ops.foldl PSpec.step {}).kept m = kept ∨ s.dumping = true ∧ ∃ b, (ops.foldl PSpec.step {}).kept m = b :: kept) ∧
      (kept ≠ [] → (∀ b ∈ kept, b.stop < clock) → ask.reply b accept r = none) := by
  obtain ⟨w', hw'⟩ : ∃ w' : Int64, w'.toInt = window - 38 := ⟨Int64.ofInt (window - 38), Int64.toInt_ofInt_of_le (by omega) (by omega)⟩
  rw [← hw'] at hask
  rw [image_ask hb] at hask
  have hsc : ask.scene b = theScene (ext 0x4014000000000000#64) (30 : ℕ) viridis := by
    rw [hask]
    exact hb.scene _ _
  have hcall : ask.call b c.pipe.cfg = pngCall (theScene (ext 0x4014000000000000#64) (30 : ℕ) viridis) c.pipe.cfg clock 86400000000000 w'.toInt 350 5 := by
    unfold RenderAsk.call
    rw [hsc, hask]
    rfl
  have hcol : ask.columns b r = renderAnswer ((theScene (ext 0x4014000000000000#64) (30 : ℕ) viridis).params (pngOpts clock 86400000000000 w'.toInt 350 5)) clock 86400000000000 r := by
    unfold RenderAsk.columns
    rw [hsc, hask]
    rfl
  have hpg : ask.page b r = pngOf (theScene (ext 0x4014000000000000#64) (30 : ℕ) viridis) (pngOpts clock 86400000000000 w'.toInt 350 5) (ask.columns b r) := by
    rw [hcol]
    unfold RenderAsk.page
    rw [hsc, hask]
    rfl
  rw [show ask.metric = m by rw [hask], hcall] at hlog
  obtain ⟨kept, done, k0, k1, k2, t, k3, rfl⟩ := call_kept h hok hst hlog
  refine ⟨kept, k0, fun hne hstop => ?_⟩
  have hpanic : ask.columns b ((pngCall (theScene (ext 0x4014000000000000#64) (30 : ℕ) viridis) c.pipe.cfg clock 86400000000000 w'.toInt 350 5).run t).1 = .panicked := by
    rw [hcol]
    unfold pngCall
    rw [answer_of_call _ k3.reach _ hok.geo]
    refine C69_panics _ k3.reach _ hok.geo _ _ (fun hnil => hne ((eachOf_nil k1).mp (List.map_eq_nil_iff.mp hnil))) (fun v hv => ?_) (fun v hv => ?_)
    · obtain ⟨r, hr, rfl⟩ := List.mem_map.mp hv
      obtain ⟨b0, hb0, hrb⟩ := eachOf_left k1 r hr
      show r.endTime < clock
      rw [hrb.stop]
      exact hstop b0 hb0
    · obtain ⟨r, hr, rfl⟩ := List.mem_map.mp hv
      obtain ⟨b0, hb0, hrb⟩ := eachOf_left k1 r hr
      refine ⟨r.norm, { obs := state (obsOf m b0.obs) }, (C06_record_round_trip r (fits_small hok.geo k2 r hr)).1, ?_, ?_⟩
      · show loadRec _ r.norm = _
        unfold loadRec
        rw [if_pos (by rw [show r.norm.kind = r.kind from rfl, hrb.kind, lib.kind]), show r.norm.distribution = r.distribution from rfl, hrb.dist, lib.reads]
        rfl
      · show measureOf _ _ _ = _
        unfold measureOf
        rw [(C75_crash _ _).2 (show (50 : Int) ≤ 350 by decide) (show -100 < w'.toInt by omega) (show w'.toInt < 100 by omega)]
  unfold RenderAsk.reply
  split
  · rw [hpanic]
  · rw [hpg, hpanic]
    rfl

end Rothko
