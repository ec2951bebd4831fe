import Verif.Props.ProcDrawn
import Verif.Props.Address
/-!
# C124: a graph asked for with an address written by hand
-/
namespace Rothko

/-! ## The room in a picture of any size -/

theorem sideLabels_any {e : Outside} {w : TWrap} {text : Int → Int → Bytes} {p : Bytes → Prop} {H : Int} (h0 : p (text H H)) (h : ∀ y, 0 ≤ y → y ≤ H - 30 → p (text y H)) :
    ∀ l ∈ sideLabels (sceneStyle e w) text H, p l.text := by
  intro l hl
  unfold sideLabels at hl
  rcases List.mem_append.mp hl with hl | hl
  · obtain ⟨y, hy, rfl⟩ := List.mem_map.mp hl
    obtain ⟨a, b, _⟩ := (rowsLoop_spec H H.toNat 0).1 y hy
    exact h y a b
  · rcases List.mem_singleton.mp hl with rfl
    exact h0

theorem any_try {e : Outside} (hs : e.Short) (w : TWrap) (now dur : Int64) {width height padding guess : Int} (hw : 100 ≤ width) (hh : 1 ≤ height - guess) (hh2 : height - guess < 33554432) :
    ∃ gm, tryMeasure (sceneStyle e w) (pngOpts now dur width height padding) guess = .ok gm ∧ gm.left.width ≤ 37 ∧ gm.rightWidth ≤ 73 := by
  obtain ⟨u, hu, _⟩ := C74_unit dur.toInt width hw
  obtain ⟨H, hH⟩ : ∃ H, H = height - guess := ⟨_, rfl⟩
  unfold tryMeasure pngOpts
  dsimp only
  rw [if_neg (by omega), hu, ← hH]
  refine ⟨_, rfl, ?_, ?_⟩
  · show (13 : Int) + _ ≤ 37
    have := measV_wide iosevka (sceneStyle e w).px { labels := sideLabels (sceneStyle e w) (sceneStyle e w).leftText H, vertical := true, length := H, flip := true } 24
      (sideLabels (sceneStyle e w) (sceneStyle e w).leftText H) (sideLabels_any (p := fun t => iosevka.right t ≤ 24) (by
        show 6 * ((e.rankText _).length : Int) ≤ 24
        rw [if_pos rfl]
        have := hs.ranks 0 (by norm_num) (by norm_num)
        omega) (fun y h0 h1 => by
        show 6 * ((e.rankText _).length : Int) ≤ 24
        rw [if_neg (by omega)]
        obtain ⟨a, b, _⟩ := rank_near (y := y) (h := H) h0 (by omega) (by omega) (by omega)
        have := hs.ranks _ a b
        omega)) 0 H (by omega)
    have this : (measVLoop iosevka (sceneStyle e w).px _ _ _ _).1 ≤ 24 := this
    show (13 : Int) + (measVLoop iosevka (sceneStyle e w).px _ (sideLabels (sceneStyle e w) (sceneStyle e w).leftText H) 0 H).1 ≤ 37
    omega
  · show (13 : Int) + (measVLoop iosevka (sceneStyle e w).px _ (sideLabels (sceneStyle e w) (sceneStyle e w).rightText H) 0 H).1 ≤ 73
    have := measV_wide iosevka (sceneStyle e w).px { labels := sideLabels (sceneStyle e w) (sceneStyle e w).rightText H, vertical := true, length := H } 60
      (sideLabels (sceneStyle e w) (sceneStyle e w).rightText H) (sideLabels_any (p := fun t => iosevka.right t ≤ 60) (by
        show 6 * ((e.valueText _).length : Int) ≤ 60
        have := hs.values (e.half (e.quant w.obs 0))
        rw [if_pos rfl]
        omega) (fun y h0 h1 => by
        show 6 * ((e.valueText _).length : Int) ≤ 60
        have := hs.values (e.half (e.quant w.obs (if y = H then 0 else rnS (1 - posOf y H))))
        omega)) 0 H (by omega)
    omega

/-- A picture at least 126 pixels wide and 52 high has room for the heatmap. -/
theorem any_room {e : Outside} (he : e.Ok) (hs : e.Short) (w : TWrap) (now dur : Int64) {width height padding : Int} (hw : 126 ≤ width) (hh : 52 ≤ height) (hh2 : height < 33554432) :
    ∃ gm, graphMeasure (sceneStyle e w) (pngOpts now dur width height padding) = .ok gm ∧ width - 125 ≤ gm.width ∧ gm.width ≤ width - 41 ∧ (gm.height = height - 50 ∨ gm.height = height - 34) := by
  have size : ∀ {guess : Int} {gm : GraphM Pos}, tryMeasure (sceneStyle e w) (pngOpts now dur width height padding) guess = .ok gm → gm.left.width ≤ 37 → gm.rightWidth ≤ 73 →
      width - 125 ≤ gm.width ∧ gm.width ≤ width - 41 ∧ gm.height = height - guess ∧ gm.obsHeight = 21 ∧ (gm.bottom.height = 13 ∨ gm.bottom.height = 29) := by
    intro guess gm ht hl hr
    obtain ⟨_, h2, _, h4, _, h6, h7, h8, h9, _, _, _, _, _, h15⟩ := tryMeasure_ok (sceneStyle_ok he w) ht
    have hrw : 13 ≤ gm.rightWidth := by
      have : gm.right.isSome := h8.mp rfl
      unfold GraphM.rightWidth
      cases hr : gm.right with
      | none => rw [hr] at this; cases this
      | some r => exact (h9 r hr).1
    have h7 : gm.width = width - (gm.left.width + 15 + gm.rightWidth) := h7
    refine ⟨by omega, by omega, h2, by rw [h4]; rfl, ?_⟩
    rw [h15]
    have any : ∀ (p : Prop) [Decidable p], (13 + (if p then 0 else 14 + 2) : Int) = 13 ∨ (13 + (if p then 0 else 14 + 2) : Int) = 29 := by
      intro p _
      split <;> simp
    exact any _
  obtain ⟨gm, ht, hl, hr⟩ := any_try hs w now dur (padding := padding) (guess := 50) (width := width) (height := height) (by omega) (by omega) (by omega)
  obtain ⟨a1, a2, a3, a4, a5⟩ := size ht hl hr
  unfold graphMeasure
  rw [ht]
  dsimp only
  rcases a5 with a5 | a5
  · rw [if_pos (by omega), a4, a5]
    obtain ⟨gm', ht', hl', hr'⟩ := any_try hs w now dur (padding := padding) (guess := 13 + 21) (width := width) (height := height) (by omega) (by omega) (by omega)
    obtain ⟨b1, b2, b3, _, _⟩ := size ht' hl' hr'
    exact ⟨gm', ht', b1, b2, .inr (by omega)⟩
  · rw [if_neg (by omega)]
    exact ⟨gm, rfl, a1, a2, .inl a3⟩

/-! ## The request -/

section
variable {c : ProcCfg} {er : SysErrors} {K : Nat} {de : Bytes → Bool} {hit : Bytes → Nat → Bool} {ops : List PFOp} {s s' : ProcF} {l : Option PFOp}

/-- Sizes that are neither too small for a picture nor beyond what is handled exactly: 126 pixels wide and 52 high at least, less than 2^31 and 2^25 at most with the padding, from 1 to 2^24 samples, and at least a nanosecond for each pixel. -/
structure RenderAsk.Usable (a : RenderAsk) : Prop where
  width : 126 ≤ a.nums.width.toInt
  wide : a.nums.width.toInt + 2 * a.nums.padding.toInt < 2147483648
  height : 52 ≤ a.nums.height.toInt
  high : a.nums.height.toInt + 2 * a.nums.padding.toInt < 33554432
  padding : 0 ≤ a.nums.padding.toInt
  samples : 1 ≤ a.nums.samples.toInt ∧ a.nums.samples.toInt ≤ 16777216
  duration : a.nums.width.toInt ≤ a.dur.toInt
  time : a.nums.now.toInt + a.dur.toInt < 9223372036854775808

/-- **C124.** The program runs as in C121. A request for a graph, whatever its address says of sizes that are usable, of the time, the duration and the compression, is answered: with a picture of the size asked for or, if nothing can be shown or the query met an
error, with status 500; it never panics. The picture is that of intervals of the metric that were not reported as lost and ended before the time asked for. -/
theorem C124_by_hand {b : Backend TWrap Shot Pos} {ext : F64 → Outside} (hb : b.Real ext) {q : Bytes} {clock : Int64} {ask : RenderAsk} (hask : ask = renderAsk b (goForm q) clock)
    (he : (ext ask.compression).Ok) (hshort : (ext ask.compression).Short) {state : List Obs → List F64} (lib : Library (ext ask.compression) c.pipe.d state)
    (h : ProcF.Reach c er (freshFs de hit) ops s) (hok : LifeOk c K (plainOps ops)) (hst : s.Step c er l s') {i : Nat} {dir : Option DirFault} {unlink : Bool} {r : DbRes}
    (hw : er.Whole ask.metric) (hlog : s'.sys.log = s.sys.log ++ [(i, ask.metric, ⟨ask.call b c.pipe.cfg, dir, unlink⟩, r)])
    (hm : ask.metric ≠ []) (hu : ask.Usable) (htimes : SaneTimes ask.nums.width.toInt ((ops.foldl PSpec.stepF {}).kept ask.metric))
    (auth : Option (Bytes × Bytes)) (accept : String) (hacc : accept ≠ "application/json") :
    GraphOfSome (¬ er.Spares ask.metric ∧ ∃ seen, r = .query seen (some .os)) (ext ask.compression) ask.nums.samples.toInt.toNat viridis state ask.metric ask.nums.now ask.dur ask.nums.width.toInt ask.nums.height.toInt
      ask.nums.padding.toInt ((ops.foldl PSpec.stepF {}).kept ask.metric) (ask.page b r) r ∧
    ∃ reply, ask.reply b accept r = some reply ∧ ∀ hash msg srv req, req = getRequest "/api/render" q auth accept → Passed hash srv req → srv.render req = reply →
      (serve hash msg srv req).status = 500 ∨
      ((serve hash msg srv req).status = 200 ∧ ("Content-Type", "image/png") ∈ (serve hash msg srv req).headers ∧
        ∃ cv pix, ask.page b r = .png cv pix ∧ (serve hash msg srv req).body = b.encode cv pix ∧ cv.width = ask.nums.width.toInt + 2 * ask.nums.padding.toInt ∧
          cv.height = ask.nums.height.toInt + 2 * ask.nums.padding.toInt ∧ IsImage pix cv.width.toNat cv.height.toNat) := by
  obtain ⟨n, hn⟩ : ∃ n : ℕ, ask.nums.samples.toInt = n := ⟨ask.nums.samples.toInt.toNat, by have := hu.samples.1; omega⟩
  have hsc : ask.scene b = theScene (ext ask.compression) (n : ℕ) viridis := by
    unfold RenderAsk.scene
    rw [hb.scene, hn]
  have hcall : ask.call b c.pipe.cfg = pngCall (theScene (ext ask.compression) (n : ℕ) viridis) c.pipe.cfg ask.nums.now ask.dur ask.nums.width.toInt ask.nums.height.toInt ask.nums.padding.toInt := by
    unfold RenderAsk.call
    rw [hsc]
  have hpg : ask.page b r = pngAnswer (theScene (ext ask.compression) (n : ℕ) viridis) ask.nums.now ask.dur ask.nums.width.toInt ask.nums.height.toInt ask.nums.padding.toInt r := by
    unfold RenderAsk.page
    rw [hsc]
  have hrep : ask.reply b accept r = pageActs b.encode (ask.page b r) := by
    unfold RenderAsk.reply
    rw [if_neg hacc]
  have n1 : 1 ≤ n := by have := hu.samples.1; omega
  have n2 : n ≤ 16777216 := by have := hu.samples.2; omega
  rw [hcall] at hlog
  have hN : n < 2 ^ 50 := by omega
  rw [show ask.nums.samples.toInt.toNat = n by omega]
  have hg := C121_any_time he n1 hN (colors := viridis) (by rw [viridis_length]; norm_num) (by rw [viridis_length]; norm_num) lib h hok hst hw hlog
  rw [← hpg] at hg
  refine ⟨hg, ?_⟩
  have hp := C121_no_panic he n1 hN (colors := viridis) (by rw [viridis_length]; norm_num) (by rw [viridis_length]; norm_num) lib h hok hst hw hlog htimes hu.time hu.padding hu.duration
    (by have := hu.high; have := hu.padding; omega) (fun _ w => by
      obtain ⟨gm, g1, g2, _, g3⟩ := any_room he hshort w ask.nums.now ask.dur (padding := ask.nums.padding.toInt) hu.width hu.height (by have := hu.high; have := hu.padding; omega)
      have hh := hu.height
      have hh2 := hu.high
      have hp := hu.padding
      have hwd := hu.width
      have hk : gm.height - 1 ≤ 33554432 := by omega
      have hk0 : 0 ≤ gm.height - 1 := by omega
      have m1 : (n : Int) * (gm.height - 1) ≤ 16777216 * 33554432 := Int.mul_le_mul (by omega) hk hk0 (by decide)
      have m2 : ((viridis.length - 1 : ℕ) : Int) * (gm.height - 1) ≤ 16777216 * 33554432 := Int.mul_le_mul (by rw [viridis_length]; decide) hk hk0 (by decide)
      exact ⟨gm, g1, by omega, by omega, by omega, by omega⟩)
  rw [← hpg] at hp
  have qm : ∀ req : HReq, req = getRequest "/api/render" q auth accept → req.method = "GET" ∧ req.path = "/api/render" ∧ req.form "metric" ≠ [] := by
    rintro req rfl
    exact ⟨rfl, rfl, by rw [hask] at hm; exact hm⟩
  rcases hp with ⟨cv, pix, p1, p2, p3, p4⟩ | hp
  · refine ⟨([.setHeader "Content-Type" "image/png", .write (b.encode cv pix)], none), by rw [hrep, p1]; rfl, fun hash msg srv req hreq hpass hr => .inr ?_⟩
    obtain ⟨q1, q2, q3⟩ := qm req hreq
    obtain ⟨w1, w2, w3, _⟩ := serve_written (msg := msg) hpass q1 q2 q3 hr
    exact ⟨w1, w3, cv, pix, p1, w2, p2, p3, p4⟩
  · refine ⟨([], some .other), by rw [hrep]; rcases hp with hp | hp <;> rw [hp] <;> rfl, fun hash msg srv req hreq hpass hr => .inl ?_⟩
    obtain ⟨q1, q2, q3⟩ := qm req hreq
    exact (C51_failure hash msg srv req hpass q1 [] (fun a ha => by cases ha) (.inl ⟨q2, q3, hr⟩)).1

end

end Rothko
