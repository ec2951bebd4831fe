import Verif.Props.Answer
/-!
# From the browser to the picture, and the columns as JSON: cases (C103, C104)
-/
namespace Rothko

/-- A metric is chosen in the query bar, and the window is changed three times. -/
def exBrowse : UPage := (UPage.load exTop 1000 0).runs [.viewport, .wait 250, .fire 1 250, .bar (.select [97]), .run 0, .run 1, .run 0, .run 0, .run 0, .viewport, .resize 800, .wait 100, .resize 600, .wait 150, .fire 1 500, .fire 2 500, .wait 100, .fire 3 600]

/-- A backend with the digests of `exOut`; the bytes of a picture are its answer. -/
def exBackend : Backend TWrap Shot Pos where
  duration _ := none
  float _ := none
  scene samples _ := theScene exOut samples.toInt viridis
  encode _ pix := pix
  json m _ newest _ _ _ _ _ := some (m ++ newest)

theorem exBackend_real : exBackend.Real (fun _ => exOut) := ⟨fun _ _ => rfl, rfl, rfl⟩

theorem exOut_short : exOut.Short := ⟨fun _ _ _ => (by decide : (4 : ℕ) ≤ 4), fun _ => (by decide : (4 : ℕ) ≤ 10)⟩

/-- The query of the request for the picture that `exBrowse` shows, at the time 50. -/
def exImageAsk : Int64 × (List Val → Val → Cb) := (50, fun seen v =>
  (renderCb ((theScene exOut (30 : ℕ) viridis).params (pngOpts 50 86400000000000 562 350 5)) 50 86400000000000 (50 - 86400000000000)
    (renderAfter ((theScene exOut (30 : ℕ) viridis).params (pngOpts 50 86400000000000 562 350 5)) 50 86400000000000 seen) v).2)

/-- Two rounds; then the request is made and answered. -/
def exTwice : List PChoice := exRound 10 ++ (exRound 20 ++ ([.ask 2 [97] (some exImageAsk)] ++ List.replicate 6 (.go 2)))

theorem exTwice_asks : ∀ i m' q', PChoice.ask i m' q' ∈ exTwice → m' = [97] ∧ q' = some exImageAsk := by
  intro i m' q' hm
  unfold exTwice at hm
  simp only [List.mem_append, exRound_asks, false_or] at hm
  rcases hm with hm | hm
  · cases List.mem_singleton.mp hm
    exact ⟨rfl, rfl⟩
  · cases List.eq_of_mem_replicate hm

set_option maxRecDepth 100000 in
theorem exTwice_before : ((Proc.init exProcT (freshFs (fun _ => false) (fun _ _ => false))).follow exProcT exTwice).map exEnds = some [(0, none), (0, none)] := by decide +kernel

set_option maxRecDepth 100000 in
set_option synthInstance.maxSize 2000 in
set_option synthInstance.maxHeartbeats 200000 in
theorem exTwice_after : ((Proc.init exProcT (freshFs (fun _ => false) (fun _ _ => false))).follow exProcT (exTwice ++ [.go 2])).map (fun s => (exEnds s, s.dumping)) =
    some ([(0, none), (0, none)] ++ [(2, some [21, 11])], false) := by decide +kernel

/-- What was observed and dumped. -/
def exTwiceOps : List POp := exRoundOps 10 ++ exRoundOps 20

theorem exTwice_ops : exTwice.filterMap PChoice.label = exTwiceOps := rfl

theorem exTwice_kept : (exTwiceOps.foldl PSpec.step {}).kept [97] = [⟨11, 21, [([97], ⟨0x4008000000000000#64, [1], 0⟩)]⟩, ⟨10, 11, [([97], ⟨0x4008000000000000#64, [1], 0⟩)]⟩] := by rfl

theorem exTwice_ok : ProcOk exProcT 1 exTwiceOps := exProcT_ok exTwiceOps (fun op hop => by
  rcases List.mem_append.mp hop with hop | hop
  · exact exRound_fair _ op hop
  · exact exRound_fair _ op hop) (by decide) (by decide)

/-- The server that gives this reply to requests for graphs, without a password. -/
def exServer (reply : List HAct × Option HErr) : HServer := { origin := "", username := [], password := [], nonce := [], static := none, render := fun _ => reply, query := fun _ => ([], none) }

theorem exBrowse_idle : exBrowse.pending = [] ∧ exBrowse.viewports = 0 ∧ exBrowse.timers = [] ∧ exBrowse.address.metric = some [97] ∧ exBrowse.window = 600 := by decide +kernel

theorem exRecent {wide : ℕ} (h1 : 437 ≤ wide) (h2 : wide ≤ 562) : batchesAt 50 86400000000000 wide ((exTwiceOps.foldl PSpec.step {}).kept [97]) ((wide - 1 : ℕ) : Int) ≠ [] ∧
    batchesAt 50 86400000000000 wide ((exTwiceOps.foldl PSpec.step {}).kept [97]) ((wide - 2 : ℕ) : Int) = [] := by
  have h : ∀ k : ℕ, k < 126 → batchesAt 50 86400000000000 (437 + k : ℕ) ((exTwiceOps.foldl PSpec.step {}).kept [97]) ((437 + k - 1 : ℕ) : Int) ≠ [] ∧
    batchesAt 50 86400000000000 (437 + k : ℕ) ((exTwiceOps.foldl PSpec.step {}).kept [97]) ((437 + k - 2 : ℕ) : Int) = [] := by decide +kernel
  have := h (wide - 437) (by omega)
  rw [show 437 + (wide - 437) = wide by omega] at this
  exact this

set_option maxHeartbeats 1000000 in
/-- **C103 example.** The page on which `a` was chosen and whose window is 600 pixels wide now shows its image; a program that made two dumps answers it with a picture 572 pixels wide whose heatmap is not white at the right end, and white
beside it. -/
theorem C103_example : exBrowse.model.graph.view = some ([97], 562) ∧
    ∃ s s' r reply, Proc.Reach exProcT (freshFs (fun _ => false) (fun _ _ => false)) exTwiceOps s ∧ s.Step exProcT none s' ∧
      s'.sys.log = s.sys.log ++ [(2, [97], (renderAsk exBackend (goForm (browserQuery (imageQuery ([97], 562)))) 50).call exBackend exProcT.pipe.cfg, r)] ∧
      (renderAsk exBackend (goForm (browserQuery (imageQuery ([97], 562)))) 50).reply exBackend "image/*" r = some reply ∧
      (serve id (fun _ => []) (exServer reply) (imageRequest ([97], 562) none "image/*")).status = 200 ∧
      ∃ x : ℕ, (∃ k, pixel (serve id (fun _ => []) (exServer reply) (imageRequest ([97], 562) none "image/*")).body 572 x 176 = some (k, 255) ∧ k ≠ white) ∧
        pixel (serve id (fun _ => []) (exServer reply) (imageRequest ([97], 562) none "image/*")).body 572 (x - 1) 176 = some (white, 255) := by
  obtain ⟨b1, b2, b3, b4, b5⟩ := exBrowse_idle
  obtain ⟨s, s', seen, hr, hst, hdm, hlog, _⟩ := request_returns (m := [97]) (q := some exImageAsk) (l := exTwice) (i := 2) (by decide) exTwice_asks exTwice_before exTwice_after
  rw [exTwice_ops] at hr
  obtain ⟨ask, hask⟩ : ∃ ask, ask = renderAsk exBackend (goForm (browserQuery (imageQuery ([97], 562)))) 50 := ⟨_, rfl⟩
  have hask' : ask = ⟨[97], { width := 562, height := 350, padding := 5, now := 50, samples := 30 }, 86400000000000, 0x4014000000000000#64⟩ := by
    rw [hask]
    exact image_ask exBackend_real [97] 562 50
  have hlog : s'.sys.log = s.sys.log ++ [(2, ask.metric, ask.call exBackend exProcT.pipe.cfg, .query seen none)] := by
    rw [hask']
    exact hlog
  have hw : exBrowse.window - 38 = 562 := by rw [b5]; rfl
  obtain ⟨hview, hmet, kept, hkept, _, key⟩ := C103_seen exBackend_real exOut_ok exOut_short exLibrary exTop 1000 0 _ exBrowse rfl ⟨b1, b2, b3⟩ [97] (by decide) b4 (by rw [b5]; decide) (by rw [b5]; decide) hr exTwice_ok hst
    (by rw [hw]; exact hask) hlog none "image/*" (by decide) (by rw [hw])
  rw [hw] at hview
  have hkept : kept = (exTwiceOps.foldl PSpec.step {}).kept [97] := by
    rcases hkept with e | ⟨e, _⟩
    · exact e.symm
    · have hd : s.dumping = s'.dumping := by
        cases hst with
        | wait => simp_all
        | _ => rfl
      rw [hd, hdm] at e
      cases e
  subst hkept
  obtain ⟨newest, stored, dropped, hk, hnew, hdrop, reply, cv, pix, hrep, hserve, hcw, hch, _, left, wide, l1, l2, l3, hpix, _, _⟩ := key (by rw [exTwice_kept]; simp) (by rw [exTwice_kept]; decide) (by decide)
  have hd0 : dropped = [] := hdrop (by decide)
  rw [hd0, List.append_nil] at hk
  subst hk
  rw [b5] at hcw l2 l3
  have e : cv.width.toNat = 572 := by rw [hcw]; rfl
  obtain ⟨s1, s2, _, _⟩ := hserve id (fun _ => []) (exServer reply) (.inl rfl) rfl
  have s2 : _ = pix := s2
  rw [← hask]
  rw [hmet] at hlog
  refine ⟨hview, s, s', _, reply, hr, hst, hlog, hrep, s1, left + (wide - 1), ?_⟩
  rw [s2]
  obtain ⟨n1, n2⟩ := exRecent (wide := wide) (by omega) (by omega)
  constructor
  · obtain ⟨k, e1, e2⟩ := hpix (wide - 1) 150 (by omega) (by omega)
    rw [if_neg n1] at e2
    rw [e] at e1
    exact ⟨k, e1, (C87_white e2).1⟩
  · obtain ⟨k, e1, e2⟩ := hpix (wide - 2) 150 (by omega) (by omega)
    rw [if_pos n2] at e2
    rw [e, e2] at e1
    rw [show left + (wide - 1) - 1 = left + (wide - 2) by omega]
    exact e1

/-- **C104 example.** The same request, accepting `application/json`, is answered with the JSON for the record of the newest of the two intervals. -/
theorem C104_example : ∃ s s' r reply, Proc.Reach exProcT (freshFs (fun _ => false) (fun _ _ => false)) exTwiceOps s ∧ s.Step exProcT none s' ∧
      s'.sys.log = s.sys.log ++ [(2, [97], (renderAsk exBackend (goForm (browserQuery (imageQuery ([97], 562)))) 50).call exBackend exProcT.pipe.cfg, r)] ∧
      (renderAsk exBackend (goForm (browserQuery (imageQuery ([97], 562)))) 50).reply exBackend "application/json" r = some reply ∧
      (serve id (fun _ => []) (exServer reply) (imageRequest ([97], 562) none "application/json")).status = 200 ∧
      ∃ first, RecordOf exPipeT.d 11 21 [⟨0x4008000000000000#64, [1], 0⟩] first ∧
        (serve id (fun _ => []) (exServer reply) (imageRequest ([97], 562) none "application/json")).body = 97 :: first.encode := by
  obtain ⟨s, s', seen, hr, hst, hdm, hlog, _⟩ := request_returns (m := [97]) (q := some exImageAsk) (l := exTwice) (i := 2) (by decide) exTwice_asks exTwice_before exTwice_after
  rw [exTwice_ops] at hr
  obtain ⟨ask, hask⟩ : ∃ ask, ask = renderAsk exBackend (goForm (browserQuery (imageQuery ([97], 562)))) 50 := ⟨_, rfl⟩
  have hask' : ask = ⟨[97], { width := 562, height := 350, padding := 5, now := 50, samples := 30 }, 86400000000000, 0x4014000000000000#64⟩ := by
    rw [hask]
    exact image_ask exBackend_real [97] 562 50
  have hlog : s'.sys.log = s.sys.log ++ [(2, ask.metric, ask.call exBackend exProcT.pipe.cfg, .query seen none)] := by
    rw [hask']
    exact hlog
  have hmet : ask.metric = [97] := by rw [hask']
  obtain ⟨kept, hkept, _, key⟩ := C104_json exBackend_real hask (e := exOut) rfl exOut_ok exLibrary (n := 30) (by rw [hask']; rfl) (by norm_num) (by norm_num) hr exTwice_ok hst hlog
    (req := imageRequest ([97], 562) none "application/json") rfl rfl rfl rfl (by rw [hmet]; decide)
  rw [hmet] at hkept
  have hkept : kept = (exTwiceOps.foldl PSpec.step {}).kept [97] := by
    rcases hkept with e | ⟨e, _⟩
    · exact e.symm
    · have hd : s.dumping = s'.dumping := by
        cases hst with
        | wait => simp_all
        | _ => rfl
      rw [hd, hdm] at e
      cases e
  subst hkept
  obtain ⟨newest, stored, dropped, hk, hnew, hdrop, key⟩ := key (by rw [exTwice_kept]; simp) (by rw [exTwice_kept, hask']; decide) (by rw [hask']; decide) (by rw [hask']; decide)
  have hd0 : dropped = [] := hdrop (by decide)
  rw [hd0, List.append_nil] at hk
  subst hk
  rw [exTwice_kept] at hnew
  injection hnew with hnew
  subst hnew
  obtain ⟨gm, g1, g2, g3, g4, g5, g6, g7⟩ := page_room exOut_ok exOut_short { obs := firstFour (obsOf [97] [([97], (⟨0x4008000000000000#64, [1], 0⟩ : Obs))]) } 50 (by decide) 562 (by decide)
  obtain ⟨first, cols, reply, f1, f2, f3, f4⟩ := key gm (by rw [hask']; exact g1) (by omega)
  obtain ⟨s1, s2⟩ := f4 id (fun _ => []) (exServer reply) (.inl rfl) rfl
  rw [← hask]
  rw [hmet] at hlog f1
  have s2 : _ = 200 ∧ _ = ask.metric ++ first.encode ∧ _ := s2
  rw [hmet] at s2
  exact ⟨s, s', _, reply, hr, hst, hlog, f3, s2.1, first, f1, s2.2.1⟩

end Rothko
