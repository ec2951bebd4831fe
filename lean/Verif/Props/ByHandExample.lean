import Verif.Props.ByHand
import Verif.Props.ProcDrawnExample
import Verif.Props.BrowserExample
/-!
# C124: an address written by hand, and the picture
-/
namespace Rothko

/-- A program that reads durations and numbers as the server does. -/
noncomputable def exHandBackend : Backend TWrap Shot Pos := { exBackend with duration := parseDuration, float := parseFloat }

theorem exHandBackend_real : exHandBackend.Real (fun _ => exOut) := by
  refine ⟨fun _ _ => rfl, (by decide +kernel : parseDuration [] = none), ?_⟩
  show parseFloat [] = none
  cases h : parseFloat [] with
  | none => rfl
  | some x =>
    rcases C116_only h with ⟨n, hn, e⟩ | h | h | h
    · have hd := hn.some_digit
      unfold Numeral.text Numeral.places digitText at *
      cases hf : n.frac with
      | none => rw [hf] at hd e; simp at hd e; exact absurd e.2.1 hd
      | some ds => rw [hf] at e; simp at e
    · exfalso; unfold InfWord at h; revert h; decide +kernel
    · exfalso; unfold NegInfWord at h; revert h; decide +kernel
    · exfalso; unfold NanWord at h; revert h; decide +kernel

/-- The address. -/
def exHand : Bytes := "now=50&metric=%61&width=130&height=60&duration=0.2us&samples=2&padding=1".toUTF8.toList

theorem exHand_form : goForm exHand = [("now", [53, 48]), ("metric", [97]), ("width", [49, 51, 48]), ("height", [54, 48]), ("duration", [48, 46, 50, 117, 115]), ("samples", [50]), ("padding", [49])] := by decide +kernel

theorem exHand_dur : parseDuration [48, 46, 50, 117, 115] = some 200 := by decide +kernel

theorem exHand_ask : (renderAsk exHandBackend (goForm exHand) 1000).metric = [97] ∧ (renderAsk exHandBackend (goForm exHand) 1000).nums = { width := 130, height := 60, padding := 1, now := 50, samples := 2 } ∧
    (renderAsk exHandBackend (goForm exHand) 1000).dur = 200 := by
  rw [exHand_form]
  refine ⟨by decide +kernel, by decide +kernel, ?_⟩
  show (parseDuration [48, 46, 50, 117, 115]).getD _ = 200
  rw [exHand_dur]
  rfl

/-- Its query. -/
def exHandAsk : Int64 × (List Val → Val → Cb) := (50, fun seen v =>
  (renderCb ((theScene exOut (2 : ℕ) viridis).params (pngOpts 50 200 130 60 1)) 50 200 (50 - 200) (renderAfter ((theScene exOut (2 : ℕ) viridis).params (pngOpts 50 200 130 60 1)) 50 200 seen) v).2)

/-- Two intervals of the metric, and the request. -/
def exHandRun : List PFChoice := exBackRound [97] 10 11 ++ (exBackRound [97] 20 30 ++ (.ask 2 [97] (some exHandAsk) :: List.replicate 6 (.go 2)))

theorem exHand_asks : ∀ i m' q' d, PFChoice.ask i m' q' d ∈ exHandRun → m' = [97] ∧ q' = some exHandAsk := by
  intro i m' q' d hm
  unfold exHandRun at hm
  simp only [List.mem_append, exBackRound_asks, false_or, List.mem_cons, reduceCtorEq, List.mem_replicate, and_false, or_false, PFChoice.ask.injEq] at hm
  exact ⟨hm.2.1, hm.2.2.1⟩

theorem exHand_ops : ∀ o, PFChoice.op o ∈ exHandRun → ∃ (t u : Int64), o = .add [97] ⟨0x4008000000000000#64, [1], 0⟩ t ∨ o = .dump id u (fun _ => true) := by
  intro o hm
  unfold exHandRun at hm
  simp only [List.mem_append, List.mem_cons, reduceCtorEq, List.mem_replicate, and_false, or_false] at hm
  rcases hm with hm | hm
  · exact ⟨_, _, exBackRound_ops _ _ _ o hm⟩
  · exact ⟨_, _, exBackRound_ops _ _ _ o hm⟩

set_option maxRecDepth 100000 in
set_option synthInstance.maxSize 2000 in
set_option synthInstance.maxHeartbeats 200000 in
theorem exHand_seen : exEndsF (exGapRun exHandRun).1 = [(0, none), (0, none)] ∧ exEndsF (exGapRun (exHandRun ++ [.go 2])).1 = [(0, none), (0, none)] ++ [(2, some ([30, 11], false))] := by decide +kernel

/-- The intervals, newest first. -/
def exHandKept : List Batch := [⟨11, 30, [([97], ⟨0x4008000000000000#64, [1], 0⟩)]⟩, ⟨10, 11, [([97], ⟨0x4008000000000000#64, [1], 0⟩)]⟩]

set_option maxRecDepth 100000 in
theorem exHand_kept : ((exGapRun exHandRun).2.foldl PSpec.stepF {}).kept [97] = exHandKept ∧ (plainOps (exGapRun exHandRun).2).length = 4 := by decide +kernel

theorem exHand_life : LifeOk exProcT 1 (plainOps (exGapRun exHandRun).2) := by
  have h0 := exProcT_ok [] (fun op h => by cases h) (by decide) List.Pairwise.nil
  refine ⟨h0.handles, h0.clients, h0.dist, h0.geo, h0.fits, ?_, by rw [exHand_kept.2]; decide⟩
  intro op hop
  have hop : PFOp.op op ∈ (exGapRun exHandRun).2 := by
    unfold plainOps at hop
    obtain ⟨x, hx, e⟩ := List.mem_filterMap.mp hop
    cases x with
    | op o => cases e; exact hx
    | lost m => cases e
  rcases follow_chosen _ hop with h | h
  · cases h
  · obtain ⟨t, u, rfl | rfl⟩ := exHand_ops op h
    · exact Nat.le_refl _
    · exact fun l => List.Perm.refl l

/-- **C124 example.** The hypotheses of C124 are met by this address and this run, and the answer is a picture of the size asked for. -/
theorem C124_example : (∃ ps, QueryIs exHand ps ∧ TextOf ps "metric" [97]) ∧ (renderAsk exHandBackend (goForm exHand) 1000).Usable ∧ LifeOk exProcT 1 (plainOps (exGapRun exHandRun).2) ∧ exGapTable.errors.Whole [97] ∧
    SaneTimes 130 (((exGapRun exHandRun).2.foldl PSpec.stepF {}).kept [97]) ∧
    ProcF.Reach exProcT exGapTable.errors (freshFs (fun _ => false) (fun _ _ => false)) (exGapRun exHandRun).2 (exGapRun exHandRun).1 ∧
    ∃ s' dir unlink r, (exGapRun exHandRun).1.Step exProcT exGapTable.errors none s' ∧
      s'.sys.log = (exGapRun exHandRun).1.sys.log ++ [(2, [97], ⟨(renderAsk exHandBackend (goForm exHand) 1000).call exHandBackend exProcT.pipe.cfg, dir, unlink⟩, r)] ∧
      ∃ cv pix, (renderAsk exHandBackend (goForm exHand) 1000).page exHandBackend r = .png cv pix ∧ cv.width = 132 ∧ cv.height = 62 := by
  obtain ⟨ask, hask⟩ : ∃ ask, ask = renderAsk exHandBackend (goForm exHand) 1000 := ⟨_, rfl⟩
  obtain ⟨a1, a2, a3⟩ := exHand_ask
  rw [← hask] at a1 a2 a3 ⊢
  have hus : ask.Usable := by constructor <;> first | rw [a2, a3]; decide | rw [a2]; decide
  have hsane : SaneTimes 130 (((exGapRun exHandRun).2.foldl PSpec.stepF {}).kept [97]) := by rw [exHand_kept.1]; unfold SaneTimes; decide
  have hcall : askOf exProcT.pipe.cfg (some exHandAsk) = ask.call exHandBackend exProcT.pipe.cfg := by
    unfold RenderAsk.call RenderAsk.scene
    rw [a2, a3]
    rfl
  obtain ⟨ps, hps⟩ := C123_every exHand
  refine ⟨⟨ps, hps, (text_of hps (by decide +kernel) _).mpr (by rw [exHand_form]; decide +kernel)⟩, hus, exHand_life, exGap_whole, hsane, ?_⟩
  have hre : PFChoice.op .restart ∉ exHandRun := fun h => by
    obtain ⟨t, u, e | e⟩ := exHand_ops _ h <;> cases e
  obtain ⟨s', dir, unlink, seen, err, hr, hst, hlog, h1, h2⟩ := requestF_returns (c := exProcT) (t := exGapTable) (fs := freshFs (fun _ => false) (fun _ _ => false)) (m := [97]) (q := some exHandAsk) (l := exHandRun) (i := 2) (by decide)
    exHand_asks hre exHand_seen.1 exHand_seen.2
  rw [hcall] at hlog
  refine ⟨hr, s', dir, unlink, _, hst, hlog, ?_⟩
  cases err with
  | some er => cases h2
  | none =>
    have hsane' : SaneTimes ask.nums.width.toInt (((exGapRun exHandRun).2.foldl PSpec.stepF {}).kept ask.metric) := by rw [a1, a2]; exact hsane
    obtain ⟨⟨shown, g1, g2, g2', g3, g4⟩, _⟩ := C124_by_hand exHandBackend_real hask (c := exProcT) (ops := (exGapRun exHandRun).2) (i := 2) (r := .query seen none) exOut_ok exOut_short exLibrary hr exHand_life hst (by rw [a1]; exact exGap_whole) (by rw [a1]; exact hlog) (by rw [a1]; decide) hus hsane'
      none "image/*" (by decide)
    have hne : shown ≠ [] := by
      rintro rfl
      have := (g2' seen none rfl).length_le
      rw [h1] at this
      cases this
    rcases g4 hne (fun b hb => hsane' b (g1.subset hb)) hus.time hus.padding hus.duration (by rw [a2]; decide) with ⟨_, _, seen', hx⟩ | ⟨newest, _, key⟩
    · cases hx
    · obtain ⟨gm, k1, k2, _, k3⟩ := any_room exOut_ok exOut_short { obs := firstFour (obsOf ask.metric newest.obs) } ask.nums.now ask.dur (padding := ask.nums.padding.toInt) hus.width hus.height (by rw [a2]; decide)
      rw [show ask.nums.width.toInt = 130 by rw [a2]; rfl] at k2
      rw [show ask.nums.height.toInt = 60 by rw [a2]; rfl] at k3
      have hb : gm.height - 1 ≤ 25 := by omega
      have hb0 : 0 ≤ gm.height - 1 := by omega
      obtain ⟨cv, pix, p1, p2, p3, _⟩ := key gm k1 (by omega) (by omega) (by
          rw [a2]; show (2 : Int) * (gm.height - 1) < _; omega) (by
          rw [viridis_length]
          have := Int.mul_le_mul (show ((256 - 1 : ℕ) : Int) ≤ 255 by decide) hb hb0 (by decide)
          omega)
      exact ⟨cv, pix, p1, by rw [p2, a2]; rfl, by rw [p3, a2]; rfl⟩

end Rothko
