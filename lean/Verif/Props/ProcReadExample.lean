import Verif.Props.ProcRead
import Verif.Props.ByHandExample
import Verif.Props.LabelsExample
/-!
# C126: a picture to read
-/
namespace Rothko

/-- A program that reads durations and numbers as the server does, and writes texts as Go's libraries do. -/
noncomputable def exReadBackend : Backend TWrap Shot Pos := { exHandBackend with scene := fun samples _ => theScene exText samples.toInt viridis }

theorem exReadBackend_real : exReadBackend.Real (fun _ => exText) := ⟨fun _ _ => rfl, exHandBackend_real.2, exHandBackend_real.3⟩

theorem exTextLibrary : Library exText exPipeT.d firstFour := ⟨exLibrary.kind, exLibrary.reads, exLibrary.again, exLibrary.merges⟩

/-- The address. -/
def exRead : Bytes := "now=1000&metric=%61&width=230&height=60&duration=300ns&samples=2&padding=1".toUTF8.toList

theorem exRead_form : goForm exRead = [("now", [49, 48, 48, 48]), ("metric", [97]), ("width", [50, 51, 48]), ("height", [54, 48]), ("duration", [51, 48, 48, 110, 115]), ("samples", [50]), ("padding", [49])] := by decide +kernel

theorem exRead_dur : parseDuration [51, 48, 48, 110, 115] = some 300 := by decide +kernel

theorem exRead_ask : (renderAsk exReadBackend (goForm exRead) 2000).metric = [97] ∧ (renderAsk exReadBackend (goForm exRead) 2000).nums = { width := 230, height := 60, padding := 1, now := 1000, samples := 2 } ∧
    (renderAsk exReadBackend (goForm exRead) 2000).dur = 300 := by
  rw [exRead_form]
  refine ⟨by decide +kernel, by decide +kernel, ?_⟩
  show (parseDuration [51, 48, 48, 110, 115]).getD 86400000000000 = 300
  rw [exRead_dur]
  rfl

/-- Its query. -/
def exReadAsk : Int64 × (List Val → Val → Cb) := (1000, fun seen v =>
  (renderCb ((theScene exText (2 : ℕ) viridis).params (pngOpts 1000 300 230 60 1)) 1000 300 (1000 - 300) (renderAfter ((theScene exText (2 : ℕ) viridis).params (pngOpts 1000 300 230 60 1)) 1000 300 seen) v).2)

/-- Two intervals of the metric, and the request. -/
def exReadRun : List PFChoice := exBackRound [97] 810 811 ++ (exBackRound [97] 820 930 ++ (.ask 2 [97] (some exReadAsk) :: List.replicate 6 (.go 2)))

theorem exRead_asks : ∀ i m' q' d, PFChoice.ask i m' q' d ∈ exReadRun → m' = [97] ∧ q' = some exReadAsk := by
  intro i m' q' d hm
  unfold exReadRun at hm
  simp only [List.mem_append, exBackRound_asks, false_or, List.mem_cons, reduceCtorEq, List.mem_replicate, and_false, or_false, PFChoice.ask.injEq] at hm
  exact ⟨hm.2.1, hm.2.2.1⟩

theorem exRead_ops : ∀ o, PFChoice.op o ∈ exReadRun → ∃ (t u : Int64), o = .add [97] ⟨0x4008000000000000#64, [1], 0⟩ t ∨ o = .dump id u (fun _ => true) := by
  intro o hm
  unfold exReadRun at hm
  simp only [List.mem_append, List.mem_cons, reduceCtorEq, List.mem_replicate, and_false, or_false] at hm
  rcases hm with hm | hm
  · exact ⟨_, _, exBackRound_ops _ _ _ o hm⟩
  · exact ⟨_, _, exBackRound_ops _ _ _ o hm⟩

set_option maxRecDepth 100000 in
set_option synthInstance.maxSize 2000 in
set_option synthInstance.maxHeartbeats 200000 in
theorem exRead_seen : exEndsF (exGapRun exReadRun).1 = [(0, none), (0, none)] ∧ exEndsF (exGapRun (exReadRun ++ [.go 2])).1 = [(0, none), (0, none)] ++ [(2, some ([930, 811], false))] := by decide +kernel

/-- The intervals, newest first. -/
def exReadKept : List Batch := [⟨811, 930, [([97], ⟨0x4008000000000000#64, [1], 0⟩)]⟩, ⟨810, 811, [([97], ⟨0x4008000000000000#64, [1], 0⟩)]⟩]

set_option maxRecDepth 100000 in
theorem exRead_kept : ((exGapRun exReadRun).2.foldl PSpec.stepF {}).kept [97] = exReadKept ∧ (plainOps (exGapRun exReadRun).2).length = 4 := by decide +kernel

theorem exRead_life : LifeOk exProcT 1 (plainOps (exGapRun exReadRun).2) := by
  have h0 := exProcT_ok [] (fun op h => by cases h) (by decide) List.Pairwise.nil
  refine ⟨h0.handles, h0.clients, h0.dist, h0.geo, h0.fits, ?_, by rw [exRead_kept.2]; decide⟩
  intro op hop
  have hop : PFOp.op op ∈ (exGapRun exReadRun).2 := by
    unfold plainOps at hop
    obtain ⟨x, hx, e⟩ := List.mem_filterMap.mp hop
    cases x with
    | op o => cases e; exact hx
    | lost m => cases e
  rcases follow_chosen _ hop with h | h
  · cases h
  · obtain ⟨t, u, rfl | rfl⟩ := exRead_ops op h
    · exact Nat.le_refl _
    · exact fun l => List.Perm.refl l

/-- **C126 example.** The hypotheses of C126 are met by this address and this run, and one reads from the picture. -/
theorem C126_example : (renderAsk exReadBackend (goForm exRead) 2000).Usable ∧ LifeOk exProcT 1 (plainOps (exGapRun exReadRun).2) ∧ exGapTable.errors.Whole [97] ∧
    SaneTimes 230 (((exGapRun exReadRun).2.foldl PSpec.stepF {}).kept [97]) ∧ SaneLengths (((exGapRun exReadRun).2.foldl PSpec.stepF {}).kept [97]) ∧
    ProcF.Reach exProcT exGapTable.errors (freshFs (fun _ => false) (fun _ _ => false)) (exGapRun exReadRun).2 (exGapRun exReadRun).1 ∧
    ∃ s' dir unlink r, (exGapRun exReadRun).1.Step exProcT exGapTable.errors none s' ∧
      s'.sys.log = (exGapRun exReadRun).1.sys.log ++ [(2, [97], ⟨(renderAsk exReadBackend (goForm exRead) 2000).call exReadBackend exProcT.pipe.cfg, dir, unlink⟩, r)] ∧
      ∃ cv pix, (renderAsk exReadBackend (goForm exRead) 2000).page exReadBackend r = .png cv pix ∧
        ∃ (x y : Int) (t : Bytes) (v : ℚ), Seen pix cv.width.toNat x y 0 14 ("obs/sec: ".toUTF8.toList ++ t) ∧ Says t v := by
  obtain ⟨ask, hask⟩ : ∃ ask, ask = renderAsk exReadBackend (goForm exRead) 2000 := ⟨_, rfl⟩
  obtain ⟨a1, a2, a3⟩ := exRead_ask
  rw [← hask] at a1 a2 a3 ⊢
  have hus : ask.Usable := by constructor <;> first | rw [a2, a3]; decide | rw [a2]; decide
  have hsane : SaneTimes 230 (((exGapRun exReadRun).2.foldl PSpec.stepF {}).kept [97]) := by rw [exRead_kept.1]; unfold SaneTimes; decide
  have hlens : SaneLengths (((exGapRun exReadRun).2.foldl PSpec.stepF {}).kept [97]) := by rw [exRead_kept.1]; unfold SaneLengths; decide
  have hcall : askOf exProcT.pipe.cfg (some exReadAsk) = ask.call exReadBackend exProcT.pipe.cfg := by
    unfold RenderAsk.call RenderAsk.scene
    rw [a2, a3]
    rfl
  refine ⟨hus, exRead_life, exGap_whole, hsane, hlens, ?_⟩
  have hre : PFChoice.op .restart ∉ exReadRun := fun h => by
    obtain ⟨t, u, e | e⟩ := exRead_ops _ h <;> cases e
  obtain ⟨s', dir, unlink, seen, err, hr, hst, hlog, h1, h2⟩ := requestF_returns (c := exProcT) (t := exGapTable) (fs := freshFs (fun _ => false) (fun _ _ => false)) (m := [97]) (q := some exReadAsk) (l := exReadRun) (i := 2) (by decide)
    exRead_asks hre exRead_seen.1 exRead_seen.2
  rw [hcall] at hlog
  refine ⟨hr, s', dir, unlink, _, hst, hlog, ?_⟩
  have hok : exText.Ok := withTexts_ok exInk false berlin rfl
  have hsh : exText.Short := withTexts_short exInk false berlin
  cases err with
  | some er => cases h2
  | none =>
    have hsane' : SaneTimes ask.nums.width.toInt (((exGapRun exReadRun).2.foldl PSpec.stepF {}).kept ask.metric) := by rw [a1, a2]; exact hsane
    have hlens' : SaneLengths (((exGapRun exReadRun).2.foldl PSpec.stepF {}).kept ask.metric) := by rw [a1]; exact hlens
    obtain ⟨⟨shown, g1, g2, g2', g3, g4⟩, _⟩ := C124_by_hand exReadBackend_real hask (c := exProcT) (ops := (exGapRun exReadRun).2) (i := 2) (r := .query seen none) hok hsh exTextLibrary hr exRead_life hst (by rw [a1]; exact exGap_whole) (by rw [a1]; exact hlog) (by rw [a1]; decide) hus hsane'
      none "image/*" (by decide)
    have hne : shown ≠ [] := by
      rintro rfl
      have := (g2' seen none rfl).length_le
      rw [h1] at this
      cases this
    rcases g4 hne (fun b hb => hsane' b (g1.subset hb)) hus.time hus.padding hus.duration (by rw [a2]; decide) with ⟨_, _, seen', hx⟩ | ⟨newest, _, key⟩
    · cases hx
    · obtain ⟨gm, k1, k2, _, k3⟩ := any_room hok hsh { obs := firstFour (obsOf ask.metric newest.obs) } ask.nums.now ask.dur (padding := ask.nums.padding.toInt) hus.width hus.height (by rw [a2]; decide)
      rw [show ask.nums.width.toInt = 230 by rw [a2]; rfl] at k2
      rw [show ask.nums.height.toInt = 60 by rw [a2]; rfl] at k3
      have hb : gm.height - 1 ≤ 25 := by omega
      have hb0 : 0 ≤ gm.height - 1 := by omega
      obtain ⟨cv, pix, p1, p2, p3, _⟩ := key gm k1 (by omega) (by omega) (by
          rw [a2]; show (2 : Int) * (gm.height - 1) < _; omega) (by
          rw [viridis_length]
          have := Int.mul_le_mul (show ((256 - 1 : ℕ) : Int) ≤ 255 by decide) hb hb0 (by decide)
          omega)
      refine ⟨cv, pix, p1, ?_⟩
      obtain ⟨_, _, gm', _, _, _, _, _, t⟩ := C126_asked exReadBackend_real (e0 := exInk) (old := false) (zone := berlin) rfl rfl exTextLibrary hr exRead_life hst (by rw [a1]; exact exGap_whole) (by rw [a1]; exact hlog) hus (by rw [a2]; decide) (by rw [a2]; decide) hsane' hlens' p1
      obtain ⟨p, tx, q, v, _, _, w1, w2, _⟩ := t.rate
      exact ⟨_, _, tx, v, w1, w2⟩

end Rothko
