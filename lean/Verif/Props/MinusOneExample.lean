import Verif.Props.MinusOne
import Verif.Props.ByHandExample
/-!
# C124: the condition on the number of samples is needed
-/
namespace Rothko

/-- The address of C124's example, with -1 samples. -/
def exMinus : Bytes := "now=50&metric=%61&width=130&height=60&duration=0.2us&samples=-1&padding=1".toUTF8.toList

theorem exMinus_form : goForm exMinus = [("now", [53, 48]), ("metric", [97]), ("width", [49, 51, 48]), ("height", [54, 48]), ("duration", [48, 46, 50, 117, 115]), ("samples", [45, 49]), ("padding", [49])] := by decide +kernel

theorem exMinus_ask : (renderAsk exHandBackend (goForm exMinus) 1000).metric = [97] ∧ (renderAsk exHandBackend (goForm exMinus) 1000).nums = { width := 130, height := 60, padding := 1, now := 50, samples := -1 } ∧
    (renderAsk exHandBackend (goForm exMinus) 1000).dur = 200 := by
  rw [exMinus_form]
  refine ⟨by decide +kernel, by decide +kernel, ?_⟩
  show (parseDuration [48, 46, 50, 117, 115]).getD _ = 200
  rw [exHand_dur]
  rfl

/-- That every graph of usable width and height is answered is false for numbers of samples that are not positive: for this address, in a run where nothing fails, the request panics. -/
theorem C124_samples_refuted : ∃ (q : Bytes) (ask : RenderAsk), ask = renderAsk exHandBackend (goForm q) 1000 ∧ RenderAsk.Usable { ask with nums := { ask.nums with samples := 1 } } ∧
    LifeOk exProcT 1 (plainOps (exGapRun exHandRun).2) ∧ exGapTable.errors.Whole ask.metric ∧ SaneTimes ask.nums.width.toInt (((exGapRun exHandRun).2.foldl PSpec.stepF {}).kept ask.metric) ∧
    ProcF.Reach exProcT exGapTable.errors (freshFs (fun _ => false) (fun _ _ => false)) (exGapRun exHandRun).2 (exGapRun exHandRun).1 ∧
    ∃ s' dir unlink r, (exGapRun exHandRun).1.Step exProcT exGapTable.errors none s' ∧
      s'.sys.log = (exGapRun exHandRun).1.sys.log ++ [(2, ask.metric, ⟨ask.call exHandBackend exProcT.pipe.cfg, dir, unlink⟩, r)] ∧ ask.reply exHandBackend "image/*" r = none := by
  obtain ⟨ask, hask⟩ : ∃ ask, ask = renderAsk exHandBackend (goForm exMinus) 1000 := ⟨_, rfl⟩
  obtain ⟨a1, a2, a3⟩ := exMinus_ask
  rw [← hask] at a1 a2 a3
  have hus : RenderAsk.Usable { ask with nums := { ask.nums with samples := 1 } } := by constructor <;> dsimp only <;> first | rw [a2, a3]; decide | rw [a2]; decide | decide
  have hsane : SaneTimes ask.nums.width.toInt (((exGapRun exHandRun).2.foldl PSpec.stepF {}).kept ask.metric) := by rw [a1, a2, exHand_kept.1]; unfold SaneTimes; decide
  have hcall : askOf exProcT.pipe.cfg (some exHandAsk) = ask.call exHandBackend exProcT.pipe.cfg := by
    unfold RenderAsk.call RenderAsk.scene pngCall
    rw [exHandBackend_real.scene, a2, a3]
    show _ = renderCall ((theScene exOut (-1) viridis).params _) _ _ _
    rw [params_bare exOut 2, renderCall_to]
    rfl
  have hw : exGapTable.errors.Whole ask.metric := by rw [a1]; exact exGap_whole
  refine ⟨exMinus, ask, hask, hus, exHand_life, hw, hsane, ?_⟩
  have hre : PFChoice.op .restart ∉ exHandRun := fun h => by
    obtain ⟨t, u, e | e⟩ := exHand_ops _ h <;> cases e
  obtain ⟨s', dir, unlink, seen, err, hr, hst, hlog, h1, h2⟩ := requestF_returns (c := exProcT) (t := exGapTable) (fs := freshFs (fun _ => false) (fun _ _ => false)) (m := [97]) (q := some exHandAsk) (l := exHandRun) (i := 2) (by decide)
    exHand_asks hre exHand_seen.1 exHand_seen.2
  rw [hcall, ← a1] at hlog
  refine ⟨hr, s', dir, unlink, _, hst, hlog, ?_⟩
  cases err with
  | some er => cases h2
  | none =>
    exact C124_minus_one exHandBackend_real (c := exProcT) (ops := (exGapRun exHandRun).2) (i := 2) exOut_ok exOut_short exLibrary hr exHand_life hst hw hlog (by rintro rfl; cases h1) (by rw [a2]) hus hsane
      (by rw [a1, exHand_kept.1]; decide) "image/*" (by decide)

end Rothko
