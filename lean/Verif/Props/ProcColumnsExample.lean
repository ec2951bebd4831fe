import Verif.Props.ProcColumns
import Verif.Props.ByHandExample
/-!
# C125: the columns of an address written by hand
-/
namespace Rothko

/-- **C125 example.** The hypotheses of C125 are met by this address and this run; there are columns, and the newest record is that of the interval that ended at 30. -/
theorem C125_example : (renderAsk exHandBackend (goForm exHand) 1000).Usable ∧ LifeOk exProcT 1 (plainOps (exGapRun exHandRun).2) ∧ exGapTable.errors.Whole [97] ∧
    SaneTimes 130 (((exGapRun exHandRun).2.foldl PSpec.stepF {}).kept [97]) ∧
    ProcF.Reach exProcT exGapTable.errors (freshFs (fun _ => false) (fun _ _ => false)) (exGapRun exHandRun).2 (exGapRun exHandRun).1 ∧
    ∃ s' dir unlink r, (exGapRun exHandRun).1.Step exProcT exGapTable.errors none s' ∧
      s'.sys.log = (exGapRun exHandRun).1.sys.log ++ [(2, [97], ⟨(renderAsk exHandBackend (goForm exHand) 1000).call exHandBackend exProcT.pipe.cfg, dir, unlink⟩, r)] ∧
      ∃ first width cols, (renderAsk exHandBackend (goForm exHand) 1000).columns exHandBackend r = .columns first width cols ∧ ∃ stored, RecordOf exProcT.pipe.d 11 30 [⟨0x4008000000000000#64, [1], 0⟩] stored ∧ first = stored.encode := by
  obtain ⟨ask, hask⟩ : ∃ ask, ask = renderAsk exHandBackend (goForm exHand) 1000 := ⟨_, rfl⟩
  obtain ⟨a1, a2, a3⟩ := exHand_ask
  rw [← hask] at a1 a2 a3 ⊢
  have hus : ask.Usable := by constructor <;> first | rw [a2, a3]; decide | rw [a2]; decide
  have hsane : SaneTimes 130 (((exGapRun exHandRun).2.foldl PSpec.stepF {}).kept [97]) := by rw [exHand_kept.1]; unfold SaneTimes; decide
  have hcall : askOf exProcT.pipe.cfg (some exHandAsk) = ask.call exHandBackend exProcT.pipe.cfg := by
    unfold RenderAsk.call RenderAsk.scene
    rw [a2, a3]
    rfl
  refine ⟨hus, exHand_life, exGap_whole, hsane, ?_⟩
  have hre : PFChoice.op .restart ∉ exHandRun := fun h => by
    obtain ⟨t, u, e | e⟩ := exHand_ops _ h <;> cases e
  obtain ⟨s', dir, unlink, seen, err, hr, hst, hlog, h1, h2⟩ := requestF_returns (c := exProcT) (t := exGapTable) (fs := freshFs (fun _ => false) (fun _ _ => false)) (m := [97]) (q := some exHandAsk) (l := exHandRun) (i := 2) (by decide)
    exHand_asks hre exHand_seen.1 exHand_seen.2
  rw [hcall] at hlog
  refine ⟨hr, s', dir, unlink, _, hst, hlog, ?_⟩
  cases err with
  | some er => cases h2
  | none =>
    have hsane' : SaneTimes ask.nums.width.toInt (((exGapRun exHandRun).2.foldl PSpec.stepF {}).kept ask.metric) := by rw [a1, a2]; exact hsane
    obtain ⟨⟨shown, g1, g2, g2', g3, g4⟩, _⟩ := C125_json exHandBackend_real hask (c := exProcT) (ops := (exGapRun exHandRun).2) (i := 2) (r := .query seen none) exOut_ok exOut_short exLibrary hr exHand_life hst (by rw [a1]; exact exGap_whole) (by rw [a1]; exact hlog) (by rw [a1]; decide) hus hsane'
      none
    have g2' := g2' seen none rfl
    rw [h1] at g2'
    have hne : shown ≠ [] := by
      rintro rfl
      have := g2'.length_le
      cases this
    rcases g4 hne (fun b hb => hsane' b (g1.subset hb)) hus.time hus.duration with ⟨_, _, seen', hx⟩ | ⟨newest, hnew, key⟩
    · cases hx
    · obtain ⟨gm, k1, k2, _, k3⟩ := any_room exOut_ok exOut_short { obs := firstFour (obsOf ask.metric newest.obs) } ask.nums.now ask.dur (padding := ask.nums.padding.toInt) hus.width hus.height (by rw [a2]; decide)
      obtain ⟨first, cols, p1, _, p2⟩ := key gm k1 (by have := hus.width; omega)
      have hn : newest = ⟨11, 30, [([97], ⟨0x4008000000000000#64, [1], 0⟩)]⟩ := by
        have hs : newest.stop = 30 := by
          cases shown with
          | nil => cases hnew
          | cons b bs =>
            cases hnew
            obtain ⟨t, ht⟩ := g2'
            have := congrArg List.head? ht
            exact (Option.some.inj this).symm
        have hmem : newest ∈ exHandKept := by
          rw [a1, exHand_kept.1] at g1
          exact g1.subset (List.mem_of_mem_head? hnew)
        unfold exHandKept at hmem
        simp only [List.mem_cons, List.not_mem_nil, or_false] at hmem
        rcases hmem with e | e
        · exact e
        · rw [e] at hs; exfalso; revert hs; decide
      subst hn
      rw [a1] at p1
      exact ⟨_, _, _, p2, first, p1, rfl⟩

end Rothko
