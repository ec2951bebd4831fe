import Verif.Props.ProcDrawn
import Verif.Props.ProcShownExample
/-!
# C121: a picture while the clock is set back
-/
namespace Rothko

/-- An observation of a metric at `t` and a dump at `u`, which a worker writes. -/
def exBackRound (m : Bytes) (t u : Int64) : List PFChoice := [.op (.add m ⟨0x4008000000000000#64, [1], 0⟩ t), .op (.dump id u (fun _ => true)), .offer, .recv 0 none] ++ (List.replicate 14 [.go 0, .answer 0]).flatten ++ [.wait]

/-- The clock goes from 11 to 96, then back to 40, then on to 100; then a request is made for the time before 50. -/
def exBack : List PFChoice := exBackRound [97] 10 11 ++ (exBackRound [98] 95 96 ++ (exBackRound [97] 97 40 ++ (exBackRound [97] 99 100 ++ (.ask 2 [97] (some exAsk) :: List.replicate 6 (.go 2)))))

theorem exBackRound_asks (m : Bytes) (t u : Int64) : ∀ i m' q' d, PFChoice.ask i m' q' d ∉ exBackRound m t u := by
  intro i m' q' d hm
  unfold exBackRound at hm
  simp at hm

theorem exBackRound_ops (m : Bytes) (t u : Int64) : ∀ o, PFChoice.op o ∈ exBackRound m t u → o = .add m ⟨0x4008000000000000#64, [1], 0⟩ t ∨ o = .dump id u (fun _ => true) := by
  intro o hm
  unfold exBackRound at hm
  simp at hm
  exact hm

theorem exBack_asks : ∀ i m' q' d, PFChoice.ask i m' q' d ∈ exBack → m' = [97] ∧ q' = some exAsk := by
  intro i m' q' d hm
  unfold exBack at hm
  simp only [List.mem_append, exBackRound_asks, false_or, List.mem_cons, reduceCtorEq, List.mem_replicate, and_false, or_false, PFChoice.ask.injEq] at hm
  exact ⟨hm.2.1, hm.2.2.1⟩

theorem exBack_ops : ∀ o, PFChoice.op o ∈ exBack → ∃ (m : Bytes) (t u : Int64), (m = [97] ∨ m = [98]) ∧ (o = .add m ⟨0x4008000000000000#64, [1], 0⟩ t ∨ o = .dump id u (fun _ => true)) := by
  intro o hm
  unfold exBack at hm
  simp only [List.mem_append, List.mem_cons, reduceCtorEq, List.mem_replicate, and_false, or_false] at hm
  rcases hm with hm | hm | hm | hm
  · exact ⟨_, _, _, .inl rfl, exBackRound_ops _ _ _ o hm⟩
  · exact ⟨_, _, _, .inr rfl, exBackRound_ops _ _ _ o hm⟩
  · exact ⟨_, _, _, .inl rfl, exBackRound_ops _ _ _ o hm⟩
  · exact ⟨_, _, _, .inl rfl, exBackRound_ops _ _ _ o hm⟩

set_option maxRecDepth 100000 in
set_option synthInstance.maxSize 2000 in
set_option synthInstance.maxHeartbeats 200000 in
theorem exBack_seen : exEndsF (exGapRun exBack).1 = [(0, none), (0, none), (0, none), (0, none)] ∧ exEndsF (exGapRun (exBack ++ [.go 2])).1 = [(0, none), (0, none), (0, none), (0, none)] ++ [(2, some ([40, 11], false))] := by decide +kernel

/-- The intervals of the metric, newest first. The second starts after the time of the graph, as the clock was set back in it; the first ends after it. -/
def exBackKept : List Batch := [⟨40, 100, [([97], ⟨0x4008000000000000#64, [1], 0⟩)]⟩, ⟨96, 40, [([97], ⟨0x4008000000000000#64, [1], 0⟩)]⟩, ⟨10, 11, [([97], ⟨0x4008000000000000#64, [1], 0⟩)]⟩]

set_option maxRecDepth 100000 in
theorem exBack_kept : ((exGapRun exBack).2.foldl PSpec.stepF {}).kept [97] = exBackKept ∧ (plainOps (exGapRun exBack).2).length = 8 := by decide +kernel

theorem exBack_life : LifeOk exProcT 1 (plainOps (exGapRun exBack).2) := by
  have h0 := exProcT_ok [] (fun op h => by cases h) (by decide) List.Pairwise.nil
  refine ⟨h0.handles, h0.clients, h0.dist, h0.geo, h0.fits, ?_, by rw [exBack_kept.2]; decide⟩
  intro op hop
  have hop : PFOp.op op ∈ (exGapRun exBack).2 := by
    unfold plainOps at hop
    obtain ⟨x, hx, e⟩ := List.mem_filterMap.mp hop
    cases x with
    | op o => cases e; exact hx
    | lost m => cases e
  rcases follow_chosen _ hop with h | h
  · cases h
  · obtain ⟨m, t, u, rfl | rfl, rfl | rfl⟩ := exBack_ops op h
    · exact Nat.le_refl _
    · exact fun l => List.Perm.refl l
    · exact Nat.le_refl _
    · exact fun l => List.Perm.refl l

/-- **C121 example.** The hypotheses of C121 are met by a program whose clock was set back: of three intervals the last ends after the time of the graph and the one before starts after it. The answer to the request is a picture, in which
the first interval is seen, ten nanoseconds a pixel, and where the second one ends is white. -/
theorem C121_example : LifeOk exProcT 1 (plainOps (exGapRun exBack).2) ∧ exGapTable.errors.Whole [97] ∧ SaneTimes 100 (((exGapRun exBack).2.foldl PSpec.stepF {}).kept [97]) ∧
    ProcF.Reach exProcT exGapTable.errors (freshFs (fun _ => false) (fun _ _ => false)) (exGapRun exBack).2 (exGapRun exBack).1 ∧
    ∃ s' dir unlink r, (exGapRun exBack).1.Step exProcT exGapTable.errors none s' ∧ s'.sys.log = (exGapRun exBack).1.sys.log ++ [(2, [97], ⟨pngCall (theScene exOut (2 : ℕ) viridis) exProcT.pipe.cfg 50 110 100 53 1, dir, unlink⟩, r)] ∧
      ∃ c pix, pngAnswer (theScene exOut (2 : ℕ) viridis) 50 110 100 53 1 r = .png c pix ∧ c.width.toNat = 102 ∧ (∃ k, pixel pix 102 45 23 = some (k, 255) ∧ k ≠ white) ∧ pixel pix 102 48 23 = some (white, 255) := by
  have hsane : SaneTimes 100 (((exGapRun exBack).2.foldl PSpec.stepF {}).kept [97]) := by rw [exBack_kept.1]; unfold SaneTimes; decide
  refine ⟨exBack_life, exGap_whole, hsane, ?_⟩
  have hre : PFChoice.op .restart ∉ exBack := fun h => by
    obtain ⟨m, t, u, _, e | e⟩ := exBack_ops _ h <;> cases e
  obtain ⟨s', dir, unlink, seen, err, hr, hst, hlog, h1, h2⟩ := requestF_returns (c := exProcT) (t := exGapTable) (fs := freshFs (fun _ => false) (fun _ _ => false)) (m := [97]) (q := some exAsk) (l := exBack) (i := 2) (by decide)
    exBack_asks hre exBack_seen.1 exBack_seen.2
  refine ⟨hr, s', dir, unlink, _, hst, hlog, ?_⟩
  cases err with
  | some er => cases h2
  | none =>
    obtain ⟨shown, g1, g2, g2', g3, g4⟩ := C121_any_time exOut_ok (n := 2) (by norm_num) (by norm_num) (colors := viridis) (by rw [viridis_length]; norm_num) (by rw [viridis_length]; norm_num) exLibrary hr exBack_life hst exGap_whole hlog
    have hshown : shown = exBackKept.tail := by
      have h3 : (shown.filter (fun b => decide (b.stop < 50))).Sublist (exBackKept.filter (fun b => decide (b.stop < 50))) := by
        rw [← exBack_kept.1]
        exact g1.filter _
      rw [List.filter_eq_self.mpr (fun b hb => by simpa using g2 b hb)] at h3
      have h4 := (g2' seen none rfl).length_le
      rw [h1, List.length_map] at h4
      have h5 : exBackKept.filter (fun b => decide (b.stop < 50)) = exBackKept.tail := by decide +kernel
      rw [h5] at h3
      exact h3.eq_of_length_le h4
    subst hshown
    rcases g4 (by decide) (by decide) (by decide) (by decide) (by decide) (by decide) with ⟨_, _, seen', hx⟩ | ⟨newest, hnew, key⟩
    · cases hx
    injection hnew with hnew
    subst hnew
    have hm := exMeasuredR
    have hobs : firstFour (obsOf [97] [([97], (⟨0x4008000000000000#64, [1], 0⟩ : Obs))]) = [0x4008000000000000#64] := by decide +kernel
    unfold ShowsIntervals at key
    dsimp only at key
    rw [hobs] at key
    cases h : graphMeasure (sceneStyle exOut { obs := [0x4008000000000000#64] }) (pngOpts 50 110 100 53 1) with
    | panic => rw [h] at hm; cases hm
    | small => rw [h] at hm; cases hm
    | ok m =>
      rw [h] at hm
      have h1 : some (m.x, m.y, m.width, m.height) = some (38, 22, 11, 3) := hm
      obtain ⟨mx, my, mw, mh⟩ : m.x = 38 ∧ m.y = 22 ∧ m.width = 11 ∧ m.height = 3 := by
        injection h1 with h1; injection h1 with a h1; injection h1 with b h1; injection h1 with c d; exact ⟨a, b, c, d⟩
      obtain ⟨c, pix, hp, hw, _, _, hpix, _, _⟩ := key m h (by omega) (by omega) (by rw [mh]; decide) (by rw [mh, viridis_length]; decide)
      have hw : c.width = 102 := hw
      have e : c.width.toNat = 102 := by rw [hw]; rfl
      refine ⟨c, pix, hp, e, ?_⟩
      rw [e, mx, my, mw, mh] at hpix
      constructor
      · obtain ⟨k, hk, hc⟩ := hpix 7 1 (by omega) (by omega)
        rw [if_neg (by decide +kernel)] at hc
        exact ⟨k, hk, (C87_white hc).1⟩
      · obtain ⟨k, hk, hc⟩ := hpix 10 1 (by omega) (by omega)
        rw [if_pos (by decide +kernel)] at hc
        rw [← hc]
        exact hk

end Rothko
