import Verif.Props.KillOrder
import Verif.Props.KillProcExample
import Verif.Props.ByHandExample
/-!
# C127: a picture after a kill
-/
namespace Rothko

/-- The second of two dumps is in progress: its value is being written. -/
def exKillTwice : Option Proc := (Proc.init exProcT (freshFs (fun _ => false) (fun _ _ => false))).follow exProcT ((exRound 10 ++ exRound 20).take 46)

theorem exKillTwice_ops : ((exRound 10 ++ exRound 20).take 46).filterMap PChoice.label = exTwiceOps := rfl

set_option maxRecDepth 100000 in
set_option synthInstance.maxSize 2000 in
set_option synthInstance.maxHeartbeats 200000 in
theorem exKillTwice_at : exKillTwice.map (exKillProcView (.chunk 0 5)) = some (true, [21], true, [11], none) := by decide +kernel

/-- **C127 example.** The hypotheses of C127 are met in the middle of a second dump; the next process shows the value of the first dump only, and answers a request for the graph with a picture. -/
theorem C127_example : ProcOk exProcT 1 exTwiceOps ∧ ∃ s, Proc.Reach exProcT (freshFs (fun _ => false) (fun _ _ => false)) exTwiceOps s ∧ s.dumping = true ∧ s.sys.CutsOk (exCut (.chunk 0 5)) ∧
    ((queryList ⟨256, 4, 0⟩ 100 (fun _ _ => .more) (s.sys.killed (exCut (.chunk 0 5)) [97]).reopen).1.1).map (·.stop) = [11] ∧
    ∃ cv pix, (servePng (theScene exOut (2 : ℕ) viridis) exProcT.pipe.cfg 50 200 130 60 1 (s.sys.killed (exCut (.chunk 0 5)) [97]).reopen).1 = .png cv pix ∧ cv.width = 132 ∧ cv.height = 62 := by
  refine ⟨exTwice_ok, ?_⟩
  have h := exKillTwice_at
  cases hs : exKillTwice with
  | none => rw [hs] at h; cases h
  | some s =>
    rw [hs] at h
    have h := Option.some.inj h
    unfold exKillProcView at h
    injection h with e1 h
    injection h with _ h
    injection h with e3 h
    injection h with e4 _
    have hr := follow_proc _ .start hs
    rw [List.nil_append, exKillTwice_ops] at hr
    have hcut := FsSys.cutsOkB_ok e3
    refine ⟨s, hr, e1, hcut, e4, ?_⟩
    obtain ⟨found, f1, f2⟩ := C127_picture exOut_ok (n := 2) (by norm_num) (by norm_num) (colors := viridis) (by rw [viridis_length]; norm_num) (by rw [viridis_length]; norm_num) exLibrary hr exTwice_ok _ hcut [97]
    rw [exTwice_kept] at f1
    have hall : ∀ b ∈ found, b ∈ ([⟨11, 21, [([97], ⟨0x4008000000000000#64, [1], 0⟩)]⟩, ⟨10, 11, [([97], ⟨0x4008000000000000#64, [1], 0⟩)]⟩] : List Batch) := by
      rcases f1 with rfl | ⟨_, b, e⟩
      · exact fun _ h => h
      · rw [e]; exact fun _ h => List.mem_cons_of_mem _ h
    have hne : found ≠ [] := by
      rcases f1 with rfl | ⟨_, b, e⟩
      · simp
      · rintro rfl; cases e
    obtain ⟨shown, g1, g2, _, g3⟩ := f2 hne
    have hsane : SaneTimes 130 shown := by
      intro b hb
      have := hall b (g1.subset hb)
      revert b
      intro b _ hb
      simp only [List.mem_cons, List.not_mem_nil, or_false] at hb
      rcases hb with rfl | rfl <;> decide
    obtain ⟨newest, _, key⟩ := g3 (s.sys.killed (exCut (.chunk 0 5)) [97]).reopen.hit exProcT.pipe.cfg 50 200 130 60 1 (by decide) hsane (by decide) (by decide) (by decide) (by decide)
    obtain ⟨gm, k1, k2, _, k3⟩ := any_room exOut_ok exOut_short { obs := firstFour (obsOf [97] newest.obs) } 50 200 (width := 130) (height := 60) (padding := 1) (by decide) (by decide) (by decide)
    have hb : gm.height - 1 ≤ 25 := by omega
    have hb0 : 0 ≤ gm.height - 1 := by omega
    obtain ⟨cv, pix, p1, p2, p3, _⟩ := key gm k1 (by omega) (by omega) (by show (2 : Int) * (gm.height - 1) < _; omega) (by
        rw [viridis_length]
        have := Int.mul_le_mul (show ((256 - 1 : ℕ) : Int) ≤ 255 by decide) hb hb0 (by decide)
        omega)
    exact ⟨cv, pix, p1, by rw [p2]; rfl, by rw [p3]; rfl⟩

/-- The first life ends after all of the newest value is stored and before the metadata is updated; the second one, in the same place of its only dump. -/
def exFirstLife : Option Proc := (Proc.init exProcT (freshFs (fun _ => false) (fun _ _ => false))).follow exProcT ((exRound 10 ++ exRound 20).take 50)

theorem exFirstLife_ops : ((exRound 10 ++ exRound 20).take 50).filterMap PChoice.label = exTwiceOps := rfl

/-- The second life. -/
def exSecondLife : Option (Proc × Proc) := exFirstLife.bind (fun s => ((Proc.init exProcT (s.sys.killed (exCut (.chunk 1 0)))).follow exProcT ((exRound 30).take 17)).map (fun t => (s, t)))

theorem exSecondLife_ops : ((exRound 30).take 17).filterMap PChoice.label = exRoundOps 30 := rfl

set_option maxRecDepth 100000 in
set_option synthInstance.maxSize 2000 in
set_option synthInstance.maxHeartbeats 200000 in
theorem exSecondLife_at : exSecondLife.map (fun x => (x.1.sys.cutsOkB (exCut (.chunk 1 0)), exKillProcView (.chunk 1 0) x.2, (x.2.sys.killed (exCut (.chunk 1 0)) [97]).dir.isEmpty)) = some (true, (true, [31], true, [31, 21, 11], none), false) := by decide +kernel

/-- Two lists that agree on the times of their entries stop at the same times. -/
theorem stops_each {vs : List Val} {shown : List Batch} (h : EachOf (fun v (b : Batch) => v.start = b.start ∧ v.stop = b.stop) vs shown) : shown.map (·.stop) = vs.map (·.stop) := by
  induction h with
  | nil => rfl
  | cons hr _ ih => rw [List.map_cons, List.map_cons, ih, hr.2]

/-- **C127 example** (again and again). The hypotheses of C127_again are met after two lives, each killed in the middle of a dump; three values are shown, the last one of the second life, and the graph is drawn. -/
theorem C127_again_example : ∃ fs : Bytes → Store, PLives exProcT 1 (freshFs (fun _ => false) (fun _ _ => false)) fs [exRoundOps 30, exTwiceOps] ∧ (fs [97]).dir ≠ [] ∧
    ((queryList ⟨256, 4, 0⟩ 100 (fun _ _ => .more) (fs [97]).reopen).1.1).map (·.stop) = [31, 21, 11] ∧
    ∃ cv pix, (servePng (theScene exOut (2 : ℕ) viridis) exProcT.pipe.cfg 50 200 130 60 1 (fs [97]).reopen).1 = .png cv pix ∧ cv.width = 132 ∧ cv.height = 62 := by
  have h := exSecondLife_at
  cases hs : exSecondLife with
  | none => rw [hs] at h; cases h
  | some x =>
    rw [hs] at h
    unfold exSecondLife at hs
    obtain ⟨s, hs1, hs2⟩ := Option.bind_eq_some_iff.mp hs
    obtain ⟨t, ht, hx⟩ := Option.map_eq_some_iff.mp hs2
    subst hx
    have h := Option.some.inj h
    injection h with e0 h
    injection h with hv e5
    unfold exKillProcView at hv
    injection hv with _ hv
    injection hv with _ hv
    injection hv with e3 hv
    injection hv with e4 _
    have hr := follow_proc _ .start hs1
    rw [List.nil_append, exFirstLife_ops] at hr
    have hr2 := follow_proc _ .start ht
    rw [List.nil_append, exSecondLife_ops] at hr2
    have hlife : ∀ ops, ProcOk exProcT 1 ops → LifeOk exProcT 1 ops := fun ops h => ⟨h.handles, h.clients, h.dist, h.geo, h.fits, h.fair, h.short⟩
    have hok2 : ProcOk exProcT 1 (exRoundOps 30) := exProcT_ok _ (exRound_fair 30) (by decide) (by decide)
    have hl : PLives exProcT 1 (freshFs (fun _ => false) (fun _ _ => false)) (t.sys.killed (exCut (.chunk 1 0))) [exRoundOps 30, exTwiceOps] :=
      .kill _ (.kill _ .nil (hlife _ exTwice_ok) hr (FsSys.cutsOkB_ok e0)) (hlife _ hok2) hr2 (FsSys.cutsOkB_ok e3)
    have hdir : (t.sys.killed (exCut (.chunk 1 0)) [97]).dir ≠ [] := fun e => by
      rw [e] at e5
      cases e5
    refine ⟨_, hl, hdir, e4, ?_⟩
    obtain ⟨vs, shown, s1, s2, s3, s4⟩ := C127_again exOut_ok (n := 2) (by norm_num) (by norm_num) (colors := viridis) (by rw [viridis_length]; norm_num) (by rw [viridis_length]; norm_num) exLibrary exTwice_ok.geo hl [97] hdir
    have hvs := s1 (t.sys.killed (exCut (.chunk 1 0)) [97]).reopen.hit ⟨256, 4, 0⟩ 100 (by decide) (by decide)
    have hvs : (queryList ⟨256, 4, 0⟩ 100 (fun _ _ => .more) (t.sys.killed (exCut (.chunk 1 0)) [97]).reopen).1 = (vs, none) := hvs
    rw [hvs] at e4
    have e4 : vs.map (·.stop) = [31, 21, 11] := e4
    have hstops : shown.map (·.stop) = [31, 21, 11] := by
      rw [stops_each s3]
      exact e4
    have hne : vs ≠ [] := by rintro rfl; cases e4
    have hkept : ∀ b, OfLives [exRoundOps 30, exTwiceOps] [97] b → 0 ≤ b.start.toInt ∧ b.start.toInt + 130 < 9223372036854775808 ∧ 0 ≤ b.stop.toInt := by
      rintro b ⟨ops, ho, hb⟩
      simp only [List.mem_cons, List.not_mem_nil, or_false] at ho
      rcases ho with rfl | rfl
      · have hk : ((exRoundOps 30).foldl PSpec.step {}).kept [97] = [⟨30, 31, [([97], ⟨0x4008000000000000#64, [1], 0⟩)]⟩] := rfl
        rw [hk] at hb
        cases List.mem_singleton.mp hb
        decide
      · rw [exTwice_kept] at hb
        simp only [List.mem_cons, List.not_mem_nil, or_false] at hb
        rcases hb with rfl | rfl <;> decide
    obtain ⟨newest, _, key⟩ := s4 hne (by rw [hstops]; decide) (t.sys.killed (exCut (.chunk 1 0)) [97]).reopen.hit exProcT.pipe.cfg 50 200 130 60 1 (by decide) (fun b hb => hkept b (s2 b hb)) (by decide) (by decide) (by decide) (by decide)
    obtain ⟨gm, k1, k2, _, k3⟩ := any_room exOut_ok exOut_short { obs := firstFour (obsOf [97] newest.obs) } 50 200 (width := 130) (height := 60) (padding := 1) (by decide) (by decide) (by decide)
    have hb : gm.height - 1 ≤ 25 := by omega
    have hb0 : 0 ≤ gm.height - 1 := by omega
    obtain ⟨cv, pix, p1, p2, p3, _⟩ := key gm k1 (by omega) (by omega) (by show (2 : Int) * (gm.height - 1) < _; omega) (by
        rw [viridis_length]
        have := Int.mul_le_mul (show ((256 - 1 : ℕ) : Int) ≤ 255 by decide) hb hb0 (by decide)
        omega)
    exact ⟨cv, pix, p1, by rw [p2]; rfl, by rw [p3]; rfl⟩

/-- **C127 example** (a clock that goes forward). These two lives have such a clock. -/
theorem C127_forward_example : ([exRoundOps 30, exTwiceOps].flatMap (fun ops => (dumpTimes ops).reverse)).Pairwise (fun a b => b < a) ∧ [exRoundOps 30, exTwiceOps].flatMap (fun ops => (dumpTimes ops).reverse) = [31, 21, 11] ∧
    ∃ fs, PLives exProcT 1 (freshFs (fun _ => false) (fun _ _ => false)) fs [exRoundOps 30, exTwiceOps] ∧ (fs [97]).dir ≠ [] := by
  obtain ⟨fs, h1, h2, _⟩ := C127_again_example
  have e : [exRoundOps 30, exTwiceOps].flatMap (fun ops => (dumpTimes ops).reverse) = [31, 21, 11] := rfl
  exact ⟨by rw [e]; decide, e, fs, h1, h2⟩

end Rothko
