import Verif.Props.KillRead
import Verif.Props.KillShownExample
import Verif.Props.ProcReadExample
/-!
# C128: texts and columns after a kill
-/
namespace Rothko

/-- **C128 example.** The hypotheses of C128 are met in the middle of a second dump; the next process answers with columns that show the first dump, and with a picture that tells how many observations there were each second. -/
theorem C128_example : ProcOk exProcT 1 exTwiceOps ∧ ∃ s, Proc.Reach exProcT (freshFs (fun _ => false) (fun _ _ => false)) exTwiceOps s ∧ s.dumping = true ∧ s.sys.CutsOk (exCut (.chunk 0 5)) ∧
    (∃ nb w cols, (serveRender ((theScene exText (2 : ℕ) viridis).params (pngOpts 300 300 230 60 1)) exProcT.pipe.cfg 300 300 (s.sys.killed (exCut (.chunk 0 5)) [97]).reopen).1 = .columns nb w cols) ∧
    ∃ cv pix, (servePng (theScene exText (2 : ℕ) viridis) exProcT.pipe.cfg 300 300 230 60 1 (s.sys.killed (exCut (.chunk 0 5)) [97]).reopen).1 = .png cv pix ∧
      ∃ (x y : Int) (t : Bytes) (v : ℚ), Seen pix cv.width.toNat x y 0 14 ("obs/sec: ".toUTF8.toList ++ t) ∧ Says t v := by
  refine ⟨exTwice_ok, ?_⟩
  have h := exKillTwice_at
  cases hs : exKillTwice with
  | none => rw [hs] at h; cases h
  | some s =>
    rw [hs] at h
    have h := Option.some.inj h
    unfold exKillProcView at h
    injection h with e1 h
    injection h with _ h
    injection h with e3 h
    have hr := follow_proc _ .start hs
    rw [List.nil_append, exKillTwice_ops] at hr
    have hcut := FsSys.cutsOkB_ok e3
    have hok : exText.Ok := withTexts_ok exInk false berlin rfl
    have hsh : exText.Short := withTexts_short exInk false berlin
    refine ⟨s, hr, e1, hcut, ?_⟩
    have facts : ∀ found : List Batch, (found = (exTwiceOps.foldl PSpec.step {}).kept [97] ∨ s.dumping = true ∧ ∃ b, (exTwiceOps.foldl PSpec.step {}).kept [97] = b :: found) →
        found ≠ [] ∧ ∀ shown : List Batch, shown <+: found → SaneTimes 230 shown ∧ SaneLengths shown := by
      intro found f1
      rw [exTwice_kept] at f1
      have hall : found.length ≤ 2 ∧ ∀ b ∈ found, b ∈ ([⟨11, 21, [([97], ⟨0x4008000000000000#64, [1], 0⟩)]⟩, ⟨10, 11, [([97], ⟨0x4008000000000000#64, [1], 0⟩)]⟩] : List Batch) := by
        rcases f1 with rfl | ⟨_, b, e⟩
        · exact ⟨by simp, fun _ h => h⟩
        · have := congrArg List.length e
          rw [List.length_cons (a := b)] at this
          exact ⟨by simp at this; omega, by rw [e]; exact fun _ h => List.mem_cons_of_mem _ h⟩
      refine ⟨?_, fun shown g1 => ⟨?_, ?_, ?_⟩⟩
      · rcases f1 with rfl | ⟨_, b, e⟩
        · simp
        · rintro rfl; cases e
      · intro b hb
        have := hall.2 b (g1.subset hb)
        simp only [List.mem_cons, List.not_mem_nil, or_false] at this
        rcases this with rfl | rfl <;> decide
      · have := g1.length_le
        omega
      · intro b hb
        have := hall.2 b (g1.subset hb)
        simp only [List.mem_cons, List.not_mem_nil, or_false] at this
        rcases this with rfl | rfl <;> decide
    obtain ⟨found, f1, f2⟩ := C127_picture hok (n := 2) (by norm_num) (by norm_num) (colors := viridis) (by rw [viridis_length]; norm_num) (by rw [viridis_length]; norm_num) exTextLibrary hr exTwice_ok _ hcut [97]
    obtain ⟨hne, hfacts⟩ := facts found f1
    obtain ⟨shown, g1, g2, _, g3⟩ := f2 hne
    obtain ⟨newest, _, key⟩ := g3 (s.sys.killed (exCut (.chunk 0 5)) [97]).reopen.hit exProcT.pipe.cfg 300 300 230 60 1 (by decide) (hfacts shown g1).1 (by decide) (by decide) (by decide) (by decide)
    obtain ⟨gm, k1, k2, _, k3⟩ := any_room hok hsh { obs := firstFour (obsOf [97] newest.obs) } 300 300 (width := 230) (height := 60) (padding := 1) (by decide) (by decide) (by decide)
    have hb : gm.height - 1 ≤ 25 := by omega
    have hb0 : 0 ≤ gm.height - 1 := by omega
    obtain ⟨cv, pix, p1, _⟩ := key gm k1 (by omega) (by omega) (by show (2 : Int) * (gm.height - 1) < _; omega) (by
        rw [viridis_length]
        have := Int.mul_le_mul (show ((256 - 1 : ℕ) : Int) ≤ 255 by decide) hb hb0 (by decide)
        omega)
    obtain ⟨found', f1', f2'⟩ := C128_read (e0 := exInk) (old := false) (zone := berlin) (e := exText) rfl rfl (n := 2) (by norm_num) (by norm_num) (colors := viridis) exTextLibrary hr exTwice_ok _ hcut [97]
    obtain ⟨hne', hfacts'⟩ := facts found' f1'
    obtain ⟨shown', g1', g2', _, g3'⟩ := f2' hne'
    obtain ⟨newest', gm', _, _, _, ⟨first, cols, _, _, c3⟩, t⟩ := g3' (s.sys.killed (exCut (.chunk 0 5)) [97]).reopen.hit exProcT.pipe.cfg 300 300 230 60 1 (by decide) (hfacts' shown' g1').1 (hfacts' shown' g1').2 (by decide) (by decide) (by decide)
      (by decide) (by decide) (by decide) (by decide)
    refine ⟨⟨_, _, _, c3⟩, cv, pix, p1, ?_⟩
    obtain ⟨p, tx, q, v, _, _, w1, w2, _⟩ := (t cv pix p1).rate
    exact ⟨_, _, tx, v, w1, w2⟩

end Rothko
