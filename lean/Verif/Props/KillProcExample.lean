import Verif.Props.KillLives
import Verif.Props.KillExample
import Verif.Props.ProcessExample
import Verif.Props.FeedExample
/-!
# C107 from what is sent, an example, and the places that are excluded
-/
namespace Rothko

/-- **C107** (what was sent). Connections were handled while dumps, writes and queries went on, and no old file is ever removed; the process is killed at any moment but the excluded ones. The finite values of the metric in the
well-formed lines sent are those of the records that the next process shows, those of at most one more interval, of which the dump was in progress, those of the interval in progress and those of lines not handled yet, each as often. -/
theorem C107_sent_partial {c : ProcCfg} {K : Nat} {parse : Bytes → Option F64} {de : Bytes → Bool} {hit : Bytes → Nat → Bool} {streams : List (List Bytes)} {sent : List (List (Bytes × F64))} {ops : List POp} {s : Fed}
    (h : Fed.Reach c parse (freshFs de hit) streams ops s) (hok : ProcOk c K ops) (hs : EachOf (Sends parse) streams sent) (hm : c.pipe.cfg.max ≤ 0) (m : Bytes) (hr : ∀ op ∈ ops, op ≠ .restart)
    (ht : ∀ order now taken, .dump order now taken ∈ ops → taken m = true) (pt : Bytes → KillPoint) (hc : s.proc.sys.CutsOk pt) :
    ∃ shown parts unsaved, EachOf (fun r p => ∃ start stop, RecordOf c.pipe.d start stop p r) shown parts ∧
      (sentValues m sent.flatten).Perm (parts.flatten.map (·.val) ++ unsaved ++ (obsOf m (ops.foldl PSpec.step {}).w.pend).map (·.val) ++ sentValues m s.conns.flatten) ∧
      (unsaved = [] ∨ s.proc.dumping = true ∧ ∃ b, ((ops.foldl PSpec.step {}).kept m).head? = some b ∧ unsaved = b.values m) ∧
      (shown ≠ [] → ShowsAll (s.proc.sys.killed pt m) (dumpTimes ops) (shown.map valOf)) := by
  obtain ⟨recs, found, ⟨r1, _⟩, r3, r4⟩ := C107_killed_partial (fed_proc h) hok pt hc m
  have hp := C105_conserved h hs m hr ht
  have hshow : found ≠ [] → ShowsAll (s.proc.sys.killed pt m) (dumpTimes ops) (found.map valOf) := by
    intro hne
    obtain ⟨shown, _, _, q3, q4⟩ := r4 hne
    rw [q3 hm] at q4
    exact q4
  rcases r3 with r3 | ⟨hd, r, r3⟩
  · subst r3
    refine ⟨found, _, [], eachOf_parts r1, ?_, Or.inl rfl, hshow⟩
    rw [values_flatten, List.append_nil]
    exact hp
  · subst r3
    generalize (ops.foldl PSpec.step {}).kept m = bs at r1 hp ⊢
    cases r1 with
    | cons a1 a2 =>
      rename_i b bs
      refine ⟨found, _, b.values m, eachOf_parts a2, hp.trans ?_, Or.inr ⟨hd, b, rfl, rfl⟩, hshow⟩
      rw [values_flatten, List.map_cons, List.flatten_cons]
      exact (List.perm_append_comm.append_right _).append_right _

/-- The example of C97 after so many steps. -/
def exKillProcAt (k : Nat) : Option Proc := (Proc.init exProc (freshFs (fun _ => false) (fun _ _ => false))).follow exProc (exChoices.take k)

/-- Whether a dump is in progress, the ends of the values that are being written, whether the place is one of those about which something is claimed, and what the next process shows of the first metric. -/
def exKillProcView (pt : KillPoint) (s : Proc) : Bool × List Int64 × Bool × List Int64 × Option MErr :=
  let q := (queryList ⟨256, 4, 0⟩ 100 (fun _ _ => .more) (s.sys.killed (exCut pt) [97]).reopen).1
  (s.dumping, (s.sys.inFlight [97]).map (·.stop), s.sys.cutsOkB (exCut pt), q.1.map (·.stop), q.2)


/-- A second life: one observation, one dump. -/
def exAgainChoices : List PChoice := [.op (.add [97] ⟨0x4010000000000000#64, [], 0⟩ 35), .op (.dump id 40 (fun _ => true)), .offer, .recv 0] ++ exTurns 7

/-- What happens in it. -/
def exAgainOps : List POp := [.add [97] ⟨0x4010000000000000#64, [], 0⟩ 35, .dump id 40 (fun _ => true)]

/-- It starts on the files that the first one left when it was killed after it had stored all of the newest value and before it had updated the metadata. -/
def exAgain : Option Proc := ((exKillProcAt 196).map (fun s => s.sys.killed (exCut (.chunk 1 0)))).bind (fun fs => (Proc.init exProc fs).follow exProc exAgainChoices)

/-- The example of C105 after so many steps. -/
def exKillFedAt (k : Nat) : Option Fed := (Fed.init exProc (freshFs (fun _ => false) (fun _ _ => false))).follow exProc (exFeed.take k)

set_option maxRecDepth 100000 in
set_option synthInstance.maxSize 2000 in
set_option synthInstance.maxHeartbeats 200000 in
theorem exKillProc_before : (exKillProcAt 196).map (exKillProcView (.chunk 0 5)) = some (true, [30], true, [20], none) := by decide +kernel

set_option maxRecDepth 100000 in
set_option synthInstance.maxSize 2000 in
set_option synthInstance.maxHeartbeats 200000 in
theorem exKillProc_after : (exKillProcAt 196).map (exKillProcView (.chunk 1 0)) = some (true, [30], true, [30, 20], none) := by decide +kernel

set_option maxRecDepth 100000 in
set_option synthInstance.maxSize 2000 in
set_option synthInstance.maxHeartbeats 200000 in
theorem exKillProc_metadata : (exKillProcAt 196).map (exKillProcView .metadata) = some (true, [30], false, [], some (.file (.parse .crc))) := by decide +kernel

set_option maxRecDepth 100000 in
set_option synthInstance.maxSize 2000 in
set_option synthInstance.maxHeartbeats 200000 in
theorem exKillProc_again : exAgain.map (exKillProcView (.chunk 1 0)) = some (true, [40], true, [40, 30, 20], none) := by decide +kernel

set_option maxRecDepth 100000 in
set_option synthInstance.maxSize 2000 in
set_option synthInstance.maxHeartbeats 200000 in
theorem exKillFed_at : (exKillFedAt 170).map (fun s => (s.conns, exKillProcView (.chunk 0 5) s.proc)) = some ([[], []], true, [30], true, [20], none) := by decide +kernel

set_option maxRecDepth 100000 in
theorem exKillProc_dir : (exKillProcAt 196).map (fun s => (s.sys.killed (exCut (.chunk 1 0)) [97]).dir.isEmpty) = some false := by decide +kernel

set_option maxRecDepth 100000 in
theorem exKillProc_reach {pt : KillPoint} {x : Bool × List Int64 × Bool × List Int64 × Option MErr} (h : (exKillProcAt 196).map (exKillProcView pt) = some x) :
    ∃ s, exKillProcAt 196 = some s ∧ Proc.Reach exProc (freshFs (fun _ => false) (fun _ _ => false)) (exProcOps.take 5) s ∧ exKillProcView pt s = x := by
  cases hs : exKillProcAt 196 with
  | none => rw [hs] at h; cases h
  | some s =>
    rw [hs] at h
    have hr := follow_proc _ .start hs
    rw [List.nil_append] at hr
    exact ⟨s, rfl, hr, Option.some.inj h⟩

theorem exKillProc_ok : ProcOk exProc 1 (exProcOps.take 5) := exProc_ok.left (more := [.restart])

/-- C97's conditions imply those of a life. -/
theorem ProcOk.life {c : ProcCfg} {K : Nat} {ops : List POp} (h : ProcOk c K ops) : LifeOk c K ops := ⟨h.handles, h.clients, h.dist, h.geo, h.fits, h.fair, h.short⟩

theorem exAgain_ok : LifeOk exProc 1 exAgainOps := by
  obtain ⟨f1, _, _, f4⟩ := C70_example_hyps
  refine ⟨by decide, by decide, rfl, f4, f1, ?_, by decide⟩
  intro op hop
  simp only [exAgainOps, List.mem_cons, List.not_mem_nil, or_false] at hop
  rcases hop with rfl | rfl
  · exact Nat.zero_le _
  · exact fun l => List.Perm.refl l

/-- The hypotheses of C107 are met in the middle of a second dump. Killed before the chunk of the newest value is complete, it shows the value of the first dump; killed afterwards, it shows both. In the second case the program is started and killed once more,
in the middle of a dump, and shows three. -/
theorem C107_example : ProcOk exProc 1 (exProcOps.take 5) ∧ (∃ s, Proc.Reach exProc (freshFs (fun _ => false) (fun _ _ => false)) (exProcOps.take 5) s ∧ s.dumping = true ∧ s.sys.CutsOk (exCut (.chunk 0 5)) ∧
      ((queryList ⟨256, 4, 0⟩ 100 (fun _ _ => .more) (s.sys.killed (exCut (.chunk 0 5)) [97]).reopen).1.1).map (·.stop) = [20]) ∧
    ∃ fs fs', PLives exProc 1 (freshFs (fun _ => false) (fun _ _ => false)) fs [exProcOps.take 5] ∧ PLives exProc 1 fs fs' [exAgainOps] ∧ (fs [97]).dir ≠ [] ∧
      ((queryList ⟨256, 4, 0⟩ 100 (fun _ _ => .more) (fs [97]).reopen).1.1).map (·.stop) = [30, 20] ∧ ((queryList ⟨256, 4, 0⟩ 100 (fun _ _ => .more) (fs' [97]).reopen).1.1).map (·.stop) = [40, 30, 20] := by
  refine ⟨exKillProc_ok, ?_, ?_⟩
  · obtain ⟨s, _, hr, e⟩ := exKillProc_reach exKillProc_before
    unfold exKillProcView at e
    injection e with e1 e
    injection e with e2 e
    injection e with e3 e
    injection e with e4 _
    exact ⟨s, hr, e1, FsSys.cutsOkB_ok e3, e4⟩
  · obtain ⟨s, hs, hr, e⟩ := exKillProc_reach exKillProc_after
    unfold exKillProcView at e
    injection e with e1 e
    injection e with e2 e
    injection e with e3 e
    injection e with e4 _
    have h2 := exKillProc_again
    unfold exAgain at h2
    rw [hs] at h2
    simp only [Option.map_some, Option.bind_some] at h2
    cases hs2 : (Proc.init exProc (s.sys.killed (exCut (.chunk 1 0)))).follow exProc exAgainChoices with
    | none => rw [hs2] at h2; cases h2
    | some s2 =>
      rw [hs2] at h2
      have h2 := Option.some.inj h2
      unfold exKillProcView at h2
      injection h2 with d1 h2
      injection h2 with d2 h2
      injection h2 with d3 h2
      injection h2 with d4 _
      have hr2 := follow_proc _ .start hs2
      rw [List.nil_append] at hr2
      refine ⟨s.sys.killed (exCut (.chunk 1 0)), s2.sys.killed (exCut (.chunk 1 0)), .kill _ .nil exKillProc_ok.life hr (FsSys.cutsOkB_ok e3), .kill _ .nil exAgain_ok hr2 (FsSys.cutsOkB_ok d3), ?_, e4, d4⟩
      have hd := exKillProc_dir
      rw [hs] at hd
      intro hx
      have hd : (s.sys.killed (exCut (.chunk 1 0)) [97]).dir.isEmpty = false := Option.some.inj hd
      rw [hx] at hd
      cases hd

set_option maxRecDepth 100000 in
/-- Two connections sent 1, 2 and 2 for the metric `a`; the program is killed in the middle of the second dump. The next process shows the interval of the first two; the other one was in the interval of that dump. -/
theorem C107_sent_example : ∃ s, Fed.Reach exProc exParse (freshFs (fun _ => false) (fun _ _ => false)) [exStream1, exStream2] exFeedOps s ∧ ProcOk exProc 1 exFeedOps ∧ EachOf (Sends exParse) [exStream1, exStream2] [exSent1, exSent2] ∧ exProc.pipe.cfg.max ≤ 0 ∧
    (∀ op ∈ exFeedOps, op ≠ .restart) ∧ (∀ order now taken, .dump order now taken ∈ exFeedOps → taken [97] = true) ∧ s.proc.sys.CutsOk (exCut (.chunk 0 5)) ∧ s.conns.flatten = [] ∧
    ((queryList ⟨256, 4, 0⟩ 100 (fun _ _ => .more) (s.proc.sys.killed (exCut (.chunk 0 5)) [97]).reopen).1.1).map (·.stop) = [20] := by
  have h := exKillFed_at
  cases e : exKillFedAt 170 with
  | none => rw [e] at h; cases h
  | some s =>
    rw [e] at h
    have h := Option.some.inj h
    injection h with h1 h
    unfold exKillProcView at h
    injection h with e1 h
    injection h with e2 h
    injection h with e3 h
    injection h with e4 _
    have hr := fed_follow (exFeed.take 170) .start (fun x hx => exFeed_fair x (List.mem_of_mem_take hx)) e
    refine ⟨s, hr, exFeed_ok, .cons exSends1 (.cons exSends2 .nil), by decide, ?_, ?_, FsSys.cutsOkB_ok e3, by rw [h1]; rfl, e4⟩
    · intro op hop
      simp only [exFeedOps, List.mem_cons, List.not_mem_nil, or_false] at hop
      rcases hop with rfl | rfl | rfl | rfl | rfl | rfl <;> exact fun h => by cases h
    · intro order now taken hop
      simp only [exFeedOps, List.mem_cons, List.not_mem_nil, or_false] at hop
      rcases hop with hop | hop | hop | hop | hop | hop <;> cases hop <;> rfl

/-- **C107 is false as stated.** The program is killed in the middle of its second dump, between the payload and the header of the metadata: the metric has a record of the first interval, that was dumped and acknowledged, and every query for it fails. -/
theorem C107_full_refuted : ∃ (s : Proc) (pt : Bytes → KillPoint) (e : MErr) (recs : List DRec), Proc.Reach exProc (freshFs (fun _ => false) (fun _ _ => false)) (exProcOps.take 5) s ∧ ProcOk exProc 1 (exProcOps.take 5) ∧
    RecordsOf exProc (exProcOps.take 5) [97] recs ∧ recs.length = 2 ∧ (queryList ⟨256, 4, 0⟩ 100 (fun _ _ => .more) (s.sys.killed pt [97]).reopen).1.2 = some e := by
  obtain ⟨s, _, hr, e⟩ := exKillProc_reach exKillProc_metadata
  unfold exKillProcView at e
  injection e with e1 e
  injection e with e2 e
  injection e with e3 e
  injection e with e4 e5
  obtain ⟨_, _, hr', e'⟩ := exKillProc_reach exKillProc_before
  unfold exKillProcView at e'
  injection e' with _ e'
  injection e' with _ e'
  injection e' with d3 _
  obtain ⟨recs, _, q1, _⟩ := C107_killed_partial hr' exKillProc_ok (exCut (.chunk 0 5)) (FsSys.cutsOkB_ok d3) [97]
  refine ⟨s, exCut .metadata, _, recs, hr, exKillProc_ok, q1, ?_, e5⟩
  have hlen : ∀ {l : List DRec} {k : List Batch} {R : DRec → Batch → Prop}, EachOf R l k → l.length = k.length := by
    intro l k R h
    induction h with
    | nil => rfl
    | cons _ _ ih => simp [ih]
  rw [hlen q1.1]
  decide +kernel

end Rothko
