import Verif.Props.KillMore
import Verif.Props.SharedExample
/-!
# C106: an example, and the places that are excluded
-/
namespace Rothko

/-- A sufficient check: the torn slot does not read as a record at all. -/
def FsProg.cutOkB (p : FsProg DbRes) (pt : KillPoint) (s : Store) : Bool :=
  match pt, p with
  | .chunk a b, .store h head v _ _ => b == 0 || !(((s.tornAt h head v a b).file h.geo).record (head + a)).isOk
  | .metadata, .store _ _ _ _ _ => false
  | .create _, .acquire _ _ false _ => false
  | _, _ => true

theorem FsProg.cutOkB_ok {p : FsProg DbRes} {pt : KillPoint} {s : Store} (h : p.cutOkB pt s = true) : p.CutOk pt s := by
  unfold FsProg.cutOkB at h
  unfold FsProg.CutOk
  split at h
  · rcases Bool.or_eq_true_iff.mp h with h | h
    · exact Or.inl (by simpa using h)
    · right
      intro r r' _ h2
      rw [h2] at h
      cases h
  · cases h
  · cases h
  · rename_i h1 h2 h3
    split
    · exact absurd rfl (h1 _ _ _ _ _ _ _ rfl)
    · exact absurd rfl (h2 _ _ _ _ _ rfl)
    · exact absurd rfl (h3 _ _ _ _ rfl)
    · trivial

/-- The same for all goroutines. -/
def FsSys.cutsOkB (s : FsSys DbCall DbRes) (pt : Bytes → KillPoint) : Bool :=
  s.cl.all (fun c => match c with
    | ⟨(m, _) :: _, .busy p⟩ => p.cutOkB (pt m) (s.g.fs m)
    | _ => true)

theorem FsSys.cutsOkB_ok {s : FsSys DbCall DbRes} {pt : Bytes → KillPoint} (h : s.cutsOkB pt = true) : s.CutsOk pt := by
  intro m o p hw
  obtain ⟨i, rest, hc⟩ := atWork_some hw
  exact FsProg.cutOkB_ok (List.all_eq_true.mp h _ (List.mem_of_getElem? hc))

/-- One goroutine writes a short value and then two values of two chunks, another one a short value of another metric. -/
def exKillCalls : List (List (Bytes × DbCall)) :=
  [[([97], .write ⟨256, 4, 0⟩ ⟨1, 2, [7]⟩), ([97], .write ⟨256, 4, 0⟩ ⟨2, 3, List.replicate 300 9⟩), ([97], .write ⟨256, 4, 0⟩ ⟨3, 4, List.replicate 300 9⟩)], [([98], .write ⟨256, 4, 0⟩ ⟨1, 2, [8]⟩)]]

/-- No files yet. -/
def exKillFs : Bytes → Store := freshFs (fun _ => false) (fun _ _ => false)

/-- So many steps of the first and of the second goroutine. -/
def exKillAt (a b : Nat) : Option (FsSys DbCall DbRes) :=
  (FsSys.init 1 exKillCalls exKillFs).follow (dbPath [47, 100]) (List.replicate a 0 ++ List.replicate b 1)

/-- The same place in both calls. -/
def exCut (pt : KillPoint) : Bytes → KillPoint := fun _ => pt

/-- What the next process shows of the two metrics. -/
def exAfter (s : FsSys DbCall DbRes) (pt : KillPoint) : List (List Val × Option MErr) :=
  [[97], [98]].map (fun m => (queryList ⟨256, 4, 0⟩ 100 (fun _ _ => .more) (s.killed (exCut pt) m).reopen).1)

/-- What was acknowledged of the first metric; the values of the writes at work; whether the place is one of those about which something is claimed; what the next process shows. -/
def exKillView (pt : KillPoint) (s : FsSys DbCall DbRes) : List Val × List Val × List Val × Bool × List (List Val × Option MErr) :=
  (ackd (s.finished [97]), s.inFlight [97], s.inFlight [98], s.cutsOkB (exCut pt), exAfter s pt)

set_option maxRecDepth 100000 in
set_option synthInstance.maxSize 2000 in
set_option synthInstance.maxHeartbeats 200000 in
theorem exKill_torn : (exKillAt 20 9).map (exKillView (.chunk 1 5)) =
    some ([⟨1, 2, [7]⟩], [⟨2, 3, List.replicate 300 9⟩], [⟨1, 2, [8]⟩], true, [([⟨1, 2, [7]⟩], none), ([⟨1, 2, [8]⟩], none)]) := by decide +kernel

set_option maxRecDepth 100000 in
set_option synthInstance.maxSize 2000 in
set_option synthInstance.maxHeartbeats 200000 in
theorem exKill_whole : (exKillAt 20 9).map (exKillView (.chunk 2 0)) =
    some ([⟨1, 2, [7]⟩], [⟨2, 3, List.replicate 300 9⟩], [⟨1, 2, [8]⟩], true, [([⟨2, 3, List.replicate 300 9⟩, ⟨1, 2, [7]⟩], none), ([⟨1, 2, [8]⟩], none)]) := by decide +kernel

set_option maxRecDepth 100000 in
set_option synthInstance.maxSize 2000 in
set_option synthInstance.maxHeartbeats 200000 in
theorem exKill_metadata : (exKillAt 20 0).map (exKillView .metadata) =
    some ([⟨1, 2, [7]⟩], [⟨2, 3, List.replicate 300 9⟩], [], false, [([], some (.file (.parse .crc))), ([], some .noDir)]) := by decide +kernel

set_option maxRecDepth 100000 in
set_option synthInstance.maxSize 2000 in
set_option synthInstance.maxHeartbeats 200000 in
theorem exKill_create : (exKillAt 30 0).map (exKillView (.create false)) =
    some ([⟨1, 2, [7]⟩, ⟨2, 3, List.replicate 300 9⟩], [⟨3, 4, List.replicate 300 9⟩], [], false, [([], some (.file .tooSmall)), ([], some .noDir)]) := by decide +kernel

theorem exKillAt_reach {a b : Nat} {pt : KillPoint} {x : List Val × List Val × List Val × Bool × List (List Val × Option MErr)} (h : (exKillAt a b).map (exKillView pt) = some x) :
    ∃ s, FsSys.Reach dbCalls (dbPath [47, 100]) 1 exKillCalls exKillFs s ∧ exKillView pt s = x := by
  cases hs : exKillAt a b with
  | none => rw [hs] at h; cases h
  | some s =>
    rw [hs] at h
    exact ⟨s, follow_reach _ .init hs, Option.some.inj h⟩

theorem exKillCalls_unlimited : ∀ p ∈ exKillCalls, ∀ c ∈ p, c.2.Ok ∧ c.2.Unlimited := by
  have g : GeoOk 256 4 := by unfold GeoOk; omega
  have key : ∀ v : Val, needs 256 v.data.length ≤ 4 → (DbCall.write ⟨256, 4, 0⟩ v).Ok ∧ (DbCall.write ⟨256, 4, 0⟩ v).Unlimited := fun v hv => ⟨⟨g, hv⟩, g, fun l hl => by cases hl; exact Int.le_refl 0⟩
  intro p hp c hc
  rcases List.mem_cons.mp hp with rfl | hp
  · rcases List.mem_cons.mp hc with rfl | hc
    · exact key _ (by decide +kernel)
    · rcases List.mem_cons.mp hc with rfl | hc
      · exact key _ (by decide +kernel)
      · rw [List.mem_singleton.mp hc]; exact key _ (by decide +kernel)
  · rw [List.mem_singleton.mp hp] at hc
    rw [List.mem_singleton.mp hc]; exact key _ (by decide +kernel)

/-- The hypotheses of C106 are met: a process is killed while one goroutine has stored the first and a part of the second chunk of a value, and another one is at work on another metric. The next process finds the acknowledged value
and, of the other metric, the whole value of the write that was at work; it is killed in its turn. (One chunk later the first metric shows both values.) -/
theorem C106_example : ∃ s fs2, FsSys.Reach dbCalls (dbPath [47, 100]) 1 exKillCalls exKillFs s ∧ s.CutsOk (exCut (.chunk 1 5)) ∧ AfterUnlimited (exKillFs [97]) [] ∧ (ackd (s.finished [97])).reverse ++ [] ≠ [] ∧
    (∀ p ∈ exKillCalls, ∀ c ∈ p, c.2.Ok ∧ c.2.Unlimited) ∧ exAfter s (.chunk 1 5) = [([⟨1, 2, [7]⟩], none), ([⟨1, 2, [8]⟩], none)] ∧ (s.killed (exCut (.chunk 1 5)) [97]).dir ≠ [] ∧
    Lives [47, 100] DbCall.Unlimited exKillFs (s.killed (exCut (.chunk 1 5))) (fun m => progGiven m exKillCalls) ∧ Lives [47, 100] DbCall.Unlimited (s.killed (exCut (.chunk 1 5))) fs2 (fun m => progGiven m exKillCalls) := by
  obtain ⟨s, hr, e⟩ := exKillAt_reach exKill_torn
  unfold exKillView at e
  injection e with e1 e
  injection e with e2 e
  injection e with e3 e
  injection e with e4 e5
  have hcut : s.CutsOk (exCut (.chunk 1 5)) := FsSys.cutsOkB_ok e4
  have hq : ∀ p ∈ exKillCalls, ∀ c ∈ p, DbCall.Unlimited c.2 := fun p hp c hc => (exKillCalls_unlimited p hp c hc).2
  have hac : (ackd (s.finished [97])).reverse ++ [] ≠ [] := by rw [e1]; exact List.cons_ne_nil _ _
  have haf : AfterUnlimited (exKillFs [97]) [] := ⟨_, ⟨rfl, rfl, rfl, rfl⟩, false, fun _ => false, [], fun o ho => (by cases ho), rfl⟩
  have hd : (s.killed (exCut (.chunk 1 5)) [97]).dir ≠ [] := by
    intro hx
    have h5 := congrArg (fun l => l.head?.map Prod.fst) e5
    have h5 : some (queryList ⟨256, 4, 0⟩ 100 (fun _ _ => Cb.more) (s.killed (exCut (.chunk 1 5)) [97]).reopen).1.1 = some [⟨1, 2, [7]⟩] := h5
    have h6 := Option.some.inj h5
    rcases Bool.eq_false_or_eq_true (s.killed (exCut (.chunk 1 5)) [97]).reopen.dirExists with hb | hb
    · obtain ⟨s', H, e, inv⟩ := fresh_newMetric (s.killed (exCut (.chunk 1 5)) [97]).reopen hx (fun _ => rfl) ⟨256, 4, 0⟩ (by unfold GeoOk; dsimp only; omega) true (Or.inr hb)
      have e7 : queryList ⟨256, 4, 0⟩ 100 (fun _ _ => Cb.more) (s.killed (exCut (.chunk 1 5)) [97]).reopen = queryList ⟨256, 4, 0⟩ 100 (fun _ _ => Cb.more) s' := by
        unfold queryList dbQuery
        rw [e, inv.core.dirInv.newMetric]
      rw [e7] at h6
      unfold queryList at h6
      rw [inv.query] at h6
      cases h6
    · unfold queryList dbQuery newMetric at h6
      rw [hb] at h6
      cases h6
  have l1 : Lives [47, 100] DbCall.Unlimited exKillFs (s.killed (exCut (.chunk 1 5))) (fun m => progGiven m exKillCalls) := by
    have := Lives.kill (Q := DbCall.Unlimited) (d := [47, 100]) (exCut (.chunk 1 5)) (.nil (fs := exKillFs)) (by decide) hq hr hcut
    simpa using this
  have l2 : ∃ fs2, Lives [47, 100] DbCall.Unlimited (s.killed (exCut (.chunk 1 5))) fs2 (fun m => progGiven m exKillCalls) := by
    have := Lives.kill (Q := DbCall.Unlimited) (d := [47, 100]) (n := 1) (exCut .between) (.nil (fs := s.killed (exCut (.chunk 1 5)))) (by decide) hq .init (fun m o p _ => by
      unfold FsProg.CutOk exCut
      trivial)
    exact ⟨_, by simpa using this⟩
  obtain ⟨fs2, l2⟩ := l2
  exact ⟨s, fs2, hr, hcut, haf, hac, exKillCalls_unlimited, e5, hd, l1, l2⟩

/-- **C106 is false as stated.** If the process is killed between the payload and the header of the metadata (first), or while the next data file is made (second), the values acknowledged before are not shown: the query fails. -/
theorem C106_full_refuted : ∃ (s s' : FsSys DbCall DbRes) (pt pt' : Bytes → KillPoint) (e e' : MErr), FsSys.Reach dbCalls (dbPath [47, 100]) 1 exKillCalls exKillFs s ∧ FsSys.Reach dbCalls (dbPath [47, 100]) 1 exKillCalls exKillFs s' ∧
    ackd (s.finished [97]) ≠ [] ∧ (queryList ⟨256, 4, 0⟩ 100 (fun _ _ => .more) (s.killed pt [97]).reopen).1 = ([], some e) ∧
    ackd (s'.finished [97]) ≠ [] ∧ (queryList ⟨256, 4, 0⟩ 100 (fun _ _ => .more) (s'.killed pt' [97]).reopen).1 = ([], some e') := by
  obtain ⟨s, hr, e⟩ := exKillAt_reach exKill_metadata
  obtain ⟨s', hr', e'⟩ := exKillAt_reach exKill_create
  unfold exKillView at e e'
  injection e with a1 e
  injection e with _ e
  injection e with _ e
  injection e with _ a5
  injection e' with b1 e'
  injection e' with _ e'
  injection e' with _ e'
  injection e' with _ b5
  injection a5 with a6 _
  injection b5 with b6 _
  exact ⟨s, s', exCut .metadata, exCut (.create false), _, _, hr, hr', by rw [a1]; exact List.cons_ne_nil _ _, a6, by rw [b1]; exact List.cons_ne_nil _ _, b6⟩

end Rothko
