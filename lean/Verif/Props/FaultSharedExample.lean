import Verif.Props.FaultSharedMore
import Verif.Props.SharedExample
/-!
# C112: an example
-/
namespace Rothko

/-- The next step of goroutine `i`, if there is one. -/
def FsSys.nextF (path : Bytes → Int → Bytes) (s : FsSys FltCall DbRes) (may : Bytes → FileFault → Bool) (i : Nat) (flt : Option FileFault) : Option (FsSys FltCall DbRes) :=
  match s.pool.pcs[i]?, s.cl[i]? with
  | some .idle, some ⟨(m, _) :: _, .out⟩ => some { s with pool := (s.pool.lockFirst m).2.setPc i (.waiting m (s.pool.lockFirst m).1) }
  | some (.waiting m' a), some ⟨(m, o) :: rest, .out⟩ =>
    if m' = m ∧ (s.pool.heap a).held = false then some { s with pool := (s.pool.setHeap a { s.pool.heap a with held := true }).setPc i (.holding m a), cl := s.cl.set i ⟨(m, o) :: rest, .begin⟩ }
    else none
  | some (.holding _ _), some ⟨(m, o) :: rest, .begin⟩ =>
    some { s with g := s.g.setFs m (openDirF (dbCallsF.dir o) (dbCallsF.ro o) (s.g.fs m)).2, cl := s.cl.set i ⟨(m, o) :: rest, .busy (dbCallsF.body o (openDirF (dbCallsF.dir o) (dbCallsF.ro o) (s.g.fs m)).1)⟩ }
  | some (.holding m' _), some ⟨(m, o) :: rest, .busy (.done r)⟩ =>
    match s.pool.unlockFirst m with
    | none => none
    | some (a', p) => if m' = m then some { s with pool := p.setPc i (.unlocking a'), cl := s.cl.set i ⟨rest, .out⟩, log := s.log ++ [(i, m, o, r)] } else none
  | some (.holding _ _), some ⟨(m, o) :: rest, .busy p⟩ =>
    match p.execF flt path m s.g with
    | none => none
    | some (p', g) => if flt.all (may m) then some { s with g, cl := s.cl.set i ⟨(m, o) :: rest, .busy p'⟩ } else none
  | some (.unlocking a), _ => if (s.pool.heap a).held = true then some { s with pool := (s.pool.setHeap a { s.pool.heap a with held := false }).setPc i .idle } else none
  | _, _ => none

theorem nextF_step {path : Bytes → Int → Bytes} {s s' : FsSys FltCall DbRes} {i : Nat} {flt : Option FileFault} {may : Bytes → FileFault → Bool} (h : s.nextF path may i flt = some s') : s.StepF dbCallsF (fun m f => may m f = true) path s' := by
  unfold FsSys.nextF at h
  split at h
  · rename_i h1 h2; cases h; exact .call i _ _ _ h1 h2
  · rename_i h1 h2
    split at h
    · rename_i hc; cases h; obtain ⟨rfl, hc⟩ := hc; exact .enter i _ _ _ _ h1 hc h2
    · cases h
  · rename_i h1 h2; cases h; exact .first i _ _ _ h2
  · rename_i h1 h2
    split at h
    · cases h
    · rename_i h3
      split at h
      · rename_i e; cases h; subst e; exact .finish i _ _ _ _ _ _ _ h2 h1 h3
      · cases h
  · rename_i h1 h2
    split at h
    · cases h
    · rename_i h3
      split at h
      · rename_i hm; cases h; exact .work i _ _ _ flt _ _ _ h2 (fun f hf => by rw [hf] at hm; exact hm) h3
      · cases h
  · rename_i h1
    split at h
    · rename_i hc; cases h; exact .done i _ h1 hc
    · cases h
  · cases h

/-- The steps of a schedule. -/
def FsSys.followF (path : Bytes → Int → Bytes) (may : Bytes → FileFault → Bool) : List (Nat × Option FileFault) → FsSys FltCall DbRes → Option (FsSys FltCall DbRes)
  | [], s => some s
  | i :: is, s => match s.nextF path may i.1 i.2 with | none => none | some s' => s'.followF path may is

theorem followF_reach {n : Nat} {path : Bytes → Int → Bytes} {progs : List (List (Bytes × FltCall))} {fs : Bytes → Store} {may : Bytes → FileFault → Bool} (is : List (Nat × Option FileFault)) : ∀ {s s' : FsSys FltCall DbRes}, FsSys.ReachF dbCallsF (fun m f => may m f = true) path n progs fs s →
    s.followF path may is = some s' → FsSys.ReachF dbCallsF (fun m f => may m f = true) path n progs fs s' := by
  induction is with
  | nil => intro s s' h e; cases e; exact h
  | cons i is ih =>
    intro s s' h e
    unfold FsSys.followF at e
    split at e
    · cases e
    · rename_i h1; exact ih (.step h (nextF_step h1)) e

/-- Two goroutines and two metrics. The first fails to write a value, because its file cannot be created, writes it again, fails to read it, because the directory cannot be opened, and reads it again, while nothing fails for the second. -/
def exFltCalls : List (List (Bytes × FltCall)) :=
  [[([97], ⟨.write ⟨256, 4, 2⟩ ⟨1, 2, [7]⟩, none, false⟩), ([97], ⟨.write ⟨256, 4, 2⟩ ⟨1, 2, [7]⟩, none, true⟩), ([97], ⟨.latest ⟨256, 4, 2⟩, some .before, false⟩), ([97], ⟨.latest ⟨256, 4, 2⟩, none, false⟩)],
   [([98], ⟨.write ⟨256, 4, 2⟩ ⟨1, 2, [8]⟩, none, false⟩), ([98], ⟨.latest ⟨256, 4, 2⟩, none, false⟩)]]

/-- Opening a file of the first metric may fail without a trace. -/
def exFltMay (m : Bytes) (f : FileFault) : Bool := m == [97] && f == .clean

/-- They take turns at every step; the first time that a file is wanted for the first metric, the system fails. -/
def exFltSched (k : Nat) : List (Nat × Option FileFault) :=
  ([(0, none), (1, none), (0, none), (1, none), (0, none), (1, none), (0, some .clean), (1, none)] ++ (List.replicate 17 [(0, none), (1, none)]).flatten ++ List.replicate k (0, none))

/-- The process. -/
def exFltRun (k : Nat) : Option (FsSys FltCall DbRes) := (FsSys.init 1 exFltCalls (fun _ => Store.fresh false (fun _ => false))).followF (dbPath [47, 100]) exFltMay (exFltSched k)

set_option maxRecDepth 100000 in
theorem exFlt_result : (exFltRun 11).map (fun s => (s.log.map (fun e => (e.1, e.2.1, e.2.2.2)), s.g.mappings, s.g.w.closed.length, s.active)) =
    some ([(0, [97], .write (.failed .os)), (1, [98], .write .written), (0, [97], .write .written), (1, [98], .latest (some ⟨1, 2, [8]⟩) none), (0, [97], .latest none (some .os)), (0, [97], .latest (some ⟨1, 2, [7]⟩) none)], 1, 4, 0) := by
  decide +kernel

/-- Nobody is at work on a metric if nobody is at work. -/
theorem quiet_of_active {s : FsSys FltCall DbRes} (h : s.active = 0) (k : Bytes) : s.quiet k := by
  intro i o rest p hc
  have : isBusy (⟨(k, o) :: rest, .busy p⟩ : Client FltCall (FsProg DbRes)) = true := rfl
  have hm := List.mem_of_getElem? hc
  rw [active_count, List.countP_eq_zero] at h
  exact h _ hm this

theorem exFlt_ok : ∀ p ∈ exFltCalls, ∀ c ∈ p, c.2.call.Ok ∧ ∀ m, c.2.call.toOp.limit = some m → m = 2 := by
  have g : GeoOk 256 4 := by unfold GeoOk; omega
  have w : ∀ v : Val, v.data.length = 1 → (DbCall.write ⟨256, 4, 2⟩ v).Ok ∧ ∀ m, (DbCall.write ⟨256, 4, 2⟩ v).toOp.limit = some m → m = 2 :=
    fun v hv => ⟨⟨g, by show needs 256 v.data.length ≤ 4; rw [hv]; decide⟩, fun m hm => (Option.some.inj hm).symm⟩
  have l : (DbCall.latest ⟨256, 4, 2⟩).Ok ∧ ∀ m, (DbCall.latest ⟨256, 4, 2⟩).toOp.limit = some m → m = 2 := ⟨g, fun m hm => by cases hm⟩
  intro p hp c hc
  rcases List.mem_cons.mp hp with rfl | hp
  · rcases List.mem_cons.mp hc with rfl | hc
    · exact w _ rfl
    rcases List.mem_cons.mp hc with rfl | hc
    · exact w _ rfl
    rcases List.mem_cons.mp hc with rfl | hc
    · exact l
    · rw [List.mem_singleton.mp hc]; exact l
  · rw [List.mem_singleton.mp hp] at hc
    rcases List.mem_cons.mp hc with rfl | hc
    · exact w _ rfl
    · rw [List.mem_singleton.mp hc]; exact l

/-- The hypotheses of C112 are met by a process in which creating a file and opening a directory fail for one of two metrics: the first write of that metric and the first read after the second fail, the others succeed; for the other metric
nothing may fail; for neither can a file be left half made. -/
theorem C112_example : ∃ s, FsSys.ReachF dbCallsF (fun m f => exFltMay m f = true) (dbPath [47, 100]) 1 exFltCalls (fun _ => Store.fresh false (fun _ => false)) s ∧ s.active = 0 ∧ (∀ k, s.quiet k) ∧
    s.log.map (fun e => (e.1, e.2.1, e.2.2.2)) =
      [(0, [97], .write (.failed .os)), (1, [98], .write .written), (0, [97], .write .written), (1, [98], .latest (some ⟨1, 2, [8]⟩) none), (0, [97], .latest none (some .os)), (0, [97], .latest (some ⟨1, 2, [7]⟩) none)] ∧
    (∀ f, ¬ exFltMay [98] f = true) ∧ (∀ p ∈ exFltCalls, ∀ c ∈ p, c.1 = [98] → c.2.Fine) ∧ exFltMay [97] .clean = true ∧ (∀ b, ¬ exFltMay [97] (.partly b) = true) ∧
    (∀ p ∈ exFltCalls, ∀ c ∈ p, c.2.call.Ok ∧ ∀ m, c.2.call.toOp.limit = some m → m = 2) := by
  have r := exFlt_result
  cases hs : exFltRun 11 with
  | none => rw [hs] at r; cases r
  | some s =>
    rw [hs] at r
    injection r with r
    injection r with r1 r
    injection r with r2 r
    injection r with r3 r4
    refine ⟨s, followF_reach _ .init hs, r4, quiet_of_active r4, r1, (fun f h => by cases h), ?_, (by decide), (fun b h => by cases h), exFlt_ok⟩
    intro p hp c hc hk
    rcases List.mem_cons.mp hp with rfl | hp
    · exfalso
      have : ∀ c ∈ exFltCalls.head!, c.1 = [97] := by
        intro c hc
        rcases List.mem_cons.mp hc with rfl | hc
        · rfl
        rcases List.mem_cons.mp hc with rfl | hc
        · rfl
        rcases List.mem_cons.mp hc with rfl | hc
        · rfl
        · rw [List.mem_singleton.mp hc]
      rw [this c hc] at hk
      exact absurd hk (by decide)
    · rw [List.mem_singleton.mp hp] at hc
      rcases List.mem_cons.mp hc with rfl | hc
      · exact ⟨rfl, rfl⟩
      · rw [List.mem_singleton.mp hc]; exact ⟨rfl, rfl⟩

end Rothko
