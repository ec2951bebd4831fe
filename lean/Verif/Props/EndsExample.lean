import Verif.Props.Ends
import Verif.Props.FaultSharedExample
/-!
# C113: an example
-/
namespace Rothko

/-- When all calls have returned, nobody goes on. -/
theorem nobody_goes {path : Bytes → Int → Bytes} {may : Bytes → FileFault → Prop} {s : FsSys FltCall DbRes} (hp : ∀ pc ∈ s.pool.pcs, pc = .idle) (hc : ∀ c ∈ s.cl, c = ⟨[], .out⟩) : ¬ ∃ s', s.Goes dbCallsF may path s' := by
  rintro ⟨s', hs, hne⟩
  cases hs with
  | mkdir m => exact hne ⟨rfl, rfl⟩
  | close r w hw => exact hne ⟨rfl, rfl⟩
  | call i m o rest h1 h2 => have := hc _ (List.mem_of_getElem? h2); injection this with e _; cases e
  | enter i m o rest a h1 h2 h3 => have := hp _ (List.mem_of_getElem? h1); cases this
  | first i m o rest h1 => have := hc _ (List.mem_of_getElem? h1); injection this with e _; cases e
  | work i m o rest flt p p' g h1 hmay h2 => have := hc _ (List.mem_of_getElem? h1); injection this with e _; cases e
  | finish i m o rest r a a' q h1 h2 h3 => have := hc _ (List.mem_of_getElem? h1); injection this with e _; cases e
  | done i a h1 h2 => have := hp _ (List.mem_of_getElem? h1); cases this

/-- A schedule as a run without end. -/
theorem followF_run {path : Bytes → Int → Bytes} {may : Bytes → FileFault → Bool} (is : List (Nat × Option FileFault)) : ∀ {s s' : FsSys FltCall DbRes}, s.followF path may is = some s' →
    ∃ σ : Nat → FsSys FltCall DbRes, σ 0 = s ∧ FsSys.Run dbCallsF (fun m f => may m f = true) path σ ∧ ∀ t, is.length ≤ t → σ t = s' := by
  induction is with
  | nil => intro s s' h; cases h; exact ⟨fun _ => s, rfl, fun t => Or.inr rfl, fun t _ => rfl⟩
  | cons i is ih =>
    intro s s' h
    unfold FsSys.followF at h
    split at h
    · cases h
    · rename_i s1 h1
      obtain ⟨σ, e0, hr, hl⟩ := ih h
      refine ⟨fun t => match t with | 0 => s | t + 1 => σ t, rfl, fun t => ?_, fun t ht => ?_⟩
      · cases t with
        | zero => left; show s.StepF _ _ _ (σ 0); rw [e0]; exact nextF_step h1
        | succ t => exact hr t
      · cases t with
        | zero => simp at ht
        | succ t => exact hl t (by simpa using ht)

/-- A run that ends with all calls returned has met the condition on the scheduler. -/
theorem fair_of_end {path : Bytes → Int → Bytes} {may : Bytes → FileFault → Prop} {σ : Nat → FsSys FltCall DbRes} (hr : FsSys.Run dbCallsF may path σ) {N : Nat}
    (hp : ∀ pc ∈ (σ N).pool.pcs, pc = .idle) (hc : ∀ c ∈ (σ N).cl, c = ⟨[], .out⟩) (hN : ∀ t, N ≤ t → σ t = σ N) : FsSys.Fair dbCallsF may path σ := by
  intro t hg
  refine Classical.byContradiction fun hno => ?_
  have hsame : ∀ t', t ≤ t' → (σ t').pool = (σ t).pool ∧ (σ t').cl = (σ t).cl := by
    intro t' ht
    induction t', ht using Nat.le_induction with
    | base => exact ⟨rfl, rfl⟩
    | succ u hu ih =>
      rcases hr u with h | h
      · have : (σ (u + 1)).pool = (σ u).pool ∧ (σ (u + 1)).cl = (σ u).cl := Classical.byContradiction fun hx => hno ⟨u, hu, h, hx⟩
        exact ⟨this.1.trans ih.1, this.2.trans ih.2⟩
      · rw [h]; exact ih
  have hm := hsame (max t N) (Nat.le_max_left _ _)
  rw [hN _ (Nat.le_max_right _ _)] at hm
  rw [hm.1] at hp
  rw [hm.2] at hc
  exact nobody_goes hp hc hg

def isIdle : LPc → Bool
  | .idle => true
  | _ => false

def isOver : Client FltCall (FsProg DbRes) → Bool
  | ⟨[], .out⟩ => true
  | _ => false

set_option maxRecDepth 100000 in
theorem exFlt_over : (exFltRun 11).map (fun s => (s.pool.pcs.all isIdle, s.cl.all isOver)) = some (true, true) := by decide +kernel

/-- The hypotheses of C113 are met by the process of the example of C112, in which system calls fail: after 53 steps its six calls have returned, and there is a run without end that meets the condition on the scheduler. In its first state a goroutine can
go on. -/
theorem C113_example : ∃ σ : Nat → FsSys FltCall DbRes, σ 0 = FsSys.init 1 exFltCalls (fun _ => Store.fresh false (fun _ => false)) ∧
    FsSys.Run dbCallsF (fun m f => exFltMay m f = true) (dbPath [47, 100]) σ ∧ FsSys.Fair dbCallsF (fun m f => exFltMay m f = true) (dbPath [47, 100]) σ ∧
    (∃ s', (σ 0).Goes dbCallsF (fun m f => exFltMay m f = true) (dbPath [47, 100]) s') ∧ (σ 0).log = [] ∧ ((σ 53).log.map fun e => (e.1, e.2.2.2)) =
      [(0, .write (.failed .os)), (1, .write .written), (0, .write .written), (1, .latest (some ⟨1, 2, [8]⟩) none), (0, .latest none (some .os)), (0, .latest (some ⟨1, 2, [7]⟩) none)] := by
  have r := exFlt_result
  have r' := exFlt_over
  cases hs : exFltRun 11 with
  | none => rw [hs] at r; cases r
  | some s =>
    rw [hs] at r r'
    injection r with r
    injection r with r1 r
    injection r' with r'
    injection r' with p1 p2
    obtain ⟨σ, e0, hr, hl⟩ := followF_run (exFltSched 11) hs
    have hlen : (exFltSched 11).length = 53 := by decide
    rw [hlen] at hl
    have e53 := hl 53 (Nat.le_refl _)
    refine ⟨σ, e0, hr, fair_of_end hr (N := 53) ?_ ?_ (fun t ht => by rw [hl t ht, e53]), ?_, (by rw [e0]; rfl), ?_⟩
    · rw [e53]
      intro pc hm
      have := List.all_eq_true.mp p1 pc hm
      cases pc with
      | idle => rfl
      | _ => cases this
    · rw [e53]
      intro c hm
      have := List.all_eq_true.mp p2 c hm
      obtain ⟨todo, w⟩ := c
      cases todo with
      | nil => cases w with
        | out => rfl
        | _ => cases this
      | cons _ _ => cases this
    · refine C113_goes_on (n := 1) (by omega) (by rw [e0]; exact .init) ⟨0, ?_⟩
      rw [e0]
      exact ⟨_, rfl, fun e => by cases e⟩
    · rw [e53]
      have := congrArg (List.map fun e : Nat × Bytes × DbRes => (e.1, e.2.2)) r1
      rw [List.map_map] at this
      exact this

end Rothko
