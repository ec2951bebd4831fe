import Verif.Lemmas.Names
/-!
# C35: `Metrics` lists every metric with an acknowledged write
-/
set_option linter.unusedSimpArgs false
namespace Rothko

/-- **C35** (partial: for calls of `Metrics` and `PopulateMetrics` that do not overlap each other; writes may overlap anything). For any number of workers, writes and calls,
any interleaving, and any contents of the disk at the start: a finished call of `Metrics` reported every metric whose write was acknowledged, or that a completed `PopulateMetrics` had found, before the call began (`a0`),
in strictly increasing order (so each once), and nothing that was never written. -/
theorem C35_listed_partial {workers : Nat} {disk : List Bytes} {nw nm np : Nat} {s : NSys} (h : NSys.Reach true workers disk nw nm np s)
    {k : Nat} {a0 out : List Bytes} (hk : s.mets[k]? = some (.done a0 out)) :
    (∀ x ∈ a0, x ∈ out) ∧ Sorted out ∧ ∀ x ∈ out, x ∈ s.disk := h.ok.met k _ hk

/-- Two overlapping calls of `Metrics` and a write: the second call empties a set it has not merged, and the acknowledged name `b` is gone for every later call. -/
theorem C35_overlap_refuted : ∃ s a0 out, NSys.Reach false 1 [] 2 3 0 s ∧ s.mets[2]? = some (.done a0 out) ∧ [98] ∈ a0 ∧ [98] ∉ out := by
  have s0 := NSys.Reach.init (excl := false) (workers := 1) (disk := []) (nw := 2) (nm := 3) (np := 0)
  have s1 := s0.step (.write 0 0 [97] rfl (by decide))
  have s2 := s1.step (.unknown 0 0 [97] rfl rfl)
  have s3 := s2.step (.add 0 0 0 [97] rfl rfl)
  have s4 := s3.step (.beginNew 0 (by simp) rfl rfl)
  have s5 := s4.step (.range 0 0 1 0 _ false rfl rfl)
  have s6 := s5.step (.beginNew 1 (by simp) rfl rfl)
  have s7 := s6.step (.range 1 0 2 0 _ false rfl rfl)
  have s8 := s7.step (.need 1 0 2 0 _ rfl (by decide +kernel))
  have s9 := s8.step (.need 0 0 1 0 _ rfl (by decide +kernel))
  have s10 := s9.step (.lock 0 0 1 0 _ rfl rfl)
  have s11 := s10.step (.merge 0 0 1 0 _ false _ 1 rfl rfl)
  have s12 := s11.step (.finish 0 1 1 _ rfl (by decide))
  have s13 := s12.step (.write 1 0 [98] rfl (by decide))
  have s14 := s13.step (.unknown 1 0 [98] rfl (by decide +kernel))
  have s15 := s14.step (.add 1 0 3 [98] rfl rfl)
  have s16 := s15.step (.lock 1 0 2 0 _ rfl rfl)
  have s17 := s16.step (.merge 1 0 2 0 _ false _ 4 rfl (by unfold NSys.target; rw [if_neg (by simp)]; exact if_pos (by decide +kernel)))
  have s18 := s17.step (.finish 1 4 1 _ rfl (by decide))
  have s19 := s18.step (.begin 2 4 (by simp) rfl rfl)
  have s20 := s19.step (.range 2 0 4 5 _ false rfl rfl)
  have s21 := s20.step (.skip 2 0 4 5 _ false rfl (by decide +kernel))
  have s22 := s21.step (.finishClean 2 4 1 _ rfl (by decide))
  exact ⟨_, _, _, s22, rfl, by decide, by decide +kernel⟩

/-- A scan by `PopulateMetrics`, and a `Metrics` call and a write in its course: the scan's result replaces the set that had the acknowledged name. -/
theorem C35_populate_refuted : ∃ s a0 out, NSys.Reach false 1 [] 1 2 1 s ∧ s.mets[1]? = some (.done a0 out) ∧ [97] ∈ a0 ∧ [97] ∉ out := by
  have s0 := NSys.Reach.init (excl := false) (workers := 1) (disk := []) (nw := 1) (nm := 2) (np := 1)
  have s1 := s0.step (.scan 0 (by simp) rfl)
  have s2 := s1.step (.write 0 0 [97] rfl (by decide))
  have s3 := s2.step (.unknown 0 0 [97] rfl rfl)
  have s4 := s3.step (.add 0 0 0 [97] rfl rfl)
  have s5 := s4.step (.beginNew 0 (by simp) rfl rfl)
  have s6 := s5.step (.range 0 0 1 0 _ false rfl rfl)
  have s7 := s6.step (.need 0 0 1 0 _ rfl (by decide +kernel))
  have s8 := s7.step (.lock 0 0 1 0 _ rfl rfl)
  have s9 := s8.step (.merge 0 0 1 0 _ false _ 1 rfl rfl)
  have s10 := s9.step (.finish 0 1 1 _ rfl (by decide))
  have s11 := s10.step (.publish 0 [] [] rfl rfl (by simp) (by simp))
  have s12 := s11.step (.begin 1 3 (by simp) rfl rfl)
  have s13 := s12.step (.range 1 0 3 2 _ false rfl rfl)
  have s14 := s13.step (.skip 1 0 3 2 _ false rfl (by decide +kernel))
  have s15 := s14.step (.finishClean 1 3 1 _ rfl (by decide))
  exact ⟨_, _, _, s15, rfl, by decide, by decide +kernel⟩

/-- The hypothesis of `C35_listed_partial` can be met: a write, a scan and a call of `Metrics` that lists two names. -/
theorem C35_example : ∃ s a0 out, NSys.Reach true 1 [[98]] 1 1 1 s ∧ s.mets[0]? = some (.done a0 out) ∧ out = [[97], [98]] ∧ [97] ∈ a0 := by
  have s0 := NSys.Reach.init (excl := true) (workers := 1) (disk := [[98]]) (nw := 1) (nm := 1) (np := 1)
  have q0 : NSys.quiet (NSys.init 1 [[98]] 1 1 1) := by
    constructor <;> intro pc hpc <;> simp [NSys.init] at hpc <;> subst hpc <;> rfl
  have s1 := s0.step (.scan 0 (fun _ => q0) rfl)
  have s2 := s1.step (.write 0 0 [97] rfl (by decide))
  have s3 := s2.step (.unknown 0 0 [97] rfl rfl)
  have s4 := s3.step (.publish 0 [[98]] [[98]] rfl rfl (by simp) (by decide))
  have s5 := s4.step (.add 0 0 0 [97] rfl rfl)
  have s6 := s5.step (.begin 0 1 (fun _ => by constructor <;> intro pc hpc <;> simp [NSys.init, NSys.setM, NSys.setP, NSys.setW, NSys.ack, NSys.put] at hpc <;> subst hpc <;> rfl) rfl rfl)
  have s7 := s6.step (.range 0 0 1 0 _ false rfl rfl)
  have s8 := s7.step (.need 0 0 1 0 _ rfl (by decide +kernel))
  have s9 := s8.step (.lock 0 0 1 0 _ rfl rfl)
  have s10 := s9.step (.merge 0 0 1 0 _ false _ 2 rfl (by unfold NSys.target; rw [if_neg (by simp)]; exact if_pos (by decide +kernel)))
  have s11 := s10.step (.finish 0 2 1 _ rfl (by decide))
  exact ⟨_, _, _, s11, rfl, by decide +kernel, by decide⟩

/-! ## C62: the published set, which writers read without a lock, is not modified -/

/-- States reachable when no empty set is ever published. -/
inductive NSys.ReachFull (workers : Nat) (disk : List Bytes) (nw nm np : Nat) : NSys → Prop
  | init : ReachFull workers disk nw nm np (NSys.init workers disk nw nm np)
  | step {s s' : NSys} : ReachFull workers disk nw nm np s → s.Step true s' → (∀ q, s'.names = some q → (s'.heap q).len > 0) → ReachFull workers disk nw nm np s'

theorem NSys.ReachFull.reach {workers : Nat} {disk : List Bytes} {nw nm np : Nat} {s : NSys} (h : NSys.ReachFull workers disk nw nm np s) :
    NSys.Reach true workers disk nw nm np s := by
  induction h with
  | init => exact .init
  | step _ hs _ ih => exact ih.step hs

/-- The published set is not empty and is not being built by any call. -/
def NSys.Clean (s : NSys) : Prop := ∀ q, s.names = some q → (s.heap q).len > 0 ∧ ∀ pc ∈ s.mets, pc.built ≠ some q

theorem mem_setM {s : NSys} {k : Nat} {pc pc' : MtPc} (h : pc ∈ (s.setM k pc').mets) : pc = pc' ∨ pc ∈ s.mets := by
  rcases List.mem_or_eq_of_mem_set h with h | h
  · exact Or.inr h
  · exact Or.inl h

/-- One step from a clean state. -/
theorem NSys.Clean.step {s s' : NSys} (h : s.Ok) (hc : s.Clean) (hs : s.Step true s') (hne : ∀ q, s'.names = some q → (s'.heap q).len > 0) :
    s'.Clean ∧ ∀ q, s.names = some q → s'.heap q = s.heap q := by
  have easy : ∀ (k : Nat) (pc pc' : MtPc), s.mets[k]? = some pc → (pc'.built = none ∨ pc'.built = pc.built) →
      (∀ q, s.names = some q → ∀ b ∈ s.mets.set k pc', b.built ≠ some q) := by
    intro k pc pc' hk hb q hq b hbm
    rcases List.mem_or_eq_of_mem_set hbm with hbm | hbm
    · exact (hc q hq).2 b hbm
    · subst hbm
      rcases hb with hb | hb
      · rw [hb]; simp
      · rw [hb]; exact (hc q hq).2 pc (List.mem_of_getElem? hk)
  cases hs with
  | create x => exact ⟨fun q hq => ⟨(hc q hq).1, (hc q hq).2⟩, fun q _ => rfl⟩
  | write k i x hk hi => exact ⟨fun q hq => ⟨(hc q hq).1, (hc q hq).2⟩, fun q _ => rfl⟩
  | known k i x hk hpub => exact ⟨fun q hq => ⟨(hc q hq).1, (hc q hq).2⟩, fun q _ => rfl⟩
  | unknown k i x hk hpub => exact ⟨fun q hq => ⟨(hc q hq).1, (hc q hq).2⟩, fun q _ => rfl⟩
  | add k i p x hk hp =>
    exact ⟨fun q hq => ⟨hne q hq, (hc q hq).2⟩, fun q hq => NSys.heap_put_ne (fun e => (h.nlt q hq).2 (e ▸ List.mem_of_getElem? hp))⟩
  | begin k q0 hq0 hk hn => exact ⟨fun q hq => ⟨hne q hq, easy k _ _ hk (Or.inl rfl) q hq⟩, fun q _ => rfl⟩
  | beginNew k hq0 hk hn =>
    exact ⟨fun q hq => (by have hq' : s.names = some q := hq; rw [hn] at hq'; cases hq'), fun q hq => (by rw [hn] at hq; cases hq)⟩
  | range k i ptr p a0 c hk hp =>
    exact ⟨fun q hq => ⟨hne q hq, easy k _ _ hk (by cases c <;> simp [MtPc.built]) q hq⟩, fun q _ => rfl⟩
  | skip k i ptr p a0 c hk h0 =>
    exact ⟨fun q hq => ⟨hne q hq, easy k _ _ hk (by cases c <;> simp [MtPc.built]) q hq⟩, fun q _ => rfl⟩
  | need k i ptr p a0 hk h0 => exact ⟨fun q hq => ⟨hne q hq, easy k _ _ hk (Or.inl rfl) q hq⟩, fun q _ => rfl⟩
  | needLocked k i ptr p a0 hk h0 => exact ⟨fun q hq => ⟨hne q hq, easy k _ (.wantW a0 i ptr true p) hk (Or.inr rfl) q hq⟩, fun q _ => rfl⟩
  | lock k i ptr p a0 hk hmu => exact ⟨fun q hq => ⟨hne q hq, easy k _ _ hk (Or.inl rfl) q hq⟩, fun q _ => rfl⟩
  | merge k i ptr p a0 c s1 t hk ht =>
    obtain ⟨hloc, _, _⟩ := h.met k _ hk
    have key : s1.names = s.names ∧ s1.mets = s.mets ∧ s.next ≤ s1.next ∧ (∀ q, q < s.next → s1.heap q = s.heap q) ∧ ∀ q, s.names = some q → q ≠ t := by
      unfold NSys.target at ht
      cases c with
      | true =>
        rw [if_pos rfl] at ht; cases ht
        refine ⟨rfl, rfl, Nat.le_refl _, fun _ _ => rfl, fun q hq e => ?_⟩
        exact (hc q hq).2 _ (List.mem_of_getElem? hk) (by rw [e]; rfl)
      | false =>
        rw [if_neg (by simp)] at ht
        cases hnm : s.names with
        | none =>
          rw [hnm] at ht; simp only at ht; cases ht
          exact ⟨hnm, rfl, Nat.le_refl _, fun _ _ => rfl, fun q hq => by cases hq⟩
        | some q0 =>
          rw [hnm] at ht; simp only at ht
          rw [if_pos (hc q0 hnm).1] at ht
          cases ht
          refine ⟨hnm, rfl, Nat.le_succ _, fun q hq => NSys.heap_put_ne (by omega), fun q hq e => ?_⟩
          cases hq
          have := (h.nlt _ hnm).1; omega
    obtain ⟨k1, k2, k3, k4, k5⟩ := key
    refine ⟨fun q hq => ⟨hne q hq, fun b hb => ?_⟩, fun q hq => ?_⟩
    · have hq' : s.names = some q := by rw [← k1]; exact hq
      have hb' : b ∈ s.mets.set k (.loop a0 (i + 1) t true) := by rw [← k2]; exact hb
      rcases List.mem_or_eq_of_mem_set hb' with hb' | hb'
      · exact (hc q hq').2 b hb'
      · subst hb'; simp only [MtPc.built, ne_eq, Option.some.injEq]; exact fun e => k5 q hq' e.symm
    · have hlt := (h.nlt q hq).1
      show NSys.heap ((s1.put t _).put s1.next .new) q = _
      rw [NSys.heap_put_ne (by omega), NSys.heap_put_ne (k5 q hq), k4 q hlt]
  | finish k ptr i a0 hk hi =>
    refine ⟨fun q hq => ⟨hne q hq, fun b hb e => ?_⟩, fun q _ => rfl⟩
    have hq' : ptr = q := by injection hq
    subst hq'
    rcases mem_setM hb with rfl | hb
    · cases e
    · obtain ⟨k2, hk2⟩ := List.mem_iff_getElem?.mp hb
      have hbusy : b.busy = true := by cases b <;> simp [MtPc.built] at e <;> rfl
      have hkk := h.one k k2 _ b hk hk2 rfl hbusy
      subst hkk
      have hm : (NSys.setM { s with names := some ptr, mu := false } k (MtPc.done a0 (s.heap ptr).order)).mets[k]? = some (MtPc.done a0 (s.heap ptr).order) :=
        List.getElem?_set_self (List.getElem?_eq_some_iff.mp hk).1
      -- the only busy call has just finished
      obtain ⟨k3, hk3⟩ := List.mem_iff_getElem?.mp ‹b ∈ (NSys.setM { s with names := some ptr, mu := false } k (MtPc.done a0 (s.heap ptr).order)).mets›
      rcases setGet hk hk3 with ⟨_, e3⟩ | ⟨n3, g3⟩
      · subst e3; cases e
      · exact n3 (h.one k k3 _ b hk g3 rfl hbusy).symm
  | finishClean k ptr i a0 hk hi => exact ⟨fun q hq => ⟨hne q hq, easy k _ _ hk (Or.inl rfl) q hq⟩, fun q _ => rfl⟩
  | scan k hq0 hk => exact ⟨fun q hq => ⟨hne q hq, (hc q hq).2⟩, fun q _ => rfl⟩
  | giveUp k base hk => exact ⟨fun q hq => ⟨hne q hq, (hc q hq).2⟩, fun q _ => rfl⟩
  | publish k base els hk hmu h1 h2 =>
    refine ⟨fun q hq => ⟨hne q hq, fun b hb e => ?_⟩, fun q hq => NSys.heap_put_ne (by have := (h.nlt q hq).1; omega)⟩
    have hbusy : b.busy = true := by cases b <;> simp [MtPc.built] at e <;> rfl
    obtain ⟨k2, hk2⟩ := List.mem_iff_getElem?.mp hb
    exact h.mix k2 k b _ hk2 hk hbusy rfl

theorem NSys.ReachFull.clean {workers : Nat} {disk : List Bytes} {nw nm np : Nat} {s : NSys} (h : NSys.ReachFull workers disk nw nm np s) : s.Clean := by
  induction h with
  | init => intro q hq; cases hq
  | step hr hs hne ih => exact (ih.step hr.reach.ok hs hne).1

/-- **C62** (partial: calls of `Metrics` and `PopulateMetrics` do not overlap, and no empty set is published). A published set is never modified. -/
theorem C62_published_partial {workers : Nat} {disk : List Bytes} {nw nm np : Nat} {s s' : NSys} (h : NSys.ReachFull workers disk nw nm np s) (hs : s.Step true s')
    (hne : ∀ q, s'.names = some q → (s'.heap q).len > 0) {q : Nat} (hq : s.names = some q) : s'.heap q = s.heap q :=
  (h.clean.step h.reach.ok hs hne).2 q hq

/-- **C62** is false when the published set is empty, as after starting on an empty database: the first call of `Metrics` after the first write adds to the set that
writers are reading without a lock (a concurrent read and write of a Go map, which stops the process). -/
theorem C62_published_refuted : ∃ s s' q, NSys.Reach true 1 [] 1 1 1 s ∧ s.Step true s' ∧ s.names = some q ∧ (s.heap q).has [97] = false ∧ (s'.heap q).has [97] = true := by
  have s0 := NSys.Reach.init (excl := true) (workers := 1) (disk := []) (nw := 1) (nm := 1) (np := 1)
  have q0 : NSys.quiet (NSys.init 1 [] 1 1 1) := by
    constructor <;> intro pc hpc <;> simp [NSys.init] at hpc <;> subst hpc <;> rfl
  have s1 := s0.step (.scan 0 (fun _ => q0) rfl)
  have s2 := s1.step (.publish 0 [] [] rfl rfl (by simp) (by simp))
  have s3 := s2.step (.write 0 0 [97] rfl (by decide))
  have s4 := s3.step (.unknown 0 0 [97] rfl rfl)
  have s5 := s4.step (.add 0 0 0 [97] rfl rfl)
  have s6 := s5.step (.begin 0 1 (fun _ => by constructor <;> intro pc hpc <;> simp [NSys.init, NSys.setM, NSys.setP, NSys.setW, NSys.ack, NSys.put] at hpc <;> subst hpc <;> rfl) rfl rfl)
  have s7 := s6.step (.range 0 0 1 0 _ false rfl rfl)
  have s8 := s7.step (.need 0 0 1 0 _ rfl (by decide +kernel))
  have s9 := s8.step (.lock 0 0 1 0 _ rfl rfl)
  exact ⟨_, _, 1, s9, .merge 0 0 1 0 _ false _ 1 rfl rfl, rfl, by decide +kernel, by decide +kernel⟩

/-- The hypotheses of `C62_published_partial` can be met with a set published. -/
theorem C62_example : ∃ s q, NSys.ReachFull 1 [[98]] 0 0 1 s ∧ s.names = some q := by
  have s0 := NSys.ReachFull.init (workers := 1) (disk := [[98]]) (nw := 0) (nm := 0) (np := 1)
  have q0 : NSys.quiet (NSys.init 1 [[98]] 0 0 1) := by
    constructor <;> intro pc hpc <;> simp [NSys.init] at hpc <;> subst hpc <;> rfl
  have s1 := s0.step (.scan 0 (fun _ => q0) rfl) (fun q hq => by cases hq)
  have s2 := s1.step (.publish 0 [[98]] [[98]] rfl rfl (by simp) (by decide)) (fun q hq => by cases hq; decide +kernel)
  exact ⟨_, 1, s2, rfl⟩

end Rothko
