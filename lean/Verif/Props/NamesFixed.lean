import Verif.Props.NamesHeal
/-!
# C62, whatever calls overlap

A set of names that has been published is never modified again, for any overlap of calls, as long as no empty set is published.
-/
set_option linter.unusedSimpArgs false
namespace Rothko

/-- The call holds `names_mu`. -/
def MtPc.holds : MtPc → Bool
  | .loop _ _ _ c => c
  | .have_ _ _ _ c _ => c
  | .wantW .. => true
  | _ => false

theorem MtPc.built_holds {pc : MtPc} {q : Nat} (h : pc.built = some q) : pc.holds = true := by
  cases pc with
  | loop a i ptr c => cases c with
    | true => rfl
    | false => cases h
  | have_ a i ptr c p => cases c with
    | true => rfl
    | false => cases h
  | wantW a i ptr c p => rfl
  | _ => cases h

/-- At most one call holds `names_mu`, and then it is locked. -/
structure NSys.Mutex (s : NSys) : Prop where
  one : ∀ (k k' : Nat) (a b : MtPc), s.mets[k]? = some a → s.mets[k']? = some b → a.holds = true → b.holds = true → k = k'
  mu : ∀ (k : Nat) (a : MtPc), s.mets[k]? = some a → a.holds = true → s.mu = true

theorem NSys.Mutex.same {s s' : NSys} (h : s.Mutex) (hm : s'.mets = s.mets) (hmu : s'.mu = s.mu) : s'.Mutex :=
  ⟨by rw [hm]; exact h.one, by rw [hm, hmu]; exact h.mu⟩

/-- The call goes on without taking or leaving the mutex. -/
theorem NSys.Mutex.go {s s' : NSys} (h : s.Mutex) {k : Nat} {pc pc' : MtPc} (hk : s.mets[k]? = some pc) (hm : s'.mets = s.mets.set k pc') (hmu : s'.mu = s.mu) (hh : pc'.holds = pc.holds) : s'.Mutex := by
  have back : ∀ (j : Nat) (a : MtPc), (s.mets.set k pc')[j]? = some a → ∃ b, s.mets[j]? = some b ∧ b.holds = a.holds := by
    intro j a hj
    rcases setGet hk hj with ⟨rfl, rfl⟩ | ⟨_, hj⟩
    · exact ⟨pc, hk, hh.symm⟩
    · exact ⟨a, hj, rfl⟩
  refine ⟨?_, ?_⟩
  · rw [hm]
    intro j j' a b ha hb h1 h2
    obtain ⟨a', ha', e1⟩ := back j a ha
    obtain ⟨b', hb', e2⟩ := back j' b hb
    exact h.one j j' a' b' ha' hb' (by rw [e1]; exact h1) (by rw [e2]; exact h2)
  · rw [hm, hmu]
    intro j a ha h1
    obtain ⟨a', ha', e1⟩ := back j a ha
    exact h.mu j a' ha' (by rw [e1]; exact h1)

theorem NSys.Mutex.step {s s' : NSys} {excl : Bool} (h : s.Mutex) (hs : s.Step excl s') : s'.Mutex := by
  cases hs with
  | create x => exact h.same rfl rfl
  | write k i x hk hi => exact h.same rfl rfl
  | known k i x hk hp => exact h.same rfl rfl
  | unknown k i x hk hp => exact h.same rfl rfl
  | add k i p x hk hp => exact h.same rfl rfl
  | begin k q hq hk hnm => exact h.go hk rfl rfl rfl
  | beginNew k hq hk hnm => exact h.go hk rfl rfl rfl
  | range k i ptr p a0 c hk hp => exact h.go hk rfl rfl rfl
  | skip k i ptr p a0 c hk hp => exact h.go hk rfl rfl rfl
  | need k i ptr p a0 hk hp => exact h.go hk rfl rfl rfl
  | needLocked k i ptr p a0 hk hp => exact h.go hk rfl rfl rfl
  | lock k i ptr p a0 hk hmu =>
    have no : ∀ (j : Nat) (a : MtPc), s.mets[j]? = some a → a.holds = true → False := fun j a ha hh => by
      have := h.mu j a ha hh
      rw [hmu] at this; cases this
    refine ⟨?_, fun _ _ _ _ => rfl⟩
    intro j j' a b ha hb h1 h2
    rcases setGet hk ha with ⟨e1, _⟩ | ⟨_, ha⟩
    · rcases setGet hk hb with ⟨e2, _⟩ | ⟨_, hb⟩
      · rw [e1, e2]
      · exact (no j' b hb h2).elim
    · exact (no j a ha h1).elim
  | merge k i ptr p a0 c s1 t hk ht =>
    obtain ⟨_, e2⟩ := target_same ht
    have hmu : s1.mu = s.mu := by
      unfold NSys.target at ht
      split at ht
      · cases ht; rfl
      · cases hq : s.names with
        | none => rw [hq] at ht; cases ht; rfl
        | some q =>
          rw [hq] at ht; dsimp only at ht
          split at ht <;> cases ht <;> rfl
    refine h.go hk (pc' := .loop a0 (i + 1) t true) ?_ ?_ rfl
    · show s1.mets.set k _ = _; rw [e2]
    · show s1.mu = _; exact hmu
  | finish k ptr i a0 hk hi =>
    have no : ∀ (j : Nat) (a : MtPc), (s.mets.set k (MtPc.done a0 (s.heap ptr).order))[j]? = some a → a.holds = true → False := by
      intro j a ha hh
      rcases setGet hk ha with ⟨_, rfl⟩ | ⟨hne, ha⟩
      · cases hh
      · exact hne (h.one j k a _ ha hk hh rfl)
    exact ⟨fun j j' a b ha _ h1 _ => (no j a ha h1).elim, fun j a ha h1 => (no j a ha h1).elim⟩
  | finishClean k ptr i a0 hk hi => exact h.go hk rfl rfl rfl
  | scan k hq hk => exact h.same rfl rfl
  | giveUp k base hk => exact h.same rfl rfl
  | publish k base els hk hmu hb he => exact h.same rfl rfl

theorem NSys.Mutex.init (workers : Nat) (disk : List Bytes) (nw nm np : Nat) : (NSys.init workers disk nw nm np).Mutex := by
  have hm : ∀ {k : Nat} {pc : MtPc}, (NSys.init workers disk nw nm np).mets[k]? = some pc → pc = .start := fun h => (List.mem_replicate.mp (List.mem_of_getElem? h)).2
  exact ⟨fun k k' a b ha _ h _ => (by rw [hm ha] at h; cases h), fun k a ha h => (by rw [hm ha] at h; cases h)⟩

/-- Nobody writes to the set at `q`. -/
structure NSys.Fixed (s : NSys) (q : Nat) : Prop where
  lt : q < s.next
  notW : q ∉ s.namesW
  free : ∀ pc ∈ s.mets, pc.built ≠ some q

theorem NSys.Fixed.same {s s' : NSys} {q : Nat} (h : s.Fixed q) (hn : s.next ≤ s'.next) (hw : s'.namesW = s.namesW) (hm : s'.mets = s.mets) : s'.Fixed q :=
  ⟨Nat.lt_of_lt_of_le h.lt hn, by rw [hw]; exact h.notW, by rw [hm]; exact h.free⟩

theorem NSys.Fixed.go {s s' : NSys} {q : Nat} (h : s.Fixed q) (hn : s.next ≤ s'.next) (hw : q ∉ s'.namesW) {k : Nat} {pc' : MtPc} (hm : s'.mets = s.mets.set k pc') (hb : pc'.built ≠ some q) : s'.Fixed q := by
  refine ⟨Nat.lt_of_lt_of_le h.lt hn, hw, ?_⟩
  rw [hm]
  intro pc hpc
  rcases List.mem_or_eq_of_mem_set hpc with hpc | hpc
  · exact h.free pc hpc
  · rw [hpc]; exact hb

/-- One step leaves the set as it is. -/
theorem NSys.Fixed.step {s s' : NSys} {excl : Bool} {q : Nat} (h : s.Fixed q) (hfull : ∃ p, s.names = some p ∧ (s.heap p).len > 0) (hs : s.Step excl s') :
    s'.heap q = s.heap q ∧ s'.Fixed q := by
  have hb : ∀ {k : Nat} {pc : MtPc}, s.mets[k]? = some pc → pc.built ≠ some q := fun hk => h.free _ (List.mem_of_getElem? hk)
  have hne : q ≠ s.next := Nat.ne_of_lt h.lt
  cases hs with
  | create x => exact ⟨rfl, h.same (Nat.le_refl _) rfl rfl⟩
  | write k i x hk hi => exact ⟨rfl, h.same (Nat.le_refl _) rfl rfl⟩
  | known k i x hk hp => exact ⟨rfl, h.same (Nat.le_refl _) rfl rfl⟩
  | unknown k i x hk hp => exact ⟨rfl, h.same (Nat.le_refl _) rfl rfl⟩
  | add k i p x hk hp =>
    refine ⟨?_, h.same (Nat.le_refl _) rfl rfl⟩
    exact NSys.heap_put_ne (fun e => h.notW (e ▸ List.mem_of_getElem? hp))
  | begin k p hq hk hnm => exact ⟨rfl, h.go (Nat.le_refl _) h.notW rfl (by intro e; cases e)⟩
  | beginNew k hq hk hnm => obtain ⟨p, hp, _⟩ := hfull; rw [hnm] at hp; cases hp
  | range k i ptr p a0 c hk hp => exact ⟨rfl, h.go (Nat.le_refl _) h.notW rfl (by have := hb hk; cases c <;> exact this)⟩
  | skip k i ptr p a0 c hk hp => exact ⟨rfl, h.go (Nat.le_refl _) h.notW rfl (by have := hb hk; cases c <;> exact this)⟩
  | need k i ptr p a0 hk hp => exact ⟨rfl, h.go (Nat.le_refl _) h.notW rfl (by intro e; cases e)⟩
  | needLocked k i ptr p a0 hk hp => exact ⟨rfl, h.go (Nat.le_refl _) h.notW rfl (by have := hb hk; exact this)⟩
  | lock k i ptr p a0 hk hmu => exact ⟨rfl, h.go (Nat.le_refl _) h.notW rfl (by intro e; cases e)⟩
  | merge k i ptr p a0 c s1 t hk ht =>
    have key : s1.heap q = s.heap q ∧ s.next ≤ s1.next ∧ s1.namesW = s.namesW ∧ s1.mets = s.mets ∧ t ≠ q := by
      unfold NSys.target at ht
      cases c with
      | true =>
        rw [if_pos rfl] at ht
        cases ht
        exact ⟨rfl, Nat.le_refl _, rfl, rfl, fun e => hb hk (by rw [← e]; rfl)⟩
      | false =>
        obtain ⟨p', hp', hlen⟩ := hfull
        rw [if_neg (by simp), hp'] at ht
        dsimp only at ht
        rw [if_pos hlen] at ht
        cases ht
        exact ⟨NSys.heap_put_ne hne, Nat.le_succ _, rfl, rfl, fun e => hne e.symm⟩
    obtain ⟨e1, e2, e3, e4, e5⟩ := key
    refine ⟨?_, ?_⟩
    · show ((s1.put t _).put s1.next .new).heap q = _
      rw [NSys.heap_put_ne (Nat.ne_of_lt (Nat.lt_of_lt_of_le h.lt e2)), NSys.heap_put_ne (fun e => e5 e.symm), e1]
    · refine h.go (k := k) (pc' := .loop a0 (i + 1) t true) (Nat.le_succ_of_le e2) ?_ ?_ ?_
      · show q ∉ s1.namesW.set i s1.next
        rw [e3]
        intro hm
        rcases List.mem_or_eq_of_mem_set hm with hm | hm
        · exact h.notW hm
        · exact Nat.ne_of_lt (Nat.lt_of_lt_of_le h.lt e2) hm
      · show s1.mets.set k _ = _; rw [e4]
      · intro e; exact e5 (Option.some.inj e)
  | finish k ptr i a0 hk hi => exact ⟨rfl, h.go (Nat.le_refl _) h.notW rfl (by intro e; cases e)⟩
  | finishClean k ptr i a0 hk hi => exact ⟨rfl, h.go (Nat.le_refl _) h.notW rfl (by intro e; cases e)⟩
  | scan k hq hk => exact ⟨rfl, h.same (Nat.le_refl _) rfl rfl⟩
  | giveUp k base hk => exact ⟨rfl, h.same (Nat.le_refl _) rfl rfl⟩
  | publish k base els hk hmu hb' he => exact ⟨NSys.heap_put_ne hne, h.same (Nat.le_succ _) rfl rfl⟩

/-- A set that is published is one nobody writes to. -/
def NSys.AllFixed (s : NSys) : Prop := ∀ q, s.names = some q → (s.heap q).len > 0 ∧ s.Fixed q

theorem NSys.AllFixed.step {s s' : NSys} {excl : Bool} (hsafe : s.Safe) (hmut : s.Mutex) (h : s.AllFixed) (hs : s.Step excl s') (hne : ∀ q, s'.names = some q → (s'.heap q).len > 0) : s'.AllFixed := by
  intro q hq
  refine ⟨hne q hq, ?_⟩
  have keep : s'.names = s.names → s'.Fixed q := by
    intro hsame
    rw [hsame] at hq
    obtain ⟨h1, h2⟩ := h q hq
    exact (h2.step ⟨q, hq, h1⟩ hs).2
  have hs0 := hs
  cases hs with
  | finish k ptr i a0 hk hi =>
    have hq : ptr = q := Option.some.inj hq
    subst hq
    have hp : (MtPc.loop a0 i ptr true).Safe s := hsafe.met _ (List.mem_of_getElem? hk)
    refine ⟨hp.1, hp.2, ?_⟩
    intro pc hpc hb
    obtain ⟨j, hj⟩ := List.mem_iff_getElem?.mp hpc
    have hj : (s.mets.set k (MtPc.done a0 (s.heap ptr).order))[j]? = some pc := hj
    rcases setGet hk hj with ⟨_, e⟩ | ⟨hjk, hj⟩
    · rw [e] at hb; cases hb
    · exact hjk (hmut.one j k pc _ hj hk (MtPc.built_holds hb) rfl)
  | publish k base els hk hmu hb' he =>
    have hq : s.next = q := Option.some.inj hq
    subst hq
    refine ⟨Nat.lt_succ_self _, fun hm => Nat.lt_irrefl _ (hsafe.wlt _ hm), ?_⟩
    intro pc hpc hb
    have hsf := hsafe.met pc hpc
    have : s.next < s.next := by
      cases pc with
      | loop a i ptr c => cases c with
        | true => cases hb; exact hsf.1
        | false => cases hb
      | have_ a i ptr c p => cases c with
        | true => cases hb; exact hsf.1
        | false => cases hb
      | wantW a i ptr c p => cases c with
        | true => cases hb; exact hsf.1
        | false => cases hb
      | _ => cases hb
    exact Nat.lt_irrefl _ this
  | merge k i ptr p a0 c s1 t hk ht =>
    refine keep ?_
    show s1.names = s.names
    unfold NSys.target at ht
    split at ht
    · cases ht; rfl
    · cases hn : s.names with
      | none => rw [hn] at ht; cases ht; exact hn
      | some q' =>
        rw [hn] at ht; dsimp only at ht
        split at ht <;> cases ht <;> exact hn
  | _ => exact keep rfl

/-- The steps of any schedule in which no empty set is published. -/
inductive NSys.Runs (s0 : NSys) : NSys → Prop
  | here : Runs s0 s0
  | step {s s' : NSys} : Runs s0 s → s.Step false s' → (∀ q, s'.names = some q → (s'.heap q).len > 0) → Runs s0 s'

theorem NSys.Runs.inv {s0 s : NSys} (h : NSys.Runs s0 s) (h0 : s0.Safe ∧ s0.Mutex ∧ s0.AllFixed) : s.Safe ∧ s.Mutex ∧ s.AllFixed := by
  induction h with
  | here => exact h0
  | step _ hs hne ih => exact ⟨ih.1.step hs, ih.2.1.step hs, ih.2.2.step ih.1 ih.2.1 hs hne⟩

/-- **C62** (partial: no empty set is published). However writes, `Metrics` and `PopulateMetrics` calls overlap: a set of names, once published, is never modified again, also after it was replaced by a newer one
(writers and listings may still be reading it). -/
theorem C62_forever_partial {workers : Nat} {disk : List Bytes} {nw nm np : Nat} {s s' : NSys} (h : NSys.Runs (NSys.init workers disk nw nm np) s) {q : Nat} (hq : s.names = some q)
    (h' : NSys.Runs s s') : s'.heap q = s.heap q := by
  have h0 : (NSys.init workers disk nw nm np).Safe ∧ (NSys.init workers disk nw nm np).Mutex ∧ (NSys.init workers disk nw nm np).AllFixed :=
    ⟨NSys.Safe.init .., NSys.Mutex.init .., fun q hq => by cases hq⟩
  have hs := h.inv h0
  have some' : ∀ {t t' : NSys}, t.Step false t' → (∃ p, t.names = some p) → ∃ p, t'.names = some p := by
    intro t t' hst ⟨p, hp⟩
    cases hst with
    | merge k i ptr p' a0 c s1 t1 hk ht =>
      refine ⟨p, ?_⟩
      show s1.names = some p
      unfold NSys.target at ht
      split at ht
      · cases ht; exact hp
      · rw [hp] at ht; dsimp only at ht
        split at ht <;> cases ht <;> exact hp
    | finish k ptr i a0 hk hi => exact ⟨ptr, rfl⟩
    | publish k base els hk hmu hb he => exact ⟨_, rfl⟩
    | _ => exact ⟨p, hp⟩
  suffices hall : s'.heap q = s.heap q ∧ s'.Fixed q ∧ ∃ p, s'.names = some p from hall.1
  induction h' with
  | here => exact ⟨rfl, (hs.2.2 q hq).2, q, hq⟩
  | step hr hst hne ih =>
    obtain ⟨e, hf, p, hp⟩ := ih
    have hi := hr.inv hs
    obtain ⟨e', hf'⟩ := hf.step ⟨p, hp, (hi.2.2 p hp).1⟩ hst
    exact ⟨by rw [e', e], hf', some' hst ⟨p, hp⟩⟩

/-- The hypotheses of `C62_forever_partial` can be met with calls that overlap: two calls of `Metrics` run at the same time; the set the first one publishes is replaced by the second one's and stays as it was. -/
theorem C62_forever_example : ∃ s s' q q', NSys.Runs (NSys.init 1 [] 2 2 0) s ∧ s.names = some q ∧ NSys.Runs s s' ∧ s'.names = some q' ∧ q' ≠ q ∧ (s.heap q).order = [[97]] ∧ (s'.heap q').order = [[97], [98]] := by
  have s0 : NSys.Runs (NSys.init 1 [] 2 2 0) _ := .here
  have n0 : ∀ {t : NSys}, t.names = none → ∀ q, t.names = some q → (t.heap q).len > 0 := fun e q hq => by rw [e] at hq; cases hq
  have s1 := s0.step (.write 0 0 [97] rfl (by decide)) (n0 rfl)
  have s2 := s1.step (.unknown 0 0 [97] rfl rfl) (n0 rfl)
  have s3 := s2.step (.add 0 0 0 [97] rfl rfl) (n0 rfl)
  have s4 := s3.step (.beginNew 0 (by simp) rfl rfl) (n0 rfl)
  have s5 := s4.step (.range 0 0 1 0 _ false rfl rfl) (n0 rfl)
  have s6 := s5.step (.beginNew 1 (by simp) rfl rfl) (n0 rfl)
  have s7 := s6.step (.need 0 0 1 0 _ rfl (by decide +kernel)) (n0 rfl)
  have s8 := s7.step (.lock 0 0 1 0 _ rfl rfl) (n0 rfl)
  have s9 := s8.step (.merge 0 0 1 0 _ false _ 1 rfl rfl) (n0 rfl)
  have s10 := s9.step (.finish 0 1 1 _ rfl (by decide)) (fun q hq => by cases hq; decide +kernel)
  refine ⟨_, _, 1, _, s10, rfl, ((((((((NSys.Runs.here.step (.write 1 0 [98] rfl (by decide)) (fun q hq => by cases hq; decide +kernel)).step
    (.unknown 1 0 [98] rfl (by decide +kernel)) (fun q hq => by cases hq; decide +kernel)).step (.add 1 0 3 [98] rfl rfl) (fun q hq => by cases hq; decide +kernel)).step
    (.range 1 0 2 3 _ false rfl rfl) (fun q hq => by cases hq; decide +kernel)).step (.need 1 0 2 3 _ rfl (by decide +kernel)) (fun q hq => by cases hq; decide +kernel)).step
    (.lock 1 0 2 3 _ rfl rfl) (fun q hq => by cases hq; decide +kernel)).step
    (.merge 1 0 2 3 _ false _ 4 rfl (by unfold NSys.target; rw [if_neg (by simp)]; exact if_pos (by decide +kernel))) (fun q hq => by cases hq; decide +kernel)).step
    (.finish 1 4 1 _ rfl (by decide)) (fun q hq => by cases hq; decide +kernel)), rfl, by decide, by decide +kernel, by decide +kernel⟩

end Rothko
