import Verif.Model.LockPool
/-!
# C30: per-key locks
-/
namespace Rothko

/-- The goroutine counts in the reference count of `st`. -/
def LPc.uses (st : Nat) : LPc → Bool
  | .waiting _ st' => st' == st
  | .holding _ st' => st' == st
  | _ => false

/-- The goroutine has the mutex of `st`. -/
def LPc.owns (st : Nat) : LPc → Bool
  | .holding _ st' => st' == st
  | .unlocking st' => st' == st
  | _ => false

/-- The goroutine is inside with key `k`. -/
def LPc.keyed (k : Bytes) (st : Nat) (pc : LPc) : Prop := pc = .waiting k st ∨ pc = .holding k st

structure LPool.Ok (s : LPool) : Prop where
  ok : s.crashed = false
  alloc : ∀ k st, s.locks k = some st → st < s.next
  inj : ∀ k k' st, s.locks k = some st → s.locks k' = some st → k = k'
  pos : ∀ k st, s.locks k = some st → 0 < s.pcs.countP (LPc.uses st)
  ref : ∀ st, (s.heap st).ref = s.pcs.countP (LPc.uses st)
  key : ∀ pc ∈ s.pcs, ∀ k st, pc.keyed k st → s.locks k = some st
  held : ∀ st, s.pcs.countP (LPc.owns st) = if (s.heap st).held then 1 else 0
  fresh : ∀ pc ∈ s.pcs, ∀ st, pc.uses st = true ∨ pc.owns st = true → st < s.next

theorem countP_set {p : LPc → Bool} {l : List LPc} {i : Nat} {a : LPc} (b : LPc) (h : l[i]? = some a) :
    (l.set i b).countP p + (if p a then 1 else 0) = l.countP p + (if p b then 1 else 0) := by
  induction l generalizing i with
  | nil => simp at h
  | cons x l ih =>
    cases i with
    | zero =>
      simp at h; subst h
      simp only [List.set_cons_zero, List.countP_cons]; omega
    | succ i =>
      simp only [List.getElem?_cons_succ] at h
      have := ih h
      simp only [List.set_cons_succ, List.countP_cons]; omega

theorem mem_set_cases {l : List LPc} {i : Nat} {b pc : LPc} (h : pc ∈ l.set i b) : pc = b ∨ pc ∈ l := by
  rcases List.mem_or_eq_of_mem_set h with h | h
  · exact Or.inr h
  · exact Or.inl h

theorem LPool.init_ok (n : Nat) : (LPool.init n).Ok := by
  have hm : ∀ pc ∈ (LPool.init n).pcs, pc = .idle := fun pc h => (List.mem_replicate.mp h).2
  have hc : ∀ p : LPc → Bool, p .idle = false → (LPool.init n).pcs.countP p = 0 := by
    intro p hp
    rw [List.countP_eq_zero]
    intro a ha; rw [hm a ha, hp]; simp
  refine ⟨rfl, by simp [LPool.init], by simp [LPool.init], by simp [LPool.init], ?_, ?_, ?_, ?_⟩
  · intro st; rw [hc _ rfl]; rfl
  · intro pc h k st hk; rw [hm pc h] at hk; rcases hk with hk | hk <;> cases hk
  · intro st; rw [hc _ rfl]; rfl
  · intro pc h st hk; rw [hm pc h] at hk; rcases hk with hk | hk <;> cases hk

theorem countP_pos_of {p : LPc → Bool} {l : List LPc} {pc : LPc} (h : pc ∈ l) (hp : p pc = true) : 0 < l.countP p :=
  List.countP_pos_iff.mpr ⟨pc, h, hp⟩

theorem LPool.Ok.call {s : LPool} (h : s.Ok) {i : Nat} (key : Bytes) (hi : s.pcs[i]? = some .idle) :
    ((s.lockFirst key).2.setPc i (.waiting key (s.lockFirst key).1)).Ok := by
  unfold LPool.lockFirst
  cases hk : s.locks key with
  | some st =>
    simp only [LPool.setHeap, LPool.setPc]
    have hcu : ∀ a, (s.pcs.set i (.waiting key st)).countP (LPc.uses a) = s.pcs.countP (LPc.uses a) + (if st == a then 1 else 0) := by
      intro a; have := countP_set (p := LPc.uses a) (.waiting key st) hi; simp [LPc.uses] at this ⊢; omega
    have hco : ∀ a, (s.pcs.set i (.waiting key st)).countP (LPc.owns a) = s.pcs.countP (LPc.owns a) := by
      intro a; have := countP_set (p := LPc.owns a) (.waiting key st) hi; simp [LPc.owns] at this; omega
    refine ⟨h.ok, h.alloc, h.inj, ?_, ?_, ?_, ?_, ?_⟩
    · intro k a hka; have := h.pos k a hka; rw [hcu]; omega
    · intro a
      rw [hcu]
      have := h.ref a
      by_cases ha : a = st
      · subst ha; simp; omega
      · simp [ha, Ne.symm ha, this]
    · intro pc hm k a hka
      rcases mem_set_cases hm with rfl | hm
      · rcases hka with hka | hka <;> cases hka
        exact hk
      · exact h.key pc hm k a hka
    · intro a
      rw [hco, h.held a]
      by_cases ha : a = st
      · subst ha; simp
      · simp [ha]
    · intro pc hm a hu
      rcases mem_set_cases hm with rfl | hm
      · simp [LPc.uses, LPc.owns] at hu; subst hu; exact h.alloc key _ hk
      · exact h.fresh pc hm a hu
  | none =>
    simp only [LPool.setHeap, LPool.setPc]
    have hz : ∀ pc ∈ s.pcs, pc.uses s.next = false ∧ pc.owns s.next = false := by
      intro pc hm
      have := h.fresh pc hm s.next
      constructor
      · cases hu : pc.uses s.next
        · rfl
        · exact absurd (this (Or.inl hu)) (Nat.lt_irrefl _)
      · cases hu : pc.owns s.next
        · rfl
        · exact absurd (this (Or.inr hu)) (Nat.lt_irrefl _)
    have hcu : ∀ a, (s.pcs.set i (.waiting key s.next)).countP (LPc.uses a) = s.pcs.countP (LPc.uses a) + (if s.next == a then 1 else 0) := by
      intro a; have := countP_set (p := LPc.uses a) (.waiting key s.next) hi; simp [LPc.uses] at this ⊢; omega
    have hco : ∀ a, (s.pcs.set i (.waiting key s.next)).countP (LPc.owns a) = s.pcs.countP (LPc.owns a) := by
      intro a; have := countP_set (p := LPc.owns a) (.waiting key s.next) hi; simp [LPc.owns] at this; omega
    have h0u : s.pcs.countP (LPc.uses s.next) = 0 := by rw [List.countP_eq_zero]; intro a ha; rw [(hz a ha).1]; simp
    have h0o : s.pcs.countP (LPc.owns s.next) = 0 := by rw [List.countP_eq_zero]; intro a ha; rw [(hz a ha).2]; simp
    refine ⟨h.ok, ?_, ?_, ?_, ?_, ?_, ?_, ?_⟩
    · intro k a hka
      simp only at hka ⊢
      split at hka
      · cases hka; omega
      · have := h.alloc k a hka; omega
    · intro k k' a h1 h2
      simp only at h1 h2
      split at h1 <;> split at h2
      · simp_all
      · cases h1; have := h.alloc k' _ h2; omega
      · cases h2; have := h.alloc k _ h1; omega
      · exact h.inj k k' a h1 h2
    · intro k a hka
      simp only at hka
      rw [hcu]
      split at hka
      · cases hka; simp
      · have := h.pos k a hka; omega
    · intro a
      rw [hcu]
      by_cases ha : a = s.next
      · subst ha; simp [h0u]
      · simp [ha, Ne.symm ha, h.ref a]
    · intro pc hm k a hka
      rcases mem_set_cases hm with rfl | hm
      · rcases hka with hka | hka <;> cases hka
        simp
      · have := h.key pc hm k a hka
        have hne : k ≠ key := by rintro rfl; rw [hk] at this; cases this
        simp [hne, this]
    · intro a
      rw [hco]
      by_cases ha : a = s.next
      · subst ha; simp [h0o]
      · simp only [ha, if_false, h.held a]
    · intro pc hm a hu
      simp only
      rcases mem_set_cases hm with rfl | hm
      · simp [LPc.uses, LPc.owns] at hu; omega
      · have := h.fresh pc hm a hu; omega

theorem LPool.Ok.step {s s' : LPool} {i : Nat} (h : s.Ok) (hs : s.Step i s') : s'.Ok := by
  cases hs with
  | call key hi => exact h.call key hi
  | enter key st hi hfree =>
    simp only [LPool.setHeap, LPool.setPc]
    have hmem := List.mem_of_getElem? hi
    have hcu : ∀ a, (s.pcs.set i (.holding key st)).countP (LPc.uses a) = s.pcs.countP (LPc.uses a) := by
      intro a; have := countP_set (p := LPc.uses a) (.holding key st) hi; simp [LPc.uses] at this; omega
    have hco : ∀ a, (s.pcs.set i (.holding key st)).countP (LPc.owns a) = s.pcs.countP (LPc.owns a) + (if st == a then 1 else 0) := by
      intro a; have := countP_set (p := LPc.owns a) (.holding key st) hi; simp [LPc.owns] at this ⊢; omega
    refine ⟨h.ok, h.alloc, h.inj, ?_, ?_, ?_, ?_, ?_⟩
    · intro k a hka; rw [hcu]; exact h.pos k a hka
    · intro a; rw [hcu]
      by_cases ha : a = st
      · subst ha; simp [h.ref]
      · simp [ha, h.ref]
    · intro pc hm k a hka
      rcases mem_set_cases hm with rfl | hm
      · rcases hka with hka | hka <;> cases hka
        exact h.key _ hmem _ _ (Or.inl rfl)
      · exact h.key pc hm k a hka
    · intro a; rw [hco, h.held a]
      by_cases ha : a = st
      · subst ha; simp [hfree]
      · simp [ha, Ne.symm ha]
    · intro pc hm a hu
      rcases mem_set_cases hm with rfl | hm
      · simp [LPc.uses, LPc.owns] at hu; subst hu
        exact h.fresh _ hmem st (Or.inl (by simp [LPc.uses]))
      · exact h.fresh pc hm a hu
  | leave key st st' s1 hi hu =>
    have hmem := List.mem_of_getElem? hi
    have hk := h.key _ hmem key st (Or.inr rfl)
    unfold LPool.unlockFirst at hu
    rw [hk] at hu
    simp only [LPool.setHeap, Option.some.injEq, Prod.mk.injEq] at hu
    obtain ⟨rfl, hu⟩ := hu
    have hcu : ∀ a, (s.pcs.set i (.unlocking st)).countP (LPc.uses a) + (if st == a then 1 else 0) = s.pcs.countP (LPc.uses a) := by
      intro a; have := countP_set (p := LPc.uses a) (.unlocking st) hi; simp [LPc.uses] at this ⊢; omega
    have hco : ∀ a, (s.pcs.set i (.unlocking st)).countP (LPc.owns a) = s.pcs.countP (LPc.owns a) := by
      intro a; have := countP_set (p := LPc.owns a) (.unlocking st) hi; simp [LPc.owns] at this; omega
    have hst : (s.pcs.set i (.unlocking st)).countP (LPc.uses st) + 1 = s.pcs.countP (LPc.uses st) := by simpa using hcu st
    have hne : ∀ a, a ≠ st → (s.pcs.set i (.unlocking st)).countP (LPc.uses a) = s.pcs.countP (LPc.uses a) := by
      intro a ha; have := hcu a; simp [Ne.symm ha] at this; exact this
    have hfresh : ∀ pc ∈ s.pcs.set i (.unlocking st), ∀ a, pc.uses a = true ∨ pc.owns a = true → a < s.next := by
      intro pc hm a hu
      rcases mem_set_cases hm with rfl | hm
      · simp [LPc.uses, LPc.owns] at hu; subst hu
        exact h.fresh _ hmem st (Or.inl (by simp [LPc.uses]))
      · exact h.fresh pc hm a hu
    have href : ∀ a, (if a = st then ({ s.heap st with ref := (s.heap st).ref - 1 } : LPState) else s.heap a).ref = ((s.pcs.set i (.unlocking st)).countP (LPc.uses a) : Nat) := by
      intro a
      by_cases ha : a = st
      · subst ha; simp [h.ref]; omega
      · simp [ha, h.ref, hne a ha]
    have hheld : ∀ a, (s.pcs.set i (.unlocking st)).countP (LPc.owns a) = if (if a = st then ({ s.heap st with ref := (s.heap st).ref - 1 } : LPState) else s.heap a).held then 1 else 0 := by
      intro a; rw [hco, h.held a]
      by_cases ha : a = st
      · subst ha; simp
      · simp [ha]
    have hkeyed : ∀ pc ∈ s.pcs.set i (.unlocking st), ∀ k a, pc.keyed k a → s.locks k = some a := by
      intro pc hm k a hka
      rcases mem_set_cases hm with rfl | hm
      · rcases hka with hka | hka <;> cases hka
      · exact h.key pc hm k a hka
    by_cases hz : (s.heap st).ref - 1 = 0
    · rw [if_pos hz] at hu
      subst hu
      simp only [LPool.setPc]
      have h0 : (s.pcs.set i (.unlocking st)).countP (LPc.uses st) = 0 := by
        have := h.ref st; omega
      refine ⟨h.ok, ?_, ?_, ?_, href, ?_, hheld, hfresh⟩
      · intro k a hka
        simp only at hka
        split at hka
        · cases hka
        · exact h.alloc k a hka
      · intro k k' a h1 h2
        simp only at h1 h2
        split at h1
        · cases h1
        · split at h2
          · cases h2
          · exact h.inj k k' a h1 h2
      · intro k a hka
        simp only at hka
        split at hka
        · cases hka
        · next hkk =>
          have : a ≠ st := by rintro rfl; exact hkk (h.inj k key a hka hk)
          rw [hne a this]; exact h.pos k a hka
      · intro pc hm k a hka
        have hl := hkeyed pc hm k a hka
        simp only
        rw [if_neg]
        · exact hl
        · rintro rfl
          rw [hk] at hl; cases hl
          have hu : pc.uses st = true := by rcases hka with rfl | rfl <;> simp [LPc.uses]
          have hpos := countP_pos_of hm hu
          simp only at hpos
          omega
    · rw [if_neg hz] at hu
      subst hu
      simp only [LPool.setPc]
      refine ⟨h.ok, h.alloc, h.inj, ?_, href, hkeyed, hheld, hfresh⟩
      intro k a hka
      by_cases ha : a = st
      · subst ha
        have h1 := h.ref a
        have h2 := h.pos k a hka
        simp only
        omega
      · rw [hne a ha]; exact h.pos k a hka
  | panic key st hi hu =>
    have hk := h.key _ (List.mem_of_getElem? hi) key st (Or.inr rfl)
    unfold LPool.unlockFirst at hu
    rw [hk] at hu; cases hu
  | done st hi hheld =>
    simp only [LPool.setHeap, LPool.setPc]
    have hcu : ∀ a, (s.pcs.set i .idle).countP (LPc.uses a) = s.pcs.countP (LPc.uses a) := by
      intro a; have := countP_set (p := LPc.uses a) .idle hi; simp [LPc.uses] at this; omega
    have hco : ∀ a, (s.pcs.set i .idle).countP (LPc.owns a) + (if st == a then 1 else 0) = s.pcs.countP (LPc.owns a) := by
      intro a; have := countP_set (p := LPc.owns a) .idle hi; simp [LPc.owns] at this ⊢; omega
    refine ⟨h.ok, h.alloc, h.inj, ?_, ?_, ?_, ?_, ?_⟩
    · intro k a hka; rw [hcu]; exact h.pos k a hka
    · intro a; rw [hcu]
      by_cases ha : a = st
      · subst ha; simp [h.ref]
      · simp [ha, h.ref]
    · intro pc hm k a hka
      rcases mem_set_cases hm with rfl | hm
      · rcases hka with hka | hka <;> cases hka
      · exact h.key pc hm k a hka
    · intro a
      have h1 := hco a
      have h2 := h.held a
      by_cases ha : a = st
      · subst ha; simp [hheld] at h1 h2 ⊢
        have : (s.pcs.set i .idle).countP (LPc.owns a) = 0 := by omega
        rw [List.countP_eq_zero] at this
        simpa using this
      · simp [ha, Ne.symm ha] at h1 ⊢
        rw [h1, h2]
    · intro pc hm a hu
      rcases mem_set_cases hm with rfl | hm
      · simp [LPc.uses, LPc.owns] at hu
      · exact h.fresh pc hm a hu
  | fatal st hi hheld =>
    exfalso
    have := countP_pos_of (p := LPc.owns st) (List.mem_of_getElem? hi) (by simp [LPc.owns])
    rw [h.held st, hheld] at this
    simp at this

theorem LPool.Reach.ok {n : Nat} {s : LPool} (h : LPool.Reach n s) : s.Ok := by
  induction h with
  | init => exact LPool.init_ok n
  | step _ hs ih => exact ih.step hs

/-- **C30.** Two goroutines are never both between `Lock(k)` and `Unlock(k)`. -/
theorem C30_exclusive {n : Nat} {s : LPool} (h : LPool.Reach n s) (i j : Nat) (k : Bytes) (st st' : Nat)
    (hi : s.pcs[i]? = some (.holding k st)) (hj : s.pcs[j]? = some (.holding k st')) : i = j := by
  have ok := h.ok
  have h1 := ok.key _ (List.mem_of_getElem? hi) k st (Or.inr rfl)
  have h2 := ok.key _ (List.mem_of_getElem? hj) k st' (Or.inr rfl)
  rw [h1] at h2; cases h2
  apply Decidable.byContradiction
  intro hne
  -- take one of them out: the other still counts
  have hc := countP_set (p := LPc.owns st) .idle hi
  have hj' : (s.pcs.set i .idle)[j]? = some (.holding k st) := by rw [List.getElem?_set_ne hne]; exact hj
  have hp := countP_pos_of (p := LPc.owns st) (List.mem_of_getElem? hj') (by simp [LPc.owns])
  have hh := ok.held st
  simp [LPc.owns] at hc
  split at hh <;> omega

/-- **C30.** Nothing ever panics (unlocking a held key finds its state, and the mutex unlocked is locked). -/
theorem C30_no_panic {n : Nat} {s : LPool} (h : LPool.Reach n s) : s.crashed = false := h.ok.ok

/-- **C30.** A key has a state exactly while some goroutine waits for it or holds it. -/
theorem C30_dropped {n : Nat} {s : LPool} (h : LPool.Reach n s) (k : Bytes) :
    (∃ st, s.locks k = some st) ↔ ∃ pc ∈ s.pcs, ∃ st, pc = .waiting k st ∨ pc = .holding k st := by
  have ok := h.ok
  constructor
  · rintro ⟨st, hk⟩
    obtain ⟨pc, hm, hu⟩ := List.countP_pos_iff.mp (ok.pos k st hk)
    refine ⟨pc, hm, st, ?_⟩
    cases pc with
    | idle => simp [LPc.uses] at hu
    | unlocking _ => simp [LPc.uses] at hu
    | waiting k' st' =>
      simp [LPc.uses] at hu; subst hu
      have := ok.key _ hm k' st' (Or.inl rfl)
      rw [ok.inj k k' st' hk this]; exact Or.inl rfl
    | holding k' st' =>
      simp [LPc.uses] at hu; subst hu
      have := ok.key _ hm k' st' (Or.inr rfl)
      rw [ok.inj k k' st' hk this]; exact Or.inr rfl
  · rintro ⟨pc, hm, st, hp⟩
    exact ⟨st, ok.key pc hm k st hp⟩

/-- **C30.** A free key can be locked: if goroutine `i` waits for `k` and no goroutine holds `k`, then either `i` can enter at once, or another goroutine that is about to finish its
`Unlock` can do so, and then `i` can enter. -/
theorem C30_progress {n : Nat} {s : LPool} (h : LPool.Reach n s) (i : Nat) (k : Bytes) (st : Nat) (hi : s.pcs[i]? = some (.waiting k st))
    (hfree : ∀ (j : Nat) (st' : Nat), s.pcs[j]? ≠ some (LPc.holding k st')) :
    (∃ s', s.Step i s' ∧ s'.pcs[i]? = some (.holding k st)) ∨
    (∃ j s1 s2, s.Step j s1 ∧ s1.Step i s2 ∧ s2.pcs[i]? = some (.holding k st)) := by
  have ok := h.ok
  have hlen : i < s.pcs.length := (List.getElem?_eq_some_iff.mp hi).1
  have henter : ∀ s : LPool, s.pcs[i]? = some (.waiting k st) → (s.heap st).held = false →
      ∃ s', s.Step i s' ∧ s'.pcs[i]? = some (.holding k st) := by
    intro s hi hh
    refine ⟨_, .enter k st hi hh, ?_⟩
    simp only [LPool.setPc, LPool.setHeap]
    rw [List.getElem?_set_self (List.getElem?_eq_some_iff.mp hi).1]
  cases hh : (s.heap st).held with
  | false => exact Or.inl (henter s hi hh)
  | true =>
    right
    have hc := ok.held st
    rw [hh] at hc
    obtain ⟨pc, hm, hu⟩ := List.countP_pos_iff.mp (show 0 < s.pcs.countP (LPc.owns st) by rw [hc]; simp)
    obtain ⟨j, hj⟩ := List.getElem?_of_mem hm
    have hki := ok.key _ (List.mem_of_getElem? hi) k st (Or.inl rfl)
    cases pc with
    | idle => simp [LPc.owns] at hu
    | waiting _ _ => simp [LPc.owns] at hu
    | holding k' st' =>
      simp [LPc.owns] at hu; subst hu
      have := ok.key _ hm k' st' (Or.inr rfl)
      have hkk := ok.inj k k' st' hki this
      subst hkk
      exact absurd hj (hfree j st')
    | unlocking st' =>
      simp [LPc.owns] at hu; subst hu
      have hij : j ≠ i := by rintro rfl; rw [hi] at hj; cases hj
      obtain ⟨s2, e1, e2⟩ := henter ((s.setHeap st' { s.heap st' with held := false }).setPc j .idle)
        (by simp only [LPool.setPc, LPool.setHeap]; rw [List.getElem?_set_ne hij]; exact hi) (by simp [LPool.setPc, LPool.setHeap])
      exact ⟨j, _, s2, .done st' hj hh, e1, e2⟩

/-- Test of C30: goroutine 0 is in the middle of `Unlock` while goroutine 1 already has a new lock on the same key. -/
example : ∃ s, LPool.Reach 2 s ∧ s.pcs = [.unlocking 0, .holding [7] 1] ∧ s.locks [7] = some 1 :=
  ⟨_, .step (i := 1) (.step (i := 1) (.step (i := 0) (.step (i := 0) (.step (i := 0) .init (.call [7] rfl)) (.enter [7] 0 rfl rfl)) (.leave [7] 0 0 _ rfl rfl)) (.call [7] rfl)) (.enter [7] 1 rfl rfl), rfl, rfl⟩

end Rothko
