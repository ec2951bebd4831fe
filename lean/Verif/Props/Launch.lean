import Verif.Model.Launch
import Verif.Lemmas.QueueRun
/-!
# C54: the task group
-/
namespace Rothko

/-- The result the task has sent. -/
def LTask.result {E : Type} : LTask E → Option (Option E)
  | .sent r => some r
  | .done r => some r
  | _ => none

/-- How many tasks have sent. -/
def sentCount {E : Type} (l : List (LTask E)) : Nat := l.countP (fun t => t.result.isSome)

theorem sentCount_set {E : Type} {l : List (LTask E)} {i : Nat} {a : LTask E} (b : LTask E) (h : l[i]? = some a) :
    sentCount (l.set i b) + (if a.result.isSome then 1 else 0) = sentCount l + (if b.result.isSome then 1 else 0) := by
  unfold sentCount
  induction l generalizing i with
  | nil => simp at h
  | cons x l ih =>
    cases i with
    | zero =>
      simp at h
      subst h
      simp only [List.set_cons_zero, List.countP_cons]
      omega
    | succ i =>
      simp at h
      have := ih h
      simp only [List.set_cons_succ, List.countP_cons]
      omega

/-- What is known of `Launch` by where it is. -/
def MainOk {E : Type} (s : LSys E) : Prop :=
  match s.main with
  | .recv => (∀ j, j < s.recvd → s.sends[j]? = some none) ∧ (s.recvd > 0 → s.cancelled = true)
  | .cancel => (∀ j, j < s.recvd → s.sends[j]? = some none) ∧ s.recvd > 0
  | .ret none => (∀ j, j < s.recvd → s.sends[j]? = some none) ∧ s.recvd = s.tasks.length
  | .wait none | .fin none => (∀ j, j < s.recvd → s.sends[j]? = some none) ∧ s.recvd = s.tasks.length ∧ s.cancelled = true
  | .ret (some e) => ∃ k, s.recvd = k + 1 ∧ (∀ j, j < k → s.sends[j]? = some none) ∧ s.sends[k]? = some (some e)
  | .wait (some e) | .fin (some e) => (∃ k, s.recvd = k + 1 ∧ (∀ j, j < k → s.sends[j]? = some none) ∧ s.sends[k]? = some (some e)) ∧ s.cancelled = true

structure LInv {E : Type} (n : Nat) (s : LSys E) : Prop where
  len : s.tasks.length = n
  recvd : s.recvd ≤ s.sends.length
  count : s.sends.length = sentCount s.tasks
  src : ∀ r ∈ s.sends, ∃ (i : Nat) (t : LTask E), s.tasks[i]? = some t ∧ t.result = some r
  got : ∀ (i : Nat) (t : LTask E) (r : Option E), s.tasks[i]? = some t → t.result = some r → r ∈ s.sends
  fin : ∀ r, s.main = .fin r → ∀ t ∈ s.tasks, t.isDone = true
  main : MainOk s

theorem src_set {E : Type} {s : LSys E} {i : Nat} {a b : LTask E} (h : s.tasks[i]? = some a) (hr : a.result = none ∨ b.result = a.result)
    (hs : ∀ r ∈ s.sends, ∃ (i : Nat) (t : LTask E), s.tasks[i]? = some t ∧ t.result = some r) :
    ∀ r ∈ s.sends, ∃ (j : Nat) (t : LTask E), (s.tasks.set i b)[j]? = some t ∧ t.result = some r := by
  intro r hrm
  obtain ⟨j, t, h1, h2⟩ := hs r hrm
  by_cases hj : i = j
  · subst hj
    rw [h] at h1; cases h1
    rcases hr with hr | hr
    · rw [hr] at h2; cases h2
    · exact ⟨i, b, List.getElem?_set_self (List.getElem?_eq_some_iff.mp h).1, hr.trans h2⟩
  · exact ⟨j, t, by rw [List.getElem?_set_ne hj]; exact h1, h2⟩

theorem prefix_none {E : Type} {l : List (Option E)} {k : Nat} (h : ∀ j, j < k → l[j]? = some none) (x : Option E) : ∀ j, j < k → (l ++ [x])[j]? = some none := by
  intro j hj
  have := h j hj
  rw [List.getElem?_append_left (List.getElem?_eq_some_iff.mp this).1]
  exact this

/-- `MainOk` only looks at the number of tasks, and grows with the sends. -/
theorem mainOk_grow {E : Type} {s : LSys E} {tasks : List (LTask E)} (x : List (Option E)) (ht : tasks.length = s.tasks.length) (h : MainOk s) :
    MainOk { s with tasks := tasks, sends := s.sends ++ x } := by
  have app : ∀ (k : Nat) (v : Option E), s.sends[k]? = some v → (s.sends ++ x)[k]? = some v := by
    intro k v hv
    rw [List.getElem?_append_left (List.getElem?_eq_some_iff.mp hv).1]; exact hv
  unfold MainOk at h ⊢
  cases hm : s.main with
  | recv => rw [hm] at h; exact ⟨fun j hj => app _ _ (h.1 j hj), h.2⟩
  | cancel => rw [hm] at h; exact ⟨fun j hj => app _ _ (h.1 j hj), h.2⟩
  | ret r =>
    rw [hm] at h
    cases r with
    | none => exact ⟨fun j hj => app _ _ (h.1 j hj), h.2.trans ht.symm⟩
    | some e => obtain ⟨k, h1, h2, h3⟩ := h; exact ⟨k, h1, fun j hj => app _ _ (h2 j hj), app _ _ h3⟩
  | wait r =>
    rw [hm] at h
    cases r with
    | none => exact ⟨fun j hj => app _ _ (h.1 j hj), h.2.1.trans ht.symm, h.2.2⟩
    | some e => obtain ⟨⟨k, h1, h2, h3⟩, h4⟩ := h; exact ⟨⟨k, h1, fun j hj => app _ _ (h2 j hj), app _ _ h3⟩, h4⟩
  | fin r =>
    rw [hm] at h
    cases r with
    | none => exact ⟨fun j hj => app _ _ (h.1 j hj), h.2.1.trans ht.symm, h.2.2⟩
    | some e => obtain ⟨⟨k, h1, h2, h3⟩, h4⟩ := h; exact ⟨⟨k, h1, fun j hj => app _ _ (h2 j hj), app _ _ h3⟩, h4⟩

theorem fin_tasks {E : Type} {n : Nat} {s : LSys E} (inv : LInv n s) {i : Nat} {t : LTask E} (h : s.tasks[i]? = some t) (ht : t.isDone = false) (r : Option E) : s.main ≠ .fin r := by
  intro hm
  have := inv.fin r hm t (List.mem_of_getElem? h)
  rw [ht] at this; cases this

theorem linv_step {E : Type} {n : Nat} {s s' : LSys E} (inv : LInv n s) (hs : LStep s s') : LInv n s' := by
  cases hs with
  | taskReturns i r h =>
    refine ⟨by simp [inv.len], inv.recvd, ?_, src_set h (Or.inl rfl) inv.src, ?_, fun r hm => absurd hm (fin_tasks inv h rfl r), ?_⟩
    · have := sentCount_set (.ret r) h
      simp [LTask.result] at this
      dsimp only
      rw [this]; exact inv.count
    · intro j t r' h1 h2
      rcases getElem?_set_cases h h1 with ⟨_, rfl⟩ | ⟨_, h1⟩
      · cases h2
      · exact inv.got j t r' h1 h2
    · have := mainOk_grow (tasks := s.tasks.set i (.ret r)) [] (by simp) inv.main
      simpa using this
  | send i r h room =>
    refine ⟨by simp [inv.len], ?_, ?_, ?_, ?_, fun r hm => absurd hm (fin_tasks inv h rfl r), mainOk_grow [r] (by simp) inv.main⟩
    · have := inv.recvd; simp; omega
    · have := sentCount_set (.sent r) h
      simp [LTask.result] at this
      simp [inv.count, this]
    · intro x hx
      rcases List.mem_append.mp hx with hx | hx
      · exact src_set h (Or.inl rfl) inv.src x hx
      · rw [List.mem_singleton] at hx
        subst hx
        exact ⟨i, _, List.getElem?_set_self (List.getElem?_eq_some_iff.mp h).1, rfl⟩
    · intro j t r' h1 h2
      rcases getElem?_set_cases h h1 with ⟨_, rfl⟩ | ⟨_, h1⟩
      · cases h2; simp
      · exact List.mem_append_left _ (inv.got j t r' h1 h2)
  | wgDone i r h =>
    refine ⟨by simp [inv.len], inv.recvd, ?_, src_set h (Or.inr rfl) inv.src, ?_, fun r hm => absurd hm (fin_tasks inv h rfl r), ?_⟩
    · have := sentCount_set (.done r) h
      simp [LTask.result] at this
      dsimp only
      rw [this]; exact inv.count
    · intro j t r' h1 h2
      rcases getElem?_set_cases h h1 with ⟨_, rfl⟩ | ⟨_, h1⟩
      · exact inv.got i _ r' h h2
      · exact inv.got j t r' h1 h2
    · have := mainOk_grow (tasks := s.tasks.set i (.done r)) [] (by simp) inv.main
      simpa using this
  | parent =>
    refine ⟨inv.len, inv.recvd, inv.count, inv.src, inv.got, inv.fin, ?_⟩
    have h := inv.main
    unfold MainOk at h ⊢
    cases hm : s.main with
    | recv => rw [hm] at h; exact ⟨h.1, fun _ => rfl⟩
    | cancel => rw [hm] at h; exact h
    | ret r => rw [hm] at h; cases r <;> exact h
    | wait r => rw [hm] at h; cases r with
      | none => exact ⟨h.1, h.2.1, rfl⟩
      | some e => exact ⟨h.1, rfl⟩
    | fin r => rw [hm] at h; cases r with
      | none => exact ⟨h.1, h.2.1, rfl⟩
      | some e => exact ⟨h.1, rfl⟩
  | recvErr e hm hl h =>
    have hl' := (List.getElem?_eq_some_iff.mp h).1
    refine ⟨inv.len, hl', inv.count, inv.src, inv.got, (by intro r hm'; cases hm'), ?_⟩
    have := inv.main
    unfold MainOk at this
    rw [hm] at this
    exact ⟨s.recvd, rfl, this.1, h⟩
  | recvNil hm hl h =>
    have hl' := (List.getElem?_eq_some_iff.mp h).1
    refine ⟨inv.len, hl', inv.count, inv.src, inv.got, (by intro r hm'; cases hm'), ?_⟩
    have := inv.main
    unfold MainOk at this
    rw [hm] at this
    refine ⟨?_, Nat.succ_pos _⟩
    intro j hj
    dsimp only at hj
    by_cases hjr : j < s.recvd
    · exact this.1 j hjr
    · rw [show j = s.recvd by omega]; exact h
  | cancel hm =>
    refine ⟨inv.len, inv.recvd, inv.count, inv.src, inv.got, (by intro r hm'; cases hm'), ?_⟩
    have := inv.main
    unfold MainOk at this
    rw [hm] at this
    exact ⟨this.1, fun _ => rfl⟩
  | loopEnd hm hl =>
    refine ⟨inv.len, inv.recvd, inv.count, inv.src, inv.got, (by intro r hm'; cases hm'), ?_⟩
    have := inv.main
    unfold MainOk at this
    rw [hm] at this
    exact ⟨this.1, hl⟩
  | deferCancel r hm =>
    refine ⟨inv.len, inv.recvd, inv.count, inv.src, inv.got, (by intro r hm'; cases hm'), ?_⟩
    have := inv.main
    unfold MainOk at this
    rw [hm] at this
    cases r with
    | none => exact ⟨this.1, this.2, rfl⟩
    | some e => exact ⟨this, rfl⟩
  | waited r hm h =>
    refine ⟨inv.len, inv.recvd, inv.count, inv.src, inv.got, fun _ _ => h, ?_⟩
    have := inv.main
    unfold MainOk at this
    rw [hm] at this
    cases r with
    | none => exact this
    | some e => exact this

theorem linv {E : Type} {n : Nat} {s : LSys E} (h : LReach n s) : LInv n s := by
  induction h with
  | start =>
    have z : sentCount (List.replicate n (LTask.run (E := E))) = 0 := by
      unfold sentCount
      rw [List.countP_eq_zero]
      intro t ht
      rw [List.eq_of_mem_replicate ht]
      simp [LTask.result]
    refine ⟨by simp [LSys.start], Nat.le_refl _, by simp [LSys.start, z], (by simp [LSys.start]), ?_, (by intro r hr; cases hr), ?_⟩
    · intro i t r h1 h2
      simp only [LSys.start, List.getElem?_replicate] at h1
      split at h1
      · cases h1; cases h2
      · cases h1
    · exact ⟨(by intro j hj; cases hj), (by intro hj; cases hj)⟩
  | step _ hs ih => exact linv_step ih hs

/-! ## The property -/

/-- The first error among results. -/
def firstErr {E : Type} : List (Option E) → Option E
  | [] => none
  | some e :: _ => some e
  | none :: l => firstErr l

theorem firstErr_none {E : Type} {l : List (Option E)} (h : ∀ j, j < l.length → l[j]? = some none) : firstErr l = none ∧ ∀ x ∈ l, x = none := by
  have : ∀ x ∈ l, x = none := by
    intro x hx
    obtain ⟨j, hj, e⟩ := List.getElem_of_mem hx
    have := h j hj
    rw [List.getElem?_eq_getElem hj, e] at this
    cases this; rfl
  refine ⟨?_, this⟩
  clear h
  induction l with
  | nil => rfl
  | cons a l ih =>
    rw [this a (by simp)]
    exact ih (fun x hx => this x (by simp [hx]))

theorem firstErr_some {E : Type} {l : List (Option E)} {k : Nat} {e : E} (h : ∀ j, j < k → l[j]? = some none) (hk : l[k]? = some (some e)) : firstErr l = some e := by
  induction l generalizing k with
  | nil => simp at hk
  | cons a l ih =>
    cases k with
    | zero => simp at hk; rw [hk]; rfl
    | succ k =>
      have := h 0 (by omega)
      simp at this
      rw [this]
      exact ih (k := k) (fun j hj => by simpa using h (j + 1) (by omega)) (by simpa using hk)

theorem sentCount_all {E : Type} {l : List (LTask E)} (h : ∀ t ∈ l, t.isDone = true) : sentCount l = l.length := by
  unfold sentCount
  rw [List.countP_eq_length]
  intro t ht
  have := h t ht
  cases t with
  | done r => rfl
  | run => cases this
  | ret r => cases this
  | sent r => cases this

/-- **C54** (waits). When `Launch` has returned, every task has finished. -/
theorem C54_waits {E : Type} {n : Nat} {s : LSys E} (h : LReach n s) (r : Option E) (hr : s.main = .fin r) :
    s.tasks.length = n ∧ ∀ t ∈ s.tasks, ∃ res, t = .done res := by
  have inv := linv h
  refine ⟨inv.len, fun t ht => ?_⟩
  have := inv.fin r hr t ht
  cases t with
  | done res => exact ⟨res, rfl⟩
  | run => cases this
  | ret r => cases this
  | sent r => cases this

/-- **C54** (result). It returns the first error in the order the tasks reported, and nil exactly if every task returned nil. -/
theorem C54_result {E : Type} {n : Nat} {s : LSys E} (h : LReach n s) (r : Option E) (hr : s.main = .fin r) :
    r = firstErr s.sends ∧ s.sends.length = n ∧ (r = none ↔ ∀ t ∈ s.tasks, t = .done none) ∧ (∀ e, r = some e → .done (some e) ∈ s.tasks) := by
  have inv := linv h
  have hd := inv.fin r hr
  have hlen : s.sends.length = n := by rw [inv.count, sentCount_all hd, inv.len]
  have hm := inv.main
  unfold MainOk at hm
  rw [hr] at hm
  have src : ∀ x ∈ s.sends, .done x ∈ s.tasks := by
    intro x hx
    obtain ⟨i, t, h1, h2⟩ := inv.src x hx
    have ht := List.mem_of_getElem? h1
    have := hd t ht
    cases t with
    | done res => cases h2; exact ht
    | run => cases this
    | ret r => cases this
    | sent r => cases this
  have got : ∀ x, .done x ∈ s.tasks → x ∈ s.sends := by
    intro x hx
    obtain ⟨i, hi, e⟩ := List.getElem_of_mem hx
    exact inv.got i _ x (by rw [List.getElem?_eq_getElem hi, e]) rfl
  cases r with
  | none =>
    obtain ⟨h1, h2, _⟩ := hm
    rw [inv.len] at h2
    obtain ⟨f1, f2⟩ := firstErr_none (l := s.sends) (fun j hj => h1 j (by omega))
    refine ⟨f1.symm, hlen, ⟨fun _ t ht => ?_, fun _ => rfl⟩, fun e he => by cases he⟩
    have := hd t ht
    cases t with
    | done res => rw [f2 res (got res ht)]
    | run => cases this
    | ret r => cases this
    | sent r => cases this
  | some e =>
    obtain ⟨⟨k, h1, h2, h3⟩, _⟩ := hm
    have hmem := src _ (List.mem_of_getElem? h3)
    refine ⟨(firstErr_some h2 h3).symm, hlen, ⟨fun h => (by cases h), fun h => ?_⟩, fun e' he => by cases he; exact hmem⟩
    have := h _ hmem
    cases this

/-- **C54** (cancellation). Once a task's result has been received the tasks' context is cancelled, or cancelling it is the next thing `Launch` does; and before it waits for the tasks it always has. -/
theorem C54_cancelled {E : Type} {n : Nat} {s : LSys E} (h : LReach n s) :
    (s.recvd > 0 → s.cancelled = true ∨ s.main = .cancel ∨ ∃ r, s.main = .ret r) ∧
    (∀ s', LStep s s' → (s.main = .cancel ∨ ∃ r, s.main = .ret r) → s'.main ≠ s.main → s'.cancelled = true) ∧
    (∀ r, s.main = .wait r ∨ s.main = .fin r → s.cancelled = true) := by
  have inv := linv h
  have hm := inv.main
  unfold MainOk at hm
  refine ⟨?_, ?_, ?_⟩
  · intro hr
    cases hmm : s.main with
    | recv => rw [hmm] at hm; exact Or.inl (hm.2 hr)
    | cancel => exact Or.inr (Or.inl rfl)
    | ret r => exact Or.inr (Or.inr ⟨r, rfl⟩)
    | wait r => rw [hmm] at hm; cases r with
      | none => exact Or.inl hm.2.2
      | some e => exact Or.inl hm.2
    | fin r => rw [hmm] at hm; cases r with
      | none => exact Or.inl hm.2.2
      | some e => exact Or.inl hm.2
  · intro s' hs hc hne
    cases hs with
    | taskReturns i r h => exact absurd rfl hne
    | send i r h room => exact absurd rfl hne
    | wgDone i r h => exact absurd rfl hne
    | parent => rfl
    | recvErr e hm' hl h => rw [hm'] at hc; rcases hc with hc | ⟨r, hc⟩ <;> cases hc
    | recvNil hm' hl h => rw [hm'] at hc; rcases hc with hc | ⟨r, hc⟩ <;> cases hc
    | cancel hm' => rfl
    | loopEnd hm' hl => rw [hm'] at hc; rcases hc with hc | ⟨r, hc⟩ <;> cases hc
    | deferCancel r hm' => rfl
    | waited r hm' h => rw [hm'] at hc; rcases hc with hc | ⟨r, hc⟩ <;> cases hc
  · intro r hr
    rcases hr with hr | hr
    · rw [hr] at hm; cases r with
      | none => exact hm.2.2
      | some e => exact hm.2
    · rw [hr] at hm; cases r with
      | none => exact hm.2.2
      | some e => exact hm.2

/-- What is left to do, other than by tasks that are still running. -/
def LTask.left {E : Type} : LTask E → Nat
  | .run => 3
  | .ret _ => 2
  | .sent _ => 1
  | .done _ => 0

def LMain.left {E : Type} : LMain E → Nat
  | .recv => 3
  | .cancel => 4
  | .ret _ => 2
  | .wait _ => 1
  | .fin _ => 0

/-- Steps left, at most. -/
def LSys.left {E : Type} (s : LSys E) : Nat := (s.tasks.map LTask.left).sum + 2 * (s.tasks.length - s.recvd) + s.main.left

theorem sum_set_left {E : Type} {l : List (LTask E)} {i : Nat} {a : LTask E} (b : LTask E) (h : l[i]? = some a) :
    ((l.set i b).map LTask.left).sum + a.left = (l.map LTask.left).sum + b.left := by
  induction l generalizing i with
  | nil => simp at h
  | cons x l ih =>
    cases i with
    | zero => simp at h; subst h; simp; omega
    | succ i => simp at h; have := ih h; simp only [List.set_cons_succ, List.map_cons, List.sum_cons]; omega

/-- **C54** (no deadlock). Until `Launch` has returned, either a task is still in its function, or something can happen other than cancellation from outside; and every step but that one brings the end closer: if all tasks return, `Launch` does. -/
theorem C54_progress {E : Type} {n : Nat} {s : LSys E} (h : LReach n s) (hf : ∀ r, s.main ≠ .fin r) :
    (∃ i : Nat, s.tasks[i]? = some .run) ∨ ∃ s', LStep s s' ∧ s'.left < s.left := by
  have inv := linv h
  have hlen := inv.len
  by_cases hrun : ∃ i : Nat, s.tasks[i]? = some .run
  · exact Or.inl hrun
  · right
    by_cases hret : ∃ (i : Nat) (r : Option E), s.tasks[i]? = some (.ret r)
    · obtain ⟨i, r, hi⟩ := hret
      refine ⟨_, .send s i r hi ?_, ?_⟩
      · -- the task itself has not sent
        have hc := sentCount_set (.sent r) hi
        simp [LTask.result] at hc
        have hle : sentCount (s.tasks.set i (.sent r)) ≤ (s.tasks.set i (.sent r)).length := List.countP_le_length
        rw [List.length_set] at hle
        have := inv.count
        omega
      · have := sum_set_left (.sent r) hi
        simp [LSys.left, LTask.left] at this ⊢
        omega
    · by_cases hsent : ∃ (i : Nat) (r : Option E), s.tasks[i]? = some (.sent r)
      · obtain ⟨i, r, hi⟩ := hsent
        refine ⟨_, .wgDone s i r hi, ?_⟩
        have := sum_set_left (.done r) hi
        simp [LSys.left, LTask.left] at this ⊢
        omega
      · have hdone : ∀ t ∈ s.tasks, t.isDone = true := by
          intro t ht
          obtain ⟨i, hi, e⟩ := List.getElem_of_mem ht
          have hi' : s.tasks[i]? = some t := by rw [List.getElem?_eq_getElem hi, e]
          cases t with
          | run => exact absurd ⟨i, hi'⟩ hrun
          | ret r => exact absurd ⟨i, r, hi'⟩ hret
          | sent r => exact absurd ⟨i, r, hi'⟩ hsent
          | done r => rfl
        have hsl : s.sends.length = s.tasks.length := by rw [inv.count, sentCount_all hdone]
        cases hm : s.main with
        | recv =>
          by_cases hl : s.recvd = s.tasks.length
          · exact ⟨_, .loopEnd s hm hl, by simp [LSys.left, LMain.left, hm]⟩
          · have hlt : s.recvd < s.sends.length := by have := inv.recvd; omega
            cases hv : s.sends[s.recvd] with
            | none => exact ⟨_, .recvNil s hm (by omega) (by rw [List.getElem?_eq_getElem hlt, hv]), by simp [LSys.left, LMain.left, hm]; omega⟩
            | some e => exact ⟨_, .recvErr s e hm (by omega) (by rw [List.getElem?_eq_getElem hlt, hv]), by simp [LSys.left, LMain.left, hm]; omega⟩
        | cancel => exact ⟨_, .cancel s hm, by simp [LSys.left, LMain.left, hm]⟩
        | ret r => exact ⟨_, .deferCancel s r hm, by simp [LSys.left, LMain.left, hm]⟩
        | wait r => exact ⟨_, .waited s r hm hdone, by simp [LSys.left, LMain.left, hm]⟩
        | fin r => exact absurd hm (hf r)

theorem C54_steps_bounded {E : Type} {s s' : LSys E} (hs : LStep s s') : s'.left < s.left ∨ s' = { s with cancelled := true } := by
  cases hs with
  | taskReturns i r h => left; have := sum_set_left (.ret r) h; simp [LSys.left, LTask.left] at this ⊢; omega
  | send i r h room => left; have := sum_set_left (.sent r) h; simp [LSys.left, LTask.left] at this ⊢; omega
  | wgDone i r h => left; have := sum_set_left (.done r) h; simp [LSys.left, LTask.left] at this ⊢; omega
  | parent => right; rfl
  | recvErr e hm hl h => left; simp [LSys.left, LMain.left, hm]; omega
  | recvNil hm hl h => left; simp [LSys.left, LMain.left, hm]; omega
  | cancel hm => left; simp [LSys.left, LMain.left, hm]
  | loopEnd hm hl => left; simp [LSys.left, LMain.left, hm]
  | deferCancel r hm => left; simp [LSys.left, LMain.left, hm]
  | waited r hm h => left; simp [LSys.left, LMain.left, hm]

/-- Two tasks: the first fails, the second is then told to stop. -/
theorem C54_example : ∃ s : LSys Nat, LReach 2 s ∧ s.main = .fin (some 7) ∧ s.tasks = [.done (some 7), .done none] := by
  have s0 : LReach 2 (LSys.start Nat 2) := .start
  have s1 := s0.step (.taskReturns _ 0 (some 7) rfl)
  have s2 := s1.step (.send _ 0 (some 7) rfl (by decide))
  have s3 := s2.step (.recvErr _ 7 rfl (by decide) rfl)
  have s4 := s3.step (.deferCancel _ (some 7) rfl)
  have s5 := s4.step (.wgDone _ 0 (some 7) rfl)
  have s6 := s5.step (.taskReturns _ 1 none rfl)
  have s7 := s6.step (.send _ 1 none rfl (by decide))
  have s8 := s7.step (.wgDone _ 1 none rfl)
  have s9 := s8.step (.waited _ (some 7) rfl (by intro t ht; simp [LSys.start] at ht; rcases ht with rfl | rfl <;> rfl))
  exact ⟨_, s9, rfl, rfl⟩

end Rothko
