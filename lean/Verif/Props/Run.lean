import Verif.Model.Run
import Verif.Props.Launch
/-!
# C67: the last dump comes after the services and before the database stops
-/
namespace Rothko

theorem LOwn.none_at_start {E : Type} {t : LSys E} (h : LOwn (LSys.start E 2) t) : False := by
  obtain ⟨h1, h2, h3⟩ := h
  have tk : ∀ (i : Nat) (x : LTask E), (LSys.start E 2).tasks[i]? = some x → x = .run := by
    intro i x hx
    simp only [LSys.start, List.getElem?_replicate] at hx
    split at hx
    · cases hx; rfl
    · cases hx
  cases h1 with
  | taskReturns i r h =>
    have := h2 i h
    dsimp only at this
    rw [List.getElem?_set_self (List.getElem?_eq_some_iff.mp h).1] at this
    cases this
  | send i r h room => cases tk _ _ h
  | wgDone i r h => cases tk _ _ h
  | parent => rcases h3 with h3 | h3
              · cases h3
              · exact h3 rfl
  | recvErr e hm hl h => cases h
  | recvNil hm hl h => cases h
  | cancel hm => cases hm
  | loopEnd hm hl => cases hl
  | deferCancel r hm => cases hm
  | waited r hm h => cases hm

structure RInv {E : Type} (files : Bool) (n : Nat) (s : RSys E) : Prop where
  inner : LReach n s.inner
  outer : LReach 2 s.outer
  task0 : s.phase ≠ .over ↔ s.outer.tasks[0]? = some .run
  idle : files = true → s.ctxDone = false → s.phase ≠ .over → s.outer = LSys.start E 2
  dump : s.phase = .dumping ∨ s.dumped = true → s.inner.main = .fin none
  flag : s.dumped = true → s.phase = .over
  zero : s.dumped = true → s.held = 0
  nilret : ∀ t : LTask E, s.outer.tasks[0]? = some t → (t = .ret none ∨ t = .sent none ∨ t = .done none) → s.dumped = true
  errs : ∀ (t : LTask E) (e : E), s.outer.tasks[0]? = some t → (t = .ret (some e) ∨ t = .sent (some e) ∨ t = .done (some e)) → s.dumped = false ∧ s.inner.main = .fin (some e)
  sum : s.added = s.held + s.given + s.dropped
  lost : files = true → s.ctxDone = false → s.late = false → s.dropped = 0

/-- A step of the outer launcher leaves the first task where it was, or moves it along with its result. -/
theorem LOwn.task {E : Type} {s t : LSys E} (h : LOwn s t) (i : Nat) :
    t.tasks[i]? = s.tasks[i]? ∨ ∃ r, (s.tasks[i]? = some (.ret r) ∧ t.tasks[i]? = some (.sent r)) ∨ (s.tasks[i]? = some (.sent r) ∧ t.tasks[i]? = some (.done r)) := by
  obtain ⟨h1, h2, h3⟩ := h
  cases h1 with
  | taskReturns j r h =>
    have := h2 j h
    dsimp only at this
    rw [List.getElem?_set_self (List.getElem?_eq_some_iff.mp h).1] at this
    cases this
  | send j r h room =>
    by_cases hj : j = i
    · subst hj
      exact Or.inr ⟨r, Or.inl ⟨h, List.getElem?_set_self (List.getElem?_eq_some_iff.mp h).1⟩⟩
    · exact Or.inl (List.getElem?_set_ne hj)
  | wgDone j r h =>
    by_cases hj : j = i
    · subst hj
      exact Or.inr ⟨r, Or.inr ⟨h, List.getElem?_set_self (List.getElem?_eq_some_iff.mp h).1⟩⟩
    · exact Or.inl (List.getElem?_set_ne hj)
  | _ => exact Or.inl rfl

theorem rinv_step {E : Type} {files : Bool} {n : Nat} {s t : RSys E} (inv : RInv files n s) (hs : RStep files s t) : RInv files n t := by
  cases hs with
  | inner u hp h =>
    exact { inv with
      inner := inv.inner.step h
      dump := fun hd => by
        rcases hd with hd | hd
        · dsimp only at hd; rw [hp] at hd; cases hd
        · have := inv.flag hd; rw [hp] at this; cases this
      errs := fun x e hx he => by
        have h0 := inv.task0.mp (by rw [hp]; intro h; cases h)
        dsimp only at hx
        rw [h0] at hx
        cases hx
        rcases he with he | he | he <;> cases he }
  | outer u h =>
    have hk := h.task 0
    refine { inv with outer := inv.outer.step h.1, task0 := ?_, idle := ?_, nilret := ?_, errs := ?_ }
    · rw [inv.task0]
      dsimp only
      rcases hk with hk | ⟨r, ⟨h1, h2⟩ | ⟨h1, h2⟩⟩
      · rw [hk]
      · rw [h1, h2]; constructor <;> (intro h; cases h)
      · rw [h1, h2]; constructor <;> (intro h; cases h)
    · intro hf hc hp
      have := inv.idle hf hc hp
      dsimp only
      exfalso
      rw [this] at h
      exact h.none_at_start
    · intro x hx hr
      dsimp only at hx ⊢
      rcases hk with hk | ⟨r, ⟨h1, h2⟩ | ⟨h1, h2⟩⟩
      · rw [hk] at hx; exact inv.nilret x hx hr
      · rw [h2] at hx
        cases hx
        rcases hr with hr | hr | hr <;> cases hr
        exact inv.nilret _ h1 (Or.inl rfl)
      · rw [h2] at hx
        cases hx
        rcases hr with hr | hr | hr <;> cases hr
        exact inv.nilret _ h1 (Or.inr (Or.inl rfl))
    · intro x e hx hr
      dsimp only at hx ⊢
      rcases hk with hk | ⟨r, ⟨h1, h2⟩ | ⟨h1, h2⟩⟩
      · rw [hk] at hx; exact inv.errs x e hx hr
      · rw [h2] at hx
        cases hx
        rcases hr with hr | hr | hr <;> cases hr
        exact inv.errs _ e h1 (Or.inl rfl)
      · rw [h2] at hx
        cases hx
        rcases hr with hr | hr | hr <;> cases hr
        exact inv.errs _ e h1 (Or.inr (Or.inl rfl))
  | ctx =>
    exact { inv with outer := inv.outer.step (.parent _), idle := fun _ hc => (by cases hc), lost := fun _ hc => (by cases hc) }
  | add i hp h =>
    refine { inv with zero := ?_, sum := ?_ }
    · intro hd; have := inv.flag hd; rw [hp] at this; cases this
    · have := inv.sum; dsimp only; omega
  | periodic i hp h =>
    refine { inv with zero := fun _ => rfl, sum := ?_ }
    have := inv.sum; dsimp only; omega
  | fail e hp h =>
    have h0 := inv.task0.mp (by rw [hp]; intro h; cases h)
    have hlt := (List.getElem?_eq_some_iff.mp h0).1
    have hd : s.dumped = false := by
      cases hx : s.dumped with
      | false => rfl
      | true => have := inv.flag hx; rw [hp] at this; cases this
    refine ⟨inv.inner, inv.outer.step (.taskReturns _ 0 _ h0), ?_, fun _ _ h => absurd rfl h, ?_, fun _ => rfl, inv.zero, ?_, ?_, inv.sum, inv.lost⟩
    · dsimp only
      rw [List.getElem?_set_self hlt]
      exact ⟨fun h => absurd rfl h, fun h => (by cases h)⟩
    · intro hx
      rcases hx with hx | hx
      · cases hx
      · dsimp only at hx; rw [hd] at hx; cases hx
    · intro x hx hr
      dsimp only at hx
      rw [List.getElem?_set_self hlt] at hx
      cases hx
      rcases hr with hr | hr | hr <;> cases hr
    · intro x e' hx hr
      dsimp only at hx
      rw [List.getElem?_set_self hlt] at hx
      cases hx
      rcases hr with hr | hr | hr <;> cases hr
      exact ⟨hd, h⟩
  | lastDump hp h =>
    have h0 := inv.task0.mp (by rw [hp]; intro h; cases h)
    have hd : s.dumped = false := by
      cases hx : s.dumped with
      | false => rfl
      | true => have := inv.flag hx; rw [hp] at this; cases this
    refine { inv with task0 := ⟨fun _ => h0, fun _ => by intro h; cases h⟩, idle := fun hf hc _ => inv.idle hf hc (by rw [hp]; intro h; cases h), dump := fun _ => h, flag := ?_ }
    intro hx; dsimp only at hx; rw [hd] at hx; cases hx
  | deadline hp => exact { inv with lost := fun _ _ h => (by cases h) }
  | dumpDone k l hp hk hl =>
    have h0 := inv.task0.mp (by rw [hp]; intro h; cases h)
    have hlt := (List.getElem?_eq_some_iff.mp h0).1
    refine ⟨inv.inner, inv.outer.step (.taskReturns _ 0 _ h0), ?_, fun _ _ h => absurd rfl h, fun _ => inv.dump (Or.inl hp), fun _ => rfl, fun _ => rfl, fun _ _ _ => rfl, ?_, ?_, ?_⟩
    · dsimp only
      rw [List.getElem?_set_self hlt]
      exact ⟨fun h => absurd rfl h, fun h => (by cases h)⟩
    · intro x e' hx hr
      dsimp only at hx
      rw [List.getElem?_set_self hlt] at hx
      cases hx
      rcases hr with hr | hr | hr <;> cases hr
    · have := inv.sum; dsimp only; omega
    · intro hf hc hlate
      dsimp only at hc hlate ⊢
      have h1 := inv.lost hf hc hlate
      have h2 := inv.idle hf hc (by rw [hp]; intro h; cases h)
      rcases hl with hl | hl | hl
      · omega
      · rw [hlate] at hl; cases hl
      · rw [h2] at hl; cases hl
  | db r h hf =>
    have hlt := (List.getElem?_eq_some_iff.mp h).1
    have e0 : (s.outer.tasks.set 1 (.ret r))[0]? = s.outer.tasks[0]? := List.getElem?_set_ne (by decide)
    refine { inv with outer := inv.outer.step (.taskReturns _ 1 _ h), task0 := ?_, idle := ?_, nilret := ?_, errs := ?_ }
    · dsimp only; rw [e0]; exact inv.task0
    · intro hf' hc hp
      have := inv.idle hf' hc hp
      have hcan := hf hf'
      rw [this] at hcan
      cases hcan
    · intro x hx; dsimp only at hx; rw [e0] at hx; exact inv.nilret x hx
    · intro x e hx; dsimp only at hx; rw [e0] at hx; exact inv.errs x e hx

theorem rinv {E : Type} {files : Bool} {n : Nat} {s : RSys E} (h : RReach files n s) : RInv files n s := by
  induction h with
  | start =>
    refine ⟨.start, .start, ⟨fun _ => rfl, fun _ => by intro h; cases h⟩, fun _ _ _ => rfl, ?_, (fun h => by cases h), (fun h => by cases h), ?_, ?_, rfl, fun _ _ _ => rfl⟩
    · rintro (h | h) <;> cases h
    · intro x hx hr
      simp [RSys.start, LSys.start] at hx
      subst hx
      rcases hr with hr | hr | hr <;> cases hr
    · intro x e hx hr
      simp [RSys.start, LSys.start] at hx
      subst hx
      rcases hr with hr | hr | hr <;> cases hr
  | step _ hs ih => exact rinv_step ih hs

/-- **C67** (order). While the last dump runs, and after it, every service has returned, without an error: nothing is added to the writer during or after the last dump, and no other dump runs. -/
theorem C67_after_services {E : Type} {files : Bool} {n : Nat} {s : RSys E} (h : RReach files n s) (hd : s.phase = .dumping ∨ s.dumped = true) :
    s.inner.tasks.length = n ∧ ∀ t ∈ s.inner.tasks, t = .done none := by
  have inv := rinv h
  have hm := inv.dump hd
  exact ⟨(C54_waits inv.inner none hm).1, (C54_result inv.inner none hm).2.2.1.mp rfl⟩

/-- **C67** (database). While the services or the last dump run, the database has neither returned nor been told to stop (unless the caller cancelled): values that the last dump queues are written. -/
theorem C67_before_database {E : Type} {n : Nat} {s : RSys E} (h : RReach true n s) (hc : s.ctxDone = false) (hp : s.phase ≠ .over) :
    s.outer.tasks[1]? = some .run ∧ s.outer.cancelled = false := by
  have := (rinv h).idle rfl hc hp
  rw [this]
  exact ⟨rfl, rfl⟩

/-- **C67** (flushed). If `run` returned without an error, a last dump was made, the services and the database have all returned without an error, and nothing is left in the writer: every observation is in a
record that was handed to the database, or was captured by the last dump after its 60 seconds, or the caller's cancellation, interrupted it. -/
theorem C67_flushed {E : Type} {files : Bool} {n : Nat} {s : RSys E} (h : RReach files n s) (hr : s.outer.main = .fin none) :
    s.dumped = true ∧ s.held = 0 ∧ s.added = s.given + s.dropped ∧ (∀ t ∈ s.inner.tasks, t = .done none) ∧ s.outer.tasks = [.done none, .done none] ∧
    (files = true → s.ctxDone = false → s.late = false → s.given = s.added) := by
  have inv := rinv h
  have hall := (C54_result inv.outer none hr).2.2.1.mp rfl
  have hlen := (C54_waits inv.outer none hr).1
  have htasks : s.outer.tasks = [.done none, .done none] := by
    match h2 : s.outer.tasks, hlen with
    | [a, b], _ =>
      rw [h2] at hall
      rw [hall a (by simp), hall b (by simp)]
  have hd := inv.nilret (.done none) (by rw [htasks]; rfl) (Or.inr (Or.inr rfl))
  have hz := inv.zero hd
  have hs := inv.sum
  refine ⟨hd, hz, by omega, (C67_after_services h (Or.inr hd)).2, htasks, ?_⟩
  intro hf hc hl
  have := inv.lost hf hc hl
  omega

/-- **C67** (failure). If `run` returned with an error and the database had none, the error is that of a service, every service has returned, and no last dump was made. -/
theorem C67_failed {E : Type} {files : Bool} {n : Nat} {s : RSys E} (h : RReach files n s) (e : E) (hr : s.outer.main = .fin (some e)) (hdb : s.outer.tasks[1]? = some (.done none)) :
    .done (some e) ∈ s.inner.tasks ∧ (∀ t ∈ s.inner.tasks, ∃ r, t = .done r) ∧ s.dumped = false := by
  have inv := rinv h
  have hmem := (C54_result inv.outer _ hr).2.2.2 e rfl
  have hlen := (C54_waits inv.outer _ hr).1
  have h0 : s.outer.tasks[0]? = some (.done (some e)) := by
    match h2 : s.outer.tasks, hlen with
    | [a, b], _ =>
      rw [h2] at hmem hdb
      simp at hmem hdb
      subst hdb
      rcases hmem with hmem | hmem
      · rw [← hmem]; rfl
      · cases hmem
  obtain ⟨h1, h2⟩ := inv.errs _ e h0 (Or.inr (Or.inr rfl))
  exact ⟨(C54_result inv.inner _ h2).2.2.2 e rfl, (C54_waits inv.inner _ h2).2, h1⟩

/-- **C67** for errors is false: one service adds an observation, another one fails, and `run` returns with the observation still in the writer, never given to the database. -/
theorem C67_failed_refuted : ∃ s : RSys Nat, RReach true 2 s ∧ s.outer.main = .fin (some 7) ∧ s.ctxDone = false ∧ s.added = 1 ∧ s.held = 1 ∧ s.given = 0 := by
  have own : ∀ {s t : LSys Nat}, LStep s t → (∀ i : Nat, s.tasks[i]? = some .run → t.tasks[i]? = some .run) → (t.cancelled = s.cancelled ∨ t.main ≠ s.main) → LOwn s t := fun a b c => ⟨a, b, c⟩
  have two : ∀ {a b c d : LTask Nat}, (a = .run → c = .run) → (b = .run → d = .run) → ∀ i : Nat, [a, b][i]? = some .run → [c, d][i]? = some .run := by
    intro a b c d h1 h2 i hi
    match i with
    | 0 => simp at hi ⊢; exact h1 hi
    | 1 => simp at hi ⊢; exact h2 hi
    | (k + 2) => simp at hi
  have s0 : RReach true 2 (RSys.start Nat 2) := .start
  have s1 := s0.step (.add 0 rfl rfl)
  have s2 := s1.step (.inner _ rfl (.taskReturns _ 1 (some 7) rfl))
  have s3 := s2.step (.inner _ rfl (.send _ 1 (some 7) rfl (by decide)))
  have s4 := s3.step (.inner _ rfl (.recvErr _ 7 rfl (by decide) rfl))
  have s5 := s4.step (.inner _ rfl (.deferCancel _ (some 7) rfl))
  have s6 := s5.step (.inner _ rfl (.wgDone _ 1 (some 7) rfl))
  have s7 := s6.step (.inner _ rfl (.taskReturns _ 0 none rfl))
  have s8 := s7.step (.inner _ rfl (.send _ 0 none rfl (by decide)))
  have s9 := s8.step (.inner _ rfl (.wgDone _ 0 none rfl))
  have s10 := s9.step (.inner _ rfl (.waited _ (some 7) rfl (by intro t ht; simp [RSys.start, LSys.start] at ht; rcases ht with rfl | rfl <;> rfl)))
  have s11 := s10.step (.fail 7 rfl rfl)
  have s12 := s11.step (.outer _ (own (.send _ 0 (some 7) rfl (by decide)) (two (by intro h; cases h) (fun _ => rfl)) (Or.inl rfl)))
  have s13 := s12.step (.outer _ (own (.recvErr _ 7 rfl (by decide) rfl) (two (by intro h; cases h) (fun _ => rfl)) (Or.inl rfl)))
  have s14 := s13.step (.outer _ (own (.deferCancel _ (some 7) rfl) (two (by intro h; cases h) (fun _ => rfl)) (Or.inr (by intro h; cases h))))
  have s15 := s14.step (.outer _ (own (.wgDone _ 0 (some 7) rfl) (two (by intro h; cases h) (fun _ => rfl)) (Or.inl rfl)))
  have s16 := s15.step (.db none rfl (fun _ => rfl))
  have s17 := s16.step (.outer _ (own (.send _ 1 none rfl (by decide)) (two (by intro h; cases h) (by intro h; cases h)) (Or.inl rfl)))
  have s18 := s17.step (.outer _ (own (.wgDone _ 1 none rfl) (two (by intro h; cases h) (by intro h; cases h)) (Or.inl rfl)))
  have s19 := s18.step (.outer _ (own (.waited _ (some 7) rfl (by intro t ht; simp [RSys.start, LSys.start] at ht; rcases ht with rfl | rfl <;> rfl)) (two (by intro h; cases h) (by intro h; cases h)) (Or.inl rfl)))
  exact ⟨_, s19, rfl, rfl, rfl, rfl, rfl⟩

/-- A complete run: an observation is added, SIGINT, both services return, the last dump hands the observation over, the database stops, `run` returns nil. -/
theorem C67_example : ∃ s : RSys Nat, RReach true 2 s ∧ s.outer.main = .fin none ∧ s.ctxDone = false ∧ s.late = false ∧ s.added = 1 ∧ s.given = 1 := by
  have own : ∀ {s t : LSys Nat}, LStep s t → (∀ i : Nat, s.tasks[i]? = some .run → t.tasks[i]? = some .run) → (t.cancelled = s.cancelled ∨ t.main ≠ s.main) → LOwn s t := fun a b c => ⟨a, b, c⟩
  have two : ∀ {a b c d : LTask Nat}, (a = .run → c = .run) → (b = .run → d = .run) → ∀ i : Nat, [a, b][i]? = some .run → [c, d][i]? = some .run := by
    intro a b c d h1 h2 i hi
    match i with
    | 0 => simp at hi ⊢; exact h1 hi
    | 1 => simp at hi ⊢; exact h2 hi
    | (k + 2) => simp at hi
  have s0 : RReach true 2 (RSys.start Nat 2) := .start
  have s1 := s0.step (.add 0 rfl rfl)
  have s2 := s1.step (.inner _ rfl (.parent _))
  have s3 := s2.step (.inner _ rfl (.taskReturns _ 1 none rfl))
  have s4 := s3.step (.inner _ rfl (.send _ 1 none rfl (by decide)))
  have s5 := s4.step (.inner _ rfl (.wgDone _ 1 none rfl))
  have s6 := s5.step (.inner _ rfl (.taskReturns _ 0 none rfl))
  have s7 := s6.step (.inner _ rfl (.send _ 0 none rfl (by decide)))
  have s8 := s7.step (.inner _ rfl (.wgDone _ 0 none rfl))
  have s9 := s8.step (.inner _ rfl (.recvNil _ rfl (by decide) rfl))
  have s10 := s9.step (.inner _ rfl (.cancel _ rfl))
  have s11 := s10.step (.inner _ rfl (.recvNil _ rfl (by decide) rfl))
  have s12 := s11.step (.inner _ rfl (.cancel _ rfl))
  have s13 := s12.step (.inner _ rfl (.loopEnd _ rfl rfl))
  have s14 := s13.step (.inner _ rfl (.deferCancel _ none rfl))
  have s15 := s14.step (.inner _ rfl (.waited _ none rfl (by intro t ht; simp [RSys.start, LSys.start] at ht; rcases ht with rfl | rfl <;> rfl)))
  have s16 := s15.step (.lastDump rfl rfl)
  have s17 := s16.step (.dumpDone 1 0 rfl rfl (Or.inl rfl))
  have s18 := s17.step (.outer _ (own (.send _ 0 none rfl (by decide)) (two (by intro h; cases h) (fun _ => rfl)) (Or.inl rfl)))
  have s19 := s18.step (.outer _ (own (.wgDone _ 0 none rfl) (two (by intro h; cases h) (fun _ => rfl)) (Or.inl rfl)))
  have s20 := s19.step (.outer _ (own (.recvNil _ rfl (by decide) rfl) (two (by intro h; cases h) (fun _ => rfl)) (Or.inl rfl)))
  have s21 := s20.step (.outer _ (own (.cancel _ rfl) (two (by intro h; cases h) (fun _ => rfl)) (Or.inr (by intro h; cases h))))
  have s22 := s21.step (.db none rfl (fun _ => rfl))
  have s23 := s22.step (.outer _ (own (.send _ 1 none rfl (by decide)) (two (by intro h; cases h) (by intro h; cases h)) (Or.inl rfl)))
  have s24 := s23.step (.outer _ (own (.wgDone _ 1 none rfl) (two (by intro h; cases h) (by intro h; cases h)) (Or.inl rfl)))
  have s25 := s24.step (.outer _ (own (.recvNil _ rfl (by decide) rfl) (two (by intro h; cases h) (by intro h; cases h)) (Or.inl rfl)))
  have s26 := s25.step (.outer _ (own (.cancel _ rfl) (two (by intro h; cases h) (by intro h; cases h)) (Or.inl rfl)))
  have s27 := s26.step (.outer _ (own (.loopEnd _ rfl rfl) (two (by intro h; cases h) (by intro h; cases h)) (Or.inl rfl)))
  have s28 := s27.step (.outer _ (own (.deferCancel _ none rfl) (two (by intro h; cases h) (by intro h; cases h)) (Or.inl rfl)))
  have s29 := s28.step (.outer _ (own (.waited _ none rfl (by intro t ht; simp [RSys.start, LSys.start] at ht; rcases ht with rfl | rfl <;> rfl)) (two (by intro h; cases h) (by intro h; cases h)) (Or.inl rfl)))
  exact ⟨_, s29, rfl, rfl, rfl, rfl, rfl⟩

end Rothko
