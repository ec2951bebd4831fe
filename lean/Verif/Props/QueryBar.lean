import Verif.Model.Ui
/-!
# The query bar of the web interface (C88, C89)
-/
namespace Rothko

/-- The page after the events. -/
def QBox.run (v0 : Bytes) (evs : List QEv) : QBox := evs.foldl QBox.step (QBox.init v0)

/-- The server listed the name as a completion. -/
def QBox.Listed (s : QBox) (v : Bytes) : Prop := ∃ t r, (t, r) ∈ s.answers ∧ v ∈ r

/-- The text was typed, or is one the page put into the bar. -/
def QBox.Text (s : QBox) (v : Bytes) : Prop := (∃ t, (v, t) ∈ s.typed) ∨ v ∈ s.given

structure QInv (s : QBox) : Prop where
  menu : ∀ h cs, s.bar.query = .got h cs → (s.bar.value, cs) ∈ s.answers
  high : ∀ i cs, s.bar.query = .got (some i) cs → 0 ≤ i
  shown : ∀ v ∈ s.shown, s.Listed v
  msgs : ∀ m ∈ s.msgs, m = .dismiss ∨ ∃ v, m = .select v ∧ s.Listed v
  selected : ∀ v ∈ s.selected, s.Listed v ∨ s.Text v
  value : s.Listed s.bar.value ∨ s.Text s.bar.value
  sleep : ∀ v due, (v, due) ∈ s.sleeping → ∃ t, (v, t) ∈ s.typed ∧ due = t + 250

theorem qinv_init (v : Bytes) : QInv (QBox.init v) where
  menu h cs e := by cases e
  high i cs e := by cases e
  shown v h := by cases h
  msgs m h := by cases h
  selected v h := by cases h
  value := Or.inr (Or.inr List.mem_cons_self)
  sleep v d h := by cases h

theorem mem_snoc {α : Type} {l : List α} {a b : α} (h : a ∈ l ++ [b]) : a ∈ l ∨ a = b := by
  rcases List.mem_append.mp h with h | h
  · exact .inl h
  · exact .inr (List.mem_singleton.mp h)

theorem elmAt_mem {l : List Bytes} {i : Int} {v : Bytes} (h : elmAt l i = some v) : v ∈ l := by
  unfold elmAt at h
  exact List.mem_of_mem_drop (List.mem_of_mem_head? h)

/-- Keys: the highlight stays nonnegative; a message is a dismissal or the selection of a completion. -/
theorem key_spec (h : Option Int) (cs : List Bytes) (k : String) (hh : ∀ i, h = some i → 0 ≤ i) :
    (∀ i, (updateKeyCode h cs k).1 = some i → 0 ≤ i) ∧ ((updateKeyCode h cs k).2 = [] ∨ (updateKeyCode h cs k).2 = [.send .dismiss] ∨ ∃ v ∈ cs, (updateKeyCode h cs k).2 = [.send (.select v)]) := by
  unfold updateKeyCode
  split
  · cases h with
    | none => exact ⟨fun i e => (by cases e), .inl rfl⟩
    | some j => exact ⟨fun i e => (by injection e with e; omega), .inl rfl⟩
  · split
    · split
      · exact ⟨fun i e => (by cases e), .inl rfl⟩
      · refine ⟨fun i e => ?_, .inl rfl⟩
        injection e with e
        cases h with
        | none => simp only [Option.getD_none] at e; omega
        | some j => simp only [Option.getD_some] at e; have := hh j rfl; omega
    · split
      · cases e : h.bind (elmAt cs) with
        | none => exact ⟨hh, .inl rfl⟩
        | some v =>
          refine ⟨hh, .inr (.inr ⟨v, ?_, rfl⟩)⟩
          cases h with
          | none => cases e
          | some j => exact elmAt_mem e
      · split
        · exact ⟨hh, .inr (.inl rfl)⟩
        · exact ⟨hh, .inl rfl⟩

theorem listed_mono {s s' : QBox} (h : ∀ x ∈ s.answers, x ∈ s'.answers) {v : Bytes} (hl : s.Listed v) : s'.Listed v := by
  obtain ⟨t, r, h1, h2⟩ := hl
  exact ⟨t, r, h _ h1, h2⟩

theorem start_bar (s : QBox) (l : List QCmd) : (l.foldl QBox.start s).bar = s.bar ∧ (l.foldl QBox.start s).answers = s.answers ∧ (l.foldl QBox.start s).typed = s.typed ∧ (l.foldl QBox.start s).given = s.given ∧
    (l.foldl QBox.start s).shown = s.shown ∧ (l.foldl QBox.start s).now = s.now := by
  induction l generalizing s with
  | nil => exact ⟨rfl, rfl, rfl, rfl, rfl, rfl⟩
  | cons c l ih =>
    rw [List.foldl_cons]
    obtain ⟨a, b, d, e, f, g⟩ := ih (s.start c)
    cases c <;> exact ⟨a, b, d, e, f, g⟩

/-- Handling of a message keeps the invariant if the bar's new state is right and each command is. -/
theorem qinv_handle {s : QBox} (h : QInv s) (m : QMsg)
    (hmenu : ∀ i cs, (s.bar.update m).1.query = .got i cs → ((s.bar.update m).1.value, cs) ∈ s.answers) (hhigh : ∀ i cs, (s.bar.update m).1.query = .got (some i) cs → 0 ≤ i)
    (hval : s.Listed (s.bar.update m).1.value ∨ s.Text (s.bar.update m).1.value)
    (hcmd : ∀ c ∈ (s.bar.update m).2, (∀ v, c = .sleep v → ∃ t, (v, t) ∈ s.typed ∧ t = s.now) ∧ (∀ m', c = .send m' → m' = .dismiss ∨ ∃ v, m' = .select v ∧ s.Listed v) ∧ (∀ v, c = .parent v → s.Listed v ∨ s.Text v)) :
    QInv (s.handle m) := by
  unfold QBox.handle
  generalize s.bar.update m = u at hmenu hhigh hval hcmd ⊢
  have h0 : QInv { s with bar := u.1, shown := s.shown ++ u.1.menu } := by
    refine ⟨hmenu, hhigh, fun v hv => ?_, h.msgs, h.selected, hval, h.sleep⟩
    rcases List.mem_append.mp hv with hv | hv
    · exact h.shown v hv
    · unfold QBar.menu at hv
      split at hv
      · rename_i i cs e
        exact ⟨_, cs, hmenu i cs e, hv⟩
      · cases hv
  have ht : ({ s with bar := u.1, shown := s.shown ++ u.1.menu } : QBox).typed = s.typed ∧ ({ s with bar := u.1, shown := s.shown ++ u.1.menu } : QBox).answers = s.answers ∧
      ({ s with bar := u.1, shown := s.shown ++ u.1.menu } : QBox).given = s.given ∧ ({ s with bar := u.1, shown := s.shown ++ u.1.menu } : QBox).now = s.now := ⟨rfl, rfl, rfl, rfl⟩
  generalize ({ s with bar := u.1, shown := s.shown ++ u.1.menu } : QBox) = s' at h0 ht ⊢
  generalize u.2 = l at hcmd ⊢
  clear hmenu hhigh hval
  induction l generalizing s' with
  | nil => exact h0
  | cons c l ih =>
    rw [List.foldl_cons]
    obtain ⟨c1, c2, c3⟩ := hcmd c List.mem_cons_self
    obtain ⟨t1, t2, t3, t4⟩ := ht
    refine ih (s'.start c) ?_ (by cases c <;> exact ⟨t1, t2, t3, t4⟩) (fun c hc => hcmd c (List.mem_cons_of_mem _ hc))
    have hl : ∀ v, s.Listed v → s'.Listed v := fun v h => listed_mono (by rw [t2]; exact fun x hx => hx) h
    have hx : ∀ v, s.Text v → s'.Text v := fun v h => by unfold QBox.Text at h ⊢; rw [t1, t3]; exact h
    cases c with
    | sleep v =>
      refine ⟨h0.menu, h0.high, h0.shown, h0.msgs, h0.selected, h0.value, fun v' d hm => ?_⟩
      rcases mem_snoc hm with hm | hm
      · exact h0.sleep v' d hm
      · injection hm with e1 e2
        subst e1
        obtain ⟨t, a, b⟩ := c1 v' rfl
        exact ⟨t, by show _ ∈ s'.typed; rw [t1]; exact a, by rw [e2, t4, b]⟩
    | request v => exact ⟨h0.menu, h0.high, h0.shown, h0.msgs, h0.selected, h0.value, h0.sleep⟩
    | send m' =>
      refine ⟨h0.menu, h0.high, h0.shown, fun x hm => ?_, h0.selected, h0.value, h0.sleep⟩
      rcases mem_snoc hm with hm | rfl
      · exact h0.msgs x hm
      · rcases c2 x rfl with e | ⟨v, e, hv⟩
        · exact .inl e
        · exact .inr ⟨v, e, hl v hv⟩
    | parent v =>
      refine ⟨h0.menu, h0.high, h0.shown, h0.msgs, fun x hm => ?_, h0.value, h0.sleep⟩
      rcases mem_snoc hm with hm | rfl
      · exact h0.selected x hm
      · exact (c3 x rfl).imp (hl x) (hx x)

theorem cmd_none {s : QBox} : ∀ c ∈ ([] : List QCmd), (∀ v, c = .sleep v → ∃ t, (v, t) ∈ s.typed ∧ t = s.now) ∧ (∀ m', c = .send m' → m' = .dismiss ∨ ∃ v, m' = .select v ∧ s.Listed v) ∧ (∀ v, c = .parent v → s.Listed v ∨ s.Text v) := fun c h => by cases h

theorem qinv_select {s : QBox} (h : QInv s) {v : Bytes} (hv : s.Listed v) : QInv (s.handle (.select v)) :=
  qinv_handle h _ (fun i cs e => by cases e) (fun i cs e => by cases e) (.inl hv) (fun c hc => by
    have : c = .parent v := List.mem_singleton.mp hc
    subst this
    exact ⟨fun v e => by (cases e), fun m e => by (cases e), fun v' e => by injection e with e; subst e; exact .inl hv⟩)

theorem qinv_dismiss {s : QBox} (h : QInv s) : QInv (s.handle .dismiss) :=
  qinv_handle h _ (fun i cs e => by cases e) (fun i cs e => by cases e) h.value cmd_none

theorem qinv_step {s : QBox} (h : QInv s) (e : QEv) : QInv (s.step e) := by
  cases e with
  | type v =>
    have h0 : QInv { s with typed := s.typed ++ [(v, s.now)] } := by
      have tx : ∀ v', s.Text v' → ({ s with typed := s.typed ++ [(v, s.now)] } : QBox).Text v' := fun v' h => h.imp (fun ⟨t, ht⟩ => ⟨t, List.mem_append_left _ ht⟩) id
      exact ⟨h.menu, h.high, h.shown, h.msgs, fun v' hv => (h.selected v' hv).imp id (tx v'), h.value.imp id (tx _), fun v' d hm => (h.sleep v' d hm).imp fun t ht => ⟨List.mem_append_left _ ht.1, ht.2⟩⟩
    refine qinv_handle h0 _ (fun i cs e => by cases e) (fun i cs e => by cases e) (.inr (.inl ⟨s.now, List.mem_append_right _ List.mem_cons_self⟩)) (fun c hc => ?_)
    have : c = .sleep v := List.mem_singleton.mp hc
    subst this
    exact ⟨fun v' e => by injection e with e; subst e; exact ⟨s.now, List.mem_append_right _ List.mem_cons_self, rfl⟩, fun m e => by (cases e), fun v' e => by (cases e)⟩
  | focus =>
    refine qinv_handle h _ h.menu h.high h.value (fun c hc => ?_)
    have : c = .request s.bar.value := List.mem_singleton.mp hc
    subst this
    exact ⟨fun v' e => by (cases e), fun m e => by (cases e), fun v' e => by (cases e)⟩
  | blur => exact qinv_dismiss h
  | click v =>
    show QInv (if v ∈ s.shown then s.handle (.select v) else s)
    split
    · rename_i hv
      exact qinv_select h (h.shown v hv)
    · exact h
  | key k =>
    show QInv (s.handle (.keyDown k))
    cases hq : s.bar.query with
    | closed =>
      have hu : s.bar.update (.keyDown k) = if k = "Enter" then (s.bar, [.parent s.bar.value]) else (s.bar, []) := by
        show (match s.bar.query with | .got h cs => _ | .closed => _) = _
        rw [hq]
      have h1 : (s.bar.update (.keyDown k)).1 = s.bar := by rw [hu]; split <;> rfl
      refine qinv_handle h _ (by rw [h1]; exact h.menu) (by rw [h1]; exact h.high) (by rw [h1]; exact h.value) (fun c hc => ?_)
      rw [hu] at hc
      split at hc
      · have : c = .parent s.bar.value := List.mem_singleton.mp hc
        subst this
        exact ⟨fun v' e => by (cases e), fun m e => by (cases e), fun v' e => by injection e with e; subst e; exact h.value⟩
      · cases hc
    | got i cs =>
      have hu : s.bar.update (.keyDown k) = (⟨s.bar.value, .got (updateKeyCode i cs k).1 cs⟩, (updateKeyCode i cs k).2) := by
        show (match s.bar.query with | .got h cs => _ | .closed => _) = _
        rw [hq]
      obtain ⟨k1, k2⟩ := key_spec i cs k (fun j e => h.high j cs (by rw [hq, e]))
      have hm := h.menu i cs hq
      refine qinv_handle h _ (by rw [hu]; intro j ds e; injection e with _ e; subst e; exact hm) (by rw [hu]; intro j ds e; injection e with e _; exact k1 j e) (by rw [hu]; exact h.value) (fun c hc => ?_)
      rw [hu] at hc
      rcases k2 with e | e | ⟨v, hv, e⟩
      · have hc : c ∈ (updateKeyCode i cs k).2 := hc
        rw [e] at hc
        cases hc
      · have hc : c ∈ (updateKeyCode i cs k).2 := hc
        rw [e] at hc
        have : c = .send .dismiss := List.mem_singleton.mp hc
        subst this
        exact ⟨fun v' e => by (cases e), fun m e => by injection e with e; exact .inl e.symm, fun v' e => by (cases e)⟩
      · have hc : c ∈ (updateKeyCode i cs k).2 := hc
        rw [e] at hc
        have : c = .send (.select v) := List.mem_singleton.mp hc
        subst this
        exact ⟨fun v' e => by (cases e), fun m e => by injection e with e; exact .inr ⟨v, e.symm, _, cs, hm, hv⟩, fun v' e => by (cases e)⟩
  | over i =>
    show QInv (s.handle (.mouseOver i))
    have hu : s.bar.update (.mouseOver i) = (match s.bar.query with | .got _ cs => ⟨s.bar.value, .got (some i) cs⟩ | .closed => s.bar, []) := rfl
    cases hq : s.bar.query with
    | closed =>
      rw [hq] at hu
      exact qinv_handle h _ (by rw [hu]; exact h.menu) (by rw [hu]; exact h.high) (by rw [hu]; exact h.value) (by rw [hu]; exact cmd_none)
    | got j cs =>
      rw [hq] at hu
      exact qinv_handle h _ (by rw [hu]; intro a ds e; injection e with _ e; subst e; exact h.menu j cs hq) (by rw [hu]; intro a ds e; injection e with e _; injection e with e; omega) (by rw [hu]; exact h.value) (by rw [hu]; exact cmd_none)
  | leave i =>
    show QInv (s.handle (.mouseLeave i))
    have hu : s.bar.update (.mouseLeave i) = (s.bar, []) ∨ ∃ j cs, s.bar.query = .got j cs ∧ s.bar.update (.mouseLeave i) = (⟨s.bar.value, .got none cs⟩, []) := by
      cases hq : s.bar.query with
      | closed => left; show (match s.bar.query with | .got (some j) cs => _ | _ => _, _) = _; rw [hq]
      | got j cs =>
        cases j with
        | none => left; show (match s.bar.query with | .got (some j) cs => _ | _ => _, _) = _; rw [hq]
        | some j =>
          have : s.bar.update (.mouseLeave i) = (if j = i then ⟨s.bar.value, .got none cs⟩ else s.bar, []) := by show (match s.bar.query with | .got (some j) cs => _ | _ => _, _) = _; rw [hq]
          rw [this]
          by_cases e : j = i
          · rw [if_pos e]; exact .inr ⟨_, cs, rfl, rfl⟩
          · rw [if_neg e]; exact .inl rfl
    rcases hu with hu | ⟨j, cs, hq, hu⟩
    · exact qinv_handle h _ (by rw [hu]; exact h.menu) (by rw [hu]; exact h.high) (by rw [hu]; exact h.value) (by rw [hu]; exact cmd_none)
    · exact qinv_handle h _ (by rw [hu]; intro a ds e; injection e with _ e; subst e; exact h.menu j cs hq) (by rw [hu]; intro a ds e; injection e with e _; cases e) (by rw [hu]; exact h.value) (by rw [hu]; exact cmd_none)
  | fire v due =>
    show QInv (if (v, due) ∈ s.sleeping ∧ due ≤ s.now then QBox.handle { s with sleeping := s.sleeping.erase (v, due) } (.timer v) else s)
    split
    · have h0 : QInv { s with sleeping := s.sleeping.erase (v, due) } := ⟨h.menu, h.high, h.shown, h.msgs, h.selected, h.value, fun v' d hm => h.sleep v' d (List.mem_of_mem_erase hm)⟩
      refine qinv_handle h0 _ h.menu h.high h.value (fun c hc => ?_)
      have hc : c ∈ (if v = s.bar.value then [QCmd.request v] else []) := hc
      split at hc
      · have : c = .request v := List.mem_singleton.mp hc
        subst this
        exact ⟨fun v' e => by (cases e), fun m e => by (cases e), fun v' e => by (cases e)⟩
      · cases hc
    · exact h
  | answer v r =>
    show QInv (if v ∈ s.requests then QBox.handle { s with requests := s.requests.erase v, answers := s.answers ++ [(v, r)] } (.response v (some r)) else s)
    split
    · have li : ∀ x, s.Listed x → ({ s with requests := s.requests.erase v, answers := s.answers ++ [(v, r)] } : QBox).Listed x := fun x hx => listed_mono (fun y hy => List.mem_append_left _ hy) hx
      have h0 : QInv { s with requests := s.requests.erase v, answers := s.answers ++ [(v, r)] } :=
        ⟨fun i cs e => List.mem_append_left _ (h.menu i cs e), h.high, fun x hx => li x (h.shown x hx), fun m hm => (h.msgs m hm).imp id (fun ⟨x, a, b⟩ => ⟨x, a, li x b⟩),
          fun x hx => (h.selected x hx).imp (li x) id, h.value.imp (li _) id, h.sleep⟩
      have hu : s.bar.update (.response v (some r)) = (if v = s.bar.value then ⟨s.bar.value, .got none r⟩ else s.bar, []) := rfl
      by_cases e : v = s.bar.value
      · rw [if_pos e] at hu
        exact qinv_handle h0 _ (by dsimp only; rw [hu]; intro a ds e'; injection e' with _ e'; subst e'; subst e; exact List.mem_append_right _ List.mem_cons_self) (by dsimp only; rw [hu]; intro a ds e; injection e with e _; cases e)
          (by dsimp only; rw [hu]; exact h0.value) (by dsimp only; rw [hu]; intro c hc; cases hc)
      · rw [if_neg e] at hu
        exact qinv_handle h0 _ (by dsimp only; rw [hu]; exact h0.menu) (by dsimp only; rw [hu]; exact h0.high) (by dsimp only; rw [hu]; exact h0.value) (by dsimp only; rw [hu]; intro c hc; cases hc)
    · exact h
  | fail v =>
    show QInv (if v ∈ s.requests then QBox.handle { s with requests := s.requests.erase v } (.response v none) else s)
    split
    · have h0 : QInv { s with requests := s.requests.erase v } := ⟨h.menu, h.high, h.shown, h.msgs, h.selected, h.value, h.sleep⟩
      exact qinv_handle h0 _ h.menu h.high h.value cmd_none
    · exact h
  | deliver m =>
    show QInv (if m ∈ s.msgs then QBox.handle { s with msgs := s.msgs.erase m } m else s)
    split
    · rename_i hm
      have h0 : QInv { s with msgs := s.msgs.erase m } := ⟨h.menu, h.high, h.shown, fun x hx => h.msgs x (List.mem_of_mem_erase hx), h.selected, h.value, h.sleep⟩
      rcases h.msgs m hm with rfl | ⟨v, rfl, hv⟩
      · exact qinv_dismiss h0
      · exact qinv_select h0 hv
    · exact h
  | renew v =>
    have tx : ∀ x, s.Text x → (s.step (.renew v)).Text x := fun x hx => hx.imp id (fun hx => List.mem_append_left _ hx)
    exact ⟨fun i cs e => (by cases e), fun i cs e => (by cases e), h.shown, h.msgs, fun x hx => (h.selected x hx).imp id (tx x), .inr (.inr (List.mem_append_right _ List.mem_cons_self)), h.sleep⟩
  | wait ms => exact ⟨h.menu, h.high, h.shown, h.msgs, h.selected, h.value, h.sleep⟩

theorem qinv_run (v0 : Bytes) (evs : List QEv) : QInv (QBox.run v0 evs) := by
  unfold QBox.run
  have : ∀ (s : QBox), QInv s → QInv (evs.foldl QBox.step s) := by
    induction evs with
    | nil => exact fun s h => h
    | cons e evs ih => exact fun s h => ih _ (qinv_step h e)
  exact this _ (qinv_init v0)

/-- **C88** (menu). At any time the menu shows what the server answered to a request for the very text in the bar. -/
theorem C88_menu (v0 : Bytes) (evs : List QEv) : (QBox.run v0 evs).bar.menu = [] ∨ ((QBox.run v0 evs).bar.value, (QBox.run v0 evs).bar.menu) ∈ (QBox.run v0 evs).answers := by
  have h := (qinv_run v0 evs).menu
  unfold QBar.menu
  split
  · rename_i i cs e
    exact .inr (h i cs e)
  · exact .inl rfl

/-- **C88** (requests). A request is made only for the text in the bar, and (but for the one on entering the input) only after the text was typed 250 milliseconds before or earlier. -/
theorem C88_requests (v0 : Bytes) (evs : List QEv) (e : QEv) (hreq : (QBox.run v0 evs).requests.length < ((QBox.run v0 evs).step e).requests.length) :
    ((QBox.run v0 evs).step e).requests = (QBox.run v0 evs).requests ++ [(QBox.run v0 evs).bar.value] ∧
      (e = .focus ∨ ∃ t, ((QBox.run v0 evs).bar.value, t) ∈ (QBox.run v0 evs).typed ∧ t + 250 ≤ (QBox.run v0 evs).now) := by
  have h := qinv_run v0 evs
  generalize QBox.run v0 evs = s at h hreq ⊢
  cases e with
  | focus => exact ⟨rfl, .inl rfl⟩
  | type v => exact absurd hreq (Nat.lt_irrefl _)
  | blur => exact absurd hreq (Nat.lt_irrefl _)
  | click v =>
    exfalso
    have hreq : s.requests.length < (if v ∈ s.shown then s.handle (.select v) else s).requests.length := hreq
    split at hreq
    · exact Nat.lt_irrefl _ hreq
    · exact Nat.lt_irrefl _ hreq
  | key k =>
    exfalso
    have hk : (s.handle (.keyDown k)).requests = s.requests := by
      unfold QBox.handle
      have hu : s.bar.update (.keyDown k) = (match s.bar.query with
        | .got h cs => (⟨s.bar.value, .got (updateKeyCode h cs k).1 cs⟩, (updateKeyCode h cs k).2)
        | .closed => if k = "Enter" then (s.bar, [.parent s.bar.value]) else (s.bar, [])) := rfl
      rw [hu]
      cases hq : s.bar.query with
      | closed =>
        dsimp only
        split <;> rfl
      | got i cs =>
        dsimp only
        rcases (key_spec i cs k (fun j e => h.high j cs (by rw [hq, e]))).2 with e | e | ⟨v, _, e⟩ <;> rw [e] <;> rfl
    have hreq : s.requests.length < (s.handle (.keyDown k)).requests.length := hreq
    rw [hk] at hreq
    exact Nat.lt_irrefl _ hreq
  | over i => exact absurd hreq (Nat.lt_irrefl _)
  | leave i => exact absurd hreq (Nat.lt_irrefl _)
  | fire v due =>
    have e0 : s.step (.fire v due) = if (v, due) ∈ s.sleeping ∧ due ≤ s.now then QBox.handle { s with sleeping := s.sleeping.erase (v, due) } (.timer v) else s := rfl
    rw [e0] at hreq ⊢
    by_cases c : (v, due) ∈ s.sleeping ∧ due ≤ s.now
    · rw [if_pos c] at hreq ⊢
      unfold QBox.handle at hreq ⊢
      have hu : ({ s with sleeping := s.sleeping.erase (v, due) } : QBox).bar.update (.timer v) = (s.bar, if v = s.bar.value then [.request v] else []) := rfl
      rw [hu] at hreq ⊢
      by_cases ev : v = s.bar.value
      · obtain ⟨t, h1, h2⟩ := h.sleep v due c.1
        dsimp only
        rw [if_pos ev]
        subst ev
        exact ⟨rfl, .inr ⟨t, h1, by omega⟩⟩
      · dsimp only at hreq
        rw [if_neg ev] at hreq
        exact absurd hreq (Nat.lt_irrefl _)
    · rw [if_neg c] at hreq
      exact absurd hreq (Nat.lt_irrefl _)
  | answer v r =>
    exfalso
    have e0 : s.step (.answer v r) = if v ∈ s.requests then QBox.handle { s with requests := s.requests.erase v, answers := s.answers ++ [(v, r)] } (.response v (some r)) else s := rfl
    rw [e0] at hreq
    split at hreq
    · have : (s.requests.erase v).length ≤ s.requests.length := List.length_erase_le
      exact absurd (Nat.lt_of_lt_of_le hreq this) (Nat.lt_irrefl _)
    · exact Nat.lt_irrefl _ hreq
  | fail v =>
    exfalso
    have e0 : s.step (.fail v) = if v ∈ s.requests then QBox.handle { s with requests := s.requests.erase v } (.response v none) else s := rfl
    rw [e0] at hreq
    split at hreq
    · have : (s.requests.erase v).length ≤ s.requests.length := List.length_erase_le
      exact absurd (Nat.lt_of_lt_of_le hreq this) (Nat.lt_irrefl _)
    · exact Nat.lt_irrefl _ hreq
  | deliver m =>
    exfalso
    have e0 : s.step (.deliver m) = if m ∈ s.msgs then QBox.handle { s with msgs := s.msgs.erase m } m else s := rfl
    rw [e0] at hreq
    split at hreq
    · rename_i hm
      rcases h.msgs m hm with rfl | ⟨v, rfl, _⟩
      · exact Nat.lt_irrefl _ hreq
      · exact Nat.lt_irrefl _ hreq
    · exact Nat.lt_irrefl _ hreq
  | renew v => exact absurd hreq (Nat.lt_irrefl _)
  | wait ms => exact absurd hreq (Nat.lt_irrefl _)

/-- Events that neither change the text nor close the menu: timers, answers, the arrow keys and the mouse, and time. -/
def QEv.Calm : QEv → Prop
  | .focus => True
  | .key k => k = "ArrowUp" ∨ k = "ArrowDown"
  | .over _ => True
  | .leave _ => True
  | .fire _ _ => True
  | .answer _ _ => True
  | .wait _ => True
  | _ => False

/-- The text is in the bar, and its completions are on the way or there. -/
def QBox.Coming (s : QBox) (v : Bytes) : Prop := s.bar.value = v ∧ ((∃ due, (v, due) ∈ s.sleeping) ∨ v ∈ s.requests ∨ s.bar.query ≠ .closed)

theorem coming_step {s : QBox} (h : QInv s) {v : Bytes} (hc : s.Coming v) (e : QEv) (he : e.Calm) : (s.step e).Coming v := by
  obtain ⟨hv, hw⟩ := hc
  cases e with
  | focus => exact ⟨hv, hw.imp id (Or.imp (fun h => List.mem_append_left _ h) id)⟩
  | type v => cases he
  | blur => cases he
  | click v => cases he
  | key k =>
    have e0 : s.step (.key k) = s.handle (.keyDown k) := rfl
    rw [e0]
    unfold QBox.handle
    have hu : s.bar.update (.keyDown k) = (match s.bar.query with
      | .got h cs => (⟨s.bar.value, .got (updateKeyCode h cs k).1 cs⟩, (updateKeyCode h cs k).2)
      | .closed => if k = "Enter" then (s.bar, [.parent s.bar.value]) else (s.bar, [])) := rfl
    have hk : k ≠ "Enter" := by rcases he with e | e <;> rw [e] <;> decide
    rw [hu]
    cases hq : s.bar.query with
    | closed =>
      dsimp only
      rw [if_neg hk]
      exact ⟨hv, hw⟩
    | got i cs =>
      dsimp only
      rcases (key_spec i cs k (fun j e => h.high j cs (by rw [hq, e]))).2 with e | e | ⟨v, _, e⟩ <;> rw [e] <;> exact ⟨hv, .inr (.inr (fun e => by cases e))⟩
  | over i =>
    refine ⟨?_, ?_⟩
    · show (s.bar.update (.mouseOver i)).1.value = v
      unfold QBar.update
      dsimp only
      split <;> exact hv
    · refine hw.imp id (Or.imp id (fun hq => ?_))
      show (s.bar.update (.mouseOver i)).1.query ≠ _
      unfold QBar.update
      dsimp only
      split
      · exact fun e => by cases e
      · exact hq
  | leave i =>
    refine ⟨?_, ?_⟩
    · show (s.bar.update (.mouseLeave i)).1.value = v
      unfold QBar.update
      dsimp only
      split
      · split <;> exact hv
      · exact hv
    · refine hw.imp id (Or.imp id (fun hq => ?_))
      show (s.bar.update (.mouseLeave i)).1.query ≠ _
      unfold QBar.update
      dsimp only
      split
      · split
        · exact fun e => by cases e
        · exact hq
      · exact hq
  | fire v' due =>
    have e0 : s.step (.fire v' due) = if (v', due) ∈ s.sleeping ∧ due ≤ s.now then QBox.handle { s with sleeping := s.sleeping.erase (v', due) } (.timer v') else s := rfl
    rw [e0]
    split
    · unfold QBox.handle
      have hu : ({ s with sleeping := s.sleeping.erase (v', due) } : QBox).bar.update (.timer v') = (s.bar, if v' = s.bar.value then [.request v'] else []) := rfl
      rw [hu]
      dsimp only
      by_cases ev : v' = s.bar.value
      · rw [if_pos ev]
        refine ⟨hv, .inr (.inl ?_)⟩
        show v ∈ s.requests ++ [v']
        rw [ev, hv]
        exact List.mem_append_right _ List.mem_cons_self
      · rw [if_neg ev]
        refine ⟨hv, hw.imp (fun ⟨d, hd⟩ => ⟨d, ?_⟩) id⟩
        refine (List.mem_erase_of_ne ?_).mpr hd
        intro e
        injection e with e1 _
        exact ev (by rw [← e1, hv])
    · exact ⟨hv, hw⟩
  | answer v' r =>
    have e0 : s.step (.answer v' r) = if v' ∈ s.requests then QBox.handle { s with requests := s.requests.erase v', answers := s.answers ++ [(v', r)] } (.response v' (some r)) else s := rfl
    rw [e0]
    split
    · unfold QBox.handle
      have hu : ({ s with requests := s.requests.erase v', answers := s.answers ++ [(v', r)] } : QBox).bar.update (.response v' (some r)) = (if v' = s.bar.value then ⟨s.bar.value, .got none r⟩ else s.bar, []) := rfl
      rw [hu]
      dsimp only
      by_cases ev : v' = s.bar.value
      · rw [if_pos ev]
        exact ⟨hv, .inr (.inr (fun e => by cases e))⟩
      · rw [if_neg ev]
        refine ⟨hv, hw.imp id (Or.imp (fun hr => ?_) id)⟩
        exact (List.mem_erase_of_ne (fun e => ev (by rw [← e, hv]))).mpr hr
    · exact ⟨hv, hw⟩
  | fail v => cases he
  | deliver m => cases he
  | renew v => cases he
  | wait ms => exact ⟨hv, hw⟩

/-- **C88** (completions come). After a text was typed and the timers have run out and the requests been answered, without the bar having been left or changed meanwhile, the menu has the server's completions for it, in whatever order and however late
those and earlier answers came. -/
theorem C88_comes (v0 : Bytes) (before : List QEv) (v : Bytes) (after : List QEv) (hc : ∀ e ∈ after, e.Calm) (hs : (QBox.run v0 (before ++ .type v :: after)).sleeping = []) (hr : (QBox.run v0 (before ++ .type v :: after)).requests = []) :
    (QBox.run v0 (before ++ .type v :: after)).bar.value = v ∧ (v, (QBox.run v0 (before ++ .type v :: after)).bar.menu) ∈ (QBox.run v0 (before ++ .type v :: after)).answers := by
  have h0 : (QBox.run v0 (before ++ [.type v])).Coming v := by
    unfold QBox.run
    rw [List.foldl_append]
    exact ⟨rfl, .inl ⟨_, List.mem_append_right _ List.mem_cons_self⟩⟩
  have hrun : QBox.run v0 (before ++ .type v :: after) = after.foldl QBox.step (QBox.run v0 (before ++ [.type v])) := by
    unfold QBox.run
    rw [← List.foldl_append, List.append_assoc]
    rfl
  have hcom : (QBox.run v0 (before ++ .type v :: after)).Coming v := by
    rw [hrun]
    have hi := qinv_run v0 (before ++ [.type v])
    clear hrun hs hr
    generalize QBox.run v0 (before ++ [.type v]) = s at h0 hi ⊢
    induction after generalizing s with
    | nil => exact h0
    | cons e after ih => exact ih (fun e h => hc e (List.mem_cons_of_mem _ h)) _ (coming_step hi h0 e (hc e List.mem_cons_self)) (qinv_step hi e)
  obtain ⟨hv, hw⟩ := hcom
  rw [hs, hr] at hw
  have hq : (QBox.run v0 (before ++ .type v :: after)).bar.query ≠ .closed := by
    rcases hw with ⟨_, h⟩ | h | h
    · cases h
    · cases h
    · exact h
  have hm := (qinv_run v0 (before ++ .type v :: after)).menu
  refine ⟨hv, ?_⟩
  unfold QBar.menu
  split
  · rename_i i cs e
    have := hm i cs e
    rw [hv] at this
    exact this
  · rename_i e
    exact absurd e hq

/-- "a", "b". -/
def exA : Bytes := [97]
def exB : Bytes := [98]

/-- Two texts are typed; the answer to the first comes last and is not shown. -/
theorem C88_example : (QBox.run [] [.type exA, .wait 250, .fire exA 250, .type exB, .wait 250, .fire exB 500, .answer exB [exB, exB ++ exA], .answer exA [exA]]).bar = ⟨exB, .got none [exB, exB ++ exA]⟩ := by decide +kernel

/-- **The menu can come back.** After the input was left, an answer that comes late opens the menu again. -/
theorem C88_reopens_refuted : ¬ ∀ (v0 : Bytes) (evs : List QEv) (v : Bytes) (r : List Bytes), (QBox.run v0 (evs ++ [.blur, .answer v r])).bar.menu = [] := by
  intro h
  have := h [] [.type exA, .wait 250, .fire exA 250] exA [exA]
  revert this
  decide +kernel

/-- **Requests can come early.** Typing "a", "b", "a" makes a request 50 milliseconds after the last change: the first timer finds its text again. -/
theorem C88_early_refuted : ∃ evs : List QEv, (QBox.run [] (evs ++ [.type exA, .wait 50])).requests = [] ∧ (QBox.run [] (evs ++ [.type exA, .wait 50, .fire exA 250])).requests = [exA] :=
  ⟨[.type exA, .wait 100, .type exB, .wait 100], by decide +kernel, by decide +kernel⟩

/-! ## Keys and selecting -/

/-- **C89** (what is drawn). The parent is asked only for names that the server listed as completions, texts that were typed and texts it gave itself. -/
theorem C89_selected (v0 : Bytes) (evs : List QEv) : ∀ v ∈ (QBox.run v0 evs).selected, (∃ t r, (t, r) ∈ (QBox.run v0 evs).answers ∧ v ∈ r) ∨ (∃ t, (v, t) ∈ (QBox.run v0 evs).typed) ∨ v ∈ (QBox.run v0 evs).given :=
  (qinv_run v0 evs).selected

/-- **C89** (enter). Enter on a highlighted completion selects that one: its message, whenever it comes, puts it into the bar, closes the menu and asks the parent for it. -/
theorem C89_enter (v0 : Bytes) (evs : List QEv) {i : Nat} {cs : List Bytes} {v : Bytes} (hq : (QBox.run v0 evs).bar.query = .got (some i) cs) (hv : cs[i]? = some v) :
    (QBox.run v0 (evs ++ [.key "Enter"])).bar = (QBox.run v0 evs).bar ∧
    (QBox.run v0 (evs ++ [.key "Enter", .deliver (.select v)])).bar = ⟨v, .closed⟩ ∧ (QBox.run v0 (evs ++ [.key "Enter", .deliver (.select v)])).selected = (QBox.run v0 evs).selected ++ [v] := by
  have hr : ∀ l, QBox.run v0 (evs ++ l) = l.foldl QBox.step (QBox.run v0 evs) := fun l => by unfold QBox.run; rw [List.foldl_append]
  rw [hr, hr]
  generalize QBox.run v0 evs = s at hq ⊢
  have hat : elmAt cs (i : Int) = some v := by
    unfold elmAt
    rw [Int.toNat_natCast, List.head?_drop, hv]
  have hk : updateKeyCode (some (i : Int)) cs "Enter" = (some (i : Int), [.send (.select v)]) := by
    unfold updateKeyCode
    rw [if_neg (by decide), if_neg (by decide), if_pos rfl]
    show (match elmAt cs (i : Int) with | some selected => _ | none => _) = _
    rw [hat]
  have hu : s.bar.update (.keyDown "Enter") = (s.bar, [.send (.select v)]) := by
    have : s.bar.update (.keyDown "Enter") = (match s.bar.query with
      | .got h cs => (⟨s.bar.value, .got (updateKeyCode h cs "Enter").1 cs⟩, (updateKeyCode h cs "Enter").2)
      | .closed => if "Enter" = "Enter" then (s.bar, [.parent s.bar.value]) else (s.bar, [])) := rfl
    rw [this, hq]
    dsimp only
    rw [hk]
    dsimp only
    rw [← hq]
  have h1 : s.step (.key "Enter") = { s with bar := s.bar, shown := s.shown ++ s.bar.menu, msgs := s.msgs ++ [.select v] } := by
    show s.handle (.keyDown "Enter") = _
    unfold QBox.handle
    rw [hu]
    rfl
  have hmem : QMsg.select v ∈ (s.step (.key "Enter")).msgs := by rw [h1]; exact List.mem_append_right _ List.mem_cons_self
  have h2 : (s.step (.key "Enter")).step (.deliver (.select v)) = QBox.handle { s.step (.key "Enter") with msgs := (s.step (.key "Enter")).msgs.erase (.select v) } (.select v) := if_pos hmem
  refine ⟨?_, ?_, ?_⟩
  · show (s.step (.key "Enter")).bar = _
    rw [h1]
  · show ((s.step (.key "Enter")).step (.deliver (.select v))).bar = _
    rw [h2]
    rfl
  · show ((s.step (.key "Enter")).step (.deliver (.select v))).selected = _
    rw [h2]
    show (s.step (.key "Enter")).selected ++ [v] = _
    rw [h1]

/-- A key pressed some times. -/
def presses (n : Nat) (k : String) : List QEv := List.replicate n (.key k)

theorem press_down {s : QBox} {h : Option Int} {cs : List Bytes} (hq : s.bar.query = .got h cs) (hne : cs ≠ []) : (s.step (.key "ArrowDown")).bar = ⟨s.bar.value, .got (some (min (h.getD (-1) + 1) (cs.length - 1))) cs⟩ := by
  have hk : updateKeyCode h cs "ArrowDown" = (some (min (h.getD (-1) + 1) (cs.length - 1)), []) := by
    unfold updateKeyCode
    rw [if_neg (by decide), if_pos rfl, if_neg (fun e => hne (List.length_eq_zero_iff.mp e))]
  show (s.handle (.keyDown "ArrowDown")).bar = _
  unfold QBox.handle
  rw [(start_bar _ _).1]
  have hu : s.bar.update (.keyDown "ArrowDown") = (match s.bar.query with
      | .got h cs => (⟨s.bar.value, .got (updateKeyCode h cs "ArrowDown").1 cs⟩, (updateKeyCode h cs "ArrowDown").2)
      | .closed => if "ArrowDown" = "Enter" then (s.bar, [QCmd.parent s.bar.value]) else (s.bar, [])) := rfl
  dsimp only
  rw [hu]
  rw [hq]
  dsimp only
  rw [hk]

theorem press_up {s : QBox} {i : Int} {cs : List Bytes} (hq : s.bar.query = .got (some i) cs) : (s.step (.key "ArrowUp")).bar = ⟨s.bar.value, .got (some (max (i - 1) 0)) cs⟩ := by
  show (s.handle (.keyDown "ArrowUp")).bar = _
  unfold QBox.handle
  rw [(start_bar _ _).1]
  have hu : s.bar.update (.keyDown "ArrowUp") = (match s.bar.query with
      | .got h cs => (⟨s.bar.value, .got (updateKeyCode h cs "ArrowUp").1 cs⟩, (updateKeyCode h cs "ArrowUp").2)
      | .closed => if "ArrowUp" = "Enter" then (s.bar, [QCmd.parent s.bar.value]) else (s.bar, [])) := rfl
  dsimp only
  rw [hu]
  rw [hq]
  dsimp only
  rfl

theorem presses_down {s : QBox} {i : Int} {cs : List Bytes} (hq : s.bar.query = .got (some i) cs) (hi : i < cs.length) (h0 : 0 ≤ i) (n : Nat) : ((presses n "ArrowDown").foldl QBox.step s).bar = ⟨s.bar.value, .got (some (min (i + n) (cs.length - 1))) cs⟩ := by
  induction n generalizing s i with
  | zero =>
    show s.bar = _
    have : min (i + ((0 : Nat) : Int)) ((cs.length : Int) - 1) = i := by omega
    rw [this, ← hq]
  | succ n ih =>
    unfold presses
    rw [List.replicate_succ, List.foldl_cons]
    have hc : cs ≠ [] := fun e => by rw [e] at hi; exact absurd hi (by simpa using h0)
    have h1 := press_down hq hc
    have hq' : (s.step (.key "ArrowDown")).bar.query = .got (some (min (i + 1) (cs.length - 1))) cs := by rw [h1]; rfl
    have := ih hq' (by omega) (by omega)
    unfold presses at this
    rw [this, h1]
    dsimp only
    have : min (min (i + 1) ((cs.length : Int) - 1) + (n : Int)) ((cs.length : Int) - 1) = min (i + ((n + 1 : Nat) : Int)) ((cs.length : Int) - 1) := by omega
    rw [this]

theorem presses_up {s : QBox} {i : Int} {cs : List Bytes} (hq : s.bar.query = .got (some i) cs) (h0 : 0 ≤ i) (n : Nat) : ((presses n "ArrowUp").foldl QBox.step s).bar = ⟨s.bar.value, .got (some (max (i - n) 0)) cs⟩ := by
  induction n generalizing s i with
  | zero =>
    show s.bar = _
    have : max (i - ((0 : Nat) : Int)) 0 = i := by omega
    rw [this, ← hq]
  | succ n ih =>
    unfold presses
    rw [List.replicate_succ, List.foldl_cons]
    have h1 := press_up hq
    have hq' : (s.step (.key "ArrowUp")).bar.query = .got (some (max (i - 1) 0)) cs := by rw [h1]
    have := ih hq' (by omega)
    unfold presses at this
    rw [this, h1]
    dsimp only
    have : max (max (i - 1) 0 - (n : Int)) 0 = max (i - ((n + 1 : Nat) : Int)) 0 := by omega
    rw [this]

/-- **C89** (arrows). In a menu in which nothing is highlighted yet, `n + 1` presses of the down arrow highlight the completion number `n`, or the last one; `k` presses of the up arrow then go up by `k`, or to the first one. The highlighted place is one
in the menu. -/
theorem C89_arrows (v0 : Bytes) (evs : List QEv) {cs : List Bytes} (hq : (QBox.run v0 evs).bar.query = .got none cs) (hne : cs ≠ []) (n k : Nat) :
    ∃ i : Nat, i = min n (cs.length - 1) - k ∧ i < cs.length ∧ (QBox.run v0 (evs ++ (presses (n + 1) "ArrowDown" ++ presses k "ArrowUp"))).bar = ⟨(QBox.run v0 evs).bar.value, .got (some i) cs⟩ := by
  have hr : ∀ l, QBox.run v0 (evs ++ l) = l.foldl QBox.step (QBox.run v0 evs) := fun l => by unfold QBox.run; rw [List.foldl_append]
  have hpos : 0 < cs.length := List.length_pos_iff.mpr hne
  refine ⟨_, rfl, by omega, ?_⟩
  rw [hr, List.foldl_append]
  generalize QBox.run v0 evs = s at hq ⊢
  have h1 := press_down hq hne
  have e1 : min ((none : Option Int).getD (-1) + 1) ((cs.length : Int) - 1) = 0 := by rw [Option.getD_none]; omega
  rw [e1] at h1
  have hq1 : (s.step (.key "ArrowDown")).bar.query = .got (some 0) cs := by rw [h1]
  have h2 := presses_down hq1 (by omega) (by omega) n
  have e2 : (presses (n + 1) "ArrowDown").foldl QBox.step s = (presses n "ArrowDown").foldl QBox.step (s.step (.key "ArrowDown")) := by
    unfold presses
    rw [List.replicate_succ, List.foldl_cons]
  rw [e2]
  generalize (presses n "ArrowDown").foldl QBox.step (s.step (.key "ArrowDown")) = t at h2 ⊢
  have hq2 : t.bar.query = .got (some (min (0 + (n : Int)) ((cs.length : Int) - 1))) cs := by rw [h2]
  have h3 := presses_up hq2 (by omega) k
  rw [h3, h2, h1]
  dsimp only
  have : max (min (0 + (n : Int)) ((cs.length : Int) - 1) - (k : Int)) 0 = ((min n (cs.length - 1) - k : Nat) : Int) := by omega
  rw [this]

/-- Typing "a", choosing the second of three completions with the keys. -/
theorem C89_example : (QBox.run [] ([.type exA, .wait 250, .fire exA 250, .answer exA [exA, exB, exA ++ exB]] ++ presses 4 "ArrowDown" ++ presses 1 "ArrowUp" ++ [.key "Enter", .deliver (.select exB)])).selected = [exB] ∧
    (QBox.run [] [.type exA, .wait 250, .fire exA 250, .answer exA [exA, exB, exA ++ exB]]).bar.query = .got none [exA, exB, exA ++ exB] := by decide +kernel

/-- **Enter can be dead.** "Enter with no completions triggers a redraw" (QueryBar.elm:176) is so only before an answer: after one without completions nothing is in the menu, and Enter does nothing. -/
theorem C89_enter_refuted : ¬ ∀ (v0 : Bytes) (evs : List QEv), (QBox.run v0 evs).bar.menu = [] → (QBox.run v0 (evs ++ [.key "Enter"])).selected = (QBox.run v0 evs).selected ++ [(QBox.run v0 evs).bar.value] := by
  intro h
  have := h [] [.type exA, .wait 250, .fire exA 250, .answer exA []] (by decide +kernel)
  revert this
  decide +kernel

end Rothko
