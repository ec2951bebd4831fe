import Verif.Model.Listener
import Verif.Lemmas.QueueRun
/-!
# C68: a listener that has stopped adds nothing more
-/
namespace Rothko

/-- `handleListener` is past its `wg.Wait`. -/
def GAcc.over {E : Type} : GAcc E → Option E
  | .ret e => some e
  | .sent e => some e
  | .done e => some e
  | _ => none

structure GInv {E : Type} (s : GSys E) : Prop where
  ended : s.acc.over.isSome → ∀ c ∈ s.conns, c.ended
  pcs : ∀ c ∈ s.conns, (c.pc = 0 ∧ c.own = false) ∨ (c.pc = 1 ∧ c.own = true) ∨ (c.pc = 2 ∧ c.closed = true)
  hctx : s.hctx = true ↔ s.acc ≠ .accept ∧ ∀ e, s.acc ≠ .cancel e
  mret : ∀ r, s.main = .ret r ∨ s.main = .fin r → (∃ e, s.acc.over = some e ∧ (r = some e ∨ r = none)) ∧ (r = none → s.ctx = true)
  mwait : s.main = .wait → s.ctx = true
  shut : s.main = .wait ∨ (∃ r, s.main = .fin r) → s.shut = true

private theorem mem_set_imp {α : Type} {l : List α} {i : Nat} {a b : α} (h : l[i]? = some a) {P : α → Prop} (hp : ∀ x ∈ l, P x) (hb : P b) : ∀ x ∈ l.set i b, P x := by
  intro x hx
  rcases List.mem_or_eq_of_mem_set hx with hx | rfl
  · exact hp x hx
  · exact hb

theorem ginv_step {E : Type} {s t : GSys E} (inv : GInv s) (hs : GStep s t) : GInv t := by
  have cs : ∀ (i : Nat) (c c' : GConn), s.conns[i]? = some c → ¬ c.ended ∨ c'.ended → (((c'.pc = 0 ∧ c'.own = false) ∨ (c'.pc = 1 ∧ c'.own = true) ∨ (c'.pc = 2 ∧ c'.closed = true))) →
      GInv { s with conns := s.conns.set i c' } := by
    intro i c c' hc he hp
    refine { inv with ended := ?_, pcs := mem_set_imp hc inv.pcs hp }
    intro ho
    have hall := inv.ended ho
    rcases he with he | he
    · exact absurd (hall c (List.mem_of_getElem? hc)) he
    · exact mem_set_imp hc hall he
  cases hs with
  | stop => exact { inv with mret := fun r hr => ⟨(inv.mret r hr).1, fun _ => rfl⟩, mwait := fun _ => rfl }
  | accept h ho =>
    refine { inv with ended := ?_, pcs := ?_ }
    · intro hov; dsimp only at hov; rw [h] at hov; cases hov
    · intro c hc
      rcases List.mem_append.mp hc with hc | hc
      · exact inv.pcs c hc
      · rw [List.mem_singleton] at hc; subst hc; exact Or.inl ⟨rfl, rfl⟩
  | acceptErr e h =>
    refine { inv with ended := fun ho => (by cases ho), hctx := ?_, mret := ?_ }
    · have := inv.hctx
      rw [h] at this
      dsimp only
      rw [this]
      exact ⟨fun x => absurd rfl x.1, fun x => absurd rfl (x.2 e)⟩
    · intro r hr
      obtain ⟨⟨e', h1, _⟩, _⟩ := inv.mret r hr
      rw [h] at h1; cases h1
  | line i c h hc =>
    refine cs i c _ h (Or.inl ?_) ?_
    · unfold GConn.scanning at hc; unfold GConn.ended; omega
    · rcases inv.pcs c (List.mem_of_getElem? h) with x | x | x
      · exact Or.inl x
      · unfold GConn.scanning at hc; omega
      · unfold GConn.scanning at hc; omega
  | scanEnd i c h hc =>
    refine cs i c _ h (Or.inl ?_) (Or.inr (Or.inl ⟨rfl, rfl⟩))
    unfold GConn.scanning at hc; unfold GConn.ended; omega
  | close i c h hc hd =>
    have := inv.pcs c (List.mem_of_getElem? h)
    have hnot : c.pc ≠ 2 := by
      intro h2
      rcases this with x | x | x
      · omega
      · omega
      · rw [hc] at x; cases x.2
    refine cs i c _ h (Or.inl hnot) ?_
    rcases this with x | x | x
    · exact Or.inl x
    · exact Or.inr (Or.inl x)
    · exact absurd x.1 hnot
  | connEnd i c h hc hd => exact cs i c _ h (Or.inr rfl) (Or.inr (Or.inr ⟨rfl, hd⟩))
  | accCancel e h =>
    refine { inv with ended := fun ho => (by cases ho), hctx := ?_, mret := ?_ }
    · exact ⟨fun _ => ⟨fun h => (by cases h), fun _ h => (by cases h)⟩, fun _ => rfl⟩
    · intro r hr
      obtain ⟨⟨e', h1, _⟩, _⟩ := inv.mret r hr
      rw [h] at h1; cases h1
  | accWait e h ha =>
    refine { inv with ended := fun _ => ha, hctx := ?_, mret := ?_ }
    · have := inv.hctx
      rw [h] at this
      dsimp only
      rw [this]
      exact ⟨fun _ => ⟨fun h => (by cases h), fun _ h => (by cases h)⟩, fun _ => ⟨fun h => (by cases h), fun _ h => (by cases h)⟩⟩
    · intro r hr
      obtain ⟨⟨e', h1, _⟩, _⟩ := inv.mret r hr
      rw [h] at h1; cases h1
  | accSend e h =>
    refine { inv with ended := fun _ => inv.ended (by rw [h]; rfl), hctx := ?_, mret := ?_ }
    · have := inv.hctx
      rw [h] at this
      dsimp only
      rw [this]
      exact ⟨fun _ => ⟨fun h => (by cases h), fun _ h => (by cases h)⟩, fun _ => ⟨fun h => (by cases h), fun _ h => (by cases h)⟩⟩
    · intro r hr
      have := inv.mret r hr
      rw [h] at this
      exact this
  | accDone e h =>
    refine { inv with ended := fun _ => inv.ended (by rw [h]; rfl), hctx := ?_, mret := ?_ }
    · have := inv.hctx
      rw [h] at this
      dsimp only
      rw [this]
      exact ⟨fun _ => ⟨fun h => (by cases h), fun _ h => (by cases h)⟩, fun _ => ⟨fun h => (by cases h), fun _ h => (by cases h)⟩⟩
    · intro r hr
      have := inv.mret r hr
      rw [h] at this
      exact this
  | recv e hm h =>
    refine { inv with mret := ?_, mwait := fun h => (by cases h), shut := ?_ }
    · intro r hr
      dsimp only at hr
      rcases hr with hr | hr
      · cases hr
        refine ⟨⟨e, ?_, Or.inl rfl⟩, fun h => (by cases h)⟩
        rcases h with h | h <;> (dsimp only; rw [h]; rfl)
      · cases hr
    · rintro (hr | ⟨r, hr⟩) <;> cases hr
  | stopped hm hc =>
    refine { inv with mret := ?_, mwait := fun _ => hc, shut := fun _ => rfl }
    rintro r (hr | hr) <;> cases hr
  | waited e hm h =>
    refine { inv with mret := ?_, mwait := fun h => (by cases h), shut := ?_ }
    · intro r hr
      dsimp only at hr
      rcases hr with hr | hr
      · cases hr
        exact ⟨⟨e, by dsimp only; rw [h]; rfl, Or.inr rfl⟩, fun _ => inv.mwait hm⟩
      · cases hr
    · rintro (hr | ⟨r, hr⟩) <;> cases hr
  | deferClose r hm =>
    refine { inv with mret := ?_, mwait := fun h => (by cases h), shut := fun _ => rfl }
    intro r' hr
    dsimp only at hr
    rcases hr with hr | hr
    · cases hr
    · cases hr
      exact inv.mret r (Or.inl hm)

theorem ginv {E : Type} {s : GSys E} (h : GReach s) : GInv s := by
  induction h with
  | start =>
    refine ⟨fun h => (by cases h), fun c hc => (by cases hc), ?_, ?_, fun h => (by cases h), ?_⟩
    · exact ⟨fun h => (by cases h), fun h => absurd rfl h.1⟩
    · rintro r (h | h) <;> cases h
    · rintro (h | ⟨r, h⟩) <;> cases h
  | step _ hs ih => exact ginv_step ih hs

/-- **C68** (quiet). When `Run` has returned, every connection's goroutine has ended and every connection and the listening socket are closed. -/
theorem C68_closed {E : Type} {s : GSys E} (h : GReach s) (r : Option E) (hr : s.main = .fin r) : (∀ c ∈ s.conns, c.ended ∧ c.closed = true) ∧ s.shut = true := by
  have inv := ginv h
  obtain ⟨⟨e, ho, _⟩, _⟩ := inv.mret r (Or.inr hr)
  refine ⟨fun c hc => ?_, inv.shut (Or.inr ⟨r, hr⟩)⟩
  have he := inv.ended (by rw [ho]; rfl) c hc
  refine ⟨he, ?_⟩
  rcases inv.pcs c hc with x | x | x
  · unfold GConn.ended at he; omega
  · unfold GConn.ended at he; omega
  · exact x.2

/-- **C68** (quiet). Nothing that happens after `Run` has returned accepts a connection or handles a line. -/
theorem C68_quiet {E : Type} {s t : GSys E} (h : GReach s) (r : Option E) (hr : s.main = .fin r) (hs : GStep s t) : t.conns = s.conns ∧ t.main = .fin r := by
  have hc := C68_closed h r hr
  have inv := ginv h
  obtain ⟨⟨e, ho, _⟩, _⟩ := inv.mret r (Or.inr hr)
  cases hs with
  | stop => exact ⟨rfl, hr⟩
  | accept h ho' => rw [h] at ho; cases ho
  | acceptErr e h => exact ⟨rfl, hr⟩
  | line i c h hs => have := (hc.1 c (List.mem_of_getElem? h)).1; unfold GConn.ended at this; unfold GConn.scanning at hs; omega
  | scanEnd i c h hs => have := (hc.1 c (List.mem_of_getElem? h)).1; unfold GConn.ended at this; unfold GConn.scanning at hs; omega
  | close i c h hcl hd => have := (hc.1 c (List.mem_of_getElem? h)).2; rw [hcl] at this; cases this
  | connEnd i c h hs hd => have := (hc.1 c (List.mem_of_getElem? h)).1; unfold GConn.ended at this; omega
  | accCancel e h => exact ⟨rfl, hr⟩
  | accWait e h ha => exact ⟨rfl, hr⟩
  | accSend e h => exact ⟨rfl, hr⟩
  | accDone e h => exact ⟨rfl, hr⟩
  | recv e hm h => rw [hr] at hm; cases hm
  | stopped hm hx => rw [hr] at hm; cases hm
  | waited e hm h => rw [hr] at hm; cases hm
  | deferClose r hm => rw [hr] at hm; cases hm

/-- **C68** (result). `Run` returns nil only after its context was cancelled; otherwise it returns the error that ended the accept loop. -/
theorem C68_result {E : Type} {s : GSys E} (h : GReach s) (r : Option E) (hr : s.main = .fin r) :
    (r = none → s.ctx = true) ∧ (∀ e, r = some e → s.acc.over = some e) := by
  obtain ⟨⟨e, ho, h1⟩, h2⟩ := (ginv h).mret r (Or.inr hr)
  refine ⟨h2, fun e' he => ?_⟩
  rcases h1 with h1 | h1
  · rw [h1] at he; cases he; exact ho
  · rw [h1] at he; cases he

/-! ## It stops -/

def GConn.left (c : GConn) : Nat := 2 * (2 - c.pc) + (if c.closed then 0 else 1)

def GAcc.left {E : Type} : GAcc E → Nat
  | .accept => 5
  | .cancel _ => 4
  | .wait _ => 3
  | .ret _ => 2
  | .sent _ => 1
  | .done _ => 0

def GMain.left {E : Type} : GMain E → Nat
  | .select => 3
  | .wait => 2
  | .ret _ => 1
  | .fin _ => 0

/-- What is left to do until everything has ended, if no more connections come and the scanners stop. -/
def GSys.left {E : Type} (s : GSys E) : Nat := (s.conns.map GConn.left).sum + s.acc.left + s.main.left

private theorem sum_set {l : List GConn} {i : Nat} {a : GConn} (b : GConn) (h : l[i]? = some a) : ((l.set i b).map GConn.left).sum + a.left = (l.map GConn.left).sum + b.left := by
  induction l generalizing i with
  | nil => simp at h
  | cons x l ih =>
    cases i with
    | zero => simp at h; subst h; simp; omega
    | succ i => simp at h; have := ih h; simp only [List.set_cons_succ, List.map_cons, List.sum_cons]; omega

/-- **C68** (it stops). Once its context is cancelled, or `Accept` failed, and until `Run` has returned, there is always something to do that brings the end closer (a closed socket fails `Accept`, a closed connection ends its scanner). -/
theorem C68_progress {E : Type} [Inhabited E] {s : GSys E} (h : GReach s) (hc : s.ctx = true ∨ s.acc ≠ .accept) (hf : ∀ r, s.main ≠ .fin r) : ∃ t, GStep s t ∧ t.left < s.left ∧ t.conns.length = s.conns.length := by
  have inv := ginv h
  -- the accept loop goes on
  have hacc : (∃ t, GStep s t ∧ t.left < s.left ∧ t.conns.length = s.conns.length) ∨ s.acc = .accept ∨ (∃ e, s.acc = .sent e) ∨ ∃ e, s.acc = .done e := by
    cases ha : s.acc with
    | accept => exact .inr (.inl rfl)
    | cancel e => exact .inl ⟨_, .accCancel e ha, by simp [GSys.left, GAcc.left, ha], rfl⟩
    | ret e => exact .inl ⟨_, .accSend e ha, by simp [GSys.left, GAcc.left, ha], rfl⟩
    | sent e => exact .inr (.inr (.inl ⟨e, rfl⟩))
    | done e => exact .inr (.inr (.inr ⟨e, rfl⟩))
    | wait e =>
      left
      by_cases hall : ∀ c ∈ s.conns, c.ended
      · exact ⟨_, .accWait e ha hall, by simp [GSys.left, GAcc.left, ha], rfl⟩
      · have ⟨c, hcm, hne⟩ : ∃ c ∈ s.conns, ¬ c.ended := Classical.byContradiction (fun hx => hall (fun c hc => Classical.byContradiction (fun hy => hx ⟨c, hc, hy⟩)))
        obtain ⟨i, hi, e'⟩ := List.getElem_of_mem hcm
        have hi' : s.conns[i]? = some c := by rw [List.getElem?_eq_getElem hi, e']
        by_cases hcl : c.closed = true
        · rcases inv.pcs c hcm with x | x | x
          · refine ⟨_, .scanEnd i c hi' x.1, ?_, by simp⟩
            have := sum_set { c with pc := 1, own := true } hi'
            simp [GSys.left, GConn.left, x.1, hcl] at this ⊢
            omega
          · refine ⟨_, .connEnd i c hi' x.1 hcl, ?_, by simp⟩
            have := sum_set { c with pc := 2 } hi'
            simp [GSys.left, GConn.left, x.1, hcl] at this ⊢
            omega
          · exact absurd x.1 hne
        · have hcl : c.closed = false := by simpa using hcl
          refine ⟨_, .close i c hi' hcl (Or.inr (Or.inl (inv.hctx.mpr (by rw [ha]; exact ⟨fun h => (by cases h), fun _ h => (by cases h)⟩)))), ?_, by simp⟩
          have := sum_set { c with closed := true } hi'
          simp [GSys.left, GConn.left, hcl] at this ⊢
          omega
  rcases hacc with hacc | hacc
  · exact hacc
  · cases hm : s.main with
    | ret r => exact ⟨_, .deferClose r hm, by simp [GSys.left, GMain.left, hm], rfl⟩
    | fin r => exact absurd hm (hf r)
    | select =>
      rcases hacc with ha | ⟨e, ha⟩ | ⟨e, ha⟩
      · exact ⟨_, .stopped hm (hc.resolve_right (fun hn => hn ha)), by simp [GSys.left, GMain.left, hm], rfl⟩
      · exact ⟨_, .recv e hm (.inl ha), by simp [GSys.left, GMain.left, hm], rfl⟩
      · exact ⟨_, .recv e hm (.inr ha), by simp [GSys.left, GMain.left, hm], rfl⟩
    | wait =>
      rcases hacc with ha | ⟨e, ha⟩ | ⟨e, ha⟩
      · exact ⟨_, .acceptErr default ha, by simp [GSys.left, GAcc.left, ha], rfl⟩
      · exact ⟨_, .accDone e ha, by simp [GSys.left, GAcc.left, ha], rfl⟩
      · exact ⟨_, .waited e hm ha, by simp [GSys.left, GMain.left, hm], rfl⟩

/-- Two connections, one line each; then the context is cancelled and everything ends. -/
theorem C68_example : ∃ s : GSys Nat, GReach s ∧ s.main = .fin none ∧ s.conns.map (·.lines) = [1, 1] := by
  have s0 : GReach (E := Nat) {} := .start
  have s1 := s0.step (.accept rfl rfl)
  have s2 := s1.step (.accept rfl rfl)
  have s3 := s2.step (.line 1 _ rfl rfl)
  have s4 := s3.step (.line 0 _ rfl rfl)
  have s5 := s4.step .stop
  have s6 := s5.step (.stopped rfl rfl)
  have s7 := s6.step (.acceptErr 9 rfl)
  have s8 := s7.step (.close 0 _ rfl rfl (Or.inr (Or.inr rfl)))
  have s9 := s8.step (.scanEnd 0 _ rfl rfl)
  have s10 := s9.step (.scanEnd 1 _ rfl rfl)
  have s11 := s10.step (.close 1 _ rfl rfl (Or.inl rfl))
  have s12 := s11.step (.connEnd 0 _ rfl rfl rfl)
  have s13 := s12.step (.connEnd 1 _ rfl rfl rfl)
  have s14 := s13.step (.accCancel 9 rfl)
  have s15 := s14.step (.accWait 9 rfl (by intro c hc; simp at hc; rcases hc with rfl | rfl <;> rfl))
  have s16 := s15.step (.accSend 9 rfl)
  have s17 := s16.step (.accDone 9 rfl)
  have s18 := s17.step (.waited 9 rfl rfl)
  have s19 := s18.step (.deferClose none rfl)
  exact ⟨_, s19, rfl, rfl⟩

end Rothko
