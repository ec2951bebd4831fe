import Verif.Lemmas.Queue
/-!
# Runs and channels of the write queue
-/
set_option linter.unusedSimpArgs false
namespace Rothko

/-- Past the start check and not yet returned. -/
def RPc.active : RPc → Nat
  | .idle => 0
  | .refused => 0
  | .returned _ => 0
  | _ => 1

/-- The queue the run serves. -/
def RPc.queue : RPc → Option Nat
  | .running q _ => some q
  | .closing q => some q
  | .stored q => some q
  | .draining q _ => some q
  | .stopping q => some q
  | .returned q => some q
  | _ => none

def RPc.Fine (chans : List QChan) (current : Nat) : RPc → Prop
  | .running q _ => q = current
  | .closing q => q = current
  | .stored q => q < current ∧ ∃ ch : QChan, chans[q]? = some ch ∧ ch.closed = false
  | .draining q _ => q < current ∧ ∃ ch : QChan, chans[q]? = some ch ∧ ch.closed = true
  | .stopping q => q < current ∧ chans[q]? = some ⟨[], true⟩
  | .returned q => q < current ∧ chans[q]? = some ⟨[], true⟩
  | _ => True

structure QSys.RunOk (s : QSys) : Prop where
  act : isum (fun _ pc => RPc.active pc) 0 s.runs = if s.on then 1 else 0
  cur : s.chans.length = s.current + 1
  opened : ∃ ch : QChan, s.chans[s.current]? = some ch ∧ ch.closed = false
  fine : ∀ (r : Nat) (pc : RPc), s.runs[r]? = some pc → pc.Fine s.chans s.current
  uniq : ∀ (r r' : Nat) (pc pc' : RPc) (q : Nat), s.runs[r]? = some pc → s.runs[r']? = some pc' → pc.queue = some q → pc'.queue = some q → r = r'
  good : s.bad = false

/-- Values may come and go, but channels stay open or closed and a closed channel gets no values. -/
structure Chans.Le (c c' : List QChan) : Prop where
  len : c'.length = c.length
  get : ∀ (q : Nat) (ch : QChan), c[q]? = some ch → ∃ ch' : QChan, c'[q]? = some ch' ∧ ch'.closed = ch.closed ∧ (ch.closed = true → ch.items = [] → ch'.items = [])

theorem Chans.Le.refl (c : List QChan) : Chans.Le c c := ⟨rfl, fun _ ch h => ⟨ch, h, rfl, fun _ h => h⟩⟩

theorem Chans.Le.set {c : List QChan} {q : Nat} {ch ch' : QChan} (h : c[q]? = some ch) (h1 : ch'.closed = ch.closed)
    (h2 : ch.closed = true → ch.items = [] → ch'.items = []) : Chans.Le c (c.set q ch') := by
  refine ⟨by simp, fun q' x hx => ?_⟩
  by_cases hq : q = q'
  · subst hq
    rw [h] at hx; cases hx
    exact ⟨ch', by rw [List.getElem?_set_self]; exact (List.getElem?_eq_some_iff.mp h).1, h1, h2⟩
  · exact ⟨x, by rw [List.getElem?_set_ne hq]; exact hx, rfl, fun _ h => h⟩

theorem RPc.Fine.le {c c' : List QChan} {n : Nat} {pc : RPc} (hl : Chans.Le c c') (h : pc.Fine c n) : pc.Fine c' n := by
  cases pc with
  | stored q => obtain ⟨h1, ch, h2, h3⟩ := h; obtain ⟨ch', g1, g2, _⟩ := hl.get q ch h2; exact ⟨h1, ch', g1, by rw [g2, h3]⟩
  | draining q cur => obtain ⟨h1, ch, h2, h3⟩ := h; obtain ⟨ch', g1, g2, _⟩ := hl.get q ch h2; exact ⟨h1, ch', g1, by rw [g2, h3]⟩
  | stopping q =>
    obtain ⟨h1, h2⟩ := h; obtain ⟨⟨i, b⟩, g1, g2, g3⟩ := hl.get q _ h2
    simp at g2 g3; subst g2; subst g3; exact ⟨h1, g1⟩
  | returned q =>
    obtain ⟨h1, h2⟩ := h; obtain ⟨⟨i, b⟩, g1, g2, g3⟩ := hl.get q _ h2
    simp at g2 g3; subst g2; subst g3; exact ⟨h1, g1⟩
  | _ => exact h

theorem QSys.RunOk.chan {s s' : QSys} (h : s.RunOk) (hr : s'.runs = s.runs) (hc : s'.current = s.current) (ho : s'.on = s.on) (hl : Chans.Le s.chans s'.chans)
    (hb : s'.bad = s.bad) : s'.RunOk := by
  obtain ⟨h1, h2, ⟨ch, h3, h4⟩, h5, h6, h7⟩ := h
  refine ⟨by rw [hr, ho]; exact h1, by rw [hl.len, hc]; exact h2, ?_, ?_, by rw [hr]; exact h6, by rw [hb]; exact h7⟩
  · rw [hc]; obtain ⟨ch', g1, g2, _⟩ := hl.get _ _ h3; exact ⟨ch', g1, by rw [g2]; exact h4⟩
  · rw [hr, hc]; exact fun r pc hpc => (h5 r pc hpc).le hl

/-- Only run `r` is active. -/
theorem QSys.RunOk.only {s : QSys} (h : s.RunOk) {r r' : Nat} {pc pc' : RPc} (hr : s.runs[r]? = some pc) (ha : pc.active = 1) (hr' : s.runs[r']? = some pc')
    (hne : r' ≠ r) : pc'.active = 0 := by
  have h1 := isum_two (f := fun _ pc => RPc.active pc) 0 hne hr' hr
  have h2 := h.act
  split at h2 <;> omega

theorem QSys.RunOk.off {s : QSys} (h : s.RunOk) (ho : s.on = false) {r : Nat} {pc : RPc} (hr : s.runs[r]? = some pc) : pc.active = 0 := by
  have h1 := isum_le (f := fun _ pc => RPc.active pc) 0 hr
  have h2 := h.act
  rw [ho] at h2; simp at h2; omega

theorem getElem?_set_cases {α : Type} {l : List α} {i j : Nat} {a b x : α} (h : l[i]? = some a) (hx : (l.set i b)[j]? = some x) :
    (j = i ∧ x = b) ∨ (j ≠ i ∧ l[j]? = some x) := by
  by_cases hj : i = j
  · subst hj
    rw [List.getElem?_set_self (List.getElem?_eq_some_iff.mp h).1] at hx
    cases hx; exact Or.inl ⟨rfl, rfl⟩
  · rw [List.getElem?_set_ne hj] at hx; exact Or.inr ⟨fun h => hj h.symm, hx⟩

/-- A step of run `r`. -/
theorem QSys.RunOk.upd {s s' : QSys} (h : s.RunOk) {r : Nat} {pc pc' : RPc} (hr : s.runs[r]? = some pc) (hrun : s'.runs = s.runs.set r pc')
    (hact : pc'.active + (if s.on then 1 else 0) = pc.active + (if s'.on then 1 else 0))
    (hcur : s'.chans.length = s'.current + 1) (hopen : ∃ ch : QChan, s'.chans[s'.current]? = some ch ∧ ch.closed = false)
    (hf : pc'.Fine s'.chans s'.current) (hothers : ∀ (r' : Nat) (x : RPc), r' ≠ r → s.runs[r']? = some x → x.Fine s.chans s.current → x.Fine s'.chans s'.current)
    (hu : ∀ q, pc'.queue = some q → pc.queue = some q ∨ ∀ (r' : Nat) (x : RPc), r' ≠ r → s.runs[r']? = some x → x.queue ≠ some q)
    (hb : s'.bad = s.bad) : s'.RunOk := by
  obtain ⟨h1, h2, h3, h5, h6, h7⟩ := h
  have ha := isum_set (fun _ pc => RPc.active pc) pc' 0 hr
  refine ⟨?_, hcur, hopen, ?_, ?_, by rw [hb]; exact h7⟩
  · rw [hrun]; have := h1; omega
  · rw [hrun]
    intro r' x hx
    rcases getElem?_set_cases hr hx with ⟨_, rfl⟩ | ⟨hne, hx⟩
    · exact hf
    · exact hothers r' x hne hx (h5 r' x hx)
  · rw [hrun]
    intro r1 r2 x1 x2 q hx1 hx2 hq1 hq2
    rcases getElem?_set_cases hr hx1 with ⟨e1, ee1⟩ | ⟨hne1, hy1⟩ <;> rcases getElem?_set_cases hr hx2 with ⟨e2, ee2⟩ | ⟨hne2, hy2⟩
    · rw [e1, e2]
    · rcases hu q (ee1 ▸ hq1) with hq | hq
      · have := h6 r r2 pc x2 q hr hy2 hq hq2; exact absurd this.symm hne2
      · exact absurd hq2 (hq r2 x2 hne2 hy2)
    · rcases hu q (ee2 ▸ hq2) with hq | hq
      · have := h6 r r1 pc x1 q hr hy1 hq hq1; exact absurd this.symm hne1
      · exact absurd hq1 (hq r1 x1 hne1 hy1)
    · exact h6 r1 r2 x1 x2 q hy1 hy2 hq1 hq2

/-- The common case: the run goes on with the same queue and no channel changes between open and closed. -/
theorem QSys.RunOk.go {s s' : QSys} (h : s.RunOk) {r : Nat} {pc pc' : RPc} (hr : s.runs[r]? = some pc) (hrun : s'.runs = s.runs.set r pc')
    (hact : pc'.active = pc.active) (hon : s'.on = s.on) (hc : s'.current = s.current) (hl : Chans.Le s.chans s'.chans)
    (hf : pc'.Fine s'.chans s'.current) (hu : pc'.queue = pc.queue) (hb : s'.bad = s.bad) : s'.RunOk := by
  refine h.upd hr hrun (by rw [hact, hon]) (by rw [hl.len, hc]; exact h.cur) ?_ hf ?_ (fun q hq => Or.inl (hu ▸ hq)) hb
  · obtain ⟨ch, h3, h4⟩ := h.opened
    rw [hc]; obtain ⟨ch', g1, g2, _⟩ := hl.get _ _ h3; exact ⟨ch', g1, by rw [g2]; exact h4⟩
  · intro r' x _ hx hfx; rw [hc]; exact hfx.le hl

theorem QSys.RunOk.step {p : QParams} {s s' : QSys} (h : s.RunOk) (hs : s.Step p s') : s'.RunOk := by
  cases hs with
  | getOld c b hc hb => exact h.chan rfl rfl rfl (.refl _) rfl
  | getNew c hc => exact h.chan rfl rfl rfl (.refl _) rfl
  | lose b hb => exact h.chan rfl rfl rfl (.refl _) rfl
  | load c b hc => exact h.chan rfl rfl rfl (.refl _) rfl
  | sendClosed c b q ch hc _ _ => exact h.chan rfl rfl rfl (.refl _) rfl
  | cancel c b q hc => exact h.chan rfl rfl rfl (.refl _) rfl
  | dropped c b q _ hc => exact h.chan rfl rfl rfl (.refl _) rfl
  | failPut c b hc => exact h.chan rfl rfl rfl (.refl _) rfl
  | failDone c hc => exact h.chan rfl rfl rfl (.refl _) rfl
  | send c b q ch hc hq ho hl => exact h.chan rfl rfl rfl (.set hq rfl (fun hcl => by rw [ho] at hcl; cases hcl)) rfl
  | handoff c b q r i ws ch hc hq ho he hr hwi => exact h.go hr rfl rfl rfl rfl (.refl _) (by have := h.fine r _ hr; exact this) rfl rfl
  | runStart r hr hoff =>
    refine h.upd hr rfl ?_ h.cur h.opened trivial (fun _ _ _ _ hf => hf) (fun q hq => by cases hq) rfl
    simp [RPc.active, QSys.setRun, hoff]
  | runRefused r hr hon =>
    exact h.go hr rfl rfl rfl rfl (.refl _) trivial rfl rfl
  | runLoad r hr =>
    refine h.upd hr rfl rfl h.cur h.opened rfl (fun _ _ _ _ hf => hf) (fun q hq => Or.inr ?_) rfl
    intro r' x hne hx hxq
    have hxa := h.only hr rfl hx hne
    have hxf := h.fine r' x hx
    simp only [RPc.queue, Option.some.injEq] at hq
    subst hq
    cases x with
    | returned q => simp only [RPc.queue, Option.some.injEq] at hxq; have := hxf.1; omega
    | idle => cases hxq
    | refused => cases hxq
    | _ => simp [RPc.active] at hxa
  | recv r q i ws v rest closed hr hwi hq =>
    exact h.go hr rfl rfl rfl rfl (.set hq rfl (fun _ hcl => by cases hcl)) (by have := h.fine r _ hr; exact this) rfl rfl
  | recvClosed r q i ws hr hwi hq =>
    have h1 : q = s.current := h.fine r _ hr
    obtain ⟨ch, h3, h4⟩ := h.opened
    rw [← h1, hq] at h3; cases h3; cases h4
  | write r q i ws v hr hwi => exact h.go hr rfl rfl rfl rfl (.refl _) (by have := h.fine r _ hr; exact this) rfl rfl
  | workerPut r q i ws v hr hwi => exact h.go hr rfl rfl rfl rfl (.refl _) (by have := h.fine r _ hr; exact this) rfl rfl
  | workerDone r q i ws v hr hwi => exact h.go hr rfl rfl rfl rfl (.refl _) (by have := h.fine r _ hr; exact this) rfl rfl
  | workerExit r q i ws hr hwi => exact h.go hr rfl rfl rfl rfl (.refl _) (by have := h.fine r _ hr; exact this) rfl rfl
  | launched r q ws hr he => exact h.go hr rfl rfl rfl rfl (.refl _) (by have := h.fine r _ hr; exact this) rfl rfl
  | store r q hr =>
    have h1 : q = s.current := h.fine r _ hr
    have hcur := h.cur
    obtain ⟨ch, h3, h4⟩ := h.opened
    have hold : ∀ (j : Nat) (x : QChan), s.chans[j]? = some x → (s.chans ++ [(⟨[], false⟩ : QChan)])[j]? = some x := by
      intro j x hx; rw [List.getElem?_append_left (List.getElem?_eq_some_iff.mp hx).1]; exact hx
    refine h.upd hr rfl rfl (by simp [QSys.setRun]) ⟨⟨[], false⟩, by simp [QSys.setRun], rfl⟩ ⟨by simp [QSys.setRun]; omega, ch, hold _ _ (by rw [h1]; exact h3), h4⟩ ?_
      (fun q' hq' => Or.inl hq') rfl
    intro r' x hne hx hf
    have hxa := h.only hr rfl hx hne
    cases x with
    | returned q' => exact ⟨by have := hf.1; simp only [QSys.setRun]; omega, hold _ _ hf.2⟩
    | idle => trivial
    | refused => trivial
    | _ => simp [RPc.active] at hxa
  | close r q ch hr hq ho =>
    obtain ⟨h1, _⟩ := h.fine r _ hr
    have hlt := (List.getElem?_eq_some_iff.mp hq).1
    obtain ⟨ch0, h3, h4⟩ := h.opened
    refine h.upd hr rfl rfl (by simp only [QSys.setRun, QSys.setChan, List.length_set]; exact h.cur) ⟨ch0, ?_, h4⟩ ⟨h1, { ch with closed := true }, ?_, rfl⟩ ?_ (fun q' hq' => Or.inl hq') rfl
    · simp only [QSys.setRun, QSys.setChan]; rw [List.getElem?_set_ne (by omega)]; exact h3
    · simp only [QSys.setRun, QSys.setChan]; rw [List.getElem?_set_self hlt]
    · intro r' x hne hx hf
      have hxa := h.only hr rfl hx hne
      cases x with
      | returned q' =>
        refine ⟨hf.1, ?_⟩
        have hqq : q ≠ q' := by
          intro hqq; subst hqq
          have := hf.2; rw [hq] at this; cases this; cases ho
        simp only [QSys.setRun, QSys.setChan]; rw [List.getElem?_set_ne hqq]; exact hf.2
      | idle => trivial
      | refused => trivial
      | _ => simp [RPc.active] at hxa
  | closeClosed r q ch hr hq hcl =>
    obtain ⟨_, ch', h3, h4⟩ := h.fine r _ hr
    rw [hq] at h3; cases h3; rw [hcl] at h4; cases h4
  | drainRecv r q v rest closed hr hq =>
    have hl : Chans.Le s.chans (s.chans.set q ⟨rest, closed⟩) := .set hq rfl (fun _ hcl => by cases hcl)
    have hf : (RPc.draining q (some (v, false))).Fine (s.chans.set q ⟨rest, closed⟩) s.current := by
      have := (h.fine r _ hr).le hl; exact this
    exact h.go hr rfl rfl rfl rfl hl hf rfl rfl
  | drainPut r q v hr => exact h.go hr rfl rfl rfl rfl (.refl _) (by have := h.fine r _ hr; exact this) rfl rfl
  | drainDone r q v hr => exact h.go hr rfl rfl rfl rfl (.refl _) (by have := h.fine r _ hr; exact this) rfl rfl
  | drainEnd r q hr hq => exact h.go hr rfl rfl rfl rfl (.refl _) ⟨by obtain ⟨h1, _⟩ := h.fine r _ hr; exact h1, hq⟩ rfl rfl
  | stop r q hr =>
    have hon : s.on = true := by
      cases ho : s.on with
      | true => rfl
      | false => have := h.off ho hr; simp [RPc.active] at this
    refine h.upd hr rfl ?_ h.cur h.opened (by have := h.fine r _ hr; exact this) (fun _ _ _ _ hf => hf) (fun q hq => Or.inl hq) rfl
    simp [RPc.active, QSys.setRun, hon]

theorem QSys.RunOk.init (n m : Nat) : (QSys.init n m).RunOk := by
  have hm : ∀ {r : Nat} {pc : RPc}, (QSys.init n m).runs[r]? = some pc → pc = .idle := by
    intro r pc h
    have := List.mem_of_getElem? h; exact (List.mem_replicate.mp this).2
  refine ⟨?_, rfl, ⟨⟨[], false⟩, rfl, rfl⟩, ?_, ?_, rfl⟩
  · exact isum_zero (fun i a h => by rw [hm h]; rfl)
  · intro r pc h; rw [hm h]; trivial
  · intro r r' pc pc' q h _ hq _; rw [hm h] at hq; cases hq

theorem QSys.Reach.runOk {p : QParams} {n m : Nat} {s : QSys} (h : QSys.Reach p n m s) : s.RunOk := by
  induction h with
  | init => exact .init n m
  | step _ hs ih => exact ih.step hs

end Rothko
