import Verif.Model.Serve
/-! C101: stopping the api server. -/
namespace Rothko

/-- What is kept by every step. -/
structure VInv {E : Type} (s : VSys E) : Prop where
  shut : s.shut = true ↔ (s.mon = .poll ∨ s.mon = .close ∨ s.mon = .gone)
  gone : s.mon = .gone → s.lis = false
  loop : s.main = .loop → s.known = true ∧ (s.lis = false → s.shut = true)
  call : s.main = .call → s.lis = false → s.shut = true
  err : ∀ e, (s.main = .ret (some e) ∨ s.main = .closing (some e) ∨ s.main = .fin (some e)) → e ∈ s.own
  fin : ∀ r, s.main = .fin r → s.lis = false ∧ s.cancelled = true
  closing : ∀ r, s.main = .closing r → s.cancelled = true
  why : s.mon ≠ .wait → s.ctx = true ∨ s.cancelled = true
  cancelled : s.cancelled = true → ∃ r, s.main = .closing r ∨ s.main = .fin r

theorem vinv {E : Type} {checks : Bool} {shutErr : E} {s : VSys E} (h : VReach checks shutErr s) : VInv s := by
  induction h with
  | start =>
    refine ⟨⟨fun h => (by cases h), fun h => ?_⟩, fun h => (by cases h), fun h => (by cases h), fun _ h => (by cases h), fun e h => ?_, fun r h => (by cases h), fun r h => (by cases h), fun h => absurd rfl h, fun h => (by cases h)⟩
    · rcases h with h | h | h <;> cases h
    · rcases h with h | h | h <;> cases h
  | step h hs inv =>
    rename_i s t
    have notc : (s.main = .call ∨ s.main = .loop ∨ ∃ r, s.main = .ret r) → s.cancelled = true → ∀ {P : Prop}, P := by
      intro hm hc
      obtain ⟨r, hr⟩ := inv.cancelled hc
      rcases hm with hm | hm | ⟨r', hm⟩ <;> rw [hm] at hr <;> rcases hr with hr | hr <;> cases hr
    cases hs with
    | ctx => exact { inv with why := fun _ => Or.inl rfl }
    | cert e h =>
      exact { inv with
        loop := fun h => (by cases h), call := fun h => (by cases h), fin := fun r h => (by cases h), closing := fun r h => (by cases h)
        err := fun e' h => (by rcases h with h | h | h <;> cases h; exact List.mem_cons_self ..)
        cancelled := fun hc => notc (Or.inl h) hc }
    | refuse h hc hs' =>
      exact { inv with
        gone := fun _ => rfl, loop := fun h => (by cases h), call := fun h => (by cases h), fin := fun r h => (by cases h), closing := fun r h => (by cases h)
        err := fun e' h => (by rcases h with h | h | h <;> cases h)
        cancelled := fun hc => notc (Or.inl h) hc }
    | serve h hs' =>
      exact { inv with
        loop := fun _ => ⟨rfl, inv.call h⟩, call := fun h => (by cases h), fin := fun r h => (by cases h), closing := fun r h => (by cases h)
        err := fun e' h => (by rcases h with h | h | h <;> cases h)
        cancelled := fun hc => notc (Or.inl h) hc }
    | accept h hl => exact { inv with }
    | answer h => exact { inv with }
    | fails e h hl =>
      exact { inv with
        gone := fun _ => rfl, loop := fun h => (by cases h), call := fun h => (by cases h), fin := fun r h => (by cases h), closing := fun r h => (by cases h)
        err := fun e' h => (by
          have : s.served e = some e' := by
            rcases h with h | h | h
            · exact VMain.ret.inj h
            · cases h
            · cases h
          unfold VSys.served at this
          split at this
          · cases this
          · cases this; exact List.mem_cons_self ..)
        cancelled := fun hc => notc (Or.inr (Or.inl h)) hc }
    | closed h hl =>
      have hsh := (inv.loop h).2 hl
      exact { inv with
        loop := fun h => (by cases h), call := fun h => (by cases h), fin := fun r h => (by cases h), closing := fun r h => (by cases h)
        err := fun e' h => (by
          have : s.served shutErr = some e' := by
            rcases h with h | h | h
            · exact VMain.ret.inj h
            · cases h
            · cases h
          unfold VSys.served at this
          rw [hsh] at this
          cases this)
        cancelled := fun hc => notc (Or.inr (Or.inl h)) hc }
    | defer1 r h =>
      exact { inv with
        loop := fun h => (by cases h), call := fun h => (by cases h), fin := fun r h => (by cases h), closing := fun _ _ => rfl
        why := fun _ => Or.inr rfl
        err := fun e' h' => inv.err e' (Or.inl (by rcases h' with h' | h' | h' <;> cases h'; exact h))
        cancelled := fun _ => ⟨r, Or.inl rfl⟩ }
    | defer2 r h =>
      exact { inv with
        gone := fun _ => rfl, loop := fun h => (by cases h), call := fun h => (by cases h), fin := fun _ _ => ⟨rfl, inv.closing r h⟩, closing := fun r h => (by cases h)
        err := fun e' h' => inv.err e' (Or.inr (Or.inl (by rcases h' with h' | h' | h' <;> cases h'; exact h)))
        cancelled := fun _ => ⟨r, Or.inr rfl⟩ }
    | wake h hc =>
      refine { inv with shut := ⟨fun hx => ?_, fun hx => ?_⟩, gone := fun h => (by cases h), why := fun _ => hc }
      · rcases inv.shut.mp hx with h' | h' | h' <;> rw [h] at h' <;> cases h'
      · rcases hx with hx | hx | hx <;> cases hx
    | shutdown h =>
      refine { inv with shut := ⟨fun _ => Or.inl rfl, fun _ => rfl⟩, gone := fun h => (by cases h), loop := fun hm => ⟨(inv.loop hm).1, fun _ => rfl⟩, call := fun _ _ => rfl, fin := fun r hm => ⟨?_, (inv.fin r hm).2⟩, why := fun _ => inv.why (by rw [h]; intro h; cases h) }
      show (if s.known then false else s.lis) = false
      rw [(inv.fin r hm).1]
      split <;> rfl
    | deadline h => exact { inv with }
    | polled h hd =>
      exact { inv with shut := ⟨fun _ => Or.inr (Or.inl rfl), fun _ => inv.shut.mpr (Or.inl h)⟩, gone := fun h => (by cases h), why := fun _ => inv.why (by rw [h]; intro h; cases h) }
    | close h =>
      exact { inv with
        shut := ⟨fun _ => Or.inr (Or.inr rfl), fun _ => inv.shut.mpr (Or.inr (Or.inl h))⟩
        gone := fun _ => rfl
        loop := fun hm => ⟨(inv.loop hm).1, fun _ => inv.shut.mpr (Or.inr (Or.inl h))⟩
        call := fun _ _ => inv.shut.mpr (Or.inr (Or.inl h))
        fin := fun r hm => ⟨rfl, (inv.fin r hm).2⟩
        why := fun _ => inv.why (by rw [h]; intro h; cases h) }

/-- The number of steps left to `runServer` and its goroutine when told to stop. -/
def VSys.left {E : Type} (s : VSys E) : Nat :=
  (match s.main with | .call => 4 | .loop => 3 | .ret _ => 2 | .closing _ => 1 | .fin _ => 0) + (match s.mon with | .wait => 4 | .shutdown => 3 | .poll => 2 | .close => 1 | .gone => 0) + (if s.late then 0 else 1)

/-! ## The statements -/

/-- **C101** (no error of its own). If `runServer` returns an error after it could listen, the error is one of the certificate or of `accept` itself: being told to stop is no error, however the shutdown and the start of the server interleave. -/
theorem C101_no_error {E : Type} {checks : Bool} {shutErr : E} {s : VSys E} (h : VReach checks shutErr s) (e : E) (hr : s.main = .fin (some e)) : e ∈ s.own := (vinv h).err e (Or.inr (Or.inr hr))

/-- **C101** (freed). When `runServer` has returned its listener is closed, and its goroutine ends too (it is told). -/
theorem C101_freed {E : Type} {checks : Bool} {shutErr : E} {s : VSys E} (h : VReach checks shutErr s) (r : Option E) (hr : s.main = .fin r) : s.lis = false ∧ s.cancelled = true := (vinv h).fin r hr

/-- **C101** (it stays up). Until the context ends or `Serve` returns because of an error of its own, the listener stays open and `Shutdown` is not called. -/
theorem C101_stays {E : Type} {checks : Bool} {shutErr : E} {s : VSys E} (h : VReach checks shutErr s) (hc : s.ctx = false) (ho : s.own = []) : s.shut = false ∧ s.lis = true ∧ (s.main = .call ∨ s.main = .loop) := by
  induction h with
  | start => exact ⟨rfl, rfl, Or.inl rfl⟩
  | step h hs ih =>
    rename_i s t
    have inv := vinv h
    have can : s.ctx = false → s.own = [] → (s.mon = .wait) := by
      intro h1 h2
      obtain ⟨i1, i2, i3⟩ := ih h1 h2
      match hm : s.mon with
      | .wait => rfl
      | .shutdown | .poll | .close | .gone =>
        rcases inv.why (by rw [hm]; intro h; cases h) with hx | hx
        · rw [h1] at hx; cases hx
        · obtain ⟨r, hr⟩ := inv.cancelled hx
          rcases i3 with i3 | i3 <;> rw [i3] at hr <;> rcases hr with hr | hr <;> cases hr
    cases hs with
    | ctx => cases hc
    | cert e h => cases ho
    | refuse h hc' hs' => obtain ⟨i1, _, _⟩ := ih hc ho; rw [i1] at hs'; cases hs'
    | serve h hs' => obtain ⟨i1, i2, _⟩ := ih hc ho; exact ⟨i1, i2, Or.inr rfl⟩
    | accept h hl => exact ih hc ho
    | answer h => exact ih hc ho
    | fails e h hl => cases ho
    | closed h hl => obtain ⟨_, i2, _⟩ := ih hc ho; rw [i2] at hl; cases hl
    | defer1 r h => obtain ⟨_, _, i3⟩ := ih hc ho; rw [h] at i3; rcases i3 with i3 | i3 <;> cases i3
    | defer2 r h => obtain ⟨_, _, i3⟩ := ih hc ho; rw [h] at i3; rcases i3 with i3 | i3 <;> cases i3
    | wake h hc' =>
      obtain ⟨i1, i2, i3⟩ := ih hc ho
      exact ⟨i1, i2, i3⟩
    | shutdown h => have := can hc ho; rw [h] at this; cases this
    | deadline h => have := can hc ho; rw [h] at this; cases this
    | polled h hd => have := can hc ho; rw [h] at this; cases this
    | close h => have := can hc ho; rw [h] at this; cases this

/-- **C101** (it stops). Once the context has ended, each step other than connections and answers makes `left` smaller (or repeats what is known), and while `runServer` has not returned there is such a step; it waits at most for the active
connections, and for those no longer than 60 seconds (`deadline`). -/
theorem C101_stops {E : Type} {checks : Bool} {shutErr : E} {s : VSys E} (h : VReach checks shutErr s) (hc : s.ctx = true) :
    ((∀ r, s.main ≠ .fin r) ∨ s.mon ≠ .gone → ∃ t, VStep checks shutErr s t ∧ t.left < s.left) ∧
    (∀ t, VStep checks shutErr s t → t.left < s.left ∨ (t.left = s.left ∧ t.main = s.main ∧ t.mon = s.mon ∧ t.lis = s.lis)) := by
  have inv := vinv h
  constructor
  · intro hf
    match hm : s.mon with
    | .wait => exact ⟨_, .wake hm (Or.inl hc), by simp only [VSys.left, hm]; omega⟩
    | .shutdown => exact ⟨_, .shutdown hm, by simp only [VSys.left, hm]; omega⟩
    | .poll =>
      by_cases hl : s.late = true
      · exact ⟨_, .polled hm (Or.inr hl), by simp only [VSys.left, hm]; omega⟩
      · exact ⟨_, .deadline hm, by simp only [VSys.left, hm, hl]; simp⟩
    | .close => exact ⟨_, .close hm, by simp only [VSys.left, hm]; omega⟩
    | .gone =>
      have hlis := inv.gone hm
      have hsh := inv.shut.mpr (Or.inr (Or.inr hm))
      match hmain : s.main with
      | .call =>
        cases checks with
        | true => exact ⟨_, .refuse hmain rfl hsh, by simp only [VSys.left, hmain]; omega⟩
        | false => exact ⟨_, .serve hmain (fun h => by cases h), by simp only [VSys.left, hmain]; omega⟩
      | .loop => exact ⟨_, .closed hmain hlis, by simp only [VSys.left, hmain]; omega⟩
      | .ret r => exact ⟨_, .defer1 r hmain, by simp only [VSys.left, hmain]; omega⟩
      | .closing r => exact ⟨_, .defer2 r hmain, by simp only [VSys.left, hmain]; omega⟩
      | .fin r =>
        rcases hf with hf | hf
        · exact absurd hmain (hf r)
        · exact absurd hm hf
  · intro t ht
    cases ht with
    | ctx => exact Or.inr ⟨rfl, rfl, rfl, rfl⟩
    | cert e h => left; simp only [VSys.left, h]; omega
    | refuse h hc hs => left; simp only [VSys.left, h]; omega
    | serve h hs => left; simp only [VSys.left, h]; omega
    | accept h hl => exact Or.inr ⟨rfl, rfl, rfl, rfl⟩
    | answer h => exact Or.inr ⟨rfl, rfl, rfl, rfl⟩
    | fails e h hl => left; simp only [VSys.left, h]; omega
    | closed h hl => left; simp only [VSys.left, h]; omega
    | defer1 r h => left; simp only [VSys.left, h]; omega
    | defer2 r h => left; simp only [VSys.left, h]; omega
    | wake h hc => left; simp only [VSys.left, h]; omega
    | shutdown h => left; simp only [VSys.left, h]; omega
    | deadline h =>
      by_cases hl : s.late = true
      · right; refine ⟨?_, rfl, rfl, rfl⟩; simp only [VSys.left, hl]
      · left; simp only [VSys.left, hl]; simp
    | polled h hd => left; simp only [VSys.left, h]; omega
    | close h => left; simp only [VSys.left, h]; omega

/-- **C101** (requests under way; partial: `runServer` does not wait for this). `Shutdown`'s goroutine ends before its 60 seconds only when no request was under way. -/
theorem C101_waits_partial {E : Type} {checks : Bool} {shutErr : E} {s t : VSys E} (hs : VStep checks shutErr s t) (hp : s.mon = .poll) (hq : t.mon = .close) : s.active = 0 ∨ s.late = true := by
  cases hs with
  | polled h hd => exact hd
  | ctx => rw [hp] at hq; cases hq
  | cert => rw [hp] at hq; cases hq
  | refuse => rw [hp] at hq; cases hq
  | serve => rw [hp] at hq; cases hq
  | accept => rw [hp] at hq; cases hq
  | answer => rw [hp] at hq; cases hq
  | fails => rw [hp] at hq; cases hq
  | closed => rw [hp] at hq; cases hq
  | defer1 => rw [hp] at hq; cases hq
  | defer2 => rw [hp] at hq; cases hq
  | wake => cases hq
  | shutdown => cases hq
  | deadline => rw [hp] at hq; cases hq
  | close => cases hq

/-- **C101 is false as "requests under way are answered before the server has stopped"**: `runServer` returns while `Shutdown` still waits for a request in its goroutine, which the end of the process then cuts off. -/
theorem C101_requests_refuted (checks : Bool) : ∃ s : VSys Nat, VReach checks 0 s ∧ s.main = .fin none ∧ s.active = 1 ∧ s.mon = .poll ∧ s.late = false := by
  have s0 : VReach checks 0 ({} : VSys Nat) := .start
  have s1 := s0.step (.serve rfl (fun _ => rfl))
  have s2 := s1.step (.accept rfl rfl)
  have s3 := s2.step .ctx
  have s4 := s3.step (.wake rfl (Or.inl rfl))
  have s5 := s4.step (.shutdown rfl)
  have s6 := s5.step (.closed rfl rfl)
  have s7 := s6.step (.defer1 _ rfl)
  have s8 := s7.step (.defer2 _ rfl)
  exact ⟨_, s8, rfl, rfl, rfl, rfl⟩

/-- The hypotheses are met: told to stop before `Serve` has started, as the comment of run.go:252-255 fears: no error. -/
theorem C101_example : ∃ s : VSys Nat, VReach false 0 s ∧ s.ctx = true ∧ s.main = .fin none ∧ s.mon = .gone ∧ s.lis = false ∧ s.own = [] := by
  have s0 : VReach false 0 ({} : VSys Nat) := .start
  have s3 := s0.step .ctx
  have s4 := s3.step (.wake rfl (Or.inl rfl))
  have s5 := s4.step (.shutdown rfl)
  have s6 := s5.step (.polled rfl (Or.inl rfl))
  have s7 := s6.step (.close rfl)
  have s8 := s7.step (.serve rfl (fun h => by cases h))
  have s9 := s8.step (.closed rfl rfl)
  have s10 := s9.step (.defer1 _ rfl)
  have s11 := s10.step (.defer2 _ rfl)
  exact ⟨_, s11, rfl, rfl, rfl, rfl, rfl⟩

end Rothko
