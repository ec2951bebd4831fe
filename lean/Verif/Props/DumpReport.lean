import Verif.Model.DumpReport
import Verif.Props.Dump
/-! # C131: what a dump reports is what happened -/
namespace Rothko

/-! ## Specification -/

/-- The line an answered call deserves: one if the record was not written or there was an error, with these facts. -/
def DReq.line (r : DReq) : Option DMsg :=
  match r.ans with
  | .waiting => none
  | .reported true false => none
  | .reported true true => some (.problem r.arg.metric true true)
  | .reported false e => some (.problem r.arg.metric false e)
  | .refused => some (.problem r.arg.metric false true)

/-! ## Proofs -/

theorem DRep.Step.sys {x x' : DRep} (h : x.Step x') : x.sys.Step x'.sys := by
  cases h with
  | report i r w e hr hw => exact .report i r w e hr hw
  | refuse i r hp hr hw => exact .refuse i r hp hr hw
  | wait ns hp hz => exact .wait hp hz
  | quiet s' h => exact h.1

theorem DRep.Reach.sys {caps pool heap cap nbuf} {x : DRep} (h : DRep.Reach caps pool heap cap nbuf x) : DSys.Reach caps pool heap cap nbuf x.sys := by
  induction h with
  | init => exact .init
  | step _ hs ih => exact .step ih hs.sys

theorem fm_set {α β : Type} (f : α → Option β) (l : List α) (i : Nat) (a b : α) (h : l[i]? = some a) (ha : f a = none) :
    ((l.set i b).filterMap f).Perm (l.filterMap f ++ (f b).toList) := by
  induction l generalizing i with
  | nil => simp at h
  | cons c l ih =>
    cases i with
    | zero =>
      simp only [List.getElem?_cons_zero, Option.some.injEq] at h
      subst h
      rw [List.set_cons_zero, List.filterMap_cons, List.filterMap_cons, ha]
      cases f b with
      | none => simp
      | some y => exact (List.perm_append_comm (l₁ := [y]))
    | succ i =>
      rw [List.getElem?_cons_succ] at h
      rw [List.set_cons_succ, List.filterMap_cons, List.filterMap_cons]
      cases f c with
      | none => exact ih i h
      | some y => exact (ih i h).cons y

/-- The answers that are there do not change without one being given. -/
theorem quiet_lines {s s' : DSys} (h : s.Quiet s') :
    s'.calls.filterMap DReq.line = s.calls.filterMap DReq.line ∧ s'.writes = s.writes ∧ s'.skips = s.skips ∧ s'.errors = s.errors := by
  obtain ⟨h, hc, hp⟩ := h
  have no : ∀ (i : Nat) (r : DReq) (a : DAns), s.calls[i]? = some r → r.ans = .waiting → a ≠ .waiting →
      (s.calls.set i { r with ans := a }).countP (fun r => r.ans != .waiting) = s.calls.countP (fun r => r.ans != .waiting) → False := by
    intro i r a hr hw ha e
    have := countP_set_of (p := fun r : DReq => r.ans != .waiting) { r with ans := a } hr
    have e1 : (a != .waiting) = true := by simpa using ha
    simp only [hw, e1, e] at this
    simp at this
  cases h with
  | cancel hc => exact ⟨rfl, rfl, rfl, rfl⟩
  | stop r rest hpc ht hc => exact ⟨rfl, rfl, rfl, rfl⟩
  | finish hpc ht => exact ⟨rfl, rfl, rfl, rfl⟩
  | reuse r rest b hpc ht hc hb hl => exact ⟨by simp [DSys.issue, DReq.line], rfl, rfl, rfl⟩
  | grow r rest b hpc ht hc hb hl => exact ⟨by simp [DSys.issue, DReq.line], rfl, rfl, rfl⟩
  | fresh r rest c hpc ht hc hl => exact ⟨by simp [DSys.issue, DReq.line], rfl, rfl, rfl⟩
  | lose b hb => exact ⟨rfl, rfl, rfl, rfl⟩
  | report i r w e hr hw => exact (no i r _ hr hw (by simp) hc).elim
  | queued i hpc => exact ⟨rfl, rfl, rfl, rfl⟩
  | refuse i r hpc hr hw => exact (no i r _ hr hw (by simp) hc).elim
  | wait hpc hz => exact absurd (hp rfl) (by rw [hpc]; simp)

/-- While it runs only problems were said, those that there were; after it also the summary, once. -/
theorem rep_inv {caps pool heap cap nbuf} (hp : pool.Nodup) (ho : ∀ b ∈ pool, b < nbuf) {x : DRep} (h : DRep.Reach caps pool heap cap nbuf x) :
    ∃ said, said.Perm (x.sys.calls.filterMap DReq.line) ∧
      (x.sys.pc ≠ .returned → x.out = said) ∧ (x.sys.pc = .returned → ∃ ns, x.out = said ++ x.sys.summary ns) := by
  induction h with
  | init => exact ⟨[], by exact List.Perm.refl _, fun _ => rfl, fun h => by cases h⟩
  | @step x x' hx hs ih =>
    obtain ⟨said, h1, h2, h3⟩ := ih
    have hreach := hx.sys
    have line : ∀ (r : DReq) (w e : Bool), (DReq.line { r with ans := .reported w e }).toList = DMsg.ofComplete r.arg.metric w e := by
      intro r w e; cases w <;> cases e <;> rfl
    have nowait : x.sys.pc = .returned → ∀ (i : Nat) (r : DReq), x.sys.calls[i]? = some r → r.ans = .waiting → False := fun hr i r hi hw =>
      C57_waits hp ho hreach hr r (List.mem_of_getElem? hi) hw
    cases hs with
    | report i r w e hr hw =>
      have hn : x.sys.pc ≠ .returned := fun hh => nowait hh i r hr hw
      refine ⟨said ++ DMsg.ofComplete r.arg.metric w e, ?_, fun _ => by rw [h2 hn], fun hh => absurd hh hn⟩
      refine (h1.append_right _).trans ?_
      rw [← line r w e]
      exact (fm_set DReq.line _ i r _ hr (by simp [DReq.line, hw])).symm
    | refuse i r hpc hr hw =>
      have hn : x.sys.pc ≠ .returned := by rw [hpc]; simp
      refine ⟨said ++ DMsg.ofComplete r.arg.metric false true, ?_, fun _ => by rw [h2 hn], fun hh => by cases hh⟩
      refine (h1.append_right _).trans ?_
      exact (fm_set DReq.line _ i r { r with ans := .refused } hr (by simp [DReq.line, hw])).symm
    | wait ns hpc hz =>
      have hn : x.sys.pc ≠ .returned := by rw [hpc]; simp
      exact ⟨said, h1, fun hh => absurd rfl hh, fun _ => ⟨ns, by rw [h2 hn]; rfl⟩⟩
    | quiet s' hq =>
      obtain ⟨e1, e2, e3, e4⟩ := quiet_lines hq
      refine ⟨said, by rw [e1]; exact h1, fun hh => ?_, fun hh => ?_⟩
      · by_cases hret : x.sys.pc = .returned
        · exfalso
          have hst := hq.1
          cases hst <;> first | exact hh hret | simp_all
        · exact h2 hret
      · obtain ⟨ns, h⟩ := h3 (hq.2.2 hh)
        exact ⟨ns, by rw [h]; simp only [DSys.summary, e2, e3, e4]⟩

/-- **C131.** When Dump has returned, it said: one line with the metric for every record that was not written or had an error, in some order, and none for another; then once each, the duration and the numbers of records written, not written, and with an error, and the line with these. -/
theorem C131_report {caps pool heap cap nbuf} (hp : pool.Nodup) (ho : ∀ b ∈ pool, b < nbuf) {x : DRep} (h : DRep.Reach caps pool heap cap nbuf x)
    (hr : x.sys.pc = .returned) :
    ∃ said ns w s e, x.out = said ++ [.duration ns, .observeWrites w, .observeSkips s, .observeErrors e, .finished ns w s e] ∧
      said.Perm (x.sys.calls.filterMap DReq.line) ∧
      w = x.sys.calls.countP (fun r => r.ans = .reported true false ∨ r.ans = .reported true true) ∧
      w + s = x.sys.calls.length ∧
      e = x.sys.calls.countP (fun r => r.ans = .reported true true ∨ r.ans = .reported false true ∨ r.ans = .refused) ∧
      (x.sys.cancelled = false → x.sys.calls.map DReq.arg = caps) := by
  obtain ⟨said, h1, -, h3⟩ := rep_inv hp ho h
  obtain ⟨ns, h3⟩ := h3 hr
  obtain ⟨c1, c2, c3, c4⟩ := C57_counts hp ho h.sys
  refine ⟨said, ns, x.sys.writes, x.sys.skips, x.sys.errors, h3, h1, ?_, c4 hr, ?_, (C57_once hp ho h.sys).2.2 hr⟩
  · rw [c1]
    refine List.countP_congr fun r _ => ?_
    rcases r with ⟨_, _, (_ | ⟨_ | _, _ | _⟩ | _)⟩ <;> simp [DAns.isWritten]
  · rw [c3]
    refine List.countP_congr fun r _ => ?_
    rcases r with ⟨_, _, (_ | ⟨_ | _, _ | _⟩ | _)⟩ <;> simp [DAns.isError]

/-- Before that only such lines were said. -/
theorem C131_during {caps pool heap cap nbuf} (hp : pool.Nodup) (ho : ∀ b ∈ pool, b < nbuf) {x : DRep} (h : DRep.Reach caps pool heap cap nbuf x)
    (hr : x.sys.pc ≠ .returned) : x.out.Perm (x.sys.calls.filterMap DReq.line) := by
  obtain ⟨said, h1, h2, -⟩ := rep_inv hp ho h
  rw [h2 hr]; exact h1

/-- Every run of a dump says something: saying does not hold it up. -/
theorem C131_every {caps pool heap cap nbuf} {s : DSys} (h : DSys.Reach caps pool heap cap nbuf s) : ∃ out, DRep.Reach caps pool heap cap nbuf ⟨s, out⟩ := by
  induction h with
  | init => exact ⟨[], .init⟩
  | @step s s' _ hs ih =>
    obtain ⟨out, ih⟩ := ih
    have q : s.Quiet s' → ∃ out, DRep.Reach caps pool heap cap nbuf ⟨s', out⟩ := fun hq => ⟨out, .step ih (.quiet s' hq)⟩
    have hs0 := hs
    cases hs with
    | report i r w e hr hw => exact ⟨_, .step ih (.report i r w e hr hw)⟩
    | refuse i r hpc hr hw => exact ⟨_, .step ih (.refuse i r hpc hr hw)⟩
    | wait hpc hz => exact ⟨_, .step ih (.wait 0 hpc hz)⟩
    | cancel hc => exact q ⟨hs0, rfl, id⟩
    | stop r rest hpc ht hc => exact q ⟨hs0, rfl, fun h => by cases h⟩
    | finish hpc ht => exact q ⟨hs0, rfl, fun h => by cases h⟩
    | reuse r rest b hpc ht hc hb hl => exact q ⟨hs0, by simp [DSys.issue, List.countP_append], fun h => by cases h⟩
    | grow r rest b hpc ht hc hb hl => exact q ⟨hs0, by simp [DSys.issue, List.countP_append], fun h => by cases h⟩
    | fresh r rest c hpc ht hc hl => exact q ⟨hs0, by simp [DSys.issue, List.countP_append], fun h => by cases h⟩
    | lose b hb => exact q ⟨hs0, rfl, id⟩
    | queued i hpc => exact q ⟨hs0, rfl, fun h => by cases h⟩

/-- Two records: the second is refused while the first is waited for, which is then written with an error. -/
theorem C131_example :
    let r1 : DRecd := ⟨[97], 0, 1, [1, 2]⟩
    let r2 : DRecd := ⟨[98], 0, 1, [3]⟩
    ∃ x, DRep.Reach [r1, r2] [] (fun _ => []) (fun _ => 0) 0 x ∧ x.sys.pc = .returned ∧ x.sys.cancelled = false ∧
      x.out = [.problem [98] false true, .problem [97] true true, .duration 5, .observeWrites 1, .observeSkips 1, .observeErrors 2, .finished 5 1 1 2] := by
  intro r1 r2
  have s0 := DRep.Reach.init (caps := [r1, r2]) (pool := []) (heap := fun _ => []) (cap := fun _ => 0) (nbuf := 0)
  have s1 := s0.step (.quiet _ ⟨.fresh r1 [r2] 1024 rfl rfl rfl (by decide), rfl, fun h => by cases h⟩)
  have s2 := s1.step (.quiet _ ⟨.queued 0 rfl, rfl, fun h => by cases h⟩)
  have s3 := s2.step (.quiet _ ⟨.fresh r2 [] 1024 rfl rfl rfl (by decide), rfl, fun h => by cases h⟩)
  have s4 := s3.step (.refuse 1 ⟨r2, 1, .waiting⟩ rfl rfl rfl)
  have s5 := s4.step (.quiet _ ⟨.finish rfl rfl, rfl, fun h => by cases h⟩)
  have s6 := s5.step (.report 0 ⟨r1, 0, .waiting⟩ true true rfl rfl)
  have s7 := s6.step (.wait 5 rfl rfl)
  exact ⟨_, s7, rfl, rfl, rfl⟩

end Rothko
