import Verif.Spec.ProcEnds
import Verif.Props.ProcFault
import Verif.Props.Ends
import Verif.Props.ProcessEnds
/-!
# C119: every dump ends, every request is answered, whatever fails
-/
namespace Rothko

/-- What the places of the dump, the queue, the workers and the requests have to do with each other. -/
structure LiteInv (c : ProcCfg) (e : SysErrors) (s : ProcF) : Prop where
  len : s.hands.length = c.workers
  wg : s.wg = s.queue.length + s.hands.countP Hand.owes
  rest : s.dumping = false → s.todo = [] ∧ s.wg = 0
  hand : ∀ i h, s.hands[i]? = some h → HandOkF c.pipe.cfg s.sys.cl i h
  sys : ∃ progs base, FsSys.ReachF dbCallsF e.file (dbPath c.dir) c.handles progs base s.sys

section
variable {c : ProcCfg} {e : SysErrors} {fs : Bytes → Store} {ops : List PFOp} {s s' : ProcF} {l : Option PFOp}

theorem lite_init (hwc : c.workers ≤ c.clients) : LiteInv c e (ProcF.init c fs) := by
  refine ⟨List.length_replicate, ?_, fun _ => ⟨rfl, rfl⟩, ?_, ⟨_, _, .init⟩⟩
  · show 0 = 0 + (List.replicate c.workers Hand.free).countP Hand.owes
    rw [List.countP_replicate]
    rfl
  · intro i a ha
    have hl := (List.getElem?_eq_some_iff.mp ha).1
    have ha : (List.replicate c.workers Hand.free)[i]? = some a := ha
    have := List.eq_of_mem_replicate (List.mem_of_getElem? ha)
    subst this
    show ((List.replicate c.clients ([] : List (Bytes × FltCall))).map (fun p => (⟨p, .out⟩ : Client FltCall (FsProg DbRes))))[i]? = _
    have hl : i < (List.replicate c.workers Hand.free).length := hl
    rw [List.length_replicate] at hl
    rw [List.map_replicate, List.getElem?_replicate_of_lt (by omega)]

theorem lite_hand_lt (h : LiteInv c e s) {i : Nat} {a : Hand} (hi : s.hands[i]? = some a) : i < c.workers := by
  have := (List.getElem?_eq_some_iff.mp hi).1
  rw [h.len] at this
  exact this

/-- What a worker has to do with its goroutine is not changed when another goroutine's call ends, or a call goes on. -/
theorem lite_hand_step {may : Bytes → FileFault → Prop} {path : Bytes → Int → Bytes} {cfg : Cfg} {y y' : FsSys FltCall DbRes} (hst : y.StepF dbCallsF may path y') {i : Nat} {a : Hand}
    (hno : ∀ x, y'.log = y.log ++ [x] → x.1 ≠ i) (h : HandOkF cfg y.cl i a) : HandOkF cfg y'.cl i a := by
  rcases stepF_shape hst with ⟨_, hc⟩ | ⟨j, m, o, rest, r, q, h1, rfl⟩
  · cases a with
    | busy m v =>
      obtain ⟨dir, ul, w, h⟩ := h
      obtain ⟨w', hw', _⟩ := hc i _ h
      exact ⟨dir, ul, w', hw'⟩
    | free =>
      obtain ⟨w', hw', he⟩ := hc i _ h
      rw [he rfl] at hw'
      exact hw'
    | wrote =>
      obtain ⟨w', hw', he⟩ := hc i _ h
      rw [he rfl] at hw'
      exact hw'
  · exact handOkF_ne (fun e => hno _ rfl e.symm) h

theorem lite_step (hwc : c.workers ≤ c.clients) (h : LiteInv c e s) (hst : s.Step c e l s') : LiteInv c e s' := by
  obtain ⟨progs, base, hr⟩ := h.sys
  have hwg := h.wg
  -- the end of a worker's call
  have worker : ∀ (i : Nat) (sys : FsSys FltCall DbRes) (m : Bytes) (o : FltCall) (r : DbRes) (v : Val), s.sys.StepF dbCallsF e.file (dbPath c.dir) sys → sys.log = s.sys.log ++ [(i, m, o, r)] → s.hands[i]? = some (.busy m v) →
      LiteInv c e { s with sys, hands := s.hands.set i .wrote } := by
    intro i sys m o r v h1 h2 h3
    refine ⟨(by rw [List.length_set]; exact h.len), ?_, h.rest, ?_, ⟨progs, base, .step hr h1⟩⟩
    · dsimp only
      have := countP_set_of (p := Hand.owes) Hand.wrote h3
      simp only [Hand.owes, if_true] at this
      omega
    · intro j a ha
      rcases hands_ne ha with ⟨rfl, rfl⟩ | ⟨hij, ha⟩
      · rcases stepF_shape h1 with ⟨e1, _⟩ | ⟨k, m', o', rest, r', q, e1, e2⟩
        · rw [e1] at h2
          have := congrArg List.length h2
          simp at this
        · rw [e2] at h2
          have h2 := List.append_cancel_left h2
          injection h2 with h2 _
          injection h2 with h2 _
          subst h2
          obtain ⟨dir, ul, w, hb⟩ := h.hand _ _ h3
          rw [hb] at e1
          injection e1 with e1
          injection e1 with e1 _
          injection e1 with _ e1
          show sys.cl[k]? = _
          rw [e2, ← e1]
          exact List.getElem?_set_self (List.getElem?_eq_some_iff.mp hb).1
      · refine lite_hand_step h1 (fun x hx he => ?_) (h.hand j a ha)
        rw [h2] at hx
        have hx := List.append_cancel_left hx
        injection hx with hx _
        rw [← hx] at he
        exact hij he.symm
  cases hst with
  | add m ob now => exact ⟨h.len, h.wg, h.rest, h.hand, h.sys⟩
  | dump order now taken hd => exact ⟨h.len, h.wg, fun hx => (by cases hx), h.hand, h.sys⟩
  | offer x rest ht =>
    refine ⟨h.len, ?_, ?_, h.hand, h.sys⟩
    · dsimp only
      rw [List.length_append, List.length_singleton]
      omega
    · intro hd
      have := (h.rest hd).1
      rw [ht] at this
      cases this
  | refuse x rest ht hx =>
    refine ⟨h.len, h.wg, ?_, h.hand, h.sys⟩
    intro hd
    have := (h.rest hd).1
    rw [ht] at this
    cases this
  | drain x rest hq hx =>
    rw [hq, List.length_cons] at hwg
    refine ⟨h.len, ?_, ?_, h.hand, h.sys⟩
    · dsimp only
      omega
    · intro hd
      have := (h.rest hd).2
      omega
  | recv i x rest dir ul hi hq hx he =>
    rw [hq, List.length_cons] at hwg
    have hcl : s.sys.cl[i]? = some ⟨[], .out⟩ := h.hand i _ hi
    refine ⟨(by rw [List.length_set]; exact h.len), ?_, ?_, ?_, ?_⟩
    · dsimp only
      have := countP_set_of (p := Hand.owes) (Hand.busy x.1 x.2) hi
      simp only [Hand.owes, Bool.false_eq_true, if_false, if_true] at this
      omega
    · intro hd
      have := (h.rest hd).2
      omega
    · intro j a ha
      rcases hands_ne ha with ⟨rfl, rfl⟩ | ⟨hij, ha⟩
      · exact ⟨dir, ul, .out, List.getElem?_set_self (List.getElem?_eq_some_iff.mp hcl).1⟩
      · exact handOkF_ne hij (h.hand j a ha)
    · have := reachF_more hr i (x.1, ⟨.write c.pipe.cfg x.2, dir, ul⟩)
      rw [moreF_set hcl] at this
      exact ⟨_, _, this⟩
  | ask i m o dir ul hi hcl ho he =>
    refine ⟨h.len, h.wg, h.rest, ?_, ?_⟩
    · intro j a ha
      exact handOkF_ne (fun e => by have := lite_hand_lt h ha; omega) (h.hand j a ha)
    · have := reachF_more hr i (m, ⟨o, dir, ul⟩)
      rw [moreF_set hcl] at this
      exact ⟨_, _, this⟩
  | db sys h1 h2 =>
    refine ⟨h.len, h.wg, h.rest, fun j a ha => ?_, ⟨progs, base, .step hr h1⟩⟩
    refine lite_hand_step h1 (fun x hx he => ?_) (h.hand j a ha)
    have := lite_hand_lt h ha
    have := h2 x hx
    omega
  | wrote i sys m o v h1 h2 h3 => exact worker i sys m o _ v h1 h2 h3
  | lost i sys m o r v h1 h2 h3 h4 => exact worker i sys m o r v h1 h2 h4
  | answer i hi hp =>
    refine ⟨(by rw [List.length_set]; exact h.len), ?_, ?_, ?_, h.sys⟩
    · dsimp only
      have := countP_set_of (p := Hand.owes) Hand.free hi
      simp only [Hand.owes, Bool.false_eq_true, if_false, if_true] at this
      omega
    · intro hd
      refine ⟨(h.rest hd).1, ?_⟩
      dsimp only
      have := (h.rest hd).2
      omega
    · intro j a ha
      rcases hands_ne ha with ⟨rfl, rfl⟩ | ⟨hij, ha⟩
      · exact (h.hand _ _ hi : s.sys.cl[_]? = _)
      · exact h.hand j a ha
  | wait h1 h2 h3 => exact ⟨h.len, h.wg, fun _ => ⟨h2, h3⟩, h.hand, h.sys⟩
  | restart h1 h2 => exact lite_init hwc

theorem lite_reach (hwc : c.workers ≤ c.clients) (h : ProcF.Reach c e fs ops s) : LiteInv c e s := by
  induction h with
  | start => exact lite_init hwc
  | step _ hst ih => exact lite_step hwc ih hst

/-! ## What goes down -/

/-- The places of the goroutines. -/
def ProcF.ranks (s : ProcF) : List Rank := s.sys.ranks s.sys.cl.length

/-- What is left to do: values not taken from the queue, the calls, the answers. -/
def ProcF.rank (s : ProcF) : Nat × List Rank × Nat := (2 * s.todo.length + s.queue.length, s.ranks, s.hands.countP Hand.done + (if s.dumping then 1 else 0))

def procDown : Nat × List Rank × Nat → Nat × List Rank × Nat → Prop := Prod.Lex (· < ·) (Prod.Lex (ListDown rankDown) (· < ·))

theorem proc_acc (x : Nat × List Rank × Nat) : Acc procDown x := lex_acc (fun b => lex_acc lt_acc (listDown_wf rank_acc b.1) b.2) (lt_acc x.1) x.2

theorem stepF_length {may : Bytes → FileFault → Prop} {path : Bytes → Int → Bytes} {y y' : FsSys FltCall DbRes} (hst : y.StepF dbCallsF may path y') : y'.cl.length = y.cl.length := by
  cases hst <;> first | rfl | exact List.length_set

theorem goes_down (hn : c.handles < 2 ^ 63) (h : LiteInv c e s) (hst : s.Step c e l s') (hl : OnlyAdds l) (ha : ¬ s.Asks c s') : s.Same s' ∨ procDown s'.rank s.rank := by
  obtain ⟨progs, base, hr⟩ := h.sys
  have hcl := (linksF hn hr).2.1
  have sysDown : ∀ (sys : FsSys FltCall DbRes), s.sys.StepF dbCallsF e.file (dbPath c.dir) sys → (sys.pool = s.sys.pool ∧ sys.cl = s.sys.cl) ∨ ListDown rankDown (sys.ranks sys.cl.length) s.ranks := by
    intro sys h1
    have := step_down hn hr h1
    rw [← hcl] at this
    rw [stepF_length h1]
    exact this
  have worker : ∀ (i : Nat) (sys : FsSys FltCall DbRes) (m : Bytes) (o : FltCall) (r : DbRes) (v : Val), s.sys.StepF dbCallsF e.file (dbPath c.dir) sys → sys.log = s.sys.log ++ [(i, m, o, r)] → s.hands[i]? = some (.busy m v) →
      procDown ({ s with sys, hands := s.hands.set i .wrote } : ProcF).rank s.rank := by
    intro i sys m o r v h1 h2 h3
    rcases sysDown sys h1 with ⟨_, h5⟩ | h4
    · exfalso
      rcases stepF_shape h1 with ⟨e1, _⟩ | ⟨k, m', o', rest, r', q, e1, e2⟩
      · rw [e1] at h2
        have := congrArg List.length h2
        simp at this
      · rw [e2] at h5
        have := congrArg (fun l => l[k]?) h5
        dsimp only at this
        rw [List.getElem?_set_self (List.getElem?_eq_some_iff.mp e1).1, e1] at this
        injection this with this
        injection this with _ this
        cases this
    · exact Prod.Lex.right _ (Prod.Lex.left _ _ h4)
  cases hst with
  | add m ob now => exact .inl ⟨rfl, rfl, rfl, rfl, rfl, rfl⟩
  | dump order now taken hd => obtain ⟨_, _, _, hx⟩ := hl; cases hx
  | restart h1 h2 => obtain ⟨_, _, _, hx⟩ := hl; cases hx
  | offer x rest ht =>
    refine .inr (Prod.Lex.left _ _ ?_)
    dsimp only
    rw [ht, List.length_append, List.length_singleton, List.length_cons]
    omega
  | refuse x rest ht hx =>
    refine .inr (Prod.Lex.left _ _ ?_)
    dsimp only
    rw [ht, List.length_cons]
    omega
  | drain x rest hq hx =>
    refine .inr (Prod.Lex.left _ _ ?_)
    dsimp only
    rw [hq, List.length_cons]
    omega
  | recv i x rest dir ul hi hq hx he =>
    refine .inr (Prod.Lex.left _ _ ?_)
    dsimp only
    rw [hq, List.length_cons]
    omega
  | ask i m o dir ul hi hcl ho he => exact absurd ⟨i, hi, hcl, _, List.getElem?_set_self (List.getElem?_eq_some_iff.mp hcl).1⟩ ha
  | db sys h1 h2 =>
    rcases sysDown sys h1 with ⟨h3, h4⟩ | h4
    · exact .inl ⟨rfl, rfl, rfl, rfl, h3, h4⟩
    · exact .inr (Prod.Lex.right _ (Prod.Lex.left _ _ h4))
  | wrote i sys m o v h1 h2 h3 => exact .inr (worker i sys m o _ v h1 h2 h3)
  | lost i sys m o r v h1 h2 h3 h4 => exact .inr (worker i sys m o r v h1 h2 h4)
  | answer i hi hp =>
    refine .inr (Prod.Lex.right _ (Prod.Lex.right _ ?_))
    dsimp only
    have := countP_set_of (p := Hand.done) Hand.free hi
    simp only [Hand.done, Bool.false_eq_true, if_false, if_true] at this
    omega
  | wait h1 h2 h3 =>
    refine .inr (Prod.Lex.right _ (Prod.Lex.right _ ?_))
    dsimp only
    rw [h1]
    simp

/-! ## Something can go on -/

theorem can_go (hn : c.handles < 2 ^ 63) (hw : 0 < c.workers) (he : ∀ m, ∃ dir unlink, e.call m dir unlink) (h : LiteInv c e s) (hr : ¬ s.AtRest) : ∃ s', s.GoesOn c e s' := by
  obtain ⟨progs, base, hre⟩ := h.sys
  obtain ⟨l1, l2, l3, _⟩ := linksF hn hre
  -- a step of the calls
  have lift : ∀ y, s.sys.Goes dbCallsF e.file (dbPath c.dir) y → ∃ s', s.GoesOn c e s' := by
    intro y ⟨h1, h2⟩
    have hask : ∀ s' : ProcF, s'.sys = y → ¬ s.Asks c s' := by
      rintro s' hs' ⟨i, hi, e1, x, e2⟩
      rw [hs'] at e2
      rcases stepF_shape h1 with ⟨_, hc⟩ | ⟨j, m, o, rest, r, q, k1, k2⟩
      · obtain ⟨w, hw', _⟩ := hc i _ e1
        rw [e2] at hw'
        cases hw'
      · rw [k2] at e2
        rcases client_set_cases e2 with ⟨rfl, hx⟩ | ⟨_, hx⟩
        · rw [k1] at e1
          cases e1
        · rw [e1] at hx
          cases hx
    have hsame : ∀ s' : ProcF, s'.sys = y → ¬ s.Same s' := by
      rintro s' hs' ⟨_, _, _, _, e1, e2⟩
      rw [hs'] at e1 e2
      exact h2 ⟨e1, e2⟩
    have quiet : (∀ x, y.log = s.sys.log ++ [x] → c.workers ≤ x.1) → ∃ s', s.GoesOn c e s' := fun hx =>
      ⟨{ s with sys := y }, ⟨none, .db y h1 hx, fun o ho => by cases ho⟩, hask _ rfl, hsame _ rfl⟩
    rcases stepF_shape h1 with ⟨k1, _⟩ | ⟨j, m, o, rest, r, q, k1, k2⟩
    · refine quiet fun x hx => ?_
      rw [k1] at hx
      have := congrArg List.length hx
      simp at this
    · have hlog : y.log = s.sys.log ++ [(j, m, o, r)] := by rw [k2]
      by_cases hj : c.workers ≤ j
      · refine quiet fun x hx => ?_
        rw [hlog] at hx
        have hx := List.append_cancel_left hx
        injection hx with hx _
        rw [← hx]
        exact hj
      · have hlt : j < s.hands.length := by rw [h.len]; omega
        have hh := List.getElem?_eq_getElem hlt
        cases hb : s.hands[j] with
        | free =>
          rw [hb] at hh
          have := h.hand j _ hh
          have : s.sys.cl[j]? = _ := this
          rw [k1] at this
          cases this
        | wrote =>
          rw [hb] at hh
          have := h.hand j _ hh
          have : s.sys.cl[j]? = _ := this
          rw [k1] at this
          cases this
        | busy m' v =>
          rw [hb] at hh
          obtain ⟨dir, ul, w, hx⟩ := h.hand j _ hh
          rw [k1] at hx
          injection hx with hx
          injection hx with hx _
          injection hx with hx _
          injection hx with hx _
          subst hx
          by_cases hwr : r = .write .written
          · rw [hwr] at hlog
            exact ⟨_, ⟨none, .wrote j y m o v h1 hlog hh, fun o ho => by cases ho⟩, hask _ rfl, hsame _ rfl⟩
          · exact ⟨_, ⟨_, .lost j y m o r v h1 hlog hwr hh, fun o ho => by cases ho⟩, hask _ rfl, hsame _ rfl⟩
  by_cases hc : ∃ (i : Nat) (x : Client FltCall (FsProg DbRes)), s.sys.cl[i]? = some x ∧ x.todo ≠ []
  · obtain ⟨y, hy⟩ := C113_goes_on hn hre hc
    exact lift y hy
  have hnone : ∀ x ∈ s.sys.cl, x.todo = [] := by
    intro x hx
    obtain ⟨i, hi⟩ := List.getElem?_of_mem hx
    exact Classical.byContradiction fun hne => hc ⟨i, x, hi, hne⟩
  have pcOf : ∀ {i : Nat} {x : Client FltCall (FsProg DbRes)}, s.sys.cl[i]? = some x → ∃ pc, s.sys.pool.pcs[i]? = some pc := fun hx =>
    ⟨_, List.getElem?_eq_getElem (by rw [l1.pcs_length, ← l2]; exact (List.getElem?_eq_some_iff.mp hx).1)⟩
  have hout : ∀ {i : Nat} {x : Client FltCall (FsProg DbRes)}, s.sys.cl[i]? = some x → x = ⟨[], .out⟩ ∧ (s.sys.pool.pcs[i]? = some .idle ∨ ∃ a, s.sys.pool.pcs[i]? = some (.unlocking a)) := by
    intro i x hx
    obtain ⟨pc, hpc⟩ := pcOf hx
    have hl := l3 i pc x hpc hx
    have ht := hnone x (List.mem_of_getElem? hx)
    obtain ⟨todo, w⟩ := x
    dsimp only at ht
    subst ht
    cases pc with
    | idle => rw [show w = .out from hl]; exact ⟨rfl, .inl hpc⟩
    | unlocking a => rw [show w = .out from hl]; exact ⟨rfl, .inr ⟨a, hpc⟩⟩
    | waiting k a => obtain ⟨o, rest, e⟩ := hl; injection e with e _; cases e
    | holding k a => obtain ⟨o, rest, w', e, _⟩ := hl; injection e with e _; cases e
  have hcalls : ∀ x ∈ s.sys.cl, x = ⟨[], .out⟩ := by
    intro x hx
    obtain ⟨i, hi⟩ := List.getElem?_of_mem hx
    exact (hout hi).1
  -- no request comes in when the calls stay as they are
  have hask : ∀ s' : ProcF, s'.sys = s.sys → ¬ s.Asks c s' := by
    rintro s' hs' ⟨i, hi, e1, x, e2⟩
    rw [hs', e1] at e2
    cases e2
  cases ht : s.todo with
  | cons x rest =>
    refine ⟨_, ⟨none, .offer x rest ht, fun o ho => by cases ho⟩, hask _ rfl, fun hs => ?_⟩
    have := hs.1
    dsimp only at this
    rw [ht] at this
    have := congrArg List.length this
    simp at this
  | nil =>
    by_cases hwrote : ∃ i : Nat, s.hands[i]? = some Hand.wrote
    · obtain ⟨i, hi⟩ := hwrote
      have hcl : s.sys.cl[i]? = some ⟨[], .out⟩ := h.hand i _ hi
      rcases (hout hcl).2 with hidle | ⟨a, hu⟩
      · refine ⟨_, ⟨none, .answer i hi hidle, fun o ho => by cases ho⟩, hask _ rfl, fun hs => ?_⟩
        have := congrArg (fun l => l[i]?) hs.2.2.1
        dsimp only at this
        rw [List.getElem?_set_self (List.getElem?_eq_some_iff.mp hi).1, hi] at this
        cases this
      · have hheld : (s.sys.pool.heap a).held = true := by
          have := l1.ok.held a
          have hp := countP_pos_of (List.mem_of_getElem? hu) (p := LPc.owns a) (by simp [LPc.owns])
          cases hh : (s.sys.pool.heap a).held with
          | true => rfl
          | false => rw [hh] at this; simp only [Bool.false_eq_true, if_false] at this; omega
        refine lift _ ⟨.done i a hu hheld, fun hx => ?_⟩
        have := congrArg (fun l : LPool => l.pcs[i]?) hx.1
        have : (s.sys.pool.pcs.set i .idle)[i]? = s.sys.pool.pcs[i]? := this
        rw [List.getElem?_set_self (List.getElem?_eq_some_iff.mp hu).1, hu] at this
        cases this
    · have hfree : ∀ (i : Nat) (a : Hand), s.hands[i]? = some a → a = Hand.free := by
        intro i a hi
        cases a with
        | free => rfl
        | wrote => exact absurd ⟨i, hi⟩ hwrote
        | busy m v =>
          obtain ⟨dir, ul, w, hx⟩ := h.hand i _ hi
          have := hnone _ (List.mem_of_getElem? hx)
          cases this
      have hfree' : ∀ a ∈ s.hands, a = Hand.free := by
        intro a ha
        obtain ⟨i, hi⟩ := List.getElem?_of_mem ha
        exact hfree i a hi
      cases hq : s.queue with
      | cons x rest =>
        cases htk : s.taken x.1 with
        | false =>
          refine ⟨_, ⟨none, .drain x rest hq htk, fun o ho => by cases ho⟩, hask _ rfl, fun hs => ?_⟩
          have := hs.2.1
          dsimp only at this
          rw [hq] at this
          have := congrArg List.length this
          simp at this
        | true =>
          have h0 : 0 < s.hands.length := by rw [h.len]; exact hw
          have hh := List.getElem?_eq_getElem h0
          have hf : s.hands[0]? = some .free := by rw [hh]; exact congrArg some (hfree 0 _ hh)
          obtain ⟨dir, ul, hcall⟩ := he x.1
          refine ⟨_, ⟨none, .recv 0 x rest dir ul hf hq htk hcall, fun o ho => by cases ho⟩, ?_, fun hs => ?_⟩
          · rintro ⟨i, hi, e1, z, e2⟩
            rcases client_set_cases e2 with ⟨rfl, _⟩ | ⟨_, hx⟩
            · omega
            · rw [e1] at hx
              cases hx
          · have := hs.2.1
            dsimp only at this
            rw [hq] at this
            have := congrArg List.length this
            simp at this
      | nil =>
        cases hd : s.dumping with
        | false => exact absurd ⟨hd, ht, hq, hfree', hcalls⟩ hr
        | true =>
          have hwg : s.wg = 0 := by
            rw [h.wg, hq, List.length_nil, Nat.zero_add]
            refine List.countP_eq_zero.mpr fun a ha => ?_
            rw [hfree' a ha]
            simp [Hand.owes]
          refine ⟨_, ⟨none, .wait hd ht hwg, fun o ho => by cases ho⟩, hask _ rfl, fun hs => ?_⟩
          have := hs.2.2.2.1
          rw [hd] at this
          cases this

/-! ## The statements -/

theorem runF_lite {σ : Nat → ProcF} {seen : Nat → Option PFOp} (hwc : c.workers ≤ c.clients) (h0 : ProcF.Reach c e fs ops (σ 0)) (hr : ProcF.Run c e σ seen) : ∀ t, LiteInv c e (σ t) := by
  intro t
  induction t with
  | zero => exact lite_reach hwc h0
  | succ t ih =>
    rcases hr t with h | h
    · exact lite_step hwc ih h
    · rw [h.2]; exact ih

theorem Same.refl (s : ProcF) : s.Same s := ⟨rfl, rfl, rfl, rfl, rfl, rfl⟩

theorem Same.trans {a b d : ProcF} (h : a.Same b) (h' : b.Same d) : a.Same d :=
  ⟨h'.1.trans h.1, h'.2.1.trans h.2.1, h'.2.2.1.trans h.2.2.1, h'.2.2.2.1.trans h.2.2.2.1, h'.2.2.2.2.1.trans h.2.2.2.2.1, h'.2.2.2.2.2.trans h.2.2.2.2.2⟩

theorem Same.rank {a b : ProcF} (h : a.Same b) : b.rank = a.rank := by
  obtain ⟨h1, h2, h3, h4, h5, h6⟩ := h
  unfold ProcF.rank ProcF.ranks FsSys.ranks
  rw [h1, h2, h3, h4, h5, h6]

theorem runF_ends {σ : Nat → ProcF} {seen : Nat → Option PFOp} (hn : c.handles < 2 ^ 63) (hwc : c.workers ≤ c.clients) (h0 : ProcF.Reach c e fs ops (σ 0)) (hr : ProcF.Run c e σ seen) (T : Nat)
    (hadd : ∀ t, T ≤ t → OnlyAdds (seen t)) (hask : ∀ t, T ≤ t → ¬ (σ t).Asks c (σ (t + 1))) : ∃ T', T ≤ T' ∧ ∀ t, T' ≤ t → (σ T').Same (σ t) := by
  have hl := runF_lite hwc h0 hr
  have step : ∀ t, T ≤ t → (σ t).Same (σ (t + 1)) ∨ procDown (σ (t + 1)).rank (σ t).rank := by
    intro t ht
    rcases hr t with h | h
    · exact goes_down hn (hl t) h (hadd t ht) (hask t ht)
    · rw [h.2]; exact .inl (Same.refl _)
  have key : ∀ x, Acc procDown x → ∀ T0, T ≤ T0 → (σ T0).rank = x → ∃ T', T0 ≤ T' ∧ ∀ t, T' ≤ t → (σ T').Same (σ t) := by
    intro x hx
    induction hx with
    | intro x _ ih =>
      intro T0 hT hrk
      by_cases hq : ∀ t, T0 ≤ t → (σ T0).Same (σ t)
      · exact ⟨T0, Nat.le_refl _, hq⟩
      · have hex : ∃ t, T0 ≤ t ∧ ¬ (σ T0).Same (σ t) := Classical.byContradiction fun hc => hq fun t ht => Classical.byContradiction fun hx => hc ⟨t, ht, hx⟩
        obtain ⟨t, ht, hx, hmin⟩ : ∃ t, T0 ≤ t ∧ ¬ (σ T0).Same (σ t) ∧ ∀ u, T0 ≤ u → u < t → (σ T0).Same (σ u) := by
          classical
          refine ⟨Nat.find hex, (Nat.find_spec hex).1, (Nat.find_spec hex).2, fun u h1 h2 => Classical.byContradiction fun hx => Nat.find_min hex h2 ⟨h1, hx⟩⟩
        have hne : t ≠ T0 := fun h => hx (h ▸ Same.refl _)
        obtain ⟨u, rfl⟩ : ∃ u, t = u + 1 := ⟨t - 1, by omega⟩
        have hsu := hmin u (by omega) (by omega)
        rcases step u (by omega) with h | h
        · exact absurd (Same.trans hsu h) hx
        · rw [Same.rank hsu, hrk] at h
          obtain ⟨T', h1, h2⟩ := ih _ h (u + 1) (by omega) rfl
          exact ⟨T', by omega, h2⟩
  exact key _ (proc_acc _) T (Nat.le_refl _) rfl

/-- **C119** (the program comes to rest). Whatever files are there at the start, whatever system calls fail and whatever the schedule, if from some time on no dump begins, no request comes in and the process is not ended, then from some later time on
nothing is left to do: the dump in progress has returned, the queue is empty, every worker waits for values and every request has its answer. Observations may go on all the time. -/
theorem C119_rest {σ : Nat → ProcF} {seen : Nat → Option PFOp} (hn : c.handles < 2 ^ 63) (hwc : c.workers ≤ c.clients) (hw : 0 < c.workers) (he : ∀ m, ∃ dir unlink, e.call m dir unlink)
    (h0 : ProcF.Reach c e fs ops (σ 0)) (hr : ProcF.Run c e σ seen) (hf : ProcF.Fair c e σ) (T : Nat) (hadd : ∀ t, T ≤ t → OnlyAdds (seen t)) (hask : ∀ t, T ≤ t → ¬ (σ t).Asks c (σ (t + 1))) :
    ∃ T', T ≤ T' ∧ ∀ t, T' ≤ t → (σ t).AtRest := by
  obtain ⟨T', h1, h2⟩ := runF_ends hn hwc h0 hr T hadd hask
  refine ⟨T', h1, fun t ht => Classical.byContradiction fun hno => ?_⟩
  obtain ⟨t', h3, _, _, h4⟩ := hf t (can_go hn hw he (runF_lite hwc h0 hr t) hno)
  have a := h2 t' (by omega)
  have b := h2 (t' + 1) (by omega)
  exact h4 ⟨b.1.trans a.1.symm, b.2.1.trans a.2.1.symm, b.2.2.1.trans a.2.2.1.symm, b.2.2.2.1.trans a.2.2.2.1.symm, b.2.2.2.2.1.trans a.2.2.2.2.1.symm, b.2.2.2.2.2.trans a.2.2.2.2.2.symm⟩

/-- **C119** (every dump ends). A dump that is in progress returns, whatever fails, if only finitely many requests come in after it began: nothing can keep it waiting for ever. -/
theorem C119_dump {σ : Nat → ProcF} {seen : Nat → Option PFOp} (hn : c.handles < 2 ^ 63) (hwc : c.workers ≤ c.clients) (hw : 0 < c.workers) (he : ∀ m, ∃ dir unlink, e.call m dir unlink)
    (h0 : ProcF.Reach c e fs ops (σ 0)) (hr : ProcF.Run c e σ seen) (hf : ProcF.Fair c e σ) (T : Nat) (hask : ∀ t, T ≤ t → ¬ (σ t).Asks c (σ (t + 1))) (t0 : Nat) :
    ∃ t, t0 ≤ t ∧ (σ t).dumping = false := by
  refine Classical.byContradiction fun hno => ?_
  have hd : ∀ t, t0 ≤ t → (σ t).dumping = true := by
    intro t ht
    cases h : (σ t).dumping with
    | true => rfl
    | false => exact absurd ⟨t, ht, h⟩ hno
  have hadd : ∀ t, max T t0 ≤ t → OnlyAdds (seen t) := by
    intro t ht
    have hdt := hd t (by omega)
    rcases hr t with h | h
    · generalize seen t = l at h
      generalize σ (t + 1) = s' at h
      cases h with
      | add m ob now => exact ⟨m, ob, now, rfl⟩
      | dump order now taken hx => rw [hdt] at hx; cases hx
      | restart hx _ => rw [hdt] at hx; cases hx
      | _ => trivial
    · rw [h.1]; trivial
  obtain ⟨T', h1, h2⟩ := C119_rest hn hwc hw he h0 hr hf (max T t0) hadd (fun t ht => hask t (by omega))
  have := (h2 T' (Nat.le_refl _)).dumping
  rw [hd T' (by omega)] at this
  cases this

/-- A call that is to be made stays so, until its result is there. -/
theorem pending_step (h : LiteInv c e s) (hst : s.Step c e l s') {i : Nat} {m : Bytes} {o : FltCall} {rest : List (Bytes × FltCall)} {w : Work (FsProg DbRes)} (hp : s.sys.cl[i]? = some ⟨(m, o) :: rest, w⟩) :
    (∃ w', s'.sys.cl[i]? = some ⟨(m, o) :: rest, w'⟩) ∨ ∃ r, s'.sys.log = s.sys.log ++ [(i, m, o, r)] := by
  have sys : ∀ y, s.sys.StepF dbCallsF e.file (dbPath c.dir) y → (∃ w', y.cl[i]? = some ⟨(m, o) :: rest, w'⟩) ∨ ∃ r, y.log = s.sys.log ++ [(i, m, o, r)] := by
    intro y hy
    rcases stepF_shape hy with ⟨_, hc⟩ | ⟨j, m', o', rest', r, q, k1, k2⟩
    · obtain ⟨w', hw', _⟩ := hc i _ hp
      exact .inl ⟨w', hw'⟩
    · by_cases e : j = i
      · subst e
        rw [k1] at hp
        injection hp with hp
        injection hp with hp _
        injection hp with hp _
        injection hp with hp1 hp2
        subst hp1 hp2
        exact .inr ⟨r, by rw [k2]⟩
      · refine .inl ⟨w, ?_⟩
        rw [k2]
        exact (List.getElem?_set_ne e).trans hp
  cases hst with
  | add m ob now => exact .inl ⟨w, hp⟩
  | dump order now taken hd => exact .inl ⟨w, hp⟩
  | offer x rest ht => exact .inl ⟨w, hp⟩
  | refuse x rest ht hx => exact .inl ⟨w, hp⟩
  | drain x rest hq hx => exact .inl ⟨w, hp⟩
  | recv j x rest dir ul hi hq hx he =>
    have hcl : s.sys.cl[j]? = some ⟨[], .out⟩ := h.hand j _ hi
    refine .inl ⟨w, (List.getElem?_set_ne (fun e => ?_)).trans hp⟩
    subst e
    rw [hp] at hcl
    cases hcl
  | ask j m o dir ul hi hcl ho he =>
    refine .inl ⟨w, (List.getElem?_set_ne (fun e => ?_)).trans hp⟩
    subst e
    rw [hp] at hcl
    cases hcl
  | db y h1 h2 => exact sys y h1
  | wrote j y m o v h1 h2 h3 => exact sys y h1
  | lost j y m o r v h1 h2 h3 h4 => exact sys y h1
  | answer j hi hp' => exact .inl ⟨w, hp⟩
  | wait h1 h2 h3 => exact .inl ⟨w, hp⟩
  | restart h1 h2 => have := h2 _ (List.mem_of_getElem? hp); cases this

/-- **C119** (every call is answered). If from some time on no dump begins and no request comes in, each call that a worker or a request has to make at some time is answered later, whatever fails: its result is the next one in the log of results. -/
theorem C119_answered {σ : Nat → ProcF} {seen : Nat → Option PFOp} (hn : c.handles < 2 ^ 63) (hwc : c.workers ≤ c.clients) (hw : 0 < c.workers) (he : ∀ m, ∃ dir unlink, e.call m dir unlink)
    (h0 : ProcF.Reach c e fs ops (σ 0)) (hr : ProcF.Run c e σ seen) (hf : ProcF.Fair c e σ) (T : Nat) (hdump : ∀ t, T ≤ t → (σ t).dumping = false → (σ (t + 1)).dumping = false) (hask : ∀ t, T ≤ t → ¬ (σ t).Asks c (σ (t + 1)))
    (t0 i : Nat) (m : Bytes) (o : FltCall) (rest : List (Bytes × FltCall)) (w : Work (FsProg DbRes)) (hp : (σ t0).sys.cl[i]? = some ⟨(m, o) :: rest, w⟩) :
    ∃ t r, t0 ≤ t ∧ (σ (t + 1)).sys.log = (σ t).sys.log ++ [(i, m, o, r)] := by
  refine Classical.byContradiction fun hno => ?_
  have hl := runF_lite hwc h0 hr
  have stay : ∀ t, t0 ≤ t → ∃ w', (σ t).sys.cl[i]? = some ⟨(m, o) :: rest, w'⟩ := by
    intro t ht
    induction t, ht using Nat.le_induction with
    | base => exact ⟨w, hp⟩
    | succ t ht ih =>
      obtain ⟨w', hw'⟩ := ih
      rcases hr t with h | h
      · rcases pending_step (hl t) h hw' with h | ⟨r, h⟩
        · exact h
        · exact absurd ⟨t, r, ht, h⟩ hno
      · rw [h.2]; exact ⟨w', hw'⟩
  have hadd : ∀ t, max T t0 ≤ t → OnlyAdds (seen t) := by
    intro t ht
    rcases hr t with h | h
    · obtain ⟨w', hw'⟩ := stay t (by omega)
      have hdt := hdump t (by omega)
      generalize seen t = l at h
      generalize hs' : σ (t + 1) = s' at h hdt
      cases h with
      | add m ob now => exact ⟨m, ob, now, rfl⟩
      | dump order now taken hx => have := hdt hx; cases this
      | restart _ hx => have := hx _ (List.mem_of_getElem? hw'); cases this
      | _ => trivial
    · rw [h.1]; trivial
  obtain ⟨T', h1, h2⟩ := C119_rest hn hwc hw he h0 hr hf (max T t0) hadd (fun t ht => hask t (by omega))
  obtain ⟨w', hw'⟩ := stay T' (by omega)
  have := (h2 T' (Nat.le_refl _)).calls _ (List.mem_of_getElem? hw')
  cases this

end

end Rothko
