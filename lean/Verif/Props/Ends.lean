import Verif.Spec.Ends
import Verif.Props.FaultSharedMore
/-!
# C113: every call returns
-/
namespace Rothko

/-! ## What goes down -/

/-- One element of the list goes down. -/
inductive ListDown {α : Type} (R : α → α → Prop) : List α → List α → Prop
  | head {a a' : α} {l : List α} : R a' a → ListDown R (a' :: l) (a :: l)
  | tail {a : α} {l l' : List α} : ListDown R l' l → ListDown R (a :: l') (a :: l)

theorem listDown_cons {α : Type} {R : α → α → Prop} {a : α} (ha : Acc R a) : ∀ {l : List α}, Acc (ListDown R) l → Acc (ListDown R) (a :: l) := by
  induction ha with
  | intro a _ iha =>
    intro l hl
    induction hl with
    | intro l hl ihl =>
      refine Acc.intro _ fun y hy => ?_
      cases hy with
      | head h => exact iha _ h (Acc.intro l hl)
      | tail h => exact ihl _ h

theorem listDown_wf {α : Type} {R : α → α → Prop} (h : ∀ a, Acc R a) (l : List α) : Acc (ListDown R) l := by
  induction l with
  | nil => exact Acc.intro _ fun y hy => by cases hy
  | cons a l ih => exact listDown_cons (h a) ih

theorem listDown_map {α : Type} {R : α → α → Prop} {f g : Nat → α} {i : Nat} (hi : R (g i) (f i)) (ho : ∀ j, j ≠ i → g j = f j) : ∀ l : List Nat, l.Nodup → i ∈ l → ListDown R (l.map g) (l.map f) := by
  intro l
  induction l with
  | nil => intro _ h; cases h
  | cons a l ih =>
    intro hn hm
    obtain ⟨hn1, hn2⟩ := List.nodup_cons.mp hn
    by_cases e : a = i
    · subst e
      have : l.map g = l.map f := List.map_congr_left fun j hj => ho j (by rintro rfl; exact hn1 hj)
      rw [List.map_cons, List.map_cons, this]
      exact .head hi
    · rw [List.map_cons, List.map_cons, ho a e]
      refine .tail (ih hn2 ?_)
      rcases List.mem_cons.mp hm with h | h
      · exact absurd h.symm e
      · exact h

/-- What is left of a call after a step. -/
def FsProg.Next {α : Type} : FsProg α → FsProg α → Prop
  | _, .done _ => False
  | p', .acquire _ _ _ k => ∃ x, p' = k x
  | p', .release _ _ k => p' = k
  | p', .evict _ k => p' = k
  | p', .remove _ k => p' = k
  | p', .load _ k => ∃ f, p' = k f
  | p', .store _ _ _ _ k => p' = k

theorem next_acc {α : Type} (p : FsProg α) : Acc FsProg.Next p := by
  induction p with
  | done a => exact Acc.intro _ fun y hy => hy.elim
  | acquire cfg idx ex k ih => exact Acc.intro _ fun y hy => by obtain ⟨x, rfl⟩ := hy; exact ih x
  | release idx h k ih => exact Acc.intro _ fun y hy => by cases (show y = k from hy); exact ih
  | evict idx k ih => exact Acc.intro _ fun y hy => by cases (show y = k from hy); exact ih
  | remove idx k ih => exact Acc.intro _ fun y hy => by cases (show y = k from hy); exact ih
  | load h k ih => exact Acc.intro _ fun y hy => by obtain ⟨x, rfl⟩ := hy; exact ih x
  | store h head v f k ih => exact Acc.intro _ fun y hy => by cases (show y = k from hy); exact ih

theorem execF_next {α : Type} {flt : Option FileFault} {path : Bytes → Int → Bytes} {m : Bytes} {p p' : FsProg α} {g g' : FsState} (h : p.execF flt path m g = some (p', g')) : p'.Next p := by
  cases p with
  | done a => cases h
  | acquire cfg idx ex k =>
    rw [FsProg.execF] at h
    split at h
    · cases h
    · split at h
      · cases h; exact ⟨_, rfl⟩
      · split at h
        · cases h
        · cases h; exact ⟨_, rfl⟩
    · split at h
      · cases h
      · cases h; exact ⟨_, rfl⟩
  | release idx x k =>
    rw [FsProg.execF] at h
    split at h
    · cases h
    · cases h; exact rfl
  | evict idx k =>
    rw [FsProg.execF] at h
    split at h
    · cases h
    · cases h; exact rfl
  | remove idx k => cases h; exact rfl
  | load x k => cases h; exact ⟨_, rfl⟩
  | store x head v f k => cases h; exact rfl

/-- How far a goroutine is: the calls left, where in the call, the steps left of it. -/
abbrev Rank := Nat × Nat × FsProg DbRes

def rankDown : Rank → Rank → Prop := Prod.Lex (· < ·) (Prod.Lex (· < ·) FsProg.Next)

theorem lex_acc {α β : Type} {R : α → α → Prop} {S : β → β → Prop} (hs : ∀ b, Acc S b) {a : α} (ha : Acc R a) : ∀ b, Acc (Prod.Lex R S) (a, b) := by
  induction ha with
  | intro a _ iha =>
    intro b
    induction hs b with
    | intro b _ ihb =>
      refine Acc.intro _ fun y hy => ?_
      cases hy with
      | left _ _ h => exact iha _ h _
      | right _ h => exact ihb _ h

theorem lt_acc (n : Nat) : Acc (· < · : Nat → Nat → Prop) n := Nat.lt_wfRel.wf.apply n

theorem rank_acc (r : Rank) : Acc rankDown r := lex_acc (fun b => lex_acc next_acc (lt_acc b.1) b.2) (lt_acc r.1) r.2

def rankPc : Option LPc → Nat
  | some (.waiting _ _) => 2
  | some .idle => 3
  | some (.unlocking _) => 4
  | _ => 5

def rankAt (pc : Option LPc) : Option (Client FltCall (FsProg DbRes)) → Rank
  | none => (0, 0, .done (.latest none none))
  | some ⟨todo, .begin⟩ => (todo.length, 1, .done (.latest none none))
  | some ⟨todo, .busy p⟩ => (todo.length, 0, p)
  | some ⟨todo, .out⟩ => (todo.length, rankPc pc, .done (.latest none none))

def FsSys.ranks (n : Nat) (s : FsSys FltCall DbRes) : List Rank := (List.range n).map fun i => rankAt s.pool.pcs[i]? s.cl[i]?

section
variable {n : Nat} {d : Bytes} {progs : List (List (Bytes × FltCall))} {fs : Bytes → Store} {s s' : FsSys FltCall DbRes} {may : Bytes → FileFault → Prop}

/-- What the lock pool and the goroutines have to do with each other. -/
theorem linksF (hn : n < 2 ^ 63) (h : FsSys.ReachF dbCallsF may (dbPath d) n progs fs s) : LPool.Reach progs.length s.pool ∧ s.cl.length = progs.length ∧
    (∀ (i : Nat) (pc : LPc) (c : Client FltCall (FsProg DbRes)), s.pool.pcs[i]? = some pc → s.cl[i]? = some c → linkOk pc c) ∧
    (∀ (i : Nat) (p : List (Bytes × FltCall)) (c : Client FltCall (FsProg DbRes)), progs[i]? = some p → s.cl[i]? = some c → (s.log.filter (fun e => e.1 = i)).map (fun e => (e.2.1, e.2.2.1)) ++ c.todo = p) := by
  obtain ⟨H, ch, _, hi, hs⟩ := handlesF_reach hn h
  obtain ⟨hits, ids, hext, _, _⟩ := extendsF_some fs ch (fun _ _ => false)
  obtain ⟨st, hr, _⟩ := hs hits ids hext
  have v := hr.inv fsMachineF_implements fsMachineF_settled
  exact ⟨v.pool, v.len, v.link, v.order⟩

theorem step_down (hn : n < 2 ^ 63) (h : FsSys.ReachF dbCallsF may (dbPath d) n progs fs s) (hs : s.StepF dbCallsF may (dbPath d) s') :
    (s'.pool = s.pool ∧ s'.cl = s.cl) ∨ ListDown rankDown (s'.ranks progs.length) (s.ranks progs.length) := by
  obtain ⟨l1, l2, l3, _⟩ := linksF hn h
  have lp := l1.pcs_length
  -- a step of goroutine `i`
  have go : ∀ i : Nat, i < progs.length → (∀ j, j ≠ i → s'.pool.pcs[j]? = s.pool.pcs[j]? ∧ s'.cl[j]? = s.cl[j]?) →
      rankDown (rankAt s'.pool.pcs[i]? s'.cl[i]?) (rankAt s.pool.pcs[i]? s.cl[i]?) → ListDown rankDown (s'.ranks progs.length) (s.ranks progs.length) := by
    intro i hi ho hd
    refine listDown_map (i := i) hd (fun j hj => ?_) _ List.nodup_range (List.mem_range.mpr hi)
    rw [(ho j hj).1, (ho j hj).2]
  have lt : ∀ {i : Nat} {c : Client FltCall (FsProg DbRes)}, s.cl[i]? = some c → i < progs.length := fun h => by rw [← l2]; exact (List.getElem?_eq_some_iff.mp h).1
  have ltp : ∀ {i : Nat} {c : LPc}, s.pool.pcs[i]? = some c → i < progs.length := fun h => by rw [← lp]; exact (List.getElem?_eq_some_iff.mp h).1
  cases hs with
  | mkdir m => exact Or.inl ⟨rfl, rfl⟩
  | close r w hw => exact Or.inl ⟨rfl, rfl⟩
  | call i m o rest h1 h2 =>
    refine Or.inr (go i (lt h2) (fun j hj => ⟨?_, rfl⟩) ?_)
    · show ((s.pool.lockFirst m).2.pcs.set i _)[j]? = _
      rw [List.getElem?_set_ne (fun e => hj e.symm), lockFirst_pcs]
    · dsimp only
      rw [h1, h2]
      have : ((s.pool.lockFirst m).2.setPc i (.waiting m (s.pool.lockFirst m).1)).pcs[i]? = some (.waiting m (s.pool.lockFirst m).1) := by
        show ((s.pool.lockFirst m).2.pcs.set i _)[i]? = _
        rw [lockFirst_pcs, List.getElem?_set_self (by rw [lp]; exact lt h2)]
      rw [this]
      exact Prod.Lex.right _ (Prod.Lex.left _ _ (show 2 < 3 by decide))
  | enter i m o rest a h1 h2 h3 =>
    refine Or.inr (go i (lt h3) (fun j hj => ⟨?_, ?_⟩) ?_)
    · show (s.pool.pcs.set i _)[j]? = _
      rw [List.getElem?_set_ne (fun e => hj e.symm)]
    · show (s.cl.set i _)[j]? = _
      rw [List.getElem?_set_ne (fun e => hj e.symm)]
    · dsimp only
      rw [h1, h3, List.getElem?_set_self (by rw [l2]; exact lt h3)]
      exact Prod.Lex.right _ (Prod.Lex.left _ _ (show 1 < 2 by decide))
  | first i m o rest h1 =>
    refine Or.inr (go i (lt h1) (fun j hj => ⟨rfl, ?_⟩) ?_)
    · show (s.cl.set i _)[j]? = _
      rw [List.getElem?_set_ne (fun e => hj e.symm)]
    · dsimp only
      rw [h1, List.getElem?_set_self (by rw [l2]; exact lt h1)]
      exact Prod.Lex.right _ (Prod.Lex.left _ _ (show 0 < 1 by decide))
  | work i m o rest flt p p' g h1 hmay h2 =>
    refine Or.inr (go i (lt h1) (fun j hj => ⟨rfl, ?_⟩) ?_)
    · show (s.cl.set i _)[j]? = _
      rw [List.getElem?_set_ne (fun e => hj e.symm)]
    · dsimp only
      rw [h1, List.getElem?_set_self (by rw [l2]; exact lt h1)]
      exact Prod.Lex.right _ (Prod.Lex.right _ (execF_next h2))
  | finish i m o rest r a a' q h1 h2 h3 =>
    refine Or.inr (go i (lt h1) (fun j hj => ⟨?_, ?_⟩) ?_)
    · show (q.pcs.set i _)[j]? = _
      rw [List.getElem?_set_ne (fun e => hj e.symm), unlockFirst_pcs h3]
    · show (s.cl.set i _)[j]? = _
      rw [List.getElem?_set_ne (fun e => hj e.symm)]
    · dsimp only
      rw [h1, List.getElem?_set_self (by rw [l2]; exact lt h1)]
      exact Prod.Lex.left _ _ (Nat.lt_succ_self _)
  | done i a h1 h2 =>
    refine Or.inr (go i (ltp h1) (fun j hj => ⟨?_, rfl⟩) ?_)
    · show (s.pool.pcs.set i _)[j]? = _
      rw [List.getElem?_set_ne (fun e => hj e.symm)]
    · dsimp only
      obtain ⟨c, hc⟩ : ∃ c, s.cl[i]? = some c := ⟨_, List.getElem?_eq_getElem (by rw [l2]; exact ltp h1)⟩
      have hw : c.work = .out := l3 i _ c h1 hc
      obtain ⟨todo, w⟩ := c
      dsimp only at hw
      subst hw
      have : ((s.pool.setHeap a { s.pool.heap a with held := false }).setPc i .idle).pcs[i]? = some .idle := by
        show (s.pool.pcs.set i _)[i]? = _
        rw [List.getElem?_set_self (by rw [lp]; exact ltp h1)]
      rw [this, h1, hc]
      exact Prod.Lex.right _ (Prod.Lex.left _ _ (show 3 < 4 by decide))

/-! ## The statements -/

theorem run_reach {σ : Nat → FsSys FltCall DbRes} (h0 : FsSys.ReachF dbCallsF may (dbPath d) n progs fs (σ 0)) (hr : FsSys.Run dbCallsF may (dbPath d) σ) : ∀ t, FsSys.ReachF dbCallsF may (dbPath d) n progs fs (σ t) := by
  intro t
  induction t with
  | zero => exact h0
  | succ t ih =>
    rcases hr t with h | h
    · exact .step ih h
    · rw [h]; exact ih

/-- **C113** (no call goes on for ever). Whatever the schedule and the errors of the operating system, from some time on no goroutine goes on any more: there is no run in which calls loop, or keep each other busy, for ever. -/
theorem C113_ends (hn : n < 2 ^ 63) {σ : Nat → FsSys FltCall DbRes} (h0 : FsSys.ReachF dbCallsF may (dbPath d) n progs fs (σ 0)) (hr : FsSys.Run dbCallsF may (dbPath d) σ) :
    ∃ T, ∀ t, T ≤ t → (σ t).pool = (σ T).pool ∧ (σ t).cl = (σ T).cl := by
  have hre := run_reach h0 hr
  have key : ∀ (l : List Rank), Acc (ListDown rankDown) l → ∀ T, (σ T).ranks progs.length = l → ∃ T', ∀ t, T' ≤ t → (σ t).pool = (σ T').pool ∧ (σ t).cl = (σ T').cl := by
    intro l hl
    induction hl with
    | intro l _ ih =>
      intro T hT
      by_cases hq : ∀ t, T ≤ t → (σ (t + 1)).pool = (σ t).pool ∧ (σ (t + 1)).cl = (σ t).cl
      · refine ⟨T, fun t ht => ?_⟩
        induction t, ht using Nat.le_induction with
        | base => exact ⟨rfl, rfl⟩
        | succ t ht ih => exact ⟨(hq t ht).1.trans ih.1, (hq t ht).2.trans ih.2⟩
      · -- the first time after `T` at which a goroutine goes on
        have hex : ∃ t, T ≤ t ∧ ¬ ((σ (t + 1)).pool = (σ t).pool ∧ (σ (t + 1)).cl = (σ t).cl) := by
          by_contra hc
          exact hq fun t ht => Classical.byContradiction fun hx => hc ⟨t, ht, hx⟩
        obtain ⟨t, ht, hx, hmin⟩ : ∃ t, T ≤ t ∧ ¬ ((σ (t + 1)).pool = (σ t).pool ∧ (σ (t + 1)).cl = (σ t).cl) ∧ ∀ u, T ≤ u → u < t → ((σ (u + 1)).pool = (σ u).pool ∧ (σ (u + 1)).cl = (σ u).cl) := by
          classical
          refine ⟨Nat.find hex, (Nat.find_spec hex).1, (Nat.find_spec hex).2, fun u h1 h2 => Classical.byContradiction fun hx => Nat.find_min hex h2 ⟨h1, hx⟩⟩
        have same : ∀ u, T ≤ u → u ≤ t → (σ u).pool = (σ T).pool ∧ (σ u).cl = (σ T).cl := by
          intro u hu
          induction u, hu using Nat.le_induction with
          | base => intro _; exact ⟨rfl, rfl⟩
          | succ u hu ih =>
            intro hut
            obtain ⟨a, b⟩ := hmin u hu (by omega)
            obtain ⟨a', b'⟩ := ih (by omega)
            exact ⟨a.trans a', b.trans b'⟩
        have hd : ListDown rankDown ((σ (t + 1)).ranks progs.length) l := by
          rcases hr t with h | h
          · rcases step_down hn (hre t) h with h | h
            · exact absurd h hx
            · rw [← hT]
              have : (σ T).ranks progs.length = (σ t).ranks progs.length := by
                unfold FsSys.ranks
                rw [(same t ht (Nat.le_refl _)).1, (same t ht (Nat.le_refl _)).2]
              rw [this]
              exact h
          · exact absurd ⟨by rw [h], by rw [h]⟩ hx
        exact ih _ hd (t + 1) rfl
  exact key _ (listDown_wf rank_acc _) 0 rfl

theorem next_ne {α : Type} {p p' : FsProg α} (h : p'.Next p) : p' ≠ p := by
  rintro rfl
  have := next_acc p'
  induction this with
  | intro p _ ih => exact ih p h h

/-- **C113** (no deadlock). As long as a goroutine has not finished its calls, some goroutine can go on, whatever system calls may fail. -/
theorem C113_goes_on (hn : n < 2 ^ 63) (h : FsSys.ReachF dbCallsF may (dbPath d) n progs fs s) (hw : ∃ (i : Nat) (c : Client FltCall (FsProg DbRes)), s.cl[i]? = some c ∧ c.todo ≠ []) :
    ∃ s', s.Goes dbCallsF may (dbPath d) s' := by
  obtain ⟨l1, l2, l3, _⟩ := linksF hn h
  have lp := l1.pcs_length
  have pcOf : ∀ {i : Nat} {c : Client FltCall (FsProg DbRes)}, s.cl[i]? = some c → ∃ pc, s.pool.pcs[i]? = some pc := fun hc =>
    ⟨_, List.getElem?_eq_getElem (by rw [lp, ← l2]; exact (List.getElem?_eq_some_iff.mp hc).1)⟩
  have clOf : ∀ {i : Nat} {pc : LPc}, s.pool.pcs[i]? = some pc → ∃ c, s.cl[i]? = some c := fun hc =>
    ⟨_, List.getElem?_eq_getElem (by rw [l2, ← lp]; exact (List.getElem?_eq_some_iff.mp hc).1)⟩
  -- a change at `i`
  have clNe : ∀ {i : Nat} {c c' : Client FltCall (FsProg DbRes)}, s.cl[i]? = some c → c' ≠ c → s.cl.set i c' ≠ s.cl := by
    intro i c c' hc hne e
    have := congrArg (fun l => l[i]?) e
    rw [List.getElem?_set_self (List.getElem?_eq_some_iff.mp hc).1, hc] at this
    exact hne (Option.some.inj this)
  have pcNe : ∀ {i : Nat} {pc pc' : LPc} (q : LPool), s.pool.pcs[i]? = some pc → q.pcs = s.pool.pcs → pc' ≠ pc → q.setPc i pc' ≠ s.pool := by
    intro i pc pc' q hc hq hne e
    have := congrArg (fun l : LPool => l.pcs[i]?) e
    have : (q.pcs.set i pc')[i]? = s.pool.pcs[i]? := this
    rw [hq, List.getElem?_set_self (List.getElem?_eq_some_iff.mp hc).1, hc] at this
    exact hne (Option.some.inj this)
  -- who holds a lock, or is about to have given it back, can go on
  have holder : ∀ {j : Nat} {k : Bytes} {a : Nat}, s.pool.pcs[j]? = some (.holding k a) → ∃ s', s.Goes dbCallsF may (dbPath d) s' := by
    intro j k a hj
    obtain ⟨c, hc⟩ := clOf hj
    obtain ⟨o, rest, w, rfl, hw⟩ := l3 j _ c hj hc
    cases w with
    | out => exact absurd rfl hw
    | begin => exact ⟨_, .first j k o rest hc, fun e => clNe hc (fun e' => by injection e' with _ e'; cases e') e.2⟩
    | busy p =>
      rcases C112_never_stuck hn h j k o rest p hc none with ⟨r, rfl⟩ | ⟨p', g, hx⟩
      · have hkey := l1.ok.key _ (List.mem_of_getElem? hj) k a (Or.inr rfl)
        obtain ⟨x, hx⟩ : ∃ x, s.pool.unlockFirst k = some x := by
          unfold LPool.unlockFirst
          rw [hkey]
          exact ⟨_, rfl⟩
        exact ⟨_, .finish j k o rest r a x.1 x.2 hc hj hx, fun e => pcNe x.2 hj (unlockFirst_pcs hx) (fun e' => by cases e') e.1⟩
      · exact ⟨_, .work j k o rest none p p' g hc (fun f hf => by cases hf) hx, fun e => clNe hc (fun e' => by injection e' with _ e'; injection e' with e'; exact next_ne (execF_next hx) e') e.2⟩
  have unlocker : ∀ {j : Nat} {a : Nat}, s.pool.pcs[j]? = some (.unlocking a) → ∃ s', s.Goes dbCallsF may (dbPath d) s' := by
    intro j a hj
    have hheld : (s.pool.heap a).held = true := by
      have := l1.ok.held a
      have hp := countP_pos_of (List.mem_of_getElem? hj) (p := LPc.owns a) (by simp [LPc.owns])
      cases hh : (s.pool.heap a).held with
      | true => rfl
      | false => rw [hh] at this; simp only [Bool.false_eq_true, if_false] at this; omega
    exact ⟨_, .done j a hj hheld, fun e => pcNe (s.pool.setHeap a { s.pool.heap a with held := false }) hj rfl (fun e' => by cases e') e.1⟩
  obtain ⟨i, c, hc, hne⟩ := hw
  obtain ⟨pc, hp⟩ := pcOf hc
  have hl := l3 i pc c hp hc
  cases pc with
  | idle =>
    obtain ⟨todo, w⟩ := c
    have hw : w = .out := hl
    subst hw
    cases todo with
    | nil => exact absurd rfl hne
    | cons x rest => exact ⟨_, .call i x.1 x.2 rest hp hc, fun e => pcNe _ hp (lockFirst_pcs _ _) (fun e' => by cases e') e.1⟩
  | holding k a => exact holder hp
  | unlocking a => exact unlocker hp
  | waiting k a =>
    obtain ⟨o, rest, rfl⟩ := hl
    cases hh : (s.pool.heap a).held with
    | false => exact ⟨_, .enter i k o rest a hp hh hc, fun e => clNe hc (fun e' => by injection e' with _ e'; cases e') e.2⟩
    | true =>
      have hcnt := l1.ok.held a
      rw [hh] at hcnt
      obtain ⟨pc, hm, hu⟩ := List.countP_pos_iff.mp (show 0 < s.pool.pcs.countP (LPc.owns a) by rw [hcnt]; simp)
      obtain ⟨j, hj⟩ := List.getElem?_of_mem hm
      cases pc with
      | idle => simp [LPc.owns] at hu
      | waiting _ _ => simp [LPc.owns] at hu
      | holding k' st' => exact holder hj
      | unlocking st' => exact unlocker hj

/-- **C113** (every call returns). In every run in which the scheduler is not idle for ever while some goroutine can go on, there comes a time from which on all goroutines have made all their calls and have got the results of all of them, in the
order of the calls, whatever system calls failed. -/
theorem C113_returns (hn : n < 2 ^ 63) {σ : Nat → FsSys FltCall DbRes} (h0 : FsSys.ReachF dbCallsF may (dbPath d) n progs fs (σ 0)) (hr : FsSys.Run dbCallsF may (dbPath d) σ) (hf : FsSys.Fair dbCallsF may (dbPath d) σ) :
    ∃ T, ∀ t, T ≤ t → ∀ i p, progs[i]? = some p → (σ t).cl[i]? = some ⟨[], .out⟩ ∧ ((σ t).log.filter (fun e => e.1 = i)).map (fun e => (e.2.1, e.2.2.1)) = p := by
  obtain ⟨T, hT⟩ := C113_ends hn h0 hr
  have hre := run_reach h0 hr
  refine ⟨T, fun t ht i p hp => ?_⟩
  obtain ⟨l1, l2, l3, l4⟩ := linksF hn (hre t)
  have stuck : ¬ ∃ s', (σ t).Goes dbCallsF may (dbPath d) s' := by
    intro hg
    obtain ⟨t', h1, h2⟩ := hf t hg
    have a := hT t' (by omega)
    have b := hT (t' + 1) (by omega)
    exact h2.2 ⟨b.1.trans a.1.symm, b.2.trans a.2.symm⟩
  obtain ⟨c, hc⟩ : ∃ c, (σ t).cl[i]? = some c := ⟨_, List.getElem?_eq_getElem (by rw [l2]; exact (List.getElem?_eq_some_iff.mp hp).1)⟩
  have htodo : c.todo = [] := Classical.byContradiction fun hne => stuck (C113_goes_on hn (hre t) ⟨i, c, hc, hne⟩)
  obtain ⟨pc, hpc⟩ : ∃ pc, (σ t).pool.pcs[i]? = some pc := ⟨_, List.getElem?_eq_getElem (by rw [l1.pcs_length]; exact (List.getElem?_eq_some_iff.mp hp).1)⟩
  have hl := l3 i pc c hpc hc
  have hord := l4 i p c hp hc
  obtain ⟨todo, w⟩ := c
  dsimp only at htodo
  subst htodo
  rw [List.append_nil] at hord
  refine ⟨?_, hord⟩
  rw [hc]
  cases pc with
  | idle => rw [show w = .out from hl]
  | unlocking a => rw [show w = .out from hl]
  | waiting k a => obtain ⟨o, rest, e⟩ := hl; injection e with e _; cases e
  | holding k a => obtain ⟨o, rest, w', e, _⟩ := hl; injection e with e _; cases e

end

end Rothko
