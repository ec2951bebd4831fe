import Verif.Lemmas.Shared
/-!
# C96: calls on all metrics at the same time, on one file cache
-/
namespace Rothko

/-- The handles of goroutines `k`, `k + 1`, ... (`c` of them), counted. -/
def tot (H : Nat → List (Int × FsHandle)) : Nat → Nat → Nat
  | _, 0 => 0
  | k, c + 1 => (H k).length + tot H (k + 1) c

/-- Goroutine `i` holds other handles now. -/
def holds (H : Nat → List (Int × FsHandle)) (i : Nat) (l : List (Int × FsHandle)) : Nat → List (Int × FsHandle) := fun j => if j = i then l else H j

theorem holds_self (H : Nat → List (Int × FsHandle)) (i : Nat) : holds H i (H i) = H := by
  funext j
  unfold holds
  split
  · rename_i h; rw [h]
  · rfl

theorem tot_out (H : Nat → List (Int × FsHandle)) (i : Nat) (l : List (Int × FsHandle)) (c : Nat) : ∀ k, i < k → tot (holds H i l) k c = tot H k c := by
  induction c with
  | zero => intro k _; rfl
  | succ c ih =>
    intro k hk
    rw [tot, tot, ih (k + 1) (by omega)]
    have : holds H i l k = H k := if_neg (by omega)
    rw [this]

theorem tot_holds (H : Nat → List (Int × FsHandle)) (i : Nat) (l : List (Int × FsHandle)) (c : Nat) : ∀ k, k ≤ i → i < k + c → tot (holds H i l) k c + (H i).length = tot H k c + l.length := by
  induction c with
  | zero => intro k _ _; omega
  | succ c ih =>
    intro k h1 h2
    rw [tot, tot]
    by_cases e : k = i
    · subst e
      rw [tot_out H k l c (k + 1) (by omega)]
      have : holds H k l k = l := if_pos rfl
      rw [this]; omega
    · have hk : holds H i l k = H k := if_neg e
      have := ih (k + 1) (by omega) (by omega)
      rw [hk]; omega

/-- In the middle of a call. -/
def isBusy {Op Res : Type} (c : Client Op (FsProg Res)) : Bool := match c.work with | .busy _ => true | _ => false

theorem active_count {Op Res : Type} (s : FsSys Op Res) : s.active = s.cl.countP isBusy := rfl

theorem tot_le {Op Res : Type} (H : Nat → List (Int × FsHandle)) (l : List (Client Op (FsProg Res))) : ∀ k, (∀ j c, l[j]? = some c → (H (k + j)).length ≤ if isBusy c then 2 else 0) →
    tot H k l.length ≤ 2 * l.countP isBusy := by
  induction l with
  | nil => intro k _; exact Nat.zero_le _
  | cons c l ih =>
    intro k h
    have h0 := h 0 c rfl
    have h1 := ih (k + 1) (fun j c' hc' => by
      have := h (j + 1) c' hc'
      rwa [show k + (j + 1) = k + 1 + j by omega] at this)
    rw [List.length_cons, tot, List.countP_cons]
    rw [Nat.add_zero] at h0
    split at h0 <;> rename_i hb
    · rw [if_pos hb]; omega
    · omega

section
variable {n : Nat} {path : Bytes → Int → Bytes} {progs : List (List (Bytes × DbCall))} {fs base : Bytes → Store}

/-- The goroutine is in the middle of this call. -/
def BusyAt {Op : Type} (s : FsSys Op DbRes) (i : Nat) (m : Bytes) (p : FsProg DbRes) : Prop := ∃ o rest, s.cl[i]? = some ⟨(m, o) :: rest, .busy p⟩

/-- What holds of the handles. -/
structure FInv {Op : Type} (n : Nat) (path : Bytes → Int → Bytes) (s : FsSys Op DbRes) (H : Nat → List (Int × FsHandle)) : Prop where
  ok : s.g.w.Ok n
  busy : ∀ i m p, BusyAt s i m p → p.Careful (H i) ∧ HeldOk path m s.g (H i)
  idle : ∀ i, (∀ m p, ¬ BusyAt s i m p) → H i = []
  all : ∀ f ∈ s.g.w.inUse, ∃ i m p x, BusyAt s i m p ∧ x ∈ H i ∧ f = ⟨x.2.id, path m x.1⟩
  tot : s.g.w.inUse.length = tot H 0 s.cl.length

/-- A metric when the process starts, with an oracle. -/
def startOf (s : Store) (hit : Nat → Bool) : Store := { s with cache := fun _ => none, hit }

/-- The oracles give the answers recorded so far, from the times on at which the metrics start. -/
def Extends (base : Bytes → Store) (ch : Bytes → List (Bool × Nat)) (hits : Bytes → Nat → Bool) (ids : Bytes → Nat → Nat) : Prop :=
  ∀ k i b d, (ch k)[i]? = some (b, d) → hits k ((base k).clock + i) = b ∧ ids k ((base k).clock + i) = d

/-- What the state of a metric in Model/Metric has to do with the present state: the same directory and files, the same handles cached, the oracles, the time. -/
def KRel (path : Bytes → Int → Bytes) (g : FsState) (time : Nat) (hit : Nat → Bool) (ids : Nat → Nat) (k : Bytes) (x : Store × (Nat → Nat)) : Prop :=
  SameFs (g.fs k) x.1 ∧ CacheRel path k g x.1 ∧ x.1.hit = hit ∧ x.2 = ids ∧ x.1.clock = time

/-- The state of the metrics in Model/Metric that goes with the present state, for these oracles. -/
def SimAt (path : Bytes → Int → Bytes) (progs : List (List (Bytes × DbCall))) (base : Bytes → Store) (s : FsSys DbCall DbRes) (ch : Bytes → List (Bool × Nat)) (hits : Bytes → Nat → Bool)
    (ids : Bytes → Nat → Nat) (st : Bytes → Store × (Nat → Nat)) : Prop :=
  SSys.Reach fsMachine mkdirFs progs (fun k => (startOf (base k) (hits k), ids k)) ⟨s.pool, st, s.cl, s.log⟩ ∧
  ∀ k, KRel path s.g ((base k).clock + (ch k).length) (hits k) (ids k) k (st k)

/-- The present state goes with one of Model/Metric, for all oracles that give the recorded answers. -/
def Sim (path : Bytes → Int → Bytes) (progs : List (List (Bytes × DbCall))) (base : Bytes → Store) (s : FsSys DbCall DbRes) (ch : Bytes → List (Bool × Nat)) : Prop :=
  ∀ hits ids, Extends base ch hits ids → ∃ st, SimAt path progs base s ch hits ids st

/-- The answers before the start are those of `old`. -/
theorem extends_some (base : Bytes → Store) (ch : Bytes → List (Bool × Nat)) (old : Bytes → Nat → Bool) :
    ∃ hits ids, Extends base ch hits ids ∧ ∀ k i, i < (base k).clock → hits k i = old k i := by
  refine ⟨fun k i => if i < (base k).clock then old k i else ((ch k)[i - (base k).clock]?.getD (false, 0)).1, fun k i => ((ch k)[i - (base k).clock]?.getD (false, 0)).2, ?_, fun k i h => if_pos h⟩
  intro k i b d h
  dsimp only
  rw [if_neg (by omega), Nat.add_sub_cancel_left, h]
  exact ⟨rfl, rfl⟩

theorem Sim.alone {s : FsSys DbCall DbRes} {ch : Bytes → List (Bool × Nat)} (h : Sim path progs base s ch) {i j : Nat} {m : Bytes} {p q : FsProg DbRes} (hi : BusyAt s i m p) (hj : BusyAt s j m q) : i = j := by
  obtain ⟨hits, ids, he, _⟩ := extends_some base ch (fun _ _ => false)
  obtain ⟨st, hr, _⟩ := h hits ids he
  obtain ⟨o, rest, hi⟩ := hi
  obtain ⟨o', rest', hj⟩ := hj
  exact C59_alone fsMachine_implements fsMachine_settled hr i j m o o' rest rest' p q hi hj

theorem FInv.exclusive {s : FsSys DbCall DbRes} {ch : Bytes → List (Bool × Nat)} {H : Nat → List (Int × FsHandle)} (hinj : Paths path) (h : FInv n path s H) (hs : Sim path progs base s ch)
    {i : Nat} {m : Bytes} {p : FsProg DbRes} (hi : BusyAt s i m p) : Exclusive path m s.g (H i) := by
  intro f hf idx e
  obtain ⟨j, m', q, x, hj, hx, rfl⟩ := h.all f hf
  have : m' = m := (hinj _ _ _ _ e).1
  subst this
  have := hs.alone hi hj
  subst this
  exact ⟨x, hx, rfl⟩

theorem busy_lt {Op : Type} {s : FsSys Op DbRes} {i : Nat} {m : Bytes} {p : FsProg DbRes} (h : BusyAt s i m p) : i < s.cl.length := by
  obtain ⟨o, rest, h⟩ := h
  exact (List.getElem?_eq_some_iff.mp h).1

/-- A client is replaced. -/
theorem busy_set {Op : Type} {s s' : FsSys Op DbRes} {i : Nat} {c : Client Op (FsProg DbRes)} (e : s'.cl = s.cl.set i c) {j : Nat} {m : Bytes} {p : FsProg DbRes} (h : BusyAt s' j m p) :
    (j = i ∧ ∃ o rest, c = ⟨(m, o) :: rest, .busy p⟩) ∨ (j ≠ i ∧ BusyAt s j m p) := by
  obtain ⟨o, rest, h⟩ := h
  rw [e] at h
  rcases client_set_cases h with ⟨h1, h2⟩ | ⟨h1, h2⟩
  · exact Or.inl ⟨h1, o, rest, h2.symm⟩
  · exact Or.inr ⟨h1, o, rest, h2⟩

theorem busy_other {Op : Type} {s s' : FsSys Op DbRes} {i : Nat} {c : Client Op (FsProg DbRes)} (e : s'.cl = s.cl.set i c) {j : Nat} {m : Bytes} {p : FsProg DbRes} (hj : j ≠ i) (h : BusyAt s j m p) : BusyAt s' j m p := by
  obtain ⟨o, rest, h⟩ := h
  refine ⟨o, rest, ?_⟩
  rw [e, List.getElem?_set_ne (fun x => hj x.symm)]
  exact h

/-- A client that is not in the middle of a call is replaced by one that is not either. -/
theorem FInv.quiet_set {Op : Type} {s s' : FsSys Op DbRes} {H : Nat → List (Int × FsHandle)} (h : FInv n path s H) (i : Nat) (c : Client Op (FsProg DbRes)) (e : s'.cl = s.cl.set i c) (eg : s'.g = s.g)
    (hH : H i = []) (hc : ∀ m o rest p, c ≠ ⟨(m, o) :: rest, .busy p⟩) : FInv n path s' H := by
  refine ⟨by rw [eg]; exact h.ok, ?_, ?_, ?_, by rw [eg, e, List.length_set]; exact h.tot⟩
  · intro j m p hb
    rcases busy_set e hb with ⟨_, o, rest, h1⟩ | ⟨_, hb⟩
    · exact absurd h1 (hc m o rest p)
    · rw [eg]; exact h.busy j m p hb
  · intro j hj
    by_cases ej : j = i
    · rw [ej]; exact hH
    · exact h.idle j (fun m p hb => hj m p (busy_other e ej hb))
  · intro f hf
    rw [eg] at hf
    obtain ⟨j, m, p, x, hb, hx, hfe⟩ := h.all f hf
    refine ⟨j, m, p, x, busy_other e ?_ hb, hx, hfe⟩
    rintro rfl
    rw [hH] at hx
    cases hx

theorem sim_step {s s' : FsSys DbCall DbRes} {ch : Bytes → List (Bool × Nat)} (h : Sim path progs base s ch) (eg : s'.g = s.g)
    (hs : ∀ st, SSys.Step fsMachine mkdirFs ⟨s.pool, st, s.cl, s.log⟩ ⟨s'.pool, st, s'.cl, s'.log⟩) : Sim path progs base s' ch := by
  intro hits ids he
  obtain ⟨st, hr, hk⟩ := h hits ids he
  refine ⟨st, .step hr (hs st), ?_⟩
  rw [eg]
  exact hk

theorem finv_init (hn : n < 2 ^ 63) (hb : ∀ k, SameFs (fs k) (base k)) : FInv n path (FsSys.init n progs fs : FsSys DbCall DbRes) (fun _ => []) ∧ Sim path progs base (FsSys.init n progs fs) (fun _ => []) := by
  have nb : ∀ i m p, ¬ BusyAt (FsSys.init n progs fs : FsSys DbCall DbRes) i m p := by
    rintro i m p ⟨o, rest, h⟩
    have h : (progs.map (fun p => (⟨p, .out⟩ : Client DbCall (FsProg DbRes))))[i]? = _ := h
    rw [List.getElem?_map] at h
    cases hp : progs[i]? with
    | none => rw [hp] at h; cases h
    | some q => rw [hp] at h; injection h with h; injection h with _ h; cases h
  constructor
  · refine ⟨FReach.ok hn .init, fun i m p hb => absurd hb (nb i m p), fun _ _ => rfl, fun f hf => (by cases hf), ?_⟩
    show 0 = Rothko.tot (fun _ => []) 0 _
    generalize (FsSys.init n progs fs : FsSys DbCall DbRes).cl.length = c
    have : ∀ k, Rothko.tot (fun _ => []) k c = 0 := by
      induction c with
      | zero => intro k; rfl
      | succ c ih => intro k; rw [tot, ih]; rfl
    rw [this]
  · intro hits ids _
    refine ⟨fun k => (startOf (base k) (hits k), ids k), .init, ?_⟩
    intro k
    refine ⟨⟨(hb k).1, (hb k).2, (hb k).3, (hb k).4⟩, ?_, rfl, rfl, rfl⟩
    intro f hf
    cases hf

theorem finv_step (hinj : Paths path) {s s' : FsSys DbCall DbRes} {H : Nat → List (Int × FsHandle)} {ch : Bytes → List (Bool × Nat)} (h : FInv n path s H) (hsim : Sim path progs base s ch)
    (hs : s.Step dbCalls path s') : ∃ H' ch', FInv n path s' H' ∧ Sim path progs base s' ch' := by
  cases hs with
  | mkdir m =>
    refine ⟨H, ch, ⟨h.ok, fun i m p hb => let ⟨b1, b2⟩ := h.busy i m p hb; ⟨b1, ⟨b2.nodup, b2.two, b2.inUse, b2.table⟩⟩, h.idle, h.all, h.tot⟩, ?_⟩
    intro hits ids he
    obtain ⟨st, hr, hk⟩ := hsim hits ids he
    refine ⟨_, .step hr (.env m), ?_⟩
    intro k
    obtain ⟨k1, k2, k3, k4, k5⟩ := hk k
    by_cases e : k = m
    · subst e
      show KRel path _ _ _ _ k (if k = k then _ else _)
      rw [if_pos rfl]
      refine ⟨?_, k2, k3, k4, k5⟩
      show SameFs (if k = k then _ else _) _
      rw [if_pos rfl]
      exact ⟨rfl, k1.2, k1.3, k1.4⟩
    · show KRel path _ _ _ _ k (if k = m then _ else _)
      rw [if_neg e]
      refine ⟨?_, k2, k3, k4, k5⟩
      show SameFs (if k = m then _ else _) _
      rw [if_neg e]
      exact k1
  | close r w hw =>
    obtain ⟨r', w', e, ok', ho, hu, hc⟩ := close_shape h.ok
    rw [hw] at e
    injection e with e
    injection e with _ e
    subst e
    refine ⟨H, ch, ⟨ok', ?_, h.idle, ?_, by rw [← h.tot]; exact congrArg List.length hu⟩, ?_⟩
    · intro i m p hb
      obtain ⟨b1, b2⟩ := h.busy i m p hb
      exact ⟨b1, b2.nodup, b2.two, fun x hx => by show _ ∈ w.inUse; rw [hu]; exact b2.inUse x hx, b2.table⟩
    · intro f hf
      have hf : f ∈ w.inUse := hf
      rw [hu] at hf
      exact h.all f hf
    · intro hits ids he
      obtain ⟨st, hr, hk⟩ := hsim hits ids he
      refine ⟨st, hr, fun k => ?_⟩
      obtain ⟨k1, k2, k3, k4, k5⟩ := hk k
      refine ⟨k1, ?_, k3, k4, k5⟩
      intro f hf
      have hf : f ∈ w.cached := hf
      rw [hc] at hf
      cases hf
  | call i m o rest h1 h2 =>
    exact ⟨H, ch, ⟨h.ok, h.busy, h.idle, h.all, h.tot⟩, sim_step hsim rfl (fun st => .call i m o rest h1 h2)⟩
  | enter i m o rest a h1 h2 h3 =>
    refine ⟨H, ch, h.quiet_set i _ rfl rfl (h.idle i ?_) (fun m o rest p e => by injection e with _ e; cases e), sim_step hsim rfl (fun st => .enter i m o rest a h1 h2 h3)⟩
    rintro m' p ⟨o', r', hb⟩
    rw [h3] at hb
    injection hb with hb
    injection hb with _ hb
    cases hb
  | done i a h1 h2 =>
    exact ⟨H, ch, ⟨h.ok, h.busy, h.idle, h.all, h.tot⟩, sim_step hsim rfl (fun st => .done i a h1 h2)⟩
  | finish i m o rest r a a' q h1 h2 h3 =>
    have hH : H i = [] := (h.busy i m (.done r) ⟨o, rest, h1⟩).1
    exact ⟨H, ch, h.quiet_set i _ rfl rfl hH (fun m o rest p e => by injection e with _ e; cases e), sim_step hsim rfl (fun st => .finish i m o rest (FsProg.done r) a a' q h1 rfl h2 h3)⟩
  | first i m o rest h1 =>
    have hH : H i = [] := by
      refine h.idle i ?_
      rintro m' p ⟨o', r', hb⟩
      rw [h1] at hb
      injection hb with hb
      injection hb with _ hb
      cases hb
    refine ⟨H, ch, ⟨h.ok, ?_, ?_, ?_, by rw [List.length_set]; exact h.tot⟩, ?_⟩
    · intro j m' p hb
      rcases busy_set rfl hb with ⟨rfl, o', rest', e⟩ | ⟨_, hb⟩
      · injection e with e1 e2
        injection e2 with e2
        rw [← e2, hH]
        exact ⟨C96_careful o _, ⟨List.nodup_nil, by decide, fun x hx => (by cases hx), fun x hx => (by cases hx)⟩⟩
      · obtain ⟨b1, b2⟩ := h.busy j m' p hb
        exact ⟨b1, b2.nodup, b2.two, b2.inUse, b2.table⟩
    · intro j hj
      by_cases ej : j = i
      · rw [ej]; exact hH
      · exact h.idle j (fun m p hb => hj m p (busy_other rfl ej hb))
    · intro f hf
      obtain ⟨j, m', p, x, hb, hx, hfe⟩ := h.all f hf
      refine ⟨j, m', p, x, busy_other rfl ?_ hb, hx, hfe⟩
      rintro rfl
      rw [hH] at hx
      cases hx
    · intro hits ids he
      obtain ⟨st, hr, hk⟩ := hsim hits ids he
      obtain ⟨m1, m2, m3, m4, m5⟩ := hk m
      have hst := SSys.Step.first (m := fsMachine) (env := mkdirFs) (s := ⟨s.pool, st, s.cl, s.log⟩) i m o rest h1
      have hd : (dirNames (dbCalls.ro o) (st m).1).1 = (dirNames (dbCalls.ro o) (s.g.fs m)).1 ∧ SameFs (dirNames (dbCalls.ro o) (s.g.fs m)).2 (dirNames (dbCalls.ro o) (st m).1).2 ∧
          (dirNames (dbCalls.ro o) (st m).1).2.cache = (st m).1.cache ∧ (dirNames (dbCalls.ro o) (st m).1).2.hit = (st m).1.hit ∧ (dirNames (dbCalls.ro o) (st m).1).2.clock = (st m).1.clock := by
        unfold dirNames
        rw [m1.1, m1.2]
        split
        · exact ⟨rfl, m1, rfl, rfl, rfl⟩
        · exact ⟨rfl, ⟨rfl, rfl, m1.3, m1.4⟩, rfl, rfl, rfl⟩
      obtain ⟨d1, d2, d3, d4, d5⟩ := hd
      refine ⟨SSys.setSt (⟨s.pool, st, s.cl, s.log⟩ : SSys DbCall DbRes (Store × (Nat → Nat)) (FsProg DbRes)) m (fsMachine.first o (st m)).2, ?_, ?_⟩
      · have := SSys.Reach.step hr hst
        have eb : (fsMachine.first o (st m)).1 = dbCalls.body o (dirNames (dbCalls.ro o) (s.g.fs m)).1 := by
          show dbCalls.body o (dirNames (dbCalls.ro o) (st m).1).1 = _
          rw [d1]
        have this : SSys.Reach fsMachine mkdirFs progs _ (⟨s.pool, SSys.setSt (⟨s.pool, st, s.cl, s.log⟩ : SSys DbCall DbRes (Store × (Nat → Nat)) (FsProg DbRes)) m (fsMachine.first o (st m)).2, s.cl.set i ⟨(m, o) :: rest, .busy (fsMachine.first o (st m)).1⟩, s.log⟩ : SSys DbCall DbRes (Store × (Nat → Nat)) (FsProg DbRes)) := this
        rw [eb] at this
        exact this
      · intro k
        obtain ⟨k1, k2, k3, k4, k5⟩ := hk k
        by_cases e : k = m
        · subst e
          show KRel path _ _ _ _ k (if k = k then _ else _)
          rw [if_pos rfl]
          refine ⟨?_, ?_, d4.trans k3, k4, d5.trans k5⟩
          · show SameFs (if k = k then _ else _) _
            rw [if_pos rfl]
            exact d2
          · intro f hf idx hp
            show (dirNames (dbCalls.ro o) (st k).1).2.cache idx = _
            rw [d3]
            exact k2 f hf idx hp
        · show KRel path _ _ _ _ k (if k = m then _ else _)
          rw [if_neg e]
          refine ⟨?_, k2, k3, k4, k5⟩
          show SameFs (if k = m then _ else _) _
          rw [if_neg e]
          exact k1
  | work i m o rest p p' g h1 h2 =>
    have hb : BusyAt s i m p := ⟨o, rest, h1⟩
    obtain ⟨hc, hh⟩ := h.busy i m p hb
    have hx := h.exclusive hinj hsim hb
    rcases exec_ok hinj h.ok p hc hh hx with ⟨a, rfl⟩ | ⟨p1, g1, held', chs, e, so⟩
    · cases h2
    · rw [h2] at e
      injection e with e
      injection e with e1 e2
      subst e1; subst e2
      have hlt := busy_lt hb
      refine ⟨holds H i held', fun k => if k = m then ch k ++ chs else ch k, ⟨so.ok, ?_, ?_, ?_, ?_⟩, ?_⟩
      · intro j m' q hbj
        rcases busy_set rfl hbj with ⟨rfl, o', rest', e⟩ | ⟨hj, hbj⟩
        · injection e with e1 e2
          injection e1 with e1
          injection e1 with e1
          injection e2 with e2
          subst e1; subst e2
          rw [show holds H j held' j = held' from if_pos rfl]
          exact ⟨so.careful, so.heldOk⟩
        · rename_i hbj0
          rw [show holds H i held' j = H j from if_neg hj]
          clear hbj0
          obtain ⟨b1, b2⟩ := h.busy j m' q hbj
          refine ⟨b1, b2.nodup, b2.two, ?_, ?_⟩
          · intro x hxj
            refine so.others _ (b2.inUse x hxj) (fun idx e => ?_)
            have : m' = m := (hinj _ _ _ _ e).1
            subst this
            exact hj (hsim.alone hbj hb)
          · intro x hxj
            have hop := (h.ok.places _).mpr (Or.inl (b2.inUse x hxj))
            exact (so.table _ hop).trans (b2.table x hxj)
      · intro j hj
        by_cases ej : j = i
        · exfalso
          subst ej
          exact hj m p' ⟨o, rest, List.getElem?_set_self hlt⟩
        · rw [show holds H i held' j = H j from if_neg ej]
          exact h.idle j (fun m p hb => hj m p (busy_other rfl ej hb))
      · intro f hf
        rcases so.back f hf with ⟨x, hx1, hx2⟩ | ⟨hf1, hf2⟩
        · exact ⟨i, m, p', x, ⟨o, rest, List.getElem?_set_self hlt⟩, by rw [show holds H i held' i = held' from if_pos rfl]; exact hx1, hx2⟩
        · obtain ⟨j, m', q, x, hbj, hxj, hfe⟩ := h.all f hf1
          have hji : j ≠ i := by
            rintro rfl
            obtain ⟨o1, r1, hbj'⟩ := hbj
            rw [h1] at hbj'
            injection hbj' with hbj'
            injection hbj' with hbj' _
            injection hbj' with hbj' _
            injection hbj' with hbj' _
            exact hf2 x.1 (by rw [hfe, hbj'])
          exact ⟨j, m', q, x, busy_other rfl hji hbj, by rw [show holds H i held' j = H j from if_neg hji]; exact hxj, hfe⟩
      · show g.w.inUse.length = tot (holds H i held') 0 (s.cl.set i _).length
        rw [List.length_set]
        have t1 := tot_holds H i held' s.cl.length 0 (Nat.zero_le _) (by omega)
        have t2 := so.length
        have t3 := h.tot
        omega
      · intro hits ids he
        have he0 : Extends base ch hits ids := by
          intro k j b d hk
          refine he k j b d ?_
          dsimp only
          split
          · rw [List.getElem?_append_left (List.getElem?_eq_some_iff.mp hk).1]; exact hk
          · exact hk
        obtain ⟨st, hr, hk⟩ := hsim hits ids he0
        obtain ⟨m1, m2, m3, m4, m5⟩ := hk m
        have ha : Answers chs (st m).1 (ids m) := by
          intro j b d hj
          rw [m3, m5]
          rw [Nat.add_assoc]
          refine he m ((ch m).length + j) b d ?_
          dsimp only
          rw [if_pos rfl, List.getElem?_append_right (by omega), Nat.add_sub_cancel_left]
          exact hj
        obtain ⟨s1, o1, o2, o3, o4, o5⟩ := so.sim (st m).1 (ids m) m1 m2 ha
        have hstm : st m = ((st m).1, ids m) := by rw [← m4]
        have hst := SSys.Step.work (m := fsMachine) (env := mkdirFs) (s := ⟨s.pool, st, s.cl, s.log⟩) i m o rest p p' (s1, ids m) h1 (by show FsProg.one p (st m) = _; rw [hstm]; exact o1)
        refine ⟨_, .step hr hst, ?_⟩
        intro k
        obtain ⟨k1, k2, k3, k4, k5⟩ := hk k
        by_cases e : k = m
        · subst e
          show KRel path g ((base k).clock + List.length (if k = k then _ else _)) _ _ k (if k = k then _ else _)
          rw [if_pos rfl, if_pos rfl]
          refine ⟨o2, o3, o4.trans k3, rfl, ?_⟩
          rw [o5, k5, List.length_append, Nat.add_assoc]
        · show KRel path g ((base k).clock + List.length (if k = m then _ else _)) _ _ k (if k = m then _ else _)
          rw [if_neg e, if_neg e]
          refine ⟨by rw [so.fs k e]; exact k1, ?_, k3, k4, k5⟩
          intro f hf idx hp
          have hfc := so.cached f hf (fun i' ei => e (by rw [hp] at ei; exact (hinj _ _ _ _ ei).1))
          have hop := (h.ok.places _).mpr (Or.inr (Or.inl hfc))
          rw [so.table f hop]
          exact k2 f hfc idx hp

theorem finv_reach (hn : n < 2 ^ 63) (hinj : Paths path) (hb : ∀ k, SameFs (fs k) (base k)) {s : FsSys DbCall DbRes} (h : FsSys.Reach dbCalls path n progs fs s) : ∃ H ch, FInv n path s H ∧ Sim path progs base s ch := by
  induction h with
  | init => exact ⟨_, _, finv_init hn hb⟩
  | step _ hs ih =>
    obtain ⟨H, ch, h1, h2⟩ := ih
    exact finv_step hinj h1 h2 hs

end

end Rothko
