import Verif.Props.Process
/-!
# C97: the process can always come to rest
-/
namespace Rothko

/-- Some steps, in which nothing is observed, no dump begins and no process ends. -/
inductive Proc.Goes (c : ProcCfg) : Proc → Proc → Prop
  | refl {s : Proc} : Goes c s s
  | step {s s1 s' : Proc} : s.Step c none s1 → Goes c s1 s' → Goes c s s'

theorem Proc.Goes.trans {c : ProcCfg} {a b d : Proc} (h : Proc.Goes c a b) (h' : Proc.Goes c b d) : Proc.Goes c a d := by
  induction h with
  | refl => exact h'
  | step hs _ ih => exact .step hs (ih h')

theorem Proc.Reach.goes {c : ProcCfg} {fs : Bytes → Store} {ops : List POp} {s s' : Proc} (h : Proc.Reach c fs ops s) (hg : Proc.Goes c s s') : Proc.Reach c fs ops s' := by
  induction hg with
  | refl => exact h
  | step hs _ ih =>
    have := Proc.Reach.step h hs
    rw [Option.toList_none, List.append_nil] at this
    exact ih this

/-! ## The calls -/

section
variable {n : Nat} {d : Bytes} {progs : List (List (Bytes × DbCall))} {fs : Bytes → Store} {s : FsSys DbCall DbRes}

theorem fs_pool (hn : n < 2 ^ 63) (h : FsSys.Reach dbCalls (dbPath d) n progs fs s) : LPool.Reach progs.length s.pool ∧ s.cl.length = progs.length ∧
    (∀ (i : Nat) (pc : LPc) (c : Client DbCall (FsProg DbRes)), s.pool.pcs[i]? = some pc → s.cl[i]? = some c → linkOk pc c) ∧
    (∀ (i : Nat) (c : Client DbCall (FsProg DbRes)), s.cl[i]? = some c → ∃ pc, s.pool.pcs[i]? = some pc) := by
  obtain ⟨H, ch, hi, hs⟩ := handles_reach hn h
  obtain ⟨hits, ids, hext, _⟩ := extends_some fs ch (fun _ _ => false)
  obtain ⟨st, hr, _⟩ := hs hits ids hext
  have hinv := hr.inv fsMachine_implements fsMachine_settled
  exact ⟨hinv.pool, hinv.len, fun i pc c h1 h2 => hinv.link i pc c h1 h2, fun i c hc => hinv.pc_of hc⟩

end

/-- The goroutine is at the end of `Unlock`. -/
def LPc.ending : LPc → Bool
  | .unlocking _ => true
  | _ => false

/-- The worker has written and not yet answered. -/
def Hand.done : Hand → Bool
  | .wrote => true
  | _ => false

/-- The calls that goroutines have still to finish. -/
def callsLeft (cl : List (Client DbCall (FsProg DbRes))) : Nat := (cl.map (fun x => x.todo.length)).sum

/-- What is left to do. -/
def Proc.left (s : Proc) : Nat := 5 * s.todo.length + 4 * s.queue.length + 3 * callsLeft s.sys.cl + s.hands.countP Hand.done + s.sys.pool.pcs.countP LPc.ending

theorem callsLeft_set {cl : List (Client DbCall (FsProg DbRes))} {i : Nat} {x y : Client DbCall (FsProg DbRes)} (h : cl[i]? = some x) : callsLeft (cl.set i y) + x.todo.length = callsLeft cl + y.todo.length := by
  unfold callsLeft
  induction cl generalizing i with
  | nil => cases h
  | cons a cl ih =>
    cases i with
    | zero =>
      injection h with h
      subst h
      simp only [List.set_cons_zero, List.map_cons, List.sum_cons]
      omega
    | succ i =>
      have h : cl[i]? = some x := h
      have := ih h
      simp only [List.set_cons_succ, List.map_cons, List.sum_cons]
      omega

theorem callsLeft_pos {cl : List (Client DbCall (FsProg DbRes))} (h : callsLeft cl ≠ 0) : ∃ (i : Nat) (m : Bytes) (o : DbCall) (rest : List (Bytes × DbCall)) (w : Work (FsProg DbRes)), cl[i]? = some ⟨(m, o) :: rest, w⟩ := by
  unfold callsLeft at h
  induction cl with
  | nil => exact absurd rfl h
  | cons a cl ih =>
    obtain ⟨todo, w⟩ := a
    cases todo with
    | nil =>
      simp only [List.map_cons, List.sum_cons, List.length_nil, Nat.zero_add] at h
      obtain ⟨i, m, o, rest, w, hi⟩ := ih h
      exact ⟨i + 1, m, o, rest, w, hi⟩
    | cons x rest => exact ⟨0, x.1, x.2, rest, w, rfl⟩

theorem callsLeft_zero {cl : List (Client DbCall (FsProg DbRes))} (h : callsLeft cl = 0) : ∀ x ∈ cl, x.todo = [] := by
  unfold callsLeft at h
  intro x hx
  have := List.sum_eq_zero_iff_forall_eq_nat.mp h x.todo.length (List.mem_map.mpr ⟨x, hx, rfl⟩)
  exact List.eq_nil_of_length_eq_zero this

section
variable {c : ProcCfg} {K : Nat} {de : Bytes → Bool} {hit : Bytes → Nat → Bool} {ops : List POp} {s : Proc}

/-- A step of a call in which none returns. -/
theorem goes_quiet {sys : FsSys DbCall DbRes} (hst : s.sys.Step dbCalls (dbPath c.dir) sys) (hlog : sys.log = s.sys.log) : s.Step c none { s with sys } := by
  refine .db sys hst (fun e he => ?_)
  rw [hlog] at he
  have := congrArg List.length he
  simp at this

/-- A call that is under way can be finished. -/
theorem busy_finishes (hok : ProcOk c K ops) (p : FsProg DbRes) : ∀ (s : Proc), Proc.Reach c (freshFs de hit) ops s → ∀ (j : Nat) (m : Bytes) (o : DbCall) (rest : List (Bytes × DbCall)),
    s.sys.cl[j]? = some ⟨(m, o) :: rest, .busy p⟩ → ∃ s', Proc.Goes c s s' ∧ s'.left < s.left := by
  have go : ∀ (p : FsProg DbRes), (∀ r, p ≠ .done r) →
      (∀ p' : FsProg DbRes, (∃ m g g', p.exec (dbPath c.dir) m g = some (p', g')) → ∀ (s : Proc), Proc.Reach c (freshFs de hit) ops s → ∀ (j : Nat) (m : Bytes) (o : DbCall) (rest : List (Bytes × DbCall)),
        s.sys.cl[j]? = some ⟨(m, o) :: rest, .busy p'⟩ → ∃ s', Proc.Goes c s s' ∧ s'.left < s.left) →
      ∀ (s : Proc), Proc.Reach c (freshFs de hit) ops s → ∀ (j : Nat) (m : Bytes) (o : DbCall) (rest : List (Bytes × DbCall)),
        s.sys.cl[j]? = some ⟨(m, o) :: rest, .busy p⟩ → ∃ s', Proc.Goes c s s' ∧ s'.left < s.left := by
    intro p hp ih s h j m o rest hc
    have inv := procInv_reach (freshFs_after c.pipe.cfg de hit) h hok
    obtain ⟨progs, base, acc, hs⟩ := inv.sys
    rcases C96_never_stuck hok.handles hs.reach j m o rest p hc with ⟨r, e⟩ | ⟨p', g, e⟩
    · exact absurd e (hp r)
    · have hst := goes_quiet (.work j m o rest p p' g hc e) rfl
      obtain ⟨s', h1, h2⟩ := ih p' ⟨m, s.sys.g, g, e⟩ _ (h.goes (.step hst .refl)) j m o rest (List.getElem?_set_self (List.getElem?_eq_some_iff.mp hc).1)
      refine ⟨s', .step hst h1, Nat.lt_of_lt_of_eq h2 ?_⟩
      unfold Proc.left
      dsimp only
      have := callsLeft_set (y := ⟨(m, o) :: rest, .busy p'⟩) hc
      simp only [List.length_cons] at this
      omega
  induction p with
  | done r =>
    intro s h j m o rest hc
    have inv := procInv_reach (freshFs_after c.pipe.cfg de hit) h hok
    obtain ⟨progs, base, acc, hs⟩ := inv.sys
    obtain ⟨hp, hl, hlink, hpc⟩ := fs_pool hok.handles hs.reach
    obtain ⟨pc, hpc⟩ := hpc j _ hc
    have hk := hlink j pc _ hpc hc
    cases pc with
    | idle => cases hk
    | waiting k a => obtain ⟨_, _, e⟩ := hk; cases e
    | unlocking a => cases hk
    | holding k a =>
      obtain ⟨_, _, _, e, _⟩ := hk
      cases e
      have hlk : s.sys.pool.locks m = some a := hp.ok.key _ (List.mem_of_getElem? hpc) m a (Or.inr rfl)
      have hu : ∃ a' q, s.sys.pool.unlockFirst m = some (a', q) ∧ q.pcs = s.sys.pool.pcs := by
        unfold LPool.unlockFirst
        rw [hlk]
        refine ⟨_, _, rfl, ?_⟩
        split <;> rfl
      obtain ⟨a', q, hu, hq⟩ := hu
      have hst := FsSys.Step.finish (c := dbCalls) (path := dbPath c.dir) j m o rest r a a' q hc hpc hu
      have hcl := callsLeft_set (y := ⟨rest, .out⟩) hc
      simp only [List.length_cons] at hcl
      have hend := countP_set_of (p := LPc.ending) (LPc.unlocking a') hpc
      simp only [LPc.ending, Bool.false_eq_true, if_false, if_true] at hend
      by_cases hj : j < c.workers
      · have hlen : j < s.hands.length := by rw [inv.len]; exact hj
        have hh := List.getElem?_eq_getElem hlen
        have hko := inv.hand j _ hh
        have hne : ∀ a, HandOk c.pipe.cfg s.sys.cl j a → ∃ m v, a = .busy m v := by
          intro a ha
          cases a with
          | busy m v => exact ⟨m, v, rfl⟩
          | free => have ha : s.sys.cl[j]? = some ⟨[], .out⟩ := ha; rw [hc] at ha; cases ha
          | wrote => have ha : s.sys.cl[j]? = some ⟨[], .out⟩ := ha; rw [hc] at ha; cases ha
        obtain ⟨m', v, e⟩ := hne _ hko
        rw [e] at hh
        have hd := countP_set_of (p := Hand.done) Hand.wrote hh
        simp only [Hand.done, Bool.false_eq_true, if_false, if_true] at hd
        refine ⟨_, .step (.wrote j _ (m, o, r) m' v hst rfl hh) .refl, ?_⟩
        unfold Proc.left
        dsimp only [LPool.setPc]
        rw [hq]
        omega
      · refine ⟨_, .step (.db _ hst (fun e he => ?_)) .refl, ?_⟩
        · have := List.append_cancel_left he
          injection this with this _
          rw [← this]
          show c.workers ≤ j
          omega
        · unfold Proc.left
          dsimp only [LPool.setPc]
          rw [hq]
          omega
  | acquire cfg idx ex k ih =>
    refine go _ (fun r e => by cases e) (fun p' ⟨m, g, g', e⟩ => ?_)
    rw [FsProg.exec] at e
    split at e
    · cases e
    · split at e
      · cases e; exact ih _
      · split at e
        · cases e
        · cases e; exact ih _
    · split at e
      · cases e
      · cases e; exact ih _
  | release idx x k ih =>
    refine go _ (fun r e => by cases e) (fun p' ⟨m, g, g', e⟩ => ?_)
    rw [FsProg.exec] at e
    split at e
    · cases e
    · cases e; exact ih
  | evict idx k ih =>
    refine go _ (fun r e => by cases e) (fun p' ⟨m, g, g', e⟩ => ?_)
    rw [FsProg.exec] at e
    split at e
    · cases e
    · cases e; exact ih
  | remove idx k ih =>
    refine go _ (fun r e => by cases e) (fun p' ⟨m, g, g', e⟩ => ?_)
    cases e; exact ih
  | load x k ih =>
    refine go _ (fun r e => by cases e) (fun p' ⟨m, g, g', e⟩ => ?_)
    cases e; exact ih _
  | store x head v f k ih =>
    refine go _ (fun r e => by cases e) (fun p' ⟨m, g, g', e⟩ => ?_)
    cases e; exact ih

theorem begin_finishes (hok : ProcOk c K ops) (s : Proc) (h : Proc.Reach c (freshFs de hit) ops s) (j : Nat) (m : Bytes) (o : DbCall) (rest : List (Bytes × DbCall)) (hc : s.sys.cl[j]? = some ⟨(m, o) :: rest, .begin⟩) :
    ∃ s', Proc.Goes c s s' ∧ s'.left < s.left := by
  have hst := goes_quiet (c := c) (FsSys.Step.first (c := dbCalls) (path := dbPath c.dir) j m o rest hc) rfl
  obtain ⟨s', h1, h2⟩ := busy_finishes hok _ _ (h.goes (.step hst .refl)) j m o rest (List.getElem?_set_self (List.getElem?_eq_some_iff.mp hc).1)
  refine ⟨s', .step hst h1, Nat.lt_of_lt_of_eq h2 ?_⟩
  unfold Proc.left
  dsimp only
  have := callsLeft_set (y := ⟨(m, o) :: rest, .busy (dbCalls.body o (dirNames (dbCalls.ro o) (s.sys.g.fs m)).1)⟩) hc
  simp only [List.length_cons] at this
  omega

/-- Nobody is at the end of `Unlock`: a goroutine that waits for a lock gets it, or another one is at work. -/
theorem waiting_finishes (hok : ProcOk c K ops) (s : Proc) (h : Proc.Reach c (freshFs de hit) ops s) (hu : s.sys.pool.pcs.countP LPc.ending = 0) (j : Nat) (m : Bytes) (a : Nat) (hpc : s.sys.pool.pcs[j]? = some (.waiting m a)) :
    ∃ s', Proc.Goes c s s' ∧ s'.left < s.left := by
  have inv := procInv_reach (freshFs_after c.pipe.cfg de hit) h hok
  obtain ⟨progs, base, acc, hs⟩ := inv.sys
  obtain ⟨hp, hl, hlink, hpcs⟩ := fs_pool hok.handles hs.reach
  have hlt : ∀ {i : Nat} {pc : LPc}, s.sys.pool.pcs[i]? = some pc → ∃ x, s.sys.cl[i]? = some x := by
    intro i pc hi
    have := (List.getElem?_eq_some_iff.mp hi).1
    rw [hp.pcs_length, ← hl] at this
    exact ⟨_, List.getElem?_eq_getElem this⟩
  cases hh : (s.sys.pool.heap a).held with
  | false =>
    obtain ⟨x, hx⟩ := hlt hpc
    obtain ⟨o, rest, rfl⟩ := hlink j _ x hpc hx
    have hst := goes_quiet (c := c) (FsSys.Step.enter (c := dbCalls) (path := dbPath c.dir) j m o rest a hpc hh hx) rfl
    obtain ⟨s', h1, h2⟩ := begin_finishes hok _ (h.goes (.step hst .refl)) j m o rest (List.getElem?_set_self (List.getElem?_eq_some_iff.mp hx).1)
    refine ⟨s', .step hst h1, Nat.lt_of_lt_of_eq h2 ?_⟩
    unfold Proc.left
    dsimp only [LPool.setPc, LPool.setHeap]
    have h3 := callsLeft_set (y := ⟨(m, o) :: rest, .begin⟩) hx
    have h4 := countP_set_of (p := LPc.ending) (LPc.holding m a) hpc
    simp only [LPc.ending, Bool.false_eq_true, if_false] at h4
    simp only [List.length_cons] at h3
    omega
  | true =>
    have hc := hp.ok.held a
    rw [hh] at hc
    obtain ⟨pc, hm, ho⟩ := List.countP_pos_iff.mp (show 0 < s.sys.pool.pcs.countP (LPc.owns a) by rw [hc]; simp)
    obtain ⟨i, hi⟩ := List.getElem?_of_mem hm
    cases pc with
    | idle => simp [LPc.owns] at ho
    | waiting _ _ => simp [LPc.owns] at ho
    | unlocking b => exact absurd rfl (List.countP_eq_zero.mp hu _ hm)
    | holding k b =>
      obtain ⟨x, hx⟩ := hlt hi
      obtain ⟨o, rest, w, rfl, hw⟩ := hlink i _ x hi hx
      cases w with
      | out => exact absurd rfl hw
      | begin => exact begin_finishes hok s h i k o rest hx
      | busy p => exact busy_finishes hok p s h i k o rest hx

theorem call_finishes (hok : ProcOk c K ops) (s : Proc) (h : Proc.Reach c (freshFs de hit) ops s) (hu : s.sys.pool.pcs.countP LPc.ending = 0) (hc : callsLeft s.sys.cl ≠ 0) :
    ∃ s', Proc.Goes c s s' ∧ s'.left < s.left := by
  obtain ⟨j, m, o, rest, w, hj⟩ := callsLeft_pos hc
  have inv := procInv_reach (freshFs_after c.pipe.cfg de hit) h hok
  obtain ⟨progs, base, acc, hs⟩ := inv.sys
  obtain ⟨hp, hl, hlink, hpcs⟩ := fs_pool hok.handles hs.reach
  cases w with
  | begin => exact begin_finishes hok s h j m o rest hj
  | busy p => exact busy_finishes hok p s h j m o rest hj
  | out =>
    obtain ⟨pc, hpc⟩ := hpcs j _ hj
    have hk := hlink j pc _ hpc hj
    cases pc with
    | unlocking b => exact absurd rfl (List.countP_eq_zero.mp hu _ (List.mem_of_getElem? hpc))
    | holding k a => obtain ⟨_, _, w, e, hw⟩ := hk; cases e; exact absurd rfl hw
    | waiting k a => exact waiting_finishes hok s h hu j k a hpc
    | idle =>
      have hst := goes_quiet (c := c) (FsSys.Step.call (c := dbCalls) (path := dbPath c.dir) j m o rest hpc hj) rfl
      have hpcs : (s.sys.pool.lockFirst m).2.pcs = s.sys.pool.pcs := by
        unfold LPool.lockFirst
        split <;> rfl
      have h4 := countP_set_of (p := LPc.ending) (LPc.waiting m (s.sys.pool.lockFirst m).1) hpc
      simp only [LPc.ending, Bool.false_eq_true, if_false] at h4
      have hset : ((s.sys.pool.lockFirst m).2.setPc j (.waiting m (s.sys.pool.lockFirst m).1)).pcs = s.sys.pool.pcs.set j (.waiting m (s.sys.pool.lockFirst m).1) := by
        unfold LPool.setPc
        dsimp only
        rw [hpcs]
      obtain ⟨s', h1, h2⟩ := waiting_finishes hok _ (h.goes (.step hst .refl)) (by dsimp only; rw [hset]; omega) j m (s.sys.pool.lockFirst m).1 (by
        dsimp only
        rw [hset]
        exact List.getElem?_set_self (List.getElem?_eq_some_iff.mp hpc).1)
      refine ⟨s', .step hst h1, Nat.lt_of_lt_of_eq h2 ?_⟩
      unfold Proc.left
      dsimp only
      rw [hset]
      omega

/-- While something is left to do, it can be done. -/
theorem left_finishes (hok : ProcOk c K ops) (hw : 0 < c.workers) (s : Proc) (h : Proc.Reach c (freshFs de hit) ops s) (hl : s.left ≠ 0) : ∃ s', Proc.Goes c s s' ∧ s'.left < s.left := by
  have inv := procInv_reach (freshFs_after c.pipe.cfg de hit) h hok
  cases ht : s.todo with
  | cons x rest =>
    refine ⟨_, .step (.offer x rest ht) .refl, ?_⟩
    unfold Proc.left
    dsimp only
    rw [ht, List.length_cons, List.length_append, List.length_singleton]
    omega
  | nil =>
    obtain ⟨progs, base, acc, hs⟩ := inv.sys
    obtain ⟨hp, hln, hlink, hpcs⟩ := fs_pool hok.handles hs.reach
    by_cases hu : s.sys.pool.pcs.countP LPc.ending = 0
    · by_cases hc : callsLeft s.sys.cl = 0
      · have hnob : ∀ (i : Nat) (m : Bytes) (v : Val), s.hands[i]? ≠ some (.busy m v) := by
          intro i m v hi
          obtain ⟨w, hx⟩ := inv.hand i _ hi
          have := callsLeft_zero hc _ (List.mem_of_getElem? hx)
          cases this
        by_cases hd : s.hands.countP Hand.done = 0
        · cases hq : s.queue with
          | nil =>
            exfalso
            apply hl
            unfold Proc.left
            rw [ht, hq, hc, hd, hu]
            rfl
          | cons x rest =>
            cases htk : s.taken x.1 with
            | false =>
              refine ⟨_, .step (.drain x rest hq htk) .refl, ?_⟩
              unfold Proc.left
              dsimp only
              rw [hq, List.length_cons]
              omega
            | true =>
              have h0 : 0 < s.hands.length := by rw [inv.len]; exact hw
              have hh := List.getElem?_eq_getElem h0
              have hfree : s.hands[0]? = some .free := by
                cases e : s.hands[0] with
                | free => rw [hh, e]
                | busy m v => rw [e] at hh; exact absurd hh (hnob 0 m v)
                | wrote =>
                  rw [e] at hh
                  exact absurd rfl (List.countP_eq_zero.mp hd _ (List.mem_of_getElem? hh))
              have hcl : s.sys.cl[0]? = some ⟨[], .out⟩ := inv.hand 0 _ hfree
              refine ⟨_, .step (.recv 0 x rest hfree hq htk) .refl, ?_⟩
              have h1 := callsLeft_set (y := ⟨[(x.1, .write c.pipe.cfg x.2)], .out⟩) hcl
              have h2 := countP_set_of (p := Hand.done) (Hand.busy x.1 x.2) hfree
              simp only [Hand.done, Bool.false_eq_true, if_false] at h2
              simp only [List.length_nil, List.length_singleton] at h1
              unfold Proc.left
              dsimp only
              rw [hq, List.length_cons]
              omega
        · obtain ⟨b, hm, hb⟩ := List.countP_pos_iff.mp (Nat.pos_of_ne_zero hd)
          obtain ⟨i, hi⟩ := List.getElem?_of_mem hm
          cases b with
          | free => cases hb
          | busy m v => cases hb
          | wrote =>
            have hcl : s.sys.cl[i]? = some ⟨[], .out⟩ := inv.hand i _ hi
            obtain ⟨pc, hpc⟩ := hpcs i _ hcl
            have hk := hlink i pc _ hpc hcl
            have hidle : pc = .idle := by
              cases pc with
              | idle => rfl
              | waiting k a => obtain ⟨_, _, e⟩ := hk; cases e
              | holding k a => obtain ⟨_, _, _, e, _⟩ := hk; cases e
              | unlocking b => exact absurd rfl (List.countP_eq_zero.mp hu _ (List.mem_of_getElem? hpc))
            rw [hidle] at hpc
            refine ⟨_, .step (.answer i hi hpc) .refl, ?_⟩
            have h2 := countP_set_of (p := Hand.done) Hand.free hi
            simp only [Hand.done, Bool.false_eq_true, if_false, if_true] at h2
            unfold Proc.left
            dsimp only
            omega
      · exact call_finishes hok s h hu hc
    · obtain ⟨pc, hm, hb⟩ := List.countP_pos_iff.mp (Nat.pos_of_ne_zero hu)
      obtain ⟨i, hi⟩ := List.getElem?_of_mem hm
      cases pc with
      | idle => cases hb
      | waiting k a => cases hb
      | holding k a => cases hb
      | unlocking a =>
        have hheld : (s.sys.pool.heap a).held = true := by
          have := hp.ok.held a
          have hpos := countP_pos_of (p := LPc.owns a) hm (by simp [LPc.owns])
          cases hh : (s.sys.pool.heap a).held with
          | true => rfl
          | false => rw [hh, if_neg (by decide)] at this; omega
        refine ⟨_, .step (goes_quiet (FsSys.Step.done i a hi hheld) rfl) .refl, ?_⟩
        have h2 := countP_set_of (p := LPc.ending) LPc.idle hi
        simp only [LPc.ending, Bool.false_eq_true, if_false, if_true] at h2
        unfold Proc.left
        dsimp only [LPool.setPc, LPool.setHeap]
        omega

/-- **C97** (no deadlock). From every state that the process can get into there is a schedule in which the dump in progress returns, every value that is taken is written, every request gets its result and every worker waits for more. -/
theorem C97_ends (h : Proc.Reach c (freshFs de hit) ops s) (hok : ProcOk c K ops) (hw : 0 < c.workers) :
    ∃ s', Proc.Goes c s s' ∧ s'.dumping = false ∧ s'.todo = [] ∧ s'.queue = [] ∧ (∀ x ∈ s'.sys.cl, x = ⟨[], .out⟩) ∧ (∀ a ∈ s'.hands, a = .free) ∧ s'.w = s.w := by
  have key : ∀ (k : Nat) (s : Proc), Proc.Reach c (freshFs de hit) ops s → s.left = k → ∃ s', Proc.Goes c s s' ∧ s'.left = 0 := by
    intro k
    induction k using Nat.strongRecOn with
    | _ k ih =>
      intro s h hk
      by_cases hl : s.left = 0
      · exact ⟨s, .refl, hl⟩
      · obtain ⟨s1, h1, h2⟩ := left_finishes hok hw s h hl
        obtain ⟨s2, h3, h4⟩ := ih s1.left (by omega) s1 (h.goes h1) rfl
        exact ⟨s2, h1.trans h3, h4⟩
  obtain ⟨s1, h1, h2⟩ := key _ s h rfl
  have hr := h.goes h1
  have inv := procInv_reach (freshFs_after c.pipe.cfg de hit) hr hok
  unfold Proc.left at h2
  have ht : s1.todo = [] := List.eq_nil_of_length_eq_zero (by omega)
  have hq : s1.queue = [] := List.eq_nil_of_length_eq_zero (by omega)
  have hcl : callsLeft s1.sys.cl = 0 := by omega
  have hdone : s1.hands.countP Hand.done = 0 := by omega
  obtain ⟨progs, base, acc, hs⟩ := inv.sys
  obtain ⟨hp, hln, hlink, hpcs⟩ := fs_pool hok.handles hs.reach
  have hall : ∀ x ∈ s1.sys.cl, x = ⟨[], .out⟩ := by
    intro x hx
    have e := callsLeft_zero hcl x hx
    obtain ⟨i, hi⟩ := List.getElem?_of_mem hx
    obtain ⟨pc, hpc⟩ := hpcs i _ hi
    have hk := hlink i pc _ hpc hi
    obtain ⟨todo, work⟩ := x
    have e : todo = [] := e
    subst e
    cases pc with
    | idle => have hk : work = .out := hk; rw [hk]
    | unlocking b => have hk : work = .out := hk; rw [hk]
    | waiting k a => obtain ⟨_, _, e⟩ := hk; cases e
    | holding k a => obtain ⟨_, _, _, e, _⟩ := hk; cases e
  have hfree : ∀ a ∈ s1.hands, a = .free := by
    intro a ha
    obtain ⟨i, hi⟩ := List.getElem?_of_mem ha
    cases a with
    | free => rfl
    | wrote => exact absurd rfl (List.countP_eq_zero.mp hdone _ ha)
    | busy m v =>
      obtain ⟨w, hx⟩ := inv.hand i _ hi
      have := hall _ (List.mem_of_getElem? hx)
      cases this
  have hw : ∀ {a b : Proc}, Proc.Goes c a b → b.w = a.w := by
    intro a b hg
    induction hg with
    | refl => rfl
    | step hs _ ih =>
      rw [ih]
      generalize hl : (none : Option POp) = l at hs
      cases hs <;> first | rfl | cases hl
  cases hd : s1.dumping with
  | false => exact ⟨s1, h1, hd, ht, hq, hall, hfree, hw h1⟩
  | true =>
    have hwg : s1.wg = 0 := by
      rw [inv.wg, hq, List.length_nil, Nat.zero_add]
      rw [List.countP_eq_zero]
      intro a ha
      rw [hfree a ha]
      decide
    exact ⟨_, h1.trans (.step (.wait hd ht hwg) .refl), rfl, ht, hq, hall, hfree, (show s1.w = s.w from hw h1)⟩

end

end Rothko
