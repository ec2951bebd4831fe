/-
C59: concurrent calls on a metric have the effect of a serial execution.
-/
import Verif.Model.Serial
import Verif.Props.LockPool

namespace Rothko

variable {Op Res σ L : Type}

/-! ## Specification -/

/-- `Serial f env s evs t`: starting from `s`, carrying out the calls in `evs` one after the other leads to `t`, each call (made by goroutine `i`) with the given result. `none` is a change by `env`. -/
inductive Serial (f : Op → σ → Res × σ) (env : σ → σ) (s : σ) : List (Option (Nat × Op × Res)) → σ → Prop
  | nil : Serial f env s [] s
  | op {evs : List (Option (Nat × Op × Res))} {t u : σ} (i : Nat) (o : Op) (r : Res) : Serial f env s evs t → f o t = (r, u) → Serial f env s (evs ++ [some (i, o, r)]) u
  | env {evs : List (Option (Nat × Op × Res))} {t : σ} : Serial f env s evs t → Serial f env s (evs ++ [none]) (env t)

/-- The states of a call that is carried out alone from `s`. -/
inductive Machine.Runs (m : Machine Op Res σ L) (o : Op) (s : σ) : L → σ → Prop
  | first : Runs m o s (m.first o s).1 (m.first o s).2
  | step {l l' : L} {t t' : σ} : Runs m o s l t → m.step l t = some (l', t') → Runs m o s l' t'

/-- Carried out alone, the steps of a call amount to `f`. -/
def Machine.Implements (m : Machine Op Res σ L) (f : Op → σ → Res × σ) : Prop :=
  ∀ o s l t, m.Runs o s l t → m.step l t = none → f o s = (m.result l, t)

/-- After its first step a call does not notice `env`. -/
def Machine.Settled (m : Machine Op Res σ L) (env : σ → σ) : Prop :=
  ∀ l s, m.step l (env s) = (m.step l s).map (fun x => (x.1, env x.2))

/-- The finished calls on a metric, in the order in which they finished. -/
def SSys.finished (s : SSys Op Res σ L) (k : Bytes) : List (Nat × Op × Res) := (s.log.filter (fun e => e.2.1 = k)).map (fun e => (e.1, e.2.2.1, e.2.2.2))

/-- Nobody is at work on the metric. -/
def SSys.quiet (s : SSys Op Res σ L) (k : Bytes) : Prop := ∀ (i : Nat) (o : Op) (rest : List (Bytes × Op)) (l : L), s.cl[i]? ≠ some ⟨(k, o) :: rest, .busy l⟩

/-! ## Proofs -/

def iterN (env : σ → σ) : Nat → σ → σ
  | 0, s => s
  | n + 1, s => env (iterN env n s)

theorem Machine.Settled.iter {m : Machine Op Res σ L} {env : σ → σ} (h : m.Settled env) (n : Nat) (l : L) (s : σ) :
    m.step l (iterN env n s) = (m.step l s).map (fun x => (x.1, iterN env n x.2)) := by
  induction n with
  | zero => show m.step l s = _; cases m.step l s <;> rfl
  | succ n ih =>
    show m.step l (env (iterN env n s)) = _
    rw [h, ih]
    cases m.step l s <;> rfl

theorem Serial.envs {f : Op → σ → Res × σ} {env : σ → σ} {s t : σ} {evs : List (Option (Nat × Op × Res))} (h : Serial f env s evs t) (n : Nat) :
    Serial f env s (evs ++ List.replicate n none) (iterN env n t) := by
  induction n with
  | zero => rw [List.replicate_zero, List.append_nil]; exact h
  | succ n ih =>
    rw [List.replicate_succ', ← List.append_assoc]
    exact .env ih

/-- How the place of a goroutine in the lock pool and its work go together. -/
def linkOk : LPc → Client Op L → Prop
  | .idle, c => c.work = .out
  | .waiting k _, c => ∃ o rest, c = ⟨(k, o) :: rest, .out⟩
  | .holding k _, c => ∃ o rest w, c = ⟨(k, o) :: rest, w⟩ ∧ w ≠ .out
  | .unlocking _, c => c.work = .out

structure SInv (m : Machine Op Res σ L) (f : Op → σ → Res × σ) (env : σ → σ) (progs : List (List (Bytes × Op))) (st : Bytes → σ) (s : SSys Op Res σ L) : Prop where
  pool : LPool.Reach progs.length s.pool
  len : s.cl.length = progs.length
  link : ∀ (i : Nat) (pc : LPc) (c : Client Op L), s.pool.pcs[i]? = some pc → s.cl[i]? = some c → linkOk pc c
  order : ∀ (i : Nat) (p : List (Bytes × Op)) (c : Client Op L), progs[i]? = some p → s.cl[i]? = some c → (s.log.filter (fun e => e.1 = i)).map (fun e => (e.2.1, e.2.2.1)) ++ c.todo = p
  serial : ∀ k, ∃ evs t, Serial f env (st k) evs t ∧ evs.filterMap id = s.finished k ∧
    ((s.quiet k ∧ s.st k = t) ∨
      ∃ (i : Nat) (o : Op) (rest : List (Bytes × Op)) (l : L) (u : σ) (n : Nat), s.cl[i]? = some ⟨(k, o) :: rest, .busy l⟩ ∧ m.Runs o t l u ∧ s.st k = iterN env n u)

section
variable {m : Machine Op Res σ L} {f : Op → σ → Res × σ} {env : σ → σ} {progs : List (List (Bytes × Op))} {st : Bytes → σ} {s : SSys Op Res σ L}

theorem LPool.Reach.pcs_length {n : Nat} {p : LPool} (h : LPool.Reach n p) : p.pcs.length = n := by
  induction h with
  | init => simp [LPool.init]
  | @step p p' i _ st ih =>
    have lf : ∀ k, (p.lockFirst k).2.pcs = p.pcs := by
      intro k; unfold LPool.lockFirst; split <;> rfl
    have uf : ∀ k a q, p.unlockFirst k = some (a, q) → q.pcs = p.pcs := by
      intro k a q h
      unfold LPool.unlockFirst at h
      split at h
      · cases h
      · simp only [Option.some.injEq, Prod.mk.injEq] at h
        rw [← h.2]
        split <;> rfl
    cases st with
    | call k _ => simp only [LPool.setPc, List.length_set, lf]; exact ih
    | enter k a _ _ => simp only [LPool.setPc, List.length_set, LPool.setHeap]; exact ih
    | leave k a a' q _ hq => simp only [LPool.setPc, List.length_set, uf k a' q hq]; exact ih
    | panic => exact ih
    | done a _ _ => simp only [LPool.setPc, List.length_set, LPool.setHeap]; exact ih
    | fatal => exact ih

theorem lockFirst_pcs (p : LPool) (k : Bytes) : (p.lockFirst k).2.pcs = p.pcs := by
  unfold LPool.lockFirst; split <;> rfl

theorem unlockFirst_pcs {p : LPool} {k : Bytes} {a : Nat} {q : LPool} (h : p.unlockFirst k = some (a, q)) : q.pcs = p.pcs := by
  unfold LPool.unlockFirst at h
  split at h
  · cases h
  · simp only [Option.some.injEq, Prod.mk.injEq] at h
    rw [← h.2]
    split <;> rfl

theorem client_set_cases {l : List (Client Op L)} {i j : Nat} {b x : Client Op L} (hx : (l.set i b)[j]? = some x) : (j = i ∧ x = b) ∨ (j ≠ i ∧ l[j]? = some x) := by
  by_cases hj : i = j
  · subst hj
    rw [List.getElem?_set] at hx
    simp only [if_true] at hx
    split at hx
    · exact Or.inl ⟨rfl, (Option.some.inj hx).symm⟩
    · cases hx
  · rw [List.getElem?_set_ne hj] at hx
    exact Or.inr ⟨fun e => hj e.symm, hx⟩

theorem pcs_set_cases {l : List LPc} {i j : Nat} {b x : LPc} (hx : (l.set i b)[j]? = some x) : (j = i ∧ x = b) ∨ (j ≠ i ∧ l[j]? = some x) := by
  by_cases hj : i = j
  · subst hj
    rw [List.getElem?_set] at hx
    simp only [if_true] at hx
    split at hx
    · exact Or.inl ⟨rfl, (Option.some.inj hx).symm⟩
    · cases hx
  · rw [List.getElem?_set_ne hj] at hx
    exact Or.inr ⟨fun e => hj e.symm, hx⟩

theorem SInv.pc_of (h : SInv m f env progs st s) {i : Nat} {c : Client Op L} (hc : s.cl[i]? = some c) : ∃ pc, s.pool.pcs[i]? = some pc := by
  have hl : i < s.cl.length := (List.getElem?_eq_some_iff.mp hc).1
  rw [h.len, ← h.pool.pcs_length] at hl
  exact ⟨_, List.getElem?_eq_getElem hl⟩

theorem SInv.holds (h : SInv m f env progs st s) {i : Nat} {k : Bytes} {o : Op} {rest : List (Bytes × Op)} {w : Work L} (hw : w ≠ .out) (hc : s.cl[i]? = some ⟨(k, o) :: rest, w⟩) :
    ∃ a, s.pool.pcs[i]? = some (.holding k a) := by
  obtain ⟨pc, hp⟩ := h.pc_of hc
  have := h.link i pc _ hp hc
  cases pc with
  | idle => exact absurd this hw
  | waiting k' a =>
    obtain ⟨o', r', e⟩ := this
    injection e with _ e
    exact absurd e hw
  | holding k' a =>
    obtain ⟨o', r', w', e, _⟩ := this
    injection e with e _
    injection e with e _
    injection e with e _
    exact ⟨a, by rw [hp, e]⟩
  | unlocking a => exact absurd this hw

theorem SInv.alone (h : SInv m f env progs st s) {i j : Nat} {k : Bytes} {o o' : Op} {rest rest' : List (Bytes × Op)} {w w' : Work L} (hw : w ≠ .out) (hw' : w' ≠ .out)
    (hc : s.cl[i]? = some ⟨(k, o) :: rest, w⟩) (hc' : s.cl[j]? = some ⟨(k, o') :: rest', w'⟩) : i = j := by
  obtain ⟨a, ha⟩ := h.holds hw hc
  obtain ⟨b, hb⟩ := h.holds hw' hc'
  exact C30_exclusive h.pool i j k a b ha hb

theorem SInv.step (hm : m.Implements f) (he : m.Settled env) {s' : SSys Op Res σ L} (h : SInv m f env progs st s) (hs : s.Step m env s') : SInv m f env progs st s' := by
  cases hs with
  | env k =>
    refine ⟨h.pool, h.len, h.link, h.order, fun k' => ?_⟩
    obtain ⟨evs, t, h1, h2, h3⟩ := h.serial k'
    by_cases hk : k' = k
    · subst hk
      rcases h3 with ⟨q, e⟩ | ⟨i, o, rest, l, u, n, hc, hr, e⟩
      · refine ⟨evs ++ [none], env t, .env h1, ?_, Or.inl ⟨q, ?_⟩⟩
        · rw [List.filterMap_append, h2]; simp; rfl
        · simp only [SSys.setSt, if_true]; rw [e]
      · refine ⟨evs, t, h1, h2, Or.inr ⟨i, o, rest, l, u, n + 1, hc, hr, ?_⟩⟩
        simp only [SSys.setSt, if_true]; rw [e]; rfl
    · refine ⟨evs, t, h1, h2, ?_⟩
      simp only [SSys.setSt, if_neg hk]
      exact h3
  | call i k o rest hp hc =>
    refine ⟨.step h.pool (.call k hp), h.len, ?_, h.order, h.serial⟩
    intro j pc c hj hcj
    simp only [LPool.setPc, lockFirst_pcs] at hj
    rcases pcs_set_cases hj with ⟨rfl, rfl⟩ | ⟨_, hj⟩
    · have hcj : s.cl[j]? = some c := hcj
      rw [hc] at hcj
      injection hcj with e
      exact ⟨o, rest, e.symm⟩
    · exact h.link j pc c hj hcj
  | enter i k o rest a hp hh hc =>
    refine ⟨.step h.pool (.enter k a hp hh), by simpa using h.len, ?_, ?_, ?_⟩
    · intro j pc c hj hcj
      simp only [LPool.setPc, LPool.setHeap] at hj
      rcases pcs_set_cases hj with ⟨rfl, rfl⟩ | ⟨hne, hj⟩
      · rcases client_set_cases hcj with ⟨_, rfl⟩ | ⟨hx, _⟩
        · exact ⟨o, rest, .begin, rfl, fun x => (by cases x)⟩
        · exact absurd rfl hx
      · rcases client_set_cases hcj with ⟨rfl, rfl⟩ | ⟨_, hcj⟩
        · exact absurd rfl hne
        · exact h.link j pc c hj hcj
    · intro j p c hj hcj
      rcases client_set_cases hcj with ⟨rfl, rfl⟩ | ⟨_, hcj⟩
      · exact (h.order j p _ hj hc :)
      · exact h.order j p c hj hcj
    · intro k'
      obtain ⟨evs, t, h1, h2, h3⟩ := h.serial k'
      refine ⟨evs, t, h1, h2, ?_⟩
      rcases h3 with ⟨q, e⟩ | ⟨j, o', rest', l, u, n, hcj, hr, e⟩
      · left
        refine ⟨?_, e⟩
        intro j o' rest' l hcj
        rcases client_set_cases hcj with ⟨rfl, hx⟩ | ⟨_, hcj⟩
        · injection hx with _ hx; cases hx
        · exact q j o' rest' l hcj
      · right
        refine ⟨j, o', rest', l, u, n, ?_, hr, e⟩
        have hne : i ≠ j := by
          intro x
          subst x
          rw [hc] at hcj
          injection hcj with hx
          injection hx with _ hx
          cases hx
        show (s.cl.set i _)[j]? = _
        rw [List.getElem?_set_ne hne]
        exact hcj
  | first i k o rest hc =>
    refine ⟨h.pool, by simpa using h.len, ?_, ?_, ?_⟩
    · intro j pc c hj hcj
      rcases client_set_cases hcj with ⟨rfl, rfl⟩ | ⟨_, hcj⟩
      · obtain ⟨a, ha⟩ := h.holds (fun x => (by cases x)) hc
        have hj : s.pool.pcs[j]? = some pc := hj
        rw [ha] at hj
        injection hj with e
        subst e
        exact ⟨o, rest, _, rfl, fun x => (by cases x)⟩
      · exact h.link j pc c hj hcj
    · intro j p c hj hcj
      rcases client_set_cases hcj with ⟨rfl, rfl⟩ | ⟨_, hcj⟩
      · exact (h.order j p _ hj hc :)
      · exact h.order j p c hj hcj
    · intro k'
      obtain ⟨evs, t, h1, h2, h3⟩ := h.serial k'
      refine ⟨evs, t, h1, h2, ?_⟩
      by_cases hk : k' = k
      · subst hk
        have e : s.st k' = t := by
          rcases h3 with ⟨_, e⟩ | ⟨j, o', rest', l, u, n, hcj, hr, e⟩
          · exact e
          · exfalso
            have := h.alone (fun x => (by cases x)) (fun x => (by cases x)) hc hcj
            subst this
            rw [hc] at hcj
            injection hcj with hx
            injection hx with _ hx
            cases hx
        right
        have hi : i < s.cl.length := (List.getElem?_eq_some_iff.mp hc).1
        refine ⟨i, o, rest, _, _, 0, List.getElem?_set_self hi, by rw [e]; exact .first, ?_⟩
        simp only [SSys.setSt, if_true]
        rw [e]
        rfl
      · have hne : ∀ j o' rest' (l : L), s.cl[j]? = some ⟨(k', o') :: rest', .busy l⟩ → i ≠ j := by
          intro j o' rest' l hcj x
          subst x
          rw [hc] at hcj
          injection hcj with hx
          injection hx with _ hx
          cases hx
        rcases h3 with ⟨q, e⟩ | ⟨j, o', rest', l, u, n, hcj, hr, e⟩
        · left
          refine ⟨?_, by simp only [SSys.setSt, if_neg hk]; exact e⟩
          intro j o' rest' l hcj
          rcases client_set_cases hcj with ⟨rfl, hx⟩ | ⟨_, hcj⟩
          · injection hx with hx _
            injection hx with hx _
            injection hx with hx _
            exact hk hx
          · exact q j o' rest' l hcj
        · right
          refine ⟨j, o', rest', l, u, n, ?_, hr, by simp only [SSys.setSt, if_neg hk]; exact e⟩
          show (s.cl.set i _)[j]? = _
          rw [List.getElem?_set_ne (hne j o' rest' l hcj)]
          exact hcj
  | work i k o rest l l' x hc hx =>
    refine ⟨h.pool, by simpa using h.len, ?_, ?_, ?_⟩
    · intro j pc c hj hcj
      rcases client_set_cases hcj with ⟨rfl, rfl⟩ | ⟨_, hcj⟩
      · obtain ⟨a, ha⟩ := h.holds (fun x => (by cases x)) hc
        have hj : s.pool.pcs[j]? = some pc := hj
        rw [ha] at hj
        injection hj with e
        subst e
        exact ⟨o, rest, _, rfl, fun x => (by cases x)⟩
      · exact h.link j pc c hj hcj
    · intro j p c hj hcj
      rcases client_set_cases hcj with ⟨rfl, rfl⟩ | ⟨_, hcj⟩
      · exact (h.order j p _ hj hc :)
      · exact h.order j p c hj hcj
    · intro k'
      obtain ⟨evs, t, h1, h2, h3⟩ := h.serial k'
      refine ⟨evs, t, h1, h2, ?_⟩
      by_cases hk : k' = k
      · subst hk
        right
        have hi : i < s.cl.length := (List.getElem?_eq_some_iff.mp hc).1
        rcases h3 with ⟨q, _⟩ | ⟨j, o', rest', l2, u, n, hcj, hr, e⟩
        · exact absurd hc (q i o rest l)
        · have := h.alone (fun x => (by cases x)) (fun x => (by cases x)) hc hcj
          subst this
          rw [hc] at hcj
          injection hcj with hy
          injection hy with hy1 hy2
          injection hy1 with hy1 hy3
          injection hy1 with _ hy1
          injection hy2 with hy2
          subst hy1
          subst hy2
          rw [e, he.iter] at hx
          cases hu : m.step l u with
          | none => rw [hu] at hx; cases hx
          | some y =>
            rw [hu] at hx
            injection hx with hx
            injection hx with hx1 hx2
            subst hx1
            refine ⟨i, o, rest, y.1, y.2, n, List.getElem?_set_self hi, .step hr (by rw [hu]), ?_⟩
            simp only [SSys.setSt, if_true]
            exact hx2.symm
      · rcases h3 with ⟨q, e⟩ | ⟨j, o', rest', l2, u, n, hcj, hr, e⟩
        · left
          refine ⟨?_, by simp only [SSys.setSt, if_neg hk]; exact e⟩
          intro j o' rest' l2 hcj
          rcases client_set_cases hcj with ⟨rfl, hy⟩ | ⟨_, hcj⟩
          · injection hy with hy _
            injection hy with hy _
            injection hy with hy _
            exact hk hy
          · exact q j o' rest' l2 hcj
        · right
          refine ⟨j, o', rest', l2, u, n, ?_, hr, by simp only [SSys.setSt, if_neg hk]; exact e⟩
          have hne : i ≠ j := by
            intro y
            subst y
            rw [hc] at hcj
            injection hcj with hy
            injection hy with hy _
            injection hy with hy _
            injection hy with hy _
            exact hk hy.symm
          show (s.cl.set i _)[j]? = _
          rw [List.getElem?_set_ne hne]
          exact hcj
  | finish i k o rest l a a' p hc hx hp hu =>
    have hpcs := unlockFirst_pcs hu
    refine ⟨.step h.pool (.leave k a a' p hp hu), by simpa using h.len, ?_, ?_, ?_⟩
    · intro j pc c hj hcj
      simp only [LPool.setPc, hpcs] at hj
      rcases pcs_set_cases hj with ⟨rfl, rfl⟩ | ⟨hne, hj⟩
      · rcases client_set_cases hcj with ⟨_, rfl⟩ | ⟨hy, _⟩
        · rfl
        · exact absurd rfl hy
      · rcases client_set_cases hcj with ⟨rfl, rfl⟩ | ⟨_, hcj⟩
        · exact absurd rfl hne
        · exact h.link j pc c hj hcj
    · intro j q c hj hcj
      show ((s.log ++ [(i, k, o, m.result l)]).filter _).map _ ++ _ = _
      rw [List.filter_append, List.map_append]
      rcases client_set_cases hcj with ⟨rfl, rfl⟩ | ⟨hne, hcj⟩
      · have := h.order j q _ hj hc
        rw [← this]
        simp
      · have := h.order j q c hj hcj
        rw [← this]
        have e : ([(i, k, o, m.result l)] : List (Nat × Bytes × Op × Res)).filter (fun e => decide (e.1 = j)) = [] := by
          simp
          exact fun x => hne x.symm
        rw [e]
        simp
    · intro k'
      obtain ⟨evs, t, h1, h2, h3⟩ := h.serial k'
      have hfin : ∀ s' : SSys Op Res σ L, s'.log = s.log ++ [(i, k, o, m.result l)] → s'.finished k' = s.finished k' ++ (if k = k' then [(i, o, m.result l)] else []) := by
        intro s' e
        unfold SSys.finished
        rw [e, List.filter_append, List.map_append]
        congr 1
        by_cases hk : k = k'
        · simp [hk]
        · simp [hk]
      by_cases hk : k' = k
      · subst hk
        rcases h3 with ⟨q, _⟩ | ⟨j, o', rest', l2, u, n, hcj, hr, e⟩
        · exact absurd hc (q i o rest l)
        · have := h.alone (fun x => (by cases x)) (fun x => (by cases x)) hc hcj
          subst this
          have hcj0 := hcj
          rw [hc] at hcj
          injection hcj with hy
          injection hy with hy1 hy2
          injection hy1 with hy1 hy3
          injection hy1 with _ hy1
          injection hy2 with hy2
          subst hy1
          subst hy2
          rw [e, he.iter] at hx
          have hu' : m.step l u = none := Option.map_eq_none_iff.mp hx
          have hf := hm o t l u hr hu'
          refine ⟨evs ++ [some (i, o, m.result l)] ++ List.replicate n none, iterN env n u, (Serial.op i o _ h1 hf).envs n, ?_, Or.inl ⟨?_, e⟩⟩
          · rw [hfin _ rfl, if_pos rfl, List.filterMap_append, List.filterMap_append, h2]
            have : (List.replicate n (none : Option (Nat × Op × Res))).filterMap id = [] := by
              rw [List.filterMap_eq_nil_iff]
              intro y hy
              rw [List.eq_of_mem_replicate hy]
              rfl
            rw [this, List.append_nil]
            rfl
          · intro j o' rest'' l2 hcj
            rcases client_set_cases hcj with ⟨rfl, hy⟩ | ⟨hne, hcj⟩
            · injection hy with _ hy; cases hy
            · exact hne (h.alone (fun x => (by cases x)) (fun x => (by cases x)) hcj hc)
      · refine ⟨evs, t, h1, ?_, ?_⟩
        · rw [hfin _ rfl, if_neg (fun x => hk x.symm), List.append_nil]
          exact h2
        · rcases h3 with ⟨q, e⟩ | ⟨j, o', rest', l2, u, n, hcj, hr, e⟩
          · left
            refine ⟨?_, e⟩
            intro j o' rest' l2 hcj
            rcases client_set_cases hcj with ⟨rfl, hy⟩ | ⟨_, hcj⟩
            · injection hy with _ hy; cases hy
            · exact q j o' rest' l2 hcj
          · right
            refine ⟨j, o', rest', l2, u, n, ?_, hr, e⟩
            have hne : i ≠ j := by
              intro y
              subst y
              rw [hc] at hcj
              injection hcj with hy
              injection hy with hy _
              injection hy with hy _
              injection hy with hy _
              exact hk hy.symm
            show (s.cl.set i _)[j]? = _
            rw [List.getElem?_set_ne hne]
            exact hcj
  | done i a hp hh =>
    refine ⟨.step h.pool (.done a hp hh), h.len, ?_, h.order, h.serial⟩
    intro j pc c hj hcj
    simp only [LPool.setPc, LPool.setHeap] at hj
    rcases pcs_set_cases hj with ⟨rfl, rfl⟩ | ⟨_, hj⟩
    · exact (h.link j _ c hp hcj :)
    · exact h.link j pc c hj hcj

theorem SSys.Reach.inv (hm : m.Implements f) (he : m.Settled env) (h : SSys.Reach m env progs st s) : SInv m f env progs st s := by
  induction h with
  | init =>
    refine ⟨.init, by simp [SSys.init], ?_, ?_, ?_⟩
    · intro i pc c hp hc
      simp only [SSys.init, LPool.init] at hp
      simp only [SSys.init, List.getElem?_map] at hc
      rw [List.getElem?_replicate] at hp
      split at hp
      · injection hp with hp
        subst hp
        cases hq : progs[i]? with
        | none => rw [hq] at hc; cases hc
        | some p => rw [hq] at hc; injection hc with hc; rw [← hc]; rfl
      · cases hp
    · intro i p c hp hc
      simp only [SSys.init, List.getElem?_map, hp] at hc
      injection hc with hc
      rw [← hc]
      rfl
    · intro k
      refine ⟨[], st k, .nil, rfl, Or.inl ⟨?_, rfl⟩⟩
      intro i o rest l hc
      simp only [SSys.init, List.getElem?_map] at hc
      cases hq : progs[i]? with
      | none => rw [hq] at hc; cases hc
      | some p =>
        rw [hq] at hc
        injection hc with hc
        injection hc with _ hc
        cases hc
  | step _ st ih => exact ih.step hm he st

/-- **C59** (serial). Under any interleaving, the state of a metric on which nobody is at work is the result of carrying out its finished calls one after the other, in the order in which they finished
(with `env` in between), and each of them returned what it returns in that serial execution. What was done to other metrics does not matter. -/
theorem C59_serial (hm : m.Implements f) (he : m.Settled env) (h : SSys.Reach m env progs st s) (k : Bytes) (hq : s.quiet k) :
    ∃ evs, Serial f env (st k) evs (s.st k) ∧ evs.filterMap id = s.finished k := by
  obtain ⟨evs, t, h1, h2, h3⟩ := (h.inv hm he).serial k
  rcases h3 with ⟨_, e⟩ | ⟨i, o, rest, l, u, n, hc, _⟩
  · exact ⟨evs, by rw [e]; exact h1, h2⟩
  · exact absurd hc (hq i o rest l)

/-- **C59** (program order). The finished calls of a goroutine are the first ones of its program, in order; so are therefore its calls on one metric. -/
theorem C59_order (hm : m.Implements f) (he : m.Settled env) (h : SSys.Reach m env progs st s) (i : Nat) (p : List (Bytes × Op)) (hp : progs[i]? = some p) :
    ∃ rest, (s.log.filter (fun e => e.1 = i)).map (fun e => (e.2.1, e.2.2.1)) ++ rest = p := by
  have v := h.inv hm he
  have hi : i < s.cl.length := by rw [v.len]; exact (List.getElem?_eq_some_iff.mp hp).1
  exact ⟨_, v.order i p _ hp (List.getElem?_eq_getElem hi)⟩

/-- **C59** (exclusive). Two goroutines are never at work on the same metric. -/
theorem C59_alone (hm : m.Implements f) (he : m.Settled env) (h : SSys.Reach m env progs st s) (i j : Nat) (k : Bytes) (o o' : Op) (rest rest' : List (Bytes × Op)) (l l' : L)
    (hi : s.cl[i]? = some ⟨(k, o) :: rest, .busy l⟩) (hj : s.cl[j]? = some ⟨(k, o') :: rest', .busy l'⟩) : i = j :=
  (h.inv hm he).alone (fun x => (by cases x)) (fun x => (by cases x)) hi hj

end

end Rothko
