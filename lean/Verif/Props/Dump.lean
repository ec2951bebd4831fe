/-
C57: Dump queues every captured record once, waits for every answer and counts correctly.
-/
import Verif.Model.Dump
import Verif.Lemmas.QueueRun
import Verif.Props.Queue

namespace Rothko

theorem countP_set_of {α : Type} {p : α → Bool} {l : List α} {i : Nat} {a : α} (b : α) (h : l[i]? = some a) :
    (l.set i b).countP p + (if p a then 1 else 0) = l.countP p + (if p b then 1 else 0) := by
  induction l generalizing i with
  | nil => simp at h
  | cons x l ih =>
    cases i with
    | zero =>
      simp at h
      subst h
      rw [List.set_cons_zero, List.countP_cons, List.countP_cons]
      omega
    | succ i =>
      rw [List.getElem?_cons_succ] at h
      rw [List.set_cons_succ, List.countP_cons, List.countP_cons]
      have := ih h
      omega

/-! ## Specification: what became of a call of Queue -/

def DAns.isWaiting : DAns → Bool
  | .waiting => true
  | _ => false

def DAns.isWritten : DAns → Bool
  | .reported true _ => true
  | _ => false

/-- The record was not written: the callback said so, or Queue refused it. -/
def DAns.isSkipped : DAns → Bool
  | .reported false _ => true
  | .refused => true
  | _ => false

/-- There was an error: given to the callback, or returned by Queue. -/
def DAns.isError : DAns → Bool
  | .reported _ true => true
  | .refused => true
  | _ => false

/-- The calls of Queue with answers of a kind. -/
def DSys.count (s : DSys) (k : DAns → Bool) : Nat := s.calls.countP (fun r => k r.ans)

/-! ## The invariant -/

structure DInv (caps : List DRecd) (s : DSys) : Prop where
  sent : ∃ lost, s.calls.map DReq.arg ++ s.todo ++ lost = caps ∧ (s.cancelled = false → lost = [])
  wg : s.wg = s.count DAns.isWaiting
  writes : s.writes = s.count DAns.isWritten
  skips : s.skips = s.count DAns.isSkipped
  errors : s.errors = s.count DAns.isError
  good : s.bad = false
  done : (s.pc = .waiting ∨ s.pc = .returned) → s.todo = []
  zero : s.pc = .returned → s.wg = 0
  poolNodup : s.pool.Nodup
  poolOld : ∀ b ∈ s.pool, b < s.nbuf
  buf : ∀ (i : Nat) (r : DReq), s.calls[i]? = some r → r.ans = .waiting → r.buf < s.nbuf ∧ r.buf ∉ s.pool ∧ s.heap r.buf = r.arg.bytes ∧ r.arg.bytes.length ≤ s.cap r.buf
  apart : ∀ (i j : Nat) (r r' : DReq), s.calls[i]? = some r → s.calls[j]? = some r' → r.ans = .waiting → r'.ans = .waiting → r.buf = r'.buf → i = j

theorem DInv.issue {caps : List DRecd} {s : DSys} (h : DInv caps s) {r : DRecd} {rest : List DRecd} {b : Nat} (hp : s.pc = .capturing) (ht : s.todo = r :: rest)
    (hb : b < s.nbuf) (hn : b ∉ s.pool) (hc : r.bytes.length ≤ s.cap b) (hf : ∀ (i : Nat) (q : DReq), s.calls[i]? = some q → q.ans = .waiting → q.buf ≠ b) : DInv caps (s.issue r rest b) := by
  have cnt : ∀ k, (s.issue r rest b).count k = s.count k + (if k .waiting then 1 else 0) := by
    intro k
    simp [DSys.count, DSys.issue, List.countP_append, List.countP_cons]
  have get : ∀ (i : Nat) (q : DReq), (s.calls ++ [{ arg := r, buf := b, ans := .waiting }])[i]? = some q → s.calls[i]? = some q ∨ (i = s.calls.length ∧ q = { arg := r, buf := b, ans := .waiting }) := by
    intro i q hq
    by_cases hi : i < s.calls.length
    · rw [List.getElem?_append_left hi] at hq
      exact Or.inl hq
    · rw [List.getElem?_append_right (by omega)] at hq
      obtain ⟨j, hj⟩ : ∃ j, i - s.calls.length = j := ⟨_, rfl⟩
      rw [hj] at hq
      cases j with
      | zero => simp at hq; exact Or.inr ⟨by omega, hq.symm⟩
      | succ j => simp at hq
  refine ⟨?_, ?_, ?_, ?_, ?_, h.good, ?_, ?_, h.poolNodup, h.poolOld, ?_, ?_⟩
  · obtain ⟨l, e, c⟩ := h.sent
    refine ⟨l, ?_, c⟩
    rw [← e, ht]
    simp [DSys.issue]
  · rw [cnt]; simp [DSys.issue, h.wg, DAns.isWaiting]
  · rw [cnt]; simp [DSys.issue, h.writes, DAns.isWritten]
  · rw [cnt]; simp [DSys.issue, h.skips, DAns.isSkipped]
  · rw [cnt]; simp [DSys.issue, h.errors, DAns.isError]
  · simp [DSys.issue]
  · simp [DSys.issue]
  · intro i q hq hw
    rcases get i q hq with hq | ⟨_, rfl⟩
    · obtain ⟨a1, a2, a3, a4⟩ := h.buf i q hq hw
      refine ⟨a1, a2, ?_, a4⟩
      simp only [DSys.issue]
      rw [if_neg (hf i q hq hw)]
      exact a3
    · exact ⟨hb, hn, by simp [DSys.issue], hc⟩
  · intro i j q q' hq hq' hw hw' e
    rcases get i q hq with hq | ⟨hi, rfl⟩ <;> rcases get j q' hq' with hq' | ⟨hj, rfl⟩
    · exact h.apart i j q q' hq hq' hw hw' e
    · exact absurd e (hf i q hq hw)
    · exact absurd e.symm (hf j q' hq' hw')
    · omega

theorem DInv.complete {caps : List DRecd} {s : DSys} (h : DInv caps s) {i : Nat} {r : DReq} {a : DAns} {written err : Bool} (hr : s.calls[i]? = some r) (hw : r.ans = .waiting)
    (ha : a = .reported written err ∨ (a = .refused ∧ written = false ∧ err = true)) : DInv caps (s.complete i r a written err) := by
  have hne : a ≠ .waiting := by rcases ha with rfl | ⟨rfl, _⟩ <;> (intro x; cases x)
  have cnt : ∀ k, (s.complete i r a written err).count k + (if k .waiting then 1 else 0) = s.count k + (if k a then 1 else 0) := by
    intro k
    have := countP_set_of (p := fun r => k r.ans) { r with ans := a } hr
    simp only [hw] at this
    exact this
  have hpos : 0 < s.wg := by
    rw [h.wg]
    exact List.countP_pos_iff.mpr ⟨r, List.mem_of_getElem? hr, by simp [hw, DAns.isWaiting]⟩
  have get : ∀ (j : Nat) (q : DReq), (s.complete i r a written err).calls[j]? = some q → q.ans = .waiting → j ≠ i ∧ s.calls[j]? = some q := by
    intro j q hq hqw
    rcases getElem?_set_cases hr hq with ⟨rfl, rfl⟩ | h
    · exact absurd hqw hne
    · exact h
  obtain ⟨b1, b2, b3, b4⟩ := h.buf i r hr hw
  refine ⟨?_, ?_, ?_, ?_, ?_, ?_, h.done, ?_, ?_, ?_, ?_, ?_⟩
  · obtain ⟨l, e, c⟩ := h.sent
    refine ⟨l, ?_, c⟩
    rw [← e]
    congr 2
    refine List.ext_getElem? fun j => ?_
    simp only [DSys.complete, List.getElem?_map, List.getElem?_set]
    split
    · rename_i e
      subst e
      split
      · rw [hr]; rfl
      · rename_i hlt
        rw [List.getElem?_eq_none (by omega)]
    · rfl
  · have := cnt DAns.isWaiting
    rw [← h.wg] at this
    have e : (if DAns.isWaiting a then 1 else 0) = 0 := by rcases ha with rfl | ⟨rfl, _⟩ <;> rfl
    rw [e] at this
    simp [DAns.isWaiting] at this
    show s.wg - 1 = _
    omega
  · have := cnt DAns.isWritten
    rw [← h.writes] at this
    show (if written then s.writes + 1 else s.writes) = _
    rcases ha with rfl | ⟨rfl, rfl, rfl⟩
    · cases written <;> simp [DAns.isWritten] at this ⊢ <;> omega
    · simp [DAns.isWritten] at this ⊢; omega
  · have := cnt DAns.isSkipped
    rw [← h.skips] at this
    show (if written then s.skips else s.skips + 1) = _
    rcases ha with rfl | ⟨rfl, rfl, rfl⟩
    · cases written <;> simp [DAns.isSkipped] at this ⊢ <;> omega
    · simp [DAns.isSkipped] at this ⊢; omega
  · have := cnt DAns.isError
    rw [← h.errors] at this
    show (if err then s.errors + 1 else s.errors) = _
    rcases ha with rfl | ⟨rfl, rfl, rfl⟩
    · cases written <;> cases err <;> simp [DAns.isError] at this ⊢ <;> omega
    · simp [DAns.isError] at this ⊢; omega
  · show (s.bad || s.wg == 0) = false
    rw [h.good, beq_eq_false_iff_ne.mpr (by omega)]
    rfl
  · intro hp
    have := h.zero hp
    omega
  · exact List.nodup_cons.mpr ⟨b2, h.poolNodup⟩
  · intro b hb
    rcases List.mem_cons.mp hb with rfl | hb
    · exact b1
    · exact h.poolOld b hb
  · intro j q hq hqw
    obtain ⟨hji, hq⟩ := get j q hq hqw
    obtain ⟨a1, a2, a3, a4⟩ := h.buf j q hq hqw
    refine ⟨a1, ?_, a3, a4⟩
    intro hm
    rcases List.mem_cons.mp hm with e | hm
    · exact hji (h.apart j i q r hq hr hqw hw e)
    · exact a2 hm
  · intro j k q q' hq hq' hqw hqw' e
    exact h.apart j k q q' (get j q hq hqw).2 (get k q' hq' hqw').2 hqw hqw' e

theorem DInv.lose {caps : List DRecd} {s : DSys} (h : DInv caps s) (b : Nat) : DInv caps { s with pool := s.pool.erase b } :=
  { sent := h.sent, wg := h.wg, writes := h.writes, skips := h.skips, errors := h.errors, good := h.good, done := h.done, zero := h.zero,
    poolNodup := h.poolNodup.erase b, poolOld := fun x hx => h.poolOld x (List.mem_of_mem_erase hx),
    buf := fun i r hr hw => ⟨(h.buf i r hr hw).1, fun hm => (h.buf i r hr hw).2.1 (List.mem_of_mem_erase hm), (h.buf i r hr hw).2.2⟩, apart := h.apart }

theorem DInv.alloc {caps : List DRecd} {s : DSys} (h : DInv caps s) (c : Nat) : DInv caps { s with cap := fun x => if x = s.nbuf then c else s.cap x, nbuf := s.nbuf + 1 } :=
  { sent := h.sent, wg := h.wg, writes := h.writes, skips := h.skips, errors := h.errors, good := h.good, done := h.done, zero := h.zero,
    poolNodup := h.poolNodup, poolOld := fun x hx => Nat.lt_succ_of_lt (h.poolOld x hx),
    buf := fun i r hr hw => by
      obtain ⟨a, b, c, d⟩ := h.buf i r hr hw
      refine ⟨Nat.lt_succ_of_lt a, b, c, ?_⟩
      show _ ≤ if _ then _ else _
      rw [if_neg (by omega)]
      exact d
    apart := h.apart }

theorem DSys.Reach.inv {caps : List DRecd} {pool : List Nat} {heap : Nat → Bytes} {cap : Nat → Nat} {nbuf : Nat} (hp : pool.Nodup) (ho : ∀ b ∈ pool, b < nbuf) {s : DSys}
    (h : DSys.Reach caps pool heap cap nbuf s) : DInv caps s := by
  induction h with
  | init => exact ⟨⟨[], by simp [DSys.init], fun _ => rfl⟩, rfl, rfl, rfl, rfl, rfl, fun x => (by rcases x with x | x <;> cases x), fun x => (by cases x), hp, ho, by simp [DSys.init], by simp [DSys.init]⟩
  | @step s s' _ st ih =>
    cases st with
    | cancel hc =>
      obtain ⟨l, e, _⟩ := ih.sent
      exact { ih with sent := ⟨l, e, fun x => (by cases x)⟩ }
    | stop r rest hpc ht hc =>
      obtain ⟨l, e, _⟩ := ih.sent
      refine { ih with sent := ⟨s.todo ++ l, by simpa [List.append_assoc] using e, fun x => ?_⟩, done := fun _ => rfl, zero := fun x => (by cases x) }
      have x : s.cancelled = false := x
      rw [hc] at x
      cases x
    | finish hpc ht => exact { ih with done := fun _ => ht, zero := fun x => (by cases x) }
    | reuse r rest b hpc ht hc hb hl =>
      refine (ih.lose b).issue hpc ht (ih.poolOld b hb) (fun hm => ?_) hl (fun i q hq hw e => ?_)
      · exact (List.Nodup.not_mem_erase ih.poolNodup) hm
      · exact (ih.buf i q hq hw).2.1 (e ▸ hb)
    | grow r rest b hpc ht hc hb hl =>
      refine ((ih.lose b).alloc r.bytes.length).issue hpc ht (Nat.lt_succ_self _) (fun hm => ?_) ?_ (fun i q hq hw e => ?_)
      · exact absurd ((ih.lose b).poolOld _ hm) (Nat.lt_irrefl _)
      · show _ ≤ if _ then _ else _
        rw [if_pos rfl]
        exact Nat.le_refl _
      · have := ((ih.lose b).buf i q hq hw).1
        rw [e] at this
        exact absurd this (Nat.lt_irrefl _)
    | fresh r rest c hpc ht hc hl =>
      refine (ih.alloc c).issue hpc ht (Nat.lt_succ_self _) (fun hm => ?_) ?_ (fun i q hq hw e => ?_)
      · exact absurd (ih.poolOld _ hm) (Nat.lt_irrefl _)
      · show _ ≤ if _ then _ else _
        rw [if_pos rfl]
        exact hl
      · have := (ih.buf i q hq hw).1
        rw [e] at this
        exact absurd this (Nat.lt_irrefl _)
    | lose b hb => exact ih.lose b
    | report i r w e hr hw => exact ih.complete hr hw (Or.inl rfl)
    | queued i hpc => exact { ih with done := fun x => (by rcases x with x | x <;> cases x), zero := fun x => (by cases x) }
    | refuse i r hpc hr hw =>
      exact { ih.complete hr hw (Or.inr ⟨rfl, rfl, rfl⟩) with done := fun x => (by rcases x with x | x <;> cases x), zero := fun x => (by cases x) }
    | wait hpc hz => exact { ih with done := fun _ => ih.done (Or.inl hpc), zero := fun _ => hz }

section
variable {caps : List DRecd} {pool : List Nat} {heap : Nat → Bytes} {cap : Nat → Nat} {nbuf : Nat} (hp : pool.Nodup) (ho : ∀ b ∈ pool, b < nbuf) {s : DSys}
include hp ho

/-- **C57** (once). The calls of Queue are made for the captured records, in order and once each; the wait group never panics; and a dump that was not cancelled has queued every record when it returns. -/
theorem C57_once (h : DSys.Reach caps pool heap cap nbuf s) :
    s.bad = false ∧ s.calls.map DReq.arg = caps.take s.calls.length ∧ (s.pc = .returned → s.cancelled = false → s.calls.map DReq.arg = caps) := by
  have i := h.inv hp ho
  obtain ⟨l, e, c⟩ := i.sent
  refine ⟨i.good, ?_, ?_⟩
  · rw [← e, List.append_assoc, List.take_append_of_le_length (by simp), List.take_of_length_le (by simp)]
  · intro hr hc
    rw [i.done (Or.inr hr), c hc] at e
    simpa using e

/-- **C57** (waits). When Dump returns every call of Queue was answered: its callback was invoked or it had returned an error. -/
theorem C57_waits (h : DSys.Reach caps pool heap cap nbuf s) (hr : s.pc = .returned) : ∀ r ∈ s.calls, r.ans ≠ .waiting := by
  intro r hm hw
  have i := h.inv hp ho
  have z := i.zero hr
  rw [i.wg] at z
  have := (List.countP_eq_zero.mp z) r hm
  simp [hw, DAns.isWaiting] at this

/-- **C57** (counts). Writes, skips and errors count the answers, and when Dump returns writes and skips add up to the calls of Queue. -/
theorem C57_counts (h : DSys.Reach caps pool heap cap nbuf s) :
    s.writes = s.count DAns.isWritten ∧ s.skips = s.count DAns.isSkipped ∧ s.errors = s.count DAns.isError ∧ (s.pc = .returned → s.writes + s.skips = s.calls.length) := by
  have i := h.inv hp ho
  refine ⟨i.writes, i.skips, i.errors, fun hr => ?_⟩
  have z := i.zero hr
  rw [i.wg] at z
  rw [i.writes, i.skips]
  have : ∀ l : List DReq, l.countP (fun r => DAns.isWritten r.ans) + l.countP (fun r => DAns.isSkipped r.ans) + l.countP (fun r => DAns.isWaiting r.ans) = l.length := by
    intro l
    induction l with
    | nil => rfl
    | cons r l ih =>
      simp only [List.countP_cons, List.length_cons]
      have k : (if r.ans.isWritten then 1 else 0) + (if r.ans.isSkipped then 1 else 0) + (if r.ans.isWaiting then 1 else 0) = 1 := by
        rcases r with ⟨_, _, (_ | ⟨_ | _, _⟩ | _)⟩ <;> rfl
      omega
  have := this s.calls
  unfold DSys.count at z ⊢
  omega

/-- **C57** (buffers). As long as a call of Queue is not answered its buffer holds the bytes of its record, within its capacity, and is neither in the pool nor used by another unanswered call. -/
theorem C57_buffers (h : DSys.Reach caps pool heap cap nbuf s) (i : Nat) (r : DReq) (hr : s.calls[i]? = some r) (hw : r.ans = .waiting) :
    s.heap r.buf = r.arg.bytes ∧ r.arg.bytes.length ≤ s.cap r.buf ∧ r.buf ∉ s.pool ∧ ∀ (j : Nat) (r' : DReq), s.calls[j]? = some r' → r'.ans = .waiting → j ≠ i → r'.buf ≠ r.buf := by
  have v := h.inv hp ho
  obtain ⟨_, a, b, c⟩ := v.buf i r hr hw
  exact ⟨b, c, a, fun j r' hr' hw' hj e => hj (v.apart j i r' r hr' hr hw' hw e)⟩

/-- **C57** (next dump). The pool is left in a state from which the next dump can start. -/
theorem C57_again (h : DSys.Reach caps pool heap cap nbuf s) : s.pool.Nodup ∧ ∀ b ∈ s.pool, b < s.nbuf :=
  ⟨(h.inv hp ho).poolNodup, (h.inv hp ho).poolOld⟩

/-- **C57** (progress). Dump is never stuck on its own account: until it has returned it can take a step, unless it waits for the answer to a call of Queue. -/
theorem C57_progress (h : DSys.Reach caps pool heap cap nbuf s) (hr : s.pc ≠ .returned) : (∃ r ∈ s.calls, r.ans = .waiting) ∨ ∃ s', s.Step s' ∧ s'.pc ≠ s.pc := by
  have i := h.inv hp ho
  cases e : s.pc with
  | capturing =>
    right
    cases ht : s.todo with
    | nil => exact ⟨_, .finish e ht, by simp⟩
    | cons r rest =>
      cases hc : s.cancelled with
      | true => exact ⟨_, .stop r rest e ht hc, by simp⟩
      | false => exact ⟨_, .fresh r rest r.bytes.length e ht hc (Nat.le_refl _), by simp [DSys.issue]⟩
  | queueing k => exact Or.inr ⟨_, .queued k e, by simp⟩
  | waiting =>
    by_cases hz : s.wg = 0
    · exact Or.inr ⟨_, .wait e hz, by simp⟩
    · left
      rw [i.wg] at hz
      obtain ⟨r, hm, hw⟩ := List.countP_pos_iff.mp (Nat.pos_of_ne_zero hz)
      refine ⟨r, hm, ?_⟩
      cases ha : r.ans with
      | waiting => rfl
      | reported => simp [ha, DAns.isWaiting] at hw
      | refused => simp [ha, DAns.isWaiting] at hw
  | returned => exact absurd e hr

end

/-- How much a dump has still to do. -/
def DSys.left (s : DSys) : Nat :=
  5 * s.todo.length + (match s.pc with | .capturing => 2 | .queueing _ => 3 | .waiting => 1 | .returned => 0) + 2 * s.count DAns.isWaiting + (if s.cancelled then 0 else 1) + s.pool.length

/-- **C57** (terminates). Every step leaves less to do, so a dump whose calls of Queue are all answered returns after boundedly many steps. -/
theorem C57_steps (s s' : DSys) (h : s.Step s') : s'.left < s.left := by
  have iss : ∀ (t : DSys) (r : DRecd) (rest : List DRecd) (b : Nat), t.pc = .capturing → t.todo = r :: rest → (t.issue r rest b).left < t.left := by
    intro t r rest b hpc ht
    have e1 : (t.issue r rest b).todo = rest := rfl
    have e2 : (t.issue r rest b).pc = .queueing t.calls.length := rfl
    have e3 : (t.issue r rest b).cancelled = t.cancelled := rfl
    have e4 : (t.issue r rest b).pool = t.pool := rfl
    have e5 : (t.issue r rest b).count DAns.isWaiting = t.count DAns.isWaiting + 1 := by
      simp [DSys.issue, DSys.count, List.countP_append, List.countP_cons, DAns.isWaiting]
    unfold DSys.left
    rw [e1, e2, e3, e4, e5, hpc, ht]
    simp only [List.length_cons]
    omega
  have comp : ∀ (i : Nat) (r : DReq) (a : DAns) (w e : Bool), s.calls[i]? = some r → r.ans = .waiting → a ≠ .waiting → (s.complete i r a w e).count DAns.isWaiting + 1 = s.count DAns.isWaiting := by
    intro i r a w e hr hw ha
    have := countP_set_of (p := fun r => DAns.isWaiting r.ans) { r with ans := a } hr
    have e : DAns.isWaiting a = false := by cases a <;> first | rfl | exact absurd rfl ha
    have e2 : DAns.isWaiting .waiting = true := rfl
    simp only [hw, e, e2] at this
    exact this
  have er : ∀ (l : List Nat) (b : Nat), b ∈ l → (l.erase b).length + 1 = l.length := by
    intro l b hb
    rw [List.length_erase_of_mem hb]
    have := List.length_pos_of_mem hb
    omega
  cases h with
  | cancel hc =>
    simp only [DSys.left, hc, DSys.count]
    simp
  | stop r rest hpc ht hc =>
    simp only [DSys.left, hpc, ht, DSys.count, List.length_cons, List.length_nil]
    omega
  | finish hpc ht =>
    simp only [DSys.left, hpc, ht, DSys.count, List.length_nil]
    omega
  | reuse r rest b hpc ht hc hb hl =>
    have := iss { s with pool := s.pool.erase b } r rest b hpc ht
    have e := er _ _ hb
    refine Nat.lt_trans this ?_
    simp only [DSys.left, DSys.count]
    omega
  | grow r rest b hpc ht hc hb hl =>
    have := iss { s with pool := s.pool.erase b, cap := fun x => if x = s.nbuf then r.bytes.length else s.cap x, nbuf := s.nbuf + 1 } r rest s.nbuf hpc ht
    have e := er _ _ hb
    refine Nat.lt_trans this ?_
    simp only [DSys.left, DSys.count]
    omega
  | fresh r rest c hpc ht hc hl => exact iss { s with cap := fun x => if x = s.nbuf then c else s.cap x, nbuf := s.nbuf + 1 } r rest s.nbuf hpc ht
  | lose b hb =>
    have e := er _ _ hb
    simp only [DSys.left, DSys.count]
    omega
  | report i r w e hr hw =>
    have := comp i r (.reported w e) w e hr hw (fun x => (by cases x))
    simp only [DSys.left]
    have e1 : (s.complete i r (.reported w e) w e).todo = s.todo := rfl
    have e2 : (s.complete i r (.reported w e) w e).pc = s.pc := rfl
    have e3 : (s.complete i r (.reported w e) w e).cancelled = s.cancelled := rfl
    have e4 : (s.complete i r (.reported w e) w e).pool.length = s.pool.length + 1 := rfl
    rw [e1, e2, e3, e4]
    omega
  | queued i hpc =>
    simp only [DSys.left, hpc, DSys.count]
    omega
  | refuse i r hpc hr hw =>
    have := comp i r .refused false true hr hw (fun x => (by cases x))
    simp only [DSys.left, hpc]
    have e1 : (s.complete i r .refused false true).todo = s.todo := rfl
    have e3 : (s.complete i r .refused false true).cancelled = s.cancelled := rfl
    have e4 : (s.complete i r .refused false true).pool.length = s.pool.length + 1 := rfl
    rw [e1, e3, e4]
    simp only [DSys.count] at this ⊢
    omega
  | wait hpc hz =>
    simp only [DSys.left, hpc, DSys.count]
    omega

/-- Two records: the first is written (its callback runs before Queue returns) and its buffer is used again for the second, which Queue refuses. -/
theorem C57_example :
    let r1 : DRecd := ⟨[97], 0, 1, [1, 2]⟩
    let r2 : DRecd := ⟨[98], 0, 1, [3]⟩
    ∃ s, DSys.Reach [r1, r2] [] (fun _ => []) (fun _ => 0) 0 s ∧ s.pc = .returned ∧ s.cancelled = false ∧ s.writes = 1 ∧ s.skips = 1 ∧ s.errors = 1 ∧
      s.calls = [⟨r1, 0, .reported true false⟩, ⟨r2, 0, .refused⟩] := by
  intro r1 r2
  have s0 := DSys.Reach.init (caps := [r1, r2]) (pool := []) (heap := fun _ => []) (cap := fun _ => 0) (nbuf := 0)
  have s1 := s0.step (.fresh r1 [r2] 1024 rfl rfl rfl (by decide))
  have s2 := s1.step (.report 0 ⟨r1, 0, .waiting⟩ true false rfl rfl)
  have s3 := s2.step (.queued 0 rfl)
  have s4 := s3.step (.reuse r2 [] 0 rfl rfl rfl (List.mem_cons_self ..) (by decide))
  have s5 := s4.step (.refuse 1 ⟨r2, 0, .waiting⟩ rfl rfl rfl)
  have s6 := s5.step (.finish rfl rfl)
  have s7 := s6.step (.wait rfl rfl)
  exact ⟨_, s7, rfl, rfl, rfl, rfl, rfl, rfl⟩

/-! ## The answer may never come -/

theorem queue_stuck {p : QParams} {s s' : QSys} (hc : ∀ pc ∈ s.calls, ∃ q, pc = .sent q) (hr : ∀ pc ∈ s.runs, ∃ q, pc = .returned q) (hp : s.pool = []) : ¬ s.Step p s' := by
  have kc : ∀ (c : Nat) (pc : CPc), s.calls[c]? = some pc → ∃ q, pc = .sent q := fun c pc h => hc pc (List.mem_of_getElem? h)
  have kr : ∀ (r : Nat) (pc : RPc), s.runs[r]? = some pc → ∃ q, pc = .returned q := fun r pc h => hr pc (List.mem_of_getElem? h)
  intro st
  cases st <;> first
    | (rename_i h _; rw [hp] at h; cases h; done)
    | (rename_i h; rw [hp] at h; cases h; done)
    | (rename_i h; obtain ⟨_, e⟩ := kc _ _ h; cases e; done)
    | (rename_i h _; obtain ⟨_, e⟩ := kc _ _ h; cases e; done)
    | (rename_i h _ _ _; obtain ⟨_, e⟩ := kc _ _ h; cases e; done)
    | (rename_i h _ _; obtain ⟨_, e⟩ := kc _ _ h; cases e; done)
    | (rename_i h _ _ _ _ _; obtain ⟨_, e⟩ := kc _ _ h; cases e; done)
    | (rename_i h; obtain ⟨_, e⟩ := kr _ _ h; cases e; done)
    | (rename_i h _; obtain ⟨_, e⟩ := kr _ _ h; cases e; done)
    | (rename_i h _ _; obtain ⟨_, e⟩ := kr _ _ h; cases e; done)

/-- **C57** (answers). With the files database the answer may never come: a value queued when Run has returned stays in a queue that nobody reads, without any further step of the database,
so a Dump that overlaps the end of Run can wait forever. -/
theorem C57_answered_refuted :
    ¬ ∀ (p : QParams) (n m : Nat) (s : QSys), QSys.Reach p n m s → ∀ c q, s.calls[c]? = some (.sent q) → s.answers c = 1 ∨ ∃ s', s.Step p s' := by
  intro h
  have s0 := QSys.Reach.init (p := qex) (n := 1) (m := 1)
  have s1 := s0.step (.runStart 0 rfl rfl)
  have s2 := s1.step (.runLoad 0 rfl)
  have s3 := s2.step (.workerExit 0 0 0 _ rfl rfl)
  have s4 := s3.step (.launched 0 0 _ rfl (by decide))
  have s5 := s4.step (.store 0 0 rfl)
  have s6 := s5.step (.close 0 0 _ rfl rfl rfl)
  have s7 := s6.step (.drainEnd 0 0 rfl rfl)
  have s8 := s7.step (.stop 0 0 rfl)
  have s9 := s8.step (.getNew 0 rfl)
  have s10 := s9.step (.load 0 0 rfl)
  have s11 := s10.step (.send 0 0 1 _ rfl rfl rfl (by decide))
  rcases h qex 1 1 _ s11 0 1 rfl with e | ⟨s', st⟩
  · revert e; decide
  · exact queue_stuck (fun pc hm => ⟨1, List.mem_singleton.mp hm⟩) (fun pc hm => ⟨0, List.mem_singleton.mp hm⟩) rfl st

end Rothko
