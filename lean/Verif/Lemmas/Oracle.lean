import Verif.Props.Calls
/-!
# A history depends on the oracle for the cache only at the times at which it was asked
-/
namespace Rothko

variable {α : Type}

/-- The same state with another oracle. -/
def Store.withHit (s : Store) (hit : Nat → Bool) : Store := { s with hit }

theorem install_shape (s : Store) (c : Except FErr File × Bytes) (idx : Int) (h' : Nat → Bool) :
    (s.install c idx).2.hit = s.hit ∧ (s.install c idx).2.clock = s.clock ∧ (s.withHit h').install c idx = ((s.install c idx).1, (s.install c idx).2.withHit h') := by
  unfold Store.install
  cases c.1 <;> exact ⟨rfl, rfl, rfl⟩

theorem openAt_shape (s : Store) (idx : Int) (h' : Nat → Bool) :
    (s.openAt idx).2.hit = s.hit ∧ (s.openAt idx).2.clock = s.clock ∧ (s.withHit h').openAt idx = ((s.openAt idx).1, (s.openAt idx).2.withHit h') := by
  unfold Store.openAt
  have : (s.withHit h').lookup idx = s.lookup idx := rfl
  rw [this]
  cases s.lookup idx with
  | none => exact ⟨rfl, rfl, rfl⟩
  | some ino =>
    dsimp only
    have : (s.withHit h').disk = s.disk := rfl
    rw [this]
    cases openFile (s.disk ino) <;> exact ⟨rfl, rfl, rfl⟩

theorem evict_shape' (s : Store) (idx : Int) (h' : Nat → Bool) : (s.evict idx).hit = s.hit ∧ (s.evict idx).clock = s.clock ∧ (s.withHit h').evict idx = (s.evict idx).withHit h' := ⟨rfl, rfl, rfl⟩

/-- `acquire` with the file that would be created. -/
def acquireWith (c : Except FErr File × Bytes) (s : Store) (idx : Int) (ex : Bool) (b : Bool) (t : Store) : Except MErr Handle × Store :=
  match s.cache idx, b with
  | some h, true => (.ok h, t)
  | _, _ => if ex then t.openAt idx else t.install c idx

theorem acquireWith_shape (c : Except FErr File × Bytes) (s : Store) (idx : Int) (ex : Bool) (b : Bool) (t : Store) (h' : Nat → Bool) :
    (acquireWith c s idx ex b t).2.hit = t.hit ∧ (acquireWith c s idx ex b t).2.clock = t.clock ∧
    acquireWith c s idx ex b (t.withHit h') = ((acquireWith c s idx ex b t).1, (acquireWith c s idx ex b t).2.withHit h') := by
  have o := openAt_shape t idx h'
  have i := install_shape t c idx h'
  unfold acquireWith
  split
  · exact ⟨rfl, rfl, rfl⟩
  · cases ex with
    | true => rw [if_pos rfl, if_pos rfl]; exact o
    | false => rw [if_neg (by decide), if_neg (by decide)]; exact i

theorem acquire_with (cfg : Cfg) (s : Store) (idx : Int) (ex : Bool) :
    s.acquire cfg idx ex = acquireWith (createFile cfg.size cfg.cap) s idx ex (s.hit s.clock) { s.evict idx with clock := s.clock + 1 } := by
  unfold Store.acquire acquireWith Store.createAt
  rfl

theorem acquire_oracle (cfg : Cfg) (s : Store) (idx : Int) (ex : Bool) (h' : Nat → Bool) :
    (s.acquire cfg idx ex).2.hit = s.hit ∧ (s.acquire cfg idx ex).2.clock = s.clock + 1 ∧
    (h' s.clock = s.hit s.clock → (s.withHit h').acquire cfg idx ex = ((s.acquire cfg idx ex).1, (s.acquire cfg idx ex).2.withHit h')) := by
  rw [acquire_with, acquire_with]
  generalize createFile cfg.size cfg.cap = c
  obtain ⟨k1, k2, k3⟩ := acquireWith_shape c s idx ex (s.hit s.clock) { s.evict idx with clock := s.clock + 1 } h'
  refine ⟨k1, k2, fun e => ?_⟩
  rw [← k3]
  show acquireWith c s idx ex (h' s.clock) _ = _
  rw [e]
  rfl

theorem run_oracle (ids : Nat → Nat) (h' : Nat → Bool) (p : FsProg α) : ∀ s : Store, (p.run ids s).2.hit = s.hit ∧ s.clock ≤ (p.run ids s).2.clock ∧
    ((∀ i, s.clock ≤ i → i < (p.run ids s).2.clock → h' i = s.hit i) → p.run ids (s.withHit h') = ((p.run ids s).1, (p.run ids s).2.withHit h')) := by
  induction p with
  | done a => intro s; exact ⟨rfl, Nat.le_refl _, fun _ => rfl⟩
  | acquire cfg idx ex k ih =>
    intro s
    obtain ⟨a1, a2, a3⟩ := acquire_oracle cfg s idx ex h'
    unfold FsProg.run
    generalize s.acquire cfg idx ex = r at a1 a2 a3
    obtain ⟨x, s1⟩ := r
    dsimp only at a1 a2 a3
    have fin : ∀ q : FsProg α, (∀ s : Store, (q.run ids s).2.hit = s.hit ∧ s.clock ≤ (q.run ids s).2.clock ∧
        ((∀ i, s.clock ≤ i → i < (q.run ids s).2.clock → h' i = s.hit i) → q.run ids (s.withHit h') = ((q.run ids s).1, (q.run ids s).2.withHit h'))) →
        (q.run ids s1).2.hit = s.hit ∧ s.clock ≤ (q.run ids s1).2.clock ∧ ((∀ i, s.clock ≤ i → i < (q.run ids s1).2.clock → h' i = s.hit i) →
          h' s.clock = s.hit s.clock ∧ q.run ids (s1.withHit h') = ((q.run ids s1).1, (q.run ids s1).2.withHit h')) := by
      intro q hq
      obtain ⟨q1, q2, q3⟩ := hq s1
      refine ⟨q1.trans a1, by omega, fun h => ⟨h _ (Nat.le_refl _) (by omega), q3 (fun i hi hi' => ?_)⟩⟩
      rw [a1]
      exact h i (by omega) hi'
    cases x with
    | error e =>
      obtain ⟨f1, f2, f3⟩ := fin _ (ih (.error e))
      refine ⟨f1, f2, fun h => ?_⟩
      obtain ⟨g1, g2⟩ := f3 h
      rw [a3 g1]
      exact g2
    | ok x =>
      obtain ⟨f1, f2, f3⟩ := fin _ (ih (.ok ⟨ids s.clock, x⟩))
      refine ⟨f1, f2, fun h => ?_⟩
      obtain ⟨g1, g2⟩ := f3 h
      rw [a3 g1]
      exact g2
  | release idx h k ih => intro s; exact ih (s.release idx h.geo)
  | evict idx k ih => intro s; exact ih (s.evict idx)
  | remove idx k ih => intro s; exact ih (s.remove idx)
  | load h k ih => intro s; exact ih (s.file h.geo) s
  | store h head v f k ih => intro s; exact ih (s.setFile h.geo f)

theorem call_oracle (h' : Nat → Bool) (o : DbCall) (s : Store) : (o.run s).2.hit = s.hit ∧ s.clock ≤ (o.run s).2.clock ∧
    ((∀ i, s.clock ≤ i → i < (o.run s).2.clock → h' i = s.hit i) → o.run (s.withHit h') = ((o.run s).1, (o.run s).2.withHit h')) := by
  rw [← C96_run (fun _ => 0) o s, ← C96_run (fun _ => 0) o (s.withHit h')]
  have e1 : (dirNames (dbCalls.ro o) (s.withHit h')).1 = (dirNames (dbCalls.ro o) s).1 := by
    unfold dirNames
    show (if (!s.dirExists && _) = true then _ else _ : Option (List Int) × Store).1 = _
    split <;> rfl
  have e2 : (dirNames (dbCalls.ro o) (s.withHit h')).2 = (dirNames (dbCalls.ro o) s).2.withHit h' := by
    unfold dirNames
    show (if (!s.dirExists && _) = true then _ else _ : Option (List Int) × Store).2 = _
    split <;> rfl
  have e3 : (dirNames (dbCalls.ro o) s).2.hit = s.hit ∧ (dirNames (dbCalls.ro o) s).2.clock = s.clock := by
    unfold dirNames
    split <;> exact ⟨rfl, rfl⟩
  rw [e1, e2]
  obtain ⟨r1, r2, r3⟩ := run_oracle (fun _ => 0) h' (dbCalls.body o (dirNames (dbCalls.ro o) s).1) (dirNames (dbCalls.ro o) s).2
  rw [e3.1] at r1
  rw [e3.2] at r2
  refine ⟨r1, r2, fun h => r3 ?_⟩
  rw [e3.1, e3.2]
  exact h

theorem op_oracle (h' : Nat → Bool) (o : Op) (s : Store) (acc : List Val) : (o.run (s, acc)).1.hit = s.hit ∧ s.clock ≤ (o.run (s, acc)).1.clock ∧
    ((∀ i, s.clock ≤ i → i < (o.run (s, acc)).1.clock → h' i = s.hit i) → o.run (s.withHit h', acc) = ((o.run (s, acc)).1.withHit h', (o.run (s, acc)).2)) := by
  have key : ∀ c : DbCall, (c.toOp.run (s, acc)).1.hit = s.hit ∧ s.clock ≤ (c.toOp.run (s, acc)).1.clock ∧
      ((∀ i, s.clock ≤ i → i < (c.toOp.run (s, acc)).1.clock → h' i = s.hit i) → c.toOp.run (s.withHit h', acc) = ((c.toOp.run (s, acc)).1.withHit h', (c.toOp.run (s, acc)).2)) := by
    intro c
    rw [run_toOp c s acc 0, run_toOp c (s.withHit h') acc 0]
    obtain ⟨c1, c2, c3⟩ := call_oracle h' c s
    refine ⟨c1, c2, fun h => ?_⟩
    rw [c3 h]
  cases o with
  | write cfg v => exact key (.write cfg v)
  | query cfg b cb => exact key (.query cfg b cb)
  | latest cfg => exact key (.latest cfg)
  | restart => exact ⟨rfl, Nat.le_refl _, fun _ => rfl⟩

theorem ops_oracle (h' : Nat → Bool) (ops : List Op) : ∀ (s : Store) (acc : List Val), (runOps ops (s, acc)).1.hit = s.hit ∧ s.clock ≤ (runOps ops (s, acc)).1.clock ∧
    ((∀ i, s.clock ≤ i → i < (runOps ops (s, acc)).1.clock → h' i = s.hit i) → runOps ops (s.withHit h', acc) = ((runOps ops (s, acc)).1.withHit h', (runOps ops (s, acc)).2)) := by
  induction ops with
  | nil => intro s acc; exact ⟨rfl, Nat.le_refl _, fun _ => rfl⟩
  | cons o ops ih =>
    intro s acc
    obtain ⟨o1, o2, o3⟩ := op_oracle h' o s acc
    have e : ∀ t : Store, runOps (o :: ops) (t, acc) = runOps ops ((o.run (t, acc)).1, (o.run (t, acc)).2) := fun _ => rfl
    rw [e, e]
    obtain ⟨i1, i2, i3⟩ := ih (o.run (s, acc)).1 (o.run (s, acc)).2
    refine ⟨i1.trans o1, by omega, fun h => ?_⟩
    rw [o3 (fun i hi hi' => h i hi (by omega))]
    refine i3 (fun i hi hi' => ?_)
    rw [o1]
    exact h i (by omega) hi'

/-- A state of a history is one of the same history with another oracle for the future. -/
theorem reach_oracle {s : Store} {acc : List Val} (h : Reach s acc) (h' : Nat → Bool) (hh : ∀ i, i < s.clock → h' i = s.hit i) : Reach (s.withHit h') acc := by
  obtain ⟨de, hit, ops, hok, e⟩ := h
  obtain ⟨o1, o2, o3⟩ := ops_oracle h' ops (Store.fresh de hit) []
  rw [e] at o1 o2 o3
  refine ⟨de, h', ops, hok, ?_⟩
  have := o3 (fun i _ hi => by rw [← o1]; exact hh i hi)
  exact this

theorem reach_restart {s : Store} {acc : List Val} (h : Reach s acc) : Reach s.reopen acc := by
  obtain ⟨de, hit, ops, hok, e⟩ := h
  refine ⟨de, hit, ops ++ [.restart], ?_, ?_⟩
  · intro x hx
    rcases List.mem_append.mp hx with hx | hx
    · exact hok x hx
    · rw [List.mem_singleton.mp hx]; trivial
  · unfold runOps at e ⊢
    rw [List.foldl_append, e]
    rfl

end Rothko
