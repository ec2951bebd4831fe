import Verif.Lemmas.Oracle
import Verif.Lemmas.FaultStep
import Verif.Props.Fault
/-!
# A history in which system calls fail depends on the oracle for the cache only at the times at which it was asked
-/
namespace Rothko

variable {α : Type}

attribute [local irreducible] createFile openFile

theorem failedWith_shape (c : Except FErr File × Bytes) (r : Bool) (s : Store) (idx : Int) (ex : Bool) (f : FileFault) (h' : Nat → Bool) :
    (failedWith c r s idx ex f).2.hit = s.hit ∧ (failedWith c r s idx ex f).2.clock = s.clock ∧
    failedWith c r (s.withHit h') idx ex f = ((failedWith c r s idx ex f).1, (failedWith c r s idx ex f).2.withHit h') := by
  cases f with
  | clean => exact ⟨rfl, rfl, rfl⟩
  | partly n =>
    unfold failedWith
    cases ex with
    | true => exact ⟨rfl, rfl, rfl⟩
    | false =>
      cases r with
      | true =>
        obtain ⟨a1, a2, a3⟩ := install_shape s (.error .panic, List.replicate n 0) idx h'
        refine ⟨a1, a2, ?_⟩
        show (Except.error MErr.os, ((s.withHit h').install (.error .panic, List.replicate n 0) idx).2) = _
        rw [a3]
        rfl
      | false => exact install_shape s c idx h'

/-- `openNew` with the file that would be made. -/
def openNewWith (c : Except FErr File × Bytes) (s : Store) (idx : Int) (ex : Bool) : Except MErr Handle × Store := if ex then s.openAt idx else s.install c idx

theorem openNew_with (cfg : Cfg) (s : Store) (idx : Int) (ex : Bool) : s.openNew cfg idx ex = openNewWith (createFile cfg.size cfg.cap) s idx ex := by
  unfold Store.openNew openNewWith Store.createAt
  rfl

theorem openNewWith_shape (c : Except FErr File × Bytes) (s : Store) (idx : Int) (ex : Bool) (h' : Nat → Bool) :
    (openNewWith c s idx ex).2.hit = s.hit ∧ (openNewWith c s idx ex).2.clock = s.clock ∧ openNewWith c (s.withHit h') idx ex = ((openNewWith c s idx ex).1, (openNewWith c s idx ex).2.withHit h') := by
  cases ex with
  | true => exact openAt_shape s idx h'
  | false => exact install_shape s c idx h'

theorem openF_shape (cfg : Cfg) (s : Store) (idx : Int) (ex : Bool) (f : Option FileFault) (h' : Nat → Bool) :
    (s.openF cfg idx ex f).2.hit = s.hit ∧ (s.openF cfg idx ex f).2.clock = s.clock ∧ (s.withHit h').openF cfg idx ex f = ((s.openF cfg idx ex f).1, (s.openF cfg idx ex f).2.withHit h') := by
  cases f with
  | none =>
    unfold Store.openF
    dsimp only
    rw [openNew_with, openNew_with]
    exact openNewWith_shape _ s idx ex h'
  | some f =>
    unfold Store.openF
    dsimp only
    rw [failed_with, failed_with]
    exact failedWith_shape _ _ s idx ex f h'

theorem acquireF_oracle (flt : Faults) (cfg : Cfg) (s : Store) (idx : Int) (ex : Bool) (h' : Nat → Bool) :
    (s.acquireF flt cfg idx ex).2.hit = s.hit ∧ (s.acquireF flt cfg idx ex).2.clock = s.clock + 1 ∧
    (h' s.clock = s.hit s.clock → (s.withHit h').acquireF flt cfg idx ex = ((s.acquireF flt cfg idx ex).1, (s.acquireF flt cfg idx ex).2.withHit h')) := by
  obtain ⟨t, ht⟩ : ∃ t : Store, t = { s.evict idx with clock := s.clock + 1 } := ⟨_, rfl⟩
  have e1 : s.acquireF flt cfg idx ex = match s.cache idx, s.hit s.clock with
      | some h, true => (.ok h, t)
      | _, _ => t.openF cfg idx ex (flt.file s.clock) := by rw [acquireF_openF, ht]; rfl
  have e2 : (s.withHit h').acquireF flt cfg idx ex = match s.cache idx, h' s.clock with
      | some h, true => (.ok h, t.withHit h')
      | _, _ => (t.withHit h').openF cfg idx ex (flt.file s.clock) := by rw [acquireF_openF, ht]; rfl
  have th : t.hit = s.hit := by rw [ht]; rfl
  have tc : t.clock = s.clock + 1 := by rw [ht]
  obtain ⟨k1, k2, k3⟩ := openF_shape cfg t idx ex (flt.file s.clock) h'
  rw [e1, e2, k3]
  cases s.cache idx with
  | none => exact ⟨k1.trans th, k2.trans tc, fun _ => rfl⟩
  | some x =>
    cases hh : s.hit s.clock with
    | true => exact ⟨th, tc, fun e => by rw [e]⟩
    | false => exact ⟨k1.trans th, k2.trans tc, fun e => by rw [e]⟩

theorem runG_oracle (flt : Faults) (ids : Nat → Nat) (h' : Nat → Bool) (p : FsProg α) : ∀ s : Store, (p.runG flt ids s).2.hit = s.hit ∧ s.clock ≤ (p.runG flt ids s).2.clock ∧
    ((∀ i, s.clock ≤ i → i < (p.runG flt ids s).2.clock → h' i = s.hit i) → p.runG flt ids (s.withHit h') = ((p.runG flt ids s).1, (p.runG flt ids s).2.withHit h')) := by
  induction p with
  | done a => intro s; exact ⟨rfl, Nat.le_refl _, fun _ => rfl⟩
  | acquire cfg idx ex k ih =>
    intro s
    obtain ⟨a1, a2, a3⟩ := acquireF_oracle flt cfg s idx ex h'
    unfold FsProg.runG
    generalize s.acquireF flt cfg idx ex = r at a1 a2 a3
    obtain ⟨x, s1⟩ := r
    dsimp only at a1 a2 a3
    have fin : ∀ q : FsProg α, (∀ s : Store, (q.runG flt ids s).2.hit = s.hit ∧ s.clock ≤ (q.runG flt ids s).2.clock ∧
        ((∀ i, s.clock ≤ i → i < (q.runG flt ids s).2.clock → h' i = s.hit i) → q.runG flt ids (s.withHit h') = ((q.runG flt ids s).1, (q.runG flt ids s).2.withHit h'))) →
        (q.runG flt ids s1).2.hit = s.hit ∧ s.clock ≤ (q.runG flt ids s1).2.clock ∧ ((∀ i, s.clock ≤ i → i < (q.runG flt ids s1).2.clock → h' i = s.hit i) →
          h' s.clock = s.hit s.clock ∧ q.runG flt ids (s1.withHit h') = ((q.runG flt ids s1).1, (q.runG flt ids s1).2.withHit h')) := by
      intro q hq
      obtain ⟨q1, q2, q3⟩ := hq s1
      refine ⟨q1.trans a1, by omega, fun h => ⟨h _ (Nat.le_refl _) (by omega), q3 (fun i hi hi' => ?_)⟩⟩
      rw [a1]
      exact h i (by omega) hi'
    cases x with
    | error e =>
      obtain ⟨f1, f2, f3⟩ := fin _ (ih (.error e))
      refine ⟨f1, f2, fun h => ?_⟩
      obtain ⟨g1, g2⟩ := f3 h
      rw [a3 g1]
      exact g2
    | ok x =>
      obtain ⟨f1, f2, f3⟩ := fin _ (ih (.ok ⟨ids s.clock, x⟩))
      refine ⟨f1, f2, fun h => ?_⟩
      obtain ⟨g1, g2⟩ := f3 h
      rw [a3 g1]
      exact g2
  | release idx h k ih => intro s; exact ih (s.release idx h.geo)
  | evict idx k ih => intro s; exact ih (s.evict idx)
  | remove idx k ih => 
    intro s
    unfold FsProg.runG
    cases flt.unlink
    · exact ih (s.remove idx)
    · exact ih s
  | load h k ih => intro s; exact ih (s.file h.geo) s
  | store h head v f k ih => intro s; exact ih (s.setFile h.geo f)

theorem callF_oracle (h' : Nat → Bool) (flt : Faults) (o : DbCall) (s : Store) : (o.runF flt s).2.hit = s.hit ∧ s.clock ≤ (o.runF flt s).2.clock ∧
    ((∀ i, s.clock ≤ i → i < (o.runF flt s).2.clock → h' i = s.hit i) → o.runF flt (s.withHit h') = ((o.runF flt s).1, (o.runF flt s).2.withHit h')) := by
  have er : ∀ s, o.runF flt s = (dbCallsF.body ⟨o, flt.dir, flt.unlink⟩ (openDirF flt.dir (dbCallsF.ro ⟨o, flt.dir, flt.unlink⟩) s).1).runG (fileFaults flt.file) (fun _ => 0) (openDirF flt.dir (dbCallsF.ro ⟨o, flt.dir, flt.unlink⟩) s).2 :=
    fun s => (C112_run (fun _ => 0) flt.file ⟨o, flt.dir, flt.unlink⟩ s).symm
  rw [er s, er (s.withHit h')]
  generalize dbCallsF.body ⟨o, flt.dir, flt.unlink⟩ = body
  generalize dbCallsF.ro ⟨o, flt.dir, flt.unlink⟩ = ro
  have e : (openDirF flt.dir ro s).2.hit = s.hit ∧ (openDirF flt.dir ro s).2.clock = s.clock ∧ (openDirF flt.dir ro (s.withHit h')).1 = (openDirF flt.dir ro s).1 ∧
      (openDirF flt.dir ro (s.withHit h')).2 = (openDirF flt.dir ro s).2.withHit h' := by
    match flt.dir with
    | none =>
      unfold openDirF dirNames
      have : (s.withHit h').dirExists = s.dirExists := rfl
      dsimp only
      rw [this]
      split <;> exact ⟨rfl, rfl, rfl, rfl⟩
    | some .before => exact ⟨rfl, rfl, rfl, rfl⟩
    | some .after => exact ⟨rfl, rfl, rfl, rfl⟩
  obtain ⟨e1, e2, e3, e4⟩ := e
  rw [e3, e4]
  obtain ⟨r1, r2, r3⟩ := runG_oracle (fileFaults flt.file) (fun _ => 0) h' (body (openDirF flt.dir ro s).1) (openDirF flt.dir ro s).2
  rw [e1] at r1
  rw [e2] at r2
  refine ⟨r1, r2, fun h => r3 ?_⟩
  rw [e1, e2]
  exact h

theorem runF_toOp (o : DbCall) (flt : Faults) (s : Store) (acc : List Val) (i : Nat) : o.toOp.runF flt (s, acc) = ((o.runF flt s).2, ackd [(i, o, (o.runF flt s).1)] ++ acc) := by
  cases o with
  | write cfg v =>
    simp only [DbCall.toOp, Op.runF, DbCall.runF]
    rcases hw : dbWriteF flt cfg v s with ⟨w, s'⟩
    cases w <;> simp [ackd]
  | query cfg b cb => rfl
  | latest cfg => rfl

theorem opF_oracle (h' : Nat → Bool) (flt : Faults) (o : Op) (s : Store) (acc : List Val) : (o.runF flt (s, acc)).1.hit = s.hit ∧ s.clock ≤ (o.runF flt (s, acc)).1.clock ∧
    ((∀ i, s.clock ≤ i → i < (o.runF flt (s, acc)).1.clock → h' i = s.hit i) → o.runF flt (s.withHit h', acc) = ((o.runF flt (s, acc)).1.withHit h', (o.runF flt (s, acc)).2)) := by
  have key : ∀ c : DbCall, (c.toOp.runF flt (s, acc)).1.hit = s.hit ∧ s.clock ≤ (c.toOp.runF flt (s, acc)).1.clock ∧
      ((∀ i, s.clock ≤ i → i < (c.toOp.runF flt (s, acc)).1.clock → h' i = s.hit i) → c.toOp.runF flt (s.withHit h', acc) = ((c.toOp.runF flt (s, acc)).1.withHit h', (c.toOp.runF flt (s, acc)).2)) := by
    intro c
    rw [runF_toOp c flt s acc 0, runF_toOp c flt (s.withHit h') acc 0]
    obtain ⟨c1, c2, c3⟩ := callF_oracle h' flt c s
    refine ⟨c1, c2, fun h => ?_⟩
    rw [c3 h]
  cases o with
  | write cfg v => exact key (.write cfg v)
  | query cfg b cb => exact key (.query cfg b cb)
  | latest cfg => exact key (.latest cfg)
  | restart => exact ⟨rfl, Nat.le_refl _, fun _ => rfl⟩

theorem opsF_oracle (h' : Nat → Bool) (ops : List (Op × Faults)) : ∀ (s : Store) (acc : List Val), (runFaults ops (s, acc)).1.hit = s.hit ∧ s.clock ≤ (runFaults ops (s, acc)).1.clock ∧
    ((∀ i, s.clock ≤ i → i < (runFaults ops (s, acc)).1.clock → h' i = s.hit i) → runFaults ops (s.withHit h', acc) = ((runFaults ops (s, acc)).1.withHit h', (runFaults ops (s, acc)).2)) := by
  induction ops with
  | nil => intro s acc; exact ⟨rfl, Nat.le_refl _, fun _ => rfl⟩
  | cons o ops ih =>
    intro s acc
    obtain ⟨o1, o2, o3⟩ := opF_oracle h' o.2 o.1 s acc
    have e : ∀ t : Store, runFaults (o :: ops) (t, acc) = runFaults ops ((o.1.runF o.2 (t, acc)).1, (o.1.runF o.2 (t, acc)).2) := fun _ => rfl
    rw [e, e]
    obtain ⟨i1, i2, i3⟩ := ih (o.1.runF o.2 (s, acc)).1 (o.1.runF o.2 (s, acc)).2
    refine ⟨i1.trans o1, by omega, fun h => ?_⟩
    rw [o3 (fun i hi hi' => h i hi (by omega))]
    refine i3 (fun i hi hi' => ?_)
    rw [o1]
    exact h i (by omega) hi'

theorem ReachF.oracle {ops : List (Op × Faults)} {s : Store} {acc : List Val} (h : ReachF ops s acc) (h' : Nat → Bool) (hh : ∀ i, i < s.clock → h' i = s.hit i) : ReachF ops (s.withHit h') acc := by
  obtain ⟨hok, de, hit, e⟩ := h
  obtain ⟨o1, o2, o3⟩ := opsF_oracle h' ops (Store.fresh de hit) []
  rw [e] at o1 o2 o3
  exact ⟨hok, de, h', o3 (fun i _ hi => by rw [← o1]; exact hh i hi)⟩

theorem ReachF.snoc {ops : List (Op × Faults)} {s s' : Store} {acc acc' : List Val} (h : ReachF ops s acc) (o : Op) (flt : Faults) (ho : o.Ok) (hf : flt.Clean) (e : o.runF flt (s, acc) = (s', acc')) :
    ReachF (ops ++ [(o, flt)]) s' acc' := by
  obtain ⟨hok, de, hit, hr⟩ := h
  refine ⟨?_, de, hit, by rw [runFaults_snoc, hr]; exact e⟩
  intro x hx
  rcases List.mem_append.mp hx with hx | hx
  · exact hok x hx
  · rw [List.mem_singleton.mp hx]; exact ⟨ho, hf⟩

/-- The directory of a metric that another metric makes might as well have been made by a write that fails. -/
theorem ReachF.mkdir {ops : List (Op × Faults)} {s : Store} {acc : List Val} (h : ReachF ops s acc) (max : Int) :
    ReachF (ops ++ [(.write ⟨256, 4, max⟩ ⟨0, 0, []⟩, ⟨some .after, fun _ => none, false⟩)]) (mkdirEnv s) acc := by
  refine h.snoc _ _ ⟨(show GeoOk 256 4 by unfold GeoOk; omega), (show needs 256 0 ≤ 4 by decide)⟩ (fun _ _ e => by cases e) ?_
  show (({ s with dirExists := s.dirExists || !false } : Store), acc) = _
  rw [Bool.not_false, Bool.or_true]
  rfl

end Rothko
