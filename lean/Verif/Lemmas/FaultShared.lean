import Verif.Model.FaultShared
import Verif.Lemmas.Shared
import Verif.Lemmas.Fault
/-!
# One step of a call on the shared file cache, when the operating system may report errors
-/
namespace Rothko

attribute [local irreducible] createFile openFile

variable {α β : Type}

/-! ## The same steps with other handles -/

/-- The same steps, up to the identities of handles, with results related by `R`. -/
def FsProg.Like (R : α → β → Prop) : FsProg α → FsProg β → Prop
  | .done a, .done b => R a b
  | .acquire cfg idx ex k, .acquire cfg' idx' ex' k' => cfg = cfg' ∧ idx = idx' ∧ ex = ex' ∧ (∀ e, (k (.error e)).Like R (k' (.error e))) ∧ ∀ h h', h.geo = h'.geo → (k (.ok h)).Like R (k' (.ok h'))
  | .release idx h k, .release idx' h' k' => idx = idx' ∧ h.geo = h'.geo ∧ k.Like R k'
  | .evict idx k, .evict idx' k' => idx = idx' ∧ k.Like R k'
  | .remove idx k, .remove idx' k' => idx = idx' ∧ k.Like R k'
  | .load h k, .load h' k' => h.geo = h'.geo ∧ ∀ f, (k f).Like R (k' f)
  | .store h _ _ f k, .store h' _ _ f' k' => h.geo = h'.geo ∧ f = f' ∧ k.Like R k'
  | _, _ => False

/-- The steps carried out on the state of one metric (as `FsProg.runF`), with identities for the handles. -/
def FsProg.runG (flt : Faults) (ids : Nat → Nat) : FsProg α → Store → α × Store
  | .done a, s => (a, s)
  | .acquire cfg idx ex k, s =>
    match s.acquireF flt cfg idx ex with
    | (.error e, s') => (k (.error e)).runG flt ids s'
    | (.ok h, s') => (k (.ok ⟨ids s.clock, h⟩)).runG flt ids s'
  | .release idx h k, s => k.runG flt ids (s.release idx h.geo)
  | .evict idx k, s => k.runG flt ids (s.evict idx)
  | .remove idx k, s => k.runG flt ids (if flt.unlink then s else s.remove idx)
  | .load h k, s => (k (s.file h.geo)).runG flt ids s
  | .store h _ _ f k, s => k.runG flt ids (s.setFile h.geo f)

theorem runG_clock (flt : Faults) (p : FsProg α) : ∀ s, p.runG flt (fun c => c) s = p.runF flt s := by
  induction p with
  | done a => intro s; rfl
  | acquire cfg idx ex k ih =>
    intro s
    rw [FsProg.runG, FsProg.runF]
    generalize Store.acquireF flt cfg s idx ex = a
    obtain ⟨e | h, s1⟩ := a <;> exact ih _ _
  | release idx h k ih => intro s; exact ih _
  | evict idx k ih => intro s; exact ih _
  | remove idx k ih => intro s; exact ih _
  | load h k ih => intro s; exact ih _ _
  | store h head v f k ih => intro s; exact ih _

theorem runG_like (R : α → β → Prop) (flt : Faults) (ids ids' : Nat → Nat) (p : FsProg α) : ∀ (q : FsProg β), p.Like R q → ∀ s, R (p.runG flt ids s).1 (q.runG flt ids' s).1 ∧ (p.runG flt ids s).2 = (q.runG flt ids' s).2 := by
  induction p with
  | done a => intro q h s; cases q <;> first | exact ⟨h, rfl⟩ | exact h.elim
  | acquire cfg idx ex k ih =>
    intro q h s
    cases q <;> first | exact h.elim | skip
    obtain ⟨rfl, rfl, rfl, h1, h2⟩ := h
    rw [FsProg.runG, FsProg.runG]
    generalize Store.acquireF flt cfg s idx ex = a
    obtain ⟨e | x, s1⟩ := a
    · exact ih _ _ (h1 e) s1
    · exact ih _ _ (h2 ⟨ids s.clock, x⟩ ⟨ids' s.clock, x⟩ rfl) s1
  | release idx x k ih =>
    intro q h s
    cases q <;> first | exact h.elim | skip
    obtain ⟨rfl, h1, h2⟩ := h
    rw [FsProg.runG, FsProg.runG, h1]
    exact ih _ h2 _
  | evict idx k ih =>
    intro q h s
    cases q <;> first | exact h.elim | skip
    obtain ⟨rfl, h2⟩ := h
    exact ih _ h2 _
  | remove idx k ih =>
    intro q h s
    cases q <;> first | exact h.elim | skip
    obtain ⟨rfl, h2⟩ := h
    exact ih _ h2 _
  | load x k ih =>
    intro q h s
    cases q <;> first | exact h.elim | skip
    obtain ⟨h1, h2⟩ := h
    rw [FsProg.runG, FsProg.runG, h1]
    exact ih _ _ (h2 _) _
  | store x head v f k ih =>
    intro q h s
    cases q <;> first | exact h.elim | skip
    obtain ⟨h1, rfl, h2⟩ := h
    rw [FsProg.runG, FsProg.runG, h1]
    exact ih _ h2 _

/-- Removing fails throughout: the same as not trying. -/
theorem runG_keep (flt : Faults) (ids : Nat → Nat) (p : FsProg α) : ∀ s, p.keep.runG { flt with unlink := false } ids s = p.runG { flt with unlink := true } ids s := by
  have ha : ∀ (s : Store) cfg idx ex, s.acquireF { flt with unlink := false } cfg idx ex = s.acquireF { flt with unlink := true } cfg idx ex := fun _ _ _ _ => rfl
  induction p with
  | done a => intro s; rfl
  | acquire cfg idx ex k ih =>
    intro s
    rw [FsProg.keep, FsProg.runG, FsProg.runG, ha]
    generalize Store.acquireF { flt with unlink := true } cfg s idx ex = a
    obtain ⟨e | h, s1⟩ := a <;> exact ih _ _
  | release idx h k ih => intro s; exact ih _
  | evict idx k ih => intro s; exact ih _
  | remove idx k ih => intro s; exact ih _
  | load h k ih => intro s; exact ih _ _
  | store h head v f k ih => intro s; exact ih _

theorem keep_careful (p : FsProg α) : ∀ held, p.Careful held → p.keep.Careful held := by
  induction p with
  | done a => intro held h; exact h
  | acquire cfg idx ex k ih => intro held h; exact ⟨h.1, h.2.1, fun e => ih _ _ (h.2.2.1 e), fun x => ih _ _ (h.2.2.2 x)⟩
  | release idx h k ih => intro held hc; exact ⟨hc.1, ih _ hc.2⟩
  | evict idx k ih => intro held h; exact ⟨h.1, ih _ h.2⟩
  | remove idx k ih => intro held h; exact ih _ h
  | load x k ih => intro held h; exact ⟨h.1, fun f => ih _ _ (h.2 f)⟩
  | store x head v f k ih => intro held h; exact ⟨h.1, ih _ h.2⟩

section like
variable {R : α → β → Prop}

theorem newMetricP_like (cfg : Cfg) (names : Option (List Int)) (k : Except MErr (Int × Int) → FsProg α) (k' : Except MErr (Int × Int) → FsProg β) (h : ∀ x, (k x).Like R (k' x)) :
    (newMetricP cfg names k).Like R (newMetricP cfg names k') := by
  unfold newMetricP
  cases names with
  | none => exact h _
  | some names =>
    dsimp only
    split
    · exact h _
    · exact ⟨rfl, rfl, rfl, fun e => h _, fun x y e => ⟨rfl, e, h _⟩⟩

theorem releaseAllP_like (p : FsProg α) (q : FsProg β) (h : p.Like R q) (l : List (Int × FsHandle)) : ∀ l' : List (Int × FsHandle), l.map (fun x => (x.1, x.2.geo)) = l'.map (fun x => (x.1, x.2.geo)) →
    (releaseAllP p l).Like R (releaseAllP q l') := by
  induction l with
  | nil => intro l' e; cases l' with
    | nil => exact h
    | cons a l' => cases e
  | cons a l ih => intro l' e; cases l' with
    | nil => cases e
    | cons b l' =>
      obtain ⟨i, x⟩ := a
      obtain ⟨j, y⟩ := b
      rw [List.map_cons, List.map_cons] at e
      injection e with e1 e2
      injection e1 with e1 e3
      exact ⟨e1, e3, ih l' e2⟩

theorem acquireLastP_like (cfg : Cfg) (first : Int) (k : Except MErr (FsHandle × Int × Int) → FsProg α) (k' : Except MErr (FsHandle × Int × Int) → FsProg β) (he : ∀ e, (k (.error e)).Like R (k' (.error e)))
    (hk : ∀ h h' head l, h.geo = h'.geo → (k (.ok (h, head, l))).Like R (k' (.ok (h', head, l)))) (fuel : Nat) : ∀ last : Int, (acquireLastP cfg first k fuel last).Like R (acquireLastP cfg first k' fuel last) := by
  induction fuel with
  | zero => intro last; exact he _
  | succ fuel ih =>
    intro last
    unfold acquireLastP
    refine ⟨rfl, rfl, rfl, fun e => he _, fun x y e => ⟨e, fun f => ?_⟩⟩
    dsimp only
    cases f.headPointer with
    | error e' => exact ⟨rfl, e, he _⟩
    | ok head =>
      dsimp only
      rw [e]
      split
      · exact ⟨rfl, e, rfl, ih (last - 1)⟩
      · exact hk _ _ _ _ e

theorem storeP_like (h h' : FsHandle) (e : h.geo = h'.geo) (head : Int) (v : Val) (l l' : List (Int × FsHandle)) (hl : l.map (fun x => (x.1, x.2.geo)) = l'.map (fun x => (x.1, x.2.geo)))
    (k : WRes → FsProg α) (k' : WRes → FsProg β) (hk : ∀ r, (k r).Like R (k' r)) : (storeP h head v l k).Like R (storeP h' head v l' k') :=
  ⟨e, fun _ => ⟨e, rfl, releaseAllP_like _ _ (hk _) l l' hl⟩⟩

theorem numCases_like {γ δ : Type} (P : γ → δ → Prop) (n : Option Nat) (a b : γ) (c : Nat → γ) (a' b' : δ) (c' : Nat → δ) (ha : P a a') (hb : P b b') (hc : ∀ n, P (c n) (c' n)) : P (numCases n a b c) (numCases n a' b' c') := by
  match n with
  | none => exact ha
  | some 0 => exact hb
  | some (n + 1) => exact hc _

theorem rotateP_like (cfg : Cfg) (last : Int) (h h' : FsHandle) (e : h.geo = h'.geo) (v : Val) (k : WRes → FsProg α) (k' : WRes → FsProg β) (hk : ∀ r, (k r).Like R (k' r)) :
    (rotateP cfg last h v k).Like R (rotateP cfg last h' v k') := by
  rw [rotateP_cases, rotateP_cases]
  refine ⟨rfl, rfl, rfl, fun er => releaseAllP_like _ _ (hk _) _ _ (by simp [e]), fun x y exy => ?_⟩
  dsimp only
  have two : List.map (fun x : Int × FsHandle => (x.1, x.2.geo)) [(last + 1, x), (last, h)] = List.map (fun x => (x.1, x.2.geo)) [(last + 1, y), (last, h')] := by simp [e, exy]
  rw [exy]
  refine numCases_like (fun p q => FsProg.Like R p q) _ _ _ _ _ _ _ (releaseAllP_like _ _ (hk _) _ _ two) (releaseAllP_like _ _ (hk _) _ _ two) (fun n => ?_)
  split
  · exact releaseAllP_like _ _ (hk _) _ _ two
  · exact storeP_like x y exy _ v _ _ two k k' hk

theorem writeP_like (cfg : Cfg) (first last : Int) (v : Val) (k : WRes → FsProg α) (k' : WRes → FsProg β) (hk : ∀ r, (k r).Like R (k' r)) : (writeP cfg first last v k).Like R (writeP cfg first last v k') := by
  rw [writeP_found, writeP_found]
  refine acquireLastP_like cfg first _ _ (fun e => hk _) (fun h h' head l e => ?_) _ last
  have one : List.map (fun x : Int × FsHandle => (x.1, x.2.geo)) [(l, h)] = List.map (fun x => (x.1, x.2.geo)) [(l, h')] := by simp [e]
  have hl : ∀ r, (releaseAllP (k r) [(l, h)]).Like R (releaseAllP (k' r) [(l, h')]) := fun r => releaseAllP_like _ _ (hk r) _ _ one
  unfold writeFound
  refine ⟨e, fun f => ?_⟩
  dsimp only
  split
  · exact hl _
  · rw [e]
    refine numCases_like (fun p q => FsProg.Like R p q) _ _ _ _ _ _ _ (hl _) (hl _) (fun n => ?_)
    split
    · split
      · exact hl _
      · split
        · exact ⟨rfl, rfl, rotateP_like cfg l h h' e v k k' hk⟩
        · exact rotateP_like cfg l h h' e v k k' hk
    · exact storeP_like h h' e _ v _ _ one k k' hk

theorem readP_like {σ : Type} (cfg : Cfg) (bound : Int64) (cb : σ → Val → σ × Cb) (k : σ × Option MErr → FsProg α) (k' : σ × Option MErr → FsProg β) (hk : ∀ r, (k r).Like R (k' r)) (fuel : Nat) :
    ∀ (num : Int) (st : σ), (readP cfg bound cb k fuel num st).Like R (readP cfg bound cb k' fuel num st) := by
  induction fuel with
  | zero => intro num st; exact hk _
  | succ fuel ih =>
    intro num st
    unfold readP
    refine ⟨rfl, rfl, rfl, fun e => hk _, fun x y e => ⟨e, fun f => ?_⟩⟩
    dsimp only
    rcases readFile bound cb f st with ⟨st', c⟩
    cases c with
    | more => exact ⟨rfl, e, ih _ _⟩
    | stop => exact ⟨rfl, e, hk _⟩
    | fail e' => exact ⟨rfl, e, hk _⟩

theorem dbWriteP_like (cfg : Cfg) (v : Val) (names : Option (List Int)) (k : WRes → FsProg α) (k' : WRes → FsProg β) (hk : ∀ r, (k r).Like R (k' r)) : (dbWriteP cfg v names k).Like R (dbWriteP cfg v names k') := by
  unfold dbWriteP
  refine newMetricP_like cfg names _ _ (fun x => ?_)
  rcases x with e | ⟨first, last⟩
  · exact hk _
  · exact writeP_like cfg first last v k k' hk

theorem dbQueryP_like {σ : Type} (cfg : Cfg) (bound : Int64) (cb : σ → Val → σ × Cb) (st : σ) (names : Option (List Int)) (k : σ × Option MErr → FsProg α) (k' : σ × Option MErr → FsProg β) (hk : ∀ r, (k r).Like R (k' r)) :
    (dbQueryP cfg bound cb st names k).Like R (dbQueryP cfg bound cb st names k') := by
  unfold dbQueryP
  refine newMetricP_like cfg names _ _ (fun x => ?_)
  rcases x with e | ⟨first, last⟩
  · exact hk _
  · exact readP_like cfg bound cb k k' hk _ last st

end like

end Rothko
