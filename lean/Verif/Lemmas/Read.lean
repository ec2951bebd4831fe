import Verif.Spec.Query
import Verif.Props.Split
/-! The record loop of `Read` on well-formed (and damaged) slot contents. -/
namespace Rothko

/-- Slots holding the given chunks, some of them unreadable. -/
inductive Slots : List (Except FErr Rec) → List Rec → Prop
  | nil : Slots [] []
  | good (r : Rec) : Slots L l → Slots (.ok r :: L) (r :: l)
  | bad (e : FErr) (r : Rec) : Slots L l → Slots (.error e :: L) (r :: l)

/-- No slot is unreadable. -/
def allOk (L : List (Except FErr Rec)) : Bool := L.all (fun x => match x with | .ok _ => true | .error _ => false)

theorem Slots.append {L M : List (Except FErr Rec)} {l m : List Rec} (h : Slots L l) (h' : Slots M m) : Slots (L ++ M) (l ++ m) := by
  induction h with
  | nil => exact h'
  | good r _ ih => exact .good r ih
  | bad e r _ ih => exact .bad e r ih

theorem Slots.of_ok (l : List Rec) : Slots (l.map .ok) l := by
  induction l with
  | nil => exact .nil
  | cons r l ih => exact .good r ih

theorem allOk_map (l : List Rec) : allOk (l.map .ok) = true := by simp [allOk]

theorem Slots.split {L : List (Except FErr Rec)} {a b : List Rec} (h : Slots L (a ++ b)) :
    ∃ A B, L = A ++ B ∧ Slots A a ∧ Slots B b := by
  induction a generalizing L with
  | nil => exact ⟨[], L, rfl, .nil, h⟩
  | cons r a ih =>
    cases h with
    | good _ h => obtain ⟨A, B, e, h1, h2⟩ := ih h; exact ⟨.ok r :: A, B, by rw [e]; rfl, .good r h1, h2⟩
    | bad e _ h => obtain ⟨A, B, e', h1, h2⟩ := ih h; exact ⟨.error e :: A, B, by rw [e']; rfl, .bad e r h1, h2⟩

/-- Continue and end chunks with no begin are dropped. -/
theorem readSlots_drop (bound : Int64) (cb : σ → Val → σ × Cb) (rest : List (Except FErr Rec)) (st : σ) (L : List (Except FErr Rec)) (l : List Rec)
    (hs : Slots L l) (hk : ∀ r ∈ l, (r.kind = 4 ∨ r.kind = 5) ∨ bound ≤ r.stop) :
    readSlots bound cb none (L ++ rest) st = readSlots bound cb none rest st := by
  induction hs with
  | nil => rfl
  | @good L l r _ ih =>
    have ih := ih (fun x hx => hk x (List.mem_cons_of_mem _ hx))
    simp only [List.cons_append, readSlots]
    by_cases hb : r.stop ≥ bound
    · rw [if_pos hb]; exact ih
    · rw [if_neg hb]
      have hr := hk r List.mem_cons_self
      have h2 : r.kind ≠ kindComplete := by
        rcases hr with (h | h) | h
        · rw [h]; decide
        · rw [h]; decide
        · exact absurd h hb
      have h3 : r.kind ≠ kindBegin := by
        rcases hr with (h | h) | h
        · rw [h]; decide
        · rw [h]; decide
        · exact absurd h hb
      rw [if_neg h2, if_pos h3]; exact ih
  | bad e r _ ih =>
    simp only [List.cons_append, readSlots]
    exact ih (fun x hx => hk x (List.mem_cons_of_mem _ hx))

/-- What one value contributes. -/
def emit (cb : σ → Val → σ × Cb) (v : Val) (k : σ → σ × Ctl) (st : σ) : σ × Ctl :=
  match cb st v with
  | (st, .more) => k st
  | (st, .stop) => (st, .stop)
  | (st, .err) => (st, .fail .callback)
  | (st, .cancel) => (st, .fail .cancelled)

/-- Inside a value: continues and an end. -/
theorem readSlots_tail (bound : Int64) (cb : σ → Val → σ × Cb) (rest : List (Except FErr Rec)) (st : σ) (start stop : Int64)
    (mids : List Rec) (e : Rec) (L : List (Except FErr Rec)) (buf : Bytes)
    (hs : Slots L (mids ++ [e])) (hm : ∀ r ∈ mids, r.kind = 4) (he : e.kind = 5) (hes : e.start = start ∧ e.stop = stop) :
    readSlots bound cb (some buf) (L ++ rest) st =
      if allOk L then emit cb ⟨start, stop, buf ++ ((mids ++ [e]).map Rec.data).flatten⟩ (readSlots bound cb none rest) st
      else readSlots bound cb none rest st := by
  induction mids generalizing L buf with
  | nil =>
    cases hs with
    | good _ h =>
      cases h
      simp only [List.cons_append, List.nil_append, readSlots]
      rw [if_neg (by rw [he]; decide), if_neg (by rw [he]; decide), if_pos (by rfl)]
      simp only [List.map_cons, List.map_nil, List.flatten_cons, List.flatten_nil, List.append_nil, hes.1, hes.2]
      rfl
    | bad x _ h =>
      cases h
      simp only [List.cons_append, List.nil_append, readSlots]
      rw [if_neg (by simp [allOk])]
  | cons r mids ih =>
    cases hs with
    | @good L' _ _ h =>
      have hr : r.kind = kindContinue := hm r List.mem_cons_self
      simp only [List.cons_append, readSlots]
      rw [if_pos hr, ih L' (buf ++ r.data) h (fun x hx => hm x (List.mem_cons_of_mem _ hx))]
      have : allOk (.ok r :: L') = allOk L' := by simp [allOk]
      rw [this]
      simp [List.append_assoc]
    | @bad L' _ x _ h =>
      simp only [List.cons_append, readSlots]
      rw [if_neg (by simp [allOk])]
      apply readSlots_drop _ _ _ _ _ _ h
      intro y hy
      rcases List.mem_append.mp hy with hy | hy
      · exact Or.inl (Or.inl (hm y (List.mem_cons_of_mem _ hy)))
      · rw [List.mem_singleton.mp hy]; exact Or.inl (Or.inr he)

theorem split_kinds {l : List Rec} (h : l.map Rec.kind = [2] ∨ ∃ n, l.map Rec.kind = 3 :: (List.replicate n 4 ++ [5])) :
    (∃ r, l = [r] ∧ r.kind = 2) ∨ ∃ b mids e, l = b :: (mids ++ [e]) ∧ b.kind = 3 ∧ (∀ r ∈ mids, r.kind = 4) ∧ e.kind = 5 := by
  rcases h with h | ⟨n, h⟩
  · rw [List.map_eq_singleton_iff] at h
    exact Or.inl h
  · match l, h with
    | b :: t, h =>
      simp only [List.map_cons, List.cons.injEq] at h
      obtain ⟨hb, ht⟩ := h
      have hne : t ≠ [] := by intro h0; subst h0; simp at ht
      refine Or.inr ⟨b, t.dropLast, t.getLast hne, ?_, hb, ?_, ?_⟩
      · rw [List.dropLast_concat_getLast]
      · intro r hr
        have hmem : r.kind ∈ (t.map Rec.kind).dropLast := by
          rw [← List.map_dropLast]; exact List.mem_map_of_mem hr
        rw [ht, List.dropLast_concat] at hmem
        exact List.eq_of_mem_replicate hmem
      · have : (t.map Rec.kind).getLast (by simp [hne]) = 5 := by simp [ht]
        rw [← this, List.getLast_map]

/-- One value, possibly with unreadable slots. -/
theorem readSlots_value (bound : Int64) (cb : σ → Val → σ × Cb) (rest : List (Except FErr Rec)) (st : σ) (v : Val) (size : Nat)
    (L : List (Except FErr Rec)) (l : List Rec) (hsp : SplitOf v.start v.stop v.data size l) (hs : Slots L l) :
    readSlots bound cb none (L ++ rest) st =
      if allOk L ∧ v.stop < bound then emit cb v (readSlots bound cb none rest) st else readSlots bound cb none rest st := by
  have hnotle : v.stop < bound ↔ ¬ (bound ≤ v.stop) := by
    rw [Int64.lt_iff_toInt_lt, Int64.le_iff_toInt_le]; omega
  by_cases hb : bound ≤ v.stop
  · rw [if_neg (fun h => hnotle.mp h.2 hb)]
    apply readSlots_drop _ _ _ _ _ _ hs
    intro r hr
    rw [(hsp.fits r hr).2.2.2.1]; exact Or.inr hb
  · simp only [hnotle, hb, not_false_eq_true, and_true]
    rcases split_kinds hsp.kinds with ⟨r, rfl, hk⟩ | ⟨b, mids, e, rfl, hkb, hkm, hke⟩
    · have hr := hsp.fits r (by simp)
      have hd : r.data = v.data := by have := hsp.concat; simpa using this
      cases hs with
      | good _ h =>
        cases h
        simp only [List.cons_append, List.nil_append, readSlots]
        rw [if_neg (by rw [hr.2.2.2.1]; exact hb), if_pos (by rw [hk]; rfl), if_pos (by rfl)]
        rw [hr.2.2.1, hr.2.2.2.1, hd]
        rfl
      | bad x _ h =>
        cases h
        simp only [List.cons_append, List.nil_append, readSlots]
        rw [if_neg (by simp [allOk])]
    · have hrb := hsp.fits b (by simp)
      have hre := hsp.fits e (by simp)
      cases hs with
      | @good L' _ _ h =>
        simp only [List.cons_append, readSlots]
        rw [if_neg (by rw [hrb.2.2.2.1]; exact hb), if_neg (by rw [hkb]; decide), if_neg (by rw [hkb]; decide)]
        rw [readSlots_tail bound cb rest st v.start v.stop mids e L' b.data h hkm hke ⟨hre.2.2.1, hre.2.2.2.1⟩]
        have : allOk (.ok b :: L') = allOk L' := by simp [allOk]
        rw [this]
        have hc : b.data ++ ((mids ++ [e]).map Rec.data).flatten = v.data := by
          rw [← hsp.concat]; simp
        rw [hc]
      | @bad L' _ x _ h =>
        simp only [List.cons_append, readSlots]
        rw [if_neg (by simp [allOk])]
        apply readSlots_drop _ _ _ _ _ _ h
        intro y hy
        rcases List.mem_append.mp hy with hy | hy
        · exact Or.inl (Or.inl (hkm y hy))
        · rw [List.mem_singleton.mp hy]; exact Or.inl (Or.inr hke)

/-- The chunks a value is stored as. -/
def chunks (size : Nat) (v : Val) : List Rec :=
  chunksFrom v.start v.stop (size - 24) (decide (v.data.length ≤ size - 24)) kindBegin v.data

theorem chunks_spec (size : Nat) (v : Val) (h1 : 25 ≤ size) (h2 : size ≤ 24 + 65535) :
    iterateRecords v.start v.stop v.data size = .recs (chunks size v) ∧
    numRecords v.data.length size = some (chunks size v).length ∧
    (chunks size v).length = needs size v.data.length ∧ 0 < (chunks size v).length ∧
    SplitOf v.start v.stop v.data size (chunks size v) := by
  obtain ⟨l, n, e1, e2, e3, e4, e5⟩ := C04_split v.start v.stop v.data size h1 h2
  have hl : iterateRecords v.start v.stop v.data size = .recs (chunks size v) := by
    have hinv : chunkInvalid size = false := by
      rw [Bool.eq_false_iff, ne_eq, chunkInvalid_iff]; omega
    have hch : ((size : Int) - (recordHeaderSize : Nat)).toNat = size - 24 := by simp only [recordHeaderSize]; omega
    simp only [iterateRecords, hinv, hch, chunks]
    simp; omega
  rw [hl] at e1
  cases e1
  have hn : n = needs size v.data.length := by
    have hinv : chunkInvalid size = false := by
      rw [Bool.eq_false_iff, ne_eq, chunkInvalid_iff]; omega
    have hch : ((size : Int) - (recordHeaderSize : Nat)).toNat = size - 24 := by simp only [recordHeaderSize]; omega
    simp only [numRecords, hinv, hch] at e2
    simp only [needs]
    by_cases h0 : v.data.length = 0
    · simp [h0] at e2 ⊢; exact e2.symm
    · rw [if_neg h0]
      simp [h0, show size - 24 ≠ 0 by omega] at e2
      exact e2.symm
  exact ⟨hl, by rw [e2, e3], by rw [e3, hn], by omega, e5⟩

/-- Reading slots that hold the chunks of a list of values, none unreadable: all values before the bound, in order. -/
theorem readSlots_values (bound : Int64) (cb : σ → Val → σ × Cb) (size : Nat) (h1 : 25 ≤ size) (h2 : size ≤ 24 + 65535) (vs : List Val) (st : σ) :
    readSlots bound cb none ((vs.flatMap (chunks size)).map .ok) st = visit cb (before bound vs) st := by
  induction vs generalizing st with
  | nil => simp [readSlots, before, visit]
  | cons v vs ih =>
    have hsp := (chunks_spec size v h1 h2).2.2.2.2
    rw [List.flatMap_cons, List.map_append,
      readSlots_value bound cb _ st v size _ _ hsp (Slots.of_ok _), allOk_map]
    unfold before
    by_cases hb : v.stop < bound
    · rw [if_pos ⟨rfl, hb⟩, List.filter_cons_of_pos (by simpa using hb)]
      unfold emit
      simp only [visit]
      rcases cb st v with ⟨st', c⟩
      cases c <;> simp [ih, before]
    · rw [if_neg (fun h => hb h.2), List.filter_cons_of_neg (by simpa using hb)]
      exact ih st

end Rothko
