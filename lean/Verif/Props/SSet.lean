import Verif.Model.SSet
/-!
# C34: sorted string sets
-/
namespace Rothko

theorem strLt_irrefl (a : Bytes) : strLt a a = false := by
  induction a with
  | nil => rfl
  | cons x l ih => simp [strLt, ih]

theorem strLt_trans {a b c : Bytes} (h1 : strLt a b = true) (h2 : strLt b c = true) : strLt a c = true := by
  induction a generalizing b c with
  | nil =>
    cases c with
    | nil => cases b <;> simp [strLt] at h2
    | cons z n => rfl
  | cons x l ih =>
    cases b with
    | nil => simp [strLt] at h1
    | cons y m =>
      cases c with
      | nil => simp [strLt] at h2
      | cons z n =>
        simp only [strLt, Bool.or_eq_true, decide_eq_true_eq, Bool.and_eq_true, beq_iff_eq] at *
        rcases h1 with h1 | ⟨rfl, h1⟩ <;> rcases h2 with h2 | ⟨rfl, h2⟩
        · exact Or.inl (UInt8.lt_trans h1 h2)
        · exact Or.inl h1
        · exact Or.inl h2
        · exact Or.inr ⟨rfl, ih h1 h2⟩

theorem strLt_tri (a b : Bytes) : strLt a b = true ∨ a = b ∨ strLt b a = true := by
  induction a generalizing b with
  | nil =>
    cases b with
    | nil => exact Or.inr (Or.inl rfl)
    | cons y m => exact Or.inl rfl
  | cons x l ih =>
    cases b with
    | nil => exact Or.inr (Or.inr rfl)
    | cons y m =>
      simp only [strLt, Bool.or_eq_true, decide_eq_true_eq, Bool.and_eq_true, beq_iff_eq]
      by_cases h : x = y
      · subst h
        rcases ih m with h | h | h
        · exact Or.inl (Or.inr ⟨rfl, h⟩)
        · exact Or.inr (Or.inl (by rw [h]))
        · exact Or.inr (Or.inr (Or.inr ⟨rfl, h⟩))
      · have h' : x.toNat ≠ y.toNat := fun hh => h (UInt8.toNat_inj.mp hh)
        rcases Nat.lt_or_gt_of_ne h' with h' | h'
        · exact Or.inl (Or.inl h')
        · exact Or.inr (Or.inr (Or.inl h'))

/-- In strictly increasing order. -/
def Sorted (l : List Bytes) : Prop := l.Pairwise (fun a b => strLt a b = true)

theorem sorted_get {l : List Bytes} (h : Sorted l) {i j : Nat} {a b : Bytes} (hi : l[i]? = some a) (hj : l[j]? = some b) (hij : i < j) : strLt a b = true := by
  obtain ⟨hi', rfl⟩ := List.getElem?_eq_some_iff.mp hi
  obtain ⟨hj', rfl⟩ := List.getElem?_eq_some_iff.mp hj
  exact List.pairwise_iff_getElem.mp h i j hi' hj' hij

/-- The search finds the first position not less than `x`. -/
theorem searchFrom_spec {l : List Bytes} (hs : Sorted l) (x : Bytes) {i j : Nat} (hij : i ≤ j) (hj : j ≤ l.length)
    (h1 : ∀ k y, k < i → l[k]? = some y → strLt y x = true) (h2 : ∀ k y, j ≤ k → l[k]? = some y → strLt y x = false) :
    searchFrom l x i j ≤ l.length ∧ (∀ k y, k < searchFrom l x i j → l[k]? = some y → strLt y x = true) ∧
      (∀ k y, searchFrom l x i j ≤ k → l[k]? = some y → strLt y x = false) := by
  induction hn : j - i using Nat.strongRecOn generalizing i j with
  | ind n ih =>
    rw [searchFrom]
    split
    · rename_i hlt
      have hm : (i + j) / 2 < l.length := by omega
      rw [List.getElem?_eq_getElem hm]
      simp only
      split
      · rename_i hc
        refine ih (j - ((i + j) / 2 + 1)) (by omega) (by omega) hj ?_ h2 rfl
        intro k y hk hy
        by_cases hk' : k = (i + j) / 2
        · subst hk'; rw [List.getElem?_eq_getElem hm] at hy; cases hy; exact hc
        · exact strLt_trans (sorted_get hs hy (List.getElem?_eq_getElem hm) (by omega)) hc
      · rename_i hc
        refine ih ((i + j) / 2 - i) (by omega) (by omega) (by omega) h1 ?_ rfl
        intro k y hk hy
        by_cases hk' : k = (i + j) / 2
        · subst hk'; rw [List.getElem?_eq_getElem hm] at hy; cases hy; simpa using hc
        · cases hyx : strLt y x with
          | false => rfl
          | true => exact absurd (strLt_trans (sorted_get hs (List.getElem?_eq_getElem hm) hy (by omega)) hyx) hc
    · have : i = j := by omega
      subst this
      exact ⟨hj, h1, h2⟩

theorem insertAt_eq {l : List Bytes} {i : Nat} (hi : i ≤ l.length) (x : Bytes) : insertAt l i x = l.take i ++ x :: l.drop i := by
  apply List.ext_getElem?
  intro k
  simp only [insertAt]
  by_cases hk : k = i
  · subst hk
    rw [List.getElem?_set_self (by simp; omega), List.getElem?_append_right (by simp; omega)]
    simp [Nat.min_eq_left hi]
  · rw [List.getElem?_set_ne (fun h => hk h.symm)]
    by_cases hlt : k < i
    · rw [List.getElem?_append_left (by simp; omega), List.getElem?_append_left (by simp; omega), List.getElem?_take_of_lt (by omega),
        List.getElem?_take_of_lt hlt, List.getElem?_append_left (by omega)]
    · rw [List.getElem?_append_right (by simp; omega), List.getElem?_append_right (by simp; omega)]
      simp only [List.length_take, List.length_append, List.length_cons, List.length_nil]
      rw [show min (i + 1) (l.length + (0 + 1)) = i + 1 by omega, Nat.min_eq_left hi]
      rw [show k - i = (k - (i + 1)) + 1 by omega, List.getElem?_cons_succ, List.getElem?_drop]
      by_cases hkl : k ≤ l.length
      · rw [List.getElem?_take_of_lt (by omega), List.getElem?_drop, List.getElem?_append_left (by omega)]
      · rw [List.getElem?_eq_none (by simp; omega), List.getElem?_eq_none (by omega)]

/-- The representation of the set with elements `els`. -/
structure SSet.Is (s : SSet) (els : List Bytes) : Prop where
  has : ∀ x, s.set x = true ↔ x ∈ els
  mem : ∀ x, x ∈ s.order ↔ x ∈ els
  sorted : Sorted s.order

theorem SSet.Is.add {s : SSet} {els : List Bytes} (h : s.Is els) (x : Bytes) : (s.add x).Is (x :: els) := by
  unfold SSet.add
  by_cases hx : s.set x = true
  · rw [if_pos hx]
    have hm := (h.has x).mp hx
    refine ⟨fun y => ?_, fun y => ?_, h.sorted⟩
    · rw [h.has]; constructor
      · exact fun hy => List.mem_cons_of_mem _ hy
      · intro hy; rcases List.mem_cons.mp hy with rfl | hy
        · exact hm
        · exact hy
    · rw [h.mem]; constructor
      · exact fun hy => List.mem_cons_of_mem _ hy
      · intro hy; rcases List.mem_cons.mp hy with rfl | hy
        · exact hm
        · exact hy
  · rw [if_neg hx]
    have hn : x ∉ s.order := fun hh => hx ((h.has x).mpr ((h.mem x).mp hh))
    obtain ⟨hb, hlo, hhi⟩ := searchFrom_spec h.sorted x (Nat.zero_le _) (Nat.le_refl _) (fun k y hk _ => by omega)
      (fun k y hk hy => by rw [List.getElem?_eq_none hk] at hy; cases hy)
    generalize searchFrom s.order x 0 s.order.length = i at hb hlo hhi
    refine ⟨fun y => ?_, fun y => ?_, ?_⟩
    · by_cases hy : y = x
      · simp [hy]
      · simp [hy, h.has]
    · rw [insertAt_eq hb, List.mem_append, List.mem_cons, List.mem_cons, ← h.mem]
      constructor
      · rintro (hy | hy | hy)
        · exact Or.inr (List.mem_of_mem_take hy)
        · exact Or.inl hy
        · exact Or.inr (List.mem_of_mem_drop hy)
      · rintro (hy | hy)
        · exact Or.inr (Or.inl hy)
        · rw [← List.take_append_drop i s.order, List.mem_append] at hy
          rcases hy with hy | hy
          · exact Or.inl hy
          · exact Or.inr (Or.inr hy)
    · show Sorted (insertAt s.order i x)
      rw [insertAt_eq hb]
      have hlo' : ∀ a ∈ s.order.take i, strLt a x = true := by
        intro a ha
        obtain ⟨k, hk⟩ := List.mem_iff_getElem?.mp ha
        have hki : k < i := by
          have := (List.getElem?_eq_some_iff.mp hk).1; simp at this; omega
        rw [List.getElem?_take_of_lt hki] at hk
        exact hlo k a hki hk
      have hhi' : ∀ a ∈ s.order.drop i, strLt x a = true := by
        intro a ha
        obtain ⟨k, hk⟩ := List.mem_iff_getElem?.mp ha
        rw [List.getElem?_drop] at hk
        have h3 := hhi (i + k) a (by omega) hk
        rcases strLt_tri x a with h4 | h4 | h4
        · exact h4
        · subst h4; exact absurd (List.mem_of_getElem? hk) hn
        · rw [h3] at h4; cases h4
      refine List.pairwise_append.mpr ⟨h.sorted.sublist (List.take_sublist _ _), List.pairwise_cons.mpr ⟨hhi', h.sorted.sublist (List.drop_sublist _ _)⟩, ?_⟩
      intro a ha b hb'
      rcases List.mem_cons.mp hb' with rfl | hb'
      · exact hlo' a ha
      · exact strLt_trans (hlo' a ha) (hhi' b hb')

theorem SSet.Is.congr {s : SSet} {a b : List Bytes} (h : s.Is a) (hab : ∀ x, x ∈ a ↔ x ∈ b) : s.Is b :=
  ⟨fun x => (h.has x).trans (hab x), fun x => (h.mem x).trans (hab x), h.sorted⟩

theorem SSet.Is.new : SSet.new.Is [] := ⟨by simp [SSet.new], by simp [SSet.new], List.Pairwise.nil⟩

theorem SSet.Is.addAll {s : SSet} {els : List Bytes} (h : s.Is els) (l : List Bytes) : (l.foldl SSet.add s).Is (els ++ l) := by
  induction l generalizing s els with
  | nil => simpa using h
  | cons x l ih =>
    rw [List.foldl_cons]
    exact (ih (h.add x)).congr (fun y => by simp [or_left_comm])

theorem SSet.Is.merge {s o : SSet} {a b : List Bytes} (hs : s.Is a) (ho : o.Is b) : (s.merge o).Is (a ++ b) :=
  (hs.addAll o.order).congr (fun x => by simp [ho.mem])

theorem copyLoop (l : List Bytes) (out : SSet) :
    l.foldl (fun out key => (⟨fun y => if y = key then true else out.set y, out.order ++ [key]⟩ : SSet)) out =
      ⟨fun y => if y ∈ l then true else out.set y, out.order ++ l⟩ := by
  induction l generalizing out with
  | nil => simp
  | cons x l ih =>
    rw [List.foldl_cons, ih]
    congr 1
    · funext y
      by_cases h1 : y ∈ l
      · simp [h1]
      · by_cases h2 : y = x <;> simp [h1, h2]
    · simp

theorem SSet.Is.copy {s : SSet} {els : List Bytes} (h : s.Is els) : s.copy.Is els := by
  unfold SSet.copy
  rw [copyLoop]
  refine ⟨fun x => ?_, fun x => ?_, ?_⟩
  · have := h.mem x
    simp only [SSet.new]
    by_cases hx : x ∈ s.order
    · simp [hx, this.mp hx]
    · rw [if_neg hx]; simp only [Bool.false_eq_true, false_iff]; exact fun hh => hx (this.mpr hh)
  · simpa [SSet.new] using h.mem x
  · simpa [SSet.new] using h.sorted

/-! ## Specification: for each handle, the strings added to it so far (with repetitions, in any order) -/

def SOp.spec (sets : List (List Bytes)) : SOp → List (List Bytes)
  | .new => sets ++ [[]]
  | .add h x => match sets[h]? with | some l => sets.set h (x :: l) | none => sets
  | .copy h => match sets[h]? with | some l => sets ++ [l] | none => sets
  | .merge h g => match sets[h]?, sets[g]? with | some l, some m => sets.set h (l ++ m) | _, _ => sets

/-- Element by element. -/
inductive Heap.Is : List SSet → List (List Bytes) → Prop
  | nil : Heap.Is [] []
  | cons {s : SSet} {l : List Bytes} {heap : List SSet} {sets : List (List Bytes)} : s.Is l → Heap.Is heap sets → Heap.Is (s :: heap) (l :: sets)

theorem forall₂_get {heap : List SSet} {sets : List (List Bytes)} (h : Heap.Is heap sets) (i : Nat) :
    (heap[i]? = none ∧ sets[i]? = none) ∨ ∃ s l, heap[i]? = some s ∧ sets[i]? = some l ∧ s.Is l := by
  induction h generalizing i with
  | nil => exact Or.inl ⟨rfl, rfl⟩
  | cons hab _ ih =>
    cases i with
    | zero => exact Or.inr ⟨_, _, rfl, rfl, hab⟩
    | succ i => simpa using ih i

theorem forall₂_set {heap : List SSet} {sets : List (List Bytes)} (h : Heap.Is heap sets) (i : Nat) {s : SSet} {l : List Bytes} (hs : s.Is l) :
    Heap.Is (heap.set i s) (sets.set i l) := by
  induction h generalizing i with
  | nil => exact Heap.Is.nil
  | cons hab hr ih =>
    cases i with
    | zero => exact Heap.Is.cons hs hr
    | succ i => exact Heap.Is.cons hab (ih i)

theorem forall₂_snoc {heap : List SSet} {sets : List (List Bytes)} (h : Heap.Is heap sets) {s : SSet} {l : List Bytes} (hs : s.Is l) :
    Heap.Is (heap ++ [s]) (sets ++ [l]) := by
  induction h with
  | nil => exact Heap.Is.cons hs Heap.Is.nil
  | cons hab _ ih => exact Heap.Is.cons hab ih

theorem SOp.run_is {heap : List SSet} {sets : List (List Bytes)} (h : Heap.Is heap sets) (op : SOp) : Heap.Is (op.run heap) (op.spec sets) := by
  cases op with
  | new => exact forall₂_snoc h .new
  | add i x =>
    rcases forall₂_get h i with ⟨h1, h2⟩ | ⟨s, l, h1, h2, hs⟩
    · simpa only [SOp.run, SOp.spec, h1, h2] using h
    · simp only [SOp.run, SOp.spec, h1, h2]; exact forall₂_set h i (hs.add x)
  | copy i =>
    rcases forall₂_get h i with ⟨h1, h2⟩ | ⟨s, l, h1, h2, hs⟩
    · simpa only [SOp.run, SOp.spec, h1, h2] using h
    · simp only [SOp.run, SOp.spec, h1, h2]; exact forall₂_snoc h hs.copy
  | merge i j =>
    rcases forall₂_get h i with ⟨h1, h2⟩ | ⟨s, l, h1, h2, hs⟩
    · simpa only [SOp.run, SOp.spec, h1, h2] using h
    · rcases forall₂_get h j with ⟨h3, h4⟩ | ⟨o, m, h3, h4, ho⟩
      · simpa only [SOp.run, SOp.spec, h1, h2, h3, h4] using h
      · simp only [SOp.run, SOp.spec, h1, h2, h3, h4]; exact forall₂_set h i (hs.merge ho)

/-- **C34**: after any program, for any handle: membership is exactly the strings added (directly, by merging or by copying), the order holds exactly them,
strictly increasing. A copy made earlier is a different handle, so it does not see later additions. -/
theorem C34_sets (ops : List SOp) (i : Nat) :
    (∀ s, (ops.foldl SOp.run [])[i]? = some s → ∃ els, (ops.foldl SOp.spec [])[i]? = some els ∧ (∀ x, s.has x = true ↔ x ∈ els) ∧ (∀ x, x ∈ s.order ↔ x ∈ els) ∧ Sorted s.order) ∧
    (ops.foldl SOp.run []).length = (ops.foldl SOp.spec []).length := by
  have hall : ∀ heap sets, Heap.Is heap sets → Heap.Is (ops.foldl SOp.run heap) (ops.foldl SOp.spec sets) := by
    induction ops with
    | nil => exact fun _ _ h => h
    | cons op ops ih => exact fun heap sets h => ih _ _ (SOp.run_is h op)
  have h := hall [] [] Heap.Is.nil
  refine ⟨fun s hs => ?_, ?_⟩
  · rcases forall₂_get h i with ⟨h1, _⟩ | ⟨s', l, h1, h2, h3⟩
    · rw [h1] at hs; cases hs
    · rw [h1] at hs; cases hs
      exact ⟨l, h2, h3.has, h3.mem, h3.sorted⟩
  · generalize ops.foldl SOp.run [] = a at h
    generalize ops.foldl SOp.spec [] = b at h
    clear hall
    induction h with
    | nil => rfl
    | cons _ _ ih => simp [ih]

/-- **C34**: a strictly increasing list has no duplicates, so `Len` is the number of distinct elements. -/
theorem C34_nodup {l : List Bytes} (h : Sorted l) : l.Nodup :=
  h.imp (fun hab hh => by subst hh; rw [strLt_irrefl] at hab; cases hab)

/-- **C34**: the iteration order is determined by the elements alone. -/
theorem C34_order_unique {l m : List Bytes} (hl : Sorted l) (hm : Sorted m) (h : ∀ x, x ∈ l ↔ x ∈ m) : l = m := by
  induction l generalizing m with
  | nil =>
    cases m with
    | nil => rfl
    | cons y m => exact absurd ((h y).mpr (by simp)) (by simp)
  | cons x l ih =>
    cases m with
    | nil => exact absurd ((h x).mp (by simp)) (by simp)
    | cons y m =>
      have hl' := List.pairwise_cons.mp hl
      have hm' := List.pairwise_cons.mp hm
      have hxy : x = y := by
        rcases List.mem_cons.mp ((h x).mp (by simp)) with h1 | h1
        · exact h1
        · rcases List.mem_cons.mp ((h y).mpr (by simp)) with h2 | h2
          · exact h2.symm
          · have h3 := strLt_trans (hm'.1 x h1) (hl'.1 y h2)
            rw [strLt_irrefl] at h3; cases h3
      subst hxy
      congr 1
      refine ih hl'.2 hm'.2 (fun z => ?_)
      have hz := h z
      simp only [List.mem_cons] at hz
      constructor
      · intro hh
        rcases hz.mp (Or.inr hh) with h1 | h1
        · subst h1; have := hl'.1 z hh; rw [strLt_irrefl] at this; cases this
        · exact h1
      · intro hh
        rcases hz.mpr (Or.inr hh) with h1 | h1
        · subst h1; have := hm'.1 z hh; rw [strLt_irrefl] at this; cases this
        · exact h1

theorem iterLoop_seen {σ : Type} (cb : σ → Bytes → σ × Bool) (l : List Bytes) (st : σ) (seen : List Bytes) :
    ∃ n, (iterLoop cb l st seen).2 = seen ++ l.take n ∧ ((∀ st x, (cb st x).2 = true) → l.length ≤ n) := by
  induction l generalizing st seen with
  | nil => exact ⟨0, by simp [iterLoop], by simp⟩
  | cons x l ih =>
    simp only [iterLoop]
    split
    · obtain ⟨n, h1, h2⟩ := ih (cb st x).1 (seen ++ [x])
      exact ⟨n + 1, by rw [h1]; simp, fun hc => by simpa using h2 hc⟩
    · rename_i hf
      exact ⟨1, by simp, fun hc => absurd (hc st x) hf⟩

/-- **C34**: `Iter` visits a prefix of the elements in increasing order, and all of them if the callback never stops it. -/
theorem C34_iter {σ : Type} (s : SSet) (cb : σ → Bytes → σ × Bool) (st : σ) :
    (∃ n, (s.iter cb st).2 = s.order.take n) ∧ ((∀ st x, (cb st x).2 = true) → (s.iter cb st).2 = s.order) := by
  obtain ⟨n, h1, h2⟩ := iterLoop_seen cb s.order st []
  refine ⟨⟨n, by simpa [SSet.iter] using h1⟩, fun hc => ?_⟩
  rw [SSet.iter, h1, List.take_of_length_le (h2 hc)]; rfl

/-- A concrete program: the copy does not see the addition made after it. -/
theorem C34_example : ([SOp.new, .add 0 [3], .add 0 [1], .copy 0, .add 0 [2], .add 0 [1]].foldl SOp.run []).map SSet.order = [[[1], [2], [3]], [[1], [3]]] := by
  decide +kernel

end Rothko
