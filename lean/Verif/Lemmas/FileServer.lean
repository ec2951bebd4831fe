import Verif.Spec.FileServer
import Verif.Props.Tgzfs
/-! Lemmas for C117. -/
namespace Rothko

theorem splitSlash_ne (p : Bytes) : splitSlash p ≠ [] := by
  cases p with
  | nil => simp [splitSlash]
  | cons c p =>
    unfold splitSlash
    split
    · simp
    · split <;> simp

theorem splitSlash_elem (e : Bytes) (h : 47 ∉ e) : splitSlash e = [e] := by
  induction e with
  | nil => rfl
  | cons c e ih =>
    rw [splitSlash, if_neg (fun g => h (by rw [g]; simp)), ih (fun g => h (by simp [g]))]

theorem splitSlash_cut (e r : Bytes) (h : 47 ∉ e) : splitSlash (e ++ 47 :: r) = e :: splitSlash r := by
  induction e with
  | nil => rw [List.nil_append, splitSlash, if_pos rfl]
  | cons c e ih =>
    rw [List.cons_append, splitSlash, if_neg (fun g => h (by rw [g]; simp)), ih (fun g => h (by simp [g]))]

theorem splitSlash_mem (p : Bytes) : ∀ e ∈ splitSlash p, 47 ∉ e := by
  induction p with
  | nil => intro e he; simp [splitSlash] at he; subst he; simp
  | cons c p ih =>
    intro e he
    rw [splitSlash] at he
    split at he
    · rcases List.mem_cons.mp he with rfl | he
      · simp
      · exact ih e he
    · next hc =>
      cases hs : splitSlash p with
      | nil => exact absurd hs (splitSlash_ne p)
      | cons f fs =>
        rw [hs] at he ih
        rcases List.mem_cons.mp he with rfl | he
        · intro g
          rcases List.mem_cons.mp g with g | g
          · exact hc g.symm
          · exact ih f (by simp) g
        · exact ih e (by simp [he])

/-- The elements of a path and what follows it. -/
theorem splitSlash_url (q : List Bytes) (hq : ∀ e ∈ q, 47 ∉ e) (r : Bytes) : splitSlash (urlOf q ++ 47 :: r) = [] :: (q ++ splitSlash r) := by
  induction q with
  | nil =>
    show splitSlash (47 :: r) = _
    rw [splitSlash, if_pos rfl]; rfl
  | cons e q ih =>
    have e1 : urlOf (e :: q) ++ 47 :: r = 47 :: (e ++ (urlOf q ++ 47 :: r)) := by simp [urlOf]
    rw [e1, splitSlash, if_pos rfl]
    have ih := ih (fun x hx => hq x (by simp [hx]))
    have hne : ∃ t, urlOf q ++ 47 :: r = 47 :: t := by
      cases q with
      | nil => exact ⟨r, rfl⟩
      | cons a q => exact ⟨_, rfl⟩
    obtain ⟨t, ht⟩ := hne
    rw [ht] at ih ⊢
    rw [splitSlash_cut e t (hq e (by simp))]
    rw [splitSlash, if_pos rfl] at ih
    injection ih with _ ih
    rw [ih]
    rfl

theorem splitSlash_url' (q : List Bytes) (hq : ∀ e ∈ q, 47 ∉ e) (hne : q ≠ []) : splitSlash (urlOf q) = [] :: q := by
  obtain ⟨q', e, rfl⟩ : ∃ q' e, q = q' ++ [e] := ⟨q.dropLast, q.getLast hne, (List.dropLast_concat_getLast hne).symm⟩
  have h : urlOf (q' ++ [e]) = urlOf q' ++ 47 :: e := by simp [urlOf]
  rw [h, splitSlash_url q' (fun x hx => hq x (by simp [hx])), splitSlash_elem e (hq e (by simp))]

theorem cleanFold (q acc : List Bytes) (hq : ∀ e ∈ q, PathElem e) : q.foldl (cleanStep true) acc = q.reverse ++ acc := by
  induction q generalizing acc with
  | nil => rfl
  | cons e q ih =>
    obtain ⟨h1, h2, h3, _⟩ := hq e (by simp)
    have : cleanStep true acc e = e :: acc := by
      unfold cleanStep
      rw [if_neg (by rintro (g | g); exact h1 g; exact h2 g), if_neg h3]
    rw [List.foldl_cons, this, ih _ (fun x hx => hq x (by simp [hx]))]
    simp

theorem clean_url (q : List Bytes) (hq : ∀ e ∈ q, PathElem e) (hne : q ≠ []) : cleanParts (urlOf q) = q := by
  have hh : (urlOf q).head? = some 47 := by cases q with | nil => exact absurd rfl hne | cons a q => rfl
  unfold cleanParts
  rw [hh, splitSlash_url' q (fun e he => (hq e he).2.2.2) hne]
  simp only [decide_true, if_true, List.foldl_cons]
  rw [show cleanStep true [] [] = [] from rfl, cleanFold q [] hq]
  simp

theorem clean_url_slash (q : List Bytes) (hq : ∀ e ∈ q, PathElem e) : cleanParts (urlOf q ++ [47]) = q := by
  have hh : (urlOf q ++ [47]).head? = some 47 := by cases q with | nil => rfl | cons a q => rfl
  unfold cleanParts
  rw [hh, splitSlash_url q (fun e he => (hq e he).2.2.2)]
  simp only [decide_true, if_true, List.foldl_cons, List.foldl_append]
  rw [show cleanStep true [] [] = [] from rfl, cleanFold q [] hq]
  show (cleanStep true (q.reverse ++ []) []).reverse = q
  rw [show cleanStep true (q.reverse ++ []) [] = q.reverse ++ [] from rfl]
  simp

/-- The elements of a cleaned path that begins with a slash. -/
theorem clean_elems (p : Bytes) (h : p.head? = some 47) : ∀ e ∈ cleanParts p, PathElem e := by
  cases p with
  | nil => cases h
  | cons c p =>
    injection h with h
    subst h
    intro e he
    obtain ⟨h1, h2, h3⟩ := C58_rooted p e he
    refine ⟨h1, h2, h3, ?_⟩
    have gen : ∀ (l acc : List Bytes), (∀ e ∈ l, (47 : UInt8) ∉ e) → (∀ e ∈ acc, (47 : UInt8) ∉ e) → ∀ e ∈ l.foldl (cleanStep true) acc, (47 : UInt8) ∉ e := by
      intro l
      induction l with
      | nil => intro acc _ h; exact h
      | cons a l ih =>
        intro acc hl ha
        refine ih _ (fun x hx => hl x (by simp [hx])) ?_
        unfold cleanStep
        intro x hx
        split at hx
        · exact ha x hx
        · split at hx
          · split at hx
            · simp at hx
            · next t r =>
              split at hx
              · rcases List.mem_cons.mp hx with rfl | hx
                · decide
                · exact ha x hx
              · exact ha x (by simp [hx])
          · rcases List.mem_cons.mp hx with rfl | hx
            · exact hl x (by simp)
            · exact ha x hx
    unfold cleanParts at he
    simp only [List.head?_cons, decide_true, if_true] at he
    exact gen _ [] (splitSlash_mem _) (by simp) e (List.mem_reverse.mp he)

theorem cleanText_parts (p : Bytes) (h : p.head? = some 47) : cleanParts (cleanText p) = cleanParts p := by
  unfold cleanText
  by_cases hq : cleanParts p = []
  · rw [if_pos hq, hq]; decide
  · rw [if_neg hq]
    exact clean_url _ (clean_elems p h) hq

theorem pathElem_index : PathElem indexName := by unfold PathElem; decide

/-- The name under which the index of a directory is looked for. -/
theorem indexPath (p : Bytes) (h : p.head? = some 47) : (if cleanText p = [47] then [] else cleanText p) ++ 47 :: indexName = urlOf (cleanParts p ++ [indexName]) := by
  unfold cleanText
  by_cases hq : cleanParts p = []
  · rw [if_pos hq, if_pos rfl, hq]; rfl
  · rw [if_neg hq]
    have hne : (cleanParts p).flatMap (fun e => 47 :: e) ≠ [47] := by
      intro g
      cases hc : cleanParts p with
      | nil => exact hq hc
      | cons a q =>
        rw [hc] at g
        injection g with _ g
        have : a = [] := (List.append_eq_nil_iff.mp g).1
        exact (clean_elems p h a (by rw [hc]; simp)).1 this
    rw [if_neg hne]
    simp [urlOf]

theorem suffix_index {q : List Bytes} {last : Bytes} : (47 :: indexName) <:+ urlOf (q ++ [last]) ↔ indexName = last ∨ (47 :: indexName) <:+ last := by
  have h : urlOf (q ++ [last]) = urlOf q ++ 47 :: last := by simp [urlOf]
  rw [h]
  constructor
  · rintro ⟨t, ht⟩
    rw [List.append_eq_append_iff] at ht
    rcases ht with ⟨a, h1, h2⟩ | ⟨a, h1, h2⟩
    · cases a with
      | nil => rw [List.nil_append] at h2; injection h2 with _ h2; exact .inl h2
      | cons b a => 
        injection h2 with _ h2
        exfalso
        have : (47 : UInt8) ∈ indexName := by rw [h2]; simp
        revert this; decide
    · cases a with
      | nil => rw [List.nil_append] at h2; injection h2 with _ h2; exact .inl h2.symm
      | cons b a =>
        injection h2 with hb h2
        exact .inr ⟨a, h2.symm⟩
  · rintro (rfl | ⟨t, rfl⟩)
    · exact List.suffix_append _ _
    · exact ⟨urlOf q ++ 47 :: t, by simp⟩

end Rothko
