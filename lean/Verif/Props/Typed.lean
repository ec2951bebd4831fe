import Verif.Props.Params
import Verif.Props.Url
/-!
# C110: a name typed in full
-/
namespace Rothko

/-- Part by part, each part is a piece of its component. -/
inductive Pieces : List Bytes → List Bytes → Prop
  | nil : Pieces [] []
  | cons {part comp : Bytes} {parts comps : List Bytes} : part <:+: comp → Pieces parts comps → Pieces (part :: parts) (comp :: comps)

theorem splitOn_cons (sep c : UInt8) (s : Bytes) (h : c ≠ sep) : ∃ p ps, splitOn sep s = p :: ps ∧ splitOn sep (c :: s) = (c :: p) :: ps := by
  cases e : splitOn sep s with
  | nil => exact absurd e (splitOn_ne_nil sep s)
  | cons p ps =>
    refine ⟨p, ps, rfl, ?_⟩
    rw [splitOn, if_neg h, e]

theorem splitOn_sep (sep : UInt8) (s : Bytes) : splitOn sep (sep :: s) = [] :: splitOn sep s := by
  rw [splitOn, if_pos rfl]

/-- The parts of a beginning are beginnings of the first components. -/
theorem pieces_left (sep : UInt8) (t y : Bytes) : ∃ p ps run post, splitOn sep t = p :: ps ∧ splitOn sep (t ++ y) = run ++ post ∧ ∃ q qs, run = q :: qs ∧ p <+: q ∧ Pieces ps qs := by
  induction t with
  | nil =>
    cases e : splitOn sep y with
    | nil => exact absurd e (splitOn_ne_nil sep y)
    | cons q qs => exact ⟨[], [], [q], qs, rfl, e, q, [], rfl, List.nil_prefix, .nil⟩
  | cons c t ih =>
    obtain ⟨p, ps, run, post, e1, e2, q, qs, rfl, hp, hps⟩ := ih
    by_cases h : c = sep
    · subst h
      refine ⟨[], p :: ps, [] :: q :: qs, post, ?_, ?_, [], q :: qs, rfl, List.nil_prefix, .cons hp.isInfix hps⟩
      · rw [splitOn_sep, e1]
      · rw [List.cons_append, splitOn_sep, e2]; rfl
    · obtain ⟨p', ps', g1, g2⟩ := splitOn_cons sep c t h
      obtain ⟨q', qs', g3, g4⟩ := splitOn_cons sep c (t ++ y) h
      rw [e1] at g1
      cases g1
      rw [e2] at g3
      rw [List.cons_append] at g3
      cases g3
      refine ⟨c :: p, ps, (c :: q) :: qs, post, g2, ?_, c :: q, qs, rfl, ?_, hps⟩
      · rw [List.cons_append, g4]; rfl
      · exact List.cons_prefix_cons.mpr ⟨rfl, hp⟩

/-- The parts of a piece of a text are pieces of consecutive components. -/
theorem pieces_of (sep : UInt8) (x t y : Bytes) : ∃ pre run post, splitOn sep (x ++ t ++ y) = pre ++ run ++ post ∧ Pieces (splitOn sep t) run := by
  induction x with
  | nil =>
    obtain ⟨p, ps, run, post, e1, e2, q, qs, rfl, hp, hps⟩ := pieces_left sep t y
    exact ⟨[], q :: qs, post, e2, by rw [e1]; exact .cons hp.isInfix hps⟩
  | cons c x ih =>
    obtain ⟨pre, run, post, e, hp⟩ := ih
    by_cases h : c = sep
    · subst h
      exact ⟨[] :: pre, run, post, by rw [List.cons_append, List.cons_append, splitOn_sep, e]; rfl, hp⟩
    · obtain ⟨q', qs', g3, g4⟩ := splitOn_cons sep c (x ++ t ++ y) h
      rw [e] at g3
      cases pre with
      | cons r pre =>
        rw [List.cons_append, List.cons_append] at g3
        cases g3
        exact ⟨(c :: q') :: pre, run, post, by rw [List.cons_append, List.cons_append, g4]; rfl, hp⟩
      | nil =>
        cases hs : splitOn sep t with
        | nil => exact absurd hs (splitOn_ne_nil sep t)
        | cons p ps =>
          rw [hs] at hp
          cases hp with
          | @cons _ q _ qs h1 h2 =>
            rw [List.nil_append, List.cons_append] at g3
            cases g3
            refine ⟨[], (c :: q') :: qs, post, by rw [List.cons_append, List.cons_append, g4]; rfl, .cons ?_ h2⟩
            obtain ⟨a, b, e⟩ := h1
            exact ⟨c :: a, b, by rw [← e]; rfl⟩

/-- A text matches itself: a star matches a star. -/
theorem wild_self : ∀ p : Bytes, Wild (p.map lowerByte) p := by
  intro p
  induction p with
  | nil => exact .nil
  | cons c p ih =>
    rw [List.map_cons]
    by_cases hq : lowerByte c = 63
    · rw [hq]; exact .any c ih
    · by_cases hs : lowerByte c = 42
      · rw [hs]; exact .star [c] ih
      · exact .lit _ c hq hs rfl ih

theorem trimStars_lower (p : Bytes) : ∃ k, trimStars (p.map lowerByte) = (p.take k).map lowerByte ∧ (p.getLast? = some 42 → p.drop k ≠ []) := by
  obtain ⟨k, e, _, hk⟩ := trimStars_decomp (p.map lowerByte)
  refine ⟨(trimStars (p.map lowerByte)).length, ?_, fun hl => ?_⟩
  · rw [List.map_take]
    have h := congrArg (List.take (trimStars (p.map lowerByte)).length) e
    rw [List.take_left' rfl] at h
    exact h.symm
  · intro hd
    have hl' : (p.map lowerByte).getLast? = some 42 := by
      rw [List.getLast?_map, hl]; rfl
    have h0 := hk.mp hl'
    have h1 := congrArg List.length e
    rw [List.length_append, List.length_replicate, List.length_map] at h1
    have h2 := List.drop_eq_nil_iff.mp hd
    omega

theorem contains_piece {part comp : Bytes} (h : part <:+: comp) (hc : comp ≠ []) : Contains part comp := by
  obtain ⟨a, c, e⟩ := h
  obtain ⟨k, e1, e2⟩ := trimStars_lower part
  refine ⟨hc, a, part.take k, part.drop k ++ c, ?_, ?_, fun hl h => e2 hl (List.append_eq_nil_iff.mp h).1⟩
  · have h := List.take_append_drop k part
    rw [← e, List.append_assoc a, List.append_assoc a, ← List.append_assoc (part.take k), h]
  · rw [e1]; exact wild_self _

/-- A piece of a name finds the name, if no component of it is empty. -/
theorem piece_matches {t m : Bytes} (h : t <:+: m) (hm : ∀ comp ∈ splitOn 46 m, comp ≠ []) : TermMatches t m := by
  obtain ⟨x, y, e⟩ := h
  obtain ⟨pre, run, post, e1, e2⟩ := pieces_of 46 x t y
  rw [e] at e1
  refine ⟨pre, run, post, e1, ?_⟩
  have hrun : ∀ comp ∈ run, comp ≠ [] := fun comp hc => hm comp (by rw [e1]; simp [hc])
  clear e1
  generalize splitOn 46 t = parts at e2
  induction e2 with
  | nil => exact .nil
  | cons h1 _ ih => exact .cons (contains_piece h1 (hrun _ List.mem_cons_self)) (ih (fun c hc => hrun c (List.mem_cons_of_mem _ hc)))

theorem chars_flat {s : Bytes} {cs : List (Nat × Bytes)} (h : Chars s cs) : cs.flatMap (·.2) = s := by
  induction h with
  | nil => rfl
  | char r _ _ ih => rw [List.flatMap_cons, ih]
  | broken b _ _ ih => rw [List.flatMap_cons, ih]; rfl

theorem words_infix {fs : List Bytes} {cs : List (Nat × Bytes)} (h : Words fs cs) : ∀ t ∈ fs, t <:+: cs.flatMap (·.2) := by
  induction h with
  | nil => intro t ht; cases ht
  | cons sp f _ _ _ _ _ ih =>
    intro t ht
    rw [List.flatMap_append, List.flatMap_append]
    rcases List.mem_cons.mp ht with rfl | ht
    · exact ⟨_, _, rfl⟩
    · exact (ih t ht).trans (List.suffix_append _ _).isInfix

/-- **C110** (typed in full). A name without an empty component between its dots, typed in full as a query, is found: each term of the query matches it, and so does each term of any piece of the name. -/
theorem C110_typed (m q : Bytes) (hq : q <:+: m) (hm : ∀ comp ∈ splitOn 46 m, comp ≠ []) : ∀ t ∈ fields q, TermMatches t m := by
  intro t ht
  obtain ⟨cs, h1, h2⟩ := C40_terms q
  have h3 := words_infix h2 t ht
  rw [chars_flat h1] at h3
  exact piece_matches (h3.trans hq) hm

/-- Test: a name with spaces in its components. -/
theorem C110_typed_example : fields "a b.c d*".toUTF8.toList = ["a".toUTF8.toList, "b.c".toUTF8.toList, "d*".toUTF8.toList] ∧ ∀ comp ∈ splitOn 46 "a b.c d*".toUTF8.toList, comp ≠ [] := by decide +kernel

/-- **Not every name.** A name with two dots in a row is not found by typing it. -/
theorem C110_typed_refuted : fields "a..b".toUTF8.toList = ["a..b".toUTF8.toList] ∧ ¬ TermMatches "a..b".toUTF8.toList "a..b".toUTF8.toList := by
  rw [← C39_match]
  decide +kernel

end Rothko
