import Verif.Model.Query
/-! Helper lemmas for C38–C40. -/
namespace Rothko

/-- What `glob` accepts, step by step. -/
inductive Glob : Bytes → Bytes → Prop
  | nil (s : Bytes) : Glob [] s
  | any {p s : Bytes} (n : UInt8) : Glob p s → Glob (63 :: p) (n :: s)
  | lit {p s : Bytes} {c n : UInt8} : c ≠ 63 → c ≠ 42 → lowerByte n = c → Glob p s → Glob (c :: p) (n :: s)
  | zero {p s : Bytes} (n : UInt8) : Glob p (n :: s) → Glob (42 :: p) (n :: s)
  | more {p s : Bytes} (n : UInt8) : Glob (42 :: p) s → Glob (42 :: p) (n :: s)

theorem Glob.nil_right {p : Bytes} (h : Glob p []) : p = [] := by cases h; rfl

theorem Glob.any_iff {p s : Bytes} {n : UInt8} : Glob (63 :: p) (n :: s) ↔ Glob p s := by
  constructor
  · intro h; cases h with
    | any _ h => exact h
    | lit h => exact absurd rfl h
  · exact Glob.any n

theorem Glob.star_iff {p s : Bytes} {n : UInt8} : Glob (42 :: p) (n :: s) ↔ Glob p (n :: s) ∨ Glob (42 :: p) s := by
  constructor
  · intro h; cases h with
    | zero _ h => exact Or.inl h
    | more _ h => exact Or.inr h
    | lit _ h => exact absurd rfl h
  · rintro (h | h)
    · exact .zero n h
    · exact .more n h

theorem Glob.lit_iff {p s : Bytes} {c n : UInt8} (h1 : c ≠ 63) (h2 : c ≠ 42) : Glob (c :: p) (n :: s) ↔ lowerByte n = c ∧ Glob p s := by
  constructor
  · intro h; cases h with
    | any => exact absurd rfl h1
    | zero => exact absurd rfl h2
    | more => exact absurd rfl h2
    | lit _ _ h3 h => exact ⟨h3, h⟩
  · rintro ⟨h3, h⟩; exact .lit h1 h2 h3 h

/-- A star also accepts more in front. -/
theorem Glob.star_append {p s : Bytes} (h : Glob (42 :: p) s) (t : Bytes) : Glob (42 :: p) (t ++ s) := by
  induction t with
  | nil => exact h
  | cons n t ih => exact .more n ih

theorem Glob.star_elim {p s : Bytes} (h : Glob (42 :: p) s) : ∃ t r, s = t ++ r ∧ r ≠ [] ∧ Glob p r := by
  generalize hq : (42 : UInt8) :: p = q at h
  induction h with
  | nil => cases hq
  | any => cases hq
  | lit _ h => cases hq; exact absurd rfl h
  | zero n h => cases hq; exact ⟨[], _, rfl, by simp, h⟩
  | more n _ ih =>
    obtain ⟨t, r, e, hr, hg⟩ := ih hq
    exact ⟨n :: t, r, by simp [e], hr, hg⟩

/-- A pattern of single bytes and then more consumes its length and then more. -/
theorem Glob.fixed {k p s : Bytes} (hk : 42 ∉ k) (h : Glob (k ++ p) s) : ∃ t r, s = t ++ r ∧ t.length = k.length ∧ Glob p r := by
  induction k generalizing s with
  | nil => exact ⟨[], s, rfl, rfl, h⟩
  | cons c k ih =>
    simp only [List.mem_cons, not_or] at hk
    rw [List.cons_append] at h
    cases h with
    | any n h => obtain ⟨t, r, e, hl, hg⟩ := ih hk.2 h; exact ⟨n :: t, r, by simp [e], by simp [hl], hg⟩
    | lit _ _ _ h => obtain ⟨t, r, e, hl, hg⟩ := ih hk.2 h; exact ⟨_ :: t, r, by rw [e]; rfl, by simp [hl], hg⟩
    | zero => exact absurd rfl hk.1
    | more => exact absurd rfl hk.1

/-- The invariant of the loop: if there was a star, then since it was last entered, only single bytes were consumed. -/
def GState.Inv (p : Bytes) (s : GState) : Prop :=
  s.nnx = 0 ∨ (p[s.npx]? = some 42 ∧
    ((s.px = s.npx ∧ s.nx = s.nnx) ∨ (s.npx < s.px ∧ s.nx + s.npx + 2 = s.px + s.nnx ∧ s.px ≤ p.length ∧ ∀ i, s.npx < i → i < s.px → p[i]? ≠ some 42)))

/-- The candidate position that is tried next when the current attempt fails. -/
def GState.cand (p : Bytes) (s : GState) : Nat := if p[s.px]? = some 42 then s.nx + 1 else s.nnx

def GState.pot (p n : Bytes) (s : GState) : Nat := (n.length - s.cand p) * (p.length + 2) + (p.length - s.px)

theorem drop_cons {l : Bytes} {i : Nat} {x : UInt8} (h : l[i]? = some x) : l.drop i = x :: l.drop (i + 1) := by
  obtain ⟨h1, h2⟩ := List.getElem?_eq_some_iff.mp h
  rw [List.drop_eq_getElem_cons h1, h2]

theorem pot_lt1 {a b c d e : Nat} (h1 : a ≤ c) (h2 : b < d) : a * e + b < c * e + d := by
  have := Nat.mul_le_mul_right e h1; omega

theorem pot_lt2 {a b c d e : Nat} (h1 : a < c) (h2 : b < e) : a * e + b < c * e + d := by
  have : (a + 1) * e ≤ c * e := Nat.mul_le_mul_right e h1
  rw [Nat.add_mul] at this; omega

/-- What the state still accepts. -/
def GState.Acc (p n : Bytes) (s : GState) : Prop := Glob (p.drop s.px) (n.drop s.nx) ∨ (0 < s.nnx ∧ Glob (p.drop s.npx) (n.drop s.nnx))

/-- The pattern from the star on: the star, single bytes, the rest. -/
theorem drop_star {p : Bytes} {a b : Nat} (h : p[a]? = some 42) (hab : a < b) (hb : b ≤ p.length) (hno : ∀ i, a < i → i < b → p[i]? ≠ some 42) :
    ∃ k, p.drop a = 42 :: (k ++ p.drop b) ∧ 42 ∉ k ∧ k.length = b - a - 1 := by
  refine ⟨(p.drop (a + 1)).take (b - a - 1), ?_, ?_, by simp; omega⟩
  · rw [drop_cons h]
    congr 1
    have : p.drop b = (p.drop (a + 1)).drop (b - a - 1) := by rw [List.drop_drop]; congr 1; omega
    rw [this, List.take_append_drop]
  · intro hm
    obtain ⟨i, hi⟩ := List.mem_iff_getElem?.mp hm
    have hlt : i < b - a - 1 := by have := (List.getElem?_eq_some_iff.mp hi).1; simp at this; omega
    rw [List.getElem?_take_of_lt hlt, List.getElem?_drop] at hi
    exact hno (a + 1 + i) (by omega) (by omega) hi

theorem GState.step_ok (p n : Bytes) (s : GState) (h : s.Inv p) (hx : s.nnx ≤ n.length) :
    (∀ b, globStep p n s = .inr b → (b = true ↔ s.Acc p n)) ∧
    ∀ s', globStep p n s = .inl s' → s'.Inv p ∧ s'.nnx ≤ n.length ∧ s'.pot p n < s.pot p n ∧ (s.Acc p n ↔ s'.Acc p n) := by
  unfold globStep
  cases hp : p[s.px]? with
  | none =>
    refine ⟨fun b hb => ?_, fun s' hs => by cases hs⟩
    cases hb
    simp only [true_iff]
    left
    rw [List.drop_eq_nil_of_le (List.getElem?_eq_none_iff.mp hp)]
    exact .nil _
  | some c =>
    have hplt := (List.getElem?_eq_some_iff.mp hp).1
    have hdp := drop_cons hp
    cases hn : n[s.nx]? with
    | none =>
      refine ⟨fun b hb => ?_, fun s' hs => by cases hs⟩
      cases hb
      simp only [Bool.false_eq_true, false_iff]
      have hnl : n.length ≤ s.nx := List.getElem?_eq_none_iff.mp hn
      rintro (ha | ⟨hpos, ha⟩)
      · rw [List.drop_eq_nil_of_le hnl, hdp] at ha
        cases ha.nil_right
      · rcases h with h0 | ⟨hst, h1 | ⟨h1, h2, h3, h4⟩⟩
        · omega
        · rw [← h1.1, ← h1.2, List.drop_eq_nil_of_le hnl, hdp] at ha
          cases ha.nil_right
        · obtain ⟨k, hk, hk1, hk2⟩ := drop_star hst h1 h3 h4
          rw [hk] at ha
          obtain ⟨t, r, e, hr, hg⟩ := ha.star_elim
          obtain ⟨t2, r2, e2, hl2, hg2⟩ := hg.fixed hk1
          rw [hdp] at hg2
          have hr2 : r2 ≠ [] := by rintro rfl; cases hg2.nil_right
          have hr2 := List.length_pos_iff.mpr hr2
          have hlen := congrArg List.length e
          rw [List.length_drop, List.length_append, e2, List.length_append] at hlen
          omega
    | some m =>
      have hnlt := (List.getElem?_eq_some_iff.mp hn).1
      have hdn := drop_cons hn
      dsimp only
      -- consuming a byte
      have consume : c ≠ 42 → (Glob (c :: p.drop (s.px + 1)) (m :: n.drop (s.nx + 1)) ↔ Glob (p.drop (s.px + 1)) (n.drop (s.nx + 1))) →
          ({ s with px := s.px + 1, nx := s.nx + 1 } : GState).Inv p ∧ s.nnx ≤ n.length ∧ ({ s with px := s.px + 1, nx := s.nx + 1 } : GState).pot p n < s.pot p n ∧
          (s.Acc p n ↔ ({ s with px := s.px + 1, nx := s.nx + 1 } : GState).Acc p n) := by
        intro hc hg
        have hinv : ({ s with px := s.px + 1, nx := s.nx + 1 } : GState).Inv p := by
          rcases h with h0 | ⟨hst, h1 | ⟨h1, h2, h3, h4⟩⟩
          · exact Or.inl h0
          · exfalso; rw [← h1.1, hp] at hst; cases hst; exact hc rfl
          · refine Or.inr ⟨hst, Or.inr ⟨by dsimp only; omega, by dsimp only; omega, by dsimp only; omega, fun i hi1 hi2 => ?_⟩⟩
            by_cases hi : i = s.px
            · subst hi; rw [hp]; intro hh; cases hh; exact hc rfl
            · exact h4 i hi1 (by dsimp only at hi2; omega)
        refine ⟨hinv, hx, ?_, ?_⟩
        · unfold GState.pot
          refine pot_lt1 ?_ (by dsimp only; omega)
          have hc0 : s.cand p = s.nnx := by unfold GState.cand; rw [if_neg]; rw [hp]; intro hh; cases hh; exact hc rfl
          rw [hc0]
          unfold GState.cand
          dsimp only
          split
          · rcases h with h0 | ⟨_, h1 | ⟨h1, h2, _⟩⟩ <;> omega
          · omega
        · unfold GState.Acc
          rw [hdp, hdn, hg]
      by_cases hc63 : c = 63
      · subst hc63
        rw [if_pos rfl]
        refine ⟨fun b hb => (by cases hb), fun s' hs => ?_⟩
        cases hs
        exact consume (by decide) Glob.any_iff
      · rw [if_neg hc63]
        by_cases hc42 : c = 42
        · subst hc42
          rw [if_pos rfl]
          refine ⟨fun b hb => (by cases hb), fun s' hs => ?_⟩
          cases hs
          refine ⟨Or.inr ⟨hp, Or.inr ⟨by dsimp only; omega, by dsimp only; omega, by dsimp only; omega, fun i h1 h2 => by dsimp only at *; omega⟩⟩, by dsimp only; omega, ?_, ?_⟩
          · unfold GState.pot
            refine pot_lt1 ?_ (by dsimp only; omega)
            have hc0 : s.cand p = s.nx + 1 := by unfold GState.cand; rw [if_pos hp]
            rw [hc0]
            unfold GState.cand
            dsimp only
            split <;> omega
          · unfold GState.Acc
            dsimp only
            have key : (0 < s.nnx ∧ Glob (p.drop s.npx) (n.drop s.nnx)) → Glob (p.drop s.px) (n.drop s.nx) := by
              rintro ⟨hpos, ha⟩
              rcases h with h0 | ⟨hst, h1 | ⟨h1, h2, h3, h4⟩⟩
              · omega
              · rw [h1.1, h1.2]; exact ha
              · obtain ⟨k, hk, hk1, hk2⟩ := drop_star hst h1 h3 h4
                rw [hk] at ha
                obtain ⟨t, r, e, hr, hg⟩ := ha.star_elim
                obtain ⟨t2, r2, e2, hl2, hg2⟩ := hg.fixed hk1
                -- `r2` is a suffix of the name from `nx` on
                have : n.drop s.nx = (n.drop (s.nx)).take ((n.drop s.nx).length - r2.length) ++ r2 := by
                  have hsuf : r2 <:+ n.drop s.nnx := ⟨t ++ t2, by rw [e, e2]; simp⟩
                  have hlen := congrArg List.length e
                  rw [List.length_drop, List.length_append, e2, List.length_append] at hlen
                  have hsuf2 : r2 <:+ n.drop s.nx := by
                    refine List.suffix_of_suffix_length_le (hsuf.trans (List.drop_suffix _ _)) (List.drop_suffix _ _) ?_
                    rw [List.length_drop]; omega
                  obtain ⟨u, hu⟩ := hsuf2
                  rw [← hu]; simp
                rw [this, hdp]
                rw [hdp] at hg2
                exact hg2.star_append _
            rw [hdp, hdn]
            constructor
            · rintro (ha | ha)
              · rcases Glob.star_iff.mp ha with ha | ha
                · exact Or.inl ha
                · exact Or.inr ⟨by omega, ha⟩
              · have := key ha
                rw [hdp, hdn] at this
                rcases Glob.star_iff.mp this with ha | ha
                · exact Or.inl ha
                · exact Or.inr ⟨by omega, ha⟩
            · rintro (ha | ⟨_, ha⟩)
              · exact Or.inl (Glob.star_iff.mpr (Or.inl ha))
              · exact Or.inl (Glob.star_iff.mpr (Or.inr ha))
        · rw [if_neg hc42]
          by_cases hm : lowerByte m = c
          · rw [if_pos hm]
            refine ⟨fun b hb => (by cases hb), fun s' hs => ?_⟩
            cases hs
            exact consume hc42 ((Glob.lit_iff hc63 hc42).trans ⟨fun h => h.2, fun h => ⟨hm, h⟩⟩)
          · rw [if_neg hm]
            have hno : ¬ Glob (p.drop s.px) (n.drop s.nx) := by
              rw [hdp, hdn, Glob.lit_iff hc63 hc42]
              exact fun h => hm h.1
            unfold globBack
            by_cases hb : 0 < s.nnx ∧ s.nnx < n.length
            · rw [if_pos hb]
              refine ⟨fun b hb => (by cases hb), fun s' hs => ?_⟩
              cases hs
              have hst : p[s.npx]? = some 42 := by
                rcases h with h0 | ⟨hst, _⟩
                · omega
                · exact hst
              refine ⟨Or.inr ⟨hst, Or.inl ⟨rfl, rfl⟩⟩, hx, ?_, ?_⟩
              · unfold GState.pot
                have hc0 : s.cand p = s.nnx := by unfold GState.cand; rw [if_neg]; rw [hp]; intro hh; cases hh; exact hc42 rfl
                have hc1 : ({ s with px := s.npx, nx := s.nnx } : GState).cand p = s.nnx + 1 := by unfold GState.cand; rw [if_pos hst]
                rw [hc0, hc1]
                exact pot_lt2 (by omega) (by dsimp only; omega)
              · unfold GState.Acc
                dsimp only
                constructor
                · rintro (ha | ha)
                  · exact absurd ha hno
                  · exact Or.inr ha
                · rintro (ha | ha)
                  · exact Or.inr ⟨hb.1, ha⟩
                  · exact Or.inr ha
            · rw [if_neg hb]
              refine ⟨fun b hb' => ?_, fun s' hs => (by cases hs)⟩
              cases hb'
              simp only [Bool.false_eq_true, false_iff]
              rintro (ha | ⟨hpos, ha⟩)
              · exact hno ha
              · have : n.drop s.nnx = [] := List.drop_eq_nil_of_le (by omega)
                rw [this] at ha
                have hst : p[s.npx]? = some 42 := by
                  rcases h with h0 | ⟨hst, _⟩
                  · omega
                  · exact hst
                rw [drop_cons hst] at ha
                cases ha.nil_right

theorem globRun_ok (p n : Bytes) (fuel : Nat) (s : GState) (h : s.Inv p) (hx : s.nnx ≤ n.length) (hf : s.pot p n < fuel) :
    ∃ b, globRun p n fuel s = some b ∧ (b = true ↔ s.Acc p n) := by
  induction fuel generalizing s with
  | zero => omega
  | succ fuel ih =>
    obtain ⟨h1, h2⟩ := s.step_ok p n h hx
    rw [globRun]
    cases hs : globStep p n s with
    | inr b => exact ⟨b, rfl, h1 b hs⟩
    | inl s' =>
      obtain ⟨h3, h4, h5, h6⟩ := h2 s' hs
      obtain ⟨b, h7, h8⟩ := ih s' h3 h4 (by omega)
      exact ⟨b, h7, h8.trans h6.symm⟩

theorem globRun_init (p n : Bytes) : ∃ b, globRun p n (globBound p n) ⟨0, 0, 0, 0⟩ = some b ∧ (b = true ↔ Glob p n) := by
  obtain ⟨b, h1, h2⟩ := globRun_ok p n (globBound p n) ⟨0, 0, 0, 0⟩ (Or.inl rfl) (Nat.zero_le _) (by
    unfold GState.pot globBound
    have : (n.length - (⟨0, 0, 0, 0⟩ : GState).cand p) * (p.length + 2) ≤ n.length * (p.length + 2) := Nat.mul_le_mul_right _ (by omega)
    rw [Nat.add_mul]
    dsimp only
    omega)
  exact ⟨b, h1, h2.trans (by simp [GState.Acc])⟩

theorem glob_iff (p n : Bytes) : glob p n = true ↔ Glob p n := by
  obtain ⟨b, h1, h2⟩ := globRun_init p n
  unfold glob
  rw [h1]
  simpa using h2

end Rothko
