import Verif.Model.Registry
/-!
# C53: the last registration
-/
namespace Rothko

theorem lookup_mapPut {M : Type} (m : List (String × M)) (k : String) (v : M) (k' : String) : (mapPut m k v).lookup k' = if k' = k then some v else m.lookup k' := by
  induction m with
  | nil =>
    simp only [mapPut, List.lookup_cons, List.lookup_nil]
    by_cases h : k' = k
    · rw [if_pos h, h, beq_self_eq_true]
    · rw [if_neg h, beq_eq_false_iff_ne.mpr h]
  | cons p m ih =>
    obtain ⟨a, b⟩ := p
    simp only [mapPut]
    by_cases h1 : a = k
    · rw [if_pos h1, List.lookup_cons, List.lookup_cons, h1]
      by_cases h2 : k' = k
      · rw [if_pos h2, h2, beq_self_eq_true]
      · rw [if_neg h2, beq_eq_false_iff_ne.mpr h2]
    · rw [if_neg h1, List.lookup_cons, List.lookup_cons]
      by_cases h2 : k' = a
      · rw [h2, beq_self_eq_true, if_neg h1]
      · rw [beq_eq_false_iff_ne.mpr h2]
        exact ih

/-- A registration: the kind, the name and the maker. -/
abbrev Registration (M : Type) := RKind × String × M

/-- The registrations, in order. -/
def Registry.registerAll {M : Type} (r : Registry M) (l : List (Registration M)) : Registry M := l.foldl (fun r e => r.register e.1 e.2.1 e.2.2) r

/-- `l` has a last registration of the kind and name, and it is `maker`. -/
def IsLast {M : Type} (l : List (Registration M)) (kind : RKind) (name : String) (maker : M) : Prop :=
  ∃ before after, l = before ++ (kind, name, maker) :: after ∧ ∀ e ∈ after, ¬ (e.1 = kind ∧ e.2.1 = name)

theorem maker_register {M : Type} (r : Registry M) (kind kind' : RKind) (name name' : String) (m : M) :
    (r.register kind name m).maker kind' name' = if kind' = kind ∧ name' = name then some m else r.maker kind' name' := by
  cases kind <;> cases kind' <;> simp [Registry.register, Registry.maker, lookup_mapPut]

theorem maker_all {M : Type} (l : List (Registration M)) (r : Registry M) (kind : RKind) (name : String) :
    (∃ m, (r.registerAll l).maker kind name = some m ∧ IsLast l kind name m) ∨ ((r.registerAll l).maker kind name = r.maker kind name ∧ ∀ e ∈ l, ¬ (e.1 = kind ∧ e.2.1 = name)) := by
  induction l generalizing r with
  | nil => right; exact ⟨rfl, by simp⟩
  | cons e l ih =>
    obtain ⟨k, n, m⟩ := e
    rcases ih (r.register k n m) with ⟨m', h1, b, a, h2, h3⟩ | ⟨h1, h2⟩
    · left
      exact ⟨m', h1, (k, n, m) :: b, a, by rw [h2]; rfl, h3⟩
    · rw [maker_register] at h1
      by_cases hc : kind = k ∧ name = n
      · rw [if_pos hc] at h1
        left
        obtain ⟨rfl, rfl⟩ := hc
        exact ⟨m, h1, [], l, rfl, h2⟩
      · rw [if_neg hc] at h1
        right
        refine ⟨h1, ?_⟩
        intro e he
        rcases List.mem_cons.mp he with rfl | he
        · exact fun h => hc ⟨h.1.symm, h.2.symm⟩
        · exact h2 e he

/-- **C53**. After any registrations, the maker used for a kind and name is the last one registered for that kind and name, and there is an error exactly if there is none. -/
theorem C53_last {M : Type} (l : List (Registration M)) (kind : RKind) (name : String) :
    (∀ m, (({} : Registry M).registerAll l).maker kind name = some m ↔ IsLast l kind name m) ∧
    ((({} : Registry M).registerAll l).maker kind name = none ↔ ∀ e ∈ l, ¬ (e.1 = kind ∧ e.2.1 = name)) := by
  have e0 : ({} : Registry M).maker kind name = none := by cases kind <;> rfl
  have uniq : ∀ m m' : M, IsLast l kind name m → IsLast l kind name m' → m = m' := by
    rintro m m' ⟨b, a, h1, h2⟩ ⟨b', a', h1', h2'⟩
    rw [h1] at h1'
    rcases List.append_eq_append_iff.mp h1' with ⟨c, hc1, hc2⟩ | ⟨c, hc1, hc2⟩
    · cases c with
      | nil => simp at hc2; exact hc2.1
      | cons x c =>
        simp at hc2
        exact absurd ⟨rfl, rfl⟩ (h2 (kind, name, m') (by rw [hc2.2]; simp))
    · cases c with
      | nil => simp at hc2; exact hc2.1.symm
      | cons x c =>
        simp at hc2
        exact absurd ⟨rfl, rfl⟩ (h2' (kind, name, m) (by rw [hc2.2]; simp))
  have notboth : ∀ m, IsLast l kind name m → (∀ e ∈ l, ¬ (e.1 = kind ∧ e.2.1 = name)) → False := by
    rintro m ⟨b, a, h1, _⟩ h
    exact h (kind, name, m) (by rw [h1]; simp) ⟨rfl, rfl⟩
  rcases maker_all l ({} : Registry M) kind name with ⟨m, h1, h2⟩ | ⟨h1, h2⟩
  · refine ⟨fun m' => ⟨fun h => ?_, fun h => ?_⟩, ⟨fun h => ?_, fun h => (notboth m h2 h).elim⟩⟩
    · rw [h1] at h; cases h; exact h2
    · rw [h1, uniq m m' h2 h]
    · rw [h1] at h; cases h
  · rw [e0] at h1
    refine ⟨fun m' => ⟨fun h => ?_, fun h => (notboth m' h h2).elim⟩, ⟨fun _ => h2, fun _ => h1⟩⟩
    rw [h1] at h; cases h

/-- Two registrations of one name, and the same name of another kind. -/
theorem C53_example : (({} : Registry Nat).registerAll [(.listener, "a", 1), (.database, "a", 2), (.listener, "a", 3)]).maker .listener "a" = some 3 ∧
    (({} : Registry Nat).registerAll [(.listener, "a", 1), (.database, "a", 2), (.listener, "a", 3)]).maker .database "a" = some 2 ∧
    (({} : Registry Nat).registerAll [(.listener, "a", 1), (.database, "a", 2), (.listener, "a", 3)]).maker .distribution "a" = none := by decide

end Rothko
