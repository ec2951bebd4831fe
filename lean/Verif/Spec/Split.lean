import Verif.Model.Bytes
/-! # Splitting a byte string at a separator -/
namespace Rothko

/-- The pieces of `s` between the separators; always at least one piece (`""` has the one piece `""`). -/
def splitOn (sep : UInt8) : Bytes → List Bytes
  | [] => [[]]
  | c :: s =>
    if c = sep then [] :: splitOn sep s
    else match splitOn sep s with
      | [] => [[c]]
      | p :: ps => (c :: p) :: ps

/-- The pieces put together again. -/
def joinWith (sep : UInt8) : List Bytes → Bytes
  | [] => []
  | [p] => p
  | p :: ps => p ++ sep :: joinWith sep ps

theorem splitOn_ne_nil (sep : UInt8) (s : Bytes) : splitOn sep s ≠ [] := by
  cases s with
  | nil => simp [splitOn]
  | cons c s => simp only [splitOn]; split <;> (try split) <;> simp

/-- Splitting loses nothing. -/
theorem joinWith_splitOn (sep : UInt8) (s : Bytes) : joinWith sep (splitOn sep s) = s := by
  induction s with
  | nil => rfl
  | cons c s ih =>
    have := splitOn_ne_nil sep s
    simp only [splitOn]
    split
    · next h =>
      subst h
      cases hs : splitOn c s with
      | nil => exact absurd hs this
      | cons p ps => rw [hs] at ih; simp [joinWith, ih]
    · cases hs : splitOn sep s with
      | nil => exact absurd hs this
      | cons p ps =>
        rw [hs] at ih
        simp only
        cases ps <;> simp_all [joinWith]

/-- No piece contains the separator. -/
theorem sep_not_mem_splitOn (sep : UInt8) (s : Bytes) : ∀ p ∈ splitOn sep s, sep ∉ p := by
  induction s with
  | nil => simp [splitOn]
  | cons c s ih =>
    intro p hp
    simp only [splitOn] at hp
    split at hp
    · rcases List.mem_cons.mp hp with rfl | hp
      · simp
      · exact ih p hp
    · next h =>
      cases hs : splitOn sep s with
      | nil => exact absurd hs (splitOn_ne_nil sep s)
      | cons q qs =>
        rw [hs] at hp ih
        simp only at hp
        rcases List.mem_cons.mp hp with rfl | hp
        · simp only [List.mem_cons, not_or]
          exact ⟨fun e => h e.symm, ih q List.mem_cons_self⟩
        · exact ih p (List.mem_cons_of_mem _ hp)

theorem splitOn_append (sep : UInt8) (a b : Bytes) : splitOn sep (a ++ sep :: b) = splitOn sep a ++ splitOn sep b := by
  induction a with
  | nil => simp [splitOn]
  | cons c a ih =>
    simp only [List.cons_append, splitOn, ih]
    split
    · rfl
    · cases hs : splitOn sep a with
      | nil => exact absurd hs (splitOn_ne_nil sep a)
      | cons q qs => rfl

theorem splitOn_none (sep : UInt8) (a : Bytes) (h : sep ∉ a) : splitOn sep a = [a] := by
  induction a with
  | nil => rfl
  | cons c a ih =>
    simp only [List.mem_cons, not_or] at h
    simp only [splitOn, ih h.2]
    rw [if_neg (fun e => h.1 e.symm)]

end Rothko
