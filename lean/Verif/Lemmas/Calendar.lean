import Verif.Model.Fmt
/-! Lemmas for C115: the library's dates are those of the calendar. -/
namespace Rothko

/-- The days before the year `n + 1`. -/
def yearStart (n : Nat) : Nat := 365 * n + n / 4 - n / 100 + n / 400

/-- The days of a year. -/
def yearLen (leap : Bool) : Nat := if leap then 366 else 365

theorem goLeap_iff (y : Nat) : goLeap y = true ↔ LeapYear y := by
  unfold goLeap LeapYear
  simp only [Bool.and_eq_true, decide_eq_true_eq, Bool.or_eq_true, bne_iff_ne, ne_eq]
  omega

theorem goYear_spec (d : Nat) : 1 ≤ (goYear d).1 ∧ d = yearStart ((goYear d).1 - 1) + (goYear d).2 ∧ (goYear d).2 < yearLen (goLeap (goYear d).1) := by
  obtain ⟨a, ha⟩ : ∃ a, a = d / 146097 := ⟨_, rfl⟩
  obtain ⟨r, hr⟩ : ∃ r, r = d - 146097 * a := ⟨_, rfl⟩
  obtain ⟨b0, hb0⟩ : ∃ b0, b0 = r / 36524 := ⟨_, rfl⟩
  obtain ⟨b, hb⟩ : ∃ b, b = b0 - b0 / 4 := ⟨_, rfl⟩
  obtain ⟨r2, hr2⟩ : ∃ r2, r2 = r - 36524 * b := ⟨_, rfl⟩
  obtain ⟨c, hc⟩ : ∃ c, c = r2 / 1461 := ⟨_, rfl⟩
  obtain ⟨r3, hr3⟩ : ∃ r3, r3 = r2 - 1461 * c := ⟨_, rfl⟩
  obtain ⟨e0, he0⟩ : ∃ e0, e0 = r3 / 365 := ⟨_, rfl⟩
  obtain ⟨e, he⟩ : ∃ e, e = e0 - e0 / 4 := ⟨_, rfl⟩
  obtain ⟨r4, hr4⟩ : ∃ r4, r4 = r3 - 365 * e := ⟨_, rfl⟩
  have hg : goYear d = (400 * a + 100 * b + 4 * c + e + 1, r4) := by
    unfold goYear
    dsimp only
    rw [← ha, ← hr, ← hb0, ← hb, ← hr2, ← hc, ← hr3, ← he0, ← he, ← hr4]
  have hr' : r < 146097 := by omega
  have hd : d = 146097 * a + r := by omega
  have hb0' : b0 ≤ 4 := by omega
  have hb' : b ≤ 3 ∧ (b < 3 → r2 < 36524) ∧ (b = 3 → r2 < 36525) ∧ r = 36524 * b + r2 := by omega
  have hc' : c ≤ 24 ∧ r2 = 1461 * c + r3 ∧ r3 < 1461 := by omega
  have he' : e ≤ 3 ∧ r3 = 365 * e + r4 ∧ (e < 3 → r4 < 365) ∧ (e = 3 → r4 < 366) := by omega
  have hlast : c = 24 → b < 3 → e = 3 → r4 < 365 := by omega
  rw [hg]
  dsimp only
  clear hg
  refine ⟨by omega, ?_, ?_⟩
  · unfold yearStart
    rw [show 400 * a + 100 * b + 4 * c + e + 1 - 1 = 400 * a + 100 * b + 4 * c + e by omega]
    rw [show (400 * a + 100 * b + 4 * c + e) / 4 = 100 * a + 25 * b + c by omega, show (400 * a + 100 * b + 4 * c + e) / 100 = 4 * a + b by omega, show (400 * a + 100 * b + 4 * c + e) / 400 = a by omega]
    omega
  · unfold yearLen
    split
    · omega
    · next hl =>
      have hl : ¬ LeapYear (400 * a + 100 * b + 4 * c + e + 1) := fun h => hl ((goLeap_iff _).mpr h)
      by_cases h3 : e = 3
      · unfold LeapYear at hl
        have : c = 24 ∧ b < 3 := by omega
        exact hlast this.1 this.2 h3
      · omega

theorem yearStart_succ (n : Nat) : yearStart (n + 1) = yearStart n + yearLen (goLeap (n + 1)) := by
  unfold yearStart yearLen
  by_cases h : LeapYear (n + 1)
  · rw [if_pos ((goLeap_iff _).mpr h)]
    unfold LeapYear at h
    omega
  · rw [if_neg (fun e => h ((goLeap_iff _).mp e))]
    unfold LeapYear at h
    omega

theorem yearStart_mono {m n : Nat} (h : m ≤ n) : yearStart m ≤ yearStart n := by
  induction h with
  | refl => exact Nat.le_refl _
  | @step u hu ih => rw [Nat.succ_eq_add_one, yearStart_succ]; omega

/-- Only one year and day of it begin so. -/
theorem year_unique {y y' k k' : Nat} (h : yearStart y + k = yearStart y' + k') (hk : k < yearLen (goLeap (y + 1))) (hk' : k' < yearLen (goLeap (y' + 1))) : y = y' ∧ k = k' := by
  have a1 := yearStart_succ y
  have a2 := yearStart_succ y'
  rcases Nat.lt_trichotomy y y' with hl | hl | hl
  · have := yearStart_mono (show y + 1 ≤ y' by omega)
    omega
  · subst hl; exact ⟨rfl, by omega⟩
  · have := yearStart_mono (show y' + 1 ≤ y by omega)
    omega

theorem goYear_succ (d : Nat) : goYear (d + 1) = if (goYear d).2 + 1 < yearLen (goLeap (goYear d).1) then ((goYear d).1, (goYear d).2 + 1) else ((goYear d).1 + 1, 0) := by
  obtain ⟨a1, a2, a3⟩ := goYear_spec d
  obtain ⟨b1, b2, b3⟩ := goYear_spec (d + 1)
  generalize goYear d = p at *
  generalize goYear (d + 1) = p' at *
  obtain ⟨y, k⟩ := p
  obtain ⟨y', k'⟩ := p'
  dsimp only at *
  obtain ⟨n, rfl⟩ : ∃ n, y = n + 1 := ⟨y - 1, by omega⟩
  obtain ⟨n', rfl⟩ : ∃ n, y' = n + 1 := ⟨y' - 1, by omega⟩
  rw [Nat.add_sub_cancel] at a2 b2
  split
  · next h =>
    obtain ⟨e1, e2⟩ := year_unique (y := n') (y' := n) (k := k') (k' := k + 1) (by omega) b3 h
    rw [e1, e2]
  · next h =>
    have hs := yearStart_succ n
    have : 0 < yearLen (goLeap (n + 1 + 1)) := by unfold yearLen; split <;> omega
    obtain ⟨e1, e2⟩ := year_unique (y := n') (y' := n + 1) (k := k') (k' := 0) (by omega) b3 this
    rw [e1, e2]

/-- The days of a month. -/
def monthLen (leap : Bool) (m : Nat) : Nat := if m = 2 then (if leap then 29 else 28) else if m = 4 ∨ m = 6 ∨ m = 9 ∨ m = 11 then 30 else 31

set_option maxRecDepth 100000 in
/-- Every day of a year is followed by the right one. (All the days there are in a year.) -/
theorem goMonth_next : ∀ leap : Bool, ∀ k : Fin 366, k.1 < yearLen leap → (k.1 + 1 < yearLen leap → goMonth leap (k.1 + 1) = if (goMonth leap k.1).2 < monthLen leap (goMonth leap k.1).1 then ((goMonth leap k.1).1, (goMonth leap k.1).2 + 1)
    else ((goMonth leap k.1).1 + 1, 1)) ∧ (k.1 + 1 < yearLen leap → (goMonth leap k.1).1 < 12 ∨ (goMonth leap k.1).2 < monthLen leap (goMonth leap k.1).1) ∧ (k.1 + 1 = yearLen leap → goMonth leap k.1 = (12, 31)) ∧
    (1 ≤ (goMonth leap k.1).1 ∧ (goMonth leap k.1).1 ≤ 12 ∧ 1 ≤ (goMonth leap k.1).2 ∧ (goMonth leap k.1).2 ≤ 31) := by decide +kernel

/-- The day the library gives. -/
def goDay (d : Nat) : Day := ⟨(goYear d).1, (goMonth (goLeap (goYear d).1) (goYear d).2).1, (goMonth (goLeap (goYear d).1) (goYear d).2).2⟩

theorem monthLen_eq (y m : Nat) : monthLen (goLeap y) m = monthDays y m := by
  unfold monthLen monthDays
  by_cases h : LeapYear y
  · rw [(goLeap_iff y).mpr h]; simp [h]
  · rw [show goLeap y = false by cases hg : goLeap y; rfl; exact absurd ((goLeap_iff y).mp hg) h]; simp [h]

theorem yearLen_le (l : Bool) : yearLen l ≤ 366 := by cases l <;> decide

theorem goDay_zero : goDay 0 = dayNo 0 := by decide

theorem goMonth_zero : ∀ l, goMonth l 0 = (1, 1) := by decide

theorem Day.next_eq (y m dd : Nat) : (⟨y, m, dd⟩ : Day).next = if dd < monthLen (goLeap y) m then ⟨y, m, dd + 1⟩ else if m < 12 then ⟨y, m + 1, 1⟩ else ⟨y + 1, 1, 1⟩ := by
  rw [monthLen_eq]; rfl

/-- The day of a year and the day in it. -/
def ydDay (p : Nat × Nat) : Day := ⟨p.1, (goMonth (goLeap p.1) p.2).1, (goMonth (goLeap p.1) p.2).2⟩

theorem ydDay_next {y k : Nat} (hk : k < yearLen (goLeap y)) : ydDay (if k + 1 < yearLen (goLeap y) then (y, k + 1) else (y + 1, 0)) = (ydDay (y, k)).next := by
  have hle := yearLen_le (goLeap y)
  obtain ⟨n1, n2, n3, _⟩ := goMonth_next (goLeap y) ⟨k, by omega⟩ hk
  dsimp only at n1 n2 n3
  unfold ydDay
  rw [Day.next_eq]
  by_cases hlt : k + 1 < yearLen (goLeap y)
  · rw [if_pos hlt]
    dsimp only
    rw [n1 hlt]
    by_cases hm : (goMonth (goLeap y) k).2 < monthLen (goLeap y) (goMonth (goLeap y) k).1
    · rw [if_pos hm, if_pos hm]
    · rw [if_neg hm, if_neg hm, if_pos ((n2 hlt).resolve_right hm)]
  · rw [if_neg hlt]
    dsimp only
    rw [n3 (by omega), goMonth_zero]
    dsimp only
    rw [if_neg (by unfold monthLen; simp), if_neg (by omega)]

/-- The library's dates are the calendar's. -/
theorem goDay_eq (d : Nat) : goDay d = dayNo d := by
  induction d with
  | zero => exact goDay_zero
  | succ d ih =>
    have h1 : goDay (d + 1) = ydDay (goYear (d + 1)) := rfl
    have h2 : goDay d = ydDay (goYear d) := rfl
    have h3 : dayNo (d + 1) = (dayNo d).next := rfl
    rw [h1, h3, ← ih, h2, goYear_succ]
    exact ydDay_next (goYear_spec d).2.2

theorem goDay_range (d : Nat) : 1 ≤ (dayNo d).month ∧ (dayNo d).month ≤ 12 ∧ 1 ≤ (dayNo d).day ∧ (dayNo d).day ≤ 31 := by
  rw [← goDay_eq]
  obtain ⟨_, _, hk⟩ := goYear_spec d
  have hle := yearLen_le (goLeap (goYear d).1)
  exact (goMonth_next (goLeap (goYear d).1) ⟨(goYear d).2, by omega⟩ hk).2.2.2

end Rothko
