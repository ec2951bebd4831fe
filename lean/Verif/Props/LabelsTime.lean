import Verif.Props.Labels
/-!
# C115: labels of different times
-/
namespace Rothko

theorem SaysTime.unique {t : Bytes} {m d h i m' d' h' i' : Nat} (a : SaysTime t m d h i) (b : SaysTime t m' d' h' i') : m = m' ∧ d = d' ∧ h = h' ∧ i = i' := by
  obtain ⟨a1, a2, a3, a4, ad, _, _, _, _, at', e1, e2, e3, e4⟩ := a
  obtain ⟨b1, b2, b3, b4, bd, _, _, _, _, bt, f1, f2, f3, f4⟩ := b
  rw [at', lit_slash, lit_at, lit_colon] at bt
  simp only [List.append_assoc] at bt
  have n47 : ∀ {x : Bytes} c r, [47] ++ x = c :: r → c.toNat < 48 ∨ 57 < c.toNat := fun c r h => by injection h with h; rw [← h]; exact .inl (by decide)
  have n32 : ∀ {x : Bytes} c r, [32, 64, 32] ++ x = c :: r → c.toNat < 48 ∨ 57 < c.toNat := fun c r h => by injection h with h; rw [← h]; exact .inl (by decide)
  have n58 : ∀ {x : Bytes} c r, [58] ++ x = c :: r → c.toNat < 48 ∨ 57 < c.toNat := fun c r h => by injection h with h; rw [← h]; exact .inr (by decide)
  have da : ∀ {l : List Nat}, (∀ z ∈ l, z ∈ a1 ++ a2 ++ a3 ++ a4) → ∀ z ∈ l, z ≤ 9 := fun hl z hz => ad z (hl z hz)
  have db : ∀ {l : List Nat}, (∀ z ∈ l, z ∈ b1 ++ b2 ++ b3 ++ b4) → ∀ z ∈ l, z ≤ 9 := fun hl z hz => bd z (hl z hz)
  obtain ⟨g1, bt⟩ := digits_split (da (by simp +contextual)) (db (by simp +contextual)) n47 n47 bt
  have bt := List.append_cancel_left bt
  obtain ⟨g2, bt⟩ := digits_split (da (by simp +contextual)) (db (by simp +contextual)) n32 n32 bt
  have bt := List.append_cancel_left bt
  obtain ⟨g3, bt⟩ := digits_split (da (by simp +contextual)) (db (by simp +contextual)) n58 n58 bt
  have bt := List.append_cancel_left bt
  have g4 := digitText_inj (da (by simp +contextual)) (db (by simp +contextual)) bt
  subst g1 g2 g3 g4
  exact ⟨e1.symm.trans f1, e2.symm.trans f2, e3.symm.trans f3, e4.symm.trans f4⟩

/-- The day of the year. -/
def ydayOf (leap : Bool) (p : Nat × Nat) : Nat := daysBefore.getD (p.1 - 1) 0 + p.2 - 1 + if leap ∧ 2 < p.1 then 1 else 0

set_option maxRecDepth 100000 in
/-- (All the days there are in a year.) -/
theorem goMonth_inv : ∀ leap : Bool, ∀ k : Fin 366, k.1 < yearLen leap → ydayOf leap (goMonth leap k.1) = k.1 := by decide +kernel

/-- The same month and day come back after 365 days at the earliest. -/
theorem day_apart {d d' : Nat} (hlt : d < d') (hm : (dayNo d).month = (dayNo d').month) (hd : (dayNo d).day = (dayNo d').day) : d + 365 ≤ d' := by
  rw [← goDay_eq, ← goDay_eq] at hm hd
  obtain ⟨a1, a2, a3⟩ := goYear_spec d
  obtain ⟨b1, b2, b3⟩ := goYear_spec d'
  have hp : goMonth (goLeap (goYear d).1) (goYear d).2 = goMonth (goLeap (goYear d').1) (goYear d').2 := Prod.ext hm hd
  have i1 := goMonth_inv (goLeap (goYear d).1) ⟨(goYear d).2, by have := yearLen_le (goLeap (goYear d).1); omega⟩ a3
  have i2 := goMonth_inv (goLeap (goYear d').1) ⟨(goYear d').2, by have := yearLen_le (goLeap (goYear d').1); omega⟩ b3
  dsimp only at i1 i2
  rw [hp] at i1
  obtain ⟨y, hy⟩ : ∃ y, (goYear d).1 = y + 1 := ⟨(goYear d).1 - 1, by omega⟩
  obtain ⟨y', hy'⟩ : ∃ y, (goYear d').1 = y + 1 := ⟨(goYear d').1 - 1, by omega⟩
  generalize (goYear d).2 = k at *
  generalize (goYear d').2 = k' at *
  rw [hy, Nat.add_sub_cancel] at a2
  rw [hy', Nat.add_sub_cancel] at b2
  rw [hy] at a3 i1
  rw [hy'] at b3 i2 i1
  unfold ydayOf at i1 i2
  generalize goMonth (goLeap (y' + 1)) k' = p at *
  have s1 := yearStart_succ y
  rcases Nat.lt_trichotomy y y' with hl | hl | hl
  · have := yearStart_mono (show y + 1 ≤ y' by omega)
    cases h1 : goLeap (y + 1)
    · rw [h1] at s1 i1 a3
      simp only [yearLen, Bool.false_eq_true, false_and, if_false] at s1 i1 a3
      omega
    · rw [h1] at s1 i1 a3
      simp only [yearLen, if_true, true_and] at s1 i1 a3
      split at i1 <;> omega
  · subst hl
    omega
  · have := yearStart_mono (show y' + 1 ≤ y by omega)
    have s2 := yearStart_succ y'
    omega

/-- **C115** (different times). Times a minute to 364 days apart have different labels, if the time zone is as far ahead at both. -/
theorem C115_distinct (zone : Int → Int) {x x' : Int} (hx : -9223372036854775808 ≤ x) (h1 : x + 60 * 1000000000 ≤ x') (h2 : x' ≤ x + 364 * 86400 * 1000000000) (hz : -86400 ≤ zone (x / 1000000000))
    (he : zone (x / 1000000000) = zone (x' / 1000000000)) : timeLabel zone x ≠ timeLabel zone x' := by
  intro e
  obtain ⟨d, s, g1, g2, g3, _⟩ := C115_time zone hx hz
  obtain ⟨d', s', g1', g2', g3', _⟩ := C115_time zone (show -9223372036854775808 ≤ x' by omega) (he ▸ hz)
  rw [e] at g3
  obtain ⟨m1, m2, m3, m4⟩ := g3.unique g3'
  have hmin : s / 60 = s' / 60 := by omega
  by_cases hdd : d < d'
  · have := day_apart hdd m1 m2
    omega
  · omega

/-- Berlin, from 28 October 2018: two hours ahead until 1:00 UTC, then one. -/
def berlin (t : Int) : Int := if t < 1540688400 then 7200 else 3600

set_option maxRecDepth 100000 in
/-- When the clocks are set back two ticks an hour apart have the same label: 0:00 and 1:00 UTC are both labelled 10/28 @ 02:00. So do two ticks a year apart. -/
theorem C115_twice_refuted : timeLabel berlin 1540684800000000000 = timeLabel berlin 1540688400000000000 ∧ timeLabel berlin 1540684800000000000 = "10/28 @ 02:00".toUTF8.toList ∧
    timeLabel (fun _ => 0) 0 = timeLabel (fun _ => 0) (365 * 86400 * 1000000000) ∧ timeLabel (fun _ => 0) 0 = "1/1 @ 00:00".toUTF8.toList := by decide +kernel

end Rothko
