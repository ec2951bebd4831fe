import Verif.Lemmas.Fmt
import Verif.Lemmas.Calendar
import Verif.Props.Glyph
/-! Lemmas for C115: texts of numbers and times say one thing only; doubles in order. -/
namespace Rothko

/-! ## Texts say one number -/

theorem digits_split : ∀ {a b : List Nat} {x y : Bytes}, (∀ d ∈ a, d ≤ 9) → (∀ d ∈ b, d ≤ 9) → (∀ c r, x = c :: r → c.toNat < 48 ∨ 57 < c.toNat) → (∀ c r, y = c :: r → c.toNat < 48 ∨ 57 < c.toNat) →
    digitText a ++ x = digitText b ++ y → a = b ∧ x = y
  | [], [], _, _, _, _, _, _, h => ⟨rfl, h⟩
  | [], d :: b, x, y, _, hb, hx, _, h => absurd rfl (digit_ne (hb d (by simp)) (hx _ _ h))
  | d :: a, [], x, y, ha, _, _, hy, h => absurd rfl (digit_ne (ha d (by simp)) (hy _ _ h.symm))
  | d :: a, d' :: b, x, y, ha, hb, hx, hy, h => by
    injection h with h1 h2
    have := congrArg UInt8.toNat h1
    rw [digit_nat (ha d (by simp)), digit_nat (hb d' (by simp))] at this
    obtain ⟨e1, e2⟩ := digits_split (fun z hz => ha z (by simp [hz])) (fun z hz => hb z (by simp [hz])) hx hy h2
    exact ⟨by rw [e1, show d = d' by omega], e2⟩

/-- The text after the sign. -/
def Numeral.rest (n : Numeral) : Bytes := digitText n.whole ++ ((match n.frac with | none => [] | some ds => 46 :: digitText ds) ++ (match n.exp with | none => [] | some (c, s, ds) => c :: (s ++ digitText ds)))

theorem Numeral.text_eq (n : Numeral) : n.text = n.sign ++ n.rest := by unfold Numeral.text Numeral.rest; rw [List.append_assoc, List.append_assoc]; rfl

theorem Numeral.Ok.head {n : Numeral} (h : n.Ok) : ∃ c r, n.rest = c :: r ∧ (c = 46 ∨ (48 ≤ c.toNat ∧ c.toNat ≤ 57)) := by
  unfold Numeral.rest
  cases hw : n.whole with
  | cons d ds =>
    have := h.whole d (by rw [hw]; simp)
    exact ⟨_, _, rfl, .inr (by rw [digit_nat this]; omega)⟩
  | nil =>
    cases hf : n.frac with
    | none =>
      rcases h.some_digit with g | g
      · exact absurd hw g
      · exact absurd (by unfold Numeral.places; rw [hf]; rfl) g
    | some ds => exact ⟨_, _, rfl, .inl rfl⟩

theorem Numeral.sign_eq {n n' : Numeral} (h : n.Ok) (h' : n'.Ok) (e : n.text = n'.text) : n.sign = n'.sign ∧ n.rest = n'.rest := by
  rw [n.text_eq, n'.text_eq] at e
  obtain ⟨c, r, hr, hc⟩ := h.head
  obtain ⟨c', r', hr', hc'⟩ := h'.head
  have c1 : c ≠ 43 ∧ c ≠ 45 := by
    constructor <;> rintro rfl <;> rcases hc with hc | hc <;> revert hc <;> decide
  have c2 : c' ≠ 43 ∧ c' ≠ 45 := by
    constructor <;> rintro rfl <;> rcases hc' with hc | hc <;> revert hc <;> decide
  rw [hr, hr'] at e ⊢
  rcases h.sign with s | s | s <;> rcases h'.sign with s' | s' | s' <;> rw [s, s'] at e ⊢
  · exact ⟨rfl, e⟩
  · injection e with e; exact absurd e c1.1
  · injection e with e; exact absurd e c1.2
  · injection e with e; exact absurd e.symm c2.1
  · injection e with _ e; exact ⟨rfl, e⟩
  · injection e with e; exact absurd e (by decide)
  · injection e with e; exact absurd e.symm c2.2
  · injection e with e; exact absurd e (by decide)
  · injection e with _ e; exact ⟨rfl, e⟩

theorem expText_eq {s s' : Bytes} {ds ds' : List Nat} (hs : s = [] ∨ s = [43] ∨ s = [45]) (hs' : s' = [] ∨ s' = [43] ∨ s' = [45]) (h0 : ds ≠ []) (h0' : ds' ≠ []) (h : ∀ d ∈ ds, d ≤ 9) (h' : ∀ d ∈ ds', d ≤ 9)
    (e : s ++ digitText ds = s' ++ digitText ds') : s = s' ∧ ds = ds' := by
  obtain ⟨d, r, rfl⟩ := List.exists_cons_of_ne_nil h0
  obtain ⟨d', r', rfl⟩ := List.exists_cons_of_ne_nil h0'
  have hd := h d (by simp)
  have hd' := h' d' (by simp)
  have n1 : ∀ {k : Nat}, k ≤ 9 → UInt8.ofNat (48 + k) ≠ 43 ∧ UInt8.ofNat (48 + k) ≠ 45 := fun hk => ⟨digit_ne hk (.inl (by decide)), digit_ne hk (.inl (by decide))⟩
  rcases hs with s | s | s <;> rcases hs' with s' | s' | s' <;> rw [s, s'] at e ⊢
  · exact ⟨rfl, digitText_inj h h' e⟩
  · injection e with e; exact absurd e (n1 hd).1
  · injection e with e; exact absurd e (n1 hd).2
  · injection e with e; exact absurd e.symm (n1 hd').1
  · injection e with _ e; exact ⟨rfl, digitText_inj h h' e⟩
  · injection e with e; exact absurd e (by decide)
  · injection e with e; exact absurd e.symm (n1 hd').2
  · injection e with e; exact absurd e (by decide)
  · injection e with _ e; exact ⟨rfl, digitText_inj h h' e⟩

/-- The exponent's text starts with no digit. -/
theorem expHead {n : Numeral} (h : n.Ok) : ∀ c r, (match n.exp with | none => [] | some (c, s, ds) => c :: (s ++ digitText ds) : Bytes) = c :: r → c = 101 ∨ c = 69 := by
  intro c r e
  cases hx : n.exp with
  | none => rw [hx] at e; cases e
  | some p =>
    obtain ⟨c', s, ds⟩ := p
    rw [hx] at e
    injection e with e
    rw [← e]
    exact (h.exp _ _ _ hx).1

theorem Numeral.eq_of_text {n n' : Numeral} (h : n.Ok) (h' : n'.Ok) (e : n.text = n'.text) : n.sign = n'.sign ∧ n.whole = n'.whole ∧ n.frac = n'.frac ∧ n.exp = n'.exp := by
  obtain ⟨e1, e2⟩ := Numeral.sign_eq h h' e
  have nd : ∀ {n : Numeral}, n.Ok → ∀ c r, ((match n.frac with | none => [] | some ds => 46 :: digitText ds) ++ (match n.exp with | none => [] | some (c, s, ds) => c :: (s ++ digitText ds)) : Bytes) = c :: r → c.toNat < 48 ∨ 57 < c.toNat := by
    intro n h c r e
    cases hf : n.frac with
    | some ds =>
      rw [hf] at e
      injection e with e
      rw [← e]; exact .inl (by decide)
    | none =>
      rw [hf] at e
      rcases expHead h c r e with rfl | rfl <;> exact .inr (by decide)
  obtain ⟨e3, e4⟩ := digits_split h.whole h'.whole (nd h) (nd h') e2
  have nx : ∀ {n : Numeral}, n.Ok → ∀ c r, (match n.exp with | none => [] | some (c, s, ds) => c :: (s ++ digitText ds) : Bytes) = c :: r → c.toNat < 48 ∨ 57 < c.toNat := fun h c r e => by
    rcases expHead h c r e with rfl | rfl <;> exact .inr (by decide)
  have ne46 : ∀ {n : Numeral}, n.Ok → ∀ r, (match n.exp with | none => [] | some (c, s, ds) => c :: (s ++ digitText ds) : Bytes) ≠ 46 :: r := fun h r e => by
    rcases expHead h 46 r e with g | g <;> revert g <;> decide
  have fx : n.frac = n'.frac ∧ (match n.exp with | none => [] | some (c, s, ds) => c :: (s ++ digitText ds) : Bytes) = (match n'.exp with | none => [] | some (c, s, ds) => c :: (s ++ digitText ds)) := by
    have f1 := h.frac
    have f2 := h'.frac
    unfold Numeral.places at f1 f2
    cases hf : n.frac with
    | none =>
      cases hf' : n'.frac with
      | none => rw [hf, hf'] at e4; exact ⟨rfl, e4⟩
      | some ds => rw [hf, hf'] at e4; exact absurd e4 (ne46 h _)
    | some ds =>
      cases hf' : n'.frac with
      | none => rw [hf, hf'] at e4; exact absurd e4.symm (ne46 h' _)
      | some ds' =>
        rw [hf] at f1
        rw [hf'] at f2
        rw [hf, hf'] at e4
        injection e4 with _ e4
        obtain ⟨g1, g2⟩ := digits_split f1 f2 (nx h) (nx h') e4
        have g1 : ds = ds' := g1
        exact ⟨by rw [g1], g2⟩
  refine ⟨e1, e3, fx.1, ?_⟩
  have e5 := fx.2
  cases hx : n.exp with
  | none =>
    cases hx' : n'.exp with
    | none => rfl
    | some p => obtain ⟨c, s, ds⟩ := p; rw [hx, hx'] at e5; cases e5
  | some p =>
    obtain ⟨c, s, ds⟩ := p
    cases hx' : n'.exp with
    | none => rw [hx, hx'] at e5; cases e5
    | some p' =>
      obtain ⟨c', s', ds'⟩ := p'
      obtain ⟨_, x2, x3, x4⟩ := h.exp _ _ _ hx
      obtain ⟨_, y2, y3, y4⟩ := h'.exp _ _ _ hx'
      rw [hx, hx'] at e5
      injection e5 with e6 e7
      obtain ⟨g1, g2⟩ := expText_eq x2 y2 x3 y3 x4 y4 e7
      rw [e6, g1, g2]

/-- A text says one number. -/
theorem Says.unique {t : Bytes} {r r' : ℚ} (h : Says t r) (h' : Says t r') : r = r' := by
  obtain ⟨n, h1, h2, h3⟩ := h
  obtain ⟨n', h1', h2', h3'⟩ := h'
  obtain ⟨e1, e2, e3, e4⟩ := Numeral.eq_of_text h1 h1' (h2.symm.trans h2')
  rw [h3, h3']
  unfold Numeral.value Numeral.places Numeral.power
  rw [e1, e2, e3, e4]

/-- All its characters can be printed. -/
theorem Numeral.Ok.printable {n : Numeral} (h : n.Ok) : ∀ b ∈ n.text, Printable b := by
  have hd : ∀ {ds : List Nat}, (∀ d ∈ ds, d ≤ 9) → ∀ b ∈ digitText ds, Printable b := fun hds b hb => by
    obtain ⟨d, g, rfl⟩ := List.mem_map.mp hb
    unfold Printable
    have := hds d g
    rw [digit_nat this]; omega
  have hs : ∀ {s : Bytes}, (s = [] ∨ s = [43] ∨ s = [45]) → ∀ b ∈ s, Printable b := fun hs b hb => by
    rcases hs with rfl | rfl | rfl <;> simp at hb
    all_goals rw [hb]; unfold Printable; decide
  intro b hb
  rw [n.text_eq] at hb
  unfold Numeral.rest at hb
  rcases List.mem_append.mp hb with hb | hb
  · exact hs h.sign b hb
  · rcases List.mem_append.mp hb with hb | hb
    · exact hd h.whole b hb
    · rcases List.mem_append.mp hb with hb | hb
      · have hf := h.frac
        unfold Numeral.places at hf
        cases hx : n.frac with
        | none => rw [hx] at hb; cases hb
        | some ds =>
          rw [hx] at hb hf
          rcases List.mem_cons.mp hb with rfl | hb
          · unfold Printable; decide
          · exact hd hf b hb
      · cases hx : n.exp with
        | none => rw [hx] at hb; cases hb
        | some p =>
          obtain ⟨c, s, ds⟩ := p
          obtain ⟨x1, x2, _, x4⟩ := h.exp _ _ _ hx
          rw [hx] at hb
          rcases List.mem_cons.mp hb with rfl | hb
          · rcases x1 with rfl | rfl <;> (unfold Printable; decide)
          · rcases List.mem_append.mp hb with hb | hb
            · exact hs x2 b hb
            · exact hd x4 b hb

/-! ## Doubles in order -/

theorem magVal_succ (m : Nat) : magVal m < magVal (m + 1) := by
  unfold magVal
  by_cases h1 : m + 1 < 4503599627370496
  · rw [if_pos (by omega), if_pos h1]
    push_cast
    have : (0 : ℚ) < 2 ^ (-1074 : ℤ) := by positivity
    linarith
  · rw [if_neg h1]
    by_cases h0 : m < 4503599627370496
    · rw [if_pos h0, show m = 4503599627370495 by omega]
      norm_num
    · rw [if_neg h0]
      by_cases h2 : m % 4503599627370496 = 4503599627370495
      · rw [show (m + 1) % 4503599627370496 = 0 by omega, show (m + 1) / 4503599627370496 = m / 4503599627370496 + 1 by omega, h2]
        generalize m / 4503599627370496 = E
        push_cast
        rw [show (E : ℤ) + 1 - 1075 = ((E : ℤ) - 1075) + 1 by omega, zpow_add₀ (by norm_num)]
        have : (0 : ℚ) < 2 ^ ((E : ℤ) - 1075) := by positivity
        norm_num
        linarith
      · rw [show (m + 1) % 4503599627370496 = m % 4503599627370496 + 1 by omega, show (m + 1) / 4503599627370496 = m / 4503599627370496 by omega]
        generalize m / 4503599627370496 = E
        have : (0 : ℚ) < 2 ^ ((E : ℤ) - 1075) := by positivity
        push_cast at this ⊢
        linarith

theorem magVal_mono : StrictMono magVal := strictMono_nat_of_lt_succ magVal_succ

theorem magVal_zero : magVal 0 = 0 := by unfold magVal; norm_num

theorem magVal_nonneg (m : Nat) : 0 ≤ magVal m := by rw [← magVal_zero]; exact magVal_mono.monotone (Nat.zero_le m)

theorem two_ten : (2 : ℚ) ^ 1074 ≤ 10 ^ 900 :=
  calc (2 : ℚ) ^ 1074 = (2 ^ 3) ^ 358 := by rw [← pow_mul]
    _ ≤ 10 ^ 358 := pow_le_pow_left₀ (by norm_num) (by norm_num) _
    _ ≤ 10 ^ 900 := pow_le_pow_right₀ (by norm_num) (by norm_num)

theorem magVal_range {m : Nat} (h : m < 9218868437227405312) : magVal m = 0 ∨ ((10 : ℚ) ^ (-900 : ℤ) ≤ magVal m ∧ magVal m < 10 ^ (900 : ℤ)) := by
  by_cases h0 : m = 0
  · rw [h0]; exact .inl magVal_zero
  · right
    constructor
    · refine le_trans ?_ (magVal_mono.monotone (show 1 ≤ m by omega))
      unfold magVal
      rw [if_pos (by omega), zpow_neg, zpow_neg, Nat.cast_one, one_mul]
      exact inv_anti₀ (by positivity) (by exact_mod_cast two_ten)
    · refine lt_of_lt_of_le (magVal_mono h) ?_
      unfold magVal
      rw [if_neg (by omega)]
      have h1 : (2 : ℚ) ^ 1024 ≤ 2 ^ 1074 := pow_le_pow_right₀ (by norm_num) (by norm_num)
      have h2 : ((4503599627370496 + 9218868437227405312 % 4503599627370496 : ℕ) : ℚ) * 2 ^ (((9218868437227405312 / 4503599627370496 : ℕ) : ℤ) - 1075) = 2 ^ 1024 := by
        rw [show (4503599627370496 + 9218868437227405312 % 4503599627370496 : ℕ) = 2 ^ 52 by norm_num, show (((9218868437227405312 / 4503599627370496 : ℕ) : ℤ) - 1075) = ((972 : ℕ) : ℤ) by norm_num, zpow_natCast]
        rw [show ((2 ^ 52 : ℕ) : ℚ) = 2 ^ 52 from Nat.cast_pow 2 52, ← pow_add]
      rw [h2]
      exact h1.trans (by exact_mod_cast two_ten)

theorem fFinite_mag {x : F64} (h : fFinite x = true) : fIsNaN x = false ∧ fIsInf x = false ∧ fMag x < 9218868437227405312 := by
  unfold fFinite at h
  have h1 : fIsInf x = false := by cases g : fIsInf x; rfl; rw [g] at h; cases h
  have h2 : fIsNaN x = false := by cases g : fIsNaN x; rfl; rw [g] at h; simp at h
  refine ⟨h2, h1, ?_⟩
  unfold fIsInf at h1
  unfold fIsNaN at h2
  simp at h1 h2
  omega

/-- The order of finite doubles is that of the numbers they are. -/
theorem fLt_val {x y : F64} (hx : fFinite x = true) (hy : fFinite y = true) : fLt x y = true ↔ fVal x < fVal y := by
  obtain ⟨x1, _, _⟩ := fFinite_mag hx
  obtain ⟨y1, _, _⟩ := fFinite_mag hy
  unfold fLt
  rw [x1, y1]
  simp only [Bool.not_false, Bool.true_and, decide_eq_true_eq]
  unfold fKey fVal
  have nx := magVal_nonneg (fMag x)
  have ny := magVal_nonneg (fMag y)
  cases hx : fNeg x <;> cases hy : fNeg y <;> simp only [Bool.false_eq_true, if_true, if_false]
  · rw [magVal_mono.lt_iff_lt]; omega
  · constructor
    · intro h; omega
    · intro h; linarith
  · constructor
    · intro h
      rcases Nat.eq_zero_or_pos (fMag y) with h0 | h0
      · have h1 : 0 < fMag x := by omega
        have := magVal_mono h1
        rw [magVal_zero] at this
        linarith
      · have := magVal_mono h0
        rw [magVal_zero] at this
        linarith
    · intro h
      by_contra hn
      have h0 : fMag x = 0 ∧ fMag y = 0 := by omega
      rw [h0.1, h0.2, magVal_zero] at h
      norm_num at h
  · rw [neg_lt_neg_iff (a := magVal (fMag x)), magVal_mono.lt_iff_lt]; omega

end Rothko
