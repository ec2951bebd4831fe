import Verif.Lemmas.Duration
/-!
# The fraction of a unit, in doubles
-/
namespace Rothko

theorem moreDigits_eq (ds : List Nat) : ∀ n, moreDigits n ds = n * 10 ^ ds.length + digitsValue ds := by
  induction ds with
  | nil => intro n; simp [moreDigits, digitsValue]
  | cons d ds ih =>
    intro n
    have h1 : moreDigits n (d :: ds) = moreDigits (n * 10 + d) ds := rfl
    have h2 : digitsValue (d :: ds) = moreDigits (0 * 10 + d) ds := rfl
    rw [h1, h2, ih, ih, List.length_cons, pow_succ]
    ring

theorem digitsValue_lt (ds : List Nat) (h : ∀ d ∈ ds, d ≤ 9) : digitsValue ds < 10 ^ ds.length := by
  induction ds with
  | nil => simp [digitsValue]
  | cons d ds ih =>
    have h1 : digitsValue (d :: ds) = moreDigits (0 * 10 + d) ds := rfl
    have hd := h d List.mem_cons_self
    have := ih (fun x hx => h x (List.mem_cons_of_mem _ hx))
    rw [h1, moreDigits_eq, List.length_cons, pow_succ]
    nlinarith [Nat.pos_of_ne_zero (pow_ne_zero ds.length (by norm_num : (10 : ℕ) ≠ 0))]

/-- The digits left out are worth less than one in the last place. -/
theorem digits_cut (ds : List Nat) (h : ∀ d ∈ ds, d ≤ 9) (i : Nat) (hi : i ≤ ds.length) :
    (digitsValue (ds.take i) : ℚ) / 10 ^ i ≤ digitsValue ds / 10 ^ ds.length ∧ (digitsValue ds : ℚ) / 10 ^ ds.length < (digitsValue (ds.take i) + 1) / 10 ^ i := by
  have e : digitsValue ds = digitsValue (ds.take i) * 10 ^ (ds.length - i) + digitsValue (ds.drop i) := by
    have := moreDigits_eq (ds.drop i) (digitsValue (ds.take i))
    rw [List.length_drop] at this
    rw [← this]
    show _ = List.foldl _ (List.foldl _ 0 (ds.take i)) (ds.drop i)
    rw [← List.foldl_append, List.take_append_drop]; rfl
  have hl := digitsValue_lt (ds.drop i) (fun d hd => h d (List.mem_of_mem_drop hd))
  rw [List.length_drop] at hl
  obtain ⟨r, hr⟩ : ∃ r, ds.length - i = r := ⟨_, rfl⟩
  have hlen : ds.length = i + r := by omega
  rw [hr] at e hl
  have p10 : (0 : ℚ) < 10 ^ i := by positivity
  have p10r : (0 : ℚ) < 10 ^ r := by positivity
  have hlq : (digitsValue (ds.drop i) : ℚ) < 10 ^ r := by exact_mod_cast hl
  have eq : (digitsValue ds : ℚ) = digitsValue (ds.take i) * 10 ^ r + digitsValue (ds.drop i) := by exact_mod_cast e
  rw [hlen, pow_add]
  constructor
  · rw [div_le_div_iff₀ p10 (by positivity), eq]
    have : (0 : ℚ) ≤ digitsValue (ds.drop i) * 10 ^ i := by positivity
    nlinarith
  · rw [div_lt_div_iff₀ (by positivity) p10, eq]
    have : (digitsValue (ds.drop i) : ℚ) * 10 ^ i < 10 ^ r * 10 ^ i := mul_lt_mul_of_pos_right hlq p10
    nlinarith

/-! ## Powers of ten -/

theorem tens_exact : ∀ i, i ≤ 22 → tens i = 10 ^ i := by
  intro i
  induction i with
  | zero => intro _; rfl
  | succ n ih =>
    intro h
    show rn (tens n * 10) = 10 ^ (n + 1)
    rw [ih (by omega), ← pow_succ]
    refine rn_double ⟨5 ^ (n + 1), ((n + 1 : ℕ) : ℤ), ?_, by omega, ?_⟩
    · calc 5 ^ (n + 1) ≤ 5 ^ 22 := Nat.pow_le_pow_right (by norm_num) h
        _ < 2 ^ 53 := by norm_num
    · rw [zpow_natCast, Nat.cast_pow, ← mul_pow]
      norm_num

theorem tens_ge_one : ∀ i, 1 ≤ tens i := by
  intro i
  induction i with
  | zero => exact le_refl _
  | succ n ih =>
    have := rn_ge_pow (e := 0) (q := tens n * 10) (by norm_num) (by rw [zpow_zero]; linarith)
    rw [zpow_zero] at this
    exact this

theorem tens_mono : ∀ i j, i ≤ j → tens i ≤ tens j := by
  have step : ∀ n, tens n ≤ tens (n + 1) := by
    intro n
    have h1 := tens_ge_one n
    have hd : rn (tens n) = tens n := by
      cases n with
      | zero =>
        have := rn_nat (n := 1) (by norm_num)
        exact_mod_cast this
      | succ n =>
        have h2 := tens_ge_one n
        exact rn_double (rn_isDouble (by linarith))
    calc tens n = rn (tens n) := hd.symm
      _ ≤ rn (tens n * 10) := rn_mono (by linarith) (by linarith)
  intro i j h
  induction h with
  | refl => exact le_refl _
  | step _ ih => exact ih.trans (step _)

theorem Near.mul {a b : ℕ} {x p y q : ℚ} (hx : Near a x p) (hy : Near b y q) : Near (a + b) (x * y) (p * q) := by
  obtain ⟨h1, h2, h3, h4⟩ := hx
  obtain ⟨g1, g2, g3, g4⟩ := hy
  refine ⟨by positivity, by positivity, ?_, ?_⟩
  · calc p * q ≤ (x * (1 + 1 / 2 ^ 52) ^ a) * (y * (1 + 1 / 2 ^ 52) ^ b) := mul_le_mul h3 g3 g2 (by positivity)
      _ = _ := by rw [pow_add]; ring
  · calc x * y ≤ (p * (1 + 1 / 2 ^ 52) ^ a) * (q * (1 + 1 / 2 ^ 52) ^ b) := mul_le_mul h4 g4 g1 (by positivity)
      _ = _ := by rw [pow_add]; ring

theorem tens_near : ∀ i, Near i (tens i) (10 ^ i) := by
  intro i
  induction i with
  | zero =>
    rw [pow_zero]
    exact Near.refl (by norm_num : (0 : ℚ) ≤ 1)
  | succ n ih =>
    have h10 : Near 0 (10 : ℚ) 10 := Near.refl (by norm_num)
    have := (ih.mul h10).rn (Sized.of_ge (e := 0) (by norm_num) (by rw [zpow_zero]; have := tens_ge_one n; linarith))
    rw [pow_succ]
    exact this

/-- Near with small factors. -/
theorem Near.abs {k : ℕ} {x q e b : ℚ} (h : Near k x q) (he : (1 + 1 / 2 ^ 52 : ℚ) ^ k ≤ 1 + e) (hb : q ≤ b) (he0 : 0 ≤ e) : |x - q| ≤ b * (e * (1 + e)) := by
  obtain ⟨h1, h2, h3, h4⟩ := h
  have hb0 : 0 ≤ b := h2.trans hb
  have u1 : x ≤ q * (1 + e) := h4.trans (mul_le_mul_of_nonneg_left he h2)
  have u2 : q ≤ x * (1 + e) := h3.trans (mul_le_mul_of_nonneg_left he h1)
  have m1 : q * e ≤ b * e := mul_le_mul_of_nonneg_right hb he0
  have m2 : x * e ≤ b * (1 + e) * e := mul_le_mul_of_nonneg_right (u1.trans (mul_le_mul_of_nonneg_right hb (by linarith))) he0
  have m3 : 0 ≤ b * e * e := by positivity
  rw [abs_le]
  constructor <;> nlinarith

/-- The sizes of the units. -/
theorem durUnits_size {u : Bytes} {n : Nat} (h : (u, n) ∈ durUnits) : 1 ≤ n ∧ n ≤ 3600000000000 := by
  simp only [durUnits, List.mem_cons, List.not_mem_nil, or_false, Prod.mk.injEq] at h
  rcases h with h | h | h | h | h | h | h | h <;> omega

/-- What `fracNs` computes before it is cut off. -/
def fracQ (f unit : Nat) (scale : ℚ) : ℚ := rn (rn f * rn (rn unit / scale))

theorem fracQ_near {f n i : Nat} (hf : f < 9223372036854775808) (hfi : f < 10 ^ i) (hn : 1 ≤ n ∧ n ≤ 3600000000000) : |fracQ f n (tens i) - f * n / 10 ^ i| ≤ 1 / 200 := by
  have hn53 : rn (n : ℚ) = n := rn_nat (by omega)
  have hnq : (1 : ℚ) ≤ n := by exact_mod_cast hn.1
  have hnq2 : (n : ℚ) ≤ 3600000000000 := by exact_mod_cast hn.2
  have hfq : (f : ℚ) < 9223372036854775808 := by exact_mod_cast hf
  have hfq10 : (f : ℚ) < 10 ^ i := by exact_mod_cast hfi
  have hf0 : (0 : ℚ) ≤ f := by positivity
  have ht1 := tens_ge_one i
  have hfn : Near 1 (rn f) f := (Near.refl hf0).rn (Sized.nat f)
  have near : ∀ k, Near k (tens i) (10 ^ i) → i ≤ 60 → Near (1 + (0 + k + 1) + 1) (fracQ f n (tens i)) (f * n / 10 ^ i) := by
    intro k hk hi
    have htu : tens i ≤ 10 ^ 61 := by
      have h1 := (tens_near i).2.2.2
      have h2 : (1 + 1 / 2 ^ 52 : ℚ) ^ i ≤ 10 := by
        calc (1 + 1 / 2 ^ 52 : ℚ) ^ i ≤ (1 + 1 / 2 ^ 52) ^ 60 := pow_le_pow_right₀ (by norm_num) hi
          _ ≤ 10 := by norm_num
      have h3 : (10 : ℚ) ^ i ≤ 10 ^ 60 := pow_le_pow_right₀ (by norm_num) hi
      calc tens i ≤ 10 ^ i * (1 + 1 / 2 ^ 52) ^ i := h1
        _ ≤ 10 ^ 60 * 10 := mul_le_mul h3 h2 (by positivity) (by positivity)
        _ = 10 ^ 61 := by norm_num
    have hdiv : Near (0 + k) ((n : ℚ) / tens i) (n / 10 ^ i) := (Near.refl (by positivity)).div hk (by positivity) (by linarith)
    have hlow : (2 : ℚ) ^ (-210 : ℤ) ≤ (n : ℚ) / tens i := by
      rw [le_div_iff₀ (by linarith)]
      have : (2 : ℚ) ^ (-210 : ℤ) * 10 ^ 61 ≤ 1 := by norm_num
      have p : (0 : ℚ) < 2 ^ (-210 : ℤ) := by positivity
      nlinarith
    have h2 := hdiv.rn (Sized.of_ge (e := -210) (by norm_num) hlow)
    have h3 := hfn.mul h2
    unfold fracQ
    rw [hn53]
    have e : (f : ℚ) * n / 10 ^ i = f * (n / 10 ^ i) := by ring
    rw [e]
    refine h3.rn ?_
    rcases Nat.eq_zero_or_pos f with rfl | hpos
    · left
      have : rn ((0 : ℕ) : ℚ) = 0 := by simpa using rn_zero
      rw [this, zero_mul]
    · refine Sized.of_ge (e := -210) (by norm_num) ?_
      have h4 := rn_ge_pow (e := -210) (by norm_num) hlow
      have h5 : (1 : ℚ) ≤ rn f := by
        have := rn_ge_pow (e := 0) (q := f) (by norm_num) (by rw [zpow_zero]; exact_mod_cast hpos)
        rwa [zpow_zero] at this
      have p : (0 : ℚ) < 2 ^ (-210 : ℤ) := by positivity
      nlinarith
  have hq1 : (f : ℚ) * n / 10 ^ i ≤ 3600000000000 := by
    rw [div_le_iff₀ (by positivity)]
    nlinarith
  by_cases h22 : i ≤ 22
  · have hk : Near 0 (tens i) (10 ^ i) := by rw [tens_exact i h22]; exact Near.refl (by positivity)
    have := (near 0 hk (by omega)).abs (e := 7 / 10 ^ 16) (b := 3600000000000) (by norm_num) hq1 (by norm_num)
    refine this.trans (by norm_num)
  · by_cases h60 : i ≤ 60
    · have hq2 : (f : ℚ) * n / 10 ^ i ≤ 3400000000 := by
        rw [div_le_iff₀ (by positivity)]
        have : (10 : ℚ) ^ 22 ≤ 10 ^ i := pow_le_pow_right₀ (by norm_num) (by omega)
        nlinarith
      have hpow : (1 + 1 / 2 ^ 52 : ℚ) ^ (1 + (0 + i + 1) + 1) ≤ 1 + 15 / 10 ^ 15 := by
        calc (1 + 1 / 2 ^ 52 : ℚ) ^ (1 + (0 + i + 1) + 1) ≤ (1 + 1 / 2 ^ 52) ^ 63 := pow_le_pow_right₀ (by norm_num) (by omega)
          _ ≤ _ := by norm_num
      have := (near i (tens_near i) h60).abs (e := 15 / 10 ^ 15) (b := 3400000000) hpow hq2 (by norm_num)
      exact this.trans (by norm_num)
    · -- far below one
      have ht59 : (10 : ℚ) ^ 59 ≤ tens i := by
        have h1 := (tens_near 60).2.2.1
        have h2 : (1 + 1 / 2 ^ 52 : ℚ) ^ 60 ≤ 10 := by norm_num
        have h3 := tens_ge_one 60
        have h4 := tens_mono 60 i (by omega)
        have : (10 : ℚ) ^ 60 ≤ tens 60 * 10 := h1.trans (mul_le_mul_of_nonneg_left h2 (by linarith))
        have e : (10 : ℚ) ^ 60 = 10 ^ 59 * 10 := by norm_num
        rw [e] at this
        linarith
      have hu : (n : ℚ) / tens i ≤ 2 ^ (-150 : ℤ) := by
        rw [div_le_iff₀ (by linarith)]
        have : (3600000000000 : ℚ) ≤ 2 ^ (-150 : ℤ) * 10 ^ 59 := by norm_num
        have p : (0 : ℚ) < 2 ^ (-150 : ℤ) := by positivity
        nlinarith
      have hu' := rn_le_pow (e := -150) (by norm_num) (by positivity : (0 : ℚ) ≤ n / tens i) hu
      have hf63 : rn (f : ℚ) ≤ 2 ^ (63 : ℤ) := rn_le_pow (by norm_num) hf0 (by norm_num; linarith)
      have hprod : rn (f : ℚ) * rn (n / tens i) ≤ 2 ^ (-87 : ℤ) := by
        calc rn (f : ℚ) * rn (n / tens i) ≤ 2 ^ (63 : ℤ) * 2 ^ (-150 : ℤ) := mul_le_mul hf63 hu' (rn_nonneg (by positivity)) (by positivity)
          _ = 2 ^ (-87 : ℤ) := by norm_num
      have h0 : 0 ≤ rn (f : ℚ) * rn (n / tens i) := mul_nonneg (rn_nonneg hf0) (rn_nonneg (by positivity))
      have hy := rn_le_pow (e := -87) (by norm_num) h0 hprod
      have hy0 := rn_nonneg h0
      have hq3 : (f : ℚ) * n / 10 ^ i ≤ 1 / 10 ^ 20 := by
        rw [div_le_iff₀ (by positivity)]
        have : (10 : ℚ) ^ 61 ≤ 10 ^ i := pow_le_pow_right₀ (by norm_num) (by omega)
        nlinarith
      have hq0 : 0 ≤ (f : ℚ) * n / 10 ^ i := by positivity
      unfold fracQ
      rw [hn53]
      have : (2 : ℚ) ^ (-87 : ℤ) ≤ 1 / 200 := by norm_num
      have : (1 : ℚ) / 10 ^ 20 ≤ 1 / 200 := by norm_num
      rw [abs_le]
      constructor <;> linarith

/-- Nothing is lost if the last digit is worth a whole number. -/
theorem fracQ_exact {f n i : Nat} (hfi : f < 10 ^ i) (hn : 1 ≤ n ∧ n ≤ 3600000000000) (hd : 10 ^ i ∣ n) : fracQ f n (tens i) = f * n / 10 ^ i := by
  obtain ⟨r, hr⟩ := hd
  have hr0 : 0 < r := by
    rcases Nat.eq_zero_or_pos r with rfl | h
    · omega
    · exact h
  have h10 : 10 ^ i ≤ n := by rw [hr]; exact Nat.le_mul_of_pos_right _ hr0
  have hi : i ≤ 22 := by
    by_contra h
    have : 10 ^ 23 ≤ 10 ^ i := Nat.pow_le_pow_right (by norm_num) (by omega)
    have : (10 : ℕ) ^ 23 = 100000000000000000000000 := by norm_num
    omega
  have p : (0 : ℚ) < 10 ^ i := by positivity
  have e1 : (n : ℚ) / 10 ^ i = r := by
    rw [div_eq_iff p.ne', hr]
    push_cast; ring
  have hrn : r ≤ n := by rw [hr]; exact Nat.le_mul_of_pos_left _ (by positivity)
  have hfr : f * r ≤ n := by
    rw [hr]
    exact Nat.mul_le_mul_right _ hfi.le
  unfold fracQ
  rw [rn_nat (n := n) (by omega), tens_exact i hi, e1, rn_nat (n := r) (by omega), rn_nat (n := f) (by omega), ← Nat.cast_mul, rn_nat (by omega)]
  push_cast
  rw [← e1]; ring

/-- **The fraction of a term.** -/
theorem fracNs_eq {f n i : Nat} (hf : f < 9223372036854775808) (hfi : f < 10 ^ i) (hn : 1 ≤ n ∧ n ≤ 3600000000000) :
    ∃ F : Nat, F < 4000000000000 ∧ fracNs (i64 f) (i64 n) (tens i) = i64 F ∧ |(F : ℚ) - f * n / 10 ^ i| < 1 + 1 / 200 ∧ (10 ^ i ∣ n → (F : ℚ) = f * n / 10 ^ i) := by
  have h1 := fracQ_near hf hfi hn
  have h0 : 0 ≤ fracQ f n (tens i) := by
    have ht := tens_ge_one i
    have h1 : 0 ≤ rn (n : ℚ) := rn_nonneg (by positivity)
    refine rn_nonneg (mul_nonneg (rn_nonneg (by positivity)) (rn_nonneg (div_nonneg h1 (by linarith))))
  have hfl : 0 ≤ ⌊fracQ f n (tens i)⌋ := Int.floor_nonneg.mpr h0
  obtain ⟨F, hF⟩ := Int.eq_ofNat_of_zero_le hfl
  have l1 := Int.floor_le (fracQ f n (tens i))
  have l2 := Int.lt_floor_add_one (fracQ f n (tens i))
  rw [hF] at l1 l2
  have l1 : (F : ℚ) ≤ fracQ f n (tens i) := by exact_mod_cast l1
  have l2 : fracQ f n (tens i) < F + 1 := by exact_mod_cast l2
  have hq1 : (f : ℚ) * n / 10 ^ i ≤ 3600000000000 := by
    rw [div_le_iff₀ (by positivity)]
    have hnq2 : (n : ℚ) ≤ 3600000000000 := by exact_mod_cast hn.2
    have hfq10 : (f : ℚ) < 10 ^ i := by exact_mod_cast hfi
    have : (0 : ℚ) ≤ n := by positivity
    nlinarith
  obtain ⟨a1, a2⟩ := abs_le.mp h1
  refine ⟨F, ?_, ?_, ?_, ?_⟩
  · have : (F : ℚ) < 4000000000000 := by linarith
    exact_mod_cast this
  · unfold fracNs
    rw [i64_toInt hf, i64_toInt (by omega)]
    have : (⌊rn (rn ((f : ℤ) : ℚ) * rn (rn ((n : ℤ) : ℚ) / tens i))⌋) = (F : ℤ) := by
      have e : rn (rn ((f : ℤ) : ℚ) * rn (rn ((n : ℤ) : ℚ) / tens i)) = fracQ f n (tens i) := by
        unfold fracQ
        push_cast
        rfl
      rw [e]; exact hF
    rw [this]
    rfl
  · rw [abs_lt]
    constructor <;> linarith
  · intro hd
    have e := fracQ_exact hfi hn hd
    obtain ⟨r, hr⟩ := hd
    have e2 : (f : ℚ) * n / 10 ^ i = ((f * r : ℕ) : ℚ) := by
      rw [div_eq_iff (by positivity), hr]
      push_cast; ring
    rw [e, e2] at l1 l2
    rw [e2]
    have l1 : F ≤ f * r := by exact_mod_cast l1
    have l2 : f * r < F + 1 := by exact_mod_cast l2
    have : F = f * r := by omega
    rw [this]

end Rothko
