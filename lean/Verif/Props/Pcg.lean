import Verif.Model.Pcg
import Mathlib.Data.Fintype.EquivFin
import Mathlib.Data.Nat.Prime.Basic
import Mathlib.Algebra.Group.Nat.Even
import Mathlib.Tactic.Ring
/-!
# C28, C29: the random index and the generator
-/
namespace Rothko

/-- `k` outputs in a row. -/
def Pcg.outputs : Nat → Pcg → List UInt32
  | 0, _ => []
  | k + 1, p => p.uint32.1 :: Pcg.outputs k p.uint32.2

/-- `f` applied `k` times. -/
def pcgIter {α : Type} (f : α → α) : Nat → α → α
  | 0, p => p
  | k + 1, p => pcgIter f k (f p)

/-- The generator after one call. -/
def Pcg.next (p : Pcg) : Pcg := p.uint32.2

/-- The generator after `k` calls. -/
def Pcg.after (k : Nat) (p : Pcg) : Pcg := pcgIter Pcg.next k p

/-- **C29.** The zero value gives the same outputs as `New(0, 0)`, forever. -/
theorem C29_zero_value (k : Nat) : Pcg.outputs k ⟨0, 0⟩ = Pcg.outputs k (Pcg.new 0 0) := by
  cases k with
  | zero => rfl
  | succ k =>
    have : (⟨0, 0⟩ : Pcg).uint32 = (Pcg.new 0 0).uint32 := by
      simp only [Pcg.uint32, if_true]
      rw [if_neg (by decide)]
    simp only [Pcg.outputs, this]

/-- **C29.** `New(state, inc)` is: start at state 0 with the increment `2·inc+1`, take one output, add `state`, take one output. -/
theorem C29_seeding (state inc : UInt64) :
    Pcg.new state inc =
      (let p0 : Pcg := ⟨0, inc <<< 1 ||| 1⟩
       let p1 := p0.uint32.2
       let p2 : Pcg := { p1 with state := p1.state + state }
       p2.uint32.2) := by
  have hodd : (inc <<< 1 ||| 1) ≠ 0 := by
    intro h
    have : (inc <<< 1 ||| 1) &&& 1 = 0 := by rw [h]; rfl
    have h2 : ∀ x : UInt64, (x ||| 1) &&& 1 = 1 := by
      intro x; apply UInt64.toBitVec_inj.mp
      simp only [UInt64.toBitVec_and, UInt64.toBitVec_or]
      ext i hi
      simp
      exact fun h => Or.inr h
    rw [h2] at this
    exact absurd this (by decide)
  simp [Pcg.new, Pcg.uint32, hodd]

/-- `1 + a + … + a^(k-1)`. -/
def geoSum (a : Nat) : Nat → Nat
  | 0 => 0
  | k + 1 => a * geoSum a k + 1

theorem geoSum_double (a k : Nat) : geoSum a (2 * k) = (1 + a) * geoSum (a * a) k := by
  induction k with
  | zero => rfl
  | succ k ih =>
    rw [show 2 * (k + 1) = 2 * k + 1 + 1 by omega]
    simp only [geoSum, ih]; ring

theorem geoSum_parity (a k : Nat) (ha : a % 2 = 1) : geoSum a k % 2 = k % 2 := by
  induction k with
  | zero => rfl
  | succ k ih => rw [geoSum, Nat.add_mod, Nat.mul_mod, ha, ih]; omega

theorem dvd_geoSum (n : Nat) : ∀ a k, a % 4 = 1 → (2 ^ n ∣ geoSum a k ↔ 2 ^ n ∣ k) := by
  induction n with
  | zero => intro a k _; simp
  | succ n ih =>
    intro a k ha
    rcases Nat.even_or_odd' k with ⟨m, hm | hm⟩
    · subst hm
      obtain ⟨u, hu⟩ : ∃ u, 1 + a = 2 * (2 * u + 1) := ⟨(a - 1) / 4, by omega⟩
      have hsq : (a * a) % 4 = 1 := by rw [Nat.mul_mod, ha]
      rw [geoSum_double, hu, pow_succ, mul_comm (2 ^ n) 2, mul_assoc, Nat.mul_dvd_mul_iff_left (by omega), Nat.mul_dvd_mul_iff_left (by omega)]
      rw [← ih (a * a) m hsq]
      have hc : Nat.Coprime (2 ^ n) (2 * u + 1) := by
        apply Nat.Coprime.pow_left
        rw [Nat.coprime_two_left]
        exact ⟨u, rfl⟩
      exact ⟨fun h => hc.dvd_of_dvd_mul_left h, fun h => Dvd.dvd.mul_left h _⟩
    · have h2 := geoSum_parity a k (by omega)
      constructor
      · intro h
        have : 2 ∣ geoSum a k := Dvd.dvd.trans (dvd_pow_self 2 (by omega)) h
        omega
      · intro h
        have : 2 ∣ k := Dvd.dvd.trans (dvd_pow_self 2 (by omega)) h
        omega

theorem pcgIter_succ {α : Type} (f : α → α) (k : Nat) (p : α) : pcgIter f (k + 1) p = f (pcgIter f k p) := by
  induction k generalizing p with
  | zero => rfl
  | succ k ih => exact ih (f p)

theorem pcgIter_add {α : Type} (f : α → α) (j k : Nat) (p : α) : pcgIter f (j + k) p = pcgIter f k (pcgIter f j p) := by
  induction j generalizing p with
  | zero => simp [pcgIter]
  | succ j ih => rw [show j + 1 + k = j + k + 1 by omega]; exact ih (f p)

theorem after_succ (k : Nat) (p : Pcg) : Pcg.after (k + 1) p = (Pcg.after k p).next := pcgIter_succ Pcg.next k p
theorem after_add (j k : Nat) (p : Pcg) : Pcg.after (j + k) p = Pcg.after k (Pcg.after j p) := pcgIter_add Pcg.next j k p
theorem after_zero (p : Pcg) : Pcg.after 0 p = p := rfl

theorem next_of_odd (p : Pcg) (h : p.inc ≠ 0) : p.next = { p with state := p.state * pcgMul + p.inc } := by
  unfold Pcg.next Pcg.uint32
  simp only [if_neg h]

theorem step_arith (a b x c g : Nat) (ha : a = b + 1) (N : Nat) :
    ((x + g * (b * x + c)) % N * a % N + c) % N = (x + (a * g + 1) * (b * x + c)) % N := by
  rw [Nat.add_mod, Nat.mod_mod, Nat.mul_mod, Nat.mod_mod, ← Nat.mul_mod, ← Nat.add_mod]
  congr 1
  subst ha
  ring

theorem after_state (k : Nat) (p : Pcg) (hp : p.inc.toNat % 2 = 1) :
    (Pcg.after k p).inc = p.inc ∧
    (Pcg.after k p).state.toNat = (p.state.toNat + geoSum 6364136223846793005 k * (6364136223846793004 * p.state.toNat + p.inc.toNat)) % 18446744073709551616 := by
  induction k with
  | zero =>
    refine ⟨rfl, ?_⟩
    have h := p.state.toNat_lt
    have h2 : p.state.toNat < 18446744073709551616 := h
    rw [after_zero, geoSum, Nat.zero_mul, Nat.add_zero, Nat.mod_eq_of_lt h2]
  | succ k ih =>
    rw [after_succ]
    have hne : ¬ ((Pcg.after k p).inc = 0) := by
      rw [ih.1]; intro h; rw [h] at hp; simp at hp
    rw [next_of_odd _ hne]
    refine ⟨ih.1, ?_⟩
    show (_ * pcgMul + _ : UInt64).toNat = _
    rw [UInt64.toNat_add, UInt64.toNat_mul, ih.1, ih.2, geoSum]
    exact step_arith 6364136223846793005 6364136223846793004 _ _ _ rfl 18446744073709551616

/-- **C29.** For an odd increment (as `New` always sets it) two positions of the generator's state sequence hold the same state exactly if their distance is a multiple of `2^64`. -/
theorem C29_period (p : Pcg) (hp : p.inc.toNat % 2 = 1) (j k : Nat) (hjk : j ≤ k) :
    (Pcg.after j p).state = (Pcg.after k p).state ↔ 2 ^ 64 ∣ k - j := by
  obtain ⟨d, rfl⟩ : ∃ d, k = j + d := ⟨k - j, by omega⟩
  rw [after_add]
  have hq := after_state j p hp
  have hq' : (Pcg.after j p).inc.toNat % 2 = 1 := by rw [hq.1]; exact hp
  generalize Pcg.after j p = q at hq'
  have hs := (after_state d q hq').2
  rw [← UInt64.toNat_inj, hs, Nat.add_sub_cancel_left, ← dvd_geoSum 64 6364136223846793005 d (by norm_num)]
  have hlt : q.state.toNat < 18446744073709551616 := q.state.toNat_lt
  rw [show (2 : Nat) ^ 64 = 18446744073709551616 from rfl] at *
  generalize hx : q.state.toNat = x at *
  have hodd : Nat.Coprime 18446744073709551616 (6364136223846793004 * x + q.inc.toNat) := by
    rw [show 18446744073709551616 = 2 ^ 64 from rfl]
    apply Nat.Coprime.pow_left
    rw [Nat.coprime_two_left, Nat.odd_iff]; omega
  generalize 6364136223846793004 * x + q.inc.toNat = t at *
  generalize geoSum 6364136223846793005 d = g
  have h1 : (x = (x + g * t) % 18446744073709551616) ↔ 18446744073709551616 ∣ g * t := by
    constructor
    · intro h; omega
    · intro h
      obtain ⟨c, hc⟩ := h
      rw [hc]; omega
  rw [h1]
  exact ⟨fun h => hodd.dvd_of_dvd_mul_right h, fun h => Dvd.dvd.mul_right h _⟩

/-- **C29.** The first `2^64` states are all the 64 bit values. -/
theorem C29_all_states (p : Pcg) (hp : p.inc.toNat % 2 = 1) (s : UInt64) : ∃ k, k < 2 ^ 64 ∧ (Pcg.after k p).state = s := by
  let f : Fin (2 ^ 64) → Fin (2 ^ 64) := fun k => ⟨(Pcg.after k.val p).state.toNat, (Pcg.after k.val p).state.toNat_lt⟩
  have hinj : Function.Injective f := by
    intro a b h
    have h' : (Pcg.after a.val p).state = (Pcg.after b.val p).state := by
      apply UInt64.toNat_inj.mp; exact congrArg Fin.val h
    have ha := a.isLt
    have hb := b.isLt
    apply Fin.ext
    rcases Nat.le_total a.val b.val with hle | hle
    · have := (C29_period p hp _ _ hle).mp h'; omega
    · have := (C29_period p hp _ _ hle).mp h'.symm; omega
  obtain ⟨k, hk⟩ := Finite.surjective_of_injective hinj ⟨s.toNat, s.toNat_lt⟩
  exact ⟨k.val, k.isLt, by apply UInt64.toNat_inj.mp; exact congrArg Fin.val hk⟩

/-- `New` always sets an odd increment. -/
theorem C29_new_odd (state inc : UInt64) : (Pcg.new state inc).inc.toNat % 2 = 1 := by
  simp only [Pcg.new]
  rw [UInt64.toNat_or, show (1 : UInt64).toNat = 1 from rfl, Nat.or_mod_two_eq_one]
  exact Or.inr rfl

set_option maxRecDepth 100000 in
/-- Test: the vector of pcg_test.go:23-40. -/
example : (Pcg.new 2345 2378).outputs 10 = [0xccca066b, 0x40cee775, 0x0df46902, 0x981fbe29, 0xfc8bfb85, 0xcfd9eef2, 0xa046c325, 0x31abe14c, 0xe29defb4, 0x160568cc] := by
  decide +kernel

theorem fastMod_eq (n : UInt32) (m : Nat) (h1 : m < 2 ^ 63) : fastMod n m = n.toNat * m % 2 ^ 64 / 2 ^ 32 := by
  unfold fastMod
  rw [UInt64.toNat_shiftRight, UInt64.toNat_mul, UInt32.toNat_toUInt64, UInt64.toNat_ofNat', Nat.mod_eq_of_lt (a := m) (by omega)]
  rw [show (32 : UInt64).toNat % 64 = 32 from rfl, Nat.shiftRight_eq_div_pow]

/-- **C28.** The index is in range, for every generator output and every capacity (a positive Go `int`). -/
theorem C28_in_range (n : UInt32) (m : Nat) (h0 : 0 < m) (h1 : m < 2 ^ 63) : fastMod n m < m := by
  have hn := n.toNat_lt
  rw [fastMod_eq n m h1, Nat.div_lt_iff_lt_mul (by norm_num)]
  by_cases h : m ≤ 2 ^ 32
  · have h2 : n.toNat * m ≤ n.toNat * 2 ^ 32 := Nat.mul_le_mul_left _ h
    have h3 : n.toNat * m < 2 ^ 32 * m := Nat.mul_lt_mul_of_pos_right hn h0
    omega
  · omega

/-- **C28.** For every capacity up to `2^32` every index is produced by some generator output. -/
theorem C28_onto (m : Nat) (h1 : m ≤ 2 ^ 32) (i : Nat) (hi : i < m) : ∃ n : UInt32, fastMod n m = i := by
  have h0 : 0 < m := by omega
  have hlt : (i * 2 ^ 32 + (m - 1)) / m < 2 ^ 32 := by
    rw [Nat.div_lt_iff_lt_mul h0]
    have : i * 2 ^ 32 ≤ (m - 1) * 2 ^ 32 := Nat.mul_le_mul_right _ (by omega)
    have h2 : 2 ^ 32 * m = (m - 1) * 2 ^ 32 + 2 ^ 32 := by
      obtain ⟨k, rfl⟩ : ∃ k, m = k + 1 := ⟨m - 1, by omega⟩
      simp only [Nat.add_sub_cancel]; ring
    omega
  refine ⟨UInt32.ofNat ((i * 2 ^ 32 + (m - 1)) / m), ?_⟩
  rw [fastMod_eq _ m (by omega), UInt32.toNat_ofNat', Nat.mod_eq_of_lt hlt]
  generalize hq : (i * 2 ^ 32 + (m - 1)) / m = q at *
  have hup : q * m ≤ i * 2 ^ 32 + (m - 1) := by rw [← hq]; exact Nat.div_mul_le_self _ _
  have hlo : i * 2 ^ 32 + (m - 1) < q * m + m := by
    have := Nat.lt_div_mul_add (a := i * 2 ^ 32 + (m - 1)) h0
    rw [hq] at this; exact this
  generalize q * m = r at *
  omega

/-- Test: a cache of 3 entries. -/
example : fastMod 0 3 = 0 ∧ fastMod 0x60000000 3 = 1 ∧ fastMod 0xffffffff 3 = 2 := by decide

end Rothko
