import Verif.Model.Cdf
/-!
# C48, C49: the estimated CDF
-/
namespace Rothko

/-! ## With a fixed quantile function -/

/-- The cache has only quantiles of the current observations. -/
def TWrap.Fresh (quant : List F64 → Rat → F64) (w : TWrap) : Prop := ∀ q v, w.cache.lookup q = some v → v = quant w.obs q

theorem quan_fresh {quant : List F64 → Rat → F64} {w : TWrap} (h : w.Fresh quant) (q : Rat) :
    (w.quan quant q).1 = quant w.obs q ∧ (w.quan quant q).2.obs = w.obs ∧ (w.quan quant q).2.Fresh quant := by
  unfold TWrap.quan
  cases hl : w.cache.lookup q with
  | some v => exact ⟨h q v hl, rfl, h⟩
  | none =>
    refine ⟨rfl, rfl, ?_⟩
    intro p v hp
    dsimp only at hp ⊢
    rw [List.lookup_cons] at hp
    by_cases hpq : (p == q) = true
    · rw [hpq] at hp
      cases hp
      rw [eq_of_beq hpq]
    · simp only [hpq] at hp
      exact h p v hp

/-- The bisection on a function. -/
def bis (Q : Rat → F64) (x : F64) : Nat → Rat → Rat → Rat
  | 0, lo, hi => (lo + hi) / 2
  | n + 1, lo, hi => if fLe (Q ((lo + hi) / 2)) x then bis Q x n ((lo + hi) / 2) hi else bis Q x n lo ((lo + hi) / 2)

/-- The CDF of a function. -/
def cdfOf (Q : Rat → F64) (x : F64) : Rat := if fLe x (Q 0) then 0 else if fLe (Q 1) x then 1 else bis Q x 6 0 1

theorem bisect_fresh {quant : List F64 → Rat → F64} (x : F64) (n : Nat) {w : TWrap} (h : w.Fresh quant) (lo hi : Rat) :
    (TWrap.bisect quant x n w lo hi).1 = bis (quant w.obs) x n lo hi ∧ (TWrap.bisect quant x n w lo hi).2.obs = w.obs ∧ (TWrap.bisect quant x n w lo hi).2.Fresh quant := by
  induction n generalizing w lo hi with
  | zero => exact ⟨rfl, rfl, h⟩
  | succ n ih =>
    obtain ⟨e, eo, hf⟩ := quan_fresh h ((lo + hi) / 2)
    simp only [TWrap.bisect, bis]
    rw [e]
    by_cases hc : fLe (quant w.obs ((lo + hi) / 2)) x = true
    · rw [if_pos hc, if_pos hc]
      have := ih hf ((lo + hi) / 2) hi
      rw [eo] at this
      exact this
    · rw [if_neg hc, if_neg hc]
      have := ih hf lo ((lo + hi) / 2)
      rw [eo] at this
      exact this

theorem cdf_fresh {quant : List F64 → Rat → F64} {w : TWrap} (h : w.Fresh quant) (x : F64) :
    (w.cdf quant x).1 = cdfOf (quant w.obs) x ∧ (w.cdf quant x).2.obs = w.obs ∧ (w.cdf quant x).2.Fresh quant := by
  obtain ⟨e0, o0, f0⟩ := quan_fresh h 0
  obtain ⟨e1, o1, f1⟩ := quan_fresh f0 1
  rw [o0] at e1 o1
  simp only [TWrap.cdf, cdfOf]
  rw [e0, e1]
  by_cases c0 : fLe x (quant w.obs 0) = true
  · rw [if_pos c0, if_pos c0]; exact ⟨rfl, o1, f1⟩
  · rw [if_neg c0, if_neg c0]
    by_cases c1 : fLe (quant w.obs 1) x = true
    · rw [if_pos c1, if_pos c1]; exact ⟨rfl, o1, f1⟩
    · rw [if_neg c1, if_neg c1]
      have := bisect_fresh x 6 f1 0 1
      rw [o1] at this
      exact this

theorem mid2 (a b : Rat) : 2 * ((a + b) / 2) = a + b := by grind

theorem bis_range (Q : Rat → F64) (x : F64) (n : Nat) (lo hi : Rat) (h : lo ≤ hi) : lo ≤ bis Q x n lo hi ∧ bis Q x n lo hi ≤ hi := by
  induction n generalizing lo hi with
  | zero => have := mid2 lo hi; simp only [bis]; constructor <;> grind
  | succ n ih =>
    have m := mid2 lo hi
    simp only [bis]
    generalize (lo + hi) / 2 = mid at *
    split
    · have := ih mid hi (by grind); constructor <;> grind
    · have := ih lo mid (by grind); constructor <;> grind

theorem fLe_trans' {a b c : F64} (h1 : fLe a b = true) (h2 : fLe b c = true) : fLe a c = true := by
  unfold fLe at *
  simp at *
  exact ⟨⟨h1.1.1, h2.1.2⟩, by omega⟩

theorem fLe_total' {a b : F64} (ha : fIsNaN a = false) (hb : fIsNaN b = false) : fLe a b = true ∨ fLt b a = true := by
  unfold fLe fLt
  simp [ha, hb]
  omega

theorem bis_mono (Q : Rat → F64) (x y : F64) (hxy : fLe x y = true) (n : Nat) (lo hi : Rat) (h : lo ≤ hi) : bis Q x n lo hi ≤ bis Q y n lo hi := by
  induction n generalizing lo hi with
  | zero => exact Rat.le_refl
  | succ n ih =>
    have m := mid2 lo hi
    simp only [bis]
    generalize (lo + hi) / 2 = mid at *
    by_cases hx : fLe (Q mid) x = true
    · rw [if_pos hx, if_pos (fLe_trans' hx hxy)]
      exact ih _ _ (by grind)
    · rw [if_neg hx]
      have h1 := (bis_range Q x n lo mid (by grind)).2
      by_cases hy : fLe (Q mid) y = true
      · rw [if_pos hy]
        have := (bis_range Q y n mid hi (by grind)).1
        grind
      · rw [if_neg hy]
        exact ih _ _ (by grind)

/-- A quantile function: numbers, not decreasing. -/
structure IsQuantile (Q : Rat → F64) : Prop where
  num : ∀ q, fIsNaN (Q q) = false
  mono : ∀ p q, 0 ≤ p → p ≤ q → q ≤ 1 → fLe (Q p) (Q q) = true

/-- The result is the middle of an interval of ranks around that of `x`, of the width left after the halvings. -/
theorem bis_rank (Q : Rat → F64) (x : F64) (n : Nat) (lo hi : Rat) (h : lo ≤ hi) (h1 : fLe (Q lo) x = true) (h2 : fLe (Q hi) x = false) :
    ∃ a b : Rat, lo ≤ a ∧ a ≤ b ∧ b ≤ hi ∧ (b - a) * 2 ^ n = hi - lo ∧ bis Q x n lo hi = (a + b) / 2 ∧ fLe (Q a) x = true ∧ fLe (Q b) x = false := by
  induction n generalizing lo hi with
  | zero => exact ⟨lo, hi, Rat.le_refl, h, Rat.le_refl, by grind, rfl, h1, h2⟩
  | succ n ih =>
    have m := mid2 lo hi
    simp only [bis]
    generalize (lo + hi) / 2 = mid at *
    have pw : ∀ a b : Rat, (b - a) * 2 ^ (n + 1) = 2 * ((b - a) * 2 ^ n) := by intro a b; rw [Rat.pow_succ]; grind
    by_cases hx : fLe (Q mid) x = true
    · rw [if_pos hx]
      obtain ⟨a, b, i1, i2, i3, i4, i5, i6, i7⟩ := ih mid hi (by grind) hx h2
      refine ⟨a, b, by grind, i2, i3, ?_, i5, i6, i7⟩
      rw [pw, i4]; grind
    · rw [if_neg hx]
      obtain ⟨a, b, i1, i2, i3, i4, i5, i6, i7⟩ := ih lo mid (by grind) h1 (by simpa using hx)
      refine ⟨a, b, i1, i2, by grind, ?_, i5, i6, i7⟩
      rw [pw, i4]; grind

/-- A wrapper new or loaded, then asked for CDF values at `xs`. -/
def TWrap.cdfs (quant : List F64 → Rat → F64) (w : TWrap) : List F64 → TWrap
  | [] => w
  | x :: xs => (w.cdf quant x).2.cdfs quant xs

/-- The observations and then CDF calls. -/
def queried (quant : List F64 → Rat → F64) (obs xs : List F64) : TWrap := TWrap.cdfs quant { obs := obs } xs

theorem cdfs_fresh (quant : List F64 → Rat → F64) (xs : List F64) (w : TWrap) (h : w.Fresh quant) : (w.cdfs quant xs).Fresh quant ∧ (w.cdfs quant xs).obs = w.obs := by
  induction xs generalizing w with
  | nil => exact ⟨h, rfl⟩
  | cons x xs ih =>
    obtain ⟨_, o, f⟩ := cdf_fresh h x
    have := ih _ f
    exact ⟨this.1, this.2.trans o⟩

theorem queried_cdf (quant : List F64 → Rat → F64) (obs xs : List F64) (x : F64) : ((queried quant obs xs).cdf quant x).1 = cdfOf (quant obs) x := by
  have h0 : ({ obs := obs } : TWrap).Fresh quant := by intro q v h; simp at h
  obtain ⟨f, o⟩ := cdfs_fresh quant xs _ h0
  have := (cdf_fresh f x).1
  rw [o] at this
  exact this

/-- **C48** (below). The CDF is 0 at or below the minimum, whatever was asked before. -/
theorem C48_below (quant : List F64 → Rat → F64) (obs xs : List F64) (x : F64) (h : fLe x (quant obs 0) = true) :
    ((queried quant obs xs).cdf quant x).1 = 0 := by
  rw [queried_cdf]; simp [cdfOf, h]

/-- **C48** (above). It is 1 above the maximum, and at the maximum unless that is also the minimum. -/
theorem C48_above_partial (quant : List F64 → Rat → F64) (obs xs : List F64) (x : F64) (hx : fLe (quant obs 1) x = true) (h : fLe x (quant obs 0) = false) :
    ((queried quant obs xs).cdf quant x).1 = 1 := by
  rw [queried_cdf]; simp [cdfOf, h, hx]

/-- At the maximum of observations that are all equal it is 0. -/
theorem C48_above_refuted :
    ¬ ∀ (quant : List F64 → Rat → F64) (obs xs : List F64) (x : F64), IsQuantile (quant obs) → fLe (quant obs 1) x = true → ((queried quant obs xs).cdf quant x).1 = 1 := by
  intro h
  have := h (fun _ _ => 0x3ff0000000000000#64) [0x3ff0000000000000#64] [] 0x3ff0000000000000#64 ⟨fun _ => by decide, fun _ _ _ _ _ => by decide⟩ (by decide)
  rw [queried_cdf] at this
  revert this
  decide +kernel

/-- **C48** (range). It is between 0 and 1, for any quantile function and any `x`, NaN too. -/
theorem C48_range (quant : List F64 → Rat → F64) (obs xs : List F64) (x : F64) :
    0 ≤ ((queried quant obs xs).cdf quant x).1 ∧ ((queried quant obs xs).cdf quant x).1 ≤ 1 := by
  rw [queried_cdf]
  unfold cdfOf
  split
  · exact ⟨Rat.le_refl, by decide +kernel⟩
  · split
    · exact ⟨by decide +kernel, Rat.le_refl⟩
    · exact bis_range _ x 6 0 1 (by decide +kernel)

/-- **C48** (monotone). Larger values have at least the CDF. -/
theorem C48_monotone (quant : List F64 → Rat → F64) (obs xs ys : List F64) (x y : F64) (hxy : fLe x y = true) :
    ((queried quant obs xs).cdf quant x).1 ≤ ((queried quant obs ys).cdf quant y).1 := by
  have hx1 := (C48_range quant obs xs x).2
  have hy0 := (C48_range quant obs ys y).1
  rw [queried_cdf] at hx1 hy0 ⊢
  rw [queried_cdf]
  by_cases c0 : fLe x (quant obs 0) = true
  · rw [show cdfOf (quant obs) x = 0 by simp [cdfOf, c0]]; exact hy0
  · have d0 : ¬ fLe y (quant obs 0) = true := fun h => c0 (fLe_trans' hxy h)
    by_cases d1 : fLe (quant obs 1) y = true
    · rw [show cdfOf (quant obs) y = 1 by simp [cdfOf, d0, d1]]; exact hx1
    · have c1 : ¬ fLe (quant obs 1) x = true := fun h => d1 (fLe_trans' h hxy)
      unfold cdfOf
      rw [if_neg c0, if_neg c1, if_neg d0, if_neg d1]
      exact bis_mono _ x y hxy 6 0 1 (by decide +kernel)

/-- **C48** (accuracy). For `x` between the minimum and the maximum, the quantiles pass `x` within 1/128 of the result. -/
theorem C48_accuracy (quant : List F64 → Rat → F64) (obs xs : List F64) (x : F64) (hx : fIsNaN x = false) (hQ : IsQuantile (quant obs))
    (h0 : fLt (quant obs 0) x = true) (h1 : fLt x (quant obs 1) = true) (k : Rat) (hk : k = ((queried quant obs xs).cdf quant x).1) :
    0 ≤ k - 1 / 128 ∧ k + 1 / 128 ≤ 1 ∧ fLe (quant obs (k - 1 / 128)) x = true ∧ fLt x (quant obs (k + 1 / 128)) = true := by
  subst hk
  rw [queried_cdf]
  have n0 : fLe x (quant obs 0) = false := by
    unfold fLt at h0; unfold fLe; simp at *; intro _ _; omega
  have n1 : fLe (quant obs 1) x = false := by
    unfold fLt at h1; unfold fLe; simp at *; intro _ _; omega
  have e0 : fLe (quant obs 0) x = true := by
    unfold fLt at h0; unfold fLe; simp at *; exact ⟨h0.1, by omega⟩
  obtain ⟨a, b, i1, i2, i3, i4, i5, i6, i7⟩ := bis_rank (quant obs) x 6 0 1 (by decide +kernel) e0 n1
  have e : cdfOf (quant obs) x = (a + b) / 2 := by simp [cdfOf, n0, n1, i5]
  rw [e]
  have w : (b - a) * 64 = 1 := by
    have : (2 : Rat) ^ 6 = 64 := by decide +kernel
    rw [this] at i4; grind
  have m := mid2 a b
  have ea : (a + b) / 2 - 1 / 128 = a := by grind
  have eb : (a + b) / 2 + 1 / 128 = b := by grind
  rw [ea, eb]
  refine ⟨i1, i3, i6, ?_⟩
  rcases fLe_total' (hQ.num b) hx with h | h
  · rw [h] at i7; cases i7
  · exact h

/-- **C48** (accuracy, as a rank). If `q` is the CDF of `x`, the place where the quantiles pass `x`, the result is within 1/128 of it. -/
theorem C48_rank (quant : List F64 → Rat → F64) (obs xs : List F64) (x : F64) (hx : fIsNaN x = false) (hQ : IsQuantile (quant obs))
    (h0 : fLt (quant obs 0) x = true) (h1 : fLt x (quant obs 1) = true) (q : Rat)
    (hbelow : ∀ p, 0 ≤ p → p < q → fLe (quant obs p) x = true) (habove : ∀ p, q < p → p ≤ 1 → fLt x (quant obs p) = true) :
    q - 1 / 128 ≤ ((queried quant obs xs).cdf quant x).1 ∧ ((queried quant obs xs).cdf quant x).1 ≤ q + 1 / 128 := by
  obtain ⟨a0, b1, ha, hb⟩ := C48_accuracy quant obs xs x hx hQ h0 h1 _ rfl
  generalize ((queried quant obs xs).cdf quant x).1 = k at *
  constructor
  · refine Classical.byContradiction (fun hn => ?_)
    have := hbelow (k + 1 / 128) (by grind) (by grind)
    unfold fLt at hb; unfold fLe at this; simp at *; omega
  · refine Classical.byContradiction (fun hn => ?_)
    have := habove (k - 1 / 128) (by grind) (by grind)
    unfold fLt at this; unfold fLe at ha; simp at *; omega

/-! ## C49 -/

/-- The calls of a user. -/
inductive TCall
  | observe (v : F64)
  | cdf (x : F64)

/-- Make a call; the result of a `cdf`. -/
def TWrap.call (quant : List F64 → Rat → F64) (w : TWrap) : TCall → Option Rat × TWrap
  | .observe v => (none, w.observe v)
  | .cdf x => let r := w.cdf quant x; (some r.1, r.2)

/-- Calls in a row, from a new wrapper. -/
def TWrap.calls (quant : List F64 → Rat → F64) (w : TWrap) : List TCall → TWrap
  | [] => w
  | c :: cs => (w.call quant c).2.calls quant cs

/-- The values observed by the calls. -/
def observed : List TCall → List F64
  | [] => []
  | .observe v :: cs => v :: observed cs
  | .cdf _ :: cs => observed cs

/-- What a CDF should be after the calls: that of all the observations. -/
def CdfCurrent (quant : List F64 → Rat → F64) (calls : List TCall) (x : F64) : Prop :=
  ((TWrap.calls quant {} calls).cdf quant x).1 = cdfOf (quant (observed calls)) x

theorem calls_append (quant : List F64 → Rat → F64) (w : TWrap) (a b : List TCall) : w.calls quant (a ++ b) = (w.calls quant a).calls quant b := by
  induction a generalizing w with
  | nil => rfl
  | cons c cs ih => exact ih _

theorem calls_observes (quant : List F64 → Rat → F64) (w : TWrap) (vs : List F64) : w.calls quant (vs.map .observe) = { w with obs := w.obs ++ vs } := by
  induction vs generalizing w with
  | nil => simp [TWrap.calls]
  | cons v vs ih => simp only [List.map_cons, TWrap.calls]; rw [ih]; simp [TWrap.call, TWrap.observe]

theorem calls_cdfs (quant : List F64 → Rat → F64) (w : TWrap) (xs : List F64) : w.calls quant (xs.map .cdf) = w.cdfs quant xs := by
  induction xs generalizing w with
  | nil => rfl
  | cons v vs ih => simp only [List.map_cons, TWrap.calls, TWrap.cdfs]; rw [ih]; rfl

theorem observed_append (a b : List TCall) : observed (a ++ b) = observed a ++ observed b := by
  induction a with
  | nil => rfl
  | cons c cs ih => cases c <;> simp [observed, ih]

/-- **C49**, when every observation is before the first CDF: as in merging, loading and rendering. -/
theorem C49_current_partial (quant : List F64 → Rat → F64) (vs xs : List F64) (x : F64) : CdfCurrent quant (vs.map .observe ++ xs.map .cdf) x := by
  have e : observed (vs.map .observe ++ xs.map .cdf) = vs := by
    rw [observed_append]
    have h1 : ∀ l : List F64, observed (l.map .observe) = l := by intro l; induction l with | nil => rfl | cons a l ih => simp [observed, ih]
    have h2 : ∀ l : List F64, observed (l.map .cdf) = [] := by intro l; induction l with | nil => rfl | cons a l ih => simp [observed, ih]
    rw [h1, h2, List.append_nil]
  unfold CdfCurrent
  rw [e, calls_append, calls_observes, calls_cdfs]
  exact queried_cdf quant vs xs x

/-- The nearest-rank quantile of one or two observations. -/
def quant2 (obs : List F64) (q : Rat) : F64 :=
  match obs with
  | [] => 0#64
  | [v] => v
  | a :: b :: _ => if q ≤ 1 / 2 then a else b

/-- CDF, Observe, CDF: the second one still uses the quantiles from before. -/
theorem C49_refuted : ¬ ∀ (quant : List F64 → Rat → F64) (calls : List TCall) (x : F64), CdfCurrent quant calls x := by
  intro h
  -- observe 1.0, ask for 1.5, observe 2.0
  have := h quant2 [.observe 0x3ff0000000000000#64, .cdf 0x3ff8000000000000#64, .observe 0x4000000000000000#64] 0x3ff8000000000000#64
  revert this
  unfold CdfCurrent
  decide +kernel

/-- A cached quantile stays. -/
theorem quan_keep (quant : List F64 → Rat → F64) (w : TWrap) (q p : Rat) (v : F64) (h : w.cache.lookup q = some v) : (w.quan quant p).2.cache.lookup q = some v := by
  unfold TWrap.quan
  cases hl : w.cache.lookup p with
  | some u => exact h
  | none =>
    dsimp only
    rw [List.lookup_cons]
    by_cases hpq : (q == p) = true
    · rw [eq_of_beq hpq] at h
      rw [h] at hl; cases hl
    · simp only [hpq]; exact h

theorem bisect_keep (quant : List F64 → Rat → F64) (x : F64) (n : Nat) (w : TWrap) (lo hi q : Rat) (v : F64) (h : w.cache.lookup q = some v) :
    (TWrap.bisect quant x n w lo hi).2.cache.lookup q = some v := by
  induction n generalizing w lo hi with
  | zero => exact h
  | succ n ih =>
    have := quan_keep quant w q ((lo + hi) / 2) v h
    simp only [TWrap.bisect]
    split
    · exact ih _ _ _ this
    · exact ih _ _ _ this

theorem quan_caches (quant : List F64 → Rat → F64) (w : TWrap) (q : Rat) : (w.quan quant q).2.cache.lookup q = some (w.quan quant q).1 := by
  unfold TWrap.quan
  cases hl : w.cache.lookup q with
  | some u => exact hl
  | none => simp

theorem cdf_keep (quant : List F64 → Rat → F64) (w : TWrap) (x : F64) (q : Rat) (v : F64) (h : w.cache.lookup q = some v) : (w.cdf quant x).2.cache.lookup q = some v := by
  have h1 := quan_keep quant w q 0 v h
  have h2 := quan_keep quant _ q 1 v h1
  simp only [TWrap.cdf]
  split
  · exact h2
  · split
    · exact h2
    · exact bisect_keep quant x 6 _ 0 1 q v h2

theorem calls_keep (quant : List F64 → Rat → F64) (cs : List TCall) (w : TWrap) (q : Rat) (v : F64) (h : w.cache.lookup q = some v) : (w.calls quant cs).cache.lookup q = some v := by
  induction cs generalizing w with
  | nil => exact h
  | cons c cs ih =>
    refine ih _ ?_
    cases c with
    | observe u => exact h
    | cdf x => exact cdf_keep quant w x q v h

theorem cdf_caches (quant : List F64 → Rat → F64) (w : TWrap) (x : F64) : ∃ mn mx, (w.cdf quant x).2.cache.lookup 0 = some mn ∧ (w.cdf quant x).2.cache.lookup 1 = some mx ∧
    mn = (w.quan quant 0).1 ∧ mx = ((w.quan quant 0).2.quan quant 1).1 := by
  have h0 := quan_keep quant _ 0 1 _ (quan_caches quant w 0)
  have h1 := quan_caches quant (w.quan quant 0).2 1
  refine ⟨_, _, ?_, ?_, rfl, rfl⟩
  · simp only [TWrap.cdf]
    split
    · exact h0
    · split
      · exact h0
      · exact bisect_keep quant x 6 _ 0 1 _ _ h0
  · simp only [TWrap.cdf]
    split
    · exact h1
    · split
      · exact h1
      · exact bisect_keep quant x 6 _ 0 1 _ _ h1

/-- **C49** fails in general: once a CDF has been asked, later observations never move the ends. A value above the maximum of the observations before the first CDF has CDF 1 for ever. -/
theorem C49_stale (quant : List F64 → Rat → F64) (vs : List F64) (x : F64) (cs : List TCall) (y : F64) (hy : fLt (quant vs 1) y = true) (hy0 : fLt (quant vs 0) y = true) :
    ((TWrap.calls quant {} (vs.map .observe ++ .cdf x :: cs)).cdf quant y).1 = 1 := by
  rw [calls_append, calls_observes]
  simp only [TWrap.calls, TWrap.call, List.nil_append]
  have hf : ({ obs := vs } : TWrap).Fresh quant := by intro q v h; simp at h
  obtain ⟨mn, mx, c0, c1, e0, e1⟩ := cdf_caches quant { obs := vs } x
  obtain ⟨q0, o0, f0⟩ := quan_fresh hf 0
  obtain ⟨q1, o1, f1⟩ := quan_fresh f0 1
  rw [q0] at e0
  rw [q1, o0] at e1
  have k0 := calls_keep quant cs _ 0 _ c0
  have k1 := calls_keep quant cs _ 1 _ c1
  generalize TWrap.calls quant (TWrap.cdf quant { obs := vs } x).2 cs = w at *
  have n0 : fLe y mn = false := by
    rw [e0]; unfold fLt at hy0; unfold fLe; simp at *; intro _ _; omega
  have n1 : fLe mx y = true := by
    rw [e1]; unfold fLt at hy; unfold fLe; simp at *; exact ⟨hy.1, by omega⟩
  simp [TWrap.cdf, TWrap.quan, k0, k1, n0, n1]

/-- The nearest-rank quantile of 1.0 and 2.0 meets the hypotheses of `C48_accuracy` and `C48_rank` at 1.5, whose CDF is 1/2: the result is 65/128. -/
theorem C48_example : IsQuantile (quant2 [0x3ff0000000000000#64, 0x4000000000000000#64]) ∧
    fLt (quant2 [0x3ff0000000000000#64, 0x4000000000000000#64] 0) 0x3ff8000000000000#64 = true ∧ fLt 0x3ff8000000000000#64 (quant2 [0x3ff0000000000000#64, 0x4000000000000000#64] 1) = true ∧
    ((queried quant2 [0x3ff0000000000000#64, 0x4000000000000000#64] [0x3ff8000000000000#64]).cdf quant2 0x3ff8000000000000#64).1 = 65 / 128 := by
  refine ⟨⟨?_, ?_⟩, by decide +kernel, by decide +kernel, by decide +kernel⟩
  · intro q; simp only [quant2]; split <;> decide
  · intro p q _ h _
    simp only [quant2]
    split
    · split <;> decide
    · rw [if_neg (by grind)]; decide

end Rothko
