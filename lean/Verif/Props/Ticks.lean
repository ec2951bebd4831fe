import Verif.Model.Scene
import Verif.Props.Heat
import Verif.Props.Rate
import Verif.Props.Response
import Verif.Lemmas.Near
/-!
# C86: where the ticks and labels of a graph are
-/
namespace Rothko

theorem truncQ_nonneg {q : ℚ} (h : 0 ≤ q) : truncQ q = ⌊q⌋ := by
  unfold truncQ
  rw [if_neg (not_lt.mpr h)]

theorem pxOf_eq {n : Int} (p : Pos) (h1 : 1 ≤ n) (h2 : n ≤ 9007199254740992) : pxOf n p = ⌊rn ((n - 1 : Int) * p.1)⌋ := by
  have hk : (0 : ℚ) ≤ ((n - 1 : Int) : ℚ) := by exact_mod_cast (show (0 : ℤ) ≤ n - 1 by omega)
  have e : rn ((n - 1 : Int) : ℚ) = ((n - 1 : Int) : ℚ) := by
    have := rn_nat (n := (n - 1).toNat) (by omega)
    rwa [show (((n - 1).toNat : ℕ) : ℚ) = ((n - 1 : Int) : ℚ) by rw [← Int.cast_natCast, Int.toNat_of_nonneg (by omega)]] at this
  unfold pxOf
  rw [if_pos h2, rnS_nonneg hk, e, rnS_nonneg (mul_nonneg hk p.2.1), truncQ_nonneg (rn_nonneg (mul_nonneg hk p.2.1))]

theorem pxOf_bounds (n : Int) (p : Pos) (h1 : 1 ≤ n) : 0 ≤ pxOf n p ∧ pxOf n p < n := by
  have hk : (0 : ℚ) ≤ ((n - 1 : Int) : ℚ) := by exact_mod_cast (show (0 : ℤ) ≤ n - 1 by omega)
  have hm : 0 ≤ ((n - 1 : Int) : ℚ) * p.1 := mul_nonneg hk p.2.1
  have hle : ((n - 1 : Int) : ℚ) * p.1 ≤ ((n - 1 : Int) : ℚ) := mul_le_of_le_one_right hk p.2.2
  have fin : ∀ q : ℚ, 0 ≤ q → q ≤ ((n - 1 : Int) : ℚ) → 0 ≤ ⌊q⌋ ∧ ⌊q⌋ < n := by
    intro q h0 h
    refine ⟨Int.floor_nonneg.mpr h0, ?_⟩
    have := Int.floor_mono h
    rw [Int.floor_intCast] at this
    omega
  by_cases h2 : n ≤ 9007199254740992
  · rw [pxOf_eq p h1 h2]
    refine fin _ (rn_nonneg hm) ?_
    have := rn_le_nat (q := ((n - 1 : Int) : ℚ) * p.1) (n := (n - 1).toNat) hm
    rw [show (((n - 1).toNat : ℕ) : ℚ) = ((n - 1 : Int) : ℚ) by rw [← Int.cast_natCast, Int.toNat_of_nonneg (by omega)]] at this
    exact this hle (by omega)
  · unfold pxOf
    rw [if_neg h2, truncQ_nonneg hm]
    exact fin _ hm hle

theorem pxOf_zero (p : Pos) : pxOf 0 p ≤ 0 := by
  have e1 : rn 1 = 1 := by have := rn_nat (n := 1) (by norm_num); rwa [Nat.cast_one] at this
  have e : rnS ((0 - 1 : Int) : ℚ) = -1 := by
    unfold rnS
    rw [if_pos (by norm_num), show (-((0 - 1 : Int) : ℚ)) = 1 by norm_num, e1]
  unfold pxOf
  rw [if_pos (by norm_num), e]
  have hn : rnS (-1 * p.1) ≤ 0 := by
    unfold rnS
    split
    · rename_i h
      have := rn_nonneg (q := -(-1 * p.1)) (by linarith)
      linarith
    · rename_i h
      have h0 : -1 * p.1 = 0 := by linarith [p.2.1]
      rw [h0, rn_zero]
  unfold truncQ
  split
  · rename_i h
    have := Int.floor_nonneg.mpr (show (0 : ℚ) ≤ -rnS (-1 * p.1) by linarith)
    omega
  · rename_i h
    have h0 : rnS (-1 * p.1) = 0 := by linarith
    rw [h0]
    simp

/-- The library writes times that are not empty texts, and glyphs stay inside the bounds of their font. -/
structure Outside.Ok (e : Outside) : Prop where
  times : ∀ x, e.timeText x ≠ []
  ink : InkOk iosevka (sceneBrush e [] {})

theorem sceneStyle_ok {e : Outside} (he : e.Ok) (w : TWrap) : (sceneStyle e w).Ok 14 where
  high t := by show 0 ≤ (if t = [] then (0 : Int) else 14); split <;> decide
  top t := by show -(if t = [] then (0 : Int) else -11) ≤ 13; split <;> decide
  times x := by show (if e.timeText x = [] then (0 : Int) else 14) = 14; rw [if_neg (he.times x)]
  px n p h := pxOf_bounds n p h
  px0 p := pxOf_zero p

/-! ## Positions -/

theorem toDouble_mono {a b : ℕ} (h : a ≤ b) : toDouble a ≤ toDouble b := rn_mono (by positivity) (by exact_mod_cast h)

theorem toDouble_pos {a : ℕ} (h : 0 < a) : 0 < toDouble a := by
  have := toDouble_mono h
  rw [toDouble_eq (by norm_num)] at this
  simpa using lt_of_lt_of_le zero_lt_one (by simpa using this)

theorem rn_unit {q : ℚ} (h0 : 0 ≤ q) (h1 : q ≤ 1) : 0 ≤ rn q ∧ rn q ≤ 1 := by
  refine ⟨rn_nonneg h0, ?_⟩
  have := rn_le_nat (n := 1) h0 (by rwa [Nat.cast_one]) (by norm_num)
  rwa [Nat.cast_one] at this

theorem ratio_unit {a b : ℕ} (hb : 0 < b) (h : a ≤ b) : 0 ≤ toDouble a / toDouble b ∧ toDouble a / toDouble b ≤ 1 :=
  ⟨div_nonneg (rn_nonneg (by positivity)) (toDouble_pos hb).le, (div_le_one (toDouble_pos hb)).mpr (toDouble_mono h)⟩

theorem posOf_unit {y h : Int} (h1 : 1 ≤ h) (hy : y ≤ h) : 0 ≤ posOf y h ∧ posOf y h ≤ 1 := by
  have r := ratio_unit (a := y.toNat) (b := h.toNat) (by omega) (by omega)
  exact rn_unit r.1 r.2

theorem timeAt_unit {now x dur : Int} (hd : 0 < dur) (h1 : now - dur ≤ x) : 0 ≤ timeAt now x dur ∧ timeAt now x dur ≤ 1 := by
  have r := ratio_unit (a := (now - x).toNat) (b := dur.toNat) (by omega) (by omega)
  have u := rn_unit r.1 r.2
  unfold timeAt
  rw [rnS_nonneg (by linarith [u.2])]
  exact rn_unit (by linarith [u.2]) (by linarith [u.1])

theorem clampPos_id {q : ℚ} (h : 0 ≤ q ∧ q ≤ 1) : (clampPos q).1 = q := by
  show max 0 (min 1 q) = q
  rw [min_eq_right h.2, max_eq_right h.1]

theorem abs_unit {q : ℚ} (h0 : 0 ≤ q) (h1 : q ≤ 1) : |rn q - q| ≤ 1 / 2 ^ 53 := by
  have := rn_abs (n := 1) h0 (by rwa [Nat.cast_one]) (le_refl 1)
  rwa [Nat.cast_one] at this

theorem grow_two : (1 + 1 / 2 ^ 52 : ℚ) ^ 2 - 1 ≤ 1 / 2 ^ 50 := by norm_num

theorem ratio_near {a b : ℕ} (hb : 0 < b) (h : a ≤ b) : |toDouble a / toDouble b - (a : ℚ) / b| ≤ 1 / 2 ^ 50 := by
  have qb : (0 : ℚ) < b := by exact_mod_cast hb
  have na : Near 1 (toDouble a) a := (Near.refl (by positivity)).rn (Sized.nat a)
  have nb : Near 1 (toDouble b) b := (Near.refl (by positivity)).rn (Sized.nat b)
  obtain ⟨x0, q0, h1, h2⟩ := na.div nb qb (toDouble_pos hb)
  have xu := (ratio_unit hb h).2
  have qu : (a : ℚ) / b ≤ 1 := (div_le_one qb).mpr (by exact_mod_cast h)
  have g := grow_two
  have g0 : (0 : ℚ) ≤ (1 + 1 / 2 ^ 52 : ℚ) ^ (1 + 1) - 1 := by norm_num
  have m1 : (a : ℚ) / b * ((1 + 1 / 2 ^ 52 : ℚ) ^ (1 + 1) - 1) ≤ 1 * ((1 + 1 / 2 ^ 52 : ℚ) ^ (1 + 1) - 1) := mul_le_mul_of_nonneg_right qu g0
  have m2 : toDouble a / toDouble b * ((1 + 1 / 2 ^ 52 : ℚ) ^ (1 + 1) - 1) ≤ 1 * ((1 + 1 / 2 ^ 52 : ℚ) ^ (1 + 1) - 1) := mul_le_mul_of_nonneg_right xu g0
  rw [abs_le]
  constructor <;> linarith

theorem timeAt_near {now x dur : Int} (hd : 0 < dur) (h1 : now - dur ≤ x) (h2 : x ≤ now) : |timeAt now x dur - (1 - ((now - x : Int) : ℚ) / (dur : ℚ))| ≤ 1 / 2 ^ 49 := by
  have r := ratio_unit (a := (now - x).toNat) (b := dur.toNat) (by omega) (by omega)
  have u := rn_unit r.1 r.2
  have e1 := ratio_near (a := (now - x).toNat) (b := dur.toNat) (by omega) (by omega)
  have e2 := abs_unit r.1 r.2
  have e3 := abs_unit (q := 1 - rn (toDouble (now - x).toNat / toDouble dur.toNat)) (by linarith [u.2]) (by linarith [u.1])
  rw [show (((now - x).toNat : ℕ) : ℚ) = ((now - x : Int) : ℚ) by rw [← Int.cast_natCast, Int.toNat_of_nonneg (by omega)], show ((dur.toNat : ℕ) : ℚ) = (dur : ℚ) by rw [← Int.cast_natCast, Int.toNat_of_nonneg (by omega)]] at e1
  unfold timeAt
  rw [rnS_nonneg (by linarith [u.2])]
  rw [abs_le] at e1 e2 e3 ⊢
  norm_num at e1 e2 e3 ⊢
  constructor <;> linarith [e1.1, e1.2, e2.1, e2.2, e3.1, e3.2]

/-- **C86** (positions). The positions of the labels are doubles from 0 to 1: those of the side axes `y/h` rounded once, those of the times rounded at every step. -/
theorem C86_positions (e : Outside) (w : TWrap) :
    (∀ y h : Int, 0 ≤ y → y ≤ h → 1 ≤ h → h < 9007199254740992 → Rounds ((y : ℚ) / h) ((sceneStyle e w).posY y h).1) ∧
    (∀ now x dur : Int, 0 < dur → now - dur ≤ x → x ≤ now → ((sceneStyle e w).posT now x dur).1 = timeAt now x dur ∧ |timeAt now x dur - (1 - ((now - x : Int) : ℚ) / (dur : ℚ))| ≤ 1 / 2 ^ 49) := by
  refine ⟨fun y h h0 hy h1 h2 => ?_, fun now x dur hd h1 h2 => ⟨clampPos_id (timeAt_unit hd h1), timeAt_near hd h1 h2⟩⟩
  show Rounds _ (clampPos (posOf y h)).1
  rw [clampPos_id (posOf_unit h1 hy)]
  unfold posOf
  rw [toDouble_eq (by omega), toDouble_eq (by omega), show ((y.toNat : ℕ) : ℚ) = (y : ℚ) by rw [← Int.cast_natCast, Int.toNat_of_nonneg (by omega)], show ((h.toNat : ℕ) : ℚ) = (h : ℚ) by rw [← Int.cast_natCast, Int.toNat_of_nonneg (by omega)]]
  have q0 : (0 : ℚ) ≤ (y : ℚ) / h := div_nonneg (by exact_mod_cast h0) (by exact_mod_cast (show 0 ≤ h by omega))
  exact rn_rounds q0

/-- Where a position falls on an axis of `n` pixels. -/
theorem pxOf_near {n : Int} (p : Pos) (h1 : 1 ≤ n) (h2 : n ≤ 2147483648) : (pxOf n p : ℚ) ≤ (n - 1 : Int) * p.1 + 1 / 2 ^ 22 ∧ ((n - 1 : Int) : ℚ) * p.1 < pxOf n p + 1 + 1 / 2 ^ 22 := by
  have hk : (0 : ℚ) ≤ ((n - 1 : Int) : ℚ) := by exact_mod_cast (show (0 : ℤ) ≤ n - 1 by omega)
  have hk2 : ((n - 1 : Int) : ℚ) ≤ ((2147483648 : ℕ) : ℚ) := by exact_mod_cast (show n - 1 ≤ 2147483648 by omega)
  have hm : 0 ≤ ((n - 1 : Int) : ℚ) * p.1 := mul_nonneg hk p.2.1
  have hle : ((n - 1 : Int) : ℚ) * p.1 ≤ ((2147483648 : ℕ) : ℚ) := (mul_le_of_le_one_right hk p.2.2).trans hk2
  have er := rn_abs hm hle (by norm_num)
  rw [pxOf_eq p h1 (by omega)]
  have f1 := Int.floor_le (rn (((n - 1 : Int) : ℚ) * p.1))
  have f2 := Int.lt_floor_add_one (rn (((n - 1 : Int) : ℚ) * p.1))
  generalize rn (((n - 1 : Int) : ℚ) * p.1) = r at er f1 f2 ⊢
  generalize ((n - 1 : Int) : ℚ) * p.1 = t at er ⊢
  generalize (⌊r⌋ : ℚ) = k at f1 f2 ⊢
  rw [abs_le] at er
  norm_num at er ⊢
  constructor <;> linarith [er.1, er.2]

/-! ## Times -/

/-- The parts of a measured graph. -/
theorem tryMeasure_parts {P : Type} {s : Style P} {o : GraphOpts} {guess : Int} {m : GraphM P} (h : tryMeasure s o guess = .ok m) :
    (∃ unit, naturalUnit o.duration o.width = some unit ∧
      m.bottom = axisMeasure s.font s.px { labels := (timesFrom unit o.now o.duration).reverse.map (fun x => (⟨s.posT o.now x o.duration, s.timeText x⟩ : Label P)), vertical := false, length := m.width + 2, dontBleed := true }) ∧
    m.left = axisMeasure s.font s.px { labels := sideLabels s s.leftText m.height, vertical := true, length := m.height, flip := true } ∧
    (o.earliest = true → m.right = some (axisMeasure s.font s.px { labels := sideLabels s s.rightText m.height, vertical := true, length := m.height })) := by
  unfold tryMeasure at h
  dsimp only at h
  split at h
  · cases h
  · cases hu : naturalUnit o.duration o.width with
    | none => rw [hu] at h; cases h
    | some u =>
      rw [hu] at h
      injection h with h
      subst h
      exact ⟨⟨u, rfl, rfl⟩, rfl, fun he => by dsimp only; rw [if_pos he]⟩

theorem axisMeasure_opts {P : Type} (f : Font) (px : Int → P → Int) (o : AxisOpts P) : (axisMeasure f px o).opts = o := by
  unfold axisMeasure
  split <;> rfl

/-- A tick of the time axis is at its time's share of the way, and so over the pixel of the heatmap that shows this time. -/
theorem tick_pixel {W now t dur p : Int} (hW : 1 ≤ W) (hW2 : W < 2147483646) (hd : 0 < dur) (h1 : now - dur < t) (h2 : t ≤ now) (hp0 : 0 ≤ p)
    (hp1 : (p : ℚ) ≤ (W + 1 : Int) * (1 - ((now - t : Int) : ℚ) / dur) + 1 / 2 ^ 16) (hp2 : ((W + 1 : Int) : ℚ) * (1 - ((now - t : Int) : ℚ) / dur) < p + 1 + 1 / 2 ^ 16) (hps : W ≤ dur / W) :
    pixOf now W (dur / W) t - 2 ≤ p - 1 ∧ p - 1 ≤ pixOf now W (dur / W) t + 1 := by
  have key : ∀ (P r D c : Int), dur = W * P + r → 0 ≤ r → r < W → W ≤ P → 0 ≤ D → D < dur → (D : ℚ) / dur = (D : ℚ) / dur → c = (D + P - 1) / P →
      (p : ℚ) ≤ (W + 1 : Int) * (1 - (D : ℚ) / dur) + 1 / 2 ^ 16 → ((W + 1 : Int) : ℚ) * (1 - (D : ℚ) / dur) < p + 1 + 1 / 2 ^ 16 → max 0 (W - c) - 2 ≤ p - 1 ∧ p - 1 ≤ max 0 (W - c) + 1 := by
    intro P r D c hdur hr0 hr hWP hD0 hD _ hc q1 q2
    have hP : 0 < P := by omega
    -- c is D/P rounded up
    have c1 : D ≤ c * P := by
      have := Int.lt_ediv_add_one_mul_self (D + P - 1) hP
      rw [← hc] at this
      linarith [show (c + 1) * P = c * P + P by ring]
    have c2 : c * P < D + P := by
      have := Int.ediv_mul_le (D + P - 1) (show P ≠ 0 by omega)
      rw [← hc] at this
      omega
    have qd : (0 : ℚ) < dur := by exact_mod_cast hd
    have qP : (0 : ℚ) < P := by exact_mod_cast hP
    have qW : (1 : ℚ) ≤ W := by exact_mod_cast hW
    obtain ⟨a, ha⟩ : ∃ a : ℚ, a = (D : ℚ) / dur := ⟨_, rfl⟩
    rw [← ha] at q1 q2
    have a0 : 0 ≤ a := by rw [ha]; exact div_nonneg (by exact_mod_cast hD0) qd.le
    have a1 : a < 1 := by rw [ha, div_lt_one qd]; exact_mod_cast hD
    have eD : (D : ℚ) = a * (W * P + r) := by rw [ha]; field_simp; rw [hdur]; push_cast; ring
    have qr0 : (0 : ℚ) ≤ r := by exact_mod_cast hr0
    have qrP : (r : ℚ) ≤ P := by exact_mod_cast (show r ≤ P by omega)
    -- a W ≤ c < a W + a + 1
    have b1 : a * W ≤ c := by
      have : a * W * P ≤ c * P := by
        have h3 : (D : ℚ) ≤ c * P := by exact_mod_cast c1
        rw [eD] at h3
        nlinarith [mul_nonneg a0 qr0]
      exact le_of_mul_le_mul_right this qP
    have b2 : (c : ℚ) < a * W + a + 1 := by
      have h3 : (c : ℚ) * P < D + P := by exact_mod_cast c2
      rw [eD] at h3
      have h4 : a * r ≤ a * P := mul_le_mul_of_nonneg_left qrP a0
      have : (c : ℚ) * P < (a * W + a + 1) * P := by linarith [show (a * W + a + 1) * P = a * (W * P) + a * P + P by ring, show a * (W * P + r) = a * (W * P) + a * r by ring]
      exact lt_of_mul_lt_mul_right this qP.le
    push_cast at q1 q2
    have u1 : (p : ℚ) - 1 ≤ W - c + 1 + 1 / 2 ^ 16 + (1 - 1) := by nlinarith
    have l1 : (W : ℚ) - c - 3 < p - 1 := by
      norm_num at q2 ⊢
      nlinarith
    have u2 : p - 1 < W - c + 2 := by
      have : ((p - 1 : Int) : ℚ) < ((W - c + 2 : Int) : ℚ) := by push_cast; norm_num at u1 ⊢; linarith
      exact_mod_cast this
    have l2 : W - c - 3 < p - 1 := by
      have : ((W - c - 3 : Int) : ℚ) < ((p - 1 : Int) : ℚ) := by push_cast; exact l1
      exact_mod_cast this
    omega
  have hdv := Int.mul_ediv_add_emod dur W
  have := key (dur / W) (dur % W) (now - t) ((now - t + dur / W - 1) / (dur / W)) hdv.symm (Int.emod_nonneg _ (by omega)) (Int.emod_lt_of_pos _ (by omega)) hps (by omega) (by omega) rfl rfl hp1 hp2
  unfold pixOf
  rw [Int.tdiv_eq_ediv_of_nonneg (by omega)]
  exact this

/-- Texts of a horizontal axis are those of its labels, from the label's tick on, or moved back so as to end with the axis. -/
theorem drawH_texts {P : Type} (f : Font) (px : Int → P → Int) (m : AxisM P) (hv : m.opts.vertical = false) (x y : Int) (t : Bytes) (h : Mark.text x y t ∈ m.draw f px) :
    ∃ l ∈ m.opts.labels, t = l.text ∧ y = 13 - f.top t ∧ (x = px m.opts.length l.pos ∨ x = m.opts.length - f.wide t) := by
  unfold AxisM.draw at h
  rw [hv, if_neg (by decide)] at h
  rcases List.mem_append.mp h with h | h
  · obtain ⟨_, _, h⟩ := List.mem_map.mp h
    cases h
  · have key : ∀ (ls : List (Label P)) (occ : Int), Mark.text x y t ∈ drawHLoop f px m ls occ → ∃ l ∈ ls, t = l.text ∧ y = 13 - f.top t ∧ (x = px m.opts.length l.pos ∨ x = m.opts.length - f.wide t) := by
      intro ls
      induction ls with
      | nil => intro occ h; cases h
      | cons l ls ih =>
        intro occ h
        unfold drawHLoop at h
        dsimp only at h
        have more : ∀ occ, Mark.text x y t ∈ drawHLoop f px m ls occ → ∃ l' ∈ l :: ls, t = l'.text ∧ y = 13 - f.top t ∧ (x = px m.opts.length l'.pos ∨ x = m.opts.length - f.wide t) := by
          intro occ h
          obtain ⟨l', hl', r⟩ := ih occ h
          exact ⟨l', List.mem_cons_of_mem _ hl', r⟩
        split at h
        · rcases List.mem_append.mp h with h | h
          · obtain ⟨_, _, h⟩ := List.mem_map.mp h
            cases h
          · exact more _ h
        · rcases List.mem_append.mp h with h | h
          · rcases List.mem_append.mp h with h | h
            · obtain ⟨_, _, h⟩ := List.mem_map.mp h
              cases h
            · obtain ⟨_, _, h⟩ := List.mem_map.mp h
              cases h
          · rcases List.mem_cons.mp h with h | h
            · injection h with h1 h2 h3
              refine ⟨l, List.mem_cons_self, h3, by rw [h2, h3], ?_⟩
              rw [h1, h3]
              unfold labelAt
              dsimp only
              split
              · exact Or.inr rfl
              · exact Or.inl rfl
            · exact more _ h
    exact key _ _ h

/-- **C86** (times). Each natural time inside the graph has a tick, at its share of the way from the left end of the bottom axis to the right (up to rounding): that is over the pixel column of the heatmap that shows this time, or
one or two beside it (`p - 1` is the tick in pixels of the heatmap; as long as a pixel lasts as many nanoseconds as there are pixels). Every text under the axis is that of such a time, and starts at its tick, or ends with the axis. -/
theorem C86_times {e : Outside} {w : TWrap} {o : GraphOpts} {m : GraphM Pos} (h : graphMeasure (sceneStyle e w) o = .ok m) (hw : 1 ≤ m.width) (hw' : m.width < 2147483646) (ho : 100 ≤ o.width) (hn : 0 ≤ o.now) (hd : 0 < o.duration) :
    ∃ unit, naturalUnit o.duration o.width = some unit ∧ ∃ tick : Int → Int, (∀ t, unit ∣ t → o.now - o.duration < t → t ≤ o.now → 0 ≤ tick t ∧ tick t < m.width + 2 ∧
        (∀ k : Nat, k < 10 → Mark.dot (tick t) (1 + k) ∈ m.bottom.draw iosevka pxOf) ∧
        (tick t : ℚ) ≤ (m.width + 1 : Int) * (1 - ((o.now - t : Int) : ℚ) / o.duration) + 1 / 2 ^ 16 ∧ ((m.width + 1 : Int) : ℚ) * (1 - ((o.now - t : Int) : ℚ) / o.duration) < tick t + 1 + 1 / 2 ^ 16 ∧
        (m.width ≤ o.duration / m.width → pixOf o.now m.width (o.duration / m.width) t - 2 ≤ tick t - 1 ∧ tick t - 1 ≤ pixOf o.now m.width (o.duration / m.width) t + 1)) ∧
      ∀ x y txt, Mark.text x y txt ∈ m.bottom.draw iosevka pxOf → ∃ t, unit ∣ t ∧ o.now - o.duration < t ∧ t ≤ o.now ∧ txt = e.timeText t ∧ (x = tick t ∨ x = m.width + 2 - iosevka.wide txt) := by
  obtain ⟨guess, ht⟩ := graphMeasure_try h
  obtain ⟨⟨unit, hu, hb⟩, _, _⟩ := tryMeasure_parts ht
  obtain ⟨u', hu', _, hpos, _⟩ := C74_unit o.duration o.width ho
  rw [hu] at hu'
  injection hu' with hu'
  subst hu'
  obtain ⟨htimes, _⟩ := C74_times unit o.now o.duration (by omega) hn
  have hopts : m.bottom.opts = { labels := (timesFrom unit o.now o.duration).reverse.map (fun x => (⟨(sceneStyle e w).posT o.now x o.duration, (sceneStyle e w).timeText x⟩ : Label Pos)), vertical := false, length := m.width + 2, dontBleed := true } := by
    rw [hb, axisMeasure_opts]
  refine ⟨unit, hu, fun t => pxOf (m.width + 2) ((sceneStyle e w).posT o.now t o.duration), fun t d1 d2 d3 => ?_, fun x y txt hm => ?_⟩
  · obtain ⟨b0, b1⟩ := pxOf_bounds (m.width + 2) ((sceneStyle e w).posT o.now t o.duration) (by omega)
    obtain ⟨n1, n2⟩ := pxOf_near ((sceneStyle e w).posT o.now t o.duration) (show 1 ≤ m.width + 2 by omega) (by omega)
    obtain ⟨e1, e2⟩ := (C86_positions e w).2 o.now t o.duration hd (by omega) d3
    rw [e1] at n1 n2
    have hW : (0 : ℚ) ≤ ((m.width + 1 : Int) : ℚ) := by exact_mod_cast (show 0 ≤ m.width + 1 by omega)
    have hW2 : ((m.width + 1 : Int) : ℚ) ≤ 2147483648 := by exact_mod_cast (show m.width + 1 ≤ 2147483648 by omega)
    rw [show m.width + 2 - 1 = m.width + 1 by ring] at n1 n2
    have er : |((m.width + 1 : Int) : ℚ) * timeAt o.now t o.duration - ((m.width + 1 : Int) : ℚ) * (1 - ((o.now - t : Int) : ℚ) / (o.duration : ℚ))| ≤ 1 / 2 ^ 18 := by
      rw [← mul_sub, abs_mul, abs_of_nonneg hW]
      calc _ ≤ (2147483648 : ℚ) * (1 / 2 ^ 49) := mul_le_mul hW2 e2 (abs_nonneg _) (by norm_num)
        _ = 1 / 2 ^ 18 := by norm_num
    have p1 : ((pxOf (m.width + 2) ((sceneStyle e w).posT o.now t o.duration) : Int) : ℚ) ≤ (m.width + 1 : Int) * (1 - ((o.now - t : Int) : ℚ) / o.duration) + 1 / 2 ^ 16 := by
      rw [abs_le] at er
      refine n1.trans ?_
      generalize ((m.width + 1 : Int) : ℚ) * timeAt o.now t o.duration = a at er ⊢
      generalize ((m.width + 1 : Int) : ℚ) * (1 - ((o.now - t : Int) : ℚ) / (o.duration : ℚ)) = b at er ⊢
      norm_num at er ⊢
      linarith [er.1, er.2]
    have p2 : ((m.width + 1 : Int) : ℚ) * (1 - ((o.now - t : Int) : ℚ) / o.duration) < (pxOf (m.width + 2) ((sceneStyle e w).posT o.now t o.duration) : Int) + 1 + 1 / 2 ^ 16 := by
      rw [abs_le] at er
      generalize ((m.width + 1 : Int) : ℚ) * timeAt o.now t o.duration = a at er n2
      generalize ((m.width + 1 : Int) : ℚ) * (1 - ((o.now - t : Int) : ℚ) / (o.duration : ℚ)) = b at er ⊢
      norm_num at er n2 ⊢
      linarith [er.1, er.2]
    refine ⟨b0, b1, fun k hk => ?_, p1, p2, fun hps => tick_pixel hw hw' hd d2 d3 b0 p1 p2 hps⟩
    have hl : (⟨(sceneStyle e w).posT o.now t o.duration, (sceneStyle e w).timeText t⟩ : Label Pos) ∈ m.bottom.opts.labels := by
      rw [hopts]
      exact List.mem_map.mpr ⟨t, List.mem_reverse.mpr ((htimes t).mpr ⟨d1, d2, d3⟩), rfl⟩
    have := C73_ticks iosevka pxOf m.bottom _ hl k hk
    rw [hopts] at this
    simpa using this
  · obtain ⟨l, hl, h1, _, h3⟩ := drawH_texts iosevka pxOf m.bottom (by rw [hopts]) x y txt hm
    rw [hopts] at hl h3
    obtain ⟨t, ht, rfl⟩ := List.mem_map.mp hl
    obtain ⟨d1, d2, d3⟩ := (htimes t).mp (List.mem_reverse.mp ht)
    exact ⟨t, d1, d2, d3, h1, h3⟩

/-! ## Ranks and values -/

theorem rowsLoop_spec (h : Int) (n : Nat) (y0 : Int) :
    (∀ y ∈ rowsLoop h n y0, y0 ≤ y ∧ y ≤ h - 30 ∧ ∃ k : Nat, y = y0 + 30 * k) ∧ (rowsLoop h n y0).Pairwise (fun a b => a + 30 ≤ b) ∧ ∀ k : Nat, k < n → y0 + 30 * k ≤ h - 30 → y0 + 30 * (k : Int) ∈ rowsLoop h n y0 := by
  induction n generalizing y0 with
  | zero => exact ⟨fun y h => (by cases h), .nil, fun k h => absurd h (Nat.not_lt_zero k)⟩
  | succ n ih =>
    unfold rowsLoop
    obtain ⟨i1, i2, i3⟩ := ih (y0 + 30)
    split
    · refine ⟨fun y hy => ?_, List.pairwise_cons.mpr ⟨fun y hy => (i1 y hy).1, i2⟩, fun k hk hle => ?_⟩
      · rcases List.mem_cons.mp hy with rfl | hy
        · exact ⟨Int.le_refl _, by omega, 0, by omega⟩
        · obtain ⟨a, b, k, hk⟩ := i1 y hy
          exact ⟨by omega, b, k + 1, by push_cast; omega⟩
      · cases k with
        | zero => exact List.mem_cons.mpr (Or.inl (by simp))
        | succ k =>
          refine List.mem_cons_of_mem _ ?_
          have := i3 k (by omega) (by push_cast at hle; omega)
          rwa [show y0 + 30 + 30 * (k : Int) = y0 + 30 * ((k + 1 : ℕ) : Int) by push_cast; ring] at this
    · refine ⟨fun y hy => (by cases hy), .nil, fun k hk hle => ?_⟩
      rename_i hn
      omega

theorem rn_one : rn 1 = 1 := by have := rn_nat (n := 1) (by norm_num); rwa [Nat.cast_one] at this

/-- The row of the tick for `y`. -/
theorem px_row {y h : Int} (h0 : 0 ≤ y) (hy : y < h) (hh : h < 33554432) : pxOf h (clampPos (posOf y h)) = if y = 0 then 0 else y - 1 := by
  have qh : (0 : ℚ) ≤ ((h - 1 : Int) : ℚ) := by exact_mod_cast (show (0 : ℤ) ≤ h - 1 by omega)
  rw [pxOf_eq _ (by omega) (by omega), clampPos_id (posOf_unit (by omega) (by omega))]
  unfold posOf
  rw [toDouble_eq (by omega), toDouble_eq (by omega)]
  rw [show ((h - 1 : Int) : ℚ) = (((h - 1).toNat : ℕ) : ℚ) by rw [← Int.cast_natCast, Int.toNat_of_nonneg (by omega)]]
  have hab : y.toNat * h.toNat < 2 ^ 50 := by
    calc y.toNat * h.toNat ≤ 33554431 * 33554431 := Nat.mul_le_mul (by omega) (by omega)
      _ < 2 ^ 50 := by norm_num
  have fr := floor_row (a := y.toNat) (b := h.toNat) (y := (h - 1).toNat) (by omega) (by omega) hab
  rw [← Int.natCast_floor_eq_floor (rn_nonneg (mul_nonneg (by positivity) (rn_nonneg (by positivity))))]
  obtain ⟨a, ha⟩ : ∃ a, a = y.toNat := ⟨_, rfl⟩
  obtain ⟨b, hb⟩ : ∃ b, b = (h - 1).toNat := ⟨_, rfl⟩
  rw [← ha, ← hb, show h.toNat = b + 1 by omega] at fr ⊢
  by_cases hz : y = 0
  · rw [if_pos hz]
    have : a = 0 := by omega
    subst this
    rcases fr with fr | ⟨_, fr⟩
    · rw [fr]; simp
    · simp at fr
  · rw [if_neg hz]
    have e : b * a = (b + 1) * (a - 1) + (b + 1 - a) := by
      obtain ⟨c, rfl⟩ : ∃ c, a = c + 1 := ⟨a - 1, by omega⟩
      have hc : c + 1 ≤ b + 1 := by omega
      simp only [Nat.add_sub_cancel]
      rw [show b + 1 - (c + 1) = b - c by omega]
      have : b = c + (b - c) := by omega
      generalize b - c = d at *
      subst this
      ring
    have q : b * a / (b + 1) = a - 1 := by
      rw [e, Nat.mul_add_div (by omega), Nat.div_eq_of_lt (by omega)]
      omega
    rcases fr with fr | ⟨dv, fr⟩
    · rw [fr, q]
      omega
    · exfalso
      rw [e] at dv
      have := (Nat.dvd_add_right (Dvd.intro _ rfl)).mp dv
      have := Nat.le_of_dvd (by omega) this
      omega

theorem px_last {h : Int} (h1 : 1 ≤ h) (hh : h < 33554432) (p : Pos) (hp : p.1 = 1) : pxOf h p = h - 1 := by
  rw [pxOf_eq _ h1 (by omega), hp, mul_one]
  have := rn_nat (n := (h - 1).toNat) (by omega)
  rw [show ((h - 1 : Int) : ℚ) = (((h - 1).toNat : ℕ) : ℚ) by rw [← Int.cast_natCast, Int.toNat_of_nonneg (by omega)], this]
  rw [← Int.natCast_floor_eq_floor (by positivity), Nat.floor_natCast]
  omega

/-- On a vertical axis whose labels are 13 pixels or more apart every text is drawn. -/
theorem drawV_texts {P : Type} (px : Int → P → Int) (m : AxisM P) (hv : m.opts.vertical = true) (hd : m.opts.dontBleed = false) (hs : m.opts.labels.Pairwise (fun a b => px m.opts.length a.pos + 13 ≤ px m.opts.length b.pos))
    (l : Label P) (hl : l ∈ m.opts.labels) :
    Mark.text (if m.opts.flip then m.width - 13 - iosevka.wide l.text else 13) (px m.opts.length l.pos - iosevka.top l.text) l.text ∈ m.draw iosevka px := by
  unfold AxisM.draw
  rw [if_pos hv]
  apply List.mem_append_right
  have htop : ∀ t, -iosevka.top t ≤ 11 := by
    intro t
    show -(if t = [] then (0 : Int) else -11) ≤ 11
    split <;> decide
  have key : ∀ (ls : List (Label P)) (occ : Int), ls.Pairwise (fun a b => px m.opts.length a.pos + 13 ≤ px m.opts.length b.pos) → (occ ≤ 0 ∨ ∀ a ∈ ls, occ + 2 ≤ px m.opts.length a.pos) → l ∈ ls →
      Mark.text (if m.opts.flip then m.width - 13 - iosevka.wide l.text else 13) (px m.opts.length l.pos - iosevka.top l.text) l.text ∈ drawVLoop iosevka px m ls occ := by
    intro ls
    induction ls with
    | nil => intro _ _ _ h; cases h
    | cons a ls ih =>
      intro occ hp ho hm
      obtain ⟨p1, p2⟩ := List.pairwise_cons.mp hp
      unfold drawVLoop
      dsimp only
      rw [if_neg (by rw [hd]; simp), if_neg (by
        rcases ho with ho | ho
        · omega
        · have := ho a List.mem_cons_self
          omega)]
      apply List.mem_append_right
      rcases List.mem_cons.mp hm with rfl | hm
      · exact List.mem_cons_self
      · refine List.mem_cons_of_mem _ (ih _ p2 (Or.inr (fun b hb => ?_)) hm)
        have := p1 b hb
        have := htop a.text
        omega
  exact key _ 0 hs (Or.inl (Int.le_refl 0)) hl

/-- What is at the rows of a side axis. -/
theorem side_labels {e : Outside} {w : TWrap} (text : Int → Int → Bytes) {h : Int} (h1 : 1 ≤ h) (hh : h < 33554432) (flip : Bool) :
    ∀ m : AxisM Pos, m = axisMeasure iosevka pxOf { labels := sideLabels (sceneStyle e w) text h, vertical := true, length := h, flip := flip } →
      (∀ y k : Int, 0 ≤ k → y = 30 * k → y ≤ h - 30 → (∀ j : Nat, j < 10 → Mark.dot (maybeFlip m (1 + j)) (if y = 0 then 0 else y - 1) ∈ m.draw iosevka pxOf) ∧
        Mark.text (if flip then m.width - 13 - iosevka.wide (text y h) else 13) ((if y = 0 then 0 else y - 1) - iosevka.top (text y h)) (text y h) ∈ m.draw iosevka pxOf) ∧
      (∀ j : Nat, j < 10 → Mark.dot (maybeFlip m (1 + j)) (h - 1) ∈ m.draw iosevka pxOf) ∧
      Mark.text (if flip then m.width - 13 - iosevka.wide (text h h) else 13) (h - 1 - iosevka.top (text h h)) (text h h) ∈ m.draw iosevka pxOf := by
  intro m hm
  have hopts : m.opts = { labels := sideLabels (sceneStyle e w) text h, vertical := true, length := h, flip := flip } := by rw [hm, axisMeasure_opts]
  obtain ⟨r1, r2, r3⟩ := rowsLoop_spec h h.toNat 0
  have hrow : ∀ y ∈ rowsLoop h h.toNat 0, pxOf h ((sceneStyle e w).posY y h) = if y = 0 then 0 else y - 1 := fun y hy => by
    obtain ⟨a, b, _⟩ := r1 y hy
    exact px_row a (by omega) hh
  have hlast : pxOf h (sceneStyle e w).one = h - 1 := px_last h1 hh _ rfl
  have hlen : m.opts.length = h := by rw [hopts]
  have hlab : m.opts.labels = sideLabels (sceneStyle e w) text h := by rw [hopts]
  have hflip : m.opts.flip = flip := by rw [hopts]
  have hs : m.opts.labels.Pairwise (fun a b => pxOf m.opts.length a.pos + 13 ≤ pxOf m.opts.length b.pos) := by
    rw [hlen, hlab]
    unfold sideLabels
    rw [List.pairwise_append]
    refine ⟨?_, List.pairwise_singleton _ _, fun a ha b hb => ?_⟩
    · rw [List.pairwise_map]
      refine r2.imp_of_mem (fun {a b} ha hb hab => ?_)
      rw [hrow a ha, hrow b hb]
      have := (r1 a ha).1
      split <;> split <;> omega
    · obtain ⟨y, hy, rfl⟩ := List.mem_map.mp ha
      rw [List.mem_singleton.mp hb]
      have := hrow y hy
      obtain ⟨a1, a2, _⟩ := r1 y hy
      dsimp only
      rw [this, hlast]
      split <;> omega
  have hvt : m.opts.vertical = true := by rw [hopts]
  have hdb : m.opts.dontBleed = false := by rw [hopts]
  have lab : ∀ l ∈ sideLabels (sceneStyle e w) text h, (∀ j : Nat, j < 10 → Mark.dot (maybeFlip m (1 + j)) (pxOf h l.pos) ∈ m.draw iosevka pxOf) ∧
      Mark.text (if flip then m.width - 13 - iosevka.wide l.text else 13) (pxOf h l.pos - iosevka.top l.text) l.text ∈ m.draw iosevka pxOf := by
    intro l hl
    have hl' : l ∈ m.opts.labels := by rw [hlab]; exact hl
    refine ⟨fun j hj => ?_, ?_⟩
    · have := C73_ticks iosevka pxOf m l hl' j hj
      rw [if_pos hvt, hlen] at this
      exact this
    · have := drawV_texts pxOf m hvt hdb hs l hl'
      rw [hlen, hflip] at this
      exact this
  refine ⟨fun y k hk hy hle => ?_, ?_, ?_⟩
  · have hmem : y ∈ rowsLoop h h.toNat 0 := by
      have := r3 k.toNat (by omega) (by omega)
      rwa [show (0 : Int) + 30 * (k.toNat : Int) = y by omega] at this
    have := lab ⟨(sceneStyle e w).posY y h, text y h⟩ (List.mem_append_left _ (List.mem_map.mpr ⟨y, hmem, rfl⟩))
    dsimp only at this
    rw [hrow y hmem] at this
    exact this
  · have := (lab ⟨(sceneStyle e w).one, text h h⟩ (List.mem_append_right _ (List.mem_singleton.mpr rfl))).1
    dsimp only at this
    rw [hlast] at this
    exact this
  · have := (lab ⟨(sceneStyle e w).one, text h h⟩ (List.mem_append_right _ (List.mem_singleton.mpr rfl))).2
    dsimp only at this
    rw [hlast] at this
    exact this

theorem rank_near {y h : Int} (h0 : 0 ≤ y) (h1 : 1 ≤ h) (hy : y ≤ h) (hh : h < 33554432) : 0 ≤ rnS (1 - posOf y h) ∧ rnS (1 - posOf y h) ≤ 1 ∧ |rnS (1 - posOf y h) - (1 - (y : ℚ) / h)| ≤ 1 / 2 ^ 52 := by
  have u := posOf_unit h1 hy
  have qh : (0 : ℚ) < h := by exact_mod_cast (show 0 < h by omega)
  have q0 : (0 : ℚ) ≤ (y : ℚ) / h := div_nonneg (by exact_mod_cast h0) qh.le
  have q1 : (y : ℚ) / h ≤ 1 := (div_le_one qh).mpr (by exact_mod_cast hy)
  have e : posOf y h = rn ((y : ℚ) / h) := by
    unfold posOf
    rw [toDouble_eq (by omega), toDouble_eq (by omega), show ((y.toNat : ℕ) : ℚ) = (y : ℚ) by rw [← Int.cast_natCast, Int.toNat_of_nonneg (by omega)], show ((h.toNat : ℕ) : ℚ) = (h : ℚ) by rw [← Int.cast_natCast, Int.toNat_of_nonneg (by omega)]]
  have a1 := abs_unit q0 q1
  rw [← e] at a1
  have a2 := abs_unit (q := 1 - posOf y h) (by linarith [u.2]) (by linarith [u.1])
  have b := rn_unit (q := 1 - posOf y h) (by linarith [u.2]) (by linarith [u.1])
  rw [rnS_nonneg (by linarith [u.2])]
  refine ⟨b.1, b.2, ?_⟩
  rw [abs_le] at a1 a2 ⊢
  generalize rn (1 - posOf y h) = r at *
  generalize (y : ℚ) / h = q at *
  norm_num at a1 a2 ⊢
  constructor <;> linarith [a1.1, a1.2, a2.1, a2.2]

/-- **C86** (ranks and values). The left axis has a tick and a text each 30 rows from the top and at the bottom: at height `y` of `h` from above (one row higher but at the top) the share `1 - y/h`, at the bottom 0. The right axis
has the same ticks, with the value of the newest record that this share of its observations is below. No text is left out. -/
theorem C86_ranks {e : Outside} {w : TWrap} {o : GraphOpts} {m : GraphM Pos} (h : graphMeasure (sceneStyle e w) o = .ok m) (he : o.earliest = true) (hh : 1 ≤ m.height) (hh' : m.height < 33554432) :
    ∃ right : AxisM Pos, m.right = some right ∧ ∃ (rank : Int → ℚ) (row : Int → Int), rank m.height = 0 ∧ row m.height = m.height - 1 ∧ row 0 = 0 ∧ (∀ y, 0 < y → y < m.height → row y = y - 1) ∧
      (∀ y, 0 ≤ y → y ≤ m.height → 0 ≤ rank y ∧ rank y ≤ 1 ∧ |rank y - (1 - (y : ℚ) / m.height)| ≤ 1 / 2 ^ 52) ∧
      ∀ y, (∃ k, y = 30 * k ∧ 0 ≤ y ∧ y ≤ m.height - 30) ∨ y = m.height →
        (∀ j : Nat, j < 10 → Mark.dot (m.left.width - 2 - j) (row y) ∈ m.left.draw iosevka pxOf ∧ Mark.dot (1 + j) (row y) ∈ right.draw iosevka pxOf) ∧
        (∃ x, Mark.text x (row y - iosevka.top (e.rankText (rank y))) (e.rankText (rank y)) ∈ m.left.draw iosevka pxOf) ∧
        Mark.text 13 (row y - iosevka.top (e.valueText (e.half (e.quant w.obs (rank y))))) (e.valueText (e.half (e.quant w.obs (rank y)))) ∈ right.draw iosevka pxOf := by
  obtain ⟨guess, ht⟩ := graphMeasure_try h
  obtain ⟨_, hl, hr⟩ := tryMeasure_parts ht
  have hr := hr he
  refine ⟨_, hr, fun y => if y = m.height then 0 else rnS (1 - posOf y m.height), fun y => if y = m.height then m.height - 1 else if y = 0 then 0 else y - 1, if_pos rfl, if_pos rfl, ?_, fun y h0 h1 => ?_, fun y h0 h1 => ?_, fun y hy => ?_⟩
  · dsimp only
    rw [if_neg (by omega), if_pos rfl]
  · dsimp only
    rw [if_neg (by omega), if_neg (by omega)]
  · dsimp only
    split
    · rename_i e1
      subst e1
      have : (m.height : ℚ) ≠ 0 := by
        have : m.height ≠ 0 := by omega
        exact_mod_cast this
      rw [div_self this]
      norm_num
    · exact rank_near h0 hh h1 hh'
  · obtain ⟨l1, l2, l3⟩ := side_labels (e := e) (w := w) (sceneStyle e w).leftText hh hh' true m.left hl
    obtain ⟨r1, r2, r3⟩ := side_labels (e := e) (w := w) (sceneStyle e w).rightText hh hh' false _ rfl
    have hfl : ∀ j : Nat, maybeFlip m.left (1 + j) = m.left.width - 2 - j := by
      intro j
      unfold maybeFlip
      rw [if_pos (by rw [hl, axisMeasure_opts])]
      omega
    rcases hy with ⟨k, hk, h0, hle⟩ | hy
    · have hne : y ≠ m.height := by omega
      dsimp only
      rw [if_neg hne, if_neg hne]
      obtain ⟨a1, a2⟩ := l1 y k (by omega) hk hle
      obtain ⟨b1, b2⟩ := r1 y k (by omega) hk hle
      have t1 : (sceneStyle e w).leftText y m.height = e.rankText (rnS (1 - posOf y m.height)) := by
        show e.rankText (if y = m.height then 0 else rnS (1 - posOf y m.height)) = _
        rw [if_neg hne]
      have t2 : (sceneStyle e w).rightText y m.height = e.valueText (e.half (e.quant w.obs (rnS (1 - posOf y m.height)))) := by
        show e.valueText (e.half (e.quant w.obs (if y = m.height then 0 else rnS (1 - posOf y m.height)))) = _
        rw [if_neg hne]
      rw [t1] at a2
      rw [t2] at b2
      exact ⟨fun j hj => ⟨by rw [← hfl]; exact a1 j hj, b1 j hj⟩, ⟨_, a2⟩, b2⟩
    · subst hy
      dsimp only
      rw [if_pos rfl, if_pos rfl]
      have t1 : (sceneStyle e w).leftText m.height m.height = e.rankText 0 := by
        show e.rankText (if m.height = m.height then 0 else rnS (1 - posOf m.height m.height)) = _
        rw [if_pos rfl]
      have t2 : (sceneStyle e w).rightText m.height m.height = e.valueText (e.half (e.quant w.obs 0)) := by
        show e.valueText (e.half (e.quant w.obs (if m.height = m.height then 0 else rnS (1 - posOf m.height m.height)))) = _
        rw [if_pos rfl]
      rw [t1] at l3
      rw [t2] at r3
      exact ⟨fun j hj => ⟨by rw [← hfl]; exact l2 j hj, r2 j hj⟩, ⟨_, l3⟩, r3⟩

end Rothko
