import Verif.Model.Layout
/-!
# C73 and C74: axes
-/
namespace Rothko

/-! ## C73: drawing an axis -/

/-- A mark inside of a `w` by `h` canvas. -/
def Mark.InCanvas (w h : Int) : Mark → Prop
  | .dot x y => 0 ≤ x ∧ x < w ∧ 0 ≤ y ∧ y < h
  | .text _ _ _ => True

/-- Positions on the axis are pixels of it: what `int(float64(length-1) * pos)` is for `pos` in [0, 1]. -/
def PxOk {P : Type} (px : Int → P → Int) (o : AxisOpts P) : Prop := ∀ l ∈ o.labels, 0 ≤ px o.length l.pos ∧ px o.length l.pos < o.length

theorem measV_le {P : Type} (f : Font) (px : Int → P → Int) (o : AxisOpts P) (ls : List (Label P)) (mw mh : Int) :
    mw ≤ (measVLoop f px o ls mw mh).1 ∧ mh ≤ (measVLoop f px o ls mw mh).2 := by
  induction ls generalizing mw mh with
  | nil => exact ⟨Int.le_refl _, Int.le_refl _⟩
  | cons l ls ih =>
    unfold measVLoop
    dsimp only
    split
    · exact ih mw mh
    · have := ih (if f.right l.text > mw then f.right l.text else mw) (if px o.length l.pos - f.top l.text > mh then px o.length l.pos - f.top l.text else mh)
      refine ⟨Int.le_trans ?_ this.1, Int.le_trans ?_ this.2⟩
      · split <;> omega
      · split <;> omega

theorem measH_le {P : Type} (f : Font) (px : Int → P → Int) (o : AxisOpts P) (ls : List (Label P)) (mw mh occ : Int) :
    mw ≤ (measHLoop f px o ls mw mh occ).1 ∧ mh ≤ (measHLoop f px o ls mw mh occ).2 := by
  induction ls generalizing mw mh occ with
  | nil => exact ⟨Int.le_refl _, Int.le_refl _⟩
  | cons l ls ih =>
    unfold measHLoop
    dsimp only
    split
    · exact ih mw mh occ
    · have := ih (if (labelAt f px o l).2 > mw then (labelAt f px o l).2 else mw) (if f.high l.text + 2 > mh then f.high l.text + 2 else mh) (labelAt f px o l).2
      refine ⟨Int.le_trans ?_ this.1, Int.le_trans ?_ this.2⟩
      · split <;> omega
      · split <;> omega

/-- If there is a label, the first one always fits. -/
theorem measH_first {P : Type} (f : Font) (px : Int → P → Int) (o : AxisOpts P) (l : Label P) (ls : List (Label P)) (mw : Int) :
    f.high l.text + 2 ≤ (measHLoop f px o (l :: ls) mw 0 0).2 := by
  unfold measHLoop
  dsimp only
  rw [if_neg (by simp [axisFits])]
  refine Int.le_trans ?_ (measH_le f px o ls _ _ _).2
  split <;> omega

theorem drawV_in {P : Type} (f : Font) (px : Int → P → Int) (m : AxisM P) (ls : List (Label P)) (h : ∀ l ∈ ls, 0 ≤ px m.opts.length l.pos ∧ px m.opts.length l.pos < m.opts.length)
    (hw : 13 ≤ m.width) (hh : m.opts.length ≤ m.height) (occ : Int) : ∀ k ∈ drawVLoop f px m ls occ, k.InCanvas m.width m.height := by
  induction ls generalizing occ with
  | nil => intro k hk; cases hk
  | cons l ls ih =>
    have hl := h l List.mem_cons_self
    have htick : ∀ k ∈ (List.range 10).map (fun (x : Nat) => Mark.dot (maybeFlip m (1 + x)) (px m.opts.length l.pos)), k.InCanvas m.width m.height := by
      intro k hk
      obtain ⟨x, hx, rfl⟩ := List.mem_map.mp hk
      have hx := List.mem_range.mp hx
      show 0 ≤ maybeFlip m _ ∧ maybeFlip m _ < _ ∧ _ ∧ _
      unfold maybeFlip
      split <;> omega
    have hrest := fun occ => ih (fun x hx => h x (List.mem_cons_of_mem _ hx)) occ
    intro k hk
    unfold drawVLoop at hk
    dsimp only at hk
    split at hk
    · rcases List.mem_append.mp hk with hk | hk
      · exact htick k hk
      · exact hrest _ k hk
    · split at hk
      · rcases List.mem_append.mp hk with hk | hk
        · exact htick k hk
        · exact hrest _ k hk
      · rcases List.mem_append.mp hk with hk | hk
        · exact htick k hk
        · rcases List.mem_cons.mp hk with rfl | hk
          · trivial
          · exact hrest _ k hk

theorem drawH_in {P : Type} (f : Font) (px : Int → P → Int) (m : AxisM P) (ls : List (Label P)) (h : ∀ l ∈ ls, 0 ≤ px m.opts.length l.pos ∧ px m.opts.length l.pos < m.opts.length)
    (hw : m.opts.length ≤ m.width) (hh : ls ≠ [] → 14 ≤ m.height) (occ : Int) : ∀ k ∈ drawHLoop f px m ls occ, k.InCanvas m.width m.height := by
  induction ls generalizing occ with
  | nil => intro k hk; cases hk
  | cons l ls ih =>
    have hl := h l List.mem_cons_self
    have hh' := hh (by simp)
    have htick : ∀ k ∈ (List.range 10).map (fun (y : Nat) => Mark.dot (px m.opts.length l.pos) (1 + y)), k.InCanvas m.width m.height := by
      intro k hk
      obtain ⟨x, hx, rfl⟩ := List.mem_map.mp hk
      have hx := List.mem_range.mp hx
      show 0 ≤ _ ∧ _ < _ ∧ 0 ≤ _ ∧ _ < _
      omega
    have htick2 : ∀ k ∈ (List.range 3).map (fun (y : Nat) => Mark.dot (px m.opts.length l.pos) (11 + y)), k.InCanvas m.width m.height := by
      intro k hk
      obtain ⟨x, hx, rfl⟩ := List.mem_map.mp hk
      have hx := List.mem_range.mp hx
      show 0 ≤ _ ∧ _ < _ ∧ 0 ≤ _ ∧ _ < _
      omega
    have hrest := fun occ => ih (fun x hx => h x (List.mem_cons_of_mem _ hx)) (fun _ => hh') occ
    intro k hk
    unfold drawHLoop at hk
    dsimp only at hk
    split at hk
    · rcases List.mem_append.mp hk with hk | hk
      · exact htick k hk
      · exact hrest _ k hk
    · rcases List.mem_append.mp hk with hk | hk
      · rcases List.mem_append.mp hk with hk | hk
        · exact htick k hk
        · exact htick2 k hk
      · rcases List.mem_cons.mp hk with rfl | hk
        · trivial
        · exact hrest _ k hk

/-- **C73.** An axis sets pixels only inside of the size that measuring it gave. (By C55 none of them panics or touches anything outside of the view.) -/
theorem C73_inside {P : Type} (f : Font) (px : Int → P → Int) (o : AxisOpts P) (hp : PxOk px o) (hf : ∀ t, 0 ≤ f.high t) :
    ∀ k ∈ (axisMeasure f px o).draw f px, k.InCanvas (axisMeasure f px o).width (axisMeasure f px o).height := by
  unfold axisMeasure
  by_cases hv : o.vertical
  · rw [if_pos hv]
    have hle := measV_le f px o o.labels 0 o.length
    dsimp only
    unfold AxisM.draw
    dsimp only
    rw [if_pos hv]
    intro k hk
    rcases List.mem_append.mp hk with hk | hk
    · obtain ⟨y, hy, rfl⟩ := List.mem_map.mp hk
      have hy := List.mem_range.mp hy
      show 0 ≤ maybeFlip _ _ ∧ maybeFlip _ _ < _ ∧ 0 ≤ _ ∧ _ < _
      unfold maybeFlip
      dsimp only
      split <;> omega
    · exact drawV_in f px ⟨_, _, o⟩ o.labels hp (by dsimp only; omega) hle.2 0 k hk
  · rw [if_neg hv]
    have hle := measH_le f px o o.labels o.length 0 0
    dsimp only
    unfold AxisM.draw
    dsimp only
    rw [if_neg hv]
    intro k hk
    rcases List.mem_append.mp hk with hk | hk
    · obtain ⟨y, hy, rfl⟩ := List.mem_map.mp hk
      have hy := List.mem_range.mp hy
      show 0 ≤ _ ∧ _ < _ ∧ 0 ≤ _ ∧ _ < _
      omega
    · refine drawH_in f px ⟨_, _, o⟩ o.labels hp hle.1 (fun hne => ?_) 0 k hk
      dsimp only
      cases hl : o.labels with
      | nil => exact absurd hl hne
      | cons l ls =>
        have := measH_first f px o l ls o.length
        have := hf l.text
        omega

/-- **C73.** Every label has its tick, ten pixels long, at its position. -/
theorem C73_ticks {P : Type} (f : Font) (px : Int → P → Int) (m : AxisM P) (l : Label P) (hl : l ∈ m.opts.labels) (k : Nat) (hk : k < 10) :
    (if m.opts.vertical then Mark.dot (maybeFlip m (1 + k)) (px m.opts.length l.pos) else Mark.dot (px m.opts.length l.pos) (1 + k)) ∈ m.draw f px := by
  unfold AxisM.draw
  by_cases hv : m.opts.vertical
  · rw [if_pos hv, if_pos hv]
    apply List.mem_append_right
    have key : ∀ (ls : List (Label P)) (occ : Int), l ∈ ls → Mark.dot (maybeFlip m (1 + k)) (px m.opts.length l.pos) ∈ drawVLoop f px m ls occ := by
      intro ls
      induction ls with
      | nil => intro _ h; cases h
      | cons x ls ih =>
        intro occ h
        unfold drawVLoop
        dsimp only
        rcases List.mem_cons.mp h with rfl | h
        · have : Mark.dot (maybeFlip m (1 + k)) (px m.opts.length l.pos) ∈ (List.range 10).map (fun (x : Nat) => Mark.dot (maybeFlip m (1 + x)) (px m.opts.length l.pos)) :=
            List.mem_map.mpr ⟨k, List.mem_range.mpr hk, rfl⟩
          split
          · exact List.mem_append_left _ this
          · split
            · exact List.mem_append_left _ this
            · exact List.mem_append_left _ this
        · split
          · exact List.mem_append_right _ (ih _ h)
          · split
            · exact List.mem_append_right _ (ih _ h)
            · exact List.mem_append_right _ (List.mem_cons_of_mem _ (ih _ h))
    exact key _ 0 hl
  · rw [if_neg hv, if_neg hv]
    apply List.mem_append_right
    have key : ∀ (ls : List (Label P)) (occ : Int), l ∈ ls → Mark.dot (px m.opts.length l.pos) (1 + k) ∈ drawHLoop f px m ls occ := by
      intro ls
      induction ls with
      | nil => intro _ h; cases h
      | cons x ls ih =>
        intro occ h
        unfold drawHLoop
        dsimp only
        rcases List.mem_cons.mp h with rfl | h
        · have : Mark.dot (px m.opts.length l.pos) (1 + k) ∈ (List.range 10).map (fun (y : Nat) => Mark.dot (px m.opts.length l.pos) (1 + y)) :=
            List.mem_map.mpr ⟨k, List.mem_range.mpr hk, rfl⟩
          split
          · exact List.mem_append_left _ this
          · exact List.mem_append_left _ (List.mem_append_left _ this)
        · split
          · exact List.mem_append_right _ (ih _ h)
          · exact List.mem_append_right _ (List.mem_cons_of_mem _ (ih _ h))
    exact key _ 0 hl

/-- The texts drawn: where and what. -/
def textsOf : List Mark → List (Int × Int × Bytes)
  | [] => []
  | .text x y t :: r => (x, y, t) :: textsOf r
  | .dot _ _ :: r => textsOf r

theorem textsOf_append (a b : List Mark) : textsOf (a ++ b) = textsOf a ++ textsOf b := by
  induction a with
  | nil => rfl
  | cons m a ih => cases m <;> simp [textsOf, ih]

theorem textsOf_dots {α : Type} (l : List α) (g : α → Int) (h : α → Int) : textsOf (l.map (fun x => Mark.dot (g x) (h x))) = [] := by
  induction l with
  | nil => rfl
  | cons x l ih => exact ih

/-- **C73.** With `DontBleed`, no text of a horizontal axis reaches past the end of the axis. -/
theorem C73_no_bleed {P : Type} (f : Font) (px : Int → P → Int) (m : AxisM P) (hv : m.opts.vertical = false) (hb : m.opts.dontBleed = true) :
    ∀ e ∈ textsOf (m.draw f px), e.1 + f.wide e.2.2 ≤ m.opts.length := by
  unfold AxisM.draw
  rw [if_neg (by simp [hv]), textsOf_append, textsOf_dots]
  have key : ∀ (ls : List (Label P)) (occ : Int), ∀ e ∈ textsOf (drawHLoop f px m ls occ), e.1 + f.wide e.2.2 ≤ m.opts.length := by
    intro ls
    induction ls with
    | nil => intro _ e he; cases he
    | cons l ls ih =>
      intro occ e he
      unfold drawHLoop at he
      dsimp only at he
      split at he
      · rw [textsOf_append, textsOf_dots] at he
        exact ih _ e he
      · rw [textsOf_append, textsOf_append, textsOf_dots, textsOf_dots] at he
        rcases List.mem_cons.mp he with rfl | he
        · dsimp only
          unfold labelAt
          dsimp only
          split
          · dsimp only; omega
          · rename_i hn
            have : ¬ (px m.opts.length l.pos + f.wide l.text > m.opts.length) := fun h => hn ⟨hb, h⟩
            dsimp only; omega
        · exact ih _ e he
  exact key _ 0

/-- Two texts of a horizontal axis, one after the other: the second begins more than ten pixels after the end of the first (the advance of the text), or among the first ten pixels. -/
def Spaced (f : Font) : List (Int × Int × Bytes) → Prop
  | [] => True
  | [_] => True
  | a :: b :: r => (b.1 < 10 ∨ a.1 + f.adv a.2.2 + 10 < b.1) ∧ Spaced f (b :: r)

/-- **C73** (part). The texts of a horizontal axis are spaced, except among its first ten pixels (and if no text ends exactly at pixel 0). -/
theorem C73_spaced_partial {P : Type} (f : Font) (px : Int → P → Int) (m : AxisM P) (hv : m.opts.vertical = false)
    (h0 : ∀ l ∈ m.opts.labels, (labelAt f px m.opts l).1 + f.adv l.text ≠ 0) : Spaced f (textsOf (m.draw f px)) := by
  unfold AxisM.draw
  rw [if_neg (by simp [hv]), textsOf_append, textsOf_dots, List.nil_append]
  have key : ∀ (ls : List (Label P)) (occ : Int), (∀ l ∈ ls, (labelAt f px m.opts l).1 + f.adv l.text ≠ 0) → Spaced f (textsOf (drawHLoop f px m ls occ)) ∧
      ∀ b r, textsOf (drawHLoop f px m ls occ) = b :: r → occ = 0 ∨ b.1 < 10 ∨ occ + 10 < b.1 := by
    intro ls
    induction ls with
    | nil => intro occ _; exact ⟨trivial, fun b r h => by cases h⟩
    | cons l ls ih =>
      intro occ h
      have h' := fun x hx => h x (List.mem_cons_of_mem _ hx)
      unfold drawHLoop
      dsimp only
      split
      · rw [textsOf_append, textsOf_dots]
        exact ih occ h'
      · rename_i hf
        rw [textsOf_append, textsOf_append, textsOf_dots, textsOf_dots]
        simp only [List.nil_append, textsOf]
        obtain ⟨q1, q2⟩ := ih ((labelAt f px m.opts l).1 + f.adv l.text) h'
        constructor
        · generalize textsOf (drawHLoop f px m ls ((labelAt f px m.opts l).1 + f.adv l.text)) = r at q1 q2
          cases r with
          | nil => trivial
          | cons b r =>
            refine ⟨?_, q1⟩
            rcases q2 b r rfl with h1 | h1 | h1
            · exact absurd h1 (h l List.mem_cons_self)
            · exact .inl h1
            · exact .inr h1
        · intro b r e
          injection e with e1 e2
          subst e1
          simp only [axisFits, Bool.not_eq_true', Bool.not_eq_false, Bool.or_eq_true, decide_eq_true_eq] at hf
          dsimp only
          omega
  exact (key _ 0 h0).1

/-! ## C74: the times on the axis -/

theorem chooseUnit_spec (chunk n : Int) (us : List Int) (hs : (n :: us).Pairwise (· < ·)) :
    chooseUnit chunk n us ∈ n :: us ∧ n ≤ chooseUnit chunk n us ∧ (chooseUnit chunk n us = n ∨ chooseUnit chunk n us < chunk) ∧ ∀ u ∈ us, u < chunk → u ≤ chooseUnit chunk n us := by
  induction us generalizing n with
  | nil => exact ⟨List.mem_singleton.mpr rfl, Int.le_refl _, .inl rfl, fun u hu => by cases hu⟩
  | cons v us ih =>
    have hp := List.pairwise_cons.mp hs
    have hp2 := List.pairwise_cons.mp hp.2
    unfold chooseUnit
    split
    · rename_i hv
      obtain ⟨h1, h2, h3, h4⟩ := ih v hp.2
      have hnv := hp.1 v List.mem_cons_self
      refine ⟨List.mem_cons_of_mem _ h1, by omega, .inr (by rcases h3 with h3 | h3 <;> omega), fun u hu hlt => ?_⟩
      rcases List.mem_cons.mp hu with rfl | hu
      · exact h2
      · exact h4 u hu hlt
    · rename_i hv
      refine ⟨List.mem_cons_self, Int.le_refl _, .inl rfl, fun u hu hlt => ?_⟩
      rcases List.mem_cons.mp hu with rfl | hu
      · omega
      · have := hp2.1 u hu
        omega

/-- **C74.** The unit is the largest of 1, 2, 4, 6, ..., 24 hours that is less than the time of a hundred pixels, and an hour if there is none; the graph must be at least 100 pixels wide. -/
theorem C74_unit (duration width : Int) (hw : 100 ≤ width) : ∃ u, naturalUnit duration width = some u ∧ u ∈ naturalUnits ∧ 3600000000000 ≤ u ∧
    (u = 3600000000000 ∨ u < Int.tdiv duration (width / 100)) ∧ ∀ v ∈ naturalUnits, v < Int.tdiv duration (width / 100) → v ≤ u := by
  have he : Int.tdiv width 100 = width / 100 := Int.tdiv_eq_ediv_of_nonneg (by omega)
  have hpos : width / 100 ≠ 0 := by omega
  unfold naturalUnit
  rw [he, if_neg hpos]
  have hs : (naturalUnits.headD 0 :: naturalUnits.tail).Pairwise (· < ·) := by decide
  obtain ⟨h1, h2, h3, h4⟩ := chooseUnit_spec (Int.tdiv duration (width / 100)) _ _ hs
  refine ⟨_, rfl, h1, h2, h3, fun v hv hlt => ?_⟩
  have hv : v ∈ naturalUnits.headD 0 :: naturalUnits.tail := hv
  rcases List.mem_cons.mp hv with rfl | hv
  · exact h2
  · exact h4 v hv hlt

theorem timesLoop_mem (unit stop : Int) (hu : 0 < unit) (n : Nat) (x : Int) (hn : (x - stop).toNat ≤ n) (t : Int) :
    t ∈ timesLoop unit stop n x ↔ stop < t ∧ t ≤ x ∧ unit ∣ x - t := by
  induction n generalizing x with
  | zero =>
    constructor
    · intro h; cases h
    · rintro ⟨h1, h2, _⟩; omega
  | succ n ih =>
    unfold timesLoop
    split
    · rename_i hx
      rw [List.mem_cons, ih (x - unit) (by omega)]
      constructor
      · rintro (rfl | ⟨h1, h2, h3⟩)
        · exact ⟨hx, Int.le_refl _, by rw [Int.sub_self]; exact Int.dvd_zero _⟩
        · refine ⟨h1, by omega, ?_⟩
          have : x - t = (x - unit - t) + unit := by omega
          rw [this]
          exact Int.dvd_add h3 (Int.dvd_refl _)
      · rintro ⟨h1, h2, h3⟩
        by_cases he : t = x
        · exact .inl he
        · right
          have hlt : 0 < x - t := by omega
          have := Int.le_of_dvd hlt h3
          refine ⟨h1, by omega, ?_⟩
          have e : x - unit - t = (x - t) - unit := by omega
          rw [e]
          exact Int.dvd_sub h3 (Int.dvd_refl _)
    · constructor
      · intro h; cases h
      · rintro ⟨h1, h2, _⟩; omega

theorem timesLoop_sorted (unit stop : Int) (hu : 0 < unit) (n : Nat) (x : Int) : (timesLoop unit stop n x).Pairwise (· > ·) ∧ ∀ t ∈ timesLoop unit stop n x, t ≤ x := by
  induction n generalizing x with
  | zero => exact ⟨.nil, fun t h => by cases h⟩
  | succ n ih =>
    obtain ⟨h1, h2⟩ := ih (x - unit)
    unfold timesLoop
    split
    · refine ⟨List.pairwise_cons.mpr ⟨fun t ht => ?_, h1⟩, fun t ht => ?_⟩
      · have := h2 t ht
        omega
      · rcases List.mem_cons.mp ht with rfl | ht
        · exact Int.le_refl _
        · have := h2 t ht
          omega
    · exact ⟨.nil, fun t h => by cases h⟩

/-- **C74.** For a time from 1970 on: the labels are at exactly the multiples of the unit that are in the graph's time, each once, in order. -/
theorem C74_times (unit now duration : Int) (hu : 0 < unit) (hn : 0 ≤ now) :
    (∀ t, t ∈ timesFrom unit now duration ↔ unit ∣ t ∧ now - duration < t ∧ t ≤ now) ∧ (timesFrom unit now duration).reverse.Pairwise (· < ·) := by
  have hmul : Int.tdiv now unit * unit ≤ now := by
    rw [Int.tdiv_eq_ediv_of_nonneg hn]
    exact Int.ediv_mul_le now (by omega)
  have hlt : now < Int.tdiv now unit * unit + unit := by
    rw [Int.tdiv_eq_ediv_of_nonneg hn]
    have := Int.lt_ediv_add_one_mul_self now hu
    rw [Int.add_mul, Int.one_mul] at this
    exact this
  constructor
  · intro t
    unfold timesFrom
    rw [timesLoop_mem unit _ hu _ _ (Nat.le_refl _)]
    constructor
    · rintro ⟨h1, h2, h3⟩
      refine ⟨?_, h1, by omega⟩
      have e : t = Int.tdiv now unit * unit - (Int.tdiv now unit * unit - t) := by omega
      rw [e]
      exact Int.dvd_sub (Int.dvd_mul_left _ _) h3
    · rintro ⟨⟨q, rfl⟩, h2, h3⟩
      refine ⟨h2, ?_, Int.dvd_sub (Int.dvd_mul_left _ _) (Int.dvd_mul_right _ _)⟩
      have h4 : unit * q < (Int.tdiv now unit + 1) * unit := by rw [Int.add_mul, Int.one_mul]; omega
      rw [Int.mul_comm] at h4
      have h5 := Int.lt_of_mul_lt_mul_right h4 (by omega)
      rw [Int.mul_comm]
      exact Int.mul_le_mul_of_nonneg_right (by omega) (by omega)
  · rw [List.pairwise_reverse]
    exact (timesLoop_sorted unit _ hu _ _).1.imp (fun h => h)

end Rothko
