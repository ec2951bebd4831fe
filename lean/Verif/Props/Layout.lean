import Verif.Props.Axis
/-!
# C75: the layout of a graph
-/
namespace Rothko

/-- The pixels of a box. -/
def Box.Has (b : Box) (x y : Int) : Prop := b.x ≤ x ∧ x < b.x + b.w ∧ b.y ≤ y ∧ y < b.y + b.h

/-- No pixel is in both. -/
def Box.Apart (a b : Box) : Prop := ∀ x y, ¬ (a.Has x y ∧ b.Has x y)

/-- All the pixels of a box are in another. -/
def Box.Within (a b : Box) : Prop := a.x ≥ b.x ∧ a.y ≥ b.y ∧ a.x + a.w ≤ b.x + b.w ∧ a.y + a.h ≤ b.y + b.h

theorem apart_x {a b : Box} (h : a.x + a.w ≤ b.x ∨ b.x + b.w ≤ a.x) : a.Apart b := fun x y ⟨h1, h2⟩ => by
  unfold Box.Has at h1 h2; omega
theorem apart_y {a b : Box} (h : a.y + a.h ≤ b.y ∨ b.y + b.h ≤ a.y) : a.Apart b := fun x y ⟨h1, h2⟩ => by
  unfold Box.Has at h1 h2; omega

/-- With `DontBleed`, measuring a horizontal axis never makes it wider than asked for. -/
theorem measH_width {P : Type} (f : Font) (px : Int → P → Int) (o : AxisOpts P) (hb : o.dontBleed = true) (ls : List (Label P)) (mw mh occ : Int) (h : o.length ≤ mw) :
    (measHLoop f px o ls mw mh occ).1 = mw := by
  induction ls generalizing mw mh occ with
  | nil => rfl
  | cons l ls ih =>
    unfold measHLoop
    dsimp only
    split
    · exact ih _ _ _ h
    · have : (labelAt f px o l).2 ≤ o.length := by
        unfold labelAt
        dsimp only
        split
        · exact Int.le_refl _
        · rename_i hn
          have : ¬ (px o.length l.pos + f.wide l.text > o.length) := fun h => hn ⟨hb, h⟩
          dsimp only; omega
      rw [if_neg (by omega)]
      exact ih _ _ _ h

/-- If all the labels are equally high, so is the axis, however many of them are drawn. -/
theorem measH_height {P : Type} (f : Font) (px : Int → P → Int) (o : AxisOpts P) (H : Int) (ls : List (Label P)) (hH : ∀ l ∈ ls, f.high l.text = H) (mw mh occ : Int) (h : H + 2 ≤ mh) :
    (measHLoop f px o ls mw mh occ).2 = mh := by
  induction ls generalizing mw mh occ with
  | nil => rfl
  | cons l ls ih =>
    have hl := hH l List.mem_cons_self
    unfold measHLoop
    dsimp only
    split
    · exact ih (fun x hx => hH x (List.mem_cons_of_mem _ hx)) _ _ _ h
    · rw [if_neg (show ¬ f.high l.text + 2 > mh by omega)]
      exact ih (fun x hx => hH x (List.mem_cons_of_mem _ hx)) _ _ _ h

theorem measH_uniform {P : Type} (f : Font) (px : Int → P → Int) (o : AxisOpts P) (H : Int) (h0 : 0 ≤ H) (ls : List (Label P)) (hH : ∀ l ∈ ls, f.high l.text = H) (mw : Int) :
    (measHLoop f px o ls mw 0 0).2 = if ls = [] then 0 else H + 2 := by
  cases ls with
  | nil => rfl
  | cons l ls =>
    have hl := hH l List.mem_cons_self
    rw [if_neg (by simp)]
    unfold measHLoop
    dsimp only
    rw [if_neg (by simp [axisFits]), if_pos (show f.high l.text + 2 > 0 by omega), hl]
    exact measH_height f px o H ls (fun x hx => hH x (List.mem_cons_of_mem _ hx)) _ _ _ (Int.le_refl _)

theorem measV_height {P : Type} (f : Font) (px : Int → P → Int) (o : AxisOpts P) (B : Int) (ls : List (Label P)) (h : ∀ l ∈ ls, px o.length l.pos - f.top l.text ≤ B) (mw mh : Int) (hm : mh ≤ B) :
    (measVLoop f px o ls mw mh).2 ≤ B := by
  induction ls generalizing mw mh with
  | nil => exact hm
  | cons l ls ih =>
    have hl := h l List.mem_cons_self
    unfold measVLoop
    dsimp only
    split
    · exact ih (fun x hx => h x (List.mem_cons_of_mem _ hx)) _ _ hm
    · refine ih (fun x hx => h x (List.mem_cons_of_mem _ hx)) _ _ ?_
      split <;> omega

/-- What is assumed of the font and the positions: no text has a negative height or reaches more than 13 pixels above its baseline, all the times are equally high, and positions are on the axis. -/
structure Style.Ok {P : Type} (s : Style P) (H : Int) : Prop where
  high : ∀ t, 0 ≤ s.font.high t
  top : ∀ t, - s.font.top t ≤ 13
  times : ∀ x, s.font.high (s.timeText x) = H
  px : ∀ n p, 1 ≤ n → 0 ≤ s.px n p ∧ s.px n p < n
  px0 : ∀ p, s.px 0 p ≤ 0

/-- What a successful try looks like. -/
theorem tryMeasure_ok {P : Type} {s : Style P} {H : Int} (hs : s.Ok H) {o : GraphOpts} {guess : Int} {m : GraphM P} (h : tryMeasure s o guess = .ok m) :
    m.opts = o ∧ m.height = o.height - guess ∧ 0 ≤ m.height ∧ m.obsHeight = 7 + s.font.high s.obsText ∧ m.obsWidth = m.width ∧ 13 ≤ m.left.width ∧
    m.width = o.width - (m.left.width + 15 + m.rightWidth) ∧ (o.earliest = true ↔ m.right.isSome) ∧ (∀ r, m.right = some r → 13 ≤ r.width ∧ m.height ≤ r.height ∧ r.height ≤ m.height + 13) ∧
    m.height ≤ m.left.height ∧ m.left.height ≤ m.height + 13 ∧ m.bottom.width = m.width + 2 ∧
    m.x = o.padding + m.left.width ∧ m.y = o.padding + m.obsHeight ∧
    m.bottom.height = 13 + (if (match naturalUnit o.duration o.width with | some u => timesFrom u o.now o.duration | none => []) = [] then 0 else H + 2) := by
  unfold tryMeasure at h
  dsimp only at h
  split at h
  · cases h
  · rename_i hh
    cases hu : naturalUnit o.duration o.width with
    | none => rw [hu] at h; cases h
    | some u =>
      rw [hu] at h
      injection h with h
      subst h
      have side : ∀ (text : Int → Int → Bytes) (flip : Bool),
          let r := axisMeasure s.font s.px { labels := sideLabels s text (o.height - guess), vertical := true, length := o.height - guess, flip := flip }
          13 ≤ r.width ∧ o.height - guess ≤ r.height ∧ r.height ≤ o.height - guess + 13 := by
        intro text flip
        unfold axisMeasure
        dsimp only
        rw [if_pos rfl]
        have h1 := measV_le s.font s.px { labels := sideLabels s text (o.height - guess), vertical := true, length := o.height - guess, flip := flip } (sideLabels s text (o.height - guess)) 0 (o.height - guess)
        have h2 := measV_height s.font s.px { labels := sideLabels s text (o.height - guess), vertical := true, length := o.height - guess, flip := flip } (o.height - guess + 13) (sideLabels s text (o.height - guess)) (by
          intro l _
          dsimp only
          have ht := hs.top l.text
          by_cases h1 : 1 ≤ o.height - guess
          · have := hs.px (o.height - guess) l.pos h1
            omega
          · rw [show o.height - guess = 0 by omega]
            have := hs.px0 l.pos
            omega) 0 (o.height - guess) (by omega)
        dsimp only at h1 h2 ⊢
        omega
      have hl := side s.leftText true
      have hr := side s.rightText false
      have hb := measH_width s.font s.px
        { labels := (timesFrom u o.now o.duration).reverse.map (fun x => (⟨s.posT o.now x o.duration, s.timeText x⟩ : Label P)), vertical := false,
          length := o.width - ((axisMeasure s.font s.px { labels := sideLabels s s.leftText (o.height - guess), vertical := true, length := o.height - guess, flip := true }).width + 5 + 10 +
            ((if o.earliest = true then some (axisMeasure s.font s.px { labels := sideLabels s s.rightText (o.height - guess), vertical := true, length := o.height - guess }) else none).map (·.width)).getD 0) + 2,
          dontBleed := true } rfl ((timesFrom u o.now o.duration).reverse.map (fun x => (⟨s.posT o.now x o.duration, s.timeText x⟩ : Label P))) _ 0 0 (Int.le_refl _)
      have hH := measH_uniform s.font s.px
        { labels := (timesFrom u o.now o.duration).reverse.map (fun x => (⟨s.posT o.now x o.duration, s.timeText x⟩ : Label P)), vertical := false,
          length := o.width - ((axisMeasure s.font s.px { labels := sideLabels s s.leftText (o.height - guess), vertical := true, length := o.height - guess, flip := true }).width + 5 + 10 +
            ((if o.earliest = true then some (axisMeasure s.font s.px { labels := sideLabels s s.rightText (o.height - guess), vertical := true, length := o.height - guess }) else none).map (·.width)).getD 0) + 2,
          dontBleed := true } H (by have := hs.high (s.timeText 0); rw [hs.times] at this; exact this)
        ((timesFrom u o.now o.duration).reverse.map (fun x => (⟨s.posT o.now x o.duration, s.timeText x⟩ : Label P)))
        (by intro l hl; obtain ⟨x, _, rfl⟩ := List.mem_map.mp hl; exact hs.times x)
        (o.width - ((axisMeasure s.font s.px { labels := sideLabels s s.leftText (o.height - guess), vertical := true, length := o.height - guess, flip := true }).width + 5 + 10 +
            ((if o.earliest = true then some (axisMeasure s.font s.px { labels := sideLabels s s.rightText (o.height - guess), vertical := true, length := o.height - guess }) else none).map (·.width)).getD 0) + 2)
      refine ⟨rfl, rfl, by dsimp only; omega, by dsimp only; omega, rfl, hl.1, ?_, ?_, ?_, hl.2.1, hl.2.2, ?_, rfl, rfl, ?_⟩
      · unfold GraphM.rightWidth
        dsimp only
        omega
      · cases he : o.earliest <;> simp
      · intro r hr'
        dsimp only at hr'
        split at hr'
        · injection hr' with hr'
          subst hr'
          exact hr
        · cases hr'
      · dsimp only
        rw [axisMeasure, if_neg (by simp)]
        dsimp only
        exact hb
      · dsimp only
        rw [axisMeasure, if_neg (by simp)]
        dsimp only
        rw [hH]
        congr 1
        simp only [List.map_eq_nil_iff, List.reverse_eq_nil_iff]

/-- **C75.** If measuring a graph succeeds and there is room for the heatmap, then the parts of the graph are inside of the graph, inside the padding; the width is divided up by the left axis, the heatmap, a gap, the
key and the right axis, and the height by the observations, the heatmap and the bottom axis; no two of the observations, the axes at the sides, the heatmap and the key have a pixel in common, and the bottom axis has
none in common with the heatmap, the observations and the key. -/
theorem C75_layout {P : Type} {s : Style P} {H : Int} (hs : s.Ok H) {o : GraphOpts} {m : GraphM P} (h : graphMeasure s o = .ok m) (hw : 0 ≤ m.width) :
    m.left.width + m.width + 5 + 10 + m.rightWidth = o.width ∧ m.obsHeight + m.height + m.bottom.height = o.height ∧
    (∀ b ∈ [m.obsBox, m.leftBox, m.heatBox, m.keyBox, m.bottomBox] ++ (m.right.map m.rightBox).toList, b.Within ⟨o.padding, o.padding, o.width, o.height⟩) ∧
    ([m.obsBox, m.leftBox, m.heatBox, m.keyBox] ++ (m.right.map m.rightBox).toList).Pairwise Box.Apart ∧
    (∀ b ∈ [m.obsBox, m.heatBox, m.keyBox], m.bottomBox.Apart b) ∧ m.heatBox.x = m.x ∧ m.heatBox.y = m.y := by
  have hobs : 0 ≤ s.font.high s.obsText := hs.high _
  have hH : 0 ≤ H := by have := hs.high (s.timeText 0); rw [hs.times] at this; exact this
  have main : ∃ guess, tryMeasure s o guess = .ok m ∧ m.bottom.height + m.obsHeight = guess := by
    unfold graphMeasure at h
    cases ht : tryMeasure s o 50 with
    | panic => rw [ht] at h; cases h
    | small => rw [ht] at h; cases h
    | ok m1 =>
      rw [ht] at h
      dsimp only at h
      split at h
      · refine ⟨_, h, ?_⟩
        obtain ⟨_, _, _, a1, _, _, _, _, _, _, _, _, _, _, a2⟩ := tryMeasure_ok hs ht
        obtain ⟨_, _, _, b1, _, _, _, _, _, _, _, _, _, _, b2⟩ := tryMeasure_ok hs h
        rw [a1, a2, b1, b2]
      · rename_i hn
        injection h with h
        subst h
        exact ⟨50, ht, Classical.not_not.mp hn⟩
  obtain ⟨guess, ht, hg⟩ := main
  obtain ⟨h1, h2, h3, h4, h5, h6, h7, h8, h9, h10, h11, h12, h13, h14, h15⟩ := tryMeasure_ok hs ht
  have hb13 : 13 ≤ m.bottom.height := by rw [h15]; split <;> omega
  have hrw : 0 ≤ m.rightWidth := by
    unfold GraphM.rightWidth
    cases hr : m.right with
    | none => simp
    | some r => have := (h9 r hr).1; simp; omega
  have hrw' : ∀ r, m.right = some r → m.rightWidth = r.width := by
    intro r hr
    unfold GraphM.rightWidth
    rw [hr]
    rfl
  have hin : ∀ b ∈ [m.obsBox, m.heatBox, m.keyBox, m.bottomBox], b.Within ⟨o.padding, o.padding, o.width, o.height⟩ := by
    intro b hb
    simp only [List.mem_cons, List.not_mem_nil, or_false] at hb
    rcases hb with rfl | rfl | rfl | rfl
    · unfold Box.Within GraphM.obsBox
      dsimp only
      rw [h1]
      omega
    · unfold Box.Within GraphM.heatBox
      dsimp only
      rw [h1]
      omega
    · unfold Box.Within GraphM.keyBox
      dsimp only
      rw [h1]
      omega
    · unfold Box.Within GraphM.bottomBox
      dsimp only
      rw [h1]
      omega
  have hleft : m.leftBox.Within ⟨o.padding, o.padding, o.width, o.height⟩ := by
    unfold Box.Within GraphM.leftBox
    dsimp only
    rw [h1]
    omega
  have hright : ∀ r, m.right = some r → (m.rightBox r).Within ⟨o.padding, o.padding, o.width, o.height⟩ := by
    intro r hr
    have := h9 r hr
    have := hrw' r hr
    unfold Box.Within GraphM.rightBox
    dsimp only
    rw [h1]
    omega
  refine ⟨by omega, by omega, ?_, ?_, ?_, ?_, ?_⟩
  · intro b hb
    rcases List.mem_append.mp hb with hb | hb
    · simp only [List.mem_cons, List.not_mem_nil, or_false] at hb
      rcases hb with rfl | rfl | rfl | rfl | rfl
      · exact hin _ (by simp)
      · exact hleft
      · exact hin _ (by simp)
      · exact hin _ (by simp)
      · exact hin _ (by simp)
    · cases hr : m.right with
      | none => rw [hr] at hb; cases hb
      | some r =>
        rw [hr] at hb
        simp only [Option.map_some, Option.toList_some, List.mem_singleton] at hb
        subst hb
        exact hright r hr
  · have a1 : m.obsBox.Apart m.leftBox := apart_y (by unfold GraphM.obsBox GraphM.leftBox; dsimp only; omega)
    have a2 : m.obsBox.Apart m.heatBox := apart_y (by unfold GraphM.obsBox GraphM.heatBox; dsimp only; omega)
    have a3 : m.obsBox.Apart m.keyBox := apart_y (by unfold GraphM.obsBox GraphM.keyBox; dsimp only; omega)
    have a4 : m.leftBox.Apart m.heatBox := apart_x (by unfold GraphM.leftBox GraphM.heatBox; dsimp only; omega)
    have a5 : m.leftBox.Apart m.keyBox := apart_x (by unfold GraphM.leftBox GraphM.keyBox; dsimp only; omega)
    have a6 : m.heatBox.Apart m.keyBox := apart_x (by unfold GraphM.heatBox GraphM.keyBox; dsimp only; omega)
    have a7 : ∀ r, m.obsBox.Apart (m.rightBox r) := fun r => apart_y (by unfold GraphM.obsBox GraphM.rightBox; dsimp only; omega)
    have a8 : ∀ r, m.leftBox.Apart (m.rightBox r) := fun r => apart_x (by unfold GraphM.leftBox GraphM.rightBox; dsimp only; omega)
    have a9 : ∀ r, m.heatBox.Apart (m.rightBox r) := fun r => apart_x (by unfold GraphM.heatBox GraphM.rightBox; dsimp only; omega)
    have a10 : ∀ r, m.keyBox.Apart (m.rightBox r) := fun r => apart_x (by unfold GraphM.keyBox GraphM.rightBox; dsimp only; omega)
    cases m.right with
    | none => simp [List.pairwise_cons, a1, a2, a3, a4, a5, a6]
    | some r => simp [List.pairwise_cons, a1, a2, a3, a4, a5, a6, a7, a8, a9, a10]
  · intro b hb
    simp only [List.mem_cons, List.not_mem_nil, or_false] at hb
    rcases hb with rfl | rfl | rfl
    · exact apart_y (by unfold GraphM.bottomBox GraphM.obsBox; dsimp only; omega)
    · exact apart_y (by unfold GraphM.bottomBox GraphM.heatBox; dsimp only; omega)
    · exact apart_y (by unfold GraphM.bottomBox GraphM.keyBox; dsimp only; omega)
  · show m.opts.padding + m.left.width = m.x
    rw [h1, h13]
  · show m.opts.padding + m.obsHeight = m.y
    rw [h1, h14]

/-- **C75.** A graph less than 50 pixels high is too small; one that is high enough and less than 100 pixels wide crashes the request (a division by zero). -/
theorem C75_crash {P : Type} (s : Style P) (o : GraphOpts) : (o.height < 50 → graphMeasure s o = .small) ∧ (50 ≤ o.height → -100 < o.width → o.width < 100 → graphMeasure s o = .panic) := by
  constructor
  · intro h
    unfold graphMeasure tryMeasure
    dsimp only
    rw [if_pos (by omega)]
  · intro h h1 h2
    have ht : tryMeasure s o 50 = .panic := by
      unfold tryMeasure
      dsimp only
      rw [if_neg (by omega)]
      have : naturalUnit o.duration o.width = none := by
        unfold naturalUnit
        rw [if_pos]
        rcases Int.le_total 0 o.width with hw | hw
        · exact Int.tdiv_eq_zero_of_lt hw h2
        · have : Int.tdiv (-o.width) 100 = 0 := Int.tdiv_eq_zero_of_lt (by omega) (by omega)
          rw [Int.neg_tdiv] at this
          omega
      rw [this]
    unfold graphMeasure
    rw [ht]

/-! ## Examples -/

/-- The real font; texts as long as the real ones; positions are fractions. -/
def exStyle : Style (Int × Int) where
  font := iosevka
  px := fun n p => if 0 ≤ p.1 ∧ p.1 ≤ p.2 then (n - 1) * p.1 / p.2 else 0
  posY := fun y h => (y, h)
  one := (1, 1)
  posT := fun now x d => (x - (now - d), d)
  leftText := fun _ _ => [48, 46, 48, 48]
  rightText := fun _ _ => [49, 46, 48, 48]
  timeText := fun _ => [49, 47, 50, 32, 64, 32, 49, 50, 58, 48, 48]
  obsText := [111, 98, 115, 47, 115, 101, 99, 58, 32, 48, 46, 48, 48, 101, 45, 48, 48]

theorem exStyle_ok : exStyle.Ok 14 := by
  refine ⟨fun t => ?_, fun t => ?_, fun _ => rfl, fun n p hn => ?_, fun p => ?_⟩
  · show 0 ≤ (if t = [] then (0 : Int) else 14)
    split <;> decide
  · show -(if t = [] then (0 : Int) else -11) ≤ 13
    split <;> decide
  · show 0 ≤ (if 0 ≤ p.1 ∧ p.1 ≤ p.2 then (n - 1) * p.1 / p.2 else 0) ∧ (if 0 ≤ p.1 ∧ p.1 ≤ p.2 then (n - 1) * p.1 / p.2 else 0) < n
    split
    · rename_i h
      have h1 : 0 ≤ (n - 1) * p.1 := Int.mul_nonneg (by omega) h.1
      have h2 : (n - 1) * p.1 ≤ (n - 1) * p.2 := Int.mul_le_mul_of_nonneg_left h.2 (by omega)
      refine ⟨Int.ediv_nonneg h1 (by omega), ?_⟩
      by_cases hp : p.2 = 0
      · rw [hp, Int.ediv_zero]; omega
      · have : (n - 1) * p.1 / p.2 ≤ (n - 1) * p.2 / p.2 := Int.ediv_le_ediv (by omega) h2
        rw [Int.mul_ediv_cancel _ hp] at this
        omega
    · omega
  · show (if 0 ≤ p.1 ∧ p.1 ≤ p.2 then (0 - 1) * p.1 / p.2 else 0) ≤ 0
    split
    · rename_i h
      by_cases hp : p.2 = 0
      · rw [hp, Int.ediv_zero]; omega
      · exact Int.ediv_nonpos_of_nonpos_of_neg (by omega) (by omega)
    · omega

/-- A graph of `days` days of 1000 by 350 pixels. -/
def exGraph (days : Int) : GraphOpts := { earliest := true, now := 1500000000000000000, duration := days * 86400000000000, width := 1000, height := 350, padding := 4 }

/-- The measured sizes. -/
def triedSizes {P : Type} : Tried P → Option (Int × Int × Int × Int)
  | .ok m => some (m.x, m.y, m.width, m.height)
  | _ => none

/-- The texts of the bottom axis. -/
def bottomTexts {P : Type} (s : Style P) : Tried P → List (Int × Int × Bytes)
  | .ok m => textsOf (m.bottom.draw s.font s.px)
  | _ => []

/-- **C75 example.** A day on 1000 by 350 pixels. -/
theorem C75_example : triedSizes (graphMeasure exStyle (exGraph 1)) = some (41, 25, 911, 300) := by decide +kernel

/-- **C73 is false at the left end.** In a graph of a year two dates are drawn over each other: the second begins before the first, which is 66 pixels wide, has ended. -/
theorem C73_overlap_refuted : ∃ o : GraphOpts, 100 ≤ o.width ∧ 50 ≤ o.height ∧
    ((bottomTexts exStyle (graphMeasure exStyle o)).map (fun t => (t.1, t.1 + exStyle.font.wide t.2.2))).take 2 = [(2, 68), (4, 70)] :=
  ⟨exGraph 365, by decide, by decide, by decide +kernel⟩

end Rothko
