import Verif.Model.Picture
import Verif.Props.Layout
import Verif.Props.Canvas
/-!
# C76: the picture of a graph
-/
namespace Rothko

/-- The column over `x`, if any. -/
def columnAt {α : Type} (cols : List (Col α)) (x : Int) : Option (Col α) := cols.find? (fun k => k.x ≤ x && x < k.x + k.w)

/-- A text changes only pixels of the rectangle its measures tell, with a pixel above and below: from the dot on to the right, and from its top to its bottom. -/
def InkOk {α : Type} (f : Font) (b : Brush α) : Prop :=
  ∀ (W H : Nat) (c : Canvas) (x y : Int) (t : Bytes) (pix : Bytes), ViewIn c W H → IsImage pix W H → IsImage (b.ink c x y t pix) W H ∧
    ∀ px py : Nat, px < W → py < H → ¬ (c.x + x ≤ px ∧ (px : Int) < c.x + x + f.right t ∧ c.y + y + f.top t - 1 ≤ py ∧ (py : Int) ≤ c.y + y + f.top t + f.high t) →
      pixel (b.ink c x y t pix) W px py = pixel pix W px py

/-! ## Proof -/

/-- The pixels in `R` are left as they are. -/
def Untouched (W H : Nat) (R : Nat → Nat → Prop) (old new : Bytes) : Prop := IsImage new W H ∧ ∀ px py, px < W → py < H → R px py → pixel new W px py = pixel old W px py

theorem Untouched.refl {W H : Nat} {R : Nat → Nat → Prop} {a : Bytes} (h : IsImage a W H) : Untouched W H R a a := ⟨h, fun _ _ _ _ _ => rfl⟩

theorem Untouched.trans {W H : Nat} {R : Nat → Nat → Prop} {a b c : Bytes} (h1 : Untouched W H R a b) (h2 : Untouched W H R b c) : Untouched W H R a c :=
  ⟨h2.1, fun px py hx hy hr => (h2.2 px py hx hy hr).trans (h1.2 px py hx hy hr)⟩

theorem Painted.keeps {W H : Nat} {R : Nat → Nat → Prop} {a b : Bytes} {S : Nat → Nat → Option Color} (h : Painted W H a b S) (hr : ∀ px py, px < W → py < H → R px py → S px py = none) : Untouched W H R a b :=
  ⟨h.1, fun px py hx hy h' => by rw [h.2 px py hx hy, hr px py hx hy h']; rfl⟩

/-- Marks change only the canvas of their view (dots) and the rectangles of the texts. -/
theorem paintMarks_keeps {α : Type} {f : Font} {b : Brush α} (hi : InkOk f b) {W H : Nat} {R : Nat → Nat → Prop} {c : Canvas} (v : ViewIn c W H) (marks : List Mark)
    (hin : ∀ k ∈ marks, k.InCanvas c.width c.height)
    (hr : ∀ px py : Nat, R px py → ¬ (c.x ≤ px ∧ (px : Int) < c.x + c.width ∧ c.y ≤ py ∧ (py : Int) < c.y + c.height))
    (ht : ∀ x y t, Mark.text x y t ∈ marks → ∀ px py : Nat, R px py → ¬ (c.x + x ≤ px ∧ (px : Int) < c.x + x + f.right t ∧ c.y + y + f.top t - 1 ≤ py ∧ (py : Int) ≤ c.y + y + f.top t + f.high t))
    (pix : Bytes) (him : IsImage pix W H) : ∃ pix', paintMarks b c marks pix = some pix' ∧ Untouched W H R pix pix' := by
  induction marks generalizing pix with
  | nil => exact ⟨pix, rfl, .refl him⟩
  | cons k ks ih =>
    have hin' := fun k' h' => hin k' (List.mem_cons_of_mem _ h')
    have ht' := fun x y t h' => ht x y t (List.mem_cons_of_mem _ h')
    have hk := hin k List.mem_cons_self
    have one : ∃ pix1, k.paint b c pix = some pix1 ∧ Untouched W H R pix pix1 := by
      cases k with
      | dot x y =>
        obtain ⟨p1, e1, q1⟩ := set_painted v him black (x := x) (y := y) ⟨hk.1, hk.2.1⟩ ⟨hk.2.2.1, hk.2.2.2⟩
        refine ⟨p1, e1, q1.keeps (fun px py _ _ hR => ?_)⟩
        have := hr px py hR
        have := hk.1; have := hk.2.1; have := hk.2.2.1; have := hk.2.2.2
        rw [if_neg (by omega)]
      | text x y t =>
        obtain ⟨q1, q2⟩ := hi W H c x y t pix v him
        exact ⟨_, rfl, q1, fun px py hx hy hR => q2 px py hx hy (ht x y t List.mem_cons_self px py hR)⟩
    obtain ⟨p1, e1, q1⟩ := one
    obtain ⟨p2, e2, q2⟩ := ih hin' ht' p1 q1.1
    refine ⟨p2, ?_, q1.trans q2⟩
    unfold paintMarks
    rw [e1]
    exact e2

/-- Where the texts of an axis are. -/
theorem axis_texts {P : Type} (f : Font) (px : Int → P → Int) (m : AxisM P) (x y : Int) (t : Bytes) (h : Mark.text x y t ∈ m.draw f px) :
    (m.opts.vertical = true → x = if m.opts.flip then m.width - 13 - f.wide t else 13) ∧ (m.opts.vertical = false → y = 13 - f.top t) := by
  have dots : ∀ {β : Type} (l : List β) (g k : β → Int), Mark.text x y t ∉ l.map (fun z => Mark.dot (g z) (k z)) := by
    intro β l g k hm
    obtain ⟨_, _, e⟩ := List.mem_map.mp hm
    cases e
  unfold AxisM.draw at h
  by_cases hv : m.opts.vertical
  · rw [if_pos hv] at h
    refine ⟨fun _ => ?_, fun e => by rw [hv] at e; cases e⟩
    rcases List.mem_append.mp h with h | h
    · exact absurd h (dots _ _ _)
    · have key : ∀ (ls : List (Label P)) (occ : Int), Mark.text x y t ∈ drawVLoop f px m ls occ → x = if m.opts.flip then m.width - 13 - f.wide t else 13 := by
        intro ls
        induction ls with
        | nil => intro _ h; cases h
        | cons l ls ih =>
          intro occ h
          unfold drawVLoop at h
          dsimp only at h
          split at h
          · rcases List.mem_append.mp h with h | h
            · exact absurd h (dots _ _ _)
            · exact ih _ h
          · split at h
            · rcases List.mem_append.mp h with h | h
              · exact absurd h (dots _ _ _)
              · exact ih _ h
            · rcases List.mem_append.mp h with h | h
              · exact absurd h (dots _ _ _)
              · rcases List.mem_cons.mp h with h | h
                · injection h with h1 h2 h3
                  rw [h1, h3]
                · exact ih _ h
      exact key _ _ h
  · rw [if_neg hv] at h
    refine ⟨fun e => absurd e hv, fun _ => ?_⟩
    rcases List.mem_append.mp h with h | h
    · exact absurd h (dots _ _ _)
    · have key : ∀ (ls : List (Label P)) (occ : Int), Mark.text x y t ∈ drawHLoop f px m ls occ → y = 13 - f.top t := by
        intro ls
        induction ls with
        | nil => intro _ h; cases h
        | cons l ls ih =>
          intro occ h
          unfold drawHLoop at h
          dsimp only at h
          split at h
          · rcases List.mem_append.mp h with h | h
            · exact absurd h (dots _ _ _)
            · exact ih _ h
          · rcases List.mem_append.mp h with h | h
            · rcases List.mem_append.mp h with h | h
              · exact absurd h (dots _ _ _)
              · exact absurd h (dots _ _ _)
            · rcases List.mem_cons.mp h with h | h
              · injection h with h1 h2 h3
                rw [h2, h3]
              · exact ih _ h
      exact key _ _ h

/-- Columns that are apart, one after the other: each sets its own pixels. -/
theorem paintCols_painted {α : Type} {W H : Nat} (X : Int) (rows : Nat → Prop) [DecidablePred rows] (col : Col α → Nat → Color) (step : Col α → Bytes → Option Bytes) (cols : List (Col α))
    (hstep : ∀ k ∈ cols, ∀ pix, IsImage pix W H → ∃ pix', step k pix = some pix' ∧
      Painted W H pix pix' (fun px py => if X + k.x ≤ px ∧ (px : Int) < X + k.x + k.w ∧ rows py then some (col k py) else none))
    (hd : cols.Pairwise (fun a b => b.x + b.w ≤ a.x)) (pix : Bytes) (him : IsImage pix W H) :
    ∃ pix', paintCols step cols pix = some pix' ∧ Painted W H pix pix' (fun px py => if rows py then (columnAt cols ((px : Int) - X)).map (fun k => col k py) else none) := by
  induction cols generalizing pix with
  | nil => exact ⟨pix, rfl, (Painted.refl him).congr (fun px py _ _ => by simp [columnAt])⟩
  | cons k ks ih =>
    obtain ⟨p1, e1, q1⟩ := hstep k List.mem_cons_self pix him
    obtain ⟨p2, e2, q2⟩ := ih (fun k' h' => hstep k' (List.mem_cons_of_mem _ h')) (List.pairwise_cons.mp hd).2 p1 q1.1
    refine ⟨p2, by unfold paintCols; rw [e1]; exact e2, (q1.trans q2).congr (fun px py _ _ => ?_)⟩
    have hk := (List.pairwise_cons.mp hd).1
    by_cases hrow : rows py
    · simp only [hrow, if_true, and_true]
      unfold columnAt
      rw [List.find?_cons]
      by_cases hx : X + k.x ≤ px ∧ (px : Int) < X + k.x + k.w
      · have hno : ks.find? (fun k => k.x ≤ (px : Int) - X && (px : Int) - X < k.x + k.w) = none := by
          rw [List.find?_eq_none]
          intro z hz hh
          have := hk z hz
          simp only [Bool.and_eq_true, decide_eq_true_eq] at hh
          omega
        have hyes : (decide (k.x ≤ (px : Int) - X) && decide ((px : Int) - X < k.x + k.w)) = true := by
          simp only [Bool.and_eq_true, decide_eq_true_eq]; omega
        rw [hno, hyes, if_pos hx]
        rfl
      · have hno : (decide (k.x ≤ (px : Int) - X) && decide ((px : Int) - X < k.x + k.w)) = false := by
          rw [Bool.eq_false_iff]
          intro hh
          simp only [Bool.and_eq_true, decide_eq_true_eq] at hh
          omega
        rw [hno, if_neg hx]
        simp
    · simp [hrow]

/-- The axes of a measured graph. -/
theorem tryMeasure_axes {P : Type} {s : Style P} {o : GraphOpts} {guess : Int} {m : GraphM P} (h : tryMeasure s o guess = .ok m) :
    (∃ oL : AxisOpts P, m.left = axisMeasure s.font s.px oL ∧ oL.vertical = true ∧ oL.flip = true ∧ oL.length = m.height) ∧
    (∀ r, m.right = some r → ∃ oR : AxisOpts P, r = axisMeasure s.font s.px oR ∧ oR.vertical = true ∧ oR.flip = false ∧ oR.length = m.height) ∧
    (∃ oB : AxisOpts P, m.bottom = axisMeasure s.font s.px oB ∧ oB.vertical = false ∧ oB.length = m.width + 2) := by
  unfold tryMeasure at h
  dsimp only at h
  split at h
  · cases h
  · cases hu : naturalUnit o.duration o.width with
    | none => rw [hu] at h; cases h
    | some u =>
      rw [hu] at h
      injection h with h
      subst h
      dsimp only
      refine ⟨⟨_, rfl, ?_, ?_, ?_⟩, fun r hr => ?_, ⟨_, rfl, ?_, ?_⟩⟩
      any_goals rfl
      split at hr
      · injection hr with hr
        refine ⟨_, hr.symm, ?_, ?_, ?_⟩ <;> rfl
      · cases hr

theorem graphMeasure_try {P : Type} {s : Style P} {o : GraphOpts} {m : GraphM P} (h : graphMeasure s o = .ok m) : ∃ guess, tryMeasure s o guess = .ok m := by
  unfold graphMeasure at h
  cases ht : tryMeasure s o 50 with
  | panic => rw [ht] at h; cases h
  | small => rw [ht] at h; cases h
  | ok m1 =>
    rw [ht] at h
    dsimp only at h
    split at h
    · exact ⟨_, h⟩
    · injection h with h
      subst h
      exact ⟨50, ht⟩

theorem axis_opts {P : Type} (f : Font) (px : Int → P → Int) (o : AxisOpts P) : (axisMeasure f px o).opts = o := by
  unfold axisMeasure
  split <;> rfl

theorem all_range {n : Nat} {p : Nat → Bool} (h : ∀ y, y < n → p y = true) : (List.range n).all p = true := by
  rw [List.all_eq_true]
  intro y hy
  exact h y (List.mem_range.mp hy)

/-- One column of the heatmap sets the rectangle above its pixels. -/
theorem paintColumn_painted {α : Type} {b : Brush α} {W H : Nat} {c : Canvas} (v : ViewIn c W H) (k : Col α) (hk : 0 ≤ k.x ∧ 0 ≤ k.w ∧ k.x + k.w ≤ c.width)
    (hcol : ∀ y, y < c.height.toNat → (b.heat k.data c.height y).isSome) (pix : Bytes) (him : IsImage pix W H) :
    ∃ pix', paintColumn b c k pix = some pix' ∧ Painted W H pix pix' (fun px py => if c.x + k.x ≤ px ∧ (px : Int) < c.x + k.x + k.w ∧ (c.y ≤ py ∧ (py : Int) < c.y + c.height) then
      some ((b.heat k.data c.height (c.y + c.height - 1 - py).toNat).getD black) else none) := by
  obtain ⟨n, hn⟩ : ∃ n : Nat, k.w = n := ⟨k.w.toNat, by omega⟩
  obtain ⟨p, e, q⟩ := C63_heatmap c W H pix v him k.x n (fun y => (b.heat k.data c.height y).getD black) (by omega)
  refine ⟨p, ?_, q.congr (fun px py _ _ => by rw [hn])⟩
  unfold paintColumn
  rw [if_pos (all_range hcol), hn]
  exact e

theorem rect_bar {c : Canvas} {x w top : Int} {col : Color} {px py : Nat} :
    rect c x w top 0 5 (fun _ => col) px py = if c.x + x ≤ px ∧ (px : Int) < c.x + x + w ∧ (c.y + top ≤ py ∧ (py : Int) < c.y + top + 5) then some col else none := by
  unfold rect
  by_cases h : c.x + x ≤ px ∧ (px : Int) < c.x + x + w ∧ (c.y + top ≤ py ∧ (py : Int) < c.y + top + 5)
  · rw [if_pos h, if_pos (by omega)]
  · rw [if_neg h, if_neg (by omega)]

/-- White. -/
def white : Color := ⟨255, 255, 255⟩

theorem pixel_white {W H px py : Nat} (hx : px < W) (hy : py < H) : pixel (List.replicate (4 * W * H) 255) W px py = some (white, 255) := by
  have hl := lin_lt hx hy
  have e : 4 * W * H = W * H * 4 := by rw [Nat.mul_assoc, Nat.mul_comm]
  unfold pixel
  rw [List.getElem?_replicate, List.getElem?_replicate, List.getElem?_replicate, List.getElem?_replicate, if_pos (by omega), if_pos (by omega), if_pos (by omega), if_pos (by omega)]
  rfl

set_option maxHeartbeats 1000000 in
/-- **C76.** The picture of a graph (of at least one row, with a newest record): drawing does not crash, the picture has the size asked for and the padding around it; each pixel of the heatmap has the colour of its row for the
column over it and is white if there is none; the rows of the key have the colours of the key; the bars over the heatmap have the colour of the column over the pixel and are white if there is none. Axes and texts are not drawn over any of these. -/
theorem C76_picture {α P : Type} {s : Style P} {H : Int} (hs : s.Ok H) (b : Brush α) (hi : InkOk s.font b) (hright : ∀ t, s.font.right t ≤ s.font.wide t + 13)
    {o : GraphOpts} {m : GraphM P} (h : graphMeasure s o = .ok m) (hw : 0 ≤ m.width) (hh : 1 ≤ m.height) (hp : 0 ≤ o.padding) (he : o.earliest = true)
    (cols : List (Col α)) (hc : ∀ k ∈ cols, 0 ≤ k.x ∧ 0 ≤ k.w ∧ k.x + k.w ≤ m.width) (hd : cols.Pairwise (fun a b => b.x + b.w ≤ a.x))
    (hheat : ∀ k ∈ cols, ∀ y, y < m.height.toNat → (b.heat k.data m.height y).isSome) (hkey : ∀ y, y < m.height.toNat → (b.key m.height y).isSome)
    (hlabel : s.font.top (b.label cols) + s.font.high (b.label cols) ≤ s.font.top s.obsText + s.font.high s.obsText + 1) :
    ∃ c pix, drawGraph s b m cols = some (c, pix) ∧ c.width = o.width + 2 * o.padding ∧ c.height = o.height + 2 * o.padding ∧ IsImage pix c.width.toNat c.height.toNat ∧
      (∀ x y : Nat, x < m.width → y < m.height → pixel pix c.width.toNat (m.x + x).toNat (m.y + y).toNat =
        some (((columnAt cols x).bind (fun k => b.heat k.data m.height (m.height - 1 - y).toNat)).getD white, 255)) ∧
      (∀ x y : Nat, x < 10 → y < m.height → pixel pix c.width.toNat (m.x + m.width + 5 + x).toNat (m.y + y).toNat = (b.key m.height y).map (fun k => (k, 255))) ∧
      (∀ x y : Nat, x < m.width → y < 5 → pixel pix c.width.toNat (m.x + x).toNat (m.y - 5 + y).toNat =
        some (((columnAt cols x).map (fun k => b.bar cols k.data)).getD white, 255)) := by
  obtain ⟨guess, ht⟩ := graphMeasure_try h
  obtain ⟨h1, h2, h3, h4, h5, h6, h7, h8, h9, h10, h11, h12, h13, h14, h15⟩ := tryMeasure_ok hs ht
  obtain ⟨sumw, sumh, inside, _, _, _, _⟩ := C75_layout hs h hw
  obtain ⟨⟨oL, eL, vL, fL, lL⟩, hR, ⟨oB, eB, vB, lB⟩⟩ := tryMeasure_axes ht
  obtain ⟨r, er⟩ := Option.isSome_iff_exists.mp (h8.mp he)
  obtain ⟨oR, eR, vR, fR, lR⟩ := hR r er
  have hr9 := h9 r er
  have hrw : m.rightWidth = r.width := by unfold GraphM.rightWidth; rw [er]; rfl
  have hobs0 : 0 ≤ s.font.high s.obsText := hs.high _
  have hbh : 13 ≤ m.bottom.height := by
    have hH : 0 ≤ H := by have := hs.high (s.timeText 0); rw [hs.times] at this; exact this
    rw [h15]; split <;> omega
  obtain ⟨W, hW⟩ : ∃ W : Nat, (W : Int) = o.width + 2 * o.padding := ⟨(o.width + 2 * o.padding).toNat, by omega⟩
  obtain ⟨Hh, hH⟩ : ∃ Hh : Nat, (Hh : Int) = o.height + 2 * o.padding := ⟨(o.height + 2 * o.padding).toNat, by omega⟩
  have hnew : newRGB (o.width + 2 * o.padding) (o.height + 2 * o.padding) =
      some ({ stride := 4 * W, width := W, height := Hh }, List.replicate (4 * W * Hh) 255) := by
    rw [← hW, ← hH]
    unfold newRGB
    have : 0 ≤ 4 * (W : Int) * Hh := Int.mul_nonneg (by omega) (by omega)
    rw [if_neg (by omega), show (4 * (W : Int) * Hh).toNat = 4 * W * Hh by
      rw [show (4 * (W : Int) * Hh) = ((4 * W * Hh : Nat) : Int) by rw [Int.natCast_mul, Int.natCast_mul]; rfl]
      exact Int.toNat_natCast _]
  have hview : ∀ bx ∈ [m.obsBox, m.leftBox, m.heatBox, m.keyBox, m.bottomBox] ++ (m.right.map m.rightBox).toList, 0 ≤ bx.w → 0 ≤ bx.h →
      ViewIn (({ stride := 4 * W, width := W, height := Hh } : Canvas).box bx) W Hh := by
    intro bx hbx hbw hbh
    have hin := inside bx hbx
    unfold Box.Within at hin
    dsimp only at hin
    exact ⟨rfl, by show 0 ≤ bx.x ∧ bx.x + bx.w ≤ W; omega, by show 0 ≤ bx.y ∧ bx.y + bx.h ≤ Hh; omega, ⟨hbw, hbh⟩⟩
  have vObs := hview m.obsBox (by simp) (by show 0 ≤ m.obsWidth; omega) (by show 0 ≤ m.obsHeight; omega)
  have vLeft := hview m.leftBox (by simp) (by show 0 ≤ m.left.width; omega) (by show 0 ≤ m.left.height; omega)
  have vHeat := hview m.heatBox (by simp) hw h3
  have vKey := hview m.keyBox (by simp) (by show (0 : Int) ≤ 10; omega) h3
  have vBot := hview m.bottomBox (by simp) (by show 0 ≤ m.bottom.width; omega) (by show 0 ≤ m.bottom.height; omega)
  have vRight := hview (m.rightBox r) (by rw [er]; simp) (by show 0 ≤ r.width; omega) (by show 0 ≤ r.height; omega)
  -- the regions
  let Rh : Nat → Nat → Prop := fun px py => m.x ≤ px ∧ (px : Int) < m.x + m.width ∧ m.y ≤ py ∧ (py : Int) < m.y + m.height
  let Rk : Nat → Nat → Prop := fun px py => m.x + m.width + 5 ≤ px ∧ (px : Int) < m.x + m.width + 15 ∧ m.y ≤ py ∧ (py : Int) < m.y + m.height
  let Rb : Nat → Nat → Prop := fun px py => m.x ≤ px ∧ (px : Int) < m.x + m.width ∧ m.y - 5 ≤ py ∧ (py : Int) < m.y
  have him0 : IsImage (List.replicate (4 * W * Hh) (255 : UInt8)) W Hh := by unfold IsImage; rw [List.length_replicate]
  -- the bars
  obtain ⟨p1, e1, q1⟩ := paintCols_painted (W := W) (H := Hh) m.x (fun py => m.y - 5 ≤ py ∧ (py : Int) < m.y) (fun k _ => b.bar cols k.data)
    (fun k => obsRows (({ stride := 4 * W, width := W, height := Hh } : Canvas).box m.obsBox) (2 + s.font.high s.obsText) k.x k.w (b.bar cols k.data) 0 5) cols (by
      intro k hk pix him
      have hk' := hc k hk
      obtain ⟨n, hn⟩ : ∃ n : Nat, k.w = n := ⟨k.w.toNat, by omega⟩
      obtain ⟨p, e, q⟩ := C63_obs (({ stride := 4 * W, width := W, height := Hh } : Canvas).box m.obsBox) W Hh pix vObs him (2 + s.font.high s.obsText) k.x n 5 (b.bar cols k.data)
        (by show 0 ≤ k.x ∧ k.x + n ≤ m.obsWidth; omega) (by show 0 ≤ 2 + s.font.high s.obsText ∧ 2 + s.font.high s.obsText + 5 ≤ m.obsHeight; omega)
      refine ⟨p, by rw [hn]; exact e, q.congr (fun px py _ _ => ?_)⟩
      rw [rect_bar]
      have ex : (({ stride := 4 * W, width := W, height := Hh } : Canvas).box m.obsBox).x = m.x := by show m.opts.padding + m.left.width = m.x; rw [h1, h13]
      have ey : (({ stride := 4 * W, width := W, height := Hh } : Canvas).box m.obsBox).y = o.padding := by show m.opts.padding = _; rw [h1]
      rw [ex, ey, hn]
      by_cases hb : m.x + k.x ≤ px ∧ (px : Int) < m.x + k.x + n ∧ m.y - 5 ≤ py ∧ (py : Int) < m.y
      · rw [if_pos hb, if_pos (by omega)]
      · rw [if_neg hb, if_neg (by omega)]) hd _ him0
  -- the label
  let x0 := if b.peak cols + s.font.wide s.obsText > m.obsWidth then m.obsWidth - s.font.wide s.obsText else b.peak cols
  obtain ⟨i2, q2'⟩ := hi W Hh (({ stride := 4 * W, width := W, height := Hh } : Canvas).box m.obsBox) x0 (-s.font.top s.obsText) (b.label cols) p1 vObs q1.1
  have q2 : Untouched W Hh (fun px py => Rh px py ∨ Rk px py ∨ Rb px py) p1 (b.ink (({ stride := 4 * W, width := W, height := Hh } : Canvas).box m.obsBox) x0 (-s.font.top s.obsText) (b.label cols) p1) := by
    refine ⟨i2, fun px py hx hy hR => q2' px py hx hy ?_⟩
    have ey : (({ stride := 4 * W, width := W, height := Hh } : Canvas).box m.obsBox).y = o.padding := by show m.opts.padding = _; rw [h1]
    rw [ey]
    rintro ⟨_, _, _, hbad⟩
    have : m.y - 5 ≤ py := by
      rcases hR with hR | hR | hR <;> simp only [Rh, Rk, Rb] at hR <;> omega
    omega
  have e2 : paintObs s b (({ stride := 4 * W, width := W, height := Hh } : Canvas).box m.obsBox) m.obsWidth cols (List.replicate (4 * W * Hh) 255) =
      some (b.ink (({ stride := 4 * W, width := W, height := Hh } : Canvas).box m.obsBox) x0 (-s.font.top s.obsText) (b.label cols) p1) := by
    unfold paintObs
    rw [e1]
  -- the left axis
  have pxok : ∀ oA : AxisOpts P, 1 ≤ oA.length → PxOk s.px oA := fun oA hl l _ => hs.px oA.length l.pos hl
  obtain ⟨p3, e3, q3⟩ := paintMarks_keeps (R := fun px py => Rh px py ∨ Rk px py ∨ Rb px py) hi vLeft (m.left.draw s.font s.px)
    (by rw [eL]; have := C73_inside s.font s.px oL (pxok oL (by omega)) hs.high; exact (by show ∀ k ∈ _, Mark.InCanvas m.left.width m.left.height k; rw [eL]; exact this))
    (by
      intro px py hR
      have ex : (({ stride := 4 * W, width := W, height := Hh } : Canvas).box m.leftBox).x = o.padding := by show m.opts.padding = _; rw [h1]
      have ew : (({ stride := 4 * W, width := W, height := Hh } : Canvas).box m.leftBox).width = m.left.width := rfl
      rw [ex, ew]
      rcases hR with hR | hR | hR <;> simp only [Rh, Rk, Rb] at hR <;> omega)
    (by
      intro x y t hm px py hR
      have hx := (axis_texts s.font s.px m.left x y t hm).1 (by rw [eL, axis_opts]; exact vL)
      rw [if_pos (by rw [eL, axis_opts]; exact fL)] at hx
      have ex : (({ stride := 4 * W, width := W, height := Hh } : Canvas).box m.leftBox).x = o.padding := by show m.opts.padding = _; rw [h1]
      rw [ex]
      have := hright t
      rcases hR with hR | hR | hR <;> simp only [Rh, Rk, Rb] at hR <;> omega)
    _ q2.1
  -- the heatmap
  have hx' : (({ stride := 4 * W, width := W, height := Hh } : Canvas).box m.heatBox).x = m.x := by show m.opts.padding + m.left.width = m.x; rw [h1, h13]
  have hy' : (({ stride := 4 * W, width := W, height := Hh } : Canvas).box m.heatBox).y = m.y := by show m.opts.padding + m.obsHeight = m.y; rw [h1, h14]
  have hht : (({ stride := 4 * W, width := W, height := Hh } : Canvas).box m.heatBox).height = m.height := rfl
  obtain ⟨p4, e4, q4⟩ := paintCols_painted (W := W) (H := Hh) m.x (fun py => m.y ≤ py ∧ (py : Int) < m.y + m.height) (fun k py => (b.heat k.data m.height (m.y + m.height - 1 - py).toNat).getD black)
    (paintColumn b (({ stride := 4 * W, width := W, height := Hh } : Canvas).box m.heatBox)) cols (by
      intro k hk pix him
      obtain ⟨p, e, q⟩ := paintColumn_painted (b := b) vHeat k (hc k hk) (hheat k hk) pix him
      rw [hx', hy', hht] at q
      exact ⟨p, e, q⟩) hd p3 q3.1
  -- the key
  have hkx : (({ stride := 4 * W, width := W, height := Hh } : Canvas).box m.keyBox).x = m.x + m.width + 5 := by show m.opts.padding + m.left.width + m.width + 5 = _; rw [h1, h13]
  have hky : (({ stride := 4 * W, width := W, height := Hh } : Canvas).box m.keyBox).y = m.y := by show m.opts.padding + m.obsHeight = m.y; rw [h1, h14]
  have hkh : (({ stride := 4 * W, width := W, height := Hh } : Canvas).box m.keyBox).height = m.height := rfl
  obtain ⟨p5, e5', q5⟩ := C63_key (({ stride := 4 * W, width := W, height := Hh } : Canvas).box m.keyBox) W Hh p4 vKey q4.1 10 m.height.toNat (fun y => (b.key m.height y).getD black)
    (by show (10 : Int) ≤ 10; omega) (by rw [hkh]; omega)
  have e5 : paintKey b (({ stride := 4 * W, width := W, height := Hh } : Canvas).box m.keyBox) p4 = some p5 := by
    unfold paintKey
    rw [hkh, if_pos (all_range hkey)]
    exact e5'
  -- the right axis
  obtain ⟨p6, e6, q6⟩ := paintMarks_keeps (R := fun px py => Rh px py ∨ Rk px py ∨ Rb px py) hi vRight (r.draw s.font s.px)
    (by have := C73_inside s.font s.px oR (pxok oR (by omega)) hs.high; exact (by show ∀ k ∈ _, Mark.InCanvas r.width r.height k; rw [eR]; exact this))
    (by
      intro px py hR
      have ex : (({ stride := 4 * W, width := W, height := Hh } : Canvas).box (m.rightBox r)).x = m.x + m.width + 15 := by
        show m.opts.padding + m.left.width + m.width + 5 + 10 = _; rw [h1, h13]; omega
      rw [ex]
      rcases hR with hR | hR | hR <;> simp only [Rh, Rk, Rb] at hR <;> omega)
    (by
      intro x y t hm px py hR
      have hx := (axis_texts s.font s.px r x y t hm).1 (by rw [eR, axis_opts]; exact vR)
      rw [if_neg (by rw [eR, axis_opts, fR]; simp)] at hx
      have ex : (({ stride := 4 * W, width := W, height := Hh } : Canvas).box (m.rightBox r)).x = m.x + m.width + 15 := by
        show m.opts.padding + m.left.width + m.width + 5 + 10 = _; rw [h1, h13]; omega
      rw [ex]
      rcases hR with hR | hR | hR <;> simp only [Rh, Rk, Rb] at hR <;> omega)
    _ q5.1
  -- the bottom axis
  have hby : (({ stride := 4 * W, width := W, height := Hh } : Canvas).box m.bottomBox).y = m.y + m.height := by show m.height + m.obsHeight + m.opts.padding = _; rw [h1, h14]; omega
  obtain ⟨p7, e7, q7⟩ := paintMarks_keeps (R := fun px py => Rh px py ∨ Rk px py ∨ Rb px py) hi vBot (m.bottom.draw s.font s.px)
    (by have := C73_inside s.font s.px oB (pxok oB (by omega)) hs.high; exact (by show ∀ k ∈ _, Mark.InCanvas m.bottom.width m.bottom.height k; rw [eB]; exact this))
    (by
      intro px py hR
      rw [hby]
      rcases hR with hR | hR | hR <;> simp only [Rh, Rk, Rb] at hR <;> omega)
    (by
      intro x y t hm px py hR
      have hy := (axis_texts s.font s.px m.bottom x y t hm).2 (by rw [eB, axis_opts]; exact vB)
      rw [hby]
      rcases hR with hR | hR | hR <;> simp only [Rh, Rk, Rb] at hR <;> omega)
    _ q6.1
  refine ⟨{ stride := 4 * W, width := W, height := Hh }, p7, ?_, hW, hH, q7.1, ?_, ?_, ?_⟩
  · unfold drawGraph
    rw [h1, hnew]
    dsimp only
    rw [e2]
    dsimp only
    rw [e3]
    dsimp only
    unfold paintRight
    rw [er]
    dsimp only
    rw [e4]
    dsimp only
    rw [e5]
    dsimp only
    rw [e6]
    dsimp only
    rw [e7]
  · intro x y hx hy
    show pixel p7 W _ _ = _
    have bx : (m.x + x).toNat < W := by omega
    have by' : (m.y + y).toNat < Hh := by omega
    have hRh : Rh (m.x + x).toNat (m.y + y).toNat := by simp only [Rh]; omega
    rw [q7.2 _ _ bx by' (.inl hRh), q6.2 _ _ bx by' (.inl hRh), q5.2 _ _ bx by', q4.2 _ _ bx by', q3.2 _ _ bx by' (.inl hRh), q2.2 _ _ bx by' (.inl hRh), q1.2 _ _ bx by', pixel_white bx by']
    have e5n : rect (({ stride := 4 * W, width := W, height := Hh } : Canvas).box m.keyBox) 0 (10 : Nat) 0 0 m.height.toNat (fun y => (b.key m.height y).getD black) (m.x + x).toNat (m.y + y).toNat = none := by
      unfold rect
      rw [hkx, if_neg (by omega)]
    rw [e5n]
    dsimp only
    rw [if_pos (by omega), if_neg (by omega)]
    rw [show (((m.x + x).toNat : Nat) : Int) - m.x = x by omega, show (m.y + m.height - 1 - ((m.y + y).toNat : Nat)).toNat = (m.height - 1 - y).toNat by omega]
    cases hcol : columnAt cols x with
    | none => rfl
    | some k =>
      have hk : k ∈ cols := List.mem_of_find?_eq_some hcol
      have := hheat k hk (m.height - 1 - y).toNat (by omega)
      obtain ⟨z, hz⟩ := Option.isSome_iff_exists.mp this
      simp only [Option.map_some, Option.bind_some, hz, Option.getD_some, Option.map_none, Option.none_or, Option.some_or]
  · intro x y hx hy
    show pixel p7 W _ _ = _
    have bx : (m.x + m.width + 5 + x).toNat < W := by omega
    have by' : (m.y + y).toNat < Hh := by omega
    have hRk : Rk (m.x + m.width + 5 + x).toNat (m.y + y).toNat := by simp only [Rk]; omega
    rw [q7.2 _ _ bx by' (.inr (.inl hRk)), q6.2 _ _ bx by' (.inr (.inl hRk)), q5.2 _ _ bx by']
    have e5n : rect (({ stride := 4 * W, width := W, height := Hh } : Canvas).box m.keyBox) 0 (10 : Nat) 0 0 m.height.toNat (fun y => (b.key m.height y).getD black) (m.x + m.width + 5 + x).toNat (m.y + y).toNat =
        some ((b.key m.height y).getD black) := by
      unfold rect
      rw [hkx, hky, if_pos (by omega), show ((((m.y + y).toNat : Nat) : Int) - (m.y + 0)).toNat = y by omega]
    rw [e5n]
    obtain ⟨z, hz⟩ := Option.isSome_iff_exists.mp (hkey y (by omega))
    simp [hz]
  · intro x y hx hy
    show pixel p7 W _ _ = _
    have bx : (m.x + x).toNat < W := by omega
    have by' : (m.y - 5 + y).toNat < Hh := by omega
    have hRb : Rb (m.x + x).toNat (m.y - 5 + y).toNat := by simp only [Rb]; omega
    rw [q7.2 _ _ bx by' (.inr (.inr hRb)), q6.2 _ _ bx by' (.inr (.inr hRb)), q5.2 _ _ bx by', q4.2 _ _ bx by', q3.2 _ _ bx by' (.inr (.inr hRb)), q2.2 _ _ bx by' (.inr (.inr hRb)), q1.2 _ _ bx by', pixel_white bx by']
    have e5n : rect (({ stride := 4 * W, width := W, height := Hh } : Canvas).box m.keyBox) 0 (10 : Nat) 0 0 m.height.toNat (fun y => (b.key m.height y).getD black) (m.x + x).toNat (m.y - 5 + y).toNat = none := by
      unfold rect
      rw [hkx, if_neg (by omega)]
    rw [e5n]
    dsimp only
    rw [if_neg (by omega), if_pos (by omega), show (((m.x + x).toNat : Nat) : Int) - m.x = x by omega]
    cases hcol : columnAt cols x <;> rfl

/-- A graph with a single row cannot be drawn if the colour of a single row cannot be found: the code divides by `height - 1`, and the index of the colour is then not a number. -/
theorem C76_one_row {α P : Type} (s : Style P) (b : Brush α) (m : GraphM P) (cols : List (Col α)) (h1 : m.height = 1) (hk : b.key 1 0 = none) (r : AxisM P) (hr : m.right = some r) : drawGraph s b m cols = none := by
  unfold drawGraph
  split
  · rfl
  · split
    · rfl
    · split
      · rfl
      · rename_i c pix _ _ pix1 _ _ pix2 _
        have : paintRight s b m c cols pix2 = none := by
          unfold paintRight
          rw [hr]
          dsimp only
          split
          · rfl
          · rename_i pix3 _
            have : paintKey b (c.box m.keyBox) pix3 = none := by
              unfold paintKey
              have hh : (c.box m.keyBox).height = 1 := h1
              rw [hh, if_neg]
              show ¬ ([0].all _ = true)
              simp [hk]
            rw [this]
        rw [this]

/-! ## Example -/

/-- Texts are not drawn; the colours tell the row. -/
def exBrush : Brush Nat where
  ink _ _ _ _ pix := pix
  heat d h y := if 2 ≤ h then some ⟨UInt8.ofNat d, UInt8.ofNat y, 0⟩ else none
  key h y := if 2 ≤ h then some ⟨0, UInt8.ofNat y, 1⟩ else none
  bar _ d := ⟨UInt8.ofNat d, 0, 9⟩
  peak _ := 0
  label _ := [111]

theorem exBrush_ink : InkOk iosevka exBrush := fun _ _ _ _ _ _ _ _ him => ⟨him, fun _ _ _ _ _ => rfl⟩

/-- A graph of two hours of 100 by 53 pixels, padding 1. -/
def exSmall : GraphOpts := { earliest := true, now := 1500000000000000000, duration := 7200000000000, width := 100, height := 53, padding := 1 }

/-- What a measured graph is drawn as. -/
def drawTried (cols : List (Col Nat)) : Tried (Int × Int) → Option (Canvas × Bytes)
  | .ok m => drawGraph exStyle exBrush m cols
  | _ => none

/-- A pixel of the picture. -/
def pixelOf (x y : Nat) : Option (Canvas × Bytes) → Option (Color × UInt8)
  | some (c, pix) => pixel pix c.width.toNat x y
  | none => none

/-- Two columns in a heatmap of 11 by 3 pixels. -/
def exCols : List (Col Nat) := [⟨4, 2, 7⟩, ⟨1, 2, 5⟩]

set_option maxRecDepth 100000 in
/-- The hypotheses of `C76_picture` are met: a heatmap of 11 by 3 pixels at (38, 22). -/
theorem C76_example_hyps : (triedSizes (graphMeasure exStyle exSmall) = some (38, 22, 11, 3)) ∧ (∀ t, exStyle.font.right t ≤ exStyle.font.wide t + 13) ∧
    (∀ k ∈ exCols, 0 ≤ k.x ∧ 0 ≤ k.w ∧ k.x + k.w ≤ 11) ∧ exCols.Pairwise (fun a b => b.x + b.w ≤ a.x) ∧ (∀ k ∈ exCols, ∀ y, y < 3 → (exBrush.heat k.data 3 y).isSome) ∧
    (∀ y, y < 3 → (exBrush.key 3 y).isSome) ∧ exStyle.font.top (exBrush.label exCols) + exStyle.font.high (exBrush.label exCols) ≤ exStyle.font.top exStyle.obsText + exStyle.font.high exStyle.obsText + 1 := by
  refine ⟨by decide +kernel, fun t => ?_, by decide, by decide, fun _ _ _ _ => rfl, fun _ _ => rfl, by decide⟩
  show 6 * (t.length : Int) ≤ 6 * t.length + 13
  omega

/-- And some pixels of its picture: two of the first column at the bottom and top, one between the columns, one of the second column, one of the key, two of the bars. -/
theorem C76_example : ∃ m c pix, graphMeasure exStyle exSmall = .ok m ∧ drawGraph exStyle exBrush m exCols = some (c, pix) ∧ c.width = 102 ∧
    [pixel pix 102 39 24, pixel pix 102 40 22, pixel pix 102 41 23, pixel pix 102 43 24, pixel pix 102 54 23, pixel pix 102 39 17, pixel pix 102 38 21] =
      [some (⟨5, 0, 0⟩, 255), some (⟨5, 2, 0⟩, 255), some (white, 255), some (⟨7, 0, 0⟩, 255), some (⟨0, 1, 1⟩, 255), some (⟨5, 0, 9⟩, 255), some (white, 255)] := by
  obtain ⟨h1, h2, h3, h4, h5, h6, h7⟩ := C76_example_hyps
  cases h : graphMeasure exStyle exSmall with
  | panic => rw [h] at h1; cases h1
  | small => rw [h] at h1; cases h1
  | ok m =>
    rw [h] at h1
    have h1 : some (m.x, m.y, m.width, m.height) = some (38, 22, 11, 3) := h1
    obtain ⟨mx, my, mw, mh⟩ : m.x = 38 ∧ m.y = 22 ∧ m.width = 11 ∧ m.height = 3 := by
      injection h1 with h1; injection h1 with a h1; injection h1 with b h1; injection h1 with c d; exact ⟨a, b, c, d⟩
    obtain ⟨c, pix, hd, hw, _, _, ha, hk, hb⟩ := C76_picture exStyle_ok exBrush exBrush_ink h2 h (by omega) (by omega) (by decide) rfl exCols (by rw [mw]; exact h3) h4
      (by rw [mh]; exact h5) (by rw [mh]; exact h6) h7
    have hw : c.width = 102 := hw
    refine ⟨m, c, pix, rfl, hd, hw, ?_⟩
    have e : c.width.toNat = 102 := by rw [hw]; rfl
    rw [e, mx, my, mw, mh] at ha hk
    rw [e, mx, my, mw] at hb
    have a1 := ha 1 2 (by decide) (by decide)
    have a2 := ha 2 0 (by decide) (by decide)
    have a3 := ha 3 1 (by decide) (by decide)
    have a4 := ha 5 2 (by decide) (by decide)
    have k1 := hk 0 1 (by decide) (by decide)
    have b1 := hb 1 0 (by decide) (by decide)
    have b2 := hb 0 4 (by decide) (by decide)
    refine List.cons_eq_cons.mpr ⟨a1, List.cons_eq_cons.mpr ⟨a2, List.cons_eq_cons.mpr ⟨a3, List.cons_eq_cons.mpr ⟨a4, List.cons_eq_cons.mpr ⟨k1, List.cons_eq_cons.mpr ⟨b1, List.cons_eq_cons.mpr ⟨b2, rfl⟩⟩⟩⟩⟩⟩⟩

set_option maxRecDepth 100000 in
/-- With the real font, a graph 51 pixels high has a heatmap of a single row: it cannot be drawn (C76 is about graphs whose colours can be found). -/
theorem C76_crash_refuted : (triedSizes (graphMeasure exStyle { exSmall with height := 51 })).map (fun t => t.2.2.2) = some 1 ∧ drawTried exCols (graphMeasure exStyle { exSmall with height := 51 }) = none := by
  refine ⟨by decide +kernel, ?_⟩
  cases h : graphMeasure exStyle { exSmall with height := 51 } with
  | panic => rfl
  | small => rfl
  | ok m =>
    have h1 : triedSizes (graphMeasure exStyle { exSmall with height := 51 }) = some (38, 22, 11, 1) := by decide +kernel
    rw [h] at h1
    have h1 : some (m.x, m.y, m.width, m.height) = some (38, 22, 11, 1) := h1
    obtain ⟨guess, ht⟩ := graphMeasure_try h
    obtain ⟨r, er⟩ := Option.isSome_iff_exists.mp ((tryMeasure_ok exStyle_ok ht).2.2.2.2.2.2.2.1.mp rfl)
    exact C76_one_row exStyle exBrush m exCols (by injection h1 with h1; injection h1 with _ h1; injection h1 with _ h1; injection h1) rfl r er

end Rothko
