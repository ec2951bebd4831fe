import Verif.Props.Canvas
/-! # C63: a column on a canvas that is not an `RGB` -/
namespace Rothko

/-- **C63** (other canvases). There a column - also one that is too wide or beside the view - is cut off at the right edge of the view, and exactly what is left of it is painted: with the row `y` from the top in the colour for `y`, not from the bottom. -/
theorem C63_generic (m : Canvas) (W H : Nat) (pix : Bytes) (v : ViewIn m W H) (hi : IsImage pix W H) (colX : Int) (colW : Nat) (color : Nat → Color) (hx : 0 ≤ colX) :
    ∃ pix', heatRowsGeneric m colX colW color 0 m.height.toNat pix = some pix' ∧
      Painted W H pix pix' (fun px py => if m.x + colX ≤ px ∧ (px : Int) < m.x + colX + colW ∧ (px : Int) < m.x + m.width ∧ m.y ≤ py ∧ (py : Int) < m.y + m.height
        then some (color ((py : Int) - m.y).toNat) else none) := by
  have gen : ∀ (n y : Nat) (pix : Bytes), IsImage pix W H → y + n ≤ m.height → ∃ pix', heatRowsGeneric m colX colW color y n pix = some pix' ∧
      Painted W H pix pix' (fun px py => if m.x + colX ≤ px ∧ (px : Int) < m.x + colX + colW ∧ (px : Int) < m.x + m.width ∧ m.y + y ≤ py ∧ (py : Int) < m.y + y + n
        then some (color ((py : Int) - m.y).toNat) else none) := by
    intro n
    induction n with
    | zero => intro y pix hi _; exact ⟨pix, rfl, (Painted.refl hi).congr (fun px py _ _ => by rw [if_neg (by omega)])⟩
    | succ n ih =>
      intro y pix hi hy
      have row : ∃ p1, setRow m y (color y) colX (min (colX + colW) m.width - colX).toNat pix = some p1 ∧
          Painted W H pix p1 (fun px py => if (py : Int) = m.y + y ∧ m.x + colX ≤ px ∧ (px : Int) < m.x + colX + colW ∧ (px : Int) < m.x + m.width then some (color y) else none) := by
        by_cases hw : colX < m.width
        · obtain ⟨p1, e1, h1⟩ := setRow_painted (c := color y) v (y := y) (by omega) (min (colX + colW) m.width - colX).toNat colX pix hi (by omega)
          refine ⟨p1, e1, h1.congr fun px py _ _ => ?_⟩
          by_cases hc : (py : Int) = m.y + y ∧ m.x + colX ≤ px ∧ (px : Int) < m.x + colX + colW ∧ (px : Int) < m.x + m.width
          · rw [if_pos hc, if_pos (by omega)]
          · rw [if_neg hc, if_neg (by omega)]
        · have : (min (colX + colW) m.width - colX).toNat = 0 := by omega
          rw [this]
          exact ⟨pix, rfl, (Painted.refl hi).congr (fun px py _ _ => by rw [if_neg (by omega)])⟩
      obtain ⟨p1, e1, h1⟩ := row
      obtain ⟨p2, e2, h2⟩ := ih (y + 1) p1 h1.1 (by omega)
      refine ⟨p2, by simp only [heatRowsGeneric, e1, e2], (h1.trans h2).congr ?_⟩
      intro px py _ _
      by_cases hxx : m.x + colX ≤ px ∧ (px : Int) < m.x + colX + colW ∧ (px : Int) < m.x + m.width
      · by_cases hc : (py : Int) = m.y + y
        · rw [if_neg (by omega), if_pos (by omega), if_pos (by omega)]
          have : ((py : Int) - m.y).toNat = y := by omega
          rw [this]; rfl
        · by_cases hd : m.y + (y + 1 : Nat) ≤ py ∧ (py : Int) < m.y + (y + 1 : Nat) + n
          · rw [if_pos (by omega), if_neg (by omega), if_pos (by omega)]; rfl
          · rw [if_neg (by omega), if_neg (by omega), if_neg (by omega)]; rfl
      · rw [if_neg (by omega), if_neg (by omega), if_neg (by omega)]; rfl
  have hh := v
  by_cases h0 : 0 ≤ m.height
  · obtain ⟨p, e, h⟩ := gen m.height.toNat 0 pix hi (by omega)
    refine ⟨p, e, h.congr fun px py _ _ => ?_⟩
    by_cases hc : m.x + colX ≤ px ∧ (px : Int) < m.x + colX + colW ∧ (px : Int) < m.x + m.width ∧ m.y ≤ py ∧ (py : Int) < m.y + m.height
    · rw [if_pos (by omega), if_pos hc]
    · rw [if_neg (by omega), if_neg hc]
  · have : m.height.toNat = 0 := by omega
    rw [this]
    exact ⟨pix, rfl, (Painted.refl hi).congr (fun px py _ _ => by rw [if_neg (by omega)])⟩

/-- A column of width 2 on a view of width 1: only the view is painted, the first row on top. -/
theorem C63_generic_example :
    ViewIn { stride := 8, width := 1, height := 2 } 2 2 ∧ IsImage (List.replicate 16 255) 2 2 ∧
    ∃ pix', heatRowsGeneric { stride := 8, width := 1, height := 2 } 0 2 (fun y => if y = 0 then ⟨1, 1, 1⟩ else ⟨2, 2, 2⟩) 0 2 (List.replicate 16 255) = some pix' ∧
      pixel pix' 2 0 0 = some (⟨1, 1, 1⟩, 255) ∧ pixel pix' 2 0 1 = some (⟨2, 2, 2⟩, 255) ∧ pixel pix' 2 1 0 = some (⟨255, 255, 255⟩, 255) :=
  ⟨⟨by decide, by decide, by decide, by decide⟩, rfl, _, rfl, by decide, by decide, by decide⟩

end Rothko
