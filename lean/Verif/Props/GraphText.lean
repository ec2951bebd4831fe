import Verif.Props.Glyph
import Verif.Props.Ticks
/-!
# C95: the texts of a graph can be read from its picture
-/
namespace Rothko

/-! ## Specification -/

/-- The pixels of a text of `n` characters: from `(ox, oy + lo)` on, above `oy + hi`. -/
def TextRect (ox oy : Int) (lo hi n : Nat) (px py : Nat) : Prop := ox ≤ px ∧ (px : Int) < ox + 6 * n ∧ oy + lo ≤ py ∧ (py : Int) < oy + hi

/-- The texts are one below the other. -/
def Below (l : List (Int × Int × Bytes)) : Prop := l.Pairwise (fun a b => a.2.1 + 14 ≤ b.2.1)

/-- The texts are side by side. -/
def Beside (l : List (Int × Int × Bytes)) : Prop := l.Pairwise (fun a b => a.1 + 6 * (a.2.2.length : Int) ≤ b.1)

/-! ## Proof -/

theorem Seen.keep {W H : Nat} {R : Nat → Nat → Prop} {a b : Bytes} {ox oy : Int} {lo hi : Nat} {t : Bytes} (h : Seen a W ox oy lo hi t) (hx : 0 ≤ ox ∧ ox + 6 * t.length ≤ W) (hy : 0 ≤ oy ∧ oy + hi ≤ H)
    (hR : ∀ px py, TextRect ox oy lo hi t.length px py → R px py) (hu : Untouched W H R a b) : Seen b W ox oy lo hi t := by
  intro i c hc k h1 h2
  have hil : i < t.length := (List.getElem?_eq_some_iff.mp hc).1
  rw [hu.2 _ _ (by omega) (by omega) (hR _ _ (by unfold TextRect; omega))]
  exact h i c hc k h1 h2

theorem marks_append {α : Type} (b : Brush α) (c : Canvas) (l1 l2 : List Mark) (pix : Bytes) : paintMarks b c (l1 ++ l2) pix = (paintMarks b c l1 pix).bind (paintMarks b c l2) := by
  induction l1 generalizing pix with
  | nil => rfl
  | cons k ks ih =>
    rw [List.cons_append]
    rw [paintMarks, paintMarks]
    cases k.paint b c pix with
    | none => rfl
    | some p => exact ih p

/-- Marks change only their own pixels. -/
theorem marks_keep {α : Type} {b : Brush α} (hink : b.ink = inkText) {W H : Nat} {R : Nat → Nat → Prop} {c : Canvas} (v : ViewIn c W H) (marks : List Mark)
    (hin : ∀ k ∈ marks, k.InCanvas c.width c.height)
    (hdot : ∀ x y, Mark.dot x y ∈ marks → ∀ px py : Nat, R px py → ¬ ((px : Int) = c.x + x ∧ (py : Int) = c.y + y))
    (ht : ∀ x y t, Mark.text x y t ∈ marks → ∀ px py : Nat, R px py → ¬ (c.x + x ≤ px ∧ (px : Int) < c.x + x + 6 * t.length ∧ c.y + y - 11 ≤ py ∧ (py : Int) < c.y + y + 3 ∧ (px : Int) < c.x + c.width ∧ (py : Int) < c.y + c.height))
    (pix : Bytes) (him : IsImage pix W H) : ∃ pix', paintMarks b c marks pix = some pix' ∧ Untouched W H R pix pix' := by
  induction marks generalizing pix with
  | nil => exact ⟨pix, rfl, .refl him⟩
  | cons k ks ih =>
    have hk := hin k List.mem_cons_self
    have one : ∃ pix1, k.paint b c pix = some pix1 ∧ Untouched W H R pix pix1 := by
      cases k with
      | dot x y =>
        obtain ⟨p1, e1, q1⟩ := set_painted v him black (x := x) (y := y) ⟨hk.1, hk.2.1⟩ ⟨hk.2.2.1, hk.2.2.2⟩
        exact ⟨p1, e1, q1.keeps (fun px py _ _ hR => if_neg (hdot x y List.mem_cons_self px py hR))⟩
      | text x y t =>
        obtain ⟨q1, q2⟩ := inkGlyphs_spec v y (textGlyphs t) x pix him
        refine ⟨inkText c x y t pix, by unfold Mark.paint; rw [hink], q1, fun px py hx hy hR => (q2 px py hx hy).2 ?_⟩
        have := ht x y t List.mem_cons_self px py hR
        have := textGlyphs_length t
        omega
    obtain ⟨p1, e1, q1⟩ := one
    obtain ⟨p2, e2, q2⟩ := ih (fun k' h' => hin k' (List.mem_cons_of_mem _ h')) (fun x y h' => hdot x y (List.mem_cons_of_mem _ h')) (fun x y t h' => ht x y t (List.mem_cons_of_mem _ h')) p1 q1.1
    refine ⟨p2, ?_, q1.trans q2⟩
    unfold paintMarks
    rw [e1]
    exact e2

/-- A text among marks that leave its pixels alone is seen. -/
theorem marks_seen {α : Type} {b : Brush α} (hink : b.ink = inkText) {W H : Nat} {c : Canvas} (v : ViewIn c W H) (pre post : List Mark) (x y : Int) (t : Bytes) (lo hi : Nat) (hhi : hi ≤ 14)
    (hp : ∀ a ∈ t, Printable a) (hin : ∀ k ∈ pre ++ post, k.InCanvas c.width c.height)
    (hdot : ∀ x' y', Mark.dot x' y' ∈ pre ++ post → ∀ px py : Nat, TextRect (c.x + x) (c.y + y - 11) lo hi t.length px py → ¬ ((px : Int) = c.x + x' ∧ (py : Int) = c.y + y'))
    (ht : ∀ x' y' t', Mark.text x' y' t' ∈ pre ++ post → ∀ px py : Nat, TextRect (c.x + x) (c.y + y - 11) lo hi t.length px py → ¬ (c.x + x' ≤ px ∧ (px : Int) < c.x + x' + 6 * t'.length ∧ c.y + y' - 11 ≤ py ∧ (py : Int) < c.y + y' + 3))
    (hx : 0 ≤ c.x + x ∧ x + 6 * t.length ≤ c.width) (hy : 0 ≤ c.y + y - 11 ∧ y - 11 + hi ≤ c.height)
    (pix : Bytes) (him : IsImage pix W H) (hw : ∀ px py : Nat, TextRect (c.x + x) (c.y + y - 11) lo hi t.length px py → pixel pix W px py = some (white, 255))
    {pix' : Bytes} (hpaint : paintMarks b c (pre ++ .text x y t :: post) pix = some pix') : Seen pix' W (c.x + x) (c.y + y - 11) lo hi t := by
  have vx := v.x
  have vy := v.y
  obtain ⟨p1, e1, q1⟩ := marks_keep hink v pre (fun k hk => hin k (by simp [hk])) (R := TextRect (c.x + x) (c.y + y - 11) lo hi t.length) (fun x' y' h' => hdot x' y' (by simp [h']))
    (fun x' y' t' h' px py hR hbad => ht x' y' t' (by simp [h']) px py hR ⟨hbad.1, hbad.2.1, hbad.2.2.1, hbad.2.2.2.1⟩) pix him
  have him2 := (inkGlyphs_spec v y (textGlyphs t) x p1 q1.1).1
  obtain ⟨p3, e3, q3⟩ := marks_keep hink v post (fun k hk => hin k (by simp [hk])) (R := TextRect (c.x + x) (c.y + y - 11) lo hi t.length) (fun x' y' h' => hdot x' y' (by simp [h']))
    (fun x' y' t' h' px py hR hbad => ht x' y' t' (by simp [h']) px py hR ⟨hbad.1, hbad.2.1, hbad.2.2.1, hbad.2.2.2.1⟩) _ him2
  have e : paintMarks b c (pre ++ .text x y t :: post) pix = some p3 := by
    rw [marks_append, e1, Option.bind_some]
    unfold paintMarks Mark.paint
    dsimp only
    rw [hink]
    exact e3
  rw [e] at hpaint
  injection hpaint with hpaint
  subst hpaint
  have s1 : Seen (inkText c x y t p1) W (c.x + x) (c.y + y - 11) lo hi t := C95_seen v q1.1 t hp x y lo hi hhi hx hy (by
    intro px py a1 a2 a3 a4
    have hR : TextRect (c.x + x) (c.y + y - 11) lo hi t.length px py := ⟨a1, a2, a3, a4⟩
    rw [q1.2 px py (by omega) (by omega) hR]
    exact hw px py hR)
  exact s1.keep (by omega) (by omega) (fun _ _ h => h) q3

theorem textsOf_mem {marks : List Mark} {x y : Int} {t : Bytes} : (x, y, t) ∈ textsOf marks ↔ Mark.text x y t ∈ marks := by
  induction marks with
  | nil => simp [textsOf]
  | cons k ks ih =>
    cases k with
    | dot a b => simp [textsOf, ih]
    | text a b c => simp [textsOf, ih]

/-- A relation between the texts, in the order they are drawn. -/
theorem pairwise_split {r : Int × Int × Bytes → Int × Int × Bytes → Prop} {pre post : List Mark} {x y : Int} {t : Bytes} (h : (textsOf (pre ++ .text x y t :: post)).Pairwise r) :
    ∀ x' y' t', Mark.text x' y' t' ∈ pre ++ post → r (x', y', t') (x, y, t) ∨ r (x, y, t) (x', y', t') := by
  rw [textsOf_append, show textsOf (.text x y t :: post) = (x, y, t) :: textsOf post from rfl] at h
  intro x' y' t' hm
  obtain ⟨_, h2, h3⟩ := List.pairwise_append.mp h
  rcases List.mem_append.mp hm with hm | hm
  · exact .inl (h3 _ (textsOf_mem.mpr hm) _ (by simp))
  · exact .inr ((List.pairwise_cons.mp h2).1 _ (textsOf_mem.mpr hm))

/-- Where the dots of an axis are. -/
theorem axis_dots {P : Type} (f : Font) (px : Int → P → Int) (m : AxisM P) (x y : Int) (h : Mark.dot x y ∈ m.draw f px) :
    (m.opts.vertical = true → ∃ j : Int, 0 ≤ j ∧ j ≤ 10 ∧ x = maybeFlip m j) ∧ (m.opts.vertical = false → y ≤ 13) := by
  unfold AxisM.draw at h
  by_cases hv : m.opts.vertical
  · rw [if_pos hv] at h
    refine ⟨fun _ => ?_, fun e => by rw [hv] at e; cases e⟩
    rcases List.mem_append.mp h with h | h
    · obtain ⟨_, _, e⟩ := List.mem_map.mp h
      injection e with e1 e2
      exact ⟨0, by omega, by omega, e1.symm⟩
    · have tick : ∀ y', Mark.dot x y ∈ (List.range 10).map (fun (z : Nat) => Mark.dot (maybeFlip m (1 + z)) y') → ∃ j : Int, 0 ≤ j ∧ j ≤ 10 ∧ x = maybeFlip m j := by
        intro y' h
        obtain ⟨z, hz, e⟩ := List.mem_map.mp h
        injection e with e1 e2
        rw [List.mem_range] at hz
        exact ⟨1 + z, by omega, by omega, e1.symm⟩
      have key : ∀ (ls : List (Label P)) (occ : Int), Mark.dot x y ∈ drawVLoop f px m ls occ → ∃ j : Int, 0 ≤ j ∧ j ≤ 10 ∧ x = maybeFlip m j := by
        intro ls
        induction ls with
        | nil => intro _ h; cases h
        | cons l ls ih =>
          intro occ h
          unfold drawVLoop at h
          dsimp only at h
          split at h
          · rcases List.mem_append.mp h with h | h
            · exact tick _ h
            · exact ih _ h
          · split at h
            · rcases List.mem_append.mp h with h | h
              · exact tick _ h
              · exact ih _ h
            · rcases List.mem_append.mp h with h | h
              · exact tick _ h
              · rcases List.mem_cons.mp h with h | h
                · cases h
                · exact ih _ h
      exact key _ _ h
  · rw [if_neg hv] at h
    refine ⟨fun e => absurd e hv, fun _ => ?_⟩
    rcases List.mem_append.mp h with h | h
    · obtain ⟨_, _, e⟩ := List.mem_map.mp h
      injection e with e1 e2
      omega
    · have tick : ∀ (x' : Int) (a n : Nat), a + n ≤ 14 → Mark.dot x y ∈ (List.range n).map (fun (z : Nat) => Mark.dot x' ((a : Int) + z)) → y ≤ 13 := by
        intro x' a n hn h
        obtain ⟨z, hz, e⟩ := List.mem_map.mp h
        injection e with e1 e2
        rw [List.mem_range] at hz
        omega
      have key : ∀ (ls : List (Label P)) (occ : Int), Mark.dot x y ∈ drawHLoop f px m ls occ → y ≤ 13 := by
        intro ls
        induction ls with
        | nil => intro _ h; cases h
        | cons l ls ih =>
          intro occ h
          unfold drawHLoop at h
          dsimp only at h
          split at h
          · rcases List.mem_append.mp h with h | h
            · exact tick _ 1 10 (by omega) h
            · exact ih _ h
          · rcases List.mem_append.mp h with h | h
            · rcases List.mem_append.mp h with h | h
              · exact tick _ 1 10 (by omega) h
              · exact tick _ 11 3 (by omega) h
            · rcases List.mem_cons.mp h with h | h
              · cases h
              · exact ih _ h
      exact key _ _ h

theorem vtext_mem {P : Type} (f : Font) (px : Int → P → Int) (m : AxisM P) (x y : Int) (t : Bytes) (ls : List (Label P)) (occ : Int) (h : Mark.text x y t ∈ drawVLoop f px m ls occ) :
    ∃ l ∈ ls, t = l.text ∧ y = px m.opts.length l.pos - f.top l.text ∧ ¬ (m.opts.dontBleed ∧ px m.opts.length l.pos - f.top l.text > m.opts.length) := by
  induction ls generalizing occ with
  | nil => cases h
  | cons l ls ih =>
    have dots : ∀ {β : Type} (l : List β) (g k : β → Int), Mark.text x y t ∉ l.map (fun z => Mark.dot (g z) (k z)) := by
      intro β l g k hm
      obtain ⟨_, _, e⟩ := List.mem_map.mp hm
      cases e
    have next : (∃ l' ∈ ls, t = l'.text ∧ y = px m.opts.length l'.pos - f.top l'.text ∧ ¬ (m.opts.dontBleed ∧ px m.opts.length l'.pos - f.top l'.text > m.opts.length)) →
        ∃ l' ∈ l :: ls, t = l'.text ∧ y = px m.opts.length l'.pos - f.top l'.text ∧ ¬ (m.opts.dontBleed ∧ px m.opts.length l'.pos - f.top l'.text > m.opts.length) :=
      fun ⟨l', h1, h2⟩ => ⟨l', by simp [h1], h2⟩
    unfold drawVLoop at h
    dsimp only at h
    split at h
    · rcases List.mem_append.mp h with h | h
      · exact absurd h (dots _ _ _)
      · exact next (ih _ h)
    · rename_i hb
      split at h
      · rcases List.mem_append.mp h with h | h
        · exact absurd h (dots _ _ _)
        · exact next (ih _ h)
      · rcases List.mem_append.mp h with h | h
        · exact absurd h (dots _ _ _)
        · rcases List.mem_cons.mp h with h | h
          · injection h with h1 h2 h3
            exact ⟨l, by simp, h3, h2, hb⟩
          · exact next (ih _ h)

theorem measV_mem {P : Type} (f : Font) (px : Int → P → Int) (o : AxisOpts P) (ls : List (Label P)) (mw mh : Int) (l : Label P) (hl : l ∈ ls) (hb : ¬ (o.dontBleed ∧ px o.length l.pos - f.top l.text > o.length)) :
    f.right l.text ≤ (measVLoop f px o ls mw mh).1 ∧ px o.length l.pos - f.top l.text ≤ (measVLoop f px o ls mw mh).2 := by
  induction ls generalizing mw mh with
  | nil => cases hl
  | cons k ks ih =>
    unfold measVLoop
    dsimp only
    rcases List.mem_cons.mp hl with e | e
    · subst e
      rw [if_neg hb]
      have := measV_le f px o ks (if f.right l.text > mw then f.right l.text else mw) (if px o.length l.pos - f.top l.text > mh then px o.length l.pos - f.top l.text else mh)
      refine ⟨Int.le_trans ?_ this.1, Int.le_trans ?_ this.2⟩
      · split <;> omega
      · split <;> omega
    · split
      · exact ih _ _ e
      · exact ih _ _ e

/-- Where the texts of a vertical axis are: from the row of a label on, 11 rows to the baseline, which is in the view. -/
theorem axis_rows {P : Type} (px : Int → P → Int) (o : AxisOpts P) (hv : o.vertical = true) (hp : PxOk px o) (x y : Int) (t : Bytes) (ht : t ≠ []) (h : Mark.text x y t ∈ (axisMeasure iosevka px o).draw iosevka px) :
    0 ≤ y - 11 ∧ y ≤ (axisMeasure iosevka px o).height ∧ y - 11 < o.length ∧ 6 * (t.length : Int) ≤ (axisMeasure iosevka px o).width - 13 := by
  unfold axisMeasure at *
  rw [if_pos hv] at *
  dsimp only at *
  unfold AxisM.draw at h
  dsimp only at h
  rw [if_pos hv] at h
  rcases List.mem_append.mp h with h | h
  · obtain ⟨_, _, e⟩ := List.mem_map.mp h
    cases e
  · obtain ⟨l, hl, e1, e2, hb⟩ := vtext_mem iosevka px _ x y t _ _ h
    dsimp only at e2 hb
    have hm := measV_mem iosevka px o o.labels 0 o.length l hl hb
    have := hp l hl
    subst e1
    have top : iosevka.top l.text = -11 := by unfold iosevka; exact if_neg ht
    have wide : iosevka.right l.text = 6 * (l.text.length : Int) := rfl
    omega

theorem htext_mem {P : Type} (f : Font) (px : Int → P → Int) (m : AxisM P) (x y : Int) (t : Bytes) (h : Mark.text x y t ∈ m.draw f px) : ∃ l ∈ m.opts.labels, t = l.text := by
  have dots : ∀ {β : Type} (l : List β) (g k : β → Int), Mark.text x y t ∉ l.map (fun z => Mark.dot (g z) (k z)) := by
    intro β l g k hm
    obtain ⟨_, _, e⟩ := List.mem_map.mp hm
    cases e
  unfold AxisM.draw at h
  split at h
  · rcases List.mem_append.mp h with h | h
    · exact absurd h (dots _ _ _)
    · obtain ⟨l, hl, e, _⟩ := vtext_mem f px m x y t _ _ h
      exact ⟨l, hl, e⟩
  · rcases List.mem_append.mp h with h | h
    · exact absurd h (dots _ _ _)
    · have key : ∀ (ls : List (Label P)) (occ : Int), Mark.text x y t ∈ drawHLoop f px m ls occ → ∃ l ∈ ls, t = l.text := by
        intro ls
        induction ls with
        | nil => intro _ h; cases h
        | cons l ls ih =>
          intro occ h
          have next : (∃ l' ∈ ls, t = l'.text) → ∃ l' ∈ l :: ls, t = l'.text := fun ⟨l', h1, h2⟩ => ⟨l', by simp [h1], h2⟩
          unfold drawHLoop at h
          dsimp only at h
          split at h
          · rcases List.mem_append.mp h with h | h
            · exact absurd h (dots _ _ _)
            · exact next (ih _ h)
          · rcases List.mem_append.mp h with h | h
            · rcases List.mem_append.mp h with h | h
              · exact absurd h (dots _ _ _)
              · exact absurd h (dots _ _ _)
            · rcases List.mem_cons.mp h with h | h
              · injection h with h1 h2 h3
                exact ⟨l, by simp, h3⟩
              · exact next (ih _ h)
      exact key _ _ h

/-- The texts of the axis on the left. -/
theorem left_texts {P : Type} {px : Int → P → Int} {m : AxisM P} {o : AxisOpts P} (e : m = axisMeasure iosevka px o) (hv : o.vertical = true) (hf : o.flip = true) (hp : PxOk px o) {x y : Int} {t : Bytes} (h : Mark.text x y t ∈ m.draw iosevka px) (hne : t ≠ []) :
    x = m.width - 13 - 6 * (t.length : Int) ∧ 0 ≤ y - 11 ∧ y ≤ m.height ∧ y - 11 < o.length ∧ 0 ≤ x := by
  have hx := (axis_texts iosevka px m x y t h).1 (by rw [e, axis_opts]; exact hv)
  rw [if_pos (by rw [e, axis_opts]; exact hf)] at hx
  have hx : x = m.width - 13 - 6 * (t.length : Int) := hx
  rw [e] at h
  have := axis_rows px o hv hp x y t hne h
  rw [← e] at this
  omega

/-- The texts of the axis on the right. -/
theorem right_texts {P : Type} {px : Int → P → Int} {m : AxisM P} {o : AxisOpts P} (e : m = axisMeasure iosevka px o) (hv : o.vertical = true) (hf : o.flip = false) (hp : PxOk px o) {x y : Int} {t : Bytes} (h : Mark.text x y t ∈ m.draw iosevka px) (hne : t ≠ []) :
    x = 13 ∧ 0 ≤ y - 11 ∧ y ≤ m.height ∧ y - 11 < o.length ∧ 6 * (t.length : Int) ≤ m.width - 13 := by
  have hx := (axis_texts iosevka px m x y t h).1 (by rw [e, axis_opts]; exact hv)
  rw [if_neg (by rw [e, axis_opts, hf]; simp)] at hx
  rw [e] at h
  have := axis_rows px o hv hp x y t hne h
  rw [← e] at this
  omega

/-- The texts of the axis of times. -/
theorem bottom_texts {P : Type} {px : Int → P → Int} {m : AxisM P} {o : AxisOpts P} (e : m = axisMeasure iosevka px o) (hv : o.vertical = false) {x y : Int} {t : Bytes} (h : Mark.text x y t ∈ m.draw iosevka px) (hne : t ≠ []) : y = 24 := by
  have hy := (axis_texts iosevka px m x y t h).2 (by rw [e, axis_opts]; exact hv)
  have : iosevka.top t = -11 := by unfold iosevka; exact if_neg hne
  omega

/-- There is room for the times. -/
theorem bottom_room {P : Type} {s : Style P} {H : Int} (hs : s.Ok H) (hfont : s.font = iosevka) {o : GraphOpts} {guess : Int} {m : GraphM P} (ht : tryMeasure s o guess = .ok m) {x y : Int} {t : Bytes} (hm : Mark.text x y t ∈ m.bottom.draw s.font s.px) (hne : t ≠ []) :
    29 ≤ m.bottom.height := by
  have h15 := (tryMeasure_ok hs ht).2.2.2.2.2.2.2.2.2.2.2.2.2.2
  obtain ⟨⟨u, hu, hb⟩, _, _⟩ := tryMeasure_parts ht
  rw [hb] at hm
  obtain ⟨l, hl, e⟩ := htext_mem s.font s.px _ x y t hm
  rw [axis_opts] at hl
  dsimp only at hl
  obtain ⟨tm, htm, e'⟩ := List.mem_map.mp hl
  have htm' := List.mem_reverse.mp htm
  have h14' := hs.times tm
  rw [show s.timeText tm = t by rw [e, ← e']] at h14'
  have : s.font.high t = 14 := by rw [hfont]; unfold iosevka; exact if_neg hne
  rw [h15, hu]
  dsimp only
  rw [if_neg (by intro e; rw [e] at htm'; cases htm')]
  omega

/-! ## The picture -/

/-- The marks of a side axis stay in its view. -/
theorem side_step {α : Type} {b : Brush α} (hink : b.ink = inkText) {W H : Nat} {c : Canvas} (v : ViewIn c W H) (marks : List Mark) (hin : ∀ k ∈ marks, k.InCanvas c.width c.height)
    (ht : ∀ x y t, Mark.text x y t ∈ marks → t ≠ [] → 0 ≤ x ∧ 11 ≤ y) (pix : Bytes) (him : IsImage pix W H) :
    ∃ pix', paintMarks b c marks pix = some pix' ∧ Untouched W H (fun px py => (px : Int) < c.x ∨ c.x + c.width ≤ px ∨ (py : Int) < c.y ∨ c.y + c.height ≤ py) pix pix' := by
  refine marks_keep hink v marks hin ?_ ?_ pix him
  · intro x y hm px py hr
    have hk := hin _ hm
    unfold Mark.InCanvas at hk
    omega
  · intro x y t hm px py hr
    by_cases hne : t = []
    · rw [hne]; simp only [List.length_nil]; omega
    · have := ht x y t hm hne
      omega

/-- The marks of the axis of times stay below the heatmap. -/
theorem bottom_step {α : Type} {b : Brush α} (hink : b.ink = inkText) {W H : Nat} {c : Canvas} (v : ViewIn c W H) (marks : List Mark) (hin : ∀ k ∈ marks, k.InCanvas c.width c.height)
    (ht : ∀ x y t, Mark.text x y t ∈ marks → t ≠ [] → y = 24) (pix : Bytes) (him : IsImage pix W H) :
    ∃ pix', paintMarks b c marks pix = some pix' ∧ Untouched W H (fun px py => (py : Int) < c.y ∨ ((py : Int) < c.y + 13 ∧ ((px : Int) < c.x ∨ c.x + c.width ≤ px))) pix pix' := by
  refine marks_keep hink v marks hin ?_ ?_ pix him
  · intro x y hm px py hr
    have hk := hin _ hm
    unfold Mark.InCanvas at hk
    omega
  · intro x y t hm px py hr
    by_cases hne : t = []
    · rw [hne]; simp only [List.length_nil]; omega
    · have := ht x y t hm hne
      omega

/-- The bars and their label. -/
theorem obs_step {α P : Type} {s : Style P} (hfont : s.font = iosevka) (hobs : s.obsText.length = 17) {b : Brush α} (hink : b.ink = inkText) {W H : Nat} {c : Canvas} (v : ViewIn c W H) (hh : c.height = 21)
    (cols : List (Col α)) (hc : ∀ k ∈ cols, 0 ≤ k.x ∧ 0 ≤ k.w ∧ k.x + k.w ≤ c.width) (hd : cols.Pairwise (fun a b => b.x + b.w ≤ a.x)) :
    ∃ p, paintObs s b c c.width cols (List.replicate (4 * W * H) 255) = some p ∧ Untouched W H (fun _ py => c.y + 21 ≤ py) (List.replicate (4 * W * H) 255) p ∧
      ((∀ a ∈ b.label cols, Printable a) → (b.label cols).length ≤ 17 → 0 ≤ b.peak cols → 102 ≤ c.x + c.width →
        Seen p W (c.x + if b.peak cols + 102 > c.width then c.width - 102 else b.peak cols) c.y 0 14 (b.label cols)) := by
  have him0 : IsImage (List.replicate (4 * W * H) (255 : UInt8)) W H := by unfold IsImage; rw [List.length_replicate]
  have vx := v.x
  have vy := v.y
  have hobsne : s.obsText ≠ [] := by intro e; rw [e] at hobs; cases hobs
  have ohigh : s.font.high s.obsText = 14 := by rw [hfont]; unfold iosevka; exact if_neg hobsne
  have otop : s.font.top s.obsText = -11 := by rw [hfont]; unfold iosevka; exact if_neg hobsne
  have owide : s.font.wide s.obsText = 102 := by rw [hfont]; unfold iosevka; dsimp only; rw [hobs]; rfl
  obtain ⟨p1, e1, q1⟩ := paintCols_painted (W := W) (H := H) c.x (fun py => c.y + 16 ≤ py ∧ (py : Int) < c.y + 21) (fun k _ => b.bar cols k.data)
    (fun k => obsRows c (2 + s.font.high s.obsText) k.x k.w (b.bar cols k.data) 0 5) cols (by
      intro k hk pix him
      have hk' := hc k hk
      obtain ⟨n, hn⟩ : ∃ n : Nat, k.w = n := ⟨k.w.toNat, by omega⟩
      obtain ⟨p, e, q⟩ := C63_obs c W H pix v him (2 + s.font.high s.obsText) k.x n 5 (b.bar cols k.data) (by omega) (by omega)
      refine ⟨p, by rw [hn]; exact e, q.congr (fun px py _ _ => ?_)⟩
      rw [rect_bar, hn]
      by_cases hb : c.x + k.x ≤ px ∧ (px : Int) < c.x + k.x + n ∧ c.y + 16 ≤ py ∧ (py : Int) < c.y + 21
      · rw [if_pos hb, if_pos (by omega)]
      · rw [if_neg hb, if_neg (by omega)]) hd _ him0
  obtain ⟨x0, hx0⟩ : ∃ x0, x0 = if b.peak cols + 102 > c.width then c.width - 102 else b.peak cols := ⟨_, rfl⟩
  rw [← hx0]
  obtain ⟨i2, q2⟩ := inkGlyphs_spec v 11 (textGlyphs (b.label cols)) x0 p1 q1.1
  refine ⟨inkText c x0 11 (b.label cols) p1, ?_, ⟨i2, fun px py hx hy hr => ?_⟩, fun hpr hl17 hpk hroom => ?_⟩
  · unfold paintObs
    rw [e1]
    dsimp only
    rw [hink, owide, otop, ← hx0]
    rfl
  · dsimp only at hr
    show pixel (inkGlyphs c 11 x0 (textGlyphs (b.label cols)) p1) W px py = _
    rw [(q2 px py hx hy).2 (by omega), q1.2 px py hx hy]
    dsimp only
    rw [if_neg (by omega)]
    rfl
  · have hx0' : 0 ≤ c.x + x0 ∧ x0 + 102 ≤ c.width := by rw [hx0]; split <;> omega
    clear hx0
    have := C95_seen v q1.1 (b.label cols) hpr x0 11 0 14 (by omega) (by omega) (by omega) (by
      intro px py a1 a2 a3 a4
      rw [q1.2 px py (by omega) (by omega), pixel_white (by omega) (by omega)]
      dsimp only
      rw [if_neg (by omega)]
      rfl)
    rw [show c.y + 11 - 11 = c.y by omega] at this
    exact this

/-- The heatmap and the key. -/
theorem mid_step {α : Type} {b : Brush α} {W H : Nat} {c k : Canvas} (vc : ViewIn c W H) (vk : ViewIn k W H) (hkx : k.x = c.x + c.width + 5) (hkw : k.width = 10) (hky : k.y = c.y) (hkh : k.height = c.height)
    (cols : List (Col α)) (hc : ∀ k ∈ cols, 0 ≤ k.x ∧ 0 ≤ k.w ∧ k.x + k.w ≤ c.width) (hd : cols.Pairwise (fun a b => b.x + b.w ≤ a.x))
    (hheat : ∀ k ∈ cols, ∀ y, y < c.height.toNat → (b.heat k.data c.height y).isSome) (hkey : ∀ y, y < c.height.toNat → (b.key c.height y).isSome) (pix : Bytes) (him : IsImage pix W H) :
    ∃ p4 p5, paintCols (paintColumn b c) cols pix = some p4 ∧ paintKey b k p4 = some p5 ∧
      Untouched W H (fun px py => (px : Int) < c.x ∨ c.x + c.width + 15 ≤ px ∨ (py : Int) < c.y ∨ c.y + c.height ≤ py) pix p5 := by
  obtain ⟨p4, e4, q4⟩ := paintCols_painted (W := W) (H := H) c.x (fun py => c.y ≤ py ∧ (py : Int) < c.y + c.height) (fun k py => (b.heat k.data c.height (c.y + c.height - 1 - py).toNat).getD black)
    (paintColumn b c) cols (fun k hk pix him => paintColumn_painted (b := b) vc k (hc k hk) (hheat k hk) pix him) hd pix him
  have vs := vc.size
  obtain ⟨p5, e5', q5⟩ := C63_key k W H p4 vk q4.1 10 c.height.toNat (fun y => (b.key c.height y).getD black) (by omega) (by omega)
  refine ⟨p4, p5, e4, ?_, q5.1, fun px py hx hy hr => ?_⟩
  · unfold paintKey
    rw [hkh, if_pos (all_range hkey)]
    exact e5'
  · dsimp only at hr
    rw [q5.2 px py hx hy, q4.2 px py hx hy]
    have e5n : rect k 0 (10 : Nat) 0 0 c.height.toNat (fun y => (b.key c.height y).getD black) px py = none := by
      unfold rect
      rw [hkx, hky, if_neg (by omega)]
    rw [e5n]
    dsimp only
    by_cases hrow : c.y ≤ py ∧ (py : Int) < c.y + c.height
    · rw [if_pos hrow]
      have : columnAt cols ((px : Int) - c.x) = none := by
        unfold columnAt
        rw [List.find?_eq_none]
        intro k hk
        have := hc k hk
        simp only [Bool.and_eq_true, decide_eq_true_eq]
        omega
      rw [this]
      rfl
    · rw [if_neg hrow]
      rfl

/-- A text of a side axis on a white view is seen. -/
theorem side_seen {α : Type} {b : Brush α} (hink : b.ink = inkText) {W H : Nat} {c : Canvas} (v : ViewIn c W H) (marks : List Mark) (hin : ∀ k ∈ marks, k.InCanvas c.width c.height) (hbel : Below (textsOf marks))
    {x y : Int} {t : Bytes} (hm : Mark.text x y t ∈ marks) (hpr : ∀ a ∈ t, Printable a) (hd : ∀ x' y', Mark.dot x' y' ∈ marks → x' < x ∨ x + 6 * t.length ≤ x')
    (h0 : 0 ≤ x) (h1 : x + 6 * t.length ≤ c.width) (h2 : 11 ≤ y) (h3 : y ≤ c.height) (pix : Bytes) (him : IsImage pix W H)
    (hw : ∀ px py : Nat, c.x ≤ px → (px : Int) < c.x + c.width → c.y ≤ py → (py : Int) < c.y + c.height → pixel pix W px py = some (white, 255)) {pix' : Bytes} (e : paintMarks b c marks pix = some pix') :
    Seen pix' W (c.x + x) (c.y + y - 11) 0 11 t := by
  have vx := v.x
  have vy := v.y
  obtain ⟨pre, post, hsplit⟩ := List.append_of_mem hm
  have hsub : ∀ k ∈ pre ++ post, k ∈ marks := by
    intro k hk
    rw [hsplit]
    simp only [List.mem_append, List.mem_cons] at hk ⊢
    rcases hk with hk | hk
    · exact .inl hk
    · exact .inr (.inr hk)
  rw [hsplit] at hbel e
  have hpair := pairwise_split hbel
  refine marks_seen hink v pre post x y t 0 11 (by omega) hpr (fun k hk => hin k (hsub k hk)) ?_ ?_ ⟨by omega, h1⟩ ⟨by omega, by omega⟩ pix him ?_ e
  · intro x' y' hm' px py hr
    have := hd x' y' (hsub _ hm')
    unfold TextRect at hr
    omega
  · intro x' y' t' hm' px py hr
    have := hpair x' y' t' hm'
    dsimp only at this
    unfold TextRect at hr
    omega
  · intro px py hr
    unfold TextRect at hr
    exact hw px py (by omega) (by omega) (by omega) (by omega)

/-- A text of the axis of times on a white view is seen, but for its first row. -/
theorem bottom_seen {α : Type} {b : Brush α} (hink : b.ink = inkText) {W H : Nat} {c : Canvas} (v : ViewIn c W H) (marks : List Mark) (hin : ∀ k ∈ marks, k.InCanvas c.width c.height) (hbes : Beside (textsOf marks))
    {x : Int} {t : Bytes} (hm : Mark.text x 24 t ∈ marks) (hpr : ∀ a ∈ t, Printable a) (hd : ∀ x' y', Mark.dot x' y' ∈ marks → y' ≤ 13)
    (h0 : 0 ≤ c.x + x) (h1 : x + 6 * t.length ≤ c.width) (h3 : 29 ≤ c.height) (pix : Bytes) (him : IsImage pix W H)
    (hw : ∀ px py : Nat, px < W → py < H → c.y + 14 ≤ py → pixel pix W px py = some (white, 255)) {pix' : Bytes} (e : paintMarks b c marks pix = some pix') :
    Seen pix' W (c.x + x) (c.y + 13) 1 14 t := by
  have vx := v.x
  have vy := v.y
  obtain ⟨pre, post, hsplit⟩ := List.append_of_mem hm
  have hsub : ∀ k ∈ pre ++ post, k ∈ marks := by
    intro k hk
    rw [hsplit]
    simp only [List.mem_append, List.mem_cons] at hk ⊢
    rcases hk with hk | hk
    · exact .inl hk
    · exact .inr (.inr hk)
  rw [hsplit] at hbes e
  have hpair := pairwise_split hbes
  have := marks_seen hink v pre post x 24 t 1 14 (by omega) hpr (fun k hk => hin k (hsub k hk))
    (by
      intro x' y' hm' px py hr
      have := hd x' y' (hsub _ hm')
      unfold TextRect at hr
      omega)
    (by
      intro x' y' t' hm' px py hr
      have := hpair x' y' t' hm'
      dsimp only at this
      unfold TextRect at hr
      omega) ⟨by omega, h1⟩ ⟨by omega, by omega⟩ pix him (by
      intro px py hr
      unfold TextRect at hr
      exact hw px py (by omega) (by omega) (by omega)) e
  rw [show c.y + 24 - 11 = c.y + 13 by omega] at this
  exact this

/-- What stays untouched in more pixels stays so in fewer. -/
theorem Untouched.mono {W H : Nat} {R R' : Nat → Nat → Prop} {a b : Bytes} (h : Untouched W H R a b) (hr : ∀ px py, R' px py → R px py) : Untouched W H R' a b := ⟨h.1, fun px py hx hy h' => h.2 px py hx hy (hr px py h')⟩

set_option maxHeartbeats 2000000 in
/-- **C95**. In the picture of a graph each text of the side axes, printable and not empty, can be seen in its place down to the baseline (rows 0 to 10), if the texts of the axis are one below the other; each text of the axis of times in all rows but the
first, if they are side by side and it begins on the picture; and the label above the bars in full, if there is room for it. -/
theorem C95_graph {α P : Type} {s : Style P} {H : Int} (hs : s.Ok H) (hfont : s.font = iosevka) (b : Brush α) (hink : b.ink = inkText)
    {o : GraphOpts} {m : GraphM P} (h : graphMeasure s o = .ok m) (hw : 0 ≤ m.width) (hh : 1 ≤ m.height) (hp : 0 ≤ o.padding) (he : o.earliest = true) (hobs : s.obsText.length = 17)
    (cols : List (Col α)) (hc : ∀ k ∈ cols, 0 ≤ k.x ∧ 0 ≤ k.w ∧ k.x + k.w ≤ m.width) (hd : cols.Pairwise (fun a b => b.x + b.w ≤ a.x))
    (hheat : ∀ k ∈ cols, ∀ y, y < m.height.toNat → (b.heat k.data m.height y).isSome) (hkey : ∀ y, y < m.height.toNat → (b.key m.height y).isSome) :
    ∃ c pix, drawGraph s b m cols = some (c, pix) ∧
      (∀ x y t, Mark.text x y t ∈ m.left.draw s.font s.px → t ≠ [] → (∀ a ∈ t, Printable a) → Below (textsOf (m.left.draw s.font s.px)) → Seen pix c.width.toNat (o.padding + x) (m.y + y - 11) 0 11 t) ∧
      (∀ r, m.right = some r → ∀ x y t, Mark.text x y t ∈ r.draw s.font s.px → t ≠ [] → (∀ a ∈ t, Printable a) → Below (textsOf (r.draw s.font s.px)) →
        Seen pix c.width.toNat (m.x + m.width + 15 + x) (m.y + y - 11) 0 11 t) ∧
      (∀ x y t, Mark.text x y t ∈ m.bottom.draw s.font s.px → t ≠ [] → (∀ a ∈ t, Printable a) → Beside (textsOf (m.bottom.draw s.font s.px)) → 0 ≤ m.x - 1 + x → x + 6 * t.length ≤ m.width + 2 →
        Seen pix c.width.toNat (m.x - 1 + x) (m.y + m.height + 13) 1 14 t) ∧
      ((∀ a ∈ b.label cols, Printable a) → (b.label cols).length ≤ 17 → 0 ≤ b.peak cols → 102 ≤ m.x + m.width →
        Seen pix c.width.toNat (m.x + if b.peak cols + 102 > m.width then m.width - 102 else b.peak cols) o.padding 0 14 (b.label cols)) := by
  have hI := C95_inside b hink
  have hi : InkOk s.font b := by rw [hfont]; exact hI
  obtain ⟨guess, ht⟩ := graphMeasure_try h
  obtain ⟨h1, h2, h3, h4, h5, h6, h7, h8, h9, h10, h11, h12, h13, h14, h15⟩ := tryMeasure_ok hs ht
  obtain ⟨sumw, sumh, inside, -⟩ := C75_layout hs h hw
  obtain ⟨⟨oL, eL, vL, fL, lL⟩, hR, ⟨oB, eB, vB, lB⟩⟩ := tryMeasure_axes ht
  obtain ⟨r, er⟩ := Option.isSome_iff_exists.mp (h8.mp he)
  obtain ⟨oR, eR, vR, fR, lR⟩ := hR r er
  have hr9 := h9 r er
  have hrw : m.rightWidth = r.width := by unfold GraphM.rightWidth; rw [er]; rfl
  have hobsne : s.obsText ≠ [] := by intro e; rw [e] at hobs; cases hobs
  have ohigh : s.font.high s.obsText = 14 := by rw [hfont]; unfold iosevka; exact if_neg hobsne
  have otop : s.font.top s.obsText = -11 := by rw [hfont]; unfold iosevka; exact if_neg hobsne
  have owide : s.font.wide s.obsText = 102 := by rw [hfont]; unfold iosevka; dsimp only; rw [hobs]; rfl
  have hbh : 13 ≤ m.bottom.height := by
    have hH : 0 ≤ H := by have := hs.high (s.timeText 0); rw [hs.times] at this; exact this
    rw [h15]; split <;> omega
  clear h15
  have pxok : ∀ oA : AxisOpts P, 1 ≤ oA.length → PxOk s.px oA := fun oA hl l _ => hs.px oA.length l.pos hl
  have lB1 : 1 ≤ oB.length := by omega
  have lL1 : 1 ≤ oL.length := by omega
  have lR1 : 1 ≤ oR.length := by omega
  -- where the marks are
  have inL : ∀ k ∈ m.left.draw s.font s.px, k.InCanvas m.left.width m.left.height := by have := C73_inside s.font s.px oL (pxok oL lL1) hs.high; rw [eL]; exact this
  have inR : ∀ k ∈ r.draw s.font s.px, k.InCanvas r.width r.height := by have := C73_inside s.font s.px oR (pxok oR lR1) hs.high; rw [eR]; exact this
  have inB : ∀ k ∈ m.bottom.draw s.font s.px, k.InCanvas m.bottom.width m.bottom.height := by have := C73_inside s.font s.px oB (pxok oB lB1) hs.high; rw [eB]; exact this
  have dL : ∀ x y, Mark.dot x y ∈ m.left.draw s.font s.px → m.left.width - 11 ≤ x := by
    intro x y hm
    obtain ⟨j, j0, j1, e⟩ := (axis_dots s.font s.px m.left x y hm).1 (by rw [eL, axis_opts]; exact vL)
    unfold maybeFlip at e
    rw [if_pos (by rw [eL, axis_opts]; exact fL)] at e
    omega
  have dR : ∀ x y, Mark.dot x y ∈ r.draw s.font s.px → x ≤ 10 := by
    intro x y hm
    obtain ⟨j, j0, j1, e⟩ := (axis_dots s.font s.px r x y hm).1 (by rw [eR, axis_opts]; exact vR)
    unfold maybeFlip at e
    rw [if_neg (by rw [eR, axis_opts, fR]; simp)] at e
    omega
  have dB : ∀ x y, Mark.dot x y ∈ m.bottom.draw s.font s.px → y ≤ 13 := fun x y hm => (axis_dots s.font s.px m.bottom x y hm).2 (by rw [eB, axis_opts]; exact vB)
  have tL : ∀ x y t, Mark.text x y t ∈ m.left.draw s.font s.px → t ≠ [] → x = m.left.width - 13 - 6 * (t.length : Int) ∧ 0 ≤ y - 11 ∧ y ≤ m.left.height ∧ y - 11 < m.height ∧ 0 ≤ x := by
    intro x y t hm hne
    rw [hfont] at hm eL
    rw [← lL]
    exact left_texts eL vL fL (pxok oL (by rw [lL]; exact hh)) hm hne
  have tR : ∀ x y t, Mark.text x y t ∈ r.draw s.font s.px → t ≠ [] → x = 13 ∧ 0 ≤ y - 11 ∧ y ≤ r.height ∧ y - 11 < m.height ∧ 6 * (t.length : Int) ≤ r.width - 13 := by
    intro x y t hm hne
    rw [hfont] at hm eR
    rw [← lR]
    exact right_texts eR vR fR (pxok oR (by rw [lR]; exact hh)) hm hne
  have tB : ∀ x y t, Mark.text x y t ∈ m.bottom.draw s.font s.px → t ≠ [] → y = 24 := by
    intro x y t hm hne
    rw [hfont] at hm eB
    exact bottom_texts eB vB hm hne
  have room : ∀ x y t, Mark.text x y t ∈ m.bottom.draw s.font s.px → t ≠ [] → 29 ≤ m.bottom.height := fun x y t hm hne => bottom_room hs hfont ht hm hne
  clear eL eR eB lL lR lB vL vR vB fL fR pxok h8 h9 hI hi lB1 lL1 lR1
  obtain ⟨W, hW⟩ : ∃ W : Nat, (W : Int) = o.width + 2 * o.padding := ⟨(o.width + 2 * o.padding).toNat, by omega⟩
  obtain ⟨Hh, hH⟩ : ∃ Hh : Nat, (Hh : Int) = o.height + 2 * o.padding := ⟨(o.height + 2 * o.padding).toNat, by omega⟩
  have hnew : newRGB (o.width + 2 * o.padding) (o.height + 2 * o.padding) =
      some ({ stride := 4 * W, width := W, height := Hh }, List.replicate (4 * W * Hh) 255) := by
    rw [← hW, ← hH]
    unfold newRGB
    have : 0 ≤ 4 * (W : Int) * Hh := Int.mul_nonneg (by omega) (by omega)
    rw [if_neg (by omega), show (4 * (W : Int) * Hh).toNat = 4 * W * Hh by
      rw [show (4 * (W : Int) * Hh) = ((4 * W * Hh : Nat) : Int) by rw [Int.natCast_mul, Int.natCast_mul]; rfl]
      exact Int.toNat_natCast _]
  obtain ⟨cv, hcv⟩ : ∃ cv : Canvas, cv = { stride := 4 * W, width := W, height := Hh } := ⟨_, rfl⟩
  have hstr : cv.stride = 4 * W := by rw [hcv]
  have ecw : cv.width.toNat = W := by rw [hcv]; exact Int.toNat_natCast W
  rw [← hcv] at hnew
  clear hcv
  have hview : ∀ bx ∈ [m.obsBox, m.leftBox, m.heatBox, m.keyBox, m.bottomBox] ++ (m.right.map m.rightBox).toList, 0 ≤ bx.w → 0 ≤ bx.h →
      ViewIn (cv.box bx) W Hh := by
    intro bx hbx hbw hbh
    have hin := inside bx hbx
    unfold Box.Within at hin
    dsimp only at hin
    exact ⟨hstr, by show 0 ≤ bx.x ∧ bx.x + bx.w ≤ W; omega, by show 0 ≤ bx.y ∧ bx.y + bx.h ≤ Hh; omega, ⟨hbw, hbh⟩⟩
  have vObs := hview m.obsBox (by simp) (by show 0 ≤ m.obsWidth; omega) (by show 0 ≤ m.obsHeight; omega)
  have vLeft := hview m.leftBox (by simp) (by show 0 ≤ m.left.width; omega) (by show 0 ≤ m.left.height; omega)
  have vHeat := hview m.heatBox (by simp) hw h3
  have vKey := hview m.keyBox (by simp) (by show (0 : Int) ≤ 10; omega) h3
  have vBot := hview m.bottomBox (by simp) (by show 0 ≤ m.bottom.width; omega) (by show 0 ≤ m.bottom.height; omega)
  have vRight := hview (m.rightBox r) (by rw [er]; simp) (by show 0 ≤ r.width; omega) (by show 0 ≤ r.height; omega)
  clear hview
  have him0 : IsImage (List.replicate (4 * W * Hh) (255 : UInt8)) W Hh := by unfold IsImage; rw [List.length_replicate]
  -- the views
  have obsx : (cv.box m.obsBox).x = m.x := by show m.opts.padding + m.left.width = m.x; rw [h1, h13]
  have obsy : (cv.box m.obsBox).y = o.padding := by show m.opts.padding = _; rw [h1]
  have obsw : (cv.box m.obsBox).width = m.width := h5
  have obsh : (cv.box m.obsBox).height = m.obsHeight := rfl
  have leftx : (cv.box m.leftBox).x = o.padding := by show m.opts.padding = _; rw [h1]
  have lefty : (cv.box m.leftBox).y = m.y := by show m.opts.padding + m.obsHeight = m.y; rw [h1, h14]
  have leftw : (cv.box m.leftBox).width = m.left.width := rfl
  have lefth : (cv.box m.leftBox).height = m.left.height := rfl
  have hx' : (cv.box m.heatBox).x = m.x := by show m.opts.padding + m.left.width = m.x; rw [h1, h13]
  have hy' : (cv.box m.heatBox).y = m.y := by show m.opts.padding + m.obsHeight = m.y; rw [h1, h14]
  have hht : (cv.box m.heatBox).height = m.height := rfl
  have hkx : (cv.box m.keyBox).x = m.x + m.width + 5 := by show m.opts.padding + m.left.width + m.width + 5 = _; rw [h1, h13]
  have hky : (cv.box m.keyBox).y = m.y := by show m.opts.padding + m.obsHeight = m.y; rw [h1, h14]
  have hkh : (cv.box m.keyBox).height = m.height := rfl
  have rightx : (cv.box (m.rightBox r)).x = m.x + m.width + 15 := by show m.opts.padding + m.left.width + m.width + 5 + 10 = _; rw [h1, h13]; omega
  have righty : (cv.box (m.rightBox r)).y = m.y := by show m.opts.padding + m.obsHeight = m.y; rw [h1, h14]
  have rightw : (cv.box (m.rightBox r)).width = r.width := rfl
  have righth : (cv.box (m.rightBox r)).height = r.height := rfl
  have botx : (cv.box m.bottomBox).x = m.x - 1 := by show m.left.width - 1 + m.opts.padding = _; rw [h1, h13]; omega
  have boty : (cv.box m.bottomBox).y = m.y + m.height := by show m.height + m.obsHeight + m.opts.padding = _; rw [h1, h14]; omega
  have botw : (cv.box m.bottomBox).width = m.width + 2 := h12
  have both : (cv.box m.bottomBox).height = m.bottom.height := rfl
  clear inside hstr
  have drawn : ∀ p2 p3 p4 p5 p6 p7, paintObs s b (cv.box m.obsBox) m.width cols (List.replicate (4 * W * Hh) 255) = some p2 → paintMarks b (cv.box m.leftBox) (m.left.draw s.font s.px) p2 = some p3 →
      paintCols (paintColumn b (cv.box m.heatBox)) cols p3 = some p4 → paintKey b (cv.box m.keyBox) p4 = some p5 → paintMarks b (cv.box (m.rightBox r)) (r.draw s.font s.px) p5 = some p6 →
      paintMarks b (cv.box m.bottomBox) (m.bottom.draw s.font s.px) p6 = some p7 → drawGraph s b m cols = some (cv, p7) := by
    intro p2 p3 p4 p5 p6 p7 e2 e3 e4 e5 e6 e7
    unfold drawGraph
    rw [h1, hnew]
    dsimp only
    rw [h5, e2]
    dsimp only
    rw [e3]
    dsimp only
    unfold paintRight
    rw [er]
    dsimp only
    rw [e4]
    dsimp only
    rw [e5]
    dsimp only
    rw [e6]
    dsimp only
    rw [e7]
  have hkw : (cv.box m.keyBox).width = 10 := rfl
  have hwt : (cv.box m.heatBox).width = m.width := rfl
  have hobs21 : m.obsHeight = 21 := by rw [h4, ohigh]; rfl
  rw [hobs21] at obsh
  generalize cv.box m.obsBox = vo at *
  generalize cv.box m.leftBox = vl at *
  generalize cv.box m.heatBox = vh at *
  generalize cv.box m.keyBox = vk at *
  generalize cv.box (m.rightBox r) = vr at *
  generalize cv.box m.bottomBox = vb at *
  obtain ⟨p2, e2, q2, S2⟩ := obs_step hfont hobs hink vObs obsh cols (by rw [obsw]; exact hc) hd
  rw [obsx, obsy, obsw] at S2
  rw [obsw] at e2
  rw [obsy] at q2
  rw [← leftw, ← lefth] at inL
  obtain ⟨p3, e3, q3⟩ := side_step hink vLeft _ inL (fun x y t hm hne => by have := tL x y t hm hne; omega) p2 q2.1
  rw [leftx, lefty, leftw, lefth] at q3
  rw [← hht] at hheat hkey
  rw [← hwt] at hc
  obtain ⟨p4, p5, e4, e5, q5⟩ := mid_step (b := b) vHeat vKey (by rw [hkx, hx', hwt]) hkw (by rw [hky, hy']) (by rw [hkh, hht]) cols hc hd hheat hkey p3 q3.1
  rw [hx', hy', hht, hwt] at q5
  rw [← rightw, ← righth] at inR
  obtain ⟨p6, e6, q6⟩ := side_step hink vRight _ inR (fun x y t hm hne => by have := tR x y t hm hne; omega) p5 q5.1
  rw [rightx, righty, rightw, righth] at q6
  rw [h12, ← botw, ← both] at inB
  obtain ⟨p7, e7, q7⟩ := bottom_step hink vBot _ inB tB p6 q6.1
  rw [botx, boty, botw] at q7
  clear hheat hkey hc hd
  refine ⟨cv, p7, drawn _ _ _ _ _ _ e2 e3 e4 e5 e6 e7, ?_, ?_, ?_, ?_⟩
  all_goals clear drawn e2 hnew h2 h4 h5 h12 ohigh otop owide obsx obsy obsw obsh hx' hy' hht hwt hkx hky hkh hkw h1 h7 hobs
  · intro x y t hm hne hpr hbel
    rw [ecw]
    have hT := tL x y t hm hne
    have s3 := side_seen hink vLeft _ inL hbel hm hpr (fun x' y' hm' => by have := dL x' y' hm'; omega) hT.2.2.2.2 (by rw [leftw]; omega) (by omega) (by rw [lefth]; omega) p2 q2.1
      (fun px py a1 a2 a3 a4 => by
        rw [q2.2 px py (by have := vLeft.x; omega) (by have := vLeft.y; omega) (by show o.padding + 21 ≤ (py : Int); rw [lefty] at a3; omega)]
        exact pixel_white (by have := vLeft.x; omega) (by have := vLeft.y; omega)) e3
    rw [leftx, lefty] at s3
    have b1 : 0 ≤ o.padding + x ∧ o.padding + x + 6 * t.length ≤ W := by omega
    have b2 : 0 ≤ m.y + y - 11 ∧ m.y + y - 11 + (11 : Nat) ≤ Hh := by omega
    have hR : ∀ px py : Nat, TextRect (o.padding + x) (m.y + y - 11) 0 11 t.length px py → (px : Int) < m.x - 1 ∧ (py : Int) < m.y + m.height + 13 := by
      intro px py hr
      unfold TextRect at hr
      omega
    exact ((s3.keep b1 b2 (fun _ _ h => h) (q5.mono (fun px py hr => .inl (by have := hR px py hr; omega)))).keep b1 b2 (fun _ _ h => h) (q6.mono (fun px py hr => .inl (by have := hR px py hr; omega)))).keep
      b1 b2 (fun _ _ h => h) (q7.mono (fun px py hr => .inr ⟨(hR px py hr).2, .inl (hR px py hr).1⟩))
  · intro r' hr' x y t hm hne hpr hbel
    rw [er] at hr'
    injection hr' with hr'
    subst hr'
    rw [ecw]
    have hT := tR x y t hm hne
    have s6 := side_seen hink vRight _ inR hbel hm hpr (fun x' y' hm' => by have := dR x' y' hm'; omega) (by omega) (by rw [rightw]; omega) (by omega) (by rw [righth]; omega) p5 q5.1
      (fun px py a1 a2 a3 a4 => by
        have w1 : px < W := by have := vRight.x; omega
        have w2 : py < Hh := by have := vRight.y; omega
        rw [rightx] at a1
        rw [righty] at a3
        rw [q5.2 px py w1 w2 (.inr (.inl a1)), q3.2 px py w1 w2 (.inr (.inl (by omega))), q2.2 px py w1 w2 (by show o.padding + 21 ≤ (py : Int); omega)]
        exact pixel_white w1 w2) e6
    rw [rightx, righty] at s6
    have b1 : 0 ≤ m.x + m.width + 15 + x ∧ m.x + m.width + 15 + x + 6 * t.length ≤ W := by omega
    have b2 : 0 ≤ m.y + y - 11 ∧ m.y + y - 11 + (11 : Nat) ≤ Hh := by omega
    have hR : ∀ px py : Nat, TextRect (m.x + m.width + 15 + x) (m.y + y - 11) 0 11 t.length px py → m.x - 1 + (m.width + 2) ≤ (px : Int) ∧ (py : Int) < m.y + m.height + 13 := by
      intro px py hr
      unfold TextRect at hr
      omega
    exact s6.keep b1 b2 (fun _ _ h => h) (q7.mono (fun px py hr => .inr ⟨(hR px py hr).2, .inr (hR px py hr).1⟩))
  · intro x y t hm hne hpr hbes hx0 hx1
    rw [ecw]
    have hT := tB x y t hm hne
    have hbh' := room x y t hm hne
    subst hT
    have s7 := bottom_seen hink vBot _ inB hbes hm hpr dB (by rw [botx]; exact hx0) (by rw [botw]; exact hx1) (by rw [both]; exact hbh') p6 q6.1
      (fun px py w1 w2 a3 => by
        rw [boty] at a3
        rw [q6.2 px py w1 w2 (.inr (.inr (.inr (by omega)))), q5.2 px py w1 w2 (.inr (.inr (.inr (by omega)))), q3.2 px py w1 w2 (.inr (.inr (.inr (by omega)))), q2.2 px py w1 w2 (by show o.padding + 21 ≤ (py : Int); omega)]
        exact pixel_white w1 w2) e7
    rw [botx, boty] at s7
    exact s7
  · intro hpr hl17 hpk hroom
    rw [ecw]
    have s2 := S2 hpr hl17 hpk hroom
    have hx0' : 0 ≤ m.x + (if b.peak cols + 102 > m.width then m.width - 102 else b.peak cols) ∧ (if b.peak cols + 102 > m.width then m.width - 102 else b.peak cols) + 102 ≤ m.width := by split <;> omega
    generalize (if b.peak cols + 102 > m.width then m.width - 102 else b.peak cols) = x0 at s2 hx0' ⊢
    have hR : ∀ px py : Nat, TextRect (m.x + x0) o.padding 0 14 (b.label cols).length px py → (py : Int) < m.y := by
      intro px py hr
      unfold TextRect at hr
      omega
    exact (((s2.keep (by omega) (by omega) (fun _ _ h => h) (q3.mono (fun px py hr => by have := hR px py hr; omega))).keep (by omega) (by omega) (fun _ _ h => h) (q5.mono (fun px py hr => by have := hR px py hr; omega))).keep
      (by omega) (by omega) (fun _ _ h => h) (q6.mono (fun px py hr => by have := hR px py hr; omega))).keep (by omega) (by omega) (fun _ _ h => h) (q7.mono (fun px py hr => by have := hR px py hr; omega))

end Rothko
