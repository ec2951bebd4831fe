import Verif.Props.LabelsScene
/-!
# C115: examples
-/
namespace Rothko

set_option maxRecDepth 100000 in
/-- Some labels. -/
theorem C115_texts : valueLabel false 0x3ff8000000000000#64 = "1.50".toUTF8.toList ∧ valueLabel false 0x40934a0000000000#64 = "1.23e+03".toUTF8.toList ∧ valueLabel true 0xbff8000000000000#64 = "-1.50".toUTF8.toList ∧
    valueLabel false 0x3fb999999999999a#64 = "0.100".toUTF8.toList ∧ valueLabel true 0x3fb999999999999a#64 = "0.10".toUTF8.toList ∧ valueLabel true 0x405ec00000000000#64 = "123.".toUTF8.toList ∧
    valueLabel false 0x3ee4f8b588e368f1#64 = "1.00e-05".toUTF8.toList ∧ rankLabel (3 / 4) = "0.75".toUTF8.toList ∧ rateLabel false (.fin (1 / 3)) = "obs/sec: 0.333".toUTF8.toList ∧
    timeLabel (fun _ => 3600) 951865200000000000 = "3/1 @ 00:00".toUTF8.toList := by decide +kernel

/-- As `exInk`, with the library's texts. -/
def exText : Outside := withTexts exInk false berlin

/-- The observations 1 and 2. -/
def exOneTwo : TWrap := { obs := [0x3ff0000000000000#64, 0x4000000000000000#64] }

set_option maxRecDepth 100000 in
theorem exText_measured : triedSizes (graphMeasure (sceneStyle exText exOneTwo) (exGraph 1)) = some (41, 25, 911, 300) := by decide +kernel

/-- Whether a text stands below the graph. -/
def anyText (t : Tried Pos) : Bool := match t with
  | .ok m => (m.bottom.draw iosevka pxOf).any (fun k => match k with | .text _ _ _ => true | _ => false)
  | _ => false

set_option maxRecDepth 100000 in
theorem exText_any : anyText (graphMeasure (sceneStyle exText exOneTwo) (exGraph 1)) = true := by decide +kernel

set_option maxRecDepth 100000 in
/-- A graph of a day: the topmost rank reads as 1, the lowest value as 1 (the lower of the observations), and below stand times. -/
theorem C115_example : ∃ m c pix, graphMeasure (sceneStyle exText exOneTwo) (exGraph 1) = .ok m ∧ drawGraph (sceneStyle exText exOneTwo) (sceneBrush exText viridis exOneTwo) m [] = some (c, pix) ∧
    (∃ t r, Seen pix c.width.toNat 4 25 0 11 t ∧ Says t r ∧ |r - 1| ≤ 1 / 200 + 1 / 2 ^ 52) ∧ (∃ t r, Seen pix c.width.toNat 980 324 0 11 t ∧ Says t r ∧ |r - 1| ≤ 1 / 200) ∧
    (∃ t, Seen pix c.width.toNat 41 4 0 14 ("obs/sec: ".toUTF8.toList ++ t) ∧ Says t 0) ∧
    (∃ x y txt, Mark.text x y txt ∈ m.bottom.draw iosevka pxOf) ∧
    ∀ x y txt, Mark.text x y txt ∈ m.bottom.draw iosevka pxOf → Seen pix c.width.toNat (40 + x) 338 1 14 txt ∧ ∃ mo d h mi, SaysTime txt mo d h mi := by
  have hm := exText_measured
  cases h : graphMeasure (sceneStyle exText exOneTwo) (exGraph 1) with
  | panic => rw [h] at hm; cases hm
  | small => rw [h] at hm; cases hm
  | ok m =>
    rw [h] at hm
    have h1 : some (m.x, m.y, m.width, m.height) = some (41, 25, 911, 300) := hm
    obtain ⟨mx, my, mw, mh⟩ : m.x = 41 ∧ m.y = 25 ∧ m.width = 911 ∧ m.height = 300 := by
      injection h1 with h1; injection h1 with a h1; injection h1 with b h1; injection h1 with c d; exact ⟨a, b, c, d⟩
    obtain ⟨c, pix, hdraw, ⟨rank, row, k1, k2, k3, _, _, k6⟩, ⟨unit, hu, _, htx⟩, hlab⟩ := C115_scene (e0 := exInk) false berlin (e := exText) rfl rfl viridis h (by omega) (by omega) (by omega) (by omega) (by decide) rfl
      (by decide) (by decide) (by decide) [] (fun k hk => by cases hk) List.Pairwise.nil (fun k hk => by cases hk) (by rw [mh]; decide +kernel)
    rw [mx, my, mw, mh] at k6
    rw [mx, my, mw, mh] at htx
    rw [mh] at k2 k1
    rw [mx, mw] at hlab
    have hunit : naturalUnit (exGraph 1).duration (exGraph 1).width = some 7200000000000 := by decide +kernel
    rw [hunit] at hu
    injection hu with hu
    subst hu
    have hzone : ∀ s, -86400 ≤ berlin s := fun s => by unfold berlin; split <;> omega
    obtain ⟨⟨t, r, z1, _, z2, z3⟩, _⟩ := k6 0 (.inl ⟨0, by omega, by omega, by omega⟩)
    obtain ⟨_, l⟩ := k6 300 (.inr rfl)
    rw [k1] at l
    have hv : exText.half (exText.quant exOneTwo.obs 0) = 0x3ff0000000000000#64 := by decide +kernel
    rw [hv] at l
    obtain ⟨t', r', l1, l2, _, l3⟩ := l (by decide)
    have hone : fVal 0x3ff0000000000000#64 = 1 := by decide +kernel
    rw [hone] at l3
    rw [k2] at l1
    rw [k3] at z1
    obtain ⟨t2, r2, p1, p2, p3, _⟩ := hlab 0 rfl (.inl rfl) (by decide) (by omega)
    have hr2 : r2 = 0 := by
      rcases p3 with ⟨_, p⟩ | ⟨p, _⟩
      · exact p
      · exact absurd rfl p
    rw [hr2] at p2
    have hmark : ∃ x y txt, Mark.text x y txt ∈ m.bottom.draw iosevka pxOf := by
      have ha := exText_any
      rw [h] at ha
      obtain ⟨k, hk, hk'⟩ := List.any_eq_true.mp ha
      cases k with
      | text x y t => exact ⟨x, y, t, hk⟩
      | dot _ _ => cases hk'
    refine ⟨m, c, pix, rfl, hdraw, ⟨t, r, z1, z2, ?_⟩, ⟨t', r', l1, l2, by simpa using l3⟩, ⟨t2, p1, p2⟩, hmark, ?_⟩
    · simpa using z3
    intro x y txt hm
    obtain ⟨s1, t, _, _, _, day, sec, _, _, s2⟩ := htx (by decide) (by decide) hzone x y txt hm
    exact ⟨s1, _, _, _, _, s2⟩

end Rothko
