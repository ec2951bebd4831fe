import Verif.Props.LabelsTime
import Verif.Props.GraphRead
/-!
# C115: what is read from the picture
-/
namespace Rothko

/-- **C115**. From the picture of a graph one reads, beside the ticks of the left axis, the ranks of their rows to within half a hundredth; beside those of the right axis, the values of those ranks to within half a percent
(the nearest number of three digits); under the graph the local times of the ticks to the minute; above the bars the greatest rate to within half a percent. -/
theorem C115_scene {e0 : Outside} (old : Bool) (zone : Int → Int) {e : Outside} (he0 : e = withTexts e0 old zone) (hink : e.ink = inkText) (colors : List Color) {w : TWrap} {o : GraphOpts} {m : GraphM Pos}
    (h : graphMeasure (sceneStyle e w) o = .ok m) (hw : 86 ≤ m.width) (hw' : m.width < 2147483646) (hh : 1 ≤ m.height) (hh' : m.height < 33554432) (hp : 0 ≤ o.padding) (he : o.earliest = true) (ho : 100 ≤ o.width)
    (hn : 0 ≤ o.now) (hdur : 0 < o.duration) (cols : List (Col Shot)) (hc : ∀ k ∈ cols, 0 ≤ k.x ∧ 0 ≤ k.w ∧ k.x + k.w ≤ m.width) (hd : cols.Pairwise (fun a b => b.x + b.w ≤ a.x))
    (hheat : ∀ k ∈ cols, ∀ y, y < m.height.toNat → ((sceneBrush e colors w).heat k.data m.height y).isSome) (hkey : ∀ y, y < m.height.toNat → ((sceneBrush e colors w).key m.height y).isSome) :
    ∃ c pix, drawGraph (sceneStyle e w) (sceneBrush e colors w) m cols = some (c, pix) ∧
      (∃ (rank : Int → ℚ) (row : Int → Int), rank m.height = 0 ∧ row m.height = m.height - 1 ∧ row 0 = 0 ∧ (∀ y, 0 < y → y < m.height → row y = y - 1) ∧
        (∀ y, 0 ≤ y → y ≤ m.height → 0 ≤ rank y ∧ rank y ≤ 1 ∧ |rank y - (1 - (y : ℚ) / m.height)| ≤ 1 / 2 ^ 52) ∧
        ∀ y, (∃ k, y = 30 * k ∧ 0 ≤ y ∧ y ≤ m.height - 30) ∨ y = m.height →
          (∃ t r, Seen pix c.width.toNat (m.x - 37) (m.y + row y) 0 11 t ∧ t.length = 4 ∧ Says t r ∧ |r - (1 - (y : ℚ) / m.height)| ≤ 1 / 200 + 1 / 2 ^ 52) ∧
          (fFinite (e.half (e.quant w.obs (rank y))) = true → ∃ t r, Seen pix c.width.toNat (m.x + m.width + 28) (m.y + row y) 0 11 t ∧ Says t r ∧ Nearest3 (fVal (e.half (e.quant w.obs (rank y)))) r ∧
            |r - fVal (e.half (e.quant w.obs (rank y)))| ≤ |fVal (e.half (e.quant w.obs (rank y)))| / 200)) ∧
      (∃ unit, naturalUnit o.duration o.width = some unit ∧ 3600000000000 ≤ unit ∧ (12 * o.duration ≤ (m.width + 1) * unit → o.duration ≤ o.now → (∀ s, -86400 ≤ zone s) →
        ∀ x y txt, Mark.text x y txt ∈ m.bottom.draw iosevka pxOf → Seen pix c.width.toNat (m.x - 1 + x) (m.y + m.height + 13) 1 14 txt ∧
          ∃ t, unit ∣ t ∧ o.now - o.duration < t ∧ t ≤ o.now ∧ ∃ day sec : Nat, sec < 86400 ∧ ((day : Int) - 719162) * 86400 + sec = t / 1000000000 + zone (t / 1000000000) ∧
            SaysTime txt (dayNo day).month (dayNo day).day (sec / 3600) (sec % 3600 / 60))) ∧
      (∀ q, (peakOf cols (.fin 0, 0)).1 = .fin q → q = 0 ∨ ((10 : ℚ) ^ (-98 : ℤ) ≤ q ∧ q < 10 ^ (98 : ℤ)) → 0 ≤ (sceneBrush e colors w).peak cols → 102 ≤ m.x + m.width →
        ∃ t r, Seen pix c.width.toNat (m.x + if (sceneBrush e colors w).peak cols + 102 > m.width then m.width - 102 else (sceneBrush e colors w).peak cols) o.padding 0 14 ("obs/sec: ".toUTF8.toList ++ t) ∧
          Says t r ∧ Nearest3 q r ∧ |r - q| ≤ q / 200) := by
  have k1 : e.rankText = rankLabel := by rw [he0]; rfl
  have k2 : e.valueText = valueLabel old := by rw [he0]; rfl
  have k3 : e.rateText = rateLabel old := by rw [he0]; rfl
  have k4 : e.timeText = timeLabel zone := by rw [he0]; rfl
  have tl : ∀ x, 11 ≤ (timeLabel zone x).length ∧ (timeLabel zone x).length ≤ 13 ∧ ∀ b ∈ timeLabel zone x, Printable b := fun x => (timeLabel_text zone x rfl).2
  have nonnil : ∀ {t : Bytes} {n : Nat}, 0 < n → n ≤ t.length → t ≠ [] := fun h0 h1 e => by rw [e] at h1; simp at h1; omega
  obtain ⟨c, pix, g1, ⟨rank, row, g2, g3, g4, g5, g6, g7⟩, ⟨unit, g8, g9⟩, g10⟩ :=
    C95_scene hink (fun x => by rw [k4]; exact nonnil (by omega) (tl x).1) colors h (by omega) hw' hh hh' hp he ho hn hdur cols hc hd hheat hkey
  refine ⟨c, pix, g1, ⟨rank, row, g2, g3, g4, g5, g6, fun y hy => ⟨?_, fun hfin => ?_⟩⟩, ⟨unit, g8, ?_, fun hlong hpast hz x y txt hm => ?_⟩, fun q hq hr h0 h102 => ?_⟩
  · obtain ⟨b1, b2, b3⟩ := g6 y (by rcases hy with ⟨k, _, g, _⟩ | rfl <;> omega) (by rcases hy with ⟨k, _, _, g⟩ | rfl <;> omega)
    obtain ⟨r, r1, r2, _, r3, r4⟩ := C115_rank b1 b2
    have hs := (g7 y hy).1 (rankLabel (rank y)) (by rw [k1]) (nonnil (by omega) (le_of_eq r3.symm)) r4
    refine ⟨rankLabel (rank y), r, ?_, r3, r1, ?_⟩
    · rw [r3] at hs
      rw [show m.x - 37 = m.x - 13 - 6 * ((4 : ℕ) : ℤ) by push_cast; omega]
      exact hs
    · rw [show r - (1 - (y : ℚ) / m.height) = (r - rank y) + (rank y - (1 - (y : ℚ) / m.height)) by ring]
      exact (abs_add_le _ _).trans (add_le_add r2 b3)
  · obtain ⟨r, r1, r2, r3, r4, _, r5⟩ := C115_value old _ hfin
    exact ⟨_, r, (g7 y hy).2 (valueLabel old (e.half (e.quant w.obs (rank y)))) (by rw [k2]) (nonnil (by omega) r4) r5, r1, r2, r3⟩
  · obtain ⟨u, hu, hmem, _⟩ := C74_unit o.duration o.width ho
    rw [g8] at hu
    injection hu with hu
    subst hu
    have : ∀ u ∈ naturalUnits, (3600000000000 : Int) ≤ u := by decide
    exact this _ hmem
  · obtain ⟨⟨t, t1, t2, t3, t4⟩, hs⟩ := g9 hlong (fun t => by rw [k4]; have := (tl t).2.1; omega) (fun t => by rw [k4]; exact (tl t).2.2) x y txt hm
    obtain ⟨day, sec, s1, s2, s3, _⟩ := C115_time zone (x := t) (by omega) (hz _)
    rw [k4] at t4
    rw [← t4] at s3
    exact ⟨hs, t, t1, t2, t3, day, sec, s1, s2, s3⟩
  · obtain ⟨t, r, r1, r2, r3, r4, r5, r6⟩ := C115_rate old hr
    have hlab : rateLabel old (.fin q) = (sceneBrush e colors w).label cols := by
      show _ = e.rateText (peakOf cols (.fin 0, 0)).1
      rw [k3, hq]
    have := g10 _ hlab r6 r5 h0 h102
    rw [r1] at this
    exact ⟨t, r, this, r2, r3, r4⟩

end Rothko
