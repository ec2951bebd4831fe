import Verif.Props.GraphText
import Verif.Props.SceneMore
/-!
# C95: the texts of a graph that is drawn do not overlap, and can be read
-/
namespace Rothko

/-! ## The texts of a graph do not overlap -/

/-- The texts of labels that are 25 pixels or more apart are one below the other. -/
theorem vtexts_below {P : Type} (px : Int → P → Int) (m : AxisM P) (hv : m.opts.vertical = true) (hs : m.opts.labels.Pairwise (fun a b => px m.opts.length a.pos + 25 ≤ px m.opts.length b.pos)) : Below (textsOf (m.draw iosevka px)) := by
  have top : ∀ t : Bytes, iosevka.top t = 0 ∨ iosevka.top t = -11 := by
    intro t
    unfold iosevka
    dsimp only
    split
    · exact .inl rfl
    · exact .inr rfl
  have key : ∀ (ls : List (Label P)) (occ : Int), ls.Pairwise (fun a b => px m.opts.length a.pos + 25 ≤ px m.opts.length b.pos) → Below (textsOf (drawVLoop iosevka px m ls occ)) := by
    intro ls
    induction ls with
    | nil => intro occ _; exact List.Pairwise.nil
    | cons l ls ih =>
      intro occ hp
      obtain ⟨h1, h2⟩ := List.pairwise_cons.mp hp
      unfold drawVLoop
      dsimp only
      split
      · rw [textsOf_append, textsOf_dots, List.nil_append]
        exact ih _ h2
      · split
        · rw [textsOf_append, textsOf_dots, List.nil_append]
          exact ih _ h2
        · rw [textsOf_append, textsOf_dots, List.nil_append]
          refine List.pairwise_cons.mpr ⟨fun b hb => ?_, ih _ h2⟩
          obtain ⟨x', y', t'⟩ := b
          obtain ⟨l', hl', e1, e2, _⟩ := vtext_mem iosevka px m x' y' t' ls _ (textsOf_mem.mp hb)
          have := h1 l' hl'
          dsimp only
          rw [e2]
          have := top l.text
          have := top l'.text
          omega
  unfold AxisM.draw
  rw [if_pos hv, textsOf_append, textsOf_dots, List.nil_append]
  exact key _ _ hs

/-- The texts of the side axes of a graph are one below the other. -/
theorem side_below {e : Outside} {w : TWrap} (text : Int → Int → Bytes) {h : Int} (h1 : 1 ≤ h) (hh : h < 33554432) (flip : Bool) (m : AxisM Pos)
    (hm : m = axisMeasure iosevka pxOf { labels := sideLabels (sceneStyle e w) text h, vertical := true, length := h, flip := flip }) : Below (textsOf (m.draw iosevka pxOf)) := by
  have hopts : m.opts = { labels := sideLabels (sceneStyle e w) text h, vertical := true, length := h, flip := flip } := by rw [hm, axisMeasure_opts]
  have hlen : m.opts.length = h := by rw [hopts]
  have hlab : m.opts.labels = sideLabels (sceneStyle e w) text h := by rw [hopts]
  obtain ⟨r1, r2, r3⟩ := rowsLoop_spec h h.toNat 0
  have hrow : ∀ y ∈ rowsLoop h h.toNat 0, pxOf h ((sceneStyle e w).posY y h) = if y = 0 then 0 else y - 1 := fun y hy => by
    obtain ⟨a, b, _⟩ := r1 y hy
    exact px_row a (by omega) hh
  have hlast : pxOf h (sceneStyle e w).one = h - 1 := px_last h1 hh _ rfl
  refine vtexts_below pxOf m (by rw [hopts]) ?_
  rw [hlen, hlab]
  unfold sideLabels
  rw [List.pairwise_append]
  refine ⟨?_, List.pairwise_singleton _ _, fun a ha b hb => ?_⟩
  · rw [List.pairwise_map]
    refine r2.imp_of_mem (fun {a b} ha hb hab => ?_)
    rw [hrow a ha, hrow b hb]
    have := (r1 a ha).1
    split <;> split <;> omega
  · obtain ⟨y, hy, rfl⟩ := List.mem_map.mp ha
    rw [List.mem_singleton.mp hb]
    have := hrow y hy
    obtain ⟨a1, a2, _⟩ := r1 y hy
    dsimp only
    rw [this, hlast]
    split <;> omega

/-- Spaced texts, all but the first after the first ten pixels, are side by side. -/
theorem spaced_beside (l : List (Int × Int × Bytes)) (h : Spaced iosevka l) (ht : ∀ b ∈ l.tail, 10 ≤ b.1) : Beside l := by
  induction l with
  | nil => exact List.Pairwise.nil
  | cons a l ih =>
    cases l with
    | nil => exact List.pairwise_singleton _ _
    | cons b l =>
      obtain ⟨h1, h2⟩ := h
      have hb : 10 ≤ b.1 := ht b (by simp)
      have hr : Beside (b :: l) := ih h2 (fun c hc => ht c (by simp only [List.tail_cons] at hc ⊢; exact List.mem_cons_of_mem _ hc))
      have hab : a.1 + 6 * (a.2.2.length : Int) + 10 < b.1 := by
        rcases h1 with h1 | h1
        · omega
        · exact h1
      refine List.pairwise_cons.mpr ⟨fun c hc => ?_, hr⟩
      rcases List.mem_cons.mp hc with e | e
      · rw [e]; omega
      · have := (List.pairwise_cons.mp hr).1 c e
        omega

theorem htexts_mem {P : Type} (f : Font) (px : Int → P → Int) (m : AxisM P) (ls : List (Label P)) (occ : Int) (c : Int × Int × Bytes) (h : c ∈ textsOf (drawHLoop f px m ls occ)) : ∃ l ∈ ls, c.1 = (labelAt f px m.opts l).1 ∧ c.2.2 = l.text := by
  induction ls generalizing occ with
  | nil => cases h
  | cons l ls ih =>
    have next : (∃ l' ∈ ls, c.1 = (labelAt f px m.opts l').1 ∧ c.2.2 = l'.text) → ∃ l' ∈ l :: ls, c.1 = (labelAt f px m.opts l').1 ∧ c.2.2 = l'.text := fun ⟨l', h1, h2⟩ => ⟨l', by simp [h1], h2⟩
    unfold drawHLoop at h
    dsimp only at h
    split at h
    · rw [textsOf_append, textsOf_dots, List.nil_append] at h
      exact next (ih _ h)
    · rw [textsOf_append, textsOf_append, textsOf_dots, textsOf_dots, List.nil_append, List.nil_append] at h
      rcases List.mem_cons.mp h with h | h
      · exact ⟨l, by simp, by rw [h], by rw [h]⟩
      · exact next (ih _ h)

/-- After the first label's text come those of the other labels. -/
theorem htexts_tail {P : Type} (f : Font) (px : Int → P → Int) (m : AxisM P) (hv : m.opts.vertical = false) (l : Label P) (ls : List (Label P)) (hl : m.opts.labels = l :: ls) (c : Int × Int × Bytes) (h : c ∈ (textsOf (m.draw f px)).tail) :
    ∃ l' ∈ ls, c.1 = (labelAt f px m.opts l').1 := by
  unfold AxisM.draw at h
  rw [if_neg (by simp [hv]), textsOf_append, textsOf_dots, List.nil_append, hl] at h
  unfold drawHLoop at h
  dsimp only at h
  rw [if_neg (by unfold axisFits; simp), textsOf_append, textsOf_append, textsOf_dots, textsOf_dots, List.nil_append, List.nil_append] at h
  obtain ⟨l', h1, h2, _⟩ := htexts_mem f px m ls _ c h
  exact ⟨l', h1, h2⟩

/-- Times of different labels are at least a unit apart. -/
theorem unit_apart {u a b : Int} (hu : 0 < u) (ha : u ∣ a) (hb : u ∣ b) (h : a < b) : a + u ≤ b := by
  obtain ⟨i, rfl⟩ := ha
  obtain ⟨j, rfl⟩ := hb
  have : i < j := Int.lt_of_mul_lt_mul_left h (by omega)
  have : u * (i + 1) ≤ u * j := Int.mul_le_mul_of_nonneg_left (by omega) (by omega)
  rw [Int.mul_add, Int.mul_one] at this
  omega

/-- **C95** (times). If a unit of time is 12 pixels long, and the texts leave ten pixels of the axis free, the texts under the graph are side by side. -/
theorem C95_times {e : Outside} {w : TWrap} {o : GraphOpts} {m : GraphM Pos} (h : graphMeasure (sceneStyle e w) o = .ok m) (hw : 1 ≤ m.width) (hw' : m.width < 2147483646) (ho : 100 ≤ o.width) (hn : 0 ≤ o.now) (hd : 0 < o.duration)
    {unit : Int} (hu : naturalUnit o.duration o.width = some unit) (hlong : 12 * o.duration ≤ (m.width + 1) * unit) (hne : ∀ t, e.timeText t ≠ []) (hfit : ∀ t, 6 * ((e.timeText t).length : Int) ≤ m.width - 8) :
    Beside (textsOf (m.bottom.draw iosevka pxOf)) := by
  obtain ⟨guess, ht⟩ := graphMeasure_try h
  obtain ⟨⟨unit', hu', hb⟩, _, _⟩ := tryMeasure_parts ht
  rw [hu] at hu'
  injection hu' with hu'
  subst hu'
  obtain ⟨u', hu', _, hpos, _⟩ := C74_unit o.duration o.width ho
  rw [hu] at hu'
  injection hu' with hu'
  subst hu'
  obtain ⟨htimes, hsort⟩ := C74_times unit o.now o.duration (by omega) hn
  have hopts : m.bottom.opts = { labels := (timesFrom unit o.now o.duration).reverse.map (fun x => (⟨(sceneStyle e w).posT o.now x o.duration, (sceneStyle e w).timeText x⟩ : Label Pos)), vertical := false, length := m.width + 2, dontBleed := true } := by
    rw [hb, axisMeasure_opts]
  have hlen : m.bottom.opts.length = m.width + 2 := by rw [hopts]
  have hvb : m.bottom.opts.vertical = false := by rw [hopts]
  have hlab : m.bottom.opts.labels = (timesFrom unit o.now o.duration).reverse.map (fun x => (⟨(sceneStyle e w).posT o.now x o.duration, (sceneStyle e w).timeText x⟩ : Label Pos)) := by rw [hopts]
  have wide : ∀ t, iosevka.wide (e.timeText t) = 6 * ((e.timeText t).length : Int) := fun _ => rfl
  have adv : ∀ t, iosevka.adv (e.timeText t) = 6 * ((e.timeText t).length : Int) := fun _ => rfl
  have len : ∀ t, 1 ≤ (e.timeText t).length := fun t => by have := hne t; cases hx : e.timeText t with | nil => exact absurd hx this | cons _ _ => simp
  refine spaced_beside _ (C73_spaced_partial iosevka pxOf m.bottom hvb ?_) ?_
  · intro l hl
    rw [hlab] at hl
    obtain ⟨t, _, rfl⟩ := List.mem_map.mp hl
    unfold labelAt
    dsimp only
    rw [hlen]
    have b := pxOf_bounds (m.width + 2) ((sceneStyle e w).posT o.now t o.duration) (by omega)
    have l1 := len t
    have l2 := hfit t
    rw [show (sceneStyle e w).timeText t = e.timeText t from rfl, adv, wide]
    split
    · dsimp only; omega
    · dsimp only; omega
  · intro c hc
    cases hts : (timesFrom unit o.now o.duration).reverse with
    | nil =>
      rw [hts] at hlab
      unfold AxisM.draw at hc
      rw [if_neg (by simp [hvb]), textsOf_append, textsOf_dots, List.nil_append, hlab] at hc
      cases hc
    | cons t0 ts =>
      rw [hts, List.map_cons] at hlab
      obtain ⟨l', hl', e1⟩ := htexts_tail iosevka pxOf m.bottom hvb _ _ hlab c hc
      obtain ⟨t, htm, rfl⟩ := List.mem_map.mp hl'
      rw [hts] at hsort
      have hlt := (List.pairwise_cons.mp hsort).1 t htm
      have mem : ∀ x ∈ t0 :: ts, unit ∣ x ∧ o.now - o.duration < x ∧ x ≤ o.now := fun x hx => (htimes x).mp (List.mem_reverse.mp (by rw [hts]; exact hx))
      obtain ⟨d1, d2, d3⟩ := mem t0 (by simp)
      obtain ⟨f1, f2, f3⟩ := mem t (by simp [htm])
      have hap := unit_apart (by omega) d1 f1 hlt
      rw [e1]
      unfold labelAt
      dsimp only
      rw [hlen, show (sceneStyle e w).timeText t = e.timeText t from rfl, wide]
      have l2 := hfit t
      split
      · dsimp only; omega
      · dsimp only
        obtain ⟨unit', hu'', tick, _, _⟩ := C86_times h hw hw' ho hn hd
        obtain ⟨n1, n2⟩ := pxOf_near ((sceneStyle e w).posT o.now t o.duration) (show 1 ≤ m.width + 2 by omega) (by omega)
        obtain ⟨p1, p2⟩ := (C86_positions e w).2 o.now t o.duration hd (by omega) f3
        rw [p1, show m.width + 2 - 1 = m.width + 1 by ring] at n2
        have hW : (0 : ℚ) ≤ ((m.width + 1 : Int) : ℚ) := by exact_mod_cast (show 0 ≤ m.width + 1 by omega)
        have hW2 : ((m.width + 1 : Int) : ℚ) ≤ 2147483648 := by exact_mod_cast (show m.width + 1 ≤ 2147483648 by omega)
        have er : |((m.width + 1 : Int) : ℚ) * timeAt o.now t o.duration - ((m.width + 1 : Int) : ℚ) * (1 - ((o.now - t : Int) : ℚ) / (o.duration : ℚ))| ≤ 1 / 2 ^ 18 := by
          rw [← mul_sub, abs_mul, abs_of_nonneg hW]
          calc _ ≤ (2147483648 : ℚ) * (1 / 2 ^ 49) := mul_le_mul hW2 p2 (abs_nonneg _) (by norm_num)
            _ = 1 / 2 ^ 18 := by norm_num
        have far : (12 : ℚ) ≤ ((m.width + 1 : Int) : ℚ) * (1 - ((o.now - t : Int) : ℚ) / (o.duration : ℚ)) := by
          have hdq : (0 : ℚ) < o.duration := by exact_mod_cast hd
          have e3 : (1 : ℚ) - ((o.now - t : Int) : ℚ) / (o.duration : ℚ) = ((o.duration - (o.now - t) : Int) : ℚ) / o.duration := by
            rw [Int.cast_sub o.duration, sub_div, div_self (ne_of_gt hdq)]
          rw [e3, ← mul_div_assoc, le_div_iff₀ hdq]
          have : 12 * o.duration ≤ (m.width + 1) * (o.duration - (o.now - t)) := hlong.trans (Int.mul_le_mul_of_nonneg_left (by omega) (by omega))
          exact_mod_cast this
        rw [abs_le] at er
        generalize ((m.width + 1 : Int) : ℚ) * timeAt o.now t o.duration = a at er n2
        generalize ((m.width + 1 : Int) : ℚ) * (1 - ((o.now - t : Int) : ℚ) / (o.duration : ℚ)) = b at er far
        have : (10 : ℚ) < pxOf (m.width + 2) ((sceneStyle e w).posT o.now t o.duration) := by
          norm_num at er n2 ⊢
          linarith [er.1, er.2]
        have : (10 : Int) < pxOf (m.width + 2) ((sceneStyle e w).posT o.now t o.duration) := by exact_mod_cast this
        omega

/-- A text of an axis that must not bleed ends with it. -/
theorem labelAt_end {P : Type} {px : Int → P → Int} {m : AxisM P} {ls : List (Label P)} {n : Int} (hm : m = axisMeasure iosevka px { labels := ls, vertical := false, length := n, dontBleed := true }) {x y : Int} {t : Bytes} (h : Mark.text x y t ∈ m.draw iosevka px) :
    x + 6 * (t.length : Int) ≤ n := by
  have hopts : m.opts = { labels := ls, vertical := false, length := n, dontBleed := true } := by rw [hm, axisMeasure_opts]
  have hv : m.opts.vertical = false := by rw [hopts]
  have h' := textsOf_mem.mpr h
  unfold AxisM.draw at h'
  rw [if_neg (by simp [hv]), textsOf_append, textsOf_dots, List.nil_append] at h'
  obtain ⟨l, _, e1, e2⟩ := htexts_mem iosevka px m _ _ _ h'
  dsimp only at e1 e2
  rw [e1, e2]
  unfold labelAt
  dsimp only
  have hd : m.opts.dontBleed = true := by rw [hopts]
  have hlen : m.opts.length = n := by rw [hopts]
  have wide : iosevka.wide l.text = 6 * (l.text.length : Int) := rfl
  rw [hd, hlen]
  split
  · dsimp only; omega
  · rename_i hb
    dsimp only at hb ⊢
    simp only [true_and] at hb
    omega

/-- **C95**. The texts of a graph can be read from its picture. Beside the ticks of the side axes, in rows `row y` for `y = 0, 30, 60, …` and the last, stand the rank of the row and the value of that rank among the newest interval's observations,
character by character down to the baseline; under the graph the times, but for their first row of pixels; above the bars the greatest rate. (For texts of printable characters.) -/
theorem C95_scene {e : Outside} (hink : e.ink = inkText) (htimes : ∀ x, e.timeText x ≠ []) (colors : List Color) {w : TWrap} {o : GraphOpts} {m : GraphM Pos} (h : graphMeasure (sceneStyle e w) o = .ok m)
    (hw : 1 ≤ m.width) (hw' : m.width < 2147483646) (hh : 1 ≤ m.height) (hh' : m.height < 33554432) (hp : 0 ≤ o.padding) (he : o.earliest = true) (ho : 100 ≤ o.width) (hn : 0 ≤ o.now) (hdur : 0 < o.duration)
    (cols : List (Col Shot)) (hc : ∀ k ∈ cols, 0 ≤ k.x ∧ 0 ≤ k.w ∧ k.x + k.w ≤ m.width) (hd : cols.Pairwise (fun a b => b.x + b.w ≤ a.x))
    (hheat : ∀ k ∈ cols, ∀ y, y < m.height.toNat → ((sceneBrush e colors w).heat k.data m.height y).isSome) (hkey : ∀ y, y < m.height.toNat → ((sceneBrush e colors w).key m.height y).isSome) :
    ∃ c pix, drawGraph (sceneStyle e w) (sceneBrush e colors w) m cols = some (c, pix) ∧
      (∃ (rank : Int → ℚ) (row : Int → Int), rank m.height = 0 ∧ row m.height = m.height - 1 ∧ row 0 = 0 ∧ (∀ y, 0 < y → y < m.height → row y = y - 1) ∧
        (∀ y, 0 ≤ y → y ≤ m.height → 0 ≤ rank y ∧ rank y ≤ 1 ∧ |rank y - (1 - (y : ℚ) / m.height)| ≤ 1 / 2 ^ 52) ∧
        ∀ y, (∃ k, y = 30 * k ∧ 0 ≤ y ∧ y ≤ m.height - 30) ∨ y = m.height →
          (∀ t, t = e.rankText (rank y) → t ≠ [] → (∀ a ∈ t, Printable a) → Seen pix c.width.toNat (m.x - 13 - 6 * t.length) (m.y + row y) 0 11 t) ∧
          ∀ t, t = e.valueText (e.half (e.quant w.obs (rank y))) → t ≠ [] → (∀ a ∈ t, Printable a) → Seen pix c.width.toNat (m.x + m.width + 28) (m.y + row y) 0 11 t) ∧
      (∃ unit, naturalUnit o.duration o.width = some unit ∧ (12 * o.duration ≤ (m.width + 1) * unit → (∀ t, 6 * ((e.timeText t).length : Int) ≤ m.width - 8) → (∀ t, ∀ a ∈ e.timeText t, Printable a) →
        ∀ x y txt, Mark.text x y txt ∈ m.bottom.draw iosevka pxOf → (∃ t, unit ∣ t ∧ o.now - o.duration < t ∧ t ≤ o.now ∧ txt = e.timeText t) ∧ Seen pix c.width.toNat (m.x - 1 + x) (m.y + m.height + 13) 1 14 txt)) ∧
      (∀ t, t = (sceneBrush e colors w).label cols → (∀ a ∈ t, Printable a) → t.length ≤ 17 → 0 ≤ (sceneBrush e colors w).peak cols → 102 ≤ m.x + m.width →
        Seen pix c.width.toNat (m.x + if (sceneBrush e colors w).peak cols + 102 > m.width then m.width - 102 else (sceneBrush e colors w).peak cols) o.padding 0 14 t) := by
  have hok : e.Ok := ⟨htimes, C95_inside _ hink⟩
  obtain ⟨guess, ht⟩ := graphMeasure_try h
  obtain ⟨_, hl, hr⟩ := tryMeasure_parts ht
  have h13 := (tryMeasure_ok (sceneStyle_ok hok w) ht).2.2.2.2.2.2.2.2.2.2.2.2.1
  obtain ⟨c, pix, e1, sL, sR, sB, sO⟩ := C95_graph (sceneStyle_ok hok w) rfl (sceneBrush e colors w) hink h (by omega) hh hp he rfl cols hc hd hheat hkey
  obtain ⟨right, er, rank, row, k1, k2, k3, k4, k5, k6⟩ := C86_ranks h he hh hh'
  have hr := hr he
  rw [er] at hr
  injection hr with hr
  have top : ∀ t : Bytes, t ≠ [] → iosevka.top t = -11 := fun t ht => by unfold iosevka; exact if_neg ht
  refine ⟨c, pix, e1, ⟨rank, row, k1, k2, k3, k4, k5, fun y hy => ⟨fun t e2 hne hpr => ?_, fun t e2 hne hpr => ?_⟩⟩, ?_, fun t e2 => by rw [e2]; exact sO⟩
  · obtain ⟨_, ⟨x, hx⟩, _⟩ := k6 y hy
    rw [← e2, top t hne] at hx
    have hx' := left_texts (px := pxOf) hl rfl rfl (fun l _ => pxOf_bounds _ _ hh) hx hne
    have := sL x _ t hx hne hpr (side_below (e := e) (w := w) _ hh hh' true m.left hl)
    rw [hx'.1, show o.padding + (m.left.width - 13 - 6 * (t.length : Int)) = m.x - 13 - 6 * t.length by omega, show m.y + (row y - -11) - 11 = m.y + row y by omega] at this
    exact this
  · obtain ⟨_, _, hx⟩ := k6 y hy
    rw [← e2, top t hne] at hx
    have := sR right er 13 _ t hx hne hpr (side_below (e := e) (w := w) _ hh hh' false right hr)
    rw [show m.x + m.width + 15 + 13 = m.x + m.width + 28 by omega, show m.y + (row y - -11) - 11 = m.y + row y by omega] at this
    exact this
  · obtain ⟨unit, hu, tick, t1, t2⟩ := C86_times h hw hw' ho hn hdur
    refine ⟨unit, hu, fun hlong hfit hpr x y txt hm => ?_⟩
    obtain ⟨t, d1, d2, d3, d4, d5⟩ := t2 x y txt hm
    refine ⟨⟨t, d1, d2, d3, d4⟩, ?_⟩
    have hb := C95_times h hw hw' ho hn hdur hu hlong htimes hfit
    obtain ⟨b0, b1, _⟩ := t1 t d1 d2 d3
    have wide : iosevka.wide txt = 6 * (txt.length : Int) := rfl
    have l2 := hfit t
    rw [← d4] at l2
    have h6 := (tryMeasure_ok (sceneStyle_ok hok w) ht).2.2.2.2.2.1
    refine sB x y txt hm (by rw [d4]; exact htimes t) (by rw [d4]; exact hpr t) hb ?_ ?_
    · omega
    · rcases d5 with d5 | d5
      · obtain ⟨⟨_, _, hbm⟩, _, _⟩ := tryMeasure_parts ht
        have := labelAt_end hbm hm
        omega
      · omega

/-! ## Example -/

instance (a : UInt8) : Decidable (Printable a) := by unfold Printable; infer_instance

/-- As `exOut`, with the texts drawn. -/
def exInk : Outside := { exOut with ink := inkText }

set_option maxRecDepth 100000 in
theorem exInk_measured : triedSizes (graphMeasure (sceneStyle exInk { obs := [0x3ff0000000000000#64, 0x4000000000000000#64] }) (exGraph 1)) = some (41, 25, 911, 300) := by decide +kernel

set_option maxRecDepth 100000 in
/-- **C95 example.** In the picture of a graph of a day, "1.00" can be read at the top of the right axis, "0.50" on the left one, the time "1/2 @ 12:00" wherever it was put, and "o" above. -/
theorem C95_example : ∃ m c pix, graphMeasure (sceneStyle exInk { obs := [0x3ff0000000000000#64, 0x4000000000000000#64] }) (exGraph 1) = .ok m ∧
    drawGraph (sceneStyle exInk { obs := [0x3ff0000000000000#64, 0x4000000000000000#64] }) (sceneBrush exInk viridis { obs := [0x3ff0000000000000#64, 0x4000000000000000#64] }) m [] = some (c, pix) ∧
    Seen pix c.width.toNat 4 25 0 11 [48, 46, 53, 48] ∧ Seen pix c.width.toNat 4 324 0 11 [48, 46, 53, 48] ∧ Seen pix c.width.toNat 980 25 0 11 [49, 46, 48, 48] ∧ Seen pix c.width.toNat 41 4 0 14 [111] ∧
    ∀ x y txt, Mark.text x y txt ∈ m.bottom.draw iosevka pxOf → Seen pix c.width.toNat (40 + x) 338 1 14 txt := by
  have hm := exInk_measured
  cases h : graphMeasure (sceneStyle exInk { obs := [0x3ff0000000000000#64, 0x4000000000000000#64] }) (exGraph 1) with
  | panic => rw [h] at hm; cases hm
  | small => rw [h] at hm; cases hm
  | ok m =>
    rw [h] at hm
    have h1 : some (m.x, m.y, m.width, m.height) = some (41, 25, 911, 300) := hm
    obtain ⟨mx, my, mw, mh⟩ : m.x = 41 ∧ m.y = 25 ∧ m.width = 911 ∧ m.height = 300 := by
      injection h1 with h1; injection h1 with a h1; injection h1 with b h1; injection h1 with c d; exact ⟨a, b, c, d⟩
    obtain ⟨c, pix, hdraw, ⟨rank, row, _, k2, k3, _, _, k6⟩, ⟨unit, hu, htx⟩, hlab⟩ := C95_scene (e := exInk) rfl (fun _ => by intro h; cases h) viridis h (by omega) (by omega) (by omega) (by omega) (by decide) rfl (by decide) (by decide) (by decide) []
      (fun k hk => by cases hk) List.Pairwise.nil (fun k hk => by cases hk) (by rw [mh]; decide +kernel)
    rw [mx, my, mw, mh] at k6
    rw [mx, my, mw, mh] at htx
    rw [mh] at k2
    rw [mx, mw] at hlab
    have hunit : naturalUnit (exGraph 1).duration (exGraph 1).width = some 7200000000000 := by decide +kernel
    rw [hunit] at hu
    injection hu with hu
    subst hu
    have p1 : ∀ a ∈ ([48, 46, 53, 48] : Bytes), Printable a := by decide
    have p2 : ∀ a ∈ ([49, 46, 48, 48] : Bytes), Printable a := by decide
    have z := k6 0 (.inl ⟨0, by omega, by omega, by omega⟩)
    have l := k6 300 (.inr rfl)
    rw [k3] at z
    rw [k2] at l
    refine ⟨m, c, pix, rfl, hdraw, z.1 _ rfl (by decide) p1, l.1 _ rfl (by decide) p1, z.2 _ rfl (by decide) p2, hlab _ rfl (by decide) (by decide) (by decide) (by omega), ?_⟩
    intro x y txt hm
    exact (htx (by decide) (fun t => show 6 * ((([49, 47, 50, 32, 64, 32, 49, 50, 58, 48, 48] : Bytes).length : Nat) : Int) ≤ 911 - 8 by decide) (fun t => show ∀ a ∈ ([49, 47, 50, 32, 64, 32, 49, 50, 58, 48, 48] : Bytes), Printable a by decide) x y txt hm).2

end Rothko
