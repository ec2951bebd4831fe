import Verif.Props.Ticks
import Verif.Model.Viridis
import Verif.Spec.Shown
/-!
# C87: from observations to colours
-/
namespace Rothko

theorem fresh_new (quant : List F64 → Rat → F64) (obs : List F64) : ({ obs := obs } : TWrap).Fresh quant := by intro q v h; simp at h

theorem cdf_new (quant : List F64 → Rat → F64) (obs : List F64) (v : F64) : (TWrap.cdf quant { obs := obs } v).1 = cdfOf (quant obs) v := (cdf_fresh (fresh_new quant obs) v).1

/-- The samples of a column, for each number of samples from 1 on. -/
theorem sampleRanks_get {n : ℕ} (h1 : 1 ≤ n) (hn : n < 2 ^ 53) {i : ℕ} (hi : i ≤ n) : (sampleRanks n)[i]? = some (some (rn ((i : ℚ) / n))) := by
  unfold sampleRanks
  rw [if_neg (by omega), if_neg (by omega), Int.toNat_natCast, List.getElem?_map, List.getElem?_range (by omega), Option.map_some, toDouble_eq (by omega), toDouble_eq hn]

theorem sampleRanks_length {n : ℕ} (h1 : 1 ≤ n) : (sampleRanks n).length = n + 1 := by
  unfold sampleRanks
  rw [if_neg (by omega), if_neg (by omega), List.length_map, List.length_range, Int.toNat_natCast]

theorem emitShot_data {e : Outside} {n : ℕ} (h1 : 1 ≤ n) {rs : List DRec} {s : Shot} (h : emitShot e n rs = some s) : s.data.length = n + 1 ∧ s.rate = obsRate rs := by
  unfold emitShot at h
  split at h
  · cases h
  · split at h
    · cases h
    · injection h with h
      subst h
      exact ⟨by rw [List.length_map, sampleRanks_length h1], rfl⟩

theorem heatAt_some {e : Outside} {colors : List Color} (hc : 1 ≤ colors.length) (hN : colors.length ≤ 2 ^ 40) (w : TWrap) (s : Shot) (hd : 1 ≤ s.data.length) (hd' : s.data.length ≤ 2 ^ 50) {h : ℕ} (h2 : 2 ≤ h) (hh : h ≤ 2 ^ 53) {y : ℕ} (hy : y < h) :
    ∃ (i : ℕ) (v : F64) (c : Color), rowIndex s.data.length h y = some i ∧ s.data[i]? = some v ∧ colors[colourIndex colors.length (cdfOf (e.quant w.obs) v)]? = some c ∧ heatAt e colors w s h y = some c := by
  obtain ⟨i, hi, hin⟩ := C84_range hd h2 hd' hh hy
  have hv : s.data[i]? = some s.data[i] := List.getElem?_eq_getElem hin
  have hlt := (C84_shade e.quant w.obs [] hc hN s.data[i]).2.1
  rw [queried_cdf] at hlt
  refine ⟨i, _, _, hi, hv, List.getElem?_eq_getElem hlt, ?_⟩
  unfold heatAt
  rw [hi]
  dsimp only
  rw [hv]
  dsimp only
  rw [cdf_new, List.getElem?_eq_getElem hlt]

/-- **C87** (rows). `Heatmap.Draw` remembers the row before and the quantiles asked for before; each row has the colour it has by itself. -/
theorem C87_rows (e : Outside) {colors : List Color} (hc : 1 ≤ colors.length) (hN : colors.length ≤ 2 ^ 40) (w : TWrap) (asked : List F64) (s : Shot) (hd : 1 ≤ s.data.length) (hd' : s.data.length ≤ 2 ^ 50) {h : ℕ} (h2 : 2 ≤ h) (hh : h ≤ 2 ^ 53) :
    ∃ rows w', columnColours e.quant colors s.data h (queried e.quant w.obs asked) = some (rows, w') ∧ rows.length = h ∧ ∀ y, y < h → rows[y]? = heatAt e colors w s h y := by
  obtain ⟨f, o⟩ := cdfs_fresh e.quant asked _ (fresh_new e.quant w.obs)
  cases colors with
  | nil => simp at hc
  | cons c cs =>
    obtain ⟨rows, w', hr, _, _, hl, hrow⟩ := heatColours_spec e.quant (c :: cs) hc hN s.data hd hd' h2 hh w.obs h 0 (by omega) none c (queried e.quant w.obs asked) ⟨f, o⟩ (fun i hi => by cases hi)
    refine ⟨rows, w', ?_, hl, fun y hy => ?_⟩
    · unfold columnColours
      rw [Int.toNat_natCast]
      exact hr
    · obtain ⟨i, v, hi, hv, hcol⟩ := hrow y hy
      rw [Nat.zero_add] at hi
      unfold heatAt
      rw [hi]
      dsimp only
      rw [hv]
      dsimp only
      rw [cdf_new, hcol]

theorem iosevka_below (t : Bytes) : iosevka.top t + iosevka.high t ≤ 3 := by
  show (if t = [] then (0 : Int) else -11) + (if t = [] then (0 : Int) else 14) ≤ 3
  split <;> decide

theorem scene_ink {e : Outside} (he : e.Ok) (colors : List Color) (w : TWrap) : InkOk (sceneStyle e w).font (sceneBrush e colors w) := fun W H c x y t pix v i => he.ink W H c x y t pix v i

theorem scene_label (e : Outside) (colors : List Color) (w : TWrap) (cols : List (Col Shot)) :
    (sceneStyle e w).font.top ((sceneBrush e colors w).label cols) + (sceneStyle e w).font.high ((sceneBrush e colors w).label cols) ≤ (sceneStyle e w).font.top (sceneStyle e w).obsText + (sceneStyle e w).font.high (sceneStyle e w).obsText + 1 := by
  have h1 : iosevka.top ((sceneBrush e colors w).label cols) + iosevka.high ((sceneBrush e colors w).label cols) ≤ 3 := iosevka_below _
  have h2 : (sceneStyle e w).font.top (sceneStyle e w).obsText + (sceneStyle e w).font.high (sceneStyle e w).obsText = 3 := rfl
  rw [h2]
  exact Int.le_trans h1 (by decide)

theorem scene_heat {e : Outside} {n : ℕ} (h1 : 1 ≤ n) (hn : n < 2 ^ 50) {colors : List Color} (hc : 1 ≤ colors.length) (hN : colors.length ≤ 2 ^ 40) (w : TWrap) (l : List DRec) (s : Shot) (h : Int) (y : ℕ)
    (hs : emitShot e n l = some s) (h2 : 2 ≤ h) (hh : h ≤ 9007199254740992) (hy : (y : Int) < h) : (heatAt e colors w s h y).isSome := by
  obtain ⟨hl, _⟩ := emitShot_data h1 hs
  obtain ⟨k, rfl⟩ : ∃ k : ℕ, h = k := ⟨h.toNat, by omega⟩
  obtain ⟨_, _, c, _, _, _, hc⟩ := heatAt_some (e := e) hc hN w s (by omega) (by omega) (h := k) (by omega) (by omega) (y := y) (by omega)
  rw [hc]
  rfl

theorem scene_key {colors : List Color} (hc : 1 ≤ colors.length) (hN : colors.length ≤ 2 ^ 40) (h : Int) (y : ℕ) (h2 : 2 ≤ h) (hh : h ≤ 9007199254740992) (hy : (y : Int) < h) : (keyColour colors h y).isSome := by
  obtain ⟨k, rfl⟩ : ∃ k : ℕ, h = k := ⟨h.toNat, by omega⟩
  obtain ⟨i, hi, hin⟩ := C84_range hc (h := k) (y := k - 1 - y) (by omega) (by omega) (by omega) (by omega)
  unfold keyColour
  rw [show ((k : ℤ) - 1).toNat - y = k - 1 - y by omega, hi]
  dsimp only
  rw [List.getElem?_eq_getElem hin]
  rfl

/-- Pictures are as C77 expects them, with at least one sample and colour. -/
theorem theScene_ok {e : Outside} (he : e.Ok) {n : ℕ} (h1 : 1 ≤ n) (hn : n < 2 ^ 50) {colors : List Color} (hc : 1 ≤ colors.length) (hN : colors.length ≤ 2 ^ 40) : (theScene e n colors).Ok 14 where
  style w := sceneStyle_ok he w
  ink w := scene_ink he colors w
  right w t := Int.le_add_of_nonneg_right (by decide)
  label w cols := scene_label e colors w cols
  heat w l s h y hs h2 hh hy := scene_heat h1 hn hc hN w l s h y hs h2 hh hy
  key w h y h2 hh hy := scene_key hc hN h y h2 hh hy

/-! ## Digests -/

/-- The t-digest library reads what it wrote and what the distribution of the configuration wrote (`state vals` for the observations `vals`), and merging does not fail. -/
structure Library (e : Outside) (d : DistParams) (state : List Obs → List F64) : Prop where
  kind : d.kind = tdigestKind
  reads : ∀ vals, e.fromBytes (d.marshal vals) = some (state vals)
  again : ∀ t, e.fromBytes (e.marshal t) = some t
  merges : ∀ a b, e.merge a b ≠ none

theorem resampleAll_eq {e : Outside} {rs : List DRec} {ts : List (List F64)} (h : EachOf (fun (r : DRec) t => r.kind = tdigestKind ∧ e.fromBytes r.distribution = some t) rs ts) (t0 : List F64) :
    resampleAll e t0 rs = ts.foldlM e.merge t0 := by
  induction h generalizing t0 with
  | nil => rfl
  | cons h _ ih =>
    unfold resampleAll
    rw [if_pos h.1, h.2, List.foldlM_cons]
    dsimp only
    cases e.merge t0 _ with
    | none => rfl
    | some t => exact ih t

theorem foldlM_some {e : Outside} (hm : ∀ a b, e.merge a b ≠ none) (ts : List (List F64)) (t0 : List F64) : ∃ t, ts.foldlM e.merge t0 = some t := by
  induction ts generalizing t0 with
  | nil => exact ⟨t0, rfl⟩
  | cons a ts ih =>
    rw [List.foldlM_cons]
    cases h : e.merge t0 a with
    | none => exact absurd h (hm _ _)
    | some t => exact ih t

/-- **C87** (columns). A column of records with digests has their merged digest's values at the ranks `0, 1/n, ..., 1`, rounded to half precision, and the records' observations per second. -/
theorem C87_column {e : Outside} (ha : ∀ t, e.fromBytes (e.marshal t) = some t) {n : ℕ} (h1 : 1 ≤ n) (hn : n < 2 ^ 50) {rs : List DRec} (hne : rs ≠ []) {ts : List (List F64)} {t : List F64}
    (h : EachOf (fun (r : DRec) t => r.kind = tdigestKind ∧ e.fromBytes r.distribution = some t) rs ts) (ht : ts.foldlM e.merge e.empty = some t) :
    ∃ s, emitShot e n rs = some s ∧ s.rate = obsRate rs ∧ s.data.length = n + 1 ∧ ∀ i : ℕ, i ≤ n → ∃ r, Rounds ((i : ℚ) / n) r ∧ s.data[i]? = some (e.half (e.quant t r)) := by
  have hd : distOf e rs = some (e.marshal t, tdigestKind) := by
    unfold distOf
    rw [resampleAll_eq h, ht]
    rfl
  obtain ⟨out, hout, o1, o2⟩ : ∃ out, mergeRecs (distOf e) rs = some out ∧ out.kind = tdigestKind ∧ out.distribution = e.marshal t := by
    cases rs with
    | nil => exact absurd rfl hne
    | cons r rs =>
      unfold mergeRecs
      dsimp only
      rw [hd]
      exact ⟨_, rfl, rfl, rfl⟩
  have hl : loadRec e out = some { obs := t } := by
    unfold loadRec
    rw [if_pos o1, o2, ha]
    rfl
  refine ⟨⟨(sampleRanks n).map (fun q => e.half (e.quant t (q.getD 0))), obsRate rs⟩, ?_, rfl, by rw [List.length_map, sampleRanks_length h1], fun i hi => ?_⟩
  · unfold emitShot
    rw [hout]
    dsimp only
    rw [hl]
  · refine ⟨rn ((i : ℚ) / n), rn_rounds (by positivity), ?_⟩
    dsimp only
    rw [List.getElem?_map, sampleRanks_get h1 (by omega) hi]
    rfl

/-! ## Intervals -/

theorem eachOf_filter {α β : Type} {R : α → β → Prop} {l : List α} {k : List β} (h : EachOf R l k) (p : α → Bool) (q : β → Bool) (hpq : ∀ a b, R a b → p a = q b) : EachOf R (l.filter p) (k.filter q) := by
  induction h with
  | nil => exact .nil
  | cons hr _ ih =>
    rw [List.filter_cons, List.filter_cons, hpq _ _ hr]
    split
    · exact .cons hr ih
    · exact ih

theorem eachOf_imp {α β : Type} {R S : α → β → Prop} {l : List α} {k : List β} (h : EachOf R l k) (hi : ∀ a b, R a b → S a b) : EachOf S l k := by
  induction h with
  | nil => exact .nil
  | cons hr _ ih => exact .cons (hi _ _ hr) ih

theorem eachOf_map {α β γ : Type} {R : α → β → Prop} {S : α → γ → Prop} (f : β → γ) {l : List α} {k : List β} (h : EachOf R l k) (hi : ∀ a b, R a b → S a (f b)) : EachOf S l (k.map f) := by
  induction h with
  | nil => exact .nil
  | cons hr _ ih => exact .cons (hi _ _ hr) ih

theorem eachOf_append {α β : Type} {R : α → β → Prop} {l1 l2 : List α} {k : List β} (h : EachOf R (l1 ++ l2) k) : ∃ k1 k2, k = k1 ++ k2 ∧ EachOf R l1 k1 ∧ EachOf R l2 k2 := by
  induction l1 generalizing k with
  | nil => exact ⟨[], k, rfl, .nil, h⟩
  | cons a l1 ih =>
    cases h with
    | cons hr h =>
      obtain ⟨k1, k2, rfl, h1, h2⟩ := ih h
      exact ⟨_, k2, rfl, .cons hr h1, h2⟩

/-- A record read back for an interval. -/
def ReadBack (d : DistParams) (m : Bytes) (r : DRec) (b : Batch) : Prop := ∃ r0, RecordOf d b.start b.stop (obsOf m b.obs) r0 ∧ r = r0.norm

theorem needed_batches {d : DistParams} {m : Bytes} {l : List DRec} {k : List Batch} (stop : Int64) (h : EachOf (ReadBack d m) l k) : EachOf (ReadBack d m) (needed stop l) (neededBatches stop k) := by
  induction h with
  | nil => exact .nil
  | cons hr _ ih =>
    unfold needed neededBatches
    obtain ⟨r0, h0, rfl⟩ := hr
    rw [show r0.norm.endTime = r0.endTime from rfl, h0.stop]
    split
    · exact .cons ⟨r0, h0, rfl⟩ ih
    · exact .cons ⟨r0, h0, rfl⟩ .nil

/-- The records over a pixel are those of the intervals over it. -/
theorem over_batches {d : DistParams} {m : Bytes} {l : List DRec} {k : List Batch} (h : EachOf (ReadBack d m) l k) (now dur : Int64) (W x : Int) :
    EachOf (ReadBack d m) (over now.toInt W (dur.toInt / W) (shownAt (now - dur) l x) x) (batchesAt now dur W k x) := by
  unfold over batchesAt shownAt
  refine eachOf_filter ?_ _ _ ?_
  · split
    · exact needed_batches _ h
    · exact h
  · rintro a b ⟨r0, h0, rfl⟩
    have e : Overlaps now.toInt W (dur.toInt / W) r0.norm x ↔ b.Over now.toInt W (dur.toInt / W) x := by
      unfold Overlaps Batch.Over
      rw [show r0.norm.endTime = r0.endTime from rfl, show r0.norm.startTime = r0.startTime from rfl, h0.start, h0.stop]
    exact decide_eq_decide.mpr e

theorem eachOf_nil {α β : Type} {R : α → β → Prop} {l : List α} {k : List β} (h : EachOf R l k) : l = [] ↔ k = [] := by
  cases h <;> simp

/-! ## The picture -/

/-- What is drawn over a pixel with intervals over it. -/
theorem draw_batches {e : Outside} {d : DistParams} {state : List Obs → List F64} (lib : Library e d state) {m : Bytes} {n : ℕ} (h1 : 1 ≤ n) (hn : n < 2 ^ 50) {l : List DRec} {k : List Batch} (h : EachOf (ReadBack d m) l k) (hne : k ≠ []) :
    ∃ t s, (k.map (fun b => state (obsOf m b.obs))).foldlM e.merge e.empty = some t ∧ emitShot e n l = some s ∧ s.rate = obsRate l ∧ s.data.length = n + 1 ∧
      ∀ i : ℕ, i ≤ n → ∃ r, Rounds ((i : ℚ) / n) r ∧ s.data[i]? = some (e.half (e.quant t r)) := by
  obtain ⟨t, ht⟩ := foldlM_some lib.merges (k.map (fun b => state (obsOf m b.obs))) e.empty
  have hE : EachOf (fun (r : DRec) t => r.kind = tdigestKind ∧ e.fromBytes r.distribution = some t) l (k.map (fun b => state (obsOf m b.obs))) := by
    refine eachOf_map _ h ?_
    rintro a b ⟨r0, h0, rfl⟩
    exact ⟨by rw [show r0.norm.kind = r0.kind from rfl, h0.kind, lib.kind], by rw [show r0.norm.distribution = r0.distribution from rfl, h0.dist, lib.reads]⟩
  obtain ⟨s, a, b, c, e'⟩ := C87_column lib.again h1 hn (fun h0 => hne ((eachOf_nil h).mp h0)) hE ht
  exact ⟨t, s, ht, a, b, c, e'⟩

/-- The colour for a row of a heatmap over intervals of observations: the row shows the value at its share of the way through the samples, the sample is the merged digest's value at its rank, and the colour is at the share of the
newest interval's observations estimated to be below it. -/
def RowColour (e : Outside) (state : List Obs → List F64) (colors : List Color) (n h : ℕ) (newest : List Obs) (over : List (List Obs)) (row : ℕ) (c : Color) : Prop :=
  ∃ t i r, (over.map state).foldlM e.merge e.empty = some t ∧ RowShows (n + 1) h row i ∧ Rounds ((i : ℚ) / n) r ∧
    colors[⌊cdfOf (e.quant (state newest)) (e.half (e.quant t r)) * (colors.length - 1 : ℕ)⌋₊]? = some c

theorem heatAt_colour {e : Outside} {state : List Obs → List F64} {colors : List Color} (hc : 1 ≤ colors.length) (hN : colors.length ≤ 2 ^ 40) {n h : ℕ} (h1 : 1 ≤ n) (h2 : 2 ≤ h) (hh : h ≤ 2 ^ 53) (hnh : n * (h - 1) < 2 ^ 50)
    (hn : n < 2 ^ 50) {newest : List Obs} {over : List (List Obs)} {t : List F64} (ht : (over.map state).foldlM e.merge e.empty = some t) {s : Shot} (hl : s.data.length = n + 1)
    (hd : ∀ i : ℕ, i ≤ n → ∃ r, Rounds ((i : ℚ) / n) r ∧ s.data[i]? = some (e.half (e.quant t r))) {w : TWrap} (hw : w.obs = state newest) {row : ℕ} (hr : row < h) :
    ∃ c, heatAt e colors w s h row = some c ∧ RowColour e state colors n h newest over row c := by
  obtain ⟨i, v, c, hi, hv, hcol, hat⟩ := heatAt_some (e := e) hc hN w s (by omega) (by omega) h2 hh hr
  obtain ⟨j, hj, hs⟩ := C84_row (n := s.data.length) (h := h) (y := row) (by omega) h2 (by omega) hh (by rw [hl]; simpa using hnh) hr
  rw [hi] at hj
  injection hj with hj
  subst hj
  rw [hl] at hs
  obtain ⟨r, hr, hdr⟩ := hd i (by have := hs.1; omega)
  rw [hv] at hdr
  injection hdr with hdr
  subst hdr
  refine ⟨c, hat, t, i, r, ht, hs, hr, ?_⟩
  have := (C84_shade e.quant w.obs [] hc hN (e.half (e.quant t r))).1
  rw [queried_cdf] at this
  rw [this, hw] at hcol
  exact hcol

/-! ## Bars -/

theorem kept_bounds (m : Bytes) (ops : List POp) (t : PSpec) (N : Nat) (h1 : t.w.pend.length ≤ N) (h2 : (t.kept m).length ≤ N) (h3 : ∀ b ∈ t.kept m, b.obs.length ≤ N) :
    ((ops.foldl PSpec.step t).kept m).length ≤ N + ops.length ∧ ∀ b ∈ (ops.foldl PSpec.step t).kept m, b.obs.length ≤ N + ops.length := by
  induction ops generalizing t N with
  | nil => exact ⟨h2, h3⟩
  | cons op ops ih =>
    rw [List.foldl_cons, List.length_cons, show N + (ops.length + 1) = (N + 1) + ops.length by omega]
    have h3' : ∀ b ∈ t.kept m, b.obs.length ≤ N + 1 := fun b hb => Nat.le_succ_of_le (h3 b hb)
    cases op with
    | add metric o now =>
      refine ih _ _ ?_ (Nat.le_succ_of_le h2) h3'
      show (t.w.step (.add metric o now)).pend.length ≤ N + 1
      unfold WSpec.step
      dsimp only
      split
      · rw [List.length_append]
        exact Nat.succ_le_succ h1
      · exact Nat.le_succ_of_le h1
    | dump order now taken =>
      refine ih _ _ ?_ ?_ ?_
      · show (t.w.step (.capture order now)).pend.length ≤ N + 1
        unfold WSpec.step
        dsimp only
        split
        · exact Nat.le_succ_of_le h1
        · exact Nat.zero_le _
      · unfold PSpec.step
        dsimp only
        split
        · exact Nat.le_succ_of_le h2
        · split
          · exact Nat.succ_le_succ h2
          · exact Nat.le_succ_of_le h2
      · unfold PSpec.step
        dsimp only
        split
        · exact h3'
        · split
          · intro b hb
            rcases List.mem_cons.mp hb with rfl | hb
            · exact Nat.le_succ_of_le h1
            · exact h3' b hb
          · exact h3'
    | query a b c => exact ih _ _ (Nat.le_succ_of_le h1) (Nat.le_succ_of_le h2) h3'
    | restart => exact ih _ _ (Nat.zero_le _) (Nat.le_succ_of_le h2) h3'

theorem eachOf_length {α β : Type} {R : α → β → Prop} {l : List α} {k : List β} (h : EachOf R l k) : l.length = k.length := by
  induction h with
  | nil => rfl
  | cons _ _ ih => rw [List.length_cons, List.length_cons, ih]

theorem needed_sub (stop : Int64) (k : List Batch) : ∀ b ∈ neededBatches stop k, b ∈ k := by
  induction k with
  | nil => intro b hb; cases hb
  | cons a k ih =>
    intro b hb
    unfold neededBatches at hb
    split at hb
    · rcases List.mem_cons.mp hb with rfl | hb
      · exact List.mem_cons_self
      · exact List.mem_cons_of_mem _ (ih b hb)
    · rw [List.mem_singleton.mp hb]
      exact List.mem_cons_self

theorem needed_length (stop : Int64) (k : List Batch) : (neededBatches stop k).length ≤ k.length := by
  induction k with
  | nil => exact Nat.le_refl _
  | cons a k ih =>
    unfold neededBatches
    split
    · exact Nat.succ_le_succ ih
    · exact Nat.succ_le_succ (Nat.zero_le _)

theorem batchesAt_sub (now dur : Int64) (W : Int) (k : List Batch) (x : Int) : (∀ b ∈ batchesAt now dur W k x, b ∈ k) ∧ (batchesAt now dur W k x).length ≤ k.length := by
  unfold batchesAt
  refine ⟨fun b hb => ?_, (List.length_filter_le _ _).trans ?_⟩
  · have := (List.mem_filter.mp hb).1
    split at this
    · exact needed_sub _ _ b this
    · exact this
  · split
    · exact needed_length _ _
    · exact Nat.le_refl _

/-- A record read back for an interval that lasted is timed, and its rate is the interval's. -/
theorem timed_back {d : DistParams} {m : Bytes} {r : DRec} {b : Batch} (h : ReadBack d m r b) (hl : b.obs.length < 9223372036854775808) (h0 : 0 ≤ b.start.toInt) (h1 : b.start < b.stop) :
    Timed r ∧ trueRate r = b.rate m ∧ 0 < b.rate m := by
  obtain ⟨r0, hr, rfl⟩ := h
  have hlt : b.start.toInt < b.stop.toInt := Int64.lt_iff_toInt_lt.mp h1
  have hc : r0.norm.observations.toInt = ((obsOf m b.obs).length : Int) := by
    show r0.observations.toInt = _
    rw [hr.count]
    have := obsOf_length m b.obs
    exact Int64.toInt_ofNat_of_lt (show _ < 9223372036854775808 by omega)
  have hm : r0.norm.merged.toInt = 1 := by
    show r0.merged.toInt = 1
    rw [hr.merged]
    rfl
  have hst : r0.norm.startTime.toInt = b.start.toInt := by show r0.startTime.toInt = _; rw [hr.start]
  have hen : r0.norm.endTime.toInt = b.stop.toInt := by show r0.endTime.toInt = _; rw [hr.stop]
  have hpos : 0 < (obsOf m b.obs).length := by
    obtain ⟨⟨x, hx, _⟩, _⟩ := hr.min
    exact List.length_pos_of_mem hx
  refine ⟨⟨by rw [hm], by rw [hc]; omega, by rw [hst]; exact h0, by rw [hst, hen]; exact hlt⟩, ?_, ?_⟩
  · unfold trueRate Batch.rate
    rw [hc, hm, hst, hen]
    push_cast
    rw [div_one]
  · unfold Batch.rate
    have : (0 : ℚ) < (b.stop.toInt : ℚ) - b.start.toInt := by
      have : (b.start.toInt : ℚ) < b.stop.toInt := by exact_mod_cast hlt
      linarith
    have h2 : (0 : ℚ) < ((obsOf m b.obs).length : ℚ) := by exact_mod_cast hpos
    positivity

theorem sum_back {d : DistParams} {m : Bytes} {l : List DRec} {k : List Batch} (h : EachOf (ReadBack d m) l k) (hk : ∀ b ∈ k, b.obs.length < 9223372036854775808 ∧ 0 ≤ b.start.toInt ∧ b.start < b.stop) :
    (∀ r ∈ l, Timed r) ∧ (l.map trueRate).sum = (k.map (Batch.rate m)).sum ∧ (k ≠ [] → 0 < (k.map (Batch.rate m)).sum) ∧ 0 ≤ (k.map (Batch.rate m)).sum := by
  induction h with
  | nil => exact ⟨fun r hr => (by cases hr), rfl, fun h => absurd rfl h, le_refl 0⟩
  | @cons r b l k hr _ ih =>
    obtain ⟨i1, i2, _, i4⟩ := ih (fun b hb => hk b (List.mem_cons_of_mem _ hb))
    obtain ⟨b1, b2, b3⟩ := hk b List.mem_cons_self
    obtain ⟨t1, t2, t3⟩ := timed_back hr b1 b2 b3
    have hs : 0 < ((b :: k).map (Batch.rate m)).sum := by
      rw [List.map_cons, List.sum_cons]
      linarith
    refine ⟨fun x hx => ?_, ?_, fun _ => hs, hs.le⟩
    · rcases List.mem_cons.mp hx with rfl | hx
      · exact t1
      · exact i1 x hx
    · rw [List.map_cons, List.sum_cons, List.map_cons, List.sum_cons, t2, i2]

/-- The mean rate of the metric over the intervals. -/
def meanRate (m : Bytes) (k : List Batch) : ℚ := (k.map (Batch.rate m)).sum / k.length

/-- `r` is `q` but for the rounding of `j` operations. -/
def About (j : ℕ) (q r : ℚ) : Prop := q / (1 + 1 / 2 ^ 52) ^ j ≤ r ∧ r ≤ q * (1 + 1 / 2 ^ 52) ^ j

theorem rate_back {d : DistParams} {m : Bytes} {l : List DRec} {k : List Batch} (h : EachOf (ReadBack d m) l k) (hne : k ≠ []) (hk : ∀ b ∈ k, b.obs.length < 9223372036854775808 ∧ 0 ≤ b.start.toInt ∧ b.start < b.stop) (hlen : k.length < 2 ^ 53) :
    ∃ x, obsRate l = .fin x ∧ 0 < x ∧ About (k.length + 7) (meanRate m k) x := by
  obtain ⟨h1, h2, h3, _⟩ := sum_back h hk
  have hl := eachOf_length h
  obtain ⟨x, hx, a, b⟩ := C85_rate l (fun h0 => hne ((eachOf_nil h).mp h0)) (by rw [hl]; exact hlen) h1
  rw [h2, hl] at a b
  refine ⟨x, hx, lt_of_lt_of_le ?_ a, a, b⟩
  have : (0 : ℚ) < k.length := by exact_mod_cast List.length_pos_iff.mpr hne
  exact div_pos (div_pos (h3 hne) this) (grow_pos _)

/-- The bars over the pixels of a graph: white over a pixel without intervals, else grey, the darker the greater the rate is, black for the greatest. -/
def BarsShow (m : Bytes) (W : Int) (at_ : Int → List Batch) (bar : ℕ → Color) : Prop :=
  ∃ rate : ℕ → ℚ, (∀ x : ℕ, (x : Int) < W → at_ x ≠ [] → 0 < rate x ∧ About ((at_ x).length + 7) (meanRate m (at_ x)) (rate x)) ∧
    ∀ x : ℕ, (x : Int) < W → if at_ x = [] then bar x = white else
      ∃ (top k : ℕ), (top : Int) < W ∧ at_ top ≠ [] ∧ (∀ z : ℕ, (z : Int) < W → at_ z ≠ [] → rate z ≤ rate top) ∧ k ≤ 255 ∧ bar x = ⟨UInt8.ofNat (255 - k), UInt8.ofNat (255 - k), UInt8.ofNat (255 - k)⟩ ∧
        (k : ℚ) ≤ rate x / rate top * 255 + 1 / 2 ^ 40 ∧ rate x / rate top * 255 < k + 1 + 1 / 2 ^ 40 ∧ (rate x = rate top → k = 255)

theorem bars_show {e : Outside} {d : DistParams} {state : List Obs → List F64} (lib : Library e d state) {m : Bytes} {n : ℕ} (h1 : 1 ≤ n) (hn : n < 2 ^ 50) {colors : List Color} {l : List DRec} {k : List Batch} (h : EachOf (ReadBack d m) l k)
    (hk : ∀ b ∈ k, b.obs.length < 9223372036854775808 ∧ 0 ≤ b.start.toInt ∧ b.start < b.stop) (hlen : k.length < 2 ^ 53) (now dur : Int64) (W : Int) (w : TWrap) {cols : List (Col Shot)}
    (hcols : Columns (theScene e n colors) now.toInt W (dur.toInt / W) (fun x => shownAt (now - dur) l x) cols) :
    BarsShow m W (batchesAt now dur W k) (fun x => barOf (theScene e n colors) w cols (over now.toInt W (dur.toInt / W) (shownAt (now - dur) l x) x)) := by
  have hO : ∀ x, EachOf (ReadBack d m) (over now.toInt W (dur.toInt / W) (shownAt (now - dur) l x) x) (batchesAt now dur W k x) := fun x => over_batches h now dur W x
  have hr : ∀ x : Int, batchesAt now dur W k x ≠ [] → ∃ q, obsRate (over now.toInt W (dur.toInt / W) (shownAt (now - dur) l x) x) = .fin q ∧ 0 < q ∧ About ((batchesAt now dur W k x).length + 7) (meanRate m (batchesAt now dur W k x)) q := by
    intro x hx
    obtain ⟨b1, b2⟩ := batchesAt_sub now dur W k x
    exact rate_back (hO x) hx (fun b hb => hk b (b1 b hb)) (by omega)
  let rate : Int → ℚ := fun x => match obsRate (over now.toInt W (dur.toInt / W) (shownAt (now - dur) l x) x) with | .fin q => q | _ => 0
  have hrate : ∀ x : Int, batchesAt now dur W k x ≠ [] → obsRate (over now.toInt W (dur.toInt / W) (shownAt (now - dur) l x) x) = .fin (rate x) ∧ 0 < rate x ∧ About ((batchesAt now dur W k x).length + 7) (meanRate m (batchesAt now dur W k x)) (rate x) := by
    intro x hx
    obtain ⟨q, hq, hq0, ha⟩ := hr x hx
    have e1 : rate x = q := by simp only [rate]; rw [hq]
    rw [e1]
    exact ⟨hq, hq0, ha⟩
  -- the columns' rates
  have hcol : ∀ c ∈ cols, ∀ x, c.Has x → batchesAt now dur W k x ≠ [] ∧ c.data.rate = .fin (rate x) := by
    intro c hc x hx
    obtain ⟨s1, s2⟩ := hcols.shows c hc x hx
    have hb : batchesAt now dur W k x ≠ [] := fun h0 => s1 ((eachOf_nil (hO x)).mpr h0)
    refine ⟨hb, ?_⟩
    have s2 : emitShot e n _ = some c.data := s2
    rw [(emitShot_data h1 s2).2]
    exact (hrate x hb).1
  have hasx : ∀ c ∈ cols, c.Has c.x := fun c hc => ⟨Int.le_refl _, by have := hcols.inside c hc; omega⟩
  refine ⟨fun x => rate x, fun x hx hb => (hrate x hb).2, fun x hx => ?_⟩
  have bar0 : ∀ rs, barOf (theScene e n colors) w cols rs = (((if rs = [] then none else emitShot e n rs).map (fun s => barColour e.junk cols s)).getD white) := fun rs => rfl
  by_cases hb : batchesAt now dur W k x = []
  · rw [if_pos hb]
    dsimp only
    rw [bar0, if_pos ((eachOf_nil (hO x)).mpr hb)]
    rfl
  · rw [if_neg hb]
    obtain ⟨c, hc, hcx⟩ := hcols.covers x (by omega) hx (fun h0 => hb ((eachOf_nil (hO x)).mp h0))
    obtain ⟨s1, s2⟩ := hcols.shows c hc x hcx
    obtain ⟨before, after, top, e1, e2, e3, e4⟩ := C85_peak cols (fun c => rate c.x) (fun c hc => (hcol c hc c.x (hasx c hc)).2) ⟨c, hc, (hrate c.x ((hcol c hc c.x (hasx c hc)).1)).2.1⟩
    have htop : top ∈ cols := by rw [e1]; exact List.mem_append_right _ List.mem_cons_self
    obtain ⟨ti, _, _⟩ := hcols.inside top htop
    have tW : top.x < W := by have := hcols.inside top htop; omega
    have hmax : ∀ z : Int, 0 ≤ z → z < W → batchesAt now dur W k z ≠ [] → rate z ≤ rate top.x := by
      intro z z0 zW hz
      obtain ⟨c', hc', hz'⟩ := hcols.covers z z0 zW (fun h0 => hz ((eachOf_nil (hO z)).mp h0))
      have r1 := (hcol c' hc' z hz').2
      have r2 := (hcol c' hc' c'.x (hasx c' hc')).2
      rw [r1] at r2
      injection r2 with r2
      rw [r2]
      rw [e1] at hc'
      rcases List.mem_append.mp hc' with hc' | hc'
      · exact (e3 c' hc').le
      · rcases List.mem_cons.mp hc' with rfl | hc'
        · exact le_refl _
        · exact e4 c' hc'
    have etop : ((top.x.toNat : ℕ) : Int) = top.x := by omega
    have px := (hrate x hb).2.1
    have ptop := (hrate top.x (hcol top htop top.x (hasx top htop)).1).2.1
    obtain ⟨d, d1, d2, d3, d4, d5, _, _⟩ := C85_bar e.junk px.le (hmax x (by omega) hx hb) ptop
    refine ⟨top.x.toNat, d, by omega, by rw [etop]; exact (hcol top htop top.x (hasx top htop)).1, fun z hz hbz => ?_, d1, ?_, ?_, ?_, ?_⟩
    · dsimp only
      rw [etop]
      exact hmax z (by omega) hz hbz
    · dsimp only
      rw [bar0, if_neg s1]
      have s2 : emitShot e n _ = some c.data := s2
      rw [s2, Option.map_some, Option.getD_some]
      unfold barColour
      dsimp only
      rw [e2, (hcol c hc x hcx).2]
      have : barSat e.junk (.fin (rate x)) (.fin (rate top.x)) = UInt8.ofNat (255 - d) := by
        apply UInt8.toNat_inj.mp
        rw [d2]
        rw [UInt8.toNat_ofNat']
        omega
      rw [this]
    · dsimp only
      rw [etop]
      exact d3
    · dsimp only
      rw [etop]
      exact d4
    · dsimp only
      rw [etop]
      exact d5

set_option maxHeartbeats 1000000 in
/-- The same for the records of the intervals `kept` of a metric, newest first. -/
theorem C87_records {e : Outside} (he : e.Ok) {n : ℕ} (h1 : 1 ≤ n) (hn : n < 2 ^ 50) {colors : List Color} (hc : 1 ≤ colors.length) (hN : colors.length ≤ 2 ^ 40)
    (o : PipeCfg) {state : List Obs → List F64} (lib : Library e o.d state) (hg : GeoOk o.cfg.size o.cfg.cap) {m : Bytes} {recs : List DRec} {kept : List Batch} {s : Store} (k1 : EachOf (Right o.d m) recs kept)
    (k2 : ∀ r ∈ recs, needs o.cfg.size r.encode.length < o.cfg.cap) (k3 : ReachCfg o.cfg s (recs.map valOf)) (hne : kept ≠ []) (now dur : Int64) (hnow : ∀ b ∈ kept, 0 ≤ b.stop.toInt ∧ b.stop < now)
    (width height padding : Int) (hstart : ∀ b ∈ kept, 0 ≤ b.start.toInt ∧ b.start.toInt + width < 9223372036854775808) (hfar : now.toInt + dur.toInt < 9223372036854775808)
    (hpad : 0 ≤ padding) (hwd : width ≤ dur.toInt) (hht : height ≤ 9007199254740992) :
    ∃ (newest : Batch) (stored dropped : List Batch), kept = stored ++ dropped ∧ stored.head? = some newest ∧ (o.cfg.max ≤ 0 → dropped = []) ∧
      ∀ gm, graphMeasure (sceneStyle e { obs := state (obsOf m newest.obs) }) { earliest := true, now := now.toInt, duration := dur.toInt, width := width, height := height, padding := padding } = .ok gm → 0 < gm.width → 2 ≤ gm.height →
        (n : Int) * (gm.height - 1) < 1125899906842624 → ((colors.length - 1 : ℕ) : Int) * (gm.height - 1) < 1125899906842624 →
        ∃ c pix, (servePng (theScene e n colors) o.cfg now dur width height padding s).1 = .png c pix ∧
          c.width = width + 2 * padding ∧ c.height = height + 2 * padding ∧ IsImage pix c.width.toNat c.height.toNat ∧
          (∀ x y : Nat, x < gm.width → y < gm.height → ∃ k, pixel pix c.width.toNat (gm.x + x).toNat (gm.y + y).toNat = some (k, 255) ∧
            if batchesAt now dur gm.width stored x = [] then k = white
            else RowColour e state colors n gm.height.toNat (obsOf m newest.obs) ((batchesAt now dur gm.width stored x).map (fun b => obsOf m b.obs)) (gm.height - 1 - y).toNat k) ∧
          (∀ x y : Nat, x < 10 → y < gm.height → ∃ i k, RowShows colors.length gm.height.toNat (gm.height.toNat - 1 - y) i ∧ colors[i]? = some k ∧ pixel pix c.width.toNat (gm.x + gm.width + 5 + x).toNat (gm.y + y).toNat = some (k, 255)) ∧
          ((∀ b ∈ stored, b.start < b.stop) → kept.length < 9007199254740992 → (∀ b ∈ stored, b.obs.length < 9007199254740992) → ∃ bar : ℕ → Color, BarsShow m gm.width (batchesAt now dur gm.width stored) bar ∧
            ∀ x y : Nat, x < gm.width → y < 5 → pixel pix c.width.toNat (gm.x + x).toNat (gm.y - 5 + y).toNat = some (bar x, 255)) := by
  have hdraw : ∀ l, l ≠ [] → (∀ r ∈ l, ∃ start stop vals r0, RecordOf o.d start stop vals r0 ∧ r = r0.norm) → (theScene e n colors).draw l ≠ none := by
    intro l hl hr
    have hE : ∃ ts, EachOf (fun (r : DRec) t => r.kind = tdigestKind ∧ e.fromBytes r.distribution = some t) l ts := by
      clear hl
      induction l with
      | nil => exact ⟨[], .nil⟩
      | cons a l ih =>
        obtain ⟨ts, hts⟩ := ih (fun r hr' => hr r (List.mem_cons_of_mem _ hr'))
        obtain ⟨_, _, vals, r0, h0, rfl⟩ := hr a List.mem_cons_self
        exact ⟨_, .cons ⟨by rw [show r0.norm.kind = r0.kind from rfl, h0.kind, lib.kind], by rw [show r0.norm.distribution = r0.distribution from rfl, h0.dist, lib.reads]⟩ hts⟩
    obtain ⟨ts, hts⟩ := hE
    obtain ⟨t, ht⟩ := foldlM_some lib.merges ts e.empty
    obtain ⟨s, hs, _⟩ := C87_column lib.again h1 hn hl hts ht
    intro h0
    have h0 : emitShot e n l = none := h0
    rw [hs] at h0
    cases h0
  have hload : ∀ start stop vals r, RecordOf o.d start stop vals r → loadRec e r.norm = some { obs := state vals } := by
    intro start stop vals r h0
    unfold loadRec
    rw [if_pos (by rw [show r.norm.kind = r.kind from rfl, h0.kind, lib.kind]), show r.norm.distribution = r.distribution from rfl, h0.dist, lib.reads]
    rfl
  obtain ⟨recs, srecs, drecs, hE, happ, hmax, r, hr, w, hw, key⟩ := C77_records (theScene_ok he h1 hn hc hN) o hg k1 k2 k3 hne now dur hnow width height padding hstart hfar hdraw
    (fun start stop vals r h0 => by intro h; have h : loadRec e r.norm = none := h; rw [hload _ _ _ _ h0] at h; cases h) hpad hwd hht
  rw [happ] at hE
  obtain ⟨stored, dropped, hk, hS, hD⟩ := eachOf_append hE
  obtain ⟨newest, hnew, r0, h0, rfl⟩ : ∃ b, stored.head? = some b ∧ ReadBack o.d m r b := by
    cases hS with
    | nil => cases hr
    | cons hrb _ =>
      injection hr with hr
      subst hr
      exact ⟨_, rfl, hrb⟩
  have hw' : w = { obs := state (obsOf m newest.obs) } := by
    have := hload _ _ _ _ h0
    have hw : loadRec e r0.norm = some w := hw
    rw [this] at hw
    injection hw with hw
    exact hw.symm
  subst hw'
  refine ⟨newest, stored, dropped, hk, hnew, fun h => (eachOf_nil hD).mp (hmax h), fun gm hgm hgw hgh hnh hch => ?_⟩
  obtain ⟨c, pix, hpng, hcw, hchh, him, hpix, hkey, cols, hcols, hbars⟩ := key gm hgm hgw hgh
  have hgle : gm.height ≤ 9007199254740992 := by
    obtain ⟨guess, ht⟩ := graphMeasure_try hgm
    obtain ⟨_, _, _, h4, _, _, _, _, _, _, _, _, _, _, h15⟩ := tryMeasure_ok (sceneStyle_ok he { obs := state (obsOf m newest.obs) }) ht
    obtain ⟨_, sumh, _⟩ := C75_layout (sceneStyle_ok he { obs := state (obsOf m newest.obs) }) hgm (by omega)
    have sumh : gm.obsHeight + gm.height + gm.bottom.height = height := sumh
    have h0 := (sceneStyle_ok he { obs := state (obsOf m newest.obs) }).high (sceneStyle e { obs := state (obsOf m newest.obs) }).obsText
    have : 13 ≤ gm.bottom.height := by rw [h15]; split <;> omega
    omega
  obtain ⟨H, hH⟩ : ∃ H : ℕ, gm.height = H := ⟨gm.height.toNat, by omega⟩
  have hH' : gm.height.toNat = H := by omega
  refine ⟨c, pix, hpng, hcw, hchh, him, fun x y hx hy => ?_, fun x y hx hy => ?_, fun hspan hlong hsmall => ?_⟩
  · refine ⟨_, hpix x y hx hy, ?_⟩
    have hO := over_batches hS now dur gm.width x
    unfold colourOf
    by_cases hb : batchesAt now dur gm.width stored x = []
    · rw [if_pos hb, if_pos ((eachOf_nil hO).mpr hb)]
      rfl
    · rw [if_neg hb, if_neg (fun h => hb ((eachOf_nil hO).mp h))]
      obtain ⟨t, s, ht, hs, _, hsl, hsd⟩ := draw_batches lib h1 hn hO hb
      have ht' : (((batchesAt now dur gm.width stored x).map (fun b => obsOf m b.obs)).map state).foldlM e.merge e.empty = some t := by
        rw [List.map_map]
        exact ht
      have hnh' : n * (H - 1) < 2 ^ 50 := by
        rw [hH] at hnh
        zify
        rw [Nat.cast_sub (by omega)]
        push_cast
        exact hnh
      obtain ⟨k, hk1, hk2⟩ := heatAt_colour hc hN h1 (h := H) (by omega) (by omega) hnh' hn ht' hsl hsd (w := { obs := state (obsOf m newest.obs) }) rfl (row := (gm.height - 1 - y).toNat) (by omega)
      have hs : (theScene e n colors).draw (over now.toInt gm.width (dur.toInt / gm.width) (shownAt (now - dur) srecs x) x) = some s := hs
      rw [hs, hH', Option.bind_some]
      have : ((theScene e n colors).brush { obs := state (obsOf m newest.obs) }).heat s gm.height (gm.height - 1 - y).toNat = some k := by
        show heatAt e colors { obs := state (obsOf m newest.obs) } s gm.height (gm.height - 1 - y).toNat = some k
        rw [← hk1, hH]
      rw [this, Option.getD_some]
      exact hk2
  · have hch' : (colors.length - 1) * (H - 1) < 2 ^ 50 := by
      rw [hH] at hch
      zify
      rw [Nat.cast_sub (n := H) (by omega)]
      push_cast
      exact hch
    obtain ⟨i, hi, hk⟩ := (C84_key colors hc hN (h := H) (by omega) (by omega) hch').1 y (by omega)
    have hin := hi.1
    refine ⟨i, colors[i], by rw [hH']; exact hi, List.getElem?_eq_getElem hin, ?_⟩
    rw [hkey x y hx hy]
    show (keyColour colors gm.height y).map _ = _
    rw [hH, hk, List.getElem?_eq_getElem hin]
    rfl
  · rw [hk, List.length_append] at hlong
    refine ⟨_, bars_show lib h1 hn hS (fun b hb => ?_) (by omega) now dur gm.width { obs := state (obsOf m newest.obs) } hcols, fun x y hx hy => hbars x y hx hy⟩
    have h2 := hsmall b hb
    exact ⟨by omega, (hstart b (by rw [hk]; exact List.mem_append_left _ hb)).1, hspan b hb⟩

set_option maxHeartbeats 1000000 in
/-- **C87.** Observations are added, dumps made, metrics queried and the program restarted, in any order, as for C70 and C77. A request for the graph of a metric that was stored, up to a time after the last dump, is answered with
a picture of the size asked for in which a pixel of the heatmap is white if none of the intervals in the database is over its time, and else has the colour of its row for the observations in the intervals over it;
and the key has in each row the colour at its share of the way through the colours. If each interval lasted, the bars are white over pixels without intervals and else grey, dark in proportion to the mean number of observations per
second in the intervals over the pixel, black for the greatest. -/
theorem C87_shown {e : Outside} (he : e.Ok) {n : ℕ} (h1 : 1 ≤ n) (hn : n < 2 ^ 50) {colors : List Color} (hc : 1 ≤ colors.length) (hN : colors.length ≤ 2 ^ 40)
    (o : PipeCfg) {state : List Obs → List F64} (lib : Library e o.d state) (K : Nat) (hd : o.d.newOk = true) (hg : GeoOk o.cfg.size o.cfg.cap) (hfit : Fits o K) (de : Bytes → Bool) (hit : Bytes → Nat → Bool)
    (ops : List POp) (hops : ∀ op ∈ ops, op.Fair K) (hlen : ops.length < 9223372036854775808) (hinc : (dumpTimes ops).Pairwise (· < ·)) (m : Bytes)
    (hne : (ops.foldl PSpec.step {}).kept m ≠ []) (now dur : Int64) (hnow : ∀ t ∈ dumpTimes ops, 0 ≤ t.toInt ∧ t < now)
    (width height padding : Int) (hstart : ∀ b ∈ (ops.foldl PSpec.step {}).kept m, 0 ≤ b.start.toInt ∧ b.start.toInt + width < 9223372036854775808) (hfar : now.toInt + dur.toInt < 9223372036854775808)
    (hpad : 0 ≤ padding) (hwd : width ≤ dur.toInt) (hht : height ≤ 9007199254740992) :
    ∃ (newest : Batch) (stored dropped : List Batch), (ops.foldl PSpec.step {}).kept m = stored ++ dropped ∧ stored.head? = some newest ∧ (o.cfg.max ≤ 0 → dropped = []) ∧
      ∀ gm, graphMeasure (sceneStyle e { obs := state (obsOf m newest.obs) }) { earliest := true, now := now.toInt, duration := dur.toInt, width := width, height := height, padding := padding } = .ok gm → 0 < gm.width → 2 ≤ gm.height →
        (n : Int) * (gm.height - 1) < 1125899906842624 → ((colors.length - 1 : ℕ) : Int) * (gm.height - 1) < 1125899906842624 →
        ∃ c pix, (servePng (theScene e n colors) o.cfg now dur width height padding ((ops.foldl (POp.run o) (Pipe.start de hit)).db m)).1 = .png c pix ∧
          c.width = width + 2 * padding ∧ c.height = height + 2 * padding ∧ IsImage pix c.width.toNat c.height.toNat ∧
          (∀ x y : Nat, x < gm.width → y < gm.height → ∃ k, pixel pix c.width.toNat (gm.x + x).toNat (gm.y + y).toNat = some (k, 255) ∧
            if batchesAt now dur gm.width stored x = [] then k = white
            else RowColour e state colors n gm.height.toNat (obsOf m newest.obs) ((batchesAt now dur gm.width stored x).map (fun b => obsOf m b.obs)) (gm.height - 1 - y).toNat k) ∧
          (∀ x y : Nat, x < 10 → y < gm.height → ∃ i k, RowShows colors.length gm.height.toNat (gm.height.toNat - 1 - y) i ∧ colors[i]? = some k ∧ pixel pix c.width.toNat (gm.x + gm.width + 5 + x).toNat (gm.y + y).toNat = some (k, 255)) ∧
          ((∀ b ∈ stored, b.start < b.stop) → ops.length < 9007199254740992 → ∃ bar : ℕ → Color, BarsShow m gm.width (batchesAt now dur gm.width stored) bar ∧
            ∀ x y : Nat, x < gm.width → y < 5 → pixel pix c.width.toNat (gm.x + x).toNat (gm.y - 5 + y).toNat = some (bar x, 255)) := by
  have inv := pinv_run hd hg hfit ops hops (pinv_start o K de hit) (by simpa using hlen) hinc (fun _ _ _ b hb => (by cases hb))
  obtain ⟨recs, k1, k2, k3⟩ := inv.db m
  obtain ⟨newest, stored, dropped, hk, hnew, hmax, key⟩ := C87_records he h1 hn hc hN o lib hg k1 k2 k3 hne now dur (fun b hb => hnow _ (by simpa using kept_stops m ops {} [] (fun _ h => (by cases h)) b hb)) width height padding hstart hfar hpad hwd hht
  refine ⟨newest, stored, dropped, hk, hnew, hmax, fun gm g1 g2 g3 g4 g5 => ?_⟩
  obtain ⟨c, pix, p1, p2, p3, p4, p5, p6, p7⟩ := key gm g1 g2 g3 g4 g5
  have hkb := kept_bounds m ops {} 0 (Nat.le_refl _) (Nat.le_refl _) (fun _ hb => (by cases hb))
  exact ⟨c, pix, p1, p2, p3, p4, p5, p6, fun hspan hsmall => p7 hspan (by omega) (fun b hb => by have := hkb.2 b (by rw [hk]; exact List.mem_append_left _ hb); omega)⟩

end Rothko
