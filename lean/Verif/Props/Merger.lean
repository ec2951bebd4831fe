import Verif.Props.Pixel
/-!
# C46: the columns drawn
-/
namespace Rothko

/-! ## Specification -/

/-- The record's time range meets pixel `x` (see `C47_interval`): it starts before the pixel's end and ends at or after the pixel's start. Pixel 0 has no start. -/
def Overlaps (N W P : Int) (r : DRec) (x : Int) : Prop :=
  r.startTime.toInt < N - (W - x) * P + P ∧ (x = 0 ∨ N - (W - x) * P ≤ r.endTime.toInt)

instance (N W P : Int) (r : DRec) (x : Int) : Decidable (Overlaps N W P r x) := by unfold Overlaps; infer_instance

/-- The records over pixel `x`, in the order they were pushed. -/
def over (N W P : Int) (rs : List DRec) (x : Int) : List DRec := rs.filter (fun r => decide (Overlaps N W P r x))

/-- Pixel `x` is in the column. -/
def Col.Has {α : Type} (c : Col α) (x : Int) : Prop := c.x ≤ x ∧ x < c.x + c.w

/-- The columns are disjoint and in decreasing order, inside `[0, W)`, cover exactly the pixels with a record, and each shows the records over its pixels. -/
structure Tiling {α : Type} (draw : List DRec → Option α) (W : Int) (f : Int → List DRec) (cols : List (Col α)) : Prop where
  ordered : cols.Pairwise (fun a b => b.x + b.w ≤ a.x)
  inside : ∀ c ∈ cols, 0 ≤ c.x ∧ 1 ≤ c.w ∧ c.x + c.w ≤ W
  covered : ∀ x, 0 ≤ x → x < W → f x ≠ [] → ∃ c ∈ cols, c.Has x
  shows : ∀ c ∈ cols, ∀ x, c.Has x → f x ≠ [] ∧ draw (f x) = some c.data

/-! ## Proof -/

/-- As `Tiling`, for the pixels in `[lo, hi)`. -/
structure Tiles {α : Type} (draw : List DRec → Option α) (cols : List (Col α)) (lo hi : Int) (f : Int → List DRec) : Prop where
  ordered : cols.Pairwise (fun a b => b.x + b.w ≤ a.x)
  inside : ∀ c ∈ cols, lo ≤ c.x ∧ 1 ≤ c.w ∧ c.x + c.w ≤ hi
  covered : ∀ x, lo ≤ x → x < hi → f x ≠ [] → ∃ c ∈ cols, c.Has x
  shows : ∀ c ∈ cols, ∀ x, c.Has x → f x ≠ [] ∧ draw (f x) = some c.data

theorem Tiles.gap {α : Type} {draw : List DRec → Option α} {cols : List (Col α)} {lo lo' hi : Int} {f : Int → List DRec}
    (h : Tiles draw cols lo hi f) (hl : lo' ≤ lo) (he : ∀ x, lo' ≤ x → x < lo → f x = []) : Tiles draw cols lo' hi f where
  ordered := h.ordered
  inside c hc := by have := h.inside c hc; omega
  covered x h1 h2 h3 := by
    by_cases hx : lo ≤ x
    · exact h.covered x hx h2 h3
    · exact absurd (he x h1 (by omega)) h3
  shows := h.shows

theorem Tiles.snoc {α : Type} {draw : List DRec → Option α} {cols : List (Col α)} {s e hi : Int} {f : Int → List DRec} {R : List DRec} {d : α}
    (h : Tiles draw cols (e + 1) hi f) (hse : s ≤ e) (heh : e < hi) (hR : R ≠ []) (hd : draw R = some d) (hf : ∀ x, s ≤ x → x ≤ e → f x = R) :
    Tiles draw (cols ++ [⟨s, e - s + 1, d⟩]) s hi f where
  ordered := by
    rw [List.pairwise_append]
    refine ⟨h.ordered, List.pairwise_singleton .., ?_⟩
    intro a ha b hb
    rw [List.mem_singleton] at hb
    subst hb
    have := (h.inside a ha).1
    dsimp only
    omega
  inside c hc := by
    rcases List.mem_append.mp hc with hc | hc
    · have := h.inside c hc; omega
    · rw [List.mem_singleton] at hc
      subst hc
      dsimp only
      omega
  covered x h1 h2 h3 := by
    by_cases hx : e + 1 ≤ x
    · obtain ⟨c, hc, hh⟩ := h.covered x hx h2 h3
      exact ⟨c, List.mem_append_left _ hc, hh⟩
    · exact ⟨_, List.mem_append_right _ (List.mem_singleton.mpr rfl), ⟨h1, by dsimp only; omega⟩⟩
  shows c hc x hh := by
    rcases List.mem_append.mp hc with hc | hc
    · exact h.shows c hc x hh
    · rw [List.mem_singleton] at hc
      subst hc
      have := hf x hh.1 (by have := hh.2; dsimp only at this; omega)
      rw [this]
      exact ⟨hR, hd⟩

theorem Tiles.congr {α : Type} {draw : List DRec → Option α} {cols : List (Col α)} {lo hi : Int} {f g : Int → List DRec}
    (h : Tiles draw cols lo hi f) (hfg : ∀ x, lo ≤ x → x < hi → f x = g x) : Tiles draw cols lo hi g where
  ordered := h.ordered
  inside := h.inside
  covered x h1 h2 h3 := h.covered x h1 h2 (by rw [hfg x h1 h2]; exact h3)
  shows c hc x hh := by
    have hi' := h.inside c hc
    have := hh.1
    have := hh.2
    rw [← hfg x (by omega) (by omega)]
    exact h.shows c hc x hh

/-- The records over a pixel. -/
def recsAt (rs : List MRec) (px : Int) : List DRec := (rs.filter (fun r => decide (r.start ≤ px ∧ px ≤ r.end_))).map (·.rec_)

theorem atIdx_cand (px : Int) (pre rs : List MRec) : atIdx (pre ++ rs) (candEmit px pre.length rs) = recsAt rs px := by
  induction rs generalizing pre with
  | nil => rfl
  | cons r rs ih =>
    have h := ih (pre ++ [r])
    rw [List.append_assoc, List.singleton_append, List.length_append, List.length_singleton] at h
    simp only [candEmit, recsAt, List.filter_cons]
    by_cases hc : r.start ≤ px ∧ px ≤ r.end_
    · rw [if_pos hc, if_pos (by simpa using hc), List.map_cons]
      have : (pre ++ r :: rs)[pre.length]? = some r := by simp
      simp only [atIdx, List.filterMap_cons, this, Option.map_some]
      congr 1
    · rw [if_neg hc, if_neg (by simpa using hc)]
      exact h

theorem atIdx_cand0 (px : Int) (rs : List MRec) : atIdx rs (candEmit px 0 rs) = recsAt rs px := atIdx_cand px [] rs

theorem cand_nil (px : Int) (i : Nat) (rs : List MRec) : candEmit px i rs = [] ↔ recsAt rs px = [] := by
  induction rs generalizing i with
  | nil => simp [candEmit, recsAt]
  | cons r rs ih =>
    have h := ih (i + 1)
    simp only [candEmit, recsAt, List.filter_cons] at h ⊢
    by_cases hc : r.start ≤ px ∧ px ≤ r.end_
    · rw [if_pos hc, if_pos (by simpa using hc)]; simp
    · rw [if_neg hc, if_neg (by simpa using hc)]; exact h

/-- What holds in the loop after the pixels down to `q`. -/
def LoopInv {α : Type} (draw : List DRec → Option α) (rs : List MRec) (hi : Int) (f : Int → List DRec) (q E : Int) (toEmit : List Nat) (cols : List (Col α)) : Prop :=
  (toEmit = [] ∧ Tiles draw cols q hi f) ∨
  (toEmit ≠ [] ∧ q ≤ E ∧ E < hi ∧ Tiles draw cols (E + 1) hi f ∧ (∀ y, q ≤ y → y ≤ E → candEmit y 0 rs = toEmit) ∧ ∀ y, y ≤ E → f y = recsAt rs y)

theorem loopInv_flush {α : Type} {draw : List DRec → Option α} {rs : List MRec} {hi : Int} {f : Int → List DRec} {q E : Int} {toEmit : List Nat} {cols : List (Col α)}
    (h : LoopInv draw rs hi f q E toEmit cols) (hne : toEmit ≠ []) :
    (emitCol draw cols q E (atIdx rs toEmit) = none ∧ (f q ≠ [] ∧ draw (f q) = none)) ∨ ∃ cols', emitCol draw cols q E (atIdx rs toEmit) = some cols' ∧ Tiles draw cols' q hi f := by
  rcases h with ⟨h, _⟩ | ⟨_, hq, hE, ht, hc, hf⟩
  · exact absurd h hne
  · have hcq := hc q (Int.le_refl _) hq
    have hR : atIdx rs toEmit = recsAt rs q := by rw [← hcq]; exact atIdx_cand0 q rs
    have hfq : f q = recsAt rs q := hf q hq
    have hRne : recsAt rs q ≠ [] := fun hh => hne (hcq ▸ (cand_nil q 0 rs).mpr hh)
    rw [hR]
    cases hd : draw (recsAt rs q) with
    | none => exact Or.inl ⟨by simp [emitCol, hd], by rw [hfq]; exact ⟨hRne, hd⟩⟩
    | some d =>
      refine Or.inr ⟨_, by simp only [emitCol, hd, Option.map_some], ht.snoc hq hE hRne hd ?_⟩
      intro x h1 h2
      rw [hf x h2, ← atIdx_cand0, hc x h1 h2, hR]

/-- Drawing fails for the records over some pixel. -/
def DrawFails {α : Type} (draw : List DRec → Option α) (f : Int → List DRec) : Prop := ∃ x, f x ≠ [] ∧ draw (f x) = none

def LoopPost {α : Type} (draw : List DRec → Option α) (rs : List MRec) (lo hi : Int) (f : Int → List DRec) : Option (Int × List Nat × List (Col α)) → Prop
  | none => DrawFails draw f
  | some (E, toEmit, cols) => LoopInv draw rs hi f lo E toEmit cols

theorem completedLoop_spec {α : Type} (draw : List DRec → Option α) (rs : List MRec) (lo hi : Int) (f : Int → List DRec) (n : Nat) (E : Int) (toEmit : List Nat) (cols : List (Col α))
    (hf : ∀ y, y < lo + n → f y = recsAt rs y) (hhi : lo + n ≤ hi) (hi' : LoopInv draw rs hi f (lo + n) E toEmit cols) :
    LoopPost draw rs lo hi f (completedLoop draw rs lo n E toEmit cols) := by
  induction n generalizing E toEmit cols with
  | zero => simpa [completedLoop, LoopPost] using hi'
  | succ n ih =>
    have e1 : lo + ((n + 1 : Nat) : Int) = lo + n + 1 := by omega
    rw [e1] at hf hhi hi'
    have hf' : ∀ y, y < lo + n → f y = recsAt rs y := fun y hy => hf y (by omega)
    have next : ∀ cols' : List (Col α), Tiles draw cols' (lo + n + 1) hi f → LoopInv draw rs hi f (lo + n) (lo + n) (candEmit (lo + n) 0 rs) cols' := by
      intro cols' ht
      by_cases hc : candEmit (lo + n) 0 rs = []
      · refine Or.inl ⟨hc, ht.gap (by omega) ?_⟩
        intro x h1 h2
        have : x = lo + n := by omega
        rw [hf x (by omega), this]
        exact (cand_nil _ 0 rs).mp hc
      · refine Or.inr ⟨hc, Int.le_refl _, by omega, ht, ?_, fun y hy => hf y (by omega)⟩
        intro y h1 h2
        rw [show y = lo + n by omega]
    simp only [completedLoop]
    by_cases hc : candEmit (lo + n) 0 rs = toEmit
    · rw [if_pos hc]
      refine ih E toEmit cols hf' (by omega) ?_
      rcases hi' with ⟨h1, h2⟩ | ⟨h1, h2, h2', h3, h4, h5⟩
      · have := next cols h2
        rcases this with ⟨_, h6⟩ | ⟨h6, _⟩
        · exact Or.inl ⟨h1, h6⟩
        · exact absurd (hc.trans h1) h6
      · refine Or.inr ⟨h1, by omega, h2', h3, ?_, h5⟩
        intro y hy1 hy2
        by_cases hy : lo + n + 1 ≤ y
        · exact h4 y hy hy2
        · rw [show y = lo + n by omega]; exact hc
    · rw [if_neg hc]
      by_cases hl : toEmit.length > 0
      · rw [if_pos hl]
        have hne : toEmit ≠ [] := by intro hh; rw [hh] at hl; simp at hl
        rcases loopInv_flush hi' hne with ⟨he, hbad⟩ | ⟨cols', he, ht⟩
        · rw [he]
          exact ⟨_, hbad⟩
        · rw [he]
          exact ih _ _ _ hf' (by omega) (next cols' ht)
      · rw [if_neg hl]
        have hnil : toEmit = [] := List.length_eq_zero_iff.mp (by omega)
        rcases hi' with ⟨_, h2⟩ | ⟨h1, _⟩
        · exact ih _ _ _ hf' (by omega) (next cols h2)
        · exact absurd hnil h1

/-- What holds between calls, after pushing `f`. -/
structure MgInv {α : Type} (draw : List DRec → Option α) (f : Int → List DRec) (m : Merger α) : Prop where
  range : 0 ≤ m.completed ∧ m.completed ≤ m.width.toInt
  tiles : Tiles draw m.columns m.completed m.width.toInt f
  recs : ∀ y, y < m.completed → f y = recsAt m.records y

def CompletePost {α : Type} (draw : List DRec → Option α) (f : Int → List DRec) (m : Merger α) (c : Int) : Option (Merger α) → Prop
  | none => DrawFails draw f
  | some m' => m'.completed = c ∧ m'.now = m.now ∧ m'.width = m.width ∧ m'.ps = m.ps ∧ MgInv draw f m'

theorem recsAt_prune (rs : List MRec) (c y : Int) (h : y < c) : recsAt (rs.filter (fun r => !(decide (r.start > c) && decide (r.end_ > c)))) y = recsAt rs y := by
  induction rs with
  | nil => rfl
  | cons r rs ih =>
    unfold recsAt at ih ⊢
    rw [List.filter_cons]
    by_cases hk : (!(decide (r.start > c) && decide (r.end_ > c))) = true
    · rw [if_pos hk, List.filter_cons, List.filter_cons]
      by_cases hy : r.start ≤ y ∧ y ≤ r.end_
      · rw [if_pos (by simpa using hy), if_pos (by simpa using hy), List.map_cons, List.map_cons, ih]
      · rw [if_neg (by simpa using hy), if_neg (by simpa using hy), ih]
    · rw [if_neg hk]
      have : ¬ (r.start ≤ y ∧ y ≤ r.end_) := by simp at hk; omega
      rw [List.filter_cons, if_neg (by simpa using this), ih]

theorem complete_spec {α : Type} (draw : List DRec → Option α) (f : Int → List DRec) (m : Merger α) (c : Int) (h : MgInv draw f m) (h0 : 0 ≤ c) (hc : c ≤ m.completed) :
    CompletePost draw f m c (m.complete draw c) := by
  have hn : c + ((m.completed - c).toNat : Int) = m.completed := by omega
  have hl := completedLoop_spec draw m.records c m.width.toInt f (m.completed - c).toNat 0 [] m.columns (by rw [hn]; exact h.recs) (by rw [hn]; exact h.range.2)
    (by rw [hn]; exact Or.inl ⟨rfl, h.tiles⟩)
  unfold Merger.complete
  cases hr : completedLoop draw m.records c (m.completed - c).toNat 0 [] m.columns with
  | none => rw [hr] at hl; exact hl
  | some x =>
    obtain ⟨E, toEmit, cols⟩ := x
    rw [hr] at hl
    dsimp only [LoopPost] at hl ⊢
    have hrec : ∀ y, y < c → f y = recsAt (m.records.filter (fun r => !(decide (r.start > c) && decide (r.end_ > c)))) y := by
      intro y hy
      rw [recsAt_prune _ _ _ hy]
      exact h.recs y (by omega)
    by_cases hne : toEmit.length > 0
    · rw [if_pos hne]
      rcases loopInv_flush hl (by intro hh; rw [hh] at hne; simp at hne) with ⟨he, hbad⟩ | ⟨cols', he, ht⟩
      · rw [he]
        exact ⟨_, hbad⟩
      · rw [he]
        exact ⟨rfl, rfl, rfl, rfl, ⟨⟨h0, Int.le_trans hc h.range.2⟩, ht, hrec⟩⟩
    · rw [if_neg hne]
      have hnil : toEmit = [] := List.length_eq_zero_iff.mp (by omega)
      rcases hl with ⟨_, ht⟩ | ⟨h1, _⟩
      · exact ⟨rfl, rfl, rfl, rfl, ⟨⟨h0, Int.le_trans hc h.range.2⟩, ht, hrec⟩⟩
      · exact absurd hnil h1

/-- The records over the pixel, by the pixels of their times. -/
def pixRecs (N W P : Int) (rs : List DRec) (y : Int) : List DRec :=
  rs.filter (fun r => decide (pixOf N W P r.startTime.toInt ≤ y ∧ y ≤ pixOf N W P r.endTime.toInt))

theorem pixRecs_over (N W P : Int) (hp : 0 < P) (hw : 0 < W) (rs : List DRec) (h : ∀ r ∈ rs, r.endTime.toInt < N) (y : Int) (hy : 0 ≤ y) (hyw : y < W) :
    pixRecs N W P rs y = over N W P rs y := by
  unfold pixRecs over
  apply List.filter_congr
  intro r hr
  have h2 := h r hr
  rw [decide_eq_decide]
  by_cases h1 : N ≤ r.startTime.toInt
  · have hs : W ≤ pixOf N W P r.startTime.toInt := by
      unfold pixOf
      have : (N - r.startTime.toInt + P - 1).tdiv P ≤ 0 := by
        by_cases hn : 0 ≤ N - r.startTime.toInt + P - 1
        · rw [Int.tdiv_eq_ediv_of_nonneg hn, Int.ediv_eq_zero_of_lt hn (by omega)]
          exact Int.le_refl _
        · simpa using Int.tdiv_le_tdiv (a := N - r.startTime.toInt + P - 1) (b := 0) hp (by omega)
      omega
    have hz : P ≤ (W - y) * P := by
      have := Int.mul_le_mul_of_nonneg_right (show (1 : Int) ≤ W - y by omega) (Int.le_of_lt hp)
      omega
    unfold Overlaps
    generalize (W - y) * P = Z at *
    omega
  have h1 : r.startTime.toInt < N := by omega
  have a := le_pixOf (W := W) (p := y + 1) hp h1
  have b := le_pixOf (W := W) (p := y) hp h2
  have z : W - (y + 1) = W - y - 1 := by omega
  rw [z, Int.sub_mul, Int.one_mul] at a
  unfold Overlaps
  generalize (W - y) * P = Z at *
  omega

/-- The record can be pushed: it ends before now, with no overflow. It may start at or after now, as one does if the clock was set back while it was being collected. -/
def RecOk (N W P : Int64) (r : DRec) : Prop := PixOk N W P r.startTime ∧ PixOk N W P r.endTime ∧ r.endTime < N

def PushPost {α : Type} (draw : List DRec → Option α) (N W P : Int64) (done : List DRec) (c : Int) : Option (Merger α) → Prop
  | none => ∃ done', done' <+: done ∧ DrawFails draw (pixRecs N.toInt W.toInt P.toInt done')
  | some m => m.now = N ∧ m.width = W ∧ m.ps = P ∧ m.completed = c ∧ MgInv draw (pixRecs N.toInt W.toInt P.toInt done) m

theorem push_spec {α : Type} (draw : List DRec → Option α) {N W P : Int64} (hw : 0 < W.toInt) (done : List DRec) (m : Merger α) (r : DRec) {c : Int}
    (hm : PushPost draw N W P done c (some m)) (hr : RecOk N W P r) (hc : pixOf N.toInt W.toInt P.toInt r.endTime.toInt < c) :
    PushPost draw N W P (done ++ [r]) (pixOf N.toInt W.toInt P.toInt r.endTime.toInt + 1) (m.push draw r) := by
  obtain ⟨hN, hW, hP, hcc, hinv⟩ := hm
  obtain ⟨o1, o2, l2⟩ := hr
  have hw0 : W ≠ 0 := by rintro rfl; simp at hw
  obtain ⟨s, hs, hsv⟩ := timeToPixel_eq o1
  obtain ⟨e, he, hev⟩ := timeToPixel_eq o2
  have hrng := pixOf_range (W := W.toInt) o1.1 hw (Int64.lt_iff_toInt_lt.mp l2)
  unfold Merger.push
  rw [hN, hW, hP, if_neg hw0, hs, he]
  dsimp only
  rw [hev]
  have := complete_spec draw _ m (pixOf N.toInt W.toInt P.toInt r.endTime.toInt + 1) hinv (by omega) (by omega)
  cases hcm : m.complete draw (pixOf N.toInt W.toInt P.toInt r.endTime.toInt + 1) with
  | none =>
    rw [hcm] at this
    exact ⟨done, List.prefix_append .., this⟩
  | some m' =>
    rw [hcm] at this
    obtain ⟨k1, k2, k3, k4, k5⟩ := this
    refine ⟨k2.trans hN, k3.trans hW, k4.trans hP, k1, ⟨k5.range, ?_, ?_⟩⟩
    · refine k5.tiles.congr ?_
      intro x hx1 hx2
      rw [k1] at hx1
      unfold pixRecs
      rw [List.filter_append]
      have hz : ¬ (pixOf N.toInt W.toInt P.toInt r.startTime.toInt ≤ x ∧ x ≤ pixOf N.toInt W.toInt P.toInt r.endTime.toInt) := by omega
      rw [List.filter_cons, if_neg (by simpa using hz)]
      simp
    · intro y hy
      have := k5.recs y hy
      dsimp only
      unfold pixRecs at this ⊢
      rw [List.filter_append, this]
      unfold recsAt
      rw [List.filter_append, List.map_append, hsv]
      congr 1
      by_cases hz : pixOf N.toInt W.toInt P.toInt r.startTime.toInt ≤ y ∧ y ≤ pixOf N.toInt W.toInt P.toInt r.endTime.toInt
      · rw [List.filter_cons, if_pos (by simpa using hz), List.filter_cons, if_pos (by simpa using hz)]; rfl
      · rw [List.filter_cons, if_neg (by simpa using hz), List.filter_cons, if_neg (by simpa using hz)]; rfl

def AllPost {α : Type} (draw : List DRec → Option α) (N W P : Int64) (done : List DRec) : Option (Merger α) → Prop
  | none => ∃ done', done' <+: done ∧ DrawFails draw (pixRecs N.toInt W.toInt P.toInt done')
  | some m => m.now = N ∧ m.width = W ∧ m.ps = P ∧ MgInv draw (pixRecs N.toInt W.toInt P.toInt done) m

theorem pushAll_spec {α : Type} (draw : List DRec → Option α) {N W P : Int64} (hw : 0 < W.toInt) (hp : 0 < P.toInt) (rs : List DRec) (done : List DRec) (m : Merger α) (c : Int)
    (hm : PushPost draw N W P done c (some m)) (hr : ∀ r ∈ rs, RecOk N W P r) (hc : ∀ r ∈ rs, pixOf N.toInt W.toInt P.toInt r.endTime.toInt < c)
    (hd : rs.Pairwise (fun a b => b.endTime ≤ a.endTime)) :
    AllPost draw N W P (done ++ rs) (m.pushAll draw rs) := by
  induction rs generalizing done m c with
  | nil =>
    rw [List.append_nil]
    obtain ⟨a, b, e, _, f⟩ := hm
    exact ⟨a, b, e, f⟩
  | cons r rs ih =>
    have h1 := push_spec draw hw done m r hm (hr r (by simp)) (hc r (by simp))
    rw [List.pairwise_cons] at hd
    unfold Merger.pushAll
    cases hpm : m.push draw r with
    | none =>
      rw [hpm] at h1
      obtain ⟨d, hpre, hf⟩ := h1
      refine ⟨d, hpre.trans ?_, hf⟩
      rw [show done ++ r :: rs = (done ++ [r]) ++ rs by simp]
      exact List.prefix_append ..
    | some m' =>
      rw [hpm] at h1
      dsimp only
      rw [show done ++ r :: rs = (done ++ [r]) ++ rs by simp]
      refine ih (done ++ [r]) m' _ h1 (fun x hx => hr x (by simp [hx])) ?_ hd.2
      intro x hx
      have := pixOf_mono (N := N.toInt) (W := W.toInt) hp (Int64.le_iff_toInt_le.mp (hd.1 x hx))
      omega

theorem Tiles.tiling {α : Type} {draw : List DRec → Option α} {cols : List (Col α)} {hi : Int} {f : Int → List DRec} (h : Tiles draw cols 0 hi f) : Tiling draw hi f cols :=
  ⟨h.ordered, h.inside, h.covered, h.shows⟩

theorem render_spec {α : Type} (draw : List DRec → Option α) (now duration width : Int64) (rs : List DRec)
    (hw : 0 < width.toInt) (hp : 0 < (duration / width).toInt) (hr : ∀ r ∈ rs, RecOk now width (duration / width) r) (hd : rs.Pairwise (fun a b => b.endTime ≤ a.endTime)) :
    (∃ rs' x, rs' <+: rs ∧ over now.toInt width.toInt (duration / width).toInt rs' x ≠ [] ∧ draw (over now.toInt width.toInt (duration / width).toInt rs' x) = none ∧ renderColumns draw now duration width rs = none) ∨
    ∃ cols, renderColumns draw now duration width rs = some cols ∧ Tiling draw width.toInt (over now.toInt width.toInt (duration / width).toInt rs) cols := by
  have hw0 : width ≠ 0 := by rintro rfl; simp at hw
  generalize hP : duration / width = P at *
  have hnew : Merger.new α now duration width = some { now := now, width := width, ps := P, completed := width.toInt } := by
    simp [Merger.new, pixelSize, hw0, hP]
  have base : PushPost draw now width P [] width.toInt (some { now := now, width := width, ps := P, completed := width.toInt, records := [], columns := [] }) := by
    refine ⟨rfl, rfl, rfl, rfl, ⟨⟨by dsimp only; omega, Int.le_refl _⟩, ⟨List.Pairwise.nil, by simp, ?_, by simp⟩, ?_⟩⟩
    · intro x h1 h2; dsimp only at h1 h2; omega
    · intro y _; rfl
  have hall := pushAll_spec draw hw hp rs [] _ _ base hr (by
    intro r hrr
    exact (pixOf_range hp hw (Int64.lt_iff_toInt_lt.mp (hr r hrr).2.2)).2) hd
  rw [List.nil_append] at hall
  have eqf : ∀ rs', rs' <+: rs → ∀ y, 0 ≤ y → y < width.toInt → pixRecs now.toInt width.toInt P.toInt rs' y = over now.toInt width.toInt P.toInt rs' y := by
    intro rs' hpre y hy hyw
    exact pixRecs_over _ _ _ hp hw rs' (fun r h => Int64.lt_iff_toInt_lt.mp (hr r (hpre.subset h)).2.2) y hy hyw
  have neg : ∀ rs', rs' <+: rs → ∀ y, pixRecs now.toInt width.toInt P.toInt rs' y ≠ [] → 0 ≤ y ∧ y < width.toInt := by
    intro rs' hpre y hne
    obtain ⟨r, hm⟩ := List.exists_mem_of_ne_nil _ hne
    unfold pixRecs at hm
    rw [List.mem_filter] at hm
    have h0 : 0 ≤ pixOf now.toInt width.toInt P.toInt r.startTime.toInt := by unfold pixOf; omega
    have h1 := (pixOf_range (W := width.toInt) hp hw (Int64.lt_iff_toInt_lt.mp (hr r (hpre.subset hm.1)).2.2)).2
    have := hm.2
    simp at this
    omega
  unfold renderColumns
  rw [hnew]
  dsimp only
  cases hpa : Merger.pushAll draw { now := now, width := width, ps := P, completed := width.toInt } rs with
  | none =>
    rw [hpa] at hall
    obtain ⟨rs', hpre, x, h1, h2⟩ := hall
    left
    have h0 := neg rs' hpre x h1
    rw [eqf rs' hpre x h0.1 h0.2] at h1 h2
    exact ⟨rs', x, hpre, h1, h2, rfl⟩
  | some m =>
    rw [hpa] at hall
    obtain ⟨e1, e2, e3, hinv⟩ := hall
    have hc := complete_spec draw _ m 0 hinv (Int.le_refl _) hinv.range.1
    dsimp only
    unfold Merger.finish
    cases hcm : m.complete draw 0 with
    | none =>
      rw [hcm] at hc
      obtain ⟨x, h1, h2⟩ := hc
      left
      have h0 := neg rs (List.prefix_refl _) x h1
      rw [eqf rs (List.prefix_refl _) x h0.1 h0.2] at h1 h2
      exact ⟨rs, x, List.prefix_refl _, h1, h2, rfl⟩
    | some m' =>
      rw [hcm] at hc
      obtain ⟨k1, k2, k3, k4, k5⟩ := hc
      right
      refine ⟨m'.columns, rfl, ?_⟩
      have ht := k5.tiles
      rw [k1, k3, e2] at ht
      exact (ht.congr (fun x h1 h2 => eqf rs (List.prefix_refl _) x h1 h2)).tiling

/-- **C46**. Pushing records with decreasing ends before now and finishing gives columns that are disjoint, in decreasing order, inside the image, cover exactly the pixels some record overlaps, and show at each pixel exactly the records overlapping it, merged. -/
theorem C46_columns {α : Type} (draw : List DRec → Option α) (now duration width : Int64) (rs : List DRec) (cols : List (Col α))
    (hw : 0 < width.toInt) (hp : 0 < (duration / width).toInt) (hr : ∀ r ∈ rs, RecOk now width (duration / width) r) (hd : rs.Pairwise (fun a b => b.endTime ≤ a.endTime))
    (h : renderColumns draw now duration width rs = some cols) :
    Tiling draw width.toInt (over now.toInt width.toInt (duration / width).toInt rs) cols := by
  rcases render_spec draw now duration width rs hw hp hr hd with ⟨_, _, _, _, _, hn⟩ | ⟨c, hc, ht⟩
  · rw [hn] at h; cases h
  · rw [hc] at h; cases h; exact ht

/-- **C46** (no other failure). It fails only when the records over some pixel cannot be merged and drawn. -/
theorem C46_succeeds {α : Type} (draw : List DRec → Option α) (now duration width : Int64) (rs : List DRec)
    (hw : 0 < width.toInt) (hp : 0 < (duration / width).toInt) (hr : ∀ r ∈ rs, RecOk now width (duration / width) r) (hd : rs.Pairwise (fun a b => b.endTime ≤ a.endTime))
    (hdraw : ∀ l, l ≠ [] → (∀ r ∈ l, r ∈ rs) → draw l ≠ none) : ∃ cols, renderColumns draw now duration width rs = some cols := by
  rcases render_spec draw now duration width rs hw hp hr hd with ⟨rs', x, hp', h1, h2, _⟩ | ⟨c, hc, _⟩
  · exact absurd h2 (hdraw _ h1 (fun r hr => hp'.subset (List.mem_filter.mp hr).1))
  · exact ⟨c, hc⟩

/-- A pixel is in at most one column. -/
theorem Tiling.unique {α : Type} {draw : List DRec → Option α} {W : Int} {f : Int → List DRec} {cols : List (Col α)} (h : Tiling draw W f cols)
    {i j : Nat} {a b : Col α} (ha : cols[i]? = some a) (hb : cols[j]? = some b) {x : Int} (hax : a.Has x) (hbx : b.Has x) : i = j := by
  have key : ∀ i j : Nat, ∀ a b : Col α, cols[i]? = some a → cols[j]? = some b → a.Has x → b.Has x → ¬ i < j := by
    intro i j a b ha hb hax hbx hij
    have hpw := List.pairwise_iff_getElem.mp h.ordered
    obtain ⟨hi, ea⟩ := List.getElem?_eq_some_iff.mp ha
    obtain ⟨hj, eb⟩ := List.getElem?_eq_some_iff.mp hb
    have := hpw i j hi hj hij
    rw [ea, eb] at this
    have := hax.1; have := hbx.2
    omega
  have := key i j a b ha hb hax hbx
  have := key j i b a hb ha hbx hax
  omega

/-- **C46** (exactly one). A pixel some record overlaps is in exactly one column. -/
theorem C46_one_column {α : Type} (draw : List DRec → Option α) (now duration width : Int64) (rs : List DRec) (cols : List (Col α))
    (hw : 0 < width.toInt) (hp : 0 < (duration / width).toInt) (hr : ∀ r ∈ rs, RecOk now width (duration / width) r) (hd : rs.Pairwise (fun a b => b.endTime ≤ a.endTime))
    (h : renderColumns draw now duration width rs = some cols) (x : Int) (hx : 0 ≤ x ∧ x < width.toInt) (r : DRec) (hrr : r ∈ rs) (ho : Overlaps now.toInt width.toInt (duration / width).toInt r x) :
    ∃ i : Nat, (∃ a : Col α, cols[i]? = some a ∧ a.Has x) ∧ ∀ j : Nat, (∃ b : Col α, cols[j]? = some b ∧ b.Has x) → j = i := by
  have ht := C46_columns draw now duration width rs cols hw hp hr hd h
  have hm : r ∈ over now.toInt width.toInt (duration / width).toInt rs x := by
    unfold over; rw [List.mem_filter]; exact ⟨hrr, by simpa using ho⟩
  obtain ⟨c, hc, hh⟩ := ht.covered x hx.1 hx.2 (List.ne_nil_of_mem hm)
  obtain ⟨i, hi, e⟩ := List.getElem_of_mem hc
  refine ⟨i, ⟨c, by rw [List.getElem?_eq_getElem hi, e], hh⟩, ?_⟩
  rintro j ⟨b, hb, hbx⟩
  exact ht.unique hb (by rw [List.getElem?_eq_getElem hi, e]) hbx hh

/-- A record ending exactly now is drawn one pixel past the right edge. -/
theorem C46_now_refuted :
    ¬ ∀ (now duration width : Int64) (rs : List DRec) (cols : List (Col (List DRec))), 0 < width.toInt → 0 < (duration / width).toInt →
      (∀ r ∈ rs, r.startTime ≤ r.endTime ∧ r.endTime ≤ now) → rs.Pairwise (fun a b => b.endTime ≤ a.endTime) →
      renderColumns some now duration width rs = some cols → ∀ c ∈ cols, c.x + c.w ≤ width.toInt := by
  intro h
  have := h 1000 1000 10 [{ startTime := 850, endTime := 1000 }, { startTime := 700, endTime := 850 }] [⟨9, 2, [{ startTime := 850, endTime := 1000 }]⟩, ⟨8, 1, [{ startTime := 850, endTime := 1000 }, { startTime := 700, endTime := 850 }]⟩, ⟨7, 1, [{ startTime := 700, endTime := 850 }]⟩]
    (by decide) (by decide) (by decide) (by simp) (by rfl)
  have := this _ (List.Mem.head _)
  revert this
  decide

/-- Two overlapping records and a gap. The last record starts after now: it is drawn nowhere. -/
theorem C46_example :
    (∀ r ∈ [({ startTime := 850, endTime := 980 } : DRec), { startTime := 650, endTime := 860 }, { startTime := 150, endTime := 350 }, { startTime := 1100, endTime := 100 }], RecOk 1000 10 (1000 / 10) r) ∧
    renderColumns some 1000 1000 10 [{ startTime := 850, endTime := 980 }, { startTime := 650, endTime := 860 }, { startTime := 150, endTime := 350 }, { startTime := 1100, endTime := 100 }] =
      some [⟨9, 1, [{ startTime := 850, endTime := 980 }]⟩, ⟨8, 1, [{ startTime := 850, endTime := 980 }, { startTime := 650, endTime := 860 }]⟩,
            ⟨6, 2, [{ startTime := 650, endTime := 860 }]⟩, ⟨2, 2, [{ startTime := 150, endTime := 350 }]⟩, ⟨1, 1, [{ startTime := 150, endTime := 350 }]⟩] := by
  refine ⟨?_, by rfl⟩
  unfold RecOk PixOk
  decide

end Rothko
