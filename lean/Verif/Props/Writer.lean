import Verif.Spec.Writer
/-!
# C41, C43: aggregation, one call at a time
-/
namespace Rothko

theorem fLt_iff {a b : F64} (ha : fFinite a = true) (hb : fFinite b = true) : fLt a b = true ↔ fKey a < fKey b := by
  simp only [fFinite, Bool.and_eq_true, Bool.not_eq_true'] at ha hb
  simp [fLt, ha.2, hb.2]

theorem fLt_false_iff {a b : F64} (ha : fFinite a = true) (hb : fFinite b = true) : fLt a b = false ↔ fKey b ≤ fKey a := by
  have := fLt_iff ha hb
  cases h : fLt a b with
  | true => rw [h] at this; simp at this; simp; omega
  | false => rw [h] at this; simp at this; simpa using this

/-- The state of an agg that was given `vals`. -/
structure Agg.Ok (start : Int64) (vals : List Obs) (a : Agg) : Prop where
  ne : vals ≠ []
  fin : ∀ o ∈ vals, fFinite o.val = true
  locked : a.locked = false
  dist : a.dist = some vals
  start : a.rec_.startTime = start
  merged : a.rec_.merged = 1
  count : a.rec_.observations = Int64.ofNat vals.length
  min : IsMin vals a.rec_.min a.rec_.minId
  max : IsMax vals a.rec_.max a.rec_.maxId

theorem Agg.Ok.minFin {start : Int64} {vals : List Obs} {a : Agg} (h : a.Ok start vals) : fFinite a.rec_.min = true := by
  obtain ⟨⟨o, ho, e, _⟩, _⟩ := h.min; rw [← e]; exact h.fin o ho

theorem Agg.Ok.maxFin {start : Int64} {vals : List Obs} {a : Agg} (h : a.Ok start vals) : fFinite a.rec_.max = true := by
  obtain ⟨⟨o, ho, e, _⟩, _⟩ := h.max; rw [← e]; exact h.fin o ho

theorem fLt_self (x : F64) : fLt x x = false := by simp [fLt]

theorem ofNat_ne_zero {n : Nat} (h0 : 0 < n) (h : n < 9223372036854775808) : Int64.ofNat n ≠ 0 := by
  intro hh
  have h1 : (Int64.ofNat n).toInt = n := Int64.toInt_ofNat_of_lt (by simpa using h)
  rw [hh] at h1
  have h2 : (0 : Int64).toInt = 0 := rfl
  omega

theorem ofNat_succ (n : Nat) : Int64.ofNat n + 1 = Int64.ofNat (n + 1) := by
  rw [Int64.ofNat_add]; rfl

theorem observe_new {d : DistParams} (hd : d.newOk = true) (now : Int64) (o : Obs) (ho : fFinite o.val = true) :
    ∃ a, (newAgg now).observe d o = some a ∧ a.Ok now [o] := by
  refine ⟨{ rec_ := { startTime := now, merged := 1, observations := 1, min := o.val, max := o.val, minId := o.id, maxId := o.id }, dist := some [o] }, ?_, ?_⟩
  · simp [newAgg, Agg.observe, Agg.observe1, hd, ObsMid.need, Agg.observe2, Agg.updMin, Agg.updMax]
  · exact ⟨by simp, by simpa using ho, rfl, rfl, rfl, rfl, rfl, ⟨⟨o, by simp, rfl, rfl⟩, by simp [fLt_self]⟩, ⟨⟨o, by simp, rfl, rfl⟩, by simp [fLt_self]⟩⟩

/-- Extending the minimum by one value. -/
theorem IsMin.snoc {vals : List Obs} {x : F64} {id : Bytes} (h : IsMin vals x id) (hf : ∀ o ∈ vals, fFinite o.val = true) {o : Obs} (ho : fFinite o.val = true) :
    (fLt o.val x = false → IsMin (vals ++ [o]) x id) ∧ (fLt o.val x = true → IsMin (vals ++ [o]) o.val o.id) := by
  obtain ⟨⟨w, hw, e1, e2⟩, h2⟩ := h
  have hx : fFinite x = true := e1 ▸ hf w hw
  constructor
  · intro hlt
    refine ⟨⟨w, by simp [hw], e1, e2⟩, fun u hu => ?_⟩
    rcases List.mem_append.mp hu with hu | hu
    · exact h2 u hu
    · simp at hu; subst hu; exact hlt
  · intro hlt
    refine ⟨⟨o, by simp, rfl, rfl⟩, fun u hu => ?_⟩
    rcases List.mem_append.mp hu with hu | hu
    · have q1 := (fLt_false_iff (hf u hu) hx).mp (h2 u hu)
      have q2 := (fLt_iff ho hx).mp hlt
      exact (fLt_false_iff (hf u hu) ho).mpr (by omega)
    · simp at hu; subst hu; exact fLt_self _

theorem IsMax.snoc {vals : List Obs} {x : F64} {id : Bytes} (h : IsMax vals x id) (hf : ∀ o ∈ vals, fFinite o.val = true) {o : Obs} (ho : fFinite o.val = true) :
    (fLt x o.val = false → IsMax (vals ++ [o]) x id) ∧ (fLt x o.val = true → IsMax (vals ++ [o]) o.val o.id) := by
  obtain ⟨⟨w, hw, e1, e2⟩, h2⟩ := h
  have hx : fFinite x = true := e1 ▸ hf w hw
  constructor
  · intro hlt
    refine ⟨⟨w, by simp [hw], e1, e2⟩, fun u hu => ?_⟩
    rcases List.mem_append.mp hu with hu | hu
    · exact h2 u hu
    · simp at hu; subst hu; exact hlt
  · intro hlt
    refine ⟨⟨o, by simp, rfl, rfl⟩, fun u hu => ?_⟩
    rcases List.mem_append.mp hu with hu | hu
    · have q1 := (fLt_false_iff hx (hf u hu)).mp (h2 u hu)
      have q2 := (fLt_iff hx ho).mp hlt
      exact (fLt_false_iff ho (hf u hu)).mpr (by omega)
    · simp at hu; subst hu; exact fLt_self _

theorem observe_ok {d : DistParams} {start : Int64} {vals : List Obs} {a : Agg} (h : a.Ok start vals) (hlen : vals.length < 9223372036854775808) (o : Obs) (ho : fFinite o.val = true) :
    ∃ a', a.observe d o = some a' ∧ a'.Ok start (vals ++ [o]) := by
  have hne := ofNat_ne_zero (List.length_pos_iff.mpr h.ne) hlen
  have hc : a.rec_.observations ≠ 0 := h.count ▸ hne
  have hfin : ∀ u ∈ vals ++ [o], fFinite u.val = true := by
    intro u hu; rcases List.mem_append.mp hu with hu | hu
    · exact h.fin u hu
    · simp at hu; subst hu; exact ho
  have hcnt : a.rec_.observations + 1 = Int64.ofNat (vals ++ [o]).length := by rw [h.count, ofNat_succ]; simp
  have hmin := h.min.snoc h.fin ho
  have hmax := h.max.snoc h.fin ho
  refine ⟨_, by unfold Agg.observe Agg.observe1; rw [h.locked, h.dist]; rfl, ?_⟩
  dsimp only
  by_cases hn : (⟨a.rec_.min, a.rec_.max, a.rec_.observations⟩ : ObsMid).need o = true
  · rw [if_pos hn]
    unfold Agg.observe2 Agg.updMin
    simp only [hc, decide_false, Bool.false_or]
    by_cases h1 : fLt o.val a.rec_.min = true
    · rw [if_pos h1]
      unfold Agg.updMax
      simp only [Bool.false_or]
      by_cases h2 : fLt a.rec_.max o.val = true
      · rw [if_pos h2]; exact ⟨by simp, hfin, rfl, rfl, h.start, h.merged, hcnt, hmin.2 h1, hmax.2 h2⟩
      · rw [if_neg h2]; exact ⟨by simp, hfin, rfl, rfl, h.start, h.merged, hcnt, hmin.2 h1, hmax.1 (by simpa using h2)⟩
    · rw [if_neg h1]
      unfold Agg.updMax
      simp only [Bool.false_or]
      by_cases h2 : fLt a.rec_.max o.val = true
      · rw [if_pos h2]; exact ⟨by simp, hfin, rfl, rfl, h.start, h.merged, hcnt, hmin.1 (by simpa using h1), hmax.2 h2⟩
      · rw [if_neg h2]; exact ⟨by simp, hfin, rfl, rfl, h.start, h.merged, hcnt, hmin.1 (by simpa using h1), hmax.1 (by simpa using h2)⟩
  · rw [if_neg hn]
    simp only [ObsMid.need, Bool.or_eq_true, not_or, Bool.not_eq_true] at hn
    exact ⟨by simp, hfin, rfl, rfl, h.start, h.merged, hcnt, hmin.1 hn.1.2, hmax.1 hn.2⟩

/-! ## The page -/

theorem obsOf_snoc (m : Bytes) (l : List (Bytes × Obs)) (m' : Bytes) (o : Obs) : obsOf m (l ++ [(m', o)]) = if m' = m then obsOf m l ++ [o] else obsOf m l := by
  unfold obsOf
  rw [List.filter_append, List.map_append]
  by_cases h : m' = m <;> simp [h]

theorem obsOf_ne_nil {m : Bytes} {l : List (Bytes × Obs)} : obsOf m l ≠ [] ↔ m ∈ l.map (·.1) := by
  unfold obsOf
  rw [Ne, List.map_eq_nil_iff, List.filter_eq_nil_iff]
  simp only [List.mem_map, beq_iff_eq]
  constructor
  · intro h
    exact Classical.byContradiction (fun hn => h (fun x hx hh => hn ⟨x, hx, hh⟩))
  · rintro ⟨x, hx, e⟩ h
    exact h x hx e

theorem obsOf_length (m : Bytes) (l : List (Bytes × Obs)) : (obsOf m l).length ≤ l.length := by
  unfold obsOf; rw [List.length_map]; exact List.length_filter_le _ _

/-- The page holds the observations. -/
structure WPage.Ok (p : WPage) (obs : List (Bytes × Obs)) : Prop where
  nodup : (p.m.map (·.1)).Nodup
  keys : ∀ m, m ∈ p.m.map (·.1) ↔ m ∈ obs.map (·.1)
  aggs : ∀ e ∈ p.m, e.2.Ok p.now (obsOf e.1 obs)

theorem WPage.load_some {p : WPage} {m : Bytes} {a : Agg} (h : p.load m = some a) : (m, a) ∈ p.m := by
  unfold WPage.load at h
  cases hf : p.m.find? (fun e => e.1 == m) with
  | none => rw [hf] at h; cases h
  | some e =>
    rw [hf] at h; cases h
    have h1 := List.mem_of_find?_eq_some hf
    have h2 := List.find?_some hf
    simp only [beq_iff_eq] at h2
    rw [← h2]; exact h1

theorem WPage.load_none {p : WPage} {m : Bytes} (h : p.load m = none) : m ∉ p.m.map (·.1) := by
  unfold WPage.load at h
  rw [Option.map_eq_none_iff, List.find?_eq_none] at h
  intro hm
  obtain ⟨e, he, h1⟩ := List.mem_map.mp hm
  exact h e he (by simp [h1])

theorem WPage.Ok.store_ok {p : WPage} {obs : List (Bytes × Obs)} (h : p.Ok obs) (m : Bytes) (o : Obs) (a : Agg) (ha : a.Ok p.now (obsOf m obs ++ [o])) :
    (p.store m a).Ok (obs ++ [(m, o)]) ∧ (p.store m a).now = p.now := by
  unfold WPage.store
  by_cases hk : m ∈ p.m.map (·.1)
  · have hany : p.m.any (fun e => e.1 == m) = true := by
      obtain ⟨e, he, h1⟩ := List.mem_map.mp hk
      exact List.any_eq_true.mpr ⟨e, he, by simp [h1]⟩
    rw [if_pos hany]
    have hfst : (p.m.map (fun e => if e.1 == m then (e.1, a) else e)).map (·.1) = p.m.map (·.1) := by
      rw [List.map_map]; refine List.map_congr_left (fun e _ => ?_)
      simp only [Function.comp]; split <;> rfl
    refine ⟨⟨?_, ?_, ?_⟩, rfl⟩
    · dsimp only; rw [hfst]; exact h.nodup
    · intro x
      dsimp only; rw [hfst, h.keys x]
      simp only [List.map_append, List.mem_append, List.map_cons, List.map_nil, List.mem_singleton]
      constructor
      · exact Or.inl
      · rintro (h1 | rfl)
        · exact h1
        · exact (h.keys x).mp hk
    · intro e he
      obtain ⟨e', he', h1⟩ := List.mem_map.mp he
      by_cases hm : e'.1 = m
      · simp only [hm, beq_self_eq_true, if_true] at h1
        subst h1
        rw [obsOf_snoc]; simpa using ha
      · have : (e'.1 == m) = false := by simpa using hm
        simp only [this, Bool.false_eq_true, if_false] at h1
        subst h1
        rw [obsOf_snoc, if_neg (fun hh => hm hh.symm)]
        exact h.aggs e' he'
  · have hany : p.m.any (fun e => e.1 == m) = false := by
      rw [List.any_eq_false]
      intro e he h1
      exact hk (List.mem_map.mpr ⟨e, he, by simpa using h1⟩)
    rw [if_neg (by rw [hany]; simp)]
    refine ⟨⟨?_, ?_, ?_⟩, rfl⟩
    · dsimp only; rw [List.map_append]
      refine List.nodup_append.mpr ⟨h.nodup, by simp, ?_⟩
      intro x hx y hy hxy
      simp at hy; subst hy; subst hxy; exact hk hx
    · intro x
      simp only [List.map_append, List.mem_append, h.keys x, List.map_cons, List.map_nil]
    · intro e he
      rcases List.mem_append.mp he with he | he
      · rw [obsOf_snoc, if_neg]
        · exact h.aggs e he
        · intro hm; exact hk (List.mem_map.mpr ⟨e, he, hm.symm⟩)
      · simp at he; subst he
        rw [obsOf_snoc, if_pos rfl]; exact ha

theorem finish_ok {d : DistParams} {start : Int64} {vals : List Obs} {a : Agg} (h : a.Ok start vals) (now : Int64) :
    ∃ r, a.finish d now = .ok r vals ∧ RecordOf d start now vals r := by
  refine ⟨{ a.rec_ with endTime := now, kind := d.kind, distribution := d.marshal vals }, ?_, ?_⟩
  · unfold Agg.finish; rw [h.locked, h.dist]; rfl
  · exact ⟨h.start, rfl, h.count, h.merged, h.min, h.max, rfl, rfl⟩

theorem captureLoop_ok (d : DistParams) (now start : Int64) (obs : List (Bytes × Obs)) (l : List (Bytes × Agg)) (h : ∀ e ∈ l, e.2.Ok start (obsOf e.1 obs)) :
    (captureLoop d now l).2 = false ∧ (captureLoop d now l).1.map (·.metric) = l.map (·.1) ∧
      (∀ c ∈ (captureLoop d now l).1, c.vals = obsOf c.metric obs) ∧ ∀ c ∈ (captureLoop d now l).1, RecordOf d start now c.vals c.rec_ := by
  induction l with
  | nil => simp [captureLoop]
  | cons e l ih =>
    obtain ⟨m, a⟩ := e
    obtain ⟨r, h1, h2⟩ := finish_ok (d := d) (h (m, a) (by simp)) now
    obtain ⟨i1, i2, i3, i4⟩ := ih (fun e he => h e (by simp [he]))
    simp only [captureLoop, h1]
    refine ⟨i1, by simp [i2], ?_, ?_⟩
    · intro c hc
      rcases List.mem_cons.mp hc with rfl | hc
      · rfl
      · exact i3 c hc
    · intro c hc
      rcases List.mem_cons.mp hc with rfl | hc
      · exact h2
      · exact i4 c hc

theorem WPage.Ok.group {p : WPage} {obs : List (Bytes × Obs)} (h : p.Ok obs) (d : DistParams) (now : Int64) (order : List (Bytes × Agg) → List (Bytes × Agg))
    (ho : (order p.m).Perm p.m) : (captureLoop d now (order p.m)).2 = false ∧ GroupOf d ⟨p.now, now, obs⟩ (captureLoop d now (order p.m)).1 := by
  obtain ⟨h1, h2, h3, h4⟩ := captureLoop_ok d now p.now obs (order p.m) (fun e he => h.aggs e (ho.subset he))
  refine ⟨h1, ⟨?_, ?_, h3, h4⟩⟩
  · rw [h2]; exact (ho.map _).nodup_iff.mpr h.nodup
  · intro m; rw [h2, (ho.map _).mem_iff]; exact h.keys m

/-! ## The theorems -/

/-- The order of `Range` is some order of the entries. -/
def WOp.Fair : WOp → Prop
  | .add _ _ _ => True
  | .capture order _ => ∀ l, (order l).Perm l
  | .iterate order _ => ∀ l, (order l).Perm l

structure WInv (d : DistParams) (t : WSpec) (s : WState) : Prop where
  dead : s.dead = false
  out : GroupsOf d t.batches s.out
  isNone : s.page = none ↔ t.start = none
  page : ∀ p, s.page = some p → t.start = some p.now ∧ p.Ok t.pend
  empty : t.start = none → t.pend = []

theorem WInv.step {d : DistParams} (hd : d.newOk = true) {t : WSpec} {s : WState} (h : WInv d t s) (hlen : t.pend.length < 9223372036854775808) (op : WOp) (hop : op.Fair) :
    WInv d (t.step op) (op.run d s) := by
  unfold WOp.run
  rw [if_neg (by rw [h.dead]; simp)]
  cases op with
  | add m o now =>
    dsimp only
    unfold WState.add WSpec.step
    by_cases hf : fFinite o.val = true
    · have hf' : (fIsInf o.val || fIsNaN o.val) = false := by simpa [fFinite] using hf
      rw [if_neg (by rw [hf']; simp)]
      dsimp only
      rw [if_pos hf]
      -- the page
      have hp : (s.page.getD { now := now }).Ok t.pend ∧ t.start.getD now = (s.page.getD { now := now }).now := by
        cases hpg : s.page with
        | none =>
          have h1 := h.isNone.mp hpg
          have h2 := h.empty h1
          rw [h1, h2]
          exact ⟨⟨by simp, by simp, by simp⟩, rfl⟩
        | some p =>
          obtain ⟨h1, h2⟩ := h.page p hpg
          rw [h1]
          exact ⟨h2, rfl⟩
      generalize s.page.getD { now := now } = p at hp
      obtain ⟨hp, hstart⟩ := hp
      have hobs : ∃ a', ((p.load m).getD (newAgg p.now)).observe d o = some a' ∧ a'.Ok p.now (obsOf m t.pend ++ [o]) := by
        cases hl : p.load m with
        | none =>
          have : obsOf m t.pend = [] := by
            refine Classical.byContradiction (fun hn => ?_)
            exact WPage.load_none hl ((hp.keys m).mpr (obsOf_ne_nil.mp hn))
          rw [this]
          exact observe_new hd p.now o hf
        | some a =>
          have := hp.aggs _ (WPage.load_some hl)
          exact observe_ok this (Nat.lt_of_le_of_lt (obsOf_length _ _) hlen) o hf
      obtain ⟨a', h1, h2⟩ := hobs
      rw [h1]
      dsimp only
      obtain ⟨h3, h4⟩ := hp.store_ok m o a' h2
      refine ⟨h.dead, h.out, by simp, ?_, by simp⟩
      intro p' hp'
      dsimp only at hp'
      cases hp'
      exact ⟨by rw [hstart, h4], h3⟩
    · have hf' : (fIsInf o.val || fIsNaN o.val) = true := by simp only [fFinite, Bool.and_eq_true, Bool.not_eq_true', not_and, Bool.not_eq_false] at hf; cases hh : fIsInf o.val <;> simp [hh] at hf ⊢; exact hf
      rw [if_pos hf']
      dsimp only
      rw [if_neg hf]
      exact h
  | capture order now =>
    dsimp only
    unfold WState.capture WSpec.step
    dsimp only
    cases hpg : s.page with
    | none =>
      rw [h.isNone.mp hpg]
      exact h
    | some p =>
      obtain ⟨h1, h2⟩ := h.page p hpg
      rw [h1]
      obtain ⟨h3, h4⟩ := h2.group d now order (hop _)
      refine ⟨by dsimp only; rw [h.dead, h3]; rfl, .snoc h.out h4, by simp, ?_, by simp⟩
      intro p' hp'
      dsimp only at hp'
      cases hp'
      exact ⟨rfl, ⟨by simp, by simp, by simp⟩⟩
  | iterate order now =>
    dsimp only
    have : (s.iterate d order now).2 = false := by
      unfold WState.iterate
      cases hpg : s.page with
      | none => rfl
      | some p => exact ((h.page p hpg).2.group d now order (hop _)).1
    rw [this]
    exact ⟨by dsimp only; rw [h.dead]; rfl, h.out, h.isNone, h.page, h.empty⟩

theorem WSpec.pend_length (ops : List WOp) (t : WSpec) : (ops.foldl WSpec.step t).pend.length ≤ t.pend.length + ops.length := by
  induction ops generalizing t with
  | nil => simp
  | cons op ops ih =>
    rw [List.foldl_cons]
    refine Nat.le_trans (ih _) ?_
    have : (t.step op).pend.length ≤ t.pend.length + 1 := by
      cases op with
      | add m o now => simp only [WSpec.step]; split <;> simp
      | capture order now => simp only [WSpec.step]; split <;> simp
      | iterate => simp [WSpec.step]
    simp; omega

theorem WInv.run {d : DistParams} (hd : d.newOk = true) (ops : List WOp) (hf : ∀ op ∈ ops, op.Fair) {t : WSpec} {s : WState} (h : WInv d t s)
    (hlen : t.pend.length + ops.length < 9223372036854775808) : WInv d (ops.foldl WSpec.step t) (ops.foldl (WOp.run d) s) := by
  induction ops generalizing t s with
  | nil => exact h
  | cons op ops ih =>
    rw [List.foldl_cons, List.foldl_cons]
    simp only [List.length_cons] at hlen
    refine ih (fun o ho => hf o (by simp [ho])) (h.step hd (by omega) op (hf op (by simp))) ?_
    have := WSpec.pend_length [op] t
    simp only [List.foldl_cons, List.foldl_nil, List.length_singleton] at this
    omega

theorem winv_init (d : DistParams) : WInv d {} {} := ⟨rfl, .nil, by simp, by simp, by simp⟩

/-- **C41, C43.** For any sequence of `Add`, `Capture` and `Iterate` calls (fewer than 2^63), one after the other: no call crashes or blocks, and each capture reports, for the interval it ends,
exactly one record for each metric observed in it, with the exact count, minimum, maximum, their ids, and a distribution that was given exactly the metric's observations in order. -/
theorem C41_serial (d : DistParams) (hd : d.newOk = true) (ops : List WOp) (hf : ∀ op ∈ ops, op.Fair) (hlen : ops.length < 9223372036854775808) :
    (ops.foldl (WOp.run d) {}).dead = false ∧ GroupsOf d (ops.foldl WSpec.step {}).batches (ops.foldl (WOp.run d) {}).out := by
  have h := WInv.run hd ops hf (winv_init d) (by simpa using hlen)
  exact ⟨h.dead, h.out⟩

/-- **C41, C43.** `Iterate` at any point reports the same for the interval in progress, as if it ended now; it reports nothing if nothing was observed yet. -/
theorem C43_iterate (d : DistParams) (hd : d.newOk = true) (ops : List WOp) (hf : ∀ op ∈ ops, op.Fair) (hlen : ops.length < 9223372036854775808)
    (order : List (Bytes × Agg) → List (Bytes × Agg)) (ho : ∀ l, (order l).Perm l) (now : Int64) :
    (((ops.foldl (WOp.run d) {}).iterate d order now).2 = false) ∧
    (∀ t, (ops.foldl WSpec.step {}).start = some t → GroupOf d ⟨t, now, (ops.foldl WSpec.step {}).pend⟩ ((ops.foldl (WOp.run d) {}).iterate d order now).1) ∧
    ((ops.foldl WSpec.step {}).start = none → ((ops.foldl (WOp.run d) {}).iterate d order now).1 = []) := by
  have h := WInv.run hd ops hf (winv_init d) (by simpa using hlen)
  generalize ops.foldl WSpec.step {} = t at *
  generalize ops.foldl (WOp.run d) {} = s at *
  unfold WState.iterate
  cases hpg : s.page with
  | none =>
    have := h.isNone.mp hpg
    exact ⟨rfl, by simp [this], fun _ => rfl⟩
  | some p =>
    obtain ⟨h1, h2⟩ := h.page p hpg
    obtain ⟨h3, h4⟩ := h2.group d now order (ho _)
    refine ⟨h3, fun t' ht => ?_, fun hn => ?_⟩
    · rw [h1] at ht; cases ht; exact h4
    · rw [h1] at hn; cases hn

/-- The finite observations added by a sequence of calls, in order. -/
def addsOf (ops : List WOp) : List (Bytes × Obs) :=
  ops.filterMap (fun op => match op with | .add m o _ => if fFinite o.val then some (m, o) else none | _ => none)

/-- **C43.** The intervals partition the observations: each finite observation added is in exactly one interval, or in the one in progress, in order. -/
theorem C43_partition (ops : List WOp) :
    ((ops.foldl WSpec.step {}).batches.map (·.obs)).flatten ++ (ops.foldl WSpec.step {}).pend = addsOf ops := by
  have key : ∀ t : WSpec, (t.start = none → t.pend = []) →
      ((ops.foldl WSpec.step t).batches.map (·.obs)).flatten ++ (ops.foldl WSpec.step t).pend = (t.batches.map (·.obs)).flatten ++ t.pend ++ addsOf ops := by
    induction ops with
    | nil => intro t _; simp [addsOf]
    | cons op ops ih =>
      intro t ht
      rw [List.foldl_cons]
      cases op with
      | add m o now =>
        by_cases hf : fFinite o.val = true
        · rw [ih _ (by simp [WSpec.step, hf])]
          simp [WSpec.step, hf, addsOf]
        · rw [ih _ (by simpa [WSpec.step, hf] using ht)]
          simp [WSpec.step, hf, addsOf]
      | capture order now =>
        cases hs : t.start with
        | none =>
          have : t.step (.capture order now) = t := by simp [WSpec.step, hs]
          rw [this, ih _ ht]
          simp [addsOf]
        | some b =>
          rw [ih _ (by simp [WSpec.step, hs])]
          simp [WSpec.step, hs, addsOf]
      | iterate order now =>
        have : t.step (.iterate order now) = t := rfl
        rw [this, ih _ ht]
        simp [addsOf]
  simpa using key {} (by simp)

/-- **C43.** The intervals abut: each begins when the one before ended, and the one in progress begins when the last one ended. -/
theorem C43_abut (ops : List WOp) :
    (∀ (i : Nat) (b b' : Batch), (ops.foldl WSpec.step {}).batches[i]? = some b → (ops.foldl WSpec.step {}).batches[i + 1]? = some b' → b'.start = b.stop) ∧
    ∀ b, (ops.foldl WSpec.step {}).batches.getLast? = some b → (ops.foldl WSpec.step {}).start = some b.stop := by
  have key : ∀ t : WSpec, ((∀ (i : Nat) (b b' : Batch), t.batches[i]? = some b → t.batches[i + 1]? = some b' → b'.start = b.stop) ∧ ∀ b, t.batches.getLast? = some b → t.start = some b.stop) →
      ((∀ (i : Nat) (b b' : Batch), (ops.foldl WSpec.step t).batches[i]? = some b → (ops.foldl WSpec.step t).batches[i + 1]? = some b' → b'.start = b.stop) ∧
        ∀ b, (ops.foldl WSpec.step t).batches.getLast? = some b → (ops.foldl WSpec.step t).start = some b.stop) := by
    induction ops with
    | nil => intro t h; exact h
    | cons op ops ih =>
      intro t h
      rw [List.foldl_cons]
      refine ih _ ?_
      cases op with
      | add m o now =>
        by_cases hf : fFinite o.val = true
        · refine ⟨by simpa [WSpec.step, hf] using h.1, fun b hb => ?_⟩
          have := h.2 b (by simpa [WSpec.step, hf] using hb)
          simp [WSpec.step, hf, this]
        · simpa [WSpec.step, hf] using h
      | capture order now =>
        cases hs : t.start with
        | none => simpa [WSpec.step, hs] using h
        | some b0 =>
          simp only [WSpec.step, hs]
          refine ⟨fun i b b' hb hb' => ?_, fun b hb => ?_⟩
          · by_cases hi : i + 1 < t.batches.length
            · rw [List.getElem?_append_left (by omega)] at hb
              rw [List.getElem?_append_left hi] at hb'
              exact h.1 i b b' hb hb'
            · have hb'' := (List.getElem?_eq_some_iff.mp hb').1
              simp only [List.length_append, List.length_singleton] at hb''
              have hi' : i + 1 = t.batches.length := by omega
              rw [List.getElem?_append_left (by omega)] at hb
              have hlast : t.batches.getLast? = some b := by rw [List.getLast?_eq_getElem?, ← hi']; exact hb
              have := h.2 b hlast
              rw [hs] at this
              rw [hi', List.getElem?_concat_length] at hb'
              cases hb'; cases this; rfl
          · rw [List.getLast?_concat] at hb; cases hb; rfl
      | iterate order now => exact h
  exact key {} (by simp)

/-- Two metrics, two captures: values 2.0, 1.0, -1.0 and infinity, then 3.0. -/
theorem C41_example :
    ((([.add [97] ⟨0x4000000000000000#64, [1], 0⟩ 10, .add [97] ⟨0x3ff0000000000000#64, [2], 1⟩ 11, .add [98] ⟨0xbff0000000000000#64, [], 2⟩ 12, .add [97] ⟨0x7ff0000000000000#64, [], 3⟩ 13,
      .capture id 20, .add [98] ⟨0x4008000000000000#64, [9], 4⟩ 25, .capture List.reverse 30] : List WOp).foldl (WOp.run {}) {}).out.map (·.map (fun c => (c.metric, [c.rec_.startTime, c.rec_.endTime, c.rec_.observations], c.rec_.min, c.rec_.minId)))) =
      [[([97], [10, 20, 2], 0x3ff0000000000000#64, [2]), ([98], [10, 20, 1], 0xbff0000000000000#64, [])], [([98], [20, 30, 1], 0x4008000000000000#64, [9])]] := by
  decide +kernel

end Rothko
