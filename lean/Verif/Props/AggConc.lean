import Verif.Model.AggConc
import Verif.Props.Writer
/-!
# C42: concurrent calls to `Observe`
-/
namespace Rothko

/-- The observations of the calls that passed the first critical section. -/
def ObsSys.begun (s : ObsSys) : List Obs := (s.calls.filter (fun c => c.2 ≠ .start)).map (·.1)

theorem begun_set {l : List (Obs × ObsPc)} {i : Nat} {o : Obs} {q : ObsPc} (h : l[i]? = some (o, .start)) (hq : q ≠ .start) :
    (((l.set i (o, q)).filter (fun c => c.2 ≠ .start)).map (·.1)).Perm ((l.filter (fun c => c.2 ≠ .start)).map (·.1) ++ [o]) := by
  induction l generalizing i with
  | nil => simp at h
  | cons c l ih =>
    cases i with
    | zero =>
      simp only [List.getElem?_cons_zero, Option.some.injEq] at h
      subst h
      simp only [List.set_cons_zero, List.filter_cons, hq, ne_eq, not_false_eq_true, decide_true, if_true, not_true_eq_false, decide_false, Bool.false_eq_true, if_false, List.map_cons]
      exact (List.perm_append_singleton _ _).symm
    | succ i =>
      simp only [List.getElem?_cons_succ] at h
      simp only [List.set_cons_succ, List.filter_cons]
      split
      · simp only [List.map_cons, List.cons_append]; exact (ih h).cons _
      · exact ih h

theorem begun_set_same {l : List (Obs × ObsPc)} {i : Nat} {o : Obs} {p q : ObsPc} (h : l[i]? = some (o, p)) (hp : p ≠ .start) (hq : q ≠ .start) :
    ((l.set i (o, q)).filter (fun c => c.2 ≠ .start)).map (·.1) = (l.filter (fun c => c.2 ≠ .start)).map (·.1) := by
  induction l generalizing i with
  | nil => simp at h
  | cons c l ih =>
    cases i with
    | zero =>
      simp only [List.getElem?_cons_zero, Option.some.injEq] at h
      subst h
      simp [hp, hq]
    | succ i =>
      simp only [List.getElem?_cons_succ] at h
      simp only [List.set_cons_succ, List.filter_cons]
      split
      · simp only [List.map_cons]; rw [ih h]
      · exact ih h

theorem map_fst_set {l : List (Obs × ObsPc)} {i : Nat} {o : Obs} {p q : ObsPc} (h : l[i]? = some (o, p)) : (l.set i (o, q)).map (·.1) = l.map (·.1) := by
  rw [List.map_set]
  refine List.ext_getElem? (fun j => ?_)
  rw [List.getElem?_set]
  split
  · rename_i hij; subst hij
    have hl := (List.getElem?_eq_some_iff.mp h).1
    rw [List.getElem?_eq_getElem hl] at h
    simp only [Option.some.injEq] at h
    simp [h, hl]
  · rfl

/-- What holds from the start, for an agg that was given `vals`. -/
structure ObsInv (vals os : List Obs) (s : ObsSys) : Prop where
  obs : s.calls.map (·.1) = os
  locked : s.agg.locked = false
  dist : (s.agg.dist.getD []).Perm (vals ++ s.begun)
  isNone : s.agg.dist = none → vals = [] ∧ s.begun = []
  count : s.agg.rec_.observations = Int64.ofNat (vals.length + s.begun.length)
  gone : ∀ c ∈ s.calls, c.2 ≠ .gone

theorem observe1_dist {d : DistParams} {a a' : Agg} {o : Obs} {m : ObsMid} (h : a.observe1 d o = (a', some m)) :
    a'.dist = some (a.dist.getD [] ++ [o]) ∧ a'.locked = a.locked ∧ a'.rec_ = { a.rec_ with observations := a.rec_.observations + 1 } ∧
      m = ⟨a.rec_.min, a.rec_.max, a.rec_.observations⟩ := by
  unfold Agg.observe1 at h
  split at h
  · rename_i hn
    split at h
    · simp only [Prod.mk.injEq, Option.some.injEq] at h
      obtain ⟨rfl, rfl⟩ := h; simp [hn]
    · simp at h
  · rename_i l hl
    simp only [Prod.mk.injEq, Option.some.injEq] at h
    obtain ⟨rfl, rfl⟩ := h; simp [hl]

theorem observe2_same (a : Agg) (o : Obs) (m : ObsMid) :
    (a.observe2 o m).dist = a.dist ∧ (a.observe2 o m).locked = a.locked ∧ (a.observe2 o m).rec_.observations = a.rec_.observations ∧
      (a.observe2 o m).rec_.startTime = a.rec_.startTime ∧ (a.observe2 o m).rec_.merged = a.rec_.merged := by
  unfold Agg.observe2 Agg.updMin Agg.updMax
  split <;> split <;> simp

theorem observe1_ok {d : DistParams} (hd : d.newOk = true) (a : Agg) (o : Obs) : ∃ a' m, a.observe1 d o = (a', some m) := by
  unfold Agg.observe1
  split
  · simp [hd]
  · simp

theorem ObsInv.step {d : DistParams} (hd : d.newOk = true) {vals os : List Obs} {s t : ObsSys} (h : ObsInv vals os s) (st : ObsSys.Step d s t) : ObsInv vals os t := by
  cases st with
  | @first i o a m hi hl h1 =>
    obtain ⟨e1, e2, e3, e4⟩ := observe1_dist h1
    have hq : (if m.need o then ObsPc.mid m else .done) ≠ .start := by split <;> simp
    have hb := begun_set hi hq
    refine ⟨?_, ?_, ?_, ?_, ?_, ?_⟩
    · dsimp only; rw [map_fst_set hi]; exact h.obs
    · dsimp only; rw [e2]; exact hl
    · dsimp only; rw [e1, Option.getD_some]
      refine (h.dist.append_right _).trans ?_
      rw [List.append_assoc]
      exact (hb.symm).append_left _
    · dsimp only; intro hn; rw [e1] at hn; cases hn
    · dsimp only; rw [e3]; dsimp only; rw [h.count, ofNat_succ]
      have := hb.length_eq
      rw [List.length_append, List.length_singleton] at this
      unfold ObsSys.begun
      rw [this, Nat.add_assoc]
    · intro c hc
      dsimp only at hc
      rcases List.mem_or_eq_of_mem_set hc with hc | rfl
      · exact h.gone c hc
      · dsimp only; split <;> simp
  | @fail i o a hi hl h1 =>
    obtain ⟨a', m, h2⟩ := observe1_ok hd s.agg o
    rw [h2] at h1; cases h1
  | @second i o m hi hl =>
    obtain ⟨e1, e2, e3, e4, e5⟩ := observe2_same s.agg o m
    have hb : ObsSys.begun ⟨s.agg.observe2 o m, s.calls.set i (o, .done)⟩ = s.begun := begun_set_same hi (by simp) (by simp)
    refine ⟨?_, ?_, ?_, ?_, ?_, ?_⟩
    · dsimp only; rw [map_fst_set hi]; exact h.obs
    · dsimp only; rw [e2]; exact hl
    · rw [hb]; dsimp only; rw [e1]; exact h.dist
    · rw [hb]; dsimp only; rw [e1]; exact h.isNone
    · rw [hb]; dsimp only; rw [e3]; exact h.count
    · intro c hc
      dsimp only at hc
      rcases List.mem_or_eq_of_mem_set hc with hc | rfl
      · exact h.gone c hc
      · simp

theorem ObsInv.reach {d : DistParams} (hd : d.newOk = true) {vals os : List Obs} {s₀ s : ObsSys} (h0 : ObsInv vals os s₀) (h : ObsSys.Reach d s₀ s) : ObsInv vals os s := by
  induction h with
  | refl => exact h0
  | step _ st ih => exact ih.step hd st

theorem begun_init (a : Agg) (os : List Obs) : (ObsSys.init a os).begun = [] := by
  unfold ObsSys.begun ObsSys.init
  rw [List.map_eq_nil_iff, List.filter_eq_nil_iff]
  intro c hc
  obtain ⟨o, _, rfl⟩ := List.mem_map.mp hc
  simp

theorem obsInv_new (now : Int64) (os : List Obs) : ObsInv [] os (ObsSys.init (newAgg now) os) := by
  refine ⟨by simp [ObsSys.init, Function.comp_def], rfl, by rw [begun_init]; simp [ObsSys.init, newAgg], fun _ => ⟨rfl, begun_init _ _⟩, by rw [begun_init]; rfl, ?_⟩
  intro c hc
  obtain ⟨o, _, rfl⟩ := List.mem_map.mp hc
  simp

theorem obsInv_ok {start : Int64} {vals : List Obs} {a : Agg} (h : a.Ok start vals) (os : List Obs) : ObsInv vals os (ObsSys.init a os) := by
  refine ⟨by simp [ObsSys.init, Function.comp_def], h.locked, by rw [begun_init]; simp [ObsSys.init, h.dist], fun hn => ?_, by rw [begun_init]; exact h.count, ?_⟩
  · have := h.dist; simp only [ObsSys.init] at hn; rw [this] at hn; cases hn
  · intro c hc
    obtain ⟨o, _, rfl⟩ := List.mem_map.mp hc
    simp

theorem begun_done {s : ObsSys} (h : s.Done) : s.begun = s.calls.map (·.1) := by
  unfold ObsSys.begun
  rw [List.filter_eq_self.mpr]
  intro c hc; simp [h c hc]

/-- **C42** (count). Under any interleaving of any calls to `Observe` of an agg, once all returned, the count is exact and the distribution was given exactly the observed values. -/
theorem C42_count (d : DistParams) (hd : d.newOk = true) (now : Int64) (os : List Obs) (s : ObsSys) (h : ObsSys.Reach d (ObsSys.init (newAgg now) os) s) (hdone : s.Done) :
    s.agg.rec_.observations = Int64.ofNat os.length ∧ (s.agg.dist.getD []).Perm os := by
  have hi := (obsInv_new now os).reach hd h
  have hb := begun_done hdone
  rw [hi.obs] at hb
  refine ⟨?_, ?_⟩
  · rw [hi.count, hb]; simp
  · simpa [hb] using hi.dist

/-- **C42** (progress). While a call has not returned, some call can take a step: no schedule blocks. -/
theorem C42_progress (d : DistParams) (hd : d.newOk = true) (now : Int64) (os : List Obs) (s : ObsSys) (h : ObsSys.Reach d (ObsSys.init (newAgg now) os) s) (hn : ¬ s.Done) :
    ∃ t, ObsSys.Step d s t := by
  have hi := (obsInv_new now os).reach hd h
  have : ∃ c ∈ s.calls, c.2 ≠ .done := Classical.byContradiction (fun hh => hn (fun c hc => Classical.byContradiction (fun h1 => hh ⟨c, hc, h1⟩)))
  obtain ⟨⟨o, pc⟩, hc, h1⟩ := this
  obtain ⟨i, hlt, hi'⟩ := List.getElem_of_mem hc
  have hg : s.calls[i]? = some (o, pc) := by rw [List.getElem?_eq_getElem hlt, hi']
  cases pc with
  | start =>
    obtain ⟨a', m, h2⟩ := observe1_ok hd s.agg o
    exact ⟨_, .first hg hi.locked h2⟩
  | mid m => exact ⟨_, .second hg hi.locked⟩
  | done => exact absurd rfl h1
  | gone => exact absurd rfl (hi.gone _ hc)

/-! ## Minimum and maximum when the agg has seen a value -/

structure ObsMM (start : Int64) (vals os : List Obs) (s : ObsSys) : Prop where
  start : s.agg.rec_.startTime = start
  merged : s.agg.rec_.merged = 1
  mids : ∀ (o : Obs) (m : ObsMid), (o, ObsPc.mid m) ∈ s.calls → m.obs ≠ 0
  finMin : fFinite s.agg.rec_.min = true
  finMax : fFinite s.agg.rec_.max = true
  minIs : ∃ o ∈ vals ++ os, o.val = s.agg.rec_.min ∧ o.id = s.agg.rec_.minId
  maxIs : ∃ o ∈ vals ++ os, o.val = s.agg.rec_.max ∧ o.id = s.agg.rec_.maxId
  minV : ∀ o ∈ vals, fLt o.val s.agg.rec_.min = false
  maxV : ∀ o ∈ vals, fLt s.agg.rec_.max o.val = false
  minD : ∀ o, (o, ObsPc.done) ∈ s.calls → fLt o.val s.agg.rec_.min = false
  maxD : ∀ o, (o, ObsPc.done) ∈ s.calls → fLt s.agg.rec_.max o.val = false

theorem updMin_cases (a : Agg) (o : Obs) (ho : fFinite o.val = true) (hf : fFinite a.rec_.min = true) :
    (a.updMin o false).rec_.max = a.rec_.max ∧ (a.updMin o false).rec_.maxId = a.rec_.maxId ∧
    (((a.updMin o false).rec_.min = a.rec_.min ∧ (a.updMin o false).rec_.minId = a.rec_.minId) ∨ ((a.updMin o false).rec_.min = o.val ∧ (a.updMin o false).rec_.minId = o.id)) ∧
    fKey (a.updMin o false).rec_.min ≤ fKey a.rec_.min ∧ fKey (a.updMin o false).rec_.min ≤ fKey o.val := by
  unfold Agg.updMin
  by_cases h : fLt o.val a.rec_.min = true
  · have := (fLt_iff ho hf).mp h
    rw [if_pos (by simp [h])]
    refine ⟨rfl, rfl, Or.inr ⟨rfl, rfl⟩, ?_, ?_⟩ <;> dsimp only <;> omega
  · have h' : fLt o.val a.rec_.min = false := by simpa using h
    have := (fLt_false_iff ho hf).mp h'
    rw [if_neg (by simp [h'])]
    exact ⟨rfl, rfl, Or.inl ⟨rfl, rfl⟩, by omega, by omega⟩

theorem updMax_cases (a : Agg) (o : Obs) (ho : fFinite o.val = true) (hf : fFinite a.rec_.max = true) :
    (a.updMax o false).rec_.min = a.rec_.min ∧ (a.updMax o false).rec_.minId = a.rec_.minId ∧
    (((a.updMax o false).rec_.max = a.rec_.max ∧ (a.updMax o false).rec_.maxId = a.rec_.maxId) ∨ ((a.updMax o false).rec_.max = o.val ∧ (a.updMax o false).rec_.maxId = o.id)) ∧
    fKey a.rec_.max ≤ fKey (a.updMax o false).rec_.max ∧ fKey o.val ≤ fKey (a.updMax o false).rec_.max := by
  unfold Agg.updMax
  by_cases h : fLt a.rec_.max o.val = true
  · have := (fLt_iff hf ho).mp h
    rw [if_pos (by simp [h])]
    refine ⟨rfl, rfl, Or.inr ⟨rfl, rfl⟩, ?_, ?_⟩ <;> dsimp only <;> omega
  · have h' : fLt a.rec_.max o.val = false := by simpa using h
    have := (fLt_false_iff hf ho).mp h'
    rw [if_neg (by simp [h'])]
    exact ⟨rfl, rfl, Or.inl ⟨rfl, rfl⟩, by omega, by omega⟩

theorem ObsMM.step {d : DistParams} {start : Int64} {vals os : List Obs} (hv : ∀ o ∈ vals ++ os, fFinite o.val = true) (hne : vals ≠ []) (hlen : vals.length + os.length < 9223372036854775808)
    {s t : ObsSys} (hi : ObsInv vals os s) (h : ObsMM start vals os s) (st : ObsSys.Step d s t) : ObsMM start vals os t := by
  have hos : ∀ {c : Obs × ObsPc}, c ∈ s.calls → c.1 ∈ vals ++ os := by
    intro c hc; rw [← hi.obs]; exact List.mem_append_right _ (List.mem_map.mpr ⟨c, hc, rfl⟩)
  have hbl : s.begun.length ≤ os.length := by
    rw [← hi.obs]; unfold ObsSys.begun; rw [List.length_map, List.length_map]; exact List.length_filter_le _ _
  have hpos : 0 < vals.length := List.length_pos_iff.mpr hne
  cases st with
  | @first i o a m hg hl h1 =>
    obtain ⟨e1, e2, e3, e4⟩ := observe1_dist h1
    have hmem := List.mem_of_getElem? hg
    have ho := hv o (hos hmem)
    have hobs : m.obs ≠ 0 := by
      rw [e4]; dsimp only; rw [hi.count]; exact ofNat_ne_zero (by omega) (by omega)
    have rmin : a.rec_.min = s.agg.rec_.min := by rw [e3]
    have rmax : a.rec_.max = s.agg.rec_.max := by rw [e3]
    have rminI : a.rec_.minId = s.agg.rec_.minId := by rw [e3]
    have rmaxI : a.rec_.maxId = s.agg.rec_.maxId := by rw [e3]
    refine ⟨by dsimp only; rw [e3]; exact h.start, by dsimp only; rw [e3]; exact h.merged, ?_, ?_, ?_, ?_, ?_, ?_, ?_, ?_, ?_⟩
    · intro o' m' hm'
      rcases List.mem_or_eq_of_mem_set hm' with hc | he
      · exact h.mids o' m' hc
      · split at he
        · cases he; exact hobs
        · cases he
    · dsimp only; rw [rmin]; exact h.finMin
    · dsimp only; rw [rmax]; exact h.finMax
    · dsimp only; rw [rmin, rminI]; exact h.minIs
    · dsimp only; rw [rmax, rmaxI]; exact h.maxIs
    · dsimp only; rw [rmin]; exact h.minV
    · dsimp only; rw [rmax]; exact h.maxV
    · intro o' ho'
      dsimp only; rw [rmin]
      rcases List.mem_or_eq_of_mem_set ho' with hc | he
      · exact h.minD o' hc
      · split at he
        · cases he
        · rename_i hneed
          cases he
          rw [e4] at hneed
          simp only [ObsMid.need, Bool.or_eq_true, not_or, Bool.not_eq_true] at hneed
          exact hneed.1.2
    · intro o' ho'
      dsimp only; rw [rmax]
      rcases List.mem_or_eq_of_mem_set ho' with hc | he
      · exact h.maxD o' hc
      · split at he
        · cases he
        · rename_i hneed
          cases he
          rw [e4] at hneed
          simp only [ObsMid.need, Bool.or_eq_true, not_or, Bool.not_eq_true] at hneed
          exact hneed.2
  | @fail i o a hg hl h1 =>
    have h' : a.rec_ = s.agg.rec_ := by
      unfold Agg.observe1 at h1
      split at h1
      · split at h1
        · simp at h1
        · simp only [Prod.mk.injEq, and_true] at h1; rw [← h1]
      · simp at h1
    refine ⟨by dsimp only; rw [h']; exact h.start, by dsimp only; rw [h']; exact h.merged, ?_, by dsimp only; rw [h']; exact h.finMin, by dsimp only; rw [h']; exact h.finMax, by dsimp only; rw [h']; exact h.minIs, by dsimp only; rw [h']; exact h.maxIs,
      by dsimp only; rw [h']; exact h.minV, by dsimp only; rw [h']; exact h.maxV, ?_, ?_⟩
    · intro o' m' hm'
      rcases List.mem_or_eq_of_mem_set hm' with hc | he
      · exact h.mids o' m' hc
      · cases he
    · intro o' ho'
      dsimp only; rw [h']
      rcases List.mem_or_eq_of_mem_set ho' with hc | he
      · exact h.minD o' hc
      · cases he
    · intro o' ho'
      dsimp only; rw [h']
      rcases List.mem_or_eq_of_mem_set ho' with hc | he
      · exact h.maxD o' hc
      · cases he
  | @second i o m hg hl =>
    have hmem := List.mem_of_getElem? hg
    have hin := hos hmem
    have ho := hv o hin
    have hobs := h.mids o m hmem
    obtain ⟨s1, s2, s3, s4, s5⟩ := observe2_same s.agg o m
    have hun : s.agg.observe2 o m = (s.agg.updMin o false).updMax o false := by
      unfold Agg.observe2; simp [hobs]
    obtain ⟨p1, p2, p3, p4, p5⟩ := updMin_cases s.agg o ho h.finMin
    have hfm : fFinite (s.agg.updMin o false).rec_.max = true := by rw [p1]; exact h.finMax
    obtain ⟨q1, q2, q3, q4, q5⟩ := updMax_cases (s.agg.updMin o false) o ho hfm
    rw [← hun] at q1 q2 q3 q4 q5
    rw [← q1] at p3 p4 p5
    rw [← q2] at p3
    rw [p1] at q3 q4
    rw [p2] at q3
    have fmin : fFinite (s.agg.observe2 o m).rec_.min = true := by
      rcases p3 with ⟨x, _⟩ | ⟨x, _⟩ <;> rw [x]
      · exact h.finMin
      · exact ho
    have fmax : fFinite (s.agg.observe2 o m).rec_.max = true := by
      rcases q3 with ⟨x, _⟩ | ⟨x, _⟩ <;> rw [x]
      · exact h.finMax
      · exact ho
    have low : ∀ u : Obs, fFinite u.val = true → fLt u.val s.agg.rec_.min = false → fLt u.val (s.agg.observe2 o m).rec_.min = false := by
      intro u hu h1
      have := (fLt_false_iff hu h.finMin).mp h1
      exact (fLt_false_iff hu fmin).mpr (by omega)
    have high : ∀ u : Obs, fFinite u.val = true → fLt s.agg.rec_.max u.val = false → fLt (s.agg.observe2 o m).rec_.max u.val = false := by
      intro u hu h1
      have := (fLt_false_iff h.finMax hu).mp h1
      exact (fLt_false_iff fmax hu).mpr (by omega)
    refine ⟨by dsimp only; rw [s4]; exact h.start, by dsimp only; rw [s5]; exact h.merged, ?_, fmin, fmax, ?_, ?_, ?_, ?_, ?_, ?_⟩
    · intro o' m' hm'
      rcases List.mem_or_eq_of_mem_set hm' with hc | he
      · exact h.mids o' m' hc
      · cases he
    · rcases p3 with ⟨x, y⟩ | ⟨x, y⟩
      · dsimp only; rw [x, y]; exact h.minIs
      · exact ⟨o, hin, x.symm, y.symm⟩
    · rcases q3 with ⟨x, y⟩ | ⟨x, y⟩
      · dsimp only; rw [x, y]; exact h.maxIs
      · exact ⟨o, hin, x.symm, y.symm⟩
    · intro u hu; exact low u (hv u (by simp [hu])) (h.minV u hu)
    · intro u hu; exact high u (hv u (by simp [hu])) (h.maxV u hu)
    · intro u hu
      rcases List.mem_or_eq_of_mem_set hu with hc | he
      · exact low u (hv u (hos hc)) (h.minD u hc)
      · cases he; exact (fLt_false_iff ho fmin).mpr p5
    · intro u hu
      rcases List.mem_or_eq_of_mem_set hu with hc | he
      · exact high u (hv u (hos hc)) (h.maxD u hc)
      · cases he; exact (fLt_false_iff fmax ho).mpr q5

theorem obsMM_init {start : Int64} {vals : List Obs} {a : Agg} (h : a.Ok start vals) (os : List Obs) : ObsMM start vals os (ObsSys.init a os) := by
  obtain ⟨⟨u, hu, e1, e2⟩, hmin⟩ := h.min
  obtain ⟨⟨w, hw, e3, e4⟩, hmax⟩ := h.max
  have hno : ∀ c ∈ (ObsSys.init a os).calls, c.2 = .start := by
    intro c hc
    obtain ⟨o, _, rfl⟩ := List.mem_map.mp hc; rfl
  refine ⟨h.start, h.merged, fun o m hm => ?_, h.minFin, h.maxFin, ⟨u, by simp [hu], e1, e2⟩, ⟨w, by simp [hw], e3, e4⟩, hmin, hmax, fun o ho => ?_, fun o ho => ?_⟩
  · cases hno _ hm
  · cases hno _ ho
  · cases hno _ ho

theorem obsMM_reach {d : DistParams} (hd : d.newOk = true) {start : Int64} {vals os : List Obs} {a : Agg} (ha : a.Ok start vals) (hv : ∀ o ∈ vals ++ os, fFinite o.val = true)
    (hlen : vals.length + os.length < 9223372036854775808) {s : ObsSys} (h : ObsSys.Reach d (ObsSys.init a os) s) : ObsInv vals os s ∧ ObsMM start vals os s := by
  induction h with
  | refl => exact ⟨obsInv_ok ha os, obsMM_init ha os⟩
  | step _ st ih => exact ⟨ih.1.step hd st, ih.2.step hv ha.ne hlen ih.1 st⟩

/-- **C42**, partial: minimum and maximum too, if a first call has returned before the others begin (the agg `a` has seen the values `vals`, at least one, and then the values `os` concurrently). -/
theorem C42_after_first_partial (d : DistParams) (hd : d.newOk = true) (start : Int64) (vals os : List Obs) (a : Agg) (ha : a.Ok start vals) (hv : ∀ o ∈ os, fFinite o.val = true)
    (hlen : vals.length + os.length < 9223372036854775808) (s : ObsSys) (h : ObsSys.Reach d (ObsSys.init a os) s) (hdone : s.Done) (now : Int64) :
    ∃ (r : DRec) (l : List Obs), s.agg.finish d now = .ok r l ∧ l.Perm (vals ++ os) ∧ RecordOf d start now l r := by
  have hv' : ∀ o ∈ vals ++ os, fFinite o.val = true := by
    intro o ho; rcases List.mem_append.mp ho with ho | ho
    · exact ha.fin o ho
    · exact hv o ho
  obtain ⟨hi, hm⟩ := obsMM_reach hd ha hv' hlen h
  have hb := begun_done hdone
  rw [hi.obs] at hb
  have hp := hi.dist
  rw [hb] at hp
  have hall : ∀ o ∈ os, (o, ObsPc.done) ∈ s.calls := by
    intro o ho
    rw [← hi.obs] at ho
    obtain ⟨c, hc, rfl⟩ := List.mem_map.mp ho
    have := hdone c hc
    rw [← this]; exact hc
  have hds : s.agg.dist = some (s.agg.dist.getD []) := by
    cases hd' : s.agg.dist with
    | none => exact absurd (hi.isNone hd').1 ha.ne
    | some l => rfl
  have hok : s.agg.Ok start (s.agg.dist.getD []) := by
    refine ⟨fun hn => ?_, fun o ho => hv' o (hp.subset ho), hi.locked, hds, hm.start, hm.merged, ?_, ⟨?_, ?_⟩, ⟨?_, ?_⟩⟩
    · rw [hn] at hp; have := hp.length_eq; simp at this; have := List.length_pos_iff.mpr ha.ne; omega
    · rw [hi.count, hb, hp.length_eq]; simp
    · obtain ⟨o, ho, e⟩ := hm.minIs; exact ⟨o, hp.symm.subset ho, e⟩
    · intro o ho
      rcases List.mem_append.mp (hp.subset ho) with ho | ho
      · exact hm.minV o ho
      · exact hm.minD o (hall o ho)
    · obtain ⟨o, ho, e⟩ := hm.maxIs; exact ⟨o, hp.symm.subset ho, e⟩
    · intro o ho
      rcases List.mem_append.mp (hp.subset ho) with ho | ho
      · exact hm.maxV o ho
      · exact hm.maxD o (hall o ho)
  obtain ⟨r, h1, h2⟩ := finish_ok (d := d) hok now
  exact ⟨r, _, h1, hp, h2⟩

/-- The hypothesis of `C42_after_first_partial` is met after one call. -/
theorem C42_after_first_example : ∃ (a : Agg), (newAgg 5).observe {} ⟨0x4000000000000000#64, [1], 0⟩ = some a ∧ a.Ok 5 [⟨0x4000000000000000#64, [1], 0⟩] :=
  observe_new rfl 5 _ (by decide +kernel)

/-! ## Without that -/

/-- The first call of the agg is between its critical sections, or none began, or the extremes are observed values. -/
def ObsFirst (os : List Obs) (s : ObsSys) : Prop :=
  (∀ c ∈ s.calls, c.2 = .start) ∨ (∃ (o : Obs) (m : ObsMid), (o, ObsPc.mid m) ∈ s.calls ∧ m.obs = 0) ∨
    ((∃ o ∈ os, o.val = s.agg.rec_.min ∧ o.id = s.agg.rec_.minId) ∧ ∃ o ∈ os, o.val = s.agg.rec_.max ∧ o.id = s.agg.rec_.maxId)

theorem updMin_attained (a : Agg) (o : Obs) (b : Bool) :
    ((a.updMin o b).rec_.min = a.rec_.min ∧ (a.updMin o b).rec_.minId = a.rec_.minId ∧ b = false) ∨ ((a.updMin o b).rec_.min = o.val ∧ (a.updMin o b).rec_.minId = o.id) := by
  unfold Agg.updMin
  split
  · exact Or.inr ⟨rfl, rfl⟩
  · rename_i h
    simp at h
    exact Or.inl ⟨rfl, rfl, h.1⟩

theorem updMax_attained (a : Agg) (o : Obs) (b : Bool) :
    ((a.updMax o b).rec_.max = a.rec_.max ∧ (a.updMax o b).rec_.maxId = a.rec_.maxId ∧ b = false) ∨ ((a.updMax o b).rec_.max = o.val ∧ (a.updMax o b).rec_.maxId = o.id) := by
  unfold Agg.updMax
  split
  · exact Or.inr ⟨rfl, rfl⟩
  · rename_i h
    simp at h
    exact Or.inl ⟨rfl, rfl, h.1⟩

theorem observe2_attained (a : Agg) (o : Obs) (m : ObsMid) :
    (((a.observe2 o m).rec_.min = a.rec_.min ∧ (a.observe2 o m).rec_.minId = a.rec_.minId ∧ m.obs ≠ 0) ∨ ((a.observe2 o m).rec_.min = o.val ∧ (a.observe2 o m).rec_.minId = o.id)) ∧
    (((a.observe2 o m).rec_.max = a.rec_.max ∧ (a.observe2 o m).rec_.maxId = a.rec_.maxId ∧ m.obs ≠ 0) ∨ ((a.observe2 o m).rec_.max = o.val ∧ (a.observe2 o m).rec_.maxId = o.id)) := by
  have hx : ∀ (a : Agg) (b : Bool), (a.updMax o b).rec_.min = a.rec_.min ∧ (a.updMax o b).rec_.minId = a.rec_.minId := by
    intro a b; unfold Agg.updMax; split <;> exact ⟨rfl, rfl⟩
  have hn : ∀ (a : Agg) (b : Bool), (a.updMin o b).rec_.max = a.rec_.max ∧ (a.updMin o b).rec_.maxId = a.rec_.maxId := by
    intro a b; unfold Agg.updMin; split <;> exact ⟨rfl, rfl⟩
  unfold Agg.observe2
  constructor
  · rw [(hx _ _).1, (hx _ _).2]
    rcases updMin_attained a o (decide (m.obs = 0)) with ⟨h1, h2, h3⟩ | h
    · exact Or.inl ⟨h1, h2, by simpa using h3⟩
    · exact Or.inr h
  · rcases updMax_attained (a.updMin o (decide (m.obs = 0))) o (decide (m.obs = 0)) with ⟨h1, h2, h3⟩ | h
    · exact Or.inl ⟨by rw [h1, (hn _ _).1], by rw [h2, (hn _ _).2], by simpa using h3⟩
    · exact Or.inr h

theorem ObsFirst.step {d : DistParams} (hd : d.newOk = true) {os : List Obs} {s t : ObsSys} (hi : ObsInv [] os s) (h : ObsFirst os s) (st : ObsSys.Step d s t) : ObsFirst os t := by
  cases st with
  | @first i o a m hg hl h1 =>
    obtain ⟨e1, e2, e3, e4⟩ := observe1_dist h1
    have hil := (List.getElem?_eq_some_iff.mp hg).1
    rcases h with h | ⟨o', m', hm, h0⟩ | h
    · have hb : s.begun = [] := by
        unfold ObsSys.begun
        rw [List.map_eq_nil_iff, List.filter_eq_nil_iff]
        intro c hc; simp [h c hc]
      have hobs : m.obs = 0 := by
        rw [e4]; dsimp only; rw [hi.count, hb]; rfl
      have hneed : m.need o = true := by simp [ObsMid.need, hobs]
      refine Or.inr (Or.inl ⟨o, m, ?_, hobs⟩)
      dsimp only
      rw [if_pos hneed]
      exact List.mem_set hil _
    · refine Or.inr (Or.inl ⟨o', m', ?_, h0⟩)
      obtain ⟨j, hj, hj'⟩ := List.getElem_of_mem hm
      have hij : i ≠ j := by
        rintro rfl
        rw [List.getElem?_eq_getElem hj, hj'] at hg; cases hg
      have : (s.calls.set i (o, if m.need o then .mid m else .done))[j]? = some (o', .mid m') := by
        rw [List.getElem?_set_ne hij, List.getElem?_eq_getElem hj, hj']
      exact List.mem_of_getElem? this
    · refine Or.inr (Or.inr ?_)
      dsimp only; rw [e3]; exact h
  | @fail i o a hi' hl h1 =>
    obtain ⟨a', m, h2⟩ := observe1_ok hd s.agg o
    rw [h2] at h1; cases h1
  | @second i o m hg hl =>
    have hin : o ∈ os := by rw [← hi.obs]; exact List.mem_map.mpr ⟨_, List.mem_of_getElem? hg, rfl⟩
    obtain ⟨hmin, hmax⟩ := observe2_attained s.agg o m
    by_cases h0 : m.obs = 0
    · refine Or.inr (Or.inr ⟨?_, ?_⟩)
      · rcases hmin with h | ⟨x, y⟩
        · exact absurd h0 h.2.2
        · exact ⟨o, hin, x.symm, y.symm⟩
      · rcases hmax with h | ⟨x, y⟩
        · exact absurd h0 h.2.2
        · exact ⟨o, hin, x.symm, y.symm⟩
    · rcases h with h | ⟨o', m', hm, h0'⟩ | ⟨h1, h2⟩
      · cases h _ (List.mem_of_getElem? hg)
      · refine Or.inr (Or.inl ⟨o', m', ?_, h0'⟩)
        obtain ⟨j, hj, hj'⟩ := List.getElem_of_mem hm
        have hij : i ≠ j := by
          rintro rfl
          rw [List.getElem?_eq_getElem hj, hj'] at hg; cases hg; exact h0 h0'
        have : (s.calls.set i (o, .done))[j]? = some (o', .mid m') := by
          rw [List.getElem?_set_ne hij, List.getElem?_eq_getElem hj, hj']
        exact List.mem_of_getElem? this
      · refine Or.inr (Or.inr ⟨?_, ?_⟩)
        · rcases hmin with ⟨x, y, _⟩ | ⟨x, y⟩
          · dsimp only; rw [x, y]; exact h1
          · exact ⟨o, hin, x.symm, y.symm⟩
        · rcases hmax with ⟨x, y, _⟩ | ⟨x, y⟩
          · dsimp only; rw [x, y]; exact h2
          · exact ⟨o, hin, x.symm, y.symm⟩

theorem obsFirst_reach {d : DistParams} (hd : d.newOk = true) {now : Int64} {os : List Obs} {s : ObsSys} (h : ObsSys.Reach d (ObsSys.init (newAgg now) os) s) :
    ObsInv [] os s ∧ ObsFirst os s := by
  induction h with
  | refl =>
    refine ⟨obsInv_new now os, Or.inl (fun c hc => ?_)⟩
    obtain ⟨o, _, rfl⟩ := List.mem_map.mp hc; rfl
  | step _ st ih => exact ⟨ih.1.step hd st, ih.2.step hd ih.1 st⟩

/-- **C42** (any interleaving). Once all calls have returned, the reported minimum and maximum are values that were observed, with the ids they were observed with. -/
theorem C42_attained (d : DistParams) (hd : d.newOk = true) (now : Int64) (os : List Obs) (hne : os ≠ []) (s : ObsSys) (h : ObsSys.Reach d (ObsSys.init (newAgg now) os) s) (hdone : s.Done) :
    (∃ o ∈ os, o.val = s.agg.rec_.min ∧ o.id = s.agg.rec_.minId) ∧ ∃ o ∈ os, o.val = s.agg.rec_.max ∧ o.id = s.agg.rec_.maxId := by
  obtain ⟨hi, hf⟩ := obsFirst_reach hd h
  rcases hf with h1 | ⟨o, m, hm, _⟩ | h1
  · obtain ⟨o, ho⟩ := List.exists_mem_of_ne_nil os hne
    rw [← hi.obs] at ho
    obtain ⟨c, hc, _⟩ := List.mem_map.mp ho
    have e1 := h1 c hc
    rw [hdone c hc] at e1; cases e1
  · cases hdone _ hm
  · exact h1

/-- The calls that began after the first call of the agg returned (in state `s₁`) count, whatever overlaps. -/
structure ObsLate (s₁ s : ObsSys) : Prop where
  mids : ∀ (o : Obs) (m : ObsMid), (o, ObsPc.mid m) ∈ s.calls → m.obs ≠ 0
  finMin : fFinite s.agg.rec_.min = true
  finMax : fFinite s.agg.rec_.max = true
  low : fKey s.agg.rec_.min ≤ fKey s₁.agg.rec_.min
  high : fKey s₁.agg.rec_.max ≤ fKey s.agg.rec_.max
  minD : ∀ (i : Nat) (o : Obs), s₁.calls[i]? = some (o, .start) → s.calls[i]? = some (o, .done) → fKey s.agg.rec_.min ≤ fKey o.val
  maxD : ∀ (i : Nat) (o : Obs), s₁.calls[i]? = some (o, .start) → s.calls[i]? = some (o, .done) → fKey o.val ≤ fKey s.agg.rec_.max

theorem ObsLate.step {d : DistParams} (hd : d.newOk = true) {vals os : List Obs} (hv : ∀ o ∈ os, fFinite o.val = true) (hlen : vals.length + os.length < 9223372036854775808)
    {s₁ s t : ObsSys} (hi : ObsInv vals os s) (hb : 0 < vals.length + s.begun.length) (h : ObsLate s₁ s) (st : ObsSys.Step d s t) : ObsLate s₁ t := by
  have hos : ∀ {c : Obs × ObsPc}, c ∈ s.calls → c.1 ∈ os := by
    intro c hc; rw [← hi.obs]; exact List.mem_map.mpr ⟨c, hc, rfl⟩
  have hbl : s.begun.length ≤ os.length := by
    rw [← hi.obs]; unfold ObsSys.begun; rw [List.length_map, List.length_map]; exact List.length_filter_le _ _
  cases st with
  | @first i o a m hg hl h1 =>
    obtain ⟨e1, e2, e3, e4⟩ := observe1_dist h1
    have ho := hv o (hos (List.mem_of_getElem? hg))
    have hobs : m.obs ≠ 0 := by
      rw [e4]; dsimp only; rw [hi.count]; exact ofNat_ne_zero hb (by omega)
    have rmin : a.rec_.min = s.agg.rec_.min := by rw [e3]
    have rmax : a.rec_.max = s.agg.rec_.max := by rw [e3]
    refine ⟨?_, by dsimp only; rw [rmin]; exact h.finMin, by dsimp only; rw [rmax]; exact h.finMax, by dsimp only; rw [rmin]; exact h.low, by dsimp only; rw [rmax]; exact h.high, ?_, ?_⟩
    · intro o' m' hm'
      rcases List.mem_or_eq_of_mem_set hm' with hc | he
      · exact h.mids o' m' hc
      · split at he
        · cases he; exact hobs
        · cases he
    · intro j o' hs hj
      dsimp only at hj ⊢
      rw [rmin]
      by_cases hij : i = j
      · subst hij
        rw [List.getElem?_set_self (List.getElem?_eq_some_iff.mp hg).1] at hj
        split at hj
        · cases hj
        · rename_i hneed
          cases hj
          rw [e4] at hneed
          simp only [ObsMid.need, Bool.or_eq_true, not_or, Bool.not_eq_true] at hneed
          exact (fLt_false_iff ho h.finMin).mp hneed.1.2
      · rw [List.getElem?_set_ne hij] at hj
        exact h.minD j o' hs hj
    · intro j o' hs hj
      dsimp only at hj ⊢
      rw [rmax]
      by_cases hij : i = j
      · subst hij
        rw [List.getElem?_set_self (List.getElem?_eq_some_iff.mp hg).1] at hj
        split at hj
        · cases hj
        · rename_i hneed
          cases hj
          rw [e4] at hneed
          simp only [ObsMid.need, Bool.or_eq_true, not_or, Bool.not_eq_true] at hneed
          exact (fLt_false_iff h.finMax ho).mp hneed.2
      · rw [List.getElem?_set_ne hij] at hj
        exact h.maxD j o' hs hj
  | @fail i o a hg hl h1 =>
    obtain ⟨a', m, h2⟩ := observe1_ok hd s.agg o
    rw [h2] at h1; cases h1
  | @second i o m hg hl =>
    have hmem := List.mem_of_getElem? hg
    have ho := hv o (hos hmem)
    have hobs := h.mids o m hmem
    have hun : s.agg.observe2 o m = (s.agg.updMin o false).updMax o false := by
      unfold Agg.observe2; simp [hobs]
    obtain ⟨p1, p2, p3, p4, p5⟩ := updMin_cases s.agg o ho h.finMin
    have hfm : fFinite (s.agg.updMin o false).rec_.max = true := by rw [p1]; exact h.finMax
    obtain ⟨q1, q2, q3, q4, q5⟩ := updMax_cases (s.agg.updMin o false) o ho hfm
    rw [← hun] at q1 q2 q3 q4 q5
    rw [← q1] at p3 p4 p5
    rw [p1] at q3 q4
    have hlow := h.low
    have hhigh := h.high
    refine ⟨?_, ?_, ?_, by dsimp only; omega, by dsimp only; omega, ?_, ?_⟩
    · intro o' m' hm'
      rcases List.mem_or_eq_of_mem_set hm' with hc | he
      · exact h.mids o' m' hc
      · cases he
    · dsimp only; rcases p3 with ⟨x, _⟩ | ⟨x, _⟩ <;> rw [x]
      · exact h.finMin
      · exact ho
    · dsimp only; rcases q3 with ⟨x, _⟩ | ⟨x, _⟩ <;> rw [x]
      · exact h.finMax
      · exact ho
    · intro j o' hs hj
      dsimp only at hj ⊢
      by_cases hij : i = j
      · subst hij
        rw [List.getElem?_set_self (List.getElem?_eq_some_iff.mp hg).1] at hj
        cases hj; exact p5
      · rw [List.getElem?_set_ne hij] at hj
        have := h.minD j o' hs hj
        omega
    · intro j o' hs hj
      dsimp only at hj ⊢
      by_cases hij : i = j
      · subst hij
        rw [List.getElem?_set_self (List.getElem?_eq_some_iff.mp hg).1] at hj
        cases hj; exact q5
      · rw [List.getElem?_set_ne hij] at hj
        have := h.maxD j o' hs hj
        omega

theorem begun_mono {d : DistParams} {s t : ObsSys} (st : ObsSys.Step d s t) : s.begun.length ≤ t.begun.length := by
  cases st with
  | @first i o a m hg hl h1 =>
    have hq : (if m.need o then ObsPc.mid m else .done) ≠ .start := by split <;> simp
    have := (begun_set hg hq).length_eq
    simp only [List.length_append, List.length_singleton] at this
    unfold ObsSys.begun; dsimp only; omega
  | @fail i o a hg hl h1 =>
    have := (begun_set (q := .gone) hg (by simp)).length_eq
    simp only [List.length_append, List.length_singleton] at this
    unfold ObsSys.begun; dsimp only; omega
  | @second i o m hg hl =>
    have hb : ObsSys.begun ⟨s.agg.observe2 o m, s.calls.set i (o, .done)⟩ = s.begun := begun_set_same hg (by simp) (by simp)
    rw [hb]; exact Nat.le_refl _

/-- **C42**, partial. Any interleaving: the reported minimum is at most, and the maximum at least, each value whose call began after the agg's first call returned. (`s₁`: some call began and no call that
found the agg empty is still running; `s`: any later state.) Missing: the values of calls that overlap the first call. -/
theorem C42_late_partial (d : DistParams) (hd : d.newOk = true) (now : Int64) (os : List Obs) (hv : ∀ o ∈ os, fFinite o.val = true) (hlen : os.length < 9223372036854775808)
    (s₁ s : ObsSys) (h₁ : ObsSys.Reach d (ObsSys.init (newAgg now) os) s₁) (hbegun : ∃ c ∈ s₁.calls, c.2 ≠ .start) (hfirst : ∀ (o : Obs) (m : ObsMid), (o, ObsPc.mid m) ∈ s₁.calls → m.obs ≠ 0)
    (h : ObsSys.Reach d s₁ s) (i : Nat) (o : Obs) (hs : s₁.calls[i]? = some (o, .start)) (he : s.calls[i]? = some (o, .done)) :
    fLt o.val s.agg.rec_.min = false ∧ fLt s.agg.rec_.max o.val = false := by
  obtain ⟨hi, hf⟩ := obsFirst_reach hd h₁
  have hb : 0 < s₁.begun.length := by
    obtain ⟨c, hc, hn⟩ := hbegun
    unfold ObsSys.begun
    rw [List.length_map]
    exact List.length_pos_of_mem (List.mem_filter.mpr ⟨hc, by simpa using hn⟩)
  have hat : (∃ o ∈ os, o.val = s₁.agg.rec_.min ∧ o.id = s₁.agg.rec_.minId) ∧ ∃ o ∈ os, o.val = s₁.agg.rec_.max ∧ o.id = s₁.agg.rec_.maxId := by
    rcases hf with h1 | ⟨o, m, hm, h0⟩ | h1
    · obtain ⟨c, hc, hn⟩ := hbegun; exact absurd (h1 c hc) hn
    · exact absurd h0 (hfirst o m hm)
    · exact h1
  obtain ⟨⟨u, hu, e1, _⟩, w, hw, e2, _⟩ := hat
  have hinit : ObsLate s₁ s₁ := ⟨hfirst, e1 ▸ hv u hu, e2 ▸ hv w hw, Int.le_refl _, Int.le_refl _, fun i o a b => (by rw [a] at b; cases b), fun i o a b => (by rw [a] at b; cases b)⟩
  have key : ObsInv [] os s ∧ 0 < s.begun.length ∧ ObsLate s₁ s := by
    clear he
    induction h with
    | refl => exact ⟨hi, hb, hinit⟩
    | step _ st ih => exact ⟨ih.1.step hd st, Nat.lt_of_lt_of_le ih.2.1 (begun_mono st), ih.2.2.step hd hv (by simpa using hlen) ih.1 (by simpa using ih.2.1) st⟩
  obtain ⟨k1, _, k3⟩ := key
  have ho : fFinite o.val = true := hv o (by rw [← k1.obs]; exact List.mem_map.mpr ⟨_, List.mem_of_getElem? he, rfl⟩)
  exact ⟨(fLt_false_iff ho k3.finMin).mpr (k3.minD i o hs he), (fLt_false_iff k3.finMax ho).mpr (k3.maxD i o hs he)⟩

/-- **C42 refuted.** Values 5.0 and 3.0 in two calls on a fresh agg: the second call runs between the critical sections of the first. Both have returned, and the reported minimum is 5.0. -/
theorem C42_refuted : ∃ s : ObsSys, ObsSys.Reach {} (ObsSys.init (newAgg 0) [⟨0x4014000000000000#64, [1], 0⟩, ⟨0x4008000000000000#64, [2], 1⟩]) s ∧ s.Done ∧
    ∃ o ∈ s.calls.map (·.1), fLt o.val s.agg.rec_.min = true := by
  have s0 : ObsSys.Reach {} (ObsSys.init (newAgg 0) [⟨0x4014000000000000#64, [1], 0⟩, ⟨0x4008000000000000#64, [2], 1⟩]) _ := .refl
  have s1 := s0.step (.first (i := 0) rfl rfl rfl)
  have s2 := s1.step (.first (i := 1) rfl rfl rfl)
  have s3 := s2.step (.second (i := 1) (m := ⟨0, 0, 1⟩) rfl rfl)
  have s4 := s3.step (.second (i := 0) (m := ⟨0, 0, 0⟩) rfl rfl)
  exact ⟨_, s4, by unfold ObsSys.Done; decide +kernel, ⟨0x4008000000000000#64, [2], 1⟩, by decide +kernel, by decide +kernel⟩

/-- The late theorem's hypotheses are met: the first call returned, the second has not begun. -/
theorem C42_late_example : ∃ s₁ s : ObsSys, ObsSys.Reach {} (ObsSys.init (newAgg 0) [⟨0x4014000000000000#64, [1], 0⟩, ⟨0x4008000000000000#64, [2], 1⟩]) s₁ ∧
    (∃ c ∈ s₁.calls, c.2 ≠ .start) ∧ (∀ (o : Obs) (m : ObsMid), (o, ObsPc.mid m) ∈ s₁.calls → m.obs ≠ 0) ∧ ObsSys.Reach {} s₁ s ∧
    s₁.calls[1]? = some (⟨0x4008000000000000#64, [2], 1⟩, .start) ∧ s.calls[1]? = some (⟨0x4008000000000000#64, [2], 1⟩, .done) := by
  have s0 : ObsSys.Reach {} (ObsSys.init (newAgg 0) [⟨0x4014000000000000#64, [1], 0⟩, ⟨0x4008000000000000#64, [2], 1⟩]) _ := .refl
  have s1 := s0.step (.first (i := 0) rfl rfl rfl)
  have s2 := s1.step (.second (i := 0) (m := ⟨0, 0, 0⟩) rfl rfl)
  refine ⟨_, _, s2, by decide +kernel, fun o m hm => ?_, ((ObsSys.Reach.refl).step (.first (i := 1) rfl rfl rfl)).step (.second (i := 1) (m := ⟨0x4014000000000000#64, 0x4014000000000000#64, 1⟩) rfl rfl), rfl, rfl⟩
  simp [ObsSys.init] at hm

/-- A consequence of a failing `params.New`: the call returns with the mutex locked, and no later call on the agg makes a step. -/
theorem C42_new_fails_blocks (d : DistParams) (hd : d.newOk = false) (now : Int64) (os : List Obs) (s t : ObsSys) (h : ObsSys.Reach d (ObsSys.init (newAgg now) os) s)
    (hs : ∃ c ∈ s.calls, c.2 ≠ .start) : ¬ ObsSys.Step d s t := by
  have key : s.agg.dist = none ∧ (s.agg.locked = true ∨ ∀ c ∈ s.calls, c.2 = .start) := by
    clear hs
    induction h with
    | refl =>
      refine ⟨rfl, Or.inr (fun c hc => ?_)⟩
      obtain ⟨o, _, rfl⟩ := List.mem_map.mp hc; rfl
    | @step s t _ st ih =>
      cases st with
      | @first i o a m hg hl h1 => simp [Agg.observe1, ih.1, hd] at h1
      | @fail i o a hg hl h1 =>
        simp only [Agg.observe1, ih.1, hd, Bool.false_eq_true, if_false, Prod.mk.injEq, and_true] at h1
        subst h1
        exact ⟨rfl, Or.inl rfl⟩
      | @second i o m hg hl =>
        rcases ih.2 with h2 | h2
        · rw [h2] at hl; cases hl
        · cases h2 _ (List.mem_of_getElem? hg)
  obtain ⟨c, hc, hn⟩ := hs
  rcases key.2 with h1 | h1
  · intro st
    cases st <;> rename_i hl _ <;> first | (rw [h1] at hl; cases hl) | skip
    all_goals (rename_i hl; rw [h1] at hl; cases hl)
  · exact absurd (h1 c hc) hn

end Rothko
