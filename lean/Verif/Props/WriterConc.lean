import Verif.Props.AggConc
/-!
# C44: capturing while adding
-/
namespace Rothko

/-! ## What a call holds -/

/-- The observation that is not yet given to an agg. -/
def WrPc.pend : WrPc → Option Obs
  | .add0 _ o => some o
  | .add1 _ o _ => some o
  | .add2 _ o _ => some o
  | .add3 _ o _ => some o
  | .add4 o _ => some o
  | _ => none

/-- The page a capture goes over, and the keys it reported. -/
def WrPc.own : WrPc → Option (Nat × List Bytes)
  | .range0 true p _ => some (p, [])
  | .range true p _ _ seen => some (p, seen)
  | .fin1 true p _ _ seen _ _ => some (p, seen.tail)
  | .fin2 true p _ _ seen _ _ _ => some (p, seen.tail)
  | _ => none

/-- References are valid. -/
def WrPc.Ok (s : WSys) : WrPc → Prop
  | .range0 _ p _ => p < s.pages.length
  | .range _ p _ _ _ => p < s.pages.length
  | .fin1 _ p _ _ seen k a => (∃ pg, s.pages[p]? = some pg ∧ (k, a) ∈ pg.m) ∧ ∃ seen', seen = k :: seen' ∧ k ∉ seen'
  | .fin2 _ p _ _ seen k a _ => (∃ pg, s.pages[p]? = some pg ∧ (k, a) ∈ pg.m) ∧ ∃ seen', seen = k :: seen' ∧ k ∉ seen'
  | _ => True

/-- The kinds of steps. -/
inductive WShape (d : DistParams) (s : WSys) : WSys → Prop
  | loc (i : Nat) (pc pc' : WrPc) : s.th[i]? = some pc → (pc'.pend = pc.pend ∨ pc'.pend = none) → (pc'.own = pc.own ∨ pc'.own = none) →
      ((∀ p, s.page = some p → p < s.pages.length) → pc.Ok s → pc'.Ok s) → WShape d s { s with th := s.th.set i pc' }
  | newPage (i : Nat) (pc pc' : WrPc) (now : Int64) : s.th[i]? = some pc → (pc'.pend = pc.pend ∨ pc'.pend = none) → pc.own = none →
      (pc'.own = none ∨ ∃ p, s.page = some p ∧ pc'.own = some (p, [])) → (∀ t : WSys, (∀ p, s.page = some p → p < t.pages.length) → pc'.Ok t) →
      WShape d s { s with page := some s.pages.length, pages := s.pages ++ [{ now := now }], th := s.th.set i pc' }
  | newAgg (i : Nat) (pc pc' : WrPc) (p : Nat) (pg : CPage) (k : Bytes) : s.th[i]? = some pc → pc'.pend = pc.pend → pc.own = none → pc'.own = none → (∀ t : WSys, pc'.Ok t) → s.pages[p]? = some pg →
      WShape d s { s with aggs := s.aggs ++ [newAgg pg.now], pages := s.pages.set p { pg with m := pg.m ++ [(k, s.aggs.length)] }, th := s.th.set i pc' }
  | observe (i : Nat) (pc pc' : WrPc) (o : Obs) (a : Nat) (ag ag' : Agg) : s.th[i]? = some pc → pc.pend = some o → pc'.pend = none → pc.own = none → pc'.own = none → (∀ t : WSys, pc'.Ok t) → s.aggs[a]? = some ag →
      ag'.dist.getD [] = ag.dist.getD [] ++ [o] → WShape d s { s with aggs := s.aggs.set a ag', th := s.th.set i pc' }
  | touch (i : Nat) (pc pc' : WrPc) (a : Nat) (ag ag' : Agg) : s.th[i]? = some pc → pc'.pend = none → pc.own = none → pc'.own = none → (∀ t : WSys, pc'.Ok t) → s.aggs[a]? = some ag →
      ag'.dist = ag.dist → WShape d s { s with aggs := s.aggs.set a ag', th := s.th.set i pc' }
  | report (i : Nat) (cap : Bool) (p : Nat) (now : Int64) (must seen : List Bytes) (k : Bytes) (a : Nat) (r : DRec) (pc' : WrPc) (ag : Agg) (l : List Obs) : s.th[i]? = some (.fin2 cap p now must seen k a r) →
      pc' = .range cap p now must seen ∨ pc' = .done → s.aggs[a]? = some ag → ag.dist = some l →
      WShape d s { s with out := s.out ++ [⟨cap, p, k, { r with kind := d.kind, distribution := d.marshal l }, l⟩], th := s.th.set i pc' }

theorem observe1_fail {d : DistParams} {a a' : Agg} {o : Obs} (h : a.observe1 d o = (a', none)) : a'.dist = a.dist := by
  unfold Agg.observe1 at h
  split at h
  · split at h
    · cases h
    · cases h; rfl
  · cases h

theorem WSys.Step.shape {d : DistParams} {stop : Bool} {s t : WSys} (h : WSys.Step d stop s t) : WShape d s t := by
  cases h with
  | skip h1 h2 => exact .loc _ _ _ h1 (Or.inr rfl) (Or.inr rfl) (fun _ _ => trivial)
  | load h1 h2 h3 => exact .loc _ _ _ h1 (Or.inl rfl) (Or.inr rfl) (fun _ _ => trivial)
  | loadNil h1 h2 h3 => exact .loc _ _ _ h1 (Or.inl rfl) (Or.inr rfl) (fun _ _ => trivial)
  | cas h1 h2 => exact .newPage _ _ _ _ h1 (Or.inl rfl) rfl (Or.inl rfl) (fun _ _ => trivial)
  | casFail h1 h2 => exact .loc _ _ _ h1 (Or.inl rfl) (Or.inr rfl) (fun _ _ => trivial)
  | hit h1 h2 h3 => exact .loc _ _ _ h1 (Or.inl rfl) (Or.inr rfl) (fun _ _ => trivial)
  | miss h1 h2 h3 => exact .loc _ _ _ h1 (Or.inl rfl) (Or.inr rfl) (fun _ _ => trivial)
  | hit2 h1 h2 h3 => exact .loc _ _ _ h1 (Or.inl rfl) (Or.inr rfl) (fun _ _ => trivial)
  | store h1 h2 h3 => exact .newAgg _ _ _ _ _ _ h1 rfl rfl rfl (fun _ => trivial) h2
  | obs1 h1 h2 h3 h4 =>
    have e := (observe1_dist h4).1
    refine .observe _ _ _ _ _ _ _ h1 rfl ?_ rfl ?_ ?_ h2 (by rw [e]; rfl)
    · split <;> rfl
    · split <;> rfl
    · intro t; split <;> trivial
  | obsFail h1 h2 h3 h4 => exact .touch _ _ _ _ _ _ h1 rfl rfl rfl (fun _ => trivial) h2 (observe1_fail h4)
  | obs2 h1 h2 h3 => exact .touch _ _ _ _ _ _ h1 rfl rfl rfl (fun _ => trivial) h2 (observe2_same _ _ _).1
  | capNil h1 h2 => exact .loc _ _ _ h1 (Or.inr rfl) (Or.inr rfl) (fun _ _ => trivial)
  | capLoad h1 h2 => exact .loc _ _ _ h1 (Or.inr rfl) (Or.inr rfl) (fun _ _ => trivial)
  | capCas h1 h2 => exact .newPage _ _ _ _ h1 (Or.inr rfl) rfl (Or.inr ⟨_, h2, rfl⟩) (fun t ht => ht _ h2)
  | capFail h1 h2 => exact .loc _ _ _ h1 (Or.inr rfl) (Or.inr rfl) (fun _ _ => trivial)
  | itNil h1 h2 => exact .loc _ _ _ h1 (Or.inr rfl) (Or.inr rfl) (fun _ _ => trivial)
  | itLoad h1 h2 => exact .loc _ _ _ h1 (Or.inr rfl) (Or.inr rfl) (fun hp _ => hp _ h2)
  | @begin i cap p now pg h1 h2 =>
    refine .loc _ _ _ h1 (Or.inr rfl) ?_ (fun _ h => h)
    cases cap
    · exact Or.inr rfl
    · exact Or.inl rfl
  | @visit i cap p now must seen pg k a h1 h2 h3 h4 =>
    refine .loc _ _ _ h1 (Or.inr rfl) ?_ (fun _ h => ⟨⟨pg, h2, h3⟩, seen, rfl, h4⟩)
    cases cap
    · exact Or.inr rfl
    · exact Or.inl rfl
  | finish h1 h2 => exact .loc _ _ _ h1 (Or.inr rfl) (Or.inr rfl) (fun _ _ => trivial)
  | @copy i cap p now must seen k a ag h1 h2 h3 =>
    refine .loc _ _ _ h1 (Or.inr rfl) ?_ (fun _ h => h)
    cases cap
    · exact Or.inr rfl
    · exact Or.inl rfl
  | crash h1 h2 h3 => exact .loc _ _ _ h1 (Or.inr rfl) (Or.inr rfl) (fun _ _ => trivial)
  | report h1 h2 h3 => exact .report _ _ _ _ _ _ _ _ _ _ _ _ h1 (Or.inl rfl) h2 h3
  | reportStop _ h1 h2 h3 => exact .report _ _ _ _ _ _ _ _ _ _ _ _ h1 (Or.inr rfl) h2 h3

/-! ## The invariant -/

/-- Each agg belongs to one page and metric. -/
structure WHeap (s : WSys) : Prop where
  cur : ∀ p, s.page = some p → p < s.pages.length
  valid : ∀ (p : Nat) (pg : CPage) (k : Bytes) (a : Nat), s.pages[p]? = some pg → (k, a) ∈ pg.m → a < s.aggs.length
  inj : ∀ (p p' : Nat) (pg pg' : CPage) (k k' : Bytes) (a : Nat), s.pages[p]? = some pg → s.pages[p']? = some pg' → (k, a) ∈ pg.m → (k', a) ∈ pg'.m → p = p' ∧ k = k'
  th : ∀ (i : Nat) (pc : WrPc), s.th[i]? = some pc → pc.Ok s

/-- Pages and aggs stay where they are; maps only grow. -/
def WSys.Ext (s t : WSys) : Prop :=
  s.pages.length ≤ t.pages.length ∧ ∀ (p : Nat) (pg : CPage), s.pages[p]? = some pg → ∃ pg', t.pages[p]? = some pg' ∧ ∀ e ∈ pg.m, e ∈ pg'.m

theorem WrPc.Ok.ext {s t : WSys} (h : s.Ext t) {pc : WrPc} (ok : pc.Ok s) : pc.Ok t := by
  cases pc with
  | range0 cap p now => exact Nat.lt_of_lt_of_le ok h.1
  | range cap p now must seen => exact Nat.lt_of_lt_of_le ok h.1
  | fin1 cap p now must seen k a =>
    obtain ⟨⟨pg, h1, h2⟩, h3⟩ := ok
    obtain ⟨pg', h4, h5⟩ := h.2 p pg h1
    exact ⟨⟨pg', h4, h5 _ h2⟩, h3⟩
  | fin2 cap p now must seen k a r =>
    obtain ⟨⟨pg, h1, h2⟩, h3⟩ := ok
    obtain ⟨pg', h4, h5⟩ := h.2 p pg h1
    exact ⟨⟨pg', h4, h5 _ h2⟩, h3⟩
  | _ => trivial

theorem WShape.ext {d : DistParams} {s t : WSys} (h : WShape d s t) : s.Ext t := by
  cases h with
  | newPage i pc pc' now h1 h2 h3 h4 h5 =>
    refine ⟨by simp, fun p pg hp => ⟨pg, ?_, fun e he => he⟩⟩
    dsimp only; rw [List.getElem?_append_left (List.getElem?_eq_some_iff.mp hp).1]; exact hp
  | newAgg i pc pc' p pg k h1 h2 h3 h4 h5 h6 =>
    refine ⟨by simp, fun q qg hq => ?_⟩
    by_cases hpq : p = q
    · subst hpq
      rw [h6] at hq; cases hq
      refine ⟨{ pg with m := pg.m ++ [(k, s.aggs.length)] }, ?_, fun e he => by simp [he]⟩
      dsimp only
      rw [List.getElem?_set_self (List.getElem?_eq_some_iff.mp h6).1]
    · refine ⟨qg, ?_, fun e he => he⟩
      dsimp only; rw [List.getElem?_set_ne hpq]; exact hq
  | _ => exact ⟨Nat.le_refl _, fun p pg hp => ⟨pg, hp, fun e he => he⟩⟩

theorem forall_set {P : WrPc → Prop} {th : List WrPc} {i : Nat} {pc' : WrPc} (h : ∀ (j : Nat) (q : WrPc), th[j]? = some q → P q) (h' : P pc') :
    ∀ (j : Nat) (q : WrPc), (th.set i pc')[j]? = some q → P q := by
  intro j q hq
  by_cases hij : i = j
  · subst hij
    rw [List.getElem?_set] at hq
    simp only [if_true] at hq
    split at hq
    · cases hq; exact h'
    · cases hq
  · rw [List.getElem?_set_ne hij] at hq
    exact h j q hq

theorem WHeap.step {d : DistParams} {s t : WSys} (h : WHeap s) (st : WShape d s t) : WHeap t := by
  have hext := st.ext
  have hth : ∀ (j : Nat) (q : WrPc), s.th[j]? = some q → q.Ok t := fun j q hq => (h.th j q hq).ext hext
  cases st with
  | loc i pc pc' h1 h2 h3 h4 =>
    refine ⟨h.cur, h.valid, h.inj, forall_set hth ?_⟩
    exact (h4 h.cur (h.th i pc h1)).ext hext
  | newPage i pc pc' now h1 h2 h3 h4 h5 =>
    have key : ∀ (p : Nat) (pg : CPage), (s.pages ++ [({ now := now } : CPage)])[p]? = some pg → s.pages[p]? = some pg ∨ pg.m = [] := by
      intro p pg hp
      rcases List.getElem?_append.symm.trans hp |> fun h => h with hh
      split at hh
      · exact Or.inl hh
      · right
        have hh' : ([({ now := now } : CPage)])[p - s.pages.length]? = some pg := hh
        have := List.mem_of_getElem? hh'
        simp at this; rw [this]
    refine ⟨?_, ?_, ?_, forall_set hth ?_⟩
    · intro p hp; cases hp; simp
    · intro p pg k a hp hk
      rcases key p pg hp with h' | h'
      · exact h.valid p pg k a h' hk
      · rw [h'] at hk; cases hk
    · intro p p' pg pg' k k' a hp hp' hk hk'
      rcases key p pg hp with g | g
      · rcases key p' pg' hp' with g' | g'
        · exact h.inj p p' pg pg' k k' a g g' hk hk'
        · rw [g'] at hk'; cases hk'
      · rw [g] at hk; cases hk
    · refine h5 _ (fun p hp => ?_)
      have := h.cur p hp
      simp; omega
  | newAgg i pc pc' p pg k h1 h2 h3 h4 h5 h6 =>
    have key : ∀ (q : Nat) (qg : CPage) (x : Bytes) (a : Nat), (s.pages.set p { pg with m := pg.m ++ [(k, s.aggs.length)] })[q]? = some qg → (x, a) ∈ qg.m →
        (∃ qg', s.pages[q]? = some qg' ∧ (x, a) ∈ qg'.m) ∨ (a = s.aggs.length ∧ q = p ∧ x = k) := by
      intro q qg x a hq hx
      by_cases hpq : p = q
      · subst hpq
        rw [List.getElem?_set_self (List.getElem?_eq_some_iff.mp h6).1] at hq
        cases hq
        rcases List.mem_append.mp hx with hx | hx
        · exact Or.inl ⟨pg, h6, hx⟩
        · simp at hx; exact Or.inr ⟨hx.2, rfl, hx.1⟩
      · rw [List.getElem?_set_ne hpq] at hq
        exact Or.inl ⟨qg, hq, hx⟩
    refine ⟨?_, ?_, ?_, forall_set hth (h5 _)⟩
    · intro q hq; simpa using h.cur q hq
    · intro q qg x a hq hx
      rcases key q qg x a hq hx with ⟨qg', g1, g2⟩ | ⟨g, _⟩
      · have := h.valid q qg' x a g1 g2; simp; omega
      · simp; omega
    · intro q q' qg qg' x x' a hq hq' hx hx'
      rcases key q qg x a hq hx with ⟨g, g1, g2⟩ | ⟨g, g1, g2⟩
      · have hv := h.valid q g x a g1 g2
        rcases key q' qg' x' a hq' hx' with ⟨g', g1', g2'⟩ | ⟨g', _⟩
        · exact h.inj q q' g g' x x' a g1 g1' g2 g2'
        · omega
      · rcases key q' qg' x' a hq' hx' with ⟨g', g1', g2'⟩ | ⟨g', g1', g2'⟩
        · have hv := h.valid q' g' x' a g1' g2'; omega
        · exact ⟨g1.trans g1'.symm, g2.trans g2'.symm⟩
  | observe i pc pc' o a ag ag' h1 h2 h3 h4 h5 h6 h7 h8 =>
    exact ⟨h.cur, fun p pg k a' hp hk => by simpa using h.valid p pg k a' hp hk, h.inj, forall_set hth (h6 _)⟩
  | touch i pc pc' a ag ag' h1 h2 h4 h5 h6 h7 h8 =>
    exact ⟨h.cur, fun p pg k a' hp hk => by simpa using h.valid p pg k a' hp hk, h.inj, forall_set hth (h6 _)⟩
  | report i cap p now must seen k a r pc' ag l h1 h2 h3 h4 =>
    refine ⟨h.cur, h.valid, h.inj, forall_set hth ?_⟩
    obtain ⟨⟨pg, g1, g2⟩, g3⟩ := h.th i _ h1
    rcases h2 with rfl | rfl
    · exact (List.getElem?_eq_some_iff.mp g1).1
    · trivial

/-- Each observation is with one agg, once, or with a call. -/
structure WTags (s : WSys) : Prop where
  pendAgg : ∀ (i : Nat) (pc : WrPc) (o : Obs), s.th[i]? = some pc → pc.pend = some o → ∀ ag ∈ s.aggs, ∀ o' ∈ ag.dist.getD [], o'.tag ≠ o.tag
  pend : ∀ (i j : Nat) (pc pc' : WrPc) (o o' : Obs), s.th[i]? = some pc → s.th[j]? = some pc' → pc.pend = some o → pc'.pend = some o' → o.tag = o'.tag → i = j
  nodup : ∀ ag ∈ s.aggs, ((ag.dist.getD []).map (·.tag)).Nodup
  disj : ∀ (a b : Nat) (ag bg : Agg) (o o' : Obs), s.aggs[a]? = some ag → s.aggs[b]? = some bg → o ∈ ag.dist.getD [] → o' ∈ bg.dist.getD [] → o.tag = o'.tag → a = b

theorem wtags_th {s : WSys} {aggs : List Agg} {i : Nat} {pc pc' : WrPc} (h : WTags s) (h1 : s.th[i]? = some pc) (hp : pc'.pend = pc.pend ∨ pc'.pend = none)
    (hag : ∀ ag ∈ aggs, ag.dist.getD [] = [] ∨ ∃ ag' ∈ s.aggs, ag.dist.getD [] = ag'.dist.getD []) :
    (∀ (j : Nat) (q : WrPc) (o : Obs), (s.th.set i pc')[j]? = some q → q.pend = some o → ∀ ag ∈ aggs, ∀ o' ∈ ag.dist.getD [], o'.tag ≠ o.tag) ∧
    (∀ (j j' : Nat) (q q' : WrPc) (o o' : Obs), (s.th.set i pc')[j]? = some q → (s.th.set i pc')[j']? = some q' → q.pend = some o → q'.pend = some o' → o.tag = o'.tag → j = j') := by
  have key : ∀ (j : Nat) (q : WrPc) (o : Obs), (s.th.set i pc')[j]? = some q → q.pend = some o → ∃ q', s.th[j]? = some q' ∧ q'.pend = some o := by
    intro j q o hj hq
    by_cases hij : i = j
    · subst hij
      rw [List.getElem?_set_self (List.getElem?_eq_some_iff.mp h1).1] at hj
      cases hj
      rcases hp with hp | hp
      · exact ⟨pc, h1, hp ▸ hq⟩
      · rw [hp] at hq; cases hq
    · rw [List.getElem?_set_ne hij] at hj
      exact ⟨q, hj, hq⟩
  constructor
  · intro j q o hj hq ag ha o' ho'
    obtain ⟨q', g1, g2⟩ := key j q o hj hq
    rcases hag ag ha with hn | ⟨ag', ha', he⟩
    · rw [hn] at ho'; cases ho'
    · rw [he] at ho'; exact h.pendAgg j q' o g1 g2 ag' ha' o' ho'
  · intro j j' q q' o o' hj hj' hq hq' ht
    obtain ⟨r, g1, g2⟩ := key j q o hj hq
    obtain ⟨r', g1', g2'⟩ := key j' q' o' hj' hq'
    exact h.pend j j' r r' o o' g1 g1' g2 g2' ht

theorem WTags.step {d : DistParams} {s t : WSys} (h : WTags s) (st : WShape d s t) : WTags t := by
  cases st with
  | loc i pc pc' h1 h2 h3 h4 =>
    obtain ⟨g1, g2⟩ := wtags_th h h1 h2 (aggs := s.aggs) (fun ag ha => Or.inr ⟨ag, ha, rfl⟩)
    exact ⟨g1, g2, h.nodup, h.disj⟩
  | newPage i pc pc' now h1 h2 h3 h4 h5 =>
    obtain ⟨g1, g2⟩ := wtags_th h h1 h2 (aggs := s.aggs) (fun ag ha => Or.inr ⟨ag, ha, rfl⟩)
    exact ⟨g1, g2, h.nodup, h.disj⟩
  | newAgg i pc pc' p pg k h1 h2 h3 h4 h5 h6 =>
    obtain ⟨g1, g2⟩ := wtags_th h h1 (Or.inl h2) (aggs := s.aggs ++ [newAgg pg.now]) (fun ag ha => by
      rcases List.mem_append.mp ha with ha | ha
      · exact Or.inr ⟨ag, ha, rfl⟩
      · simp at ha; subst ha; exact Or.inl rfl)
    have key : ∀ (a : Nat) (ag : Agg) (o : Obs), (s.aggs ++ [newAgg pg.now])[a]? = some ag → o ∈ ag.dist.getD [] → s.aggs[a]? = some ag := by
      intro a ag o ha ho
      by_cases hlt : a < s.aggs.length
      · rwa [List.getElem?_append_left hlt] at ha
      · rw [List.getElem?_append_right (by omega)] at ha
        have := List.mem_of_getElem? ha
        simp at this; subst this; cases ho
    refine ⟨g1, g2, ?_, ?_⟩
    · intro ag ha
      rcases List.mem_append.mp ha with ha | ha
      · exact h.nodup ag ha
      · simp at ha; subst ha; simp [newAgg]
    · intro a b ag bg o o' ha hb ho ho' ht
      exact h.disj a b ag bg o o' (key a ag o ha ho) (key b bg o' hb ho') ho ho' ht
  | observe i pc pc' o a ag ag' h1 h2 h3 h4 h5 h6 h7 h8 =>
    have hmem := List.mem_of_getElem? h7
    have hag : ∀ bg ∈ s.aggs.set a ag', ∀ o' ∈ bg.dist.getD [], (∃ bg' ∈ s.aggs, o' ∈ bg'.dist.getD []) ∨ o' = o := by
      intro bg hb o' ho'
      rcases List.mem_or_eq_of_mem_set hb with hb | rfl
      · exact Or.inl ⟨bg, hb, ho'⟩
      · rw [h8] at ho'
        rcases List.mem_append.mp ho' with ho' | ho'
        · exact Or.inl ⟨ag, hmem, ho'⟩
        · simp at ho'; exact Or.inr ho'
    have hth : ∀ (j : Nat) (q : WrPc) (u : Obs), (s.th.set i pc')[j]? = some q → q.pend = some u → s.th[j]? = some q ∧ i ≠ j := by
      intro j q u hj hq
      by_cases hij : i = j
      · subst hij
        rw [List.getElem?_set_self (List.getElem?_eq_some_iff.mp h1).1] at hj
        cases hj; rw [h3] at hq; cases hq
      · rw [List.getElem?_set_ne hij] at hj
        exact ⟨hj, hij⟩
    have hat : ∀ (b : Nat) (bg : Agg) (u : Obs), (s.aggs.set a ag')[b]? = some bg → u ∈ bg.dist.getD [] → (∃ bg', s.aggs[b]? = some bg' ∧ u ∈ bg'.dist.getD []) ∨ (b = a ∧ u = o) := by
      intro b bg u hb hu
      by_cases hab : a = b
      · subst hab
        rw [List.getElem?_set_self (List.getElem?_eq_some_iff.mp h7).1] at hb
        cases hb
        rw [h8] at hu
        rcases List.mem_append.mp hu with hu | hu
        · exact Or.inl ⟨ag, h7, hu⟩
        · simp at hu; exact Or.inr ⟨rfl, hu⟩
      · rw [List.getElem?_set_ne hab] at hb
        exact Or.inl ⟨bg, hb, hu⟩
    refine ⟨?_, ?_, ?_, ?_⟩
    · intro j q u hj hq bg hb o' ho'
      obtain ⟨k1, k2⟩ := hth j q u hj hq
      rcases hag bg hb o' ho' with ⟨bg', g1, g2⟩ | rfl
      · exact h.pendAgg j q u k1 hq bg' g1 o' g2
      · intro ht
        exact k2 (h.pend i j pc q o' u h1 k1 h2 hq ht)
    · intro j j' q q' u u' hj hj' hq hq' ht
      exact h.pend j j' q q' u u' (hth j q u hj hq).1 (hth j' q' u' hj' hq').1 hq hq' ht
    · intro bg hb
      rcases List.mem_or_eq_of_mem_set hb with hb | rfl
      · exact h.nodup bg hb
      · rw [h8, List.map_append]
        refine List.nodup_append.mpr ⟨h.nodup ag hmem, by simp, ?_⟩
        intro x hx y hy hxy
        simp at hy
        obtain ⟨u, hu, rfl⟩ := List.mem_map.mp hx
        exact h.pendAgg i pc o h1 h2 ag hmem u hu (hxy.trans hy)
    · intro b c bg cg u u' hb hc hu hu' ht
      rcases hat b bg u hb hu with ⟨bg', k1, k2⟩ | ⟨rfl, rfl⟩
      · rcases hat c cg u' hc hu' with ⟨cg', k1', k2'⟩ | ⟨rfl, rfl⟩
        · exact h.disj b c bg' cg' u u' k1 k1' k2 k2' ht
        · exact absurd ht (h.pendAgg i pc u' h1 h2 bg' (List.mem_of_getElem? k1) u k2)
      · rcases hat c cg u' hc hu' with ⟨cg', k1', k2'⟩ | ⟨rfl, rfl⟩
        · exact absurd ht.symm (h.pendAgg i pc u h1 h2 cg' (List.mem_of_getElem? k1') u' k2')
        · rfl
  | touch i pc pc' a ag ag' h1 h2 h4 h5 h6 h7 h8 =>
    have hmem := List.mem_of_getElem? h7
    obtain ⟨g1, g2⟩ := wtags_th h h1 (Or.inr h2) (aggs := s.aggs.set a ag') (fun bg hb => by
      rcases List.mem_or_eq_of_mem_set hb with hb | rfl
      · exact Or.inr ⟨bg, hb, rfl⟩
      · exact Or.inr ⟨ag, hmem, by rw [h8]⟩)
    have key : ∀ (b : Nat) (bg : Agg) (o : Obs), (s.aggs.set a ag')[b]? = some bg → o ∈ bg.dist.getD [] → ∃ bg', s.aggs[b]? = some bg' ∧ o ∈ bg'.dist.getD [] := by
      intro b bg o hb ho
      by_cases hab : a = b
      · subst hab
        rw [List.getElem?_set_self (List.getElem?_eq_some_iff.mp h7).1] at hb
        cases hb; rw [h8] at ho; exact ⟨ag, h7, ho⟩
      · rw [List.getElem?_set_ne hab] at hb; exact ⟨bg, hb, ho⟩
    refine ⟨g1, g2, ?_, ?_⟩
    · intro bg hb
      rcases List.mem_or_eq_of_mem_set hb with hb | rfl
      · exact h.nodup bg hb
      · rw [h8]; exact h.nodup ag hmem
    · intro b c bg cg o o' hb hc ho ho' ht
      obtain ⟨bg', k1, k2⟩ := key b bg o hb ho
      obtain ⟨cg', k1', k2'⟩ := key c cg o' hc ho'
      exact h.disj b c bg' cg' o o' k1 k1' k2 k2' ht
  | report i cap p now must seen k a r pc' ag l h1 h2 h3 h4 =>
    obtain ⟨g1, g2⟩ := wtags_th h h1 (pc' := pc') (Or.inr (by rcases h2 with rfl | rfl <;> rfl)) (aggs := s.aggs) (fun ag ha => Or.inr ⟨ag, ha, rfl⟩)
    exact ⟨g1, g2, h.nodup, h.disj⟩


/-- Each page is captured by one call; each of its metrics is reported once. -/
structure WOwn (s : WSys) : Prop where
  own : ∀ (i : Nat) (pc : WrPc) (p : Nat) (ks : List Bytes), s.th[i]? = some pc → pc.own = some (p, ks) → s.page ≠ some p ∧ p < s.pages.length
  one : ∀ (i j : Nat) (pc pc' : WrPc) (p : Nat) (ks ks' : List Bytes), s.th[i]? = some pc → s.th[j]? = some pc' → pc.own = some (p, ks) → pc'.own = some (p, ks') → i = j
  out : ∀ r ∈ s.out, r.cap = true → s.page ≠ some r.page ∧ r.page < s.pages.length
  keys : ∀ (i : Nat) (pc : WrPc) (p : Nat) (ks : List Bytes), s.th[i]? = some pc → pc.own = some (p, ks) → ∀ r ∈ s.out, r.cap = true → r.page = p → r.metric ∈ ks
  once : (s.out.filter (·.cap)).Pairwise (fun r r' => ¬ (r.page = r'.page ∧ r.metric = r'.metric))

theorem wown_th {s : WSys} {i : Nat} {pc pc' : WrPc} (h1 : s.th[i]? = some pc) (ho : pc'.own = pc.own ∨ pc'.own = none) {j : Nat} {q : WrPc} {x : Nat × List Bytes}
    (hj : (s.th.set i pc')[j]? = some q) (hq : q.own = some x) : ∃ q', s.th[j]? = some q' ∧ q'.own = some x := by
  by_cases hij : i = j
  · subst hij
    rw [List.getElem?_set_self (List.getElem?_eq_some_iff.mp h1).1] at hj
    cases hj
    rcases ho with ho | ho
    · exact ⟨pc, h1, ho ▸ hq⟩
    · rw [ho] at hq; cases hq
  · rw [List.getElem?_set_ne hij] at hj
    exact ⟨q, hj, hq⟩

/-- Steps that leave page, out and the number of pages. -/
theorem WOwn.same {s : WSys} (h : WOwn s) {i : Nat} {pc pc' : WrPc} (h1 : s.th[i]? = some pc) (ho : pc'.own = pc.own ∨ pc'.own = none) (pages : List CPage) (hp : pages.length = s.pages.length) (aggs : List Agg) :
    WOwn { s with pages := pages, aggs := aggs, th := s.th.set i pc' } := by
  refine ⟨?_, ?_, ?_, ?_, h.once⟩
  · intro j q p ks hj hq
    obtain ⟨q', g1, g2⟩ := wown_th h1 ho hj hq
    have := h.own j q' p ks g1 g2
    exact ⟨this.1, by dsimp only; rw [hp]; exact this.2⟩
  · intro j j' q q' p ks ks' hj hj' hq hq'
    obtain ⟨r, g1, g2⟩ := wown_th h1 ho hj hq
    obtain ⟨r', g1', g2'⟩ := wown_th h1 ho hj' hq'
    exact h.one j j' r r' p ks ks' g1 g1' g2 g2'
  · intro r hr hc
    have := h.out r hr hc
    exact ⟨this.1, by dsimp only; rw [hp]; exact this.2⟩
  · intro j q p ks hj hq
    obtain ⟨q', g1, g2⟩ := wown_th h1 ho hj hq
    exact h.keys j q' p ks g1 g2

theorem WOwn.step {d : DistParams} {s t : WSys} (hh : WHeap s) (h : WOwn s) (st : WShape d s t) : WOwn t := by
  cases st with
  | loc i pc pc' h1 h2 h3 h4 => exact h.same h1 h3 s.pages rfl s.aggs
  | newAgg i pc pc' p pg k h1 h2 h3 h4 h5 h6 => exact h.same h1 (Or.inr h4) _ (by simp) _
  | observe i pc pc' o a ag ag' h1 h2 h3 h4 h5 h6 h7 h8 => exact h.same h1 (Or.inr h5) s.pages rfl _
  | touch i pc pc' a ag ag' h1 h2 h4 h5 h6 h7 h8 => exact h.same h1 (Or.inr h5) s.pages rfl _
  | newPage i pc pc' now h1 h2 h3 h4 h5 =>
    have key : ∀ (j : Nat) (q : WrPc) (p : Nat) (ks : List Bytes), (s.th.set i pc')[j]? = some q → q.own = some (p, ks) →
        (∃ q', s.th[j]? = some q' ∧ q'.own = some (p, ks)) ∨ (j = i ∧ s.page = some p ∧ ks = []) := by
      intro j q p ks hj hq
      by_cases hij : i = j
      · subst hij
        rw [List.getElem?_set_self (List.getElem?_eq_some_iff.mp h1).1] at hj
        cases hj
        rcases h4 with h4 | ⟨p', h6, h7⟩
        · rw [h4] at hq; cases hq
        · rw [h7] at hq; cases hq; exact Or.inr ⟨rfl, h6, rfl⟩
      · rw [List.getElem?_set_ne hij] at hj
        exact Or.inl ⟨q, hj, hq⟩
    have hlt : ∀ p, p < s.pages.length → (some s.pages.length : Option Nat) ≠ some p ∧ p < (s.pages ++ [({ now := now } : CPage)]).length := by
      intro p hp
      refine ⟨fun e => ?_, by simp; omega⟩
      cases e; omega
    refine ⟨?_, ?_, ?_, ?_, h.once⟩
    · intro j q p ks hj hq
      rcases key j q p ks hj hq with ⟨q', g1, g2⟩ | ⟨_, g, _⟩
      · exact hlt p (h.own j q' p ks g1 g2).2
      · exact hlt p (hh.cur p g)
    · intro j j' q q' p ks ks' hj hj' hq hq'
      rcases key j q p ks hj hq with ⟨r, g1, g2⟩ | ⟨g0, g, _⟩
      · rcases key j' q' p ks' hj' hq' with ⟨r', g1', g2'⟩ | ⟨_, g', _⟩
        · exact h.one j j' r r' p ks ks' g1 g1' g2 g2'
        · exact absurd g' (h.own j r p ks g1 g2).1
      · rcases key j' q' p ks' hj' hq' with ⟨r', g1', g2'⟩ | ⟨g0', g', _⟩
        · exact absurd g (h.own j' r' p ks' g1' g2').1
        · exact g0.trans g0'.symm
    · intro r hr hc
      exact hlt r.page (h.out r hr hc).2
    · intro j q p ks hj hq r hr hc hp
      rcases key j q p ks hj hq with ⟨q', g1, g2⟩ | ⟨_, g, _⟩
      · exact h.keys j q' p ks g1 g2 r hr hc hp
      · exact absurd g (hp ▸ (h.out r hr hc).1)
  | report i cap p now must seen k a r pc' ag l h1 h2 h3 h4 =>
    obtain ⟨⟨pg, f1, f2⟩, seen', f3, f4⟩ := hh.th i _ h1
    subst f3
    cases cap with
    | false =>
      have ho : pc'.own = (WrPc.fin2 false p now must (k :: seen') k a r).own ∨ pc'.own = none := Or.inr (by rcases h2 with rfl | rfl <;> rfl)
      have hs := h.same h1 ho s.pages rfl s.aggs
      refine ⟨hs.own, hs.one, ?_, ?_, ?_⟩
      · intro x hx hc
        rcases List.mem_append.mp hx with hx | hx
        · exact h.out x hx hc
        · simp at hx; subst hx; cases hc
      · intro j q p' ks hj hq x hx hc
        rcases List.mem_append.mp hx with hx | hx
        · exact hs.keys j q p' ks hj hq x hx hc
        · simp at hx; subst hx; cases hc
      · rw [List.filter_append]; simpa using h.once
    | true =>
      have hown := h.own i _ p seen' h1 rfl
      have hkeys := h.keys i _ p seen' h1 rfl
      -- threads
      have key : ∀ (j : Nat) (q : WrPc) (p' : Nat) (ks : List Bytes), (s.th.set i pc')[j]? = some q → q.own = some (p', ks) →
          (j ≠ i ∧ s.th[j]? = some q) ∨ (j = i ∧ p' = p ∧ ks = k :: seen') := by
        intro j q p' ks hj hq
        by_cases hij : i = j
        · subst hij
          rw [List.getElem?_set_self (List.getElem?_eq_some_iff.mp h1).1] at hj
          cases hj
          rcases h2 with rfl | rfl
          · cases hq; exact Or.inr ⟨rfl, rfl, rfl⟩
          · cases hq
        · rw [List.getElem?_set_ne hij] at hj
          exact Or.inl ⟨fun e => hij e.symm, hj⟩
      refine ⟨?_, ?_, ?_, ?_, ?_⟩
      · intro j q p' ks hj hq
        rcases key j q p' ks hj hq with ⟨_, g⟩ | ⟨_, rfl, _⟩
        · exact h.own j q p' ks g hq
        · exact hown
      · intro j j' q q' p' ks ks' hj hj' hq hq'
        rcases key j q p' ks hj hq with ⟨n, g⟩ | ⟨rfl, rfl, _⟩
        · rcases key j' q' p' ks' hj' hq' with ⟨n', g'⟩ | ⟨rfl, rfl, _⟩
          · exact h.one j j' q q' p' ks ks' g g' hq hq'
          · exact h.one j j' q _ p' ks seen' g h1 hq rfl
        · rcases key j' q' p' ks' hj' hq' with ⟨n', g'⟩ | ⟨rfl, _⟩
          · exact h.one j j' _ q' p' seen' ks' h1 g' rfl hq'
          · rfl
      · intro x hx hc
        rcases List.mem_append.mp hx with hx | hx
        · exact h.out x hx hc
        · simp at hx; subst hx; exact hown
      · intro j q p' ks hj hq x hx hc hp
        rcases key j q p' ks hj hq with ⟨n, g⟩ | ⟨rfl, rfl, rfl⟩
        · rcases List.mem_append.mp hx with hx | hx
          · exact h.keys j q p' ks g hq x hx hc hp
          · simp at hx; subst hx
            dsimp only at hp; subst hp
            exact absurd (h.one j i q _ p ks seen' g h1 hq rfl) n
        · rcases List.mem_append.mp hx with hx | hx
          · exact List.mem_cons_of_mem _ (hkeys x hx hc hp)
          · simp at hx; subst hx; simp
      · rw [List.filter_append]
        refine List.pairwise_append.mpr ⟨h.once, by simp, ?_⟩
        intro x hx y hy
        simp at hy; subst hy
        simp only [List.mem_filter] at hx
        rintro ⟨e1, e2⟩
        dsimp only at e1 e2
        have := hkeys x hx.1 hx.2 e1
        rw [e2] at this
        exact f4 this

/-- What is reported was observed by the agg of the page and metric. -/
structure WRep (s : WSys) : Prop where
  rep : ∀ r ∈ s.out, ∃ (pg : CPage) (a : Nat) (ag : Agg), s.pages[r.page]? = some pg ∧ (r.metric, a) ∈ pg.m ∧ s.aggs[a]? = some ag ∧ (∀ o ∈ r.vals, o ∈ ag.dist.getD []) ∧ (r.vals.map (·.tag)).Nodup

theorem WShape.dists {d : DistParams} {s t : WSys} (st : WShape d s t) {a : Nat} {ag : Agg} (h : s.aggs[a]? = some ag) : ∃ ag', t.aggs[a]? = some ag' ∧ ∀ o ∈ ag.dist.getD [], o ∈ ag'.dist.getD [] := by
  cases st with
  | newAgg i pc pc' p pg k h1 h2 h3 h4 h5 h6 =>
    refine ⟨ag, ?_, fun o ho => ho⟩
    dsimp only; rw [List.getElem?_append_left (List.getElem?_eq_some_iff.mp h).1]; exact h
  | observe i pc pc' o b bg bg' h1 h2 h3 h4 h5 h6 h7 h8 =>
    by_cases hab : b = a
    · subst hab
      rw [h7] at h; cases h
      refine ⟨bg', ?_, fun o ho => by rw [h8]; simp [ho]⟩
      dsimp only; rw [List.getElem?_set_self (List.getElem?_eq_some_iff.mp h7).1]
    · refine ⟨ag, ?_, fun o ho => ho⟩
      dsimp only; rw [List.getElem?_set_ne hab]; exact h
  | touch i pc pc' b bg bg' h1 h2 h4 h5 h6 h7 h8 =>
    by_cases hab : b = a
    · subst hab
      rw [h7] at h; cases h
      refine ⟨bg', ?_, fun o ho => by rw [h8]; exact ho⟩
      dsimp only; rw [List.getElem?_set_self (List.getElem?_eq_some_iff.mp h7).1]
    · refine ⟨ag, ?_, fun o ho => ho⟩
      dsimp only; rw [List.getElem?_set_ne hab]; exact h
  | _ => exact ⟨ag, h, fun o ho => ho⟩

theorem WRep.step {d : DistParams} {s t : WSys} (hh : WHeap s) (ht : WTags s) (h : WRep s) (st : WShape d s t) : WRep t := by
  have old : ∀ r ∈ s.out, ∃ (pg : CPage) (a : Nat) (ag : Agg), t.pages[r.page]? = some pg ∧ (r.metric, a) ∈ pg.m ∧ t.aggs[a]? = some ag ∧ (∀ o ∈ r.vals, o ∈ ag.dist.getD []) ∧ (r.vals.map (·.tag)).Nodup := by
    intro r hr
    obtain ⟨pg, a, ag, h1, h2, h3, h4, h5⟩ := h.rep r hr
    obtain ⟨pg', g1, g2⟩ := st.ext.2 r.page pg h1
    obtain ⟨ag', g3, g4⟩ := st.dists h3
    exact ⟨pg', a, ag', g1, g2 _ h2, g3, fun o ho => g4 o (h4 o ho), h5⟩
  cases st with
  | report i cap p now must seen k a r pc' ag l h1 h2 h3 h4 =>
    refine ⟨fun x hx => ?_⟩
    rcases List.mem_append.mp hx with hx | hx
    · exact old x hx
    · simp at hx; subst hx
      obtain ⟨⟨pg, f1, f2⟩, _⟩ := hh.th i _ h1
      refine ⟨pg, a, ag, f1, f2, h3, ?_, ?_⟩
      · intro o ho; rw [h4]; exact ho
      · have := ht.nodup ag (List.mem_of_getElem? h3)
        rw [h4] at this; exact this
  | _ => exact ⟨old⟩

/-! ## At most once -/

/-- The observations of the calls. -/
def addTags (calls : List WCall) : List Nat := calls.filterMap (fun c => match c with | .add _ o => some o.tag | _ => none)

theorem addTags_inj {calls : List WCall} (h : (addTags calls).Nodup) {i j : Nat} {k k' : Bytes} {o o' : Obs} (hi : calls[i]? = some (.add k o)) (hj : calls[j]? = some (.add k' o')) (ht : o.tag = o'.tag) : i = j := by
  induction calls generalizing i j with
  | nil => simp at hi
  | cons c calls ih =>
    have htl : (addTags calls).Nodup := by
      unfold addTags at h ⊢
      rw [List.filterMap_cons] at h
      split at h
      · exact h
      · exact (List.nodup_cons.mp h).2
    have hmem : ∀ {n : Nat} {k : Bytes} {o : Obs}, calls[n]? = some (.add k o) → o.tag ∈ addTags calls := by
      intro n k o hn
      exact List.mem_filterMap.mpr ⟨_, List.mem_of_getElem? hn, rfl⟩
    cases i with
    | zero =>
      cases j with
      | zero => rfl
      | succ j =>
        simp at hi hj
        subst hi
        have := (List.nodup_cons.mp (show (o.tag :: addTags calls).Nodup from h)).1
        exact absurd (ht ▸ hmem hj) this
    | succ i =>
      cases j with
      | zero =>
        simp at hi hj
        subst hj
        have := (List.nodup_cons.mp (show (o'.tag :: addTags calls).Nodup from h)).1
        exact absurd (ht ▸ hmem hi) this
      | succ j =>
        simp at hi hj
        rw [ih htl hi hj]

structure WAll (s : WSys) : Prop where
  heap : WHeap s
  tags : WTags s
  own : WOwn s
  rep : WRep s

theorem wall_reach {d : DistParams} {stop : Bool} {calls : List WCall} (hn : (addTags calls).Nodup) {s : WSys} (h : WSys.Reach d stop (WSys.init calls) s) : WAll s := by
  induction h with
  | refl =>
    have hpc : ∀ (i : Nat) (pc : WrPc), (WSys.init calls).th[i]? = some pc → ∃ c, calls[i]? = some c ∧ pc = c.pc := by
      intro i pc hi
      simp only [WSys.init, List.getElem?_map, Option.map_eq_some_iff] at hi
      obtain ⟨c, hc, rfl⟩ := hi
      exact ⟨c, hc, rfl⟩
    have hown : ∀ c : WCall, c.pc.own = none := by intro c; cases c <;> rfl
    have hok : ∀ (c : WCall) (s : WSys), c.pc.Ok s := by intro c s; cases c <;> trivial
    refine ⟨⟨by simp [WSys.init], by simp [WSys.init], by simp [WSys.init], fun i pc hi => ?_⟩, ⟨by simp [WSys.init], fun i j pc pc' o o' hi hj hp hp' ht => ?_, by simp [WSys.init], by simp [WSys.init]⟩,
      ⟨fun i pc p ks hi ho => ?_, fun i j pc pc' p ks ks' hi hj ho => ?_, by simp [WSys.init], by simp [WSys.init], by simp [WSys.init]⟩, ⟨by simp [WSys.init]⟩⟩
    · obtain ⟨c, _, rfl⟩ := hpc i pc hi; exact hok c _
    · obtain ⟨c, hc, rfl⟩ := hpc i pc hi
      obtain ⟨c', hc', rfl⟩ := hpc j pc' hj
      cases c with
      | add k u =>
        cases c' with
        | add k' u' => cases hp; cases hp'; exact addTags_inj hn hc hc' ht
        | capture => cases hp'
        | iterate => cases hp'
      | capture => cases hp
      | iterate => cases hp
    · obtain ⟨c, _, rfl⟩ := hpc i pc hi; rw [hown c] at ho; cases ho
    · obtain ⟨c, _, rfl⟩ := hpc i pc hi; rw [hown c] at ho; cases ho
  | step _ st ih =>
    have sh := st.shape
    exact ⟨ih.heap.step sh, ih.tags.step sh, ih.own.step ih.heap sh, ih.rep.step ih.heap ih.tags sh⟩

/-- **C44** (at most once). Under any interleaving of any calls to `Add`, `Capture` and `Iterate`, no observation is in two records reported by captures, nor twice in one: the observations of all captured
records, in a row, have no repetition. -/
theorem C44_once (d : DistParams) (stop : Bool) (calls : List WCall) (hn : (addTags calls).Nodup) (s : WSys) (h : WSys.Reach d stop (WSys.init calls) s) :
    (((s.out.filter (·.cap)).map (fun r => r.vals.map (·.tag))).flatten).Nodup := by
  have hw := wall_reach hn h
  rw [List.Nodup, List.pairwise_flatten]
  constructor
  · intro l hl
    obtain ⟨r, hr, rfl⟩ := List.mem_map.mp hl
    obtain ⟨_, _, _, _, _, _, _, h5⟩ := hw.rep.rep r (List.mem_filter.mp hr).1
    exact h5
  · rw [List.pairwise_map]
    refine hw.own.once.imp_of_mem (fun {r r'} hr hr' hne => ?_)
    intro x hx y hy hxy
    subst hxy
    obtain ⟨o, ho, e⟩ := List.mem_map.mp hx
    obtain ⟨o', ho', e'⟩ := List.mem_map.mp hy
    obtain ⟨pg, a, ag, h1, h2, h3, h4, _⟩ := hw.rep.rep r (List.mem_filter.mp hr).1
    obtain ⟨pg', a', ag', h1', h2', h3', h4', _⟩ := hw.rep.rep r' (List.mem_filter.mp hr').1
    have : a = a' := hw.tags.disj a a' ag ag' o o' h3 h3' (h4 o ho) (h4' o' ho') (e.trans e'.symm)
    subst this
    exact hne (hw.heap.inj _ _ pg pg' _ _ a h1 h1' h2 h2')

/-- **C44 refuted** (crash). An `Add` has stored a new agg but not observed yet; a `Capture` swaps the page, visits the agg, and calls a method of its nil distribution. -/
theorem C44_crash_refuted : ∃ s : WSys, WSys.Reach {} false (WSys.init [.add [97] ⟨0x4014000000000000#64, [1], 0⟩, .capture]) s ∧ ∃ i : Nat, s.th[i]? = some WrPc.panic := by
  have s0 : WSys.Reach {} false (WSys.init [.add [97] ⟨0x4014000000000000#64, [1], 0⟩, .capture]) _ := .refl
  have s1 := s0.step (.loadNil (i := 0) (now := 10) rfl (by decide +kernel) rfl)
  have s2 := s1.step (.cas (i := 0) rfl rfl)
  have s3 := s2.step (.miss (i := 0) rfl rfl rfl)
  have s4 := s3.step (.store (i := 0) rfl rfl rfl)
  have s5 := s4.step (.capLoad (i := 1) (now := 20) rfl rfl)
  have s6 := s5.step (.capCas (i := 1) rfl rfl)
  have s7 := s6.step (.begin (i := 1) rfl rfl)
  have s8 := s7.step (.visit (i := 1) (k := [97]) (a := 0) rfl rfl (List.Mem.head _) List.not_mem_nil)
  have s9 := s8.step (.copy (i := 1) rfl rfl rfl)
  have s10 := s9.step (.crash (i := 1) rfl rfl rfl)
  exact ⟨_, s10, 1, rfl⟩

end Rothko
