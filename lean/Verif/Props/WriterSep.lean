import Verif.Props.WriterConc
import Verif.Lemmas.QueueRun
/-!
# C44 when adds do not overlap captures

Adds may overlap each other, captures and iterations may overlap each other.
-/
namespace Rothko

/-- The call is an `Add` past its first load. -/
def WrPc.adding : WrPc → Bool
  | .add1 _ _ _ => true
  | .add2 _ _ _ => true
  | .add3 _ _ _ => true
  | .add4 _ _ => true
  | .add5 _ _ _ => true
  | _ => false

/-- The call is a `Capture` or `Iterate` past its first load. -/
def WrPc.reading : WrPc → Bool
  | .cap1 _ _ => true
  | .range0 _ _ _ => true
  | .range _ _ _ _ _ => true
  | .fin1 _ _ _ _ _ _ _ => true
  | .fin2 _ _ _ _ _ _ _ _ => true
  | _ => false

/-- No `Add` overlaps a `Capture` or `Iterate`. -/
def WSys.Separate (s : WSys) : Prop := ∀ pc ∈ s.th, ∀ pc' ∈ s.th, pc.adding = true → pc'.reading = true → False

/-- Runs in which no `Add` overlaps a `Capture` or `Iterate`. -/
inductive WSys.SepReach (d : DistParams) (s₀ : WSys) : WSys → Prop
  | refl : SepReach d s₀ s₀
  | step {s t : WSys} : SepReach d s₀ s → WSys.Step d false s t → t.Separate → SepReach d s₀ t

/-- The page an add will use. -/
def WrPc.addPage : WrPc → Option Nat
  | .add2 _ _ p => some p
  | .add3 _ _ p => some p
  | _ => none

/-- The agg an add will use. -/
def WrPc.addAgg : WrPc → Option Nat
  | .add4 _ a => some a
  | .add5 _ a _ => some a
  | _ => none

/-- The call has the observation. -/
def WrPc.Holds (s : WSys) (k : Bytes) (o : Obs) : WrPc → Prop
  | .add0 k' o' => k' = k ∧ o' = o
  | .add1 k' o' _ => k' = k ∧ o' = o
  | .add2 k' o' _ => k' = k ∧ o' = o
  | .add3 k' o' _ => k' = k ∧ o' = o
  | .add4 o' a => o' = o ∧ ∃ (p : Nat) (pg : CPage), s.pages[p]? = some pg ∧ (k, a) ∈ pg.m
  | _ => False

/-- `must` has all keys of the page. -/
def WrPc.MustOk (s : WSys) : WrPc → Prop
  | .range true p _ must _ => ∀ (pg : CPage), s.pages[p]? = some pg → ∀ e ∈ pg.m, e.1 ∈ must
  | .fin1 true p _ must _ _ _ => ∀ (pg : CPage), s.pages[p]? = some pg → ∀ e ∈ pg.m, e.1 ∈ must
  | .fin2 true p _ must _ _ _ _ => ∀ (pg : CPage), s.pages[p]? = some pg → ∀ e ∈ pg.m, e.1 ∈ must
  | _ => True

structure WSep (calls : List WCall) (s : WSys) : Prop where
  page1 : ∀ (i : Nat) (pc : WrPc) (p : Nat), s.th[i]? = some pc → pc.addPage = some p → s.page = some p
  agg1 : ∀ (i : Nat) (pc : WrPc) (a : Nat), s.th[i]? = some pc → pc.addAgg = some a → ∃ (p : Nat) (pg : CPage) (k : Bytes), s.page = some p ∧ s.pages[p]? = some pg ∧ (k, a) ∈ pg.m
  unlocked : ∀ ag ∈ s.aggs, ag.locked = false
  init : ∀ (a : Nat) (ag : Agg), s.aggs[a]? = some ag → ag.dist = none → ∃ (i : Nat) (o : Obs), s.th[i]? = some (.add4 o a)
  noPanic : ∀ i : Nat, s.th[i]? ≠ some .panic
  obs2dist : ∀ (i : Nat) (o : Obs) (a : Nat) (m : ObsMid) (ag : Agg), s.th[i]? = some (.add5 o a m) → s.aggs[a]? = some ag → ag.dist ≠ none
  keysNd : ∀ (p : Nat) (pg : CPage), s.pages[p]? = some pg → (pg.m.map (·.1)).Nodup
  kept : ∀ (i : Nat) (k : Bytes) (o : Obs), calls[i]? = some (.add k o) → fFinite o.val = true →
    (∃ pc, s.th[i]? = some pc ∧ pc.Holds s k o) ∨ ∃ (p : Nat) (pg : CPage) (a : Nat) (ag : Agg), s.pages[p]? = some pg ∧ (k, a) ∈ pg.m ∧ s.aggs[a]? = some ag ∧ o ∈ ag.dist.getD []
  frozen : ∀ (p : Nat) (pg : CPage) (k : Bytes) (a : Nat) (ag : Agg), s.page ≠ some p → s.pages[p]? = some pg → (k, a) ∈ pg.m → s.aggs[a]? = some ag →
    (∃ r ∈ s.out, r.cap = true ∧ r.page = p ∧ r.metric = k ∧ r.vals = ag.dist.getD []) ∨ ∃ (i : Nat) (pc : WrPc) (ks : List Bytes), s.th[i]? = some pc ∧ pc.own = some (p, ks) ∧ k ∉ ks
  must : ∀ (i : Nat) (pc : WrPc), s.th[i]? = some pc → pc.MustOk s

theorem WSep.loc {calls : List WCall} {s : WSys} (h : WSep calls s) {i : Nat} {pc pc' : WrPc} (h1 : s.th[i]? = some pc) (hp : ∀ p, pc'.addPage = some p → s.page = some p)
    (ha : ∀ a, pc'.addAgg = some a → ∃ (p : Nat) (pg : CPage) (k : Bytes), s.page = some p ∧ s.pages[p]? = some pg ∧ (k, a) ∈ pg.m) (hn : ∀ o a, pc ≠ .add4 o a) (h5 : ∀ o a m, pc' ≠ .add5 o a m) (hpanic : pc' ≠ .panic)
    (hk : ∀ k o, fFinite o.val = true → pc.Holds s k o → pc'.Holds s k o)
    (ho : pc'.own = pc.own ∨ ∀ (p : Nat) (ks : List Bytes), pc.own = some (p, ks) → ∀ (pg : CPage), s.pages[p]? = some pg → ∀ e ∈ pg.m, e.1 ∈ ks) (hm : pc'.MustOk s) :
    WSep calls { s with th := s.th.set i pc' } := by
  have hlt := (List.getElem?_eq_some_iff.mp h1).1
  refine ⟨?_, ?_, h.unlocked, ?_, ?_, ?_, h.keysNd, ?_, ?_, ?_⟩
  · intro j q p hj hq
    rcases getElem?_set_cases h1 hj with ⟨_, rfl⟩ | ⟨_, hj⟩
    · exact hp p hq
    · exact h.page1 j q p hj hq
  · intro j q a hj hq
    rcases getElem?_set_cases h1 hj with ⟨_, rfl⟩ | ⟨_, hj⟩
    · exact ha a hq
    · exact h.agg1 j q a hj hq
  · intro a ag hag hd
    obtain ⟨j, o, hj⟩ := h.init a ag hag hd
    refine ⟨j, o, ?_⟩
    have hij : i ≠ j := by rintro rfl; rw [h1] at hj; cases hj; exact hn _ _ rfl
    dsimp only; rw [List.getElem?_set_ne hij]; exact hj
  · intro j hj
    rcases getElem?_set_cases h1 hj with ⟨_, e⟩ | ⟨_, hj⟩
    · exact hpanic e.symm
    · exact h.noPanic j hj
  · intro j o a m ag hj hag
    rcases getElem?_set_cases h1 hj with ⟨_, e⟩ | ⟨_, hj⟩
    · exact absurd e.symm (h5 o a m)
    · exact h.obs2dist j o a m ag hj hag
  · intro j k o hc hf
    rcases h.kept j k o hc hf with ⟨q, hj, hq⟩ | hr
    · by_cases hij : i = j
      · subst hij
        rw [h1] at hj; cases hj
        exact Or.inl ⟨pc', by dsimp only; rw [List.getElem?_set_self hlt], by
          have := hk k o hf hq
          cases pc' <;> exact this⟩
      · exact Or.inl ⟨q, by dsimp only; rw [List.getElem?_set_ne hij]; exact hj, by cases q <;> exact hq⟩
    · exact Or.inr hr
  · intro p pg k a ag hcur hpg hka hag
    rcases h.frozen p pg k a ag hcur hpg hka hag with hr | ⟨j, q, ks, hj, hq, hks⟩
    · exact Or.inl hr
    · by_cases hij : i = j
      · subst hij
        rw [h1] at hj; cases hj
        rcases ho with ho | ho
        · exact Or.inr ⟨i, pc', ks, by dsimp only; rw [List.getElem?_set_self hlt], ho.trans hq, hks⟩
        · exact absurd (ho p ks hq pg hpg (k, a) hka) hks
      · exact Or.inr ⟨j, q, ks, by dsimp only; rw [List.getElem?_set_ne hij]; exact hj, hq, hks⟩
  · intro j q hj
    rcases getElem?_set_cases h1 hj with ⟨_, rfl⟩ | ⟨_, hj⟩
    · cases q <;> exact hm
    · have := h.must j q hj
      cases q <;> exact this

theorem CPage.load_some {pg : CPage} {k : Bytes} {a : Nat} (h : pg.load k = some a) : (k, a) ∈ pg.m := by
  unfold CPage.load at h
  cases hf : pg.m.find? (fun e => e.1 == k) with
  | none => rw [hf] at h; cases h
  | some e =>
    rw [hf] at h; cases h
    have h1 := List.mem_of_find?_eq_some hf
    have h2 := List.find?_some hf
    simp only [beq_iff_eq] at h2
    rw [← h2]; exact h1

theorem CPage.load_none {pg : CPage} {k : Bytes} (h : pg.load k = none) : k ∉ pg.m.map (·.1) := by
  unfold CPage.load at h
  rw [Option.map_eq_none_iff, List.find?_eq_none] at h
  intro hm
  obtain ⟨e, he, h1⟩ := List.mem_map.mp hm
  exact h e he (by simp [h1])

theorem WSep.newPage {calls : List WCall} {s : WSys} (hh : WHeap s) (h : WSep calls s) {i : Nat} {pc pc' : WrPc} (now : Int64) (h1 : s.th[i]? = some pc)
    (hnoadd : ∀ (j : Nat) (q : WrPc), j ≠ i → s.th[j]? = some q → q.addPage = none ∧ q.addAgg = none) (hown : pc.own = none)
    (hcase : (s.page = none ∧ ∃ k o, pc = .add1 k o now ∧ pc' = .add2 k o s.pages.length) ∨ ∃ p, s.page = some p ∧ pc = .cap1 p now ∧ pc' = .range0 true p now) :
    WSep calls { s with page := some s.pages.length, pages := s.pages ++ [{ now := now }], th := s.th.set i pc' } := by
  have hlt := (List.getElem?_eq_some_iff.mp h1).1
  have key : ∀ (p : Nat) (pg : CPage), (s.pages ++ [({ now := now } : CPage)])[p]? = some pg → (s.pages[p]? = some pg ∧ p < s.pages.length) ∨ (pg.m = [] ∧ p = s.pages.length) := by
    intro p pg hp
    have hp' := (List.getElem?_eq_some_iff.mp hp).1
    simp at hp'
    by_cases hlt : p < s.pages.length
    · rw [List.getElem?_append_left hlt] at hp; exact Or.inl ⟨hp, hlt⟩
    · have : p = s.pages.length := by omega
      subst this
      rw [List.getElem?_concat_length] at hp
      cases hp; exact Or.inr ⟨rfl, rfl⟩
  have keep : ∀ (p : Nat) (pg : CPage), s.pages[p]? = some pg → (s.pages ++ [({ now := now } : CPage)])[p]? = some pg := by
    intro p pg hp; rw [List.getElem?_append_left (List.getElem?_eq_some_iff.mp hp).1]; exact hp
  have hadd4 : ∀ o a, pc ≠ .add4 o a := by
    intro o a e
    rcases hcase with ⟨_, k, o', rfl, _⟩ | ⟨p, _, rfl, _⟩ <;> cases e
  refine ⟨?_, ?_, h.unlocked, ?_, ?_, ?_, ?_, ?_, ?_, ?_⟩
  · intro j q p hj hq
    rcases getElem?_set_cases h1 hj with ⟨_, rfl⟩ | ⟨hne, hj⟩
    · rcases hcase with ⟨_, k, o, _, rfl⟩ | ⟨p', _, _, rfl⟩
      · cases hq; rfl
      · cases hq
    · rw [(hnoadd j q hne hj).1] at hq; cases hq
  · intro j q a hj hq
    rcases getElem?_set_cases h1 hj with ⟨_, rfl⟩ | ⟨hne, hj⟩
    · rcases hcase with ⟨_, k, o, _, rfl⟩ | ⟨p', _, _, rfl⟩ <;> cases hq
    · rw [(hnoadd j q hne hj).2] at hq; cases hq
  · intro a ag hag hd
    obtain ⟨j, o, hj⟩ := h.init a ag hag hd
    have hij : j ≠ i := by rintro rfl; rw [h1] at hj; cases hj; exact hadd4 _ _ rfl
    have := (hnoadd j _ hij hj).2
    cases this
  · intro j hj
    rcases getElem?_set_cases h1 hj with ⟨_, e⟩ | ⟨_, hj⟩
    · rcases hcase with ⟨_, k, o, _, rfl⟩ | ⟨p', _, _, rfl⟩ <;> cases e
    · exact h.noPanic j hj
  · intro j o a m ag hj hag
    rcases getElem?_set_cases h1 hj with ⟨_, e⟩ | ⟨_, hj⟩
    · rcases hcase with ⟨_, k, o, _, rfl⟩ | ⟨p', _, _, rfl⟩ <;> cases e
    · exact h.obs2dist j o a m ag hj hag
  · intro p pg hp
    rcases key p pg hp with ⟨hp, _⟩ | ⟨hp, _⟩
    · exact h.keysNd p pg hp
    · rw [hp]; simp
  · intro j k o hc hf
    rcases h.kept j k o hc hf with ⟨q, hj, hq⟩ | ⟨p, pg, a, ag, g1, g2, g3, g4⟩
    · by_cases hij : i = j
      · subst hij
        rw [h1] at hj; cases hj
        refine Or.inl ⟨pc', by dsimp only; rw [List.getElem?_set_self hlt], ?_⟩
        rcases hcase with ⟨_, k', o', rfl, rfl⟩ | ⟨p', _, rfl, rfl⟩
        · exact hq
        · exact hq.elim
      · refine Or.inl ⟨q, by dsimp only; rw [List.getElem?_set_ne hij]; exact hj, ?_⟩
        cases q with
        | add4 o' a =>
          obtain ⟨e, p, pg, g1, g2⟩ := hq
          exact ⟨e, p, pg, keep p pg g1, g2⟩
        | _ => exact hq
    · exact Or.inr ⟨p, pg, a, ag, keep p pg g1, g2, g3, g4⟩
  · intro p pg k a ag hcur hpg hka hag
    rcases key p pg hpg with ⟨hp, hplt⟩ | ⟨hp, _⟩
    · by_cases hold : s.page = some p
      · rcases hcase with ⟨hn, _⟩ | ⟨p', hp', hpc, hpc'⟩
        · rw [hn] at hold; cases hold
        · rw [hp'] at hold; cases hold
          exact Or.inr ⟨i, pc', [], by dsimp only; rw [List.getElem?_set_self hlt], by rw [hpc']; rfl, by simp⟩
      · rcases h.frozen p pg k a ag hold hp hka hag with hr | ⟨j, q, ks, hj, hq, hks⟩
        · exact Or.inl hr
        · have hij : i ≠ j := by rintro rfl; rw [h1] at hj; cases hj; rw [hown] at hq; cases hq
          exact Or.inr ⟨j, q, ks, by dsimp only; rw [List.getElem?_set_ne hij]; exact hj, hq, hks⟩
    · rw [hp] at hka; cases hka
  · intro j q hj
    rcases getElem?_set_cases h1 hj with ⟨_, rfl⟩ | ⟨_, hj'⟩
    · rcases hcase with ⟨_, k, o, _, rfl⟩ | ⟨p', _, _, rfl⟩ <;> trivial
    · have hm := h.must j q hj'
      have aux : ∀ (p : Nat) (must : List Bytes), (∀ (pg : CPage), s.pages[p]? = some pg → ∀ e ∈ pg.m, e.1 ∈ must) →
          ∀ (pg : CPage), (s.pages ++ [({ now := now } : CPage)])[p]? = some pg → ∀ e ∈ pg.m, e.1 ∈ must := by
        intro p must hmust pg hp e he
        rcases key p pg hp with ⟨hp, _⟩ | ⟨hp, _⟩
        · exact hmust pg hp e he
        · rw [hp] at he; cases he
      cases q with
      | range cap p now' must seen => cases cap with
        | true => exact aux p must hm
        | false => trivial
      | fin1 cap p now' must seen k a => cases cap with
        | true => exact aux p must hm
        | false => trivial
      | fin2 cap p now' must seen k a r => cases cap with
        | true => exact aux p must hm
        | false => trivial
      | _ => trivial

theorem WSep.store {calls : List WCall} {s : WSys} (hh : WHeap s) (hw : WOwn s) (h : WSep calls s) {i : Nat} {k : Bytes} {o : Obs} {p : Nat} {pg : CPage}
    (h1 : s.th[i]? = some (.add3 k o p)) (h2 : s.pages[p]? = some pg) (h3 : pg.load k = none) :
    WSep calls { s with aggs := s.aggs ++ [newAgg pg.now], pages := s.pages.set p { pg with m := pg.m ++ [(k, s.aggs.length)] }, th := s.th.set i (.add4 o s.aggs.length) } := by
  have hlt := (List.getElem?_eq_some_iff.mp h1).1
  have hplt := (List.getElem?_eq_some_iff.mp h2).1
  have hcur : s.page = some p := h.page1 i _ p h1 rfl
  have keep : ∀ (q : Nat) (qg : CPage), s.pages[q]? = some qg → ∃ qg', (s.pages.set p { pg with m := pg.m ++ [(k, s.aggs.length)] })[q]? = some qg' ∧ ∀ e ∈ qg.m, e ∈ qg'.m := by
    intro q qg hq
    by_cases hpq : p = q
    · subst hpq
      rw [h2] at hq; cases hq
      exact ⟨{ pg with m := pg.m ++ [(k, s.aggs.length)] }, List.getElem?_set_self hplt, fun e he => List.mem_append_left _ he⟩
    · exact ⟨qg, by rw [List.getElem?_set_ne hpq]; exact hq, fun e he => he⟩
  have same : ∀ (q : Nat) (qg : CPage), q ≠ p → (s.pages.set p { pg with m := pg.m ++ [(k, s.aggs.length)] })[q]? = some qg → s.pages[q]? = some qg := by
    intro q qg hne hq; rwa [List.getElem?_set_ne (fun e => hne e.symm)] at hq
  have akeep : ∀ (a : Nat) (ag : Agg), s.aggs[a]? = some ag → (s.aggs ++ [newAgg pg.now])[a]? = some ag := by
    intro a ag ha; rw [List.getElem?_append_left (List.getElem?_eq_some_iff.mp ha).1]; exact ha
  refine ⟨?_, ?_, ?_, ?_, ?_, ?_, ?_, ?_, ?_, ?_⟩
  · intro j q p' hj hq
    rcases getElem?_set_cases h1 hj with ⟨_, rfl⟩ | ⟨_, hj⟩
    · cases hq
    · exact h.page1 j q p' hj hq
  · intro j q a hj hq
    rcases getElem?_set_cases h1 hj with ⟨_, rfl⟩ | ⟨_, hj⟩
    · cases hq
      exact ⟨p, _, k, hcur, List.getElem?_set_self hplt, by simp⟩
    · obtain ⟨p', pg', k', g1, g2, g3⟩ := h.agg1 j q a hj hq
      obtain ⟨pg'', g4, g5⟩ := keep p' pg' g2
      exact ⟨p', pg'', k', g1, g4, g5 _ g3⟩
  · intro ag ha
    rcases List.mem_append.mp ha with ha | ha
    · exact h.unlocked ag ha
    · simp at ha; subst ha; rfl
  · intro a ag hag hd
    by_cases hal : a < s.aggs.length
    · rw [List.getElem?_append_left hal] at hag
      obtain ⟨j, o', hj⟩ := h.init a ag hag hd
      have hij : i ≠ j := by rintro rfl; rw [h1] at hj; cases hj
      exact ⟨j, o', by dsimp only; rw [List.getElem?_set_ne hij]; exact hj⟩
    · have hal' := (List.getElem?_eq_some_iff.mp hag).1
      simp at hal'
      have : a = s.aggs.length := by omega
      subst this
      exact ⟨i, o, by dsimp only; rw [List.getElem?_set_self hlt]⟩
  · intro j hj
    rcases getElem?_set_cases h1 hj with ⟨_, e⟩ | ⟨_, hj⟩
    · cases e
    · exact h.noPanic j hj
  · intro j o' a m ag hj hag
    rcases getElem?_set_cases h1 hj with ⟨_, e⟩ | ⟨_, hj⟩
    · cases e
    · obtain ⟨p', pg', k', g1, g2, g3⟩ := h.agg1 j _ a hj rfl
      have hal := hh.valid p' pg' k' a g2 g3
      dsimp only at hag; rw [List.getElem?_append_left hal] at hag
      exact h.obs2dist j o' a m ag hj hag
  · intro q qg hq
    by_cases hpq : q = p
    · subst hpq
      rw [List.getElem?_set_self hplt] at hq
      cases hq
      dsimp only
      rw [List.map_append]
      refine List.nodup_append.mpr ⟨h.keysNd q pg h2, by simp, ?_⟩
      intro x hx y hy hxy
      simp at hy; subst hy; subst hxy
      exact CPage.load_none h3 hx
    · exact h.keysNd q qg (same q qg hpq hq)
  · intro j k' o' hc hf
    rcases h.kept j k' o' hc hf with ⟨q, hj, hq⟩ | ⟨p', pg', a, ag, g1, g2, g3, g4⟩
    · by_cases hij : i = j
      · subst hij
        rw [h1] at hj; cases hj
        obtain ⟨rfl, rfl⟩ := hq
        exact Or.inl ⟨.add4 o s.aggs.length, by dsimp only; rw [List.getElem?_set_self hlt], rfl, p, _, List.getElem?_set_self hplt, by simp⟩
      · refine Or.inl ⟨q, by dsimp only; rw [List.getElem?_set_ne hij]; exact hj, ?_⟩
        cases q with
        | add4 o'' a =>
          obtain ⟨e, p', pg', g1, g2⟩ := hq
          obtain ⟨pg'', g3, g4⟩ := keep p' pg' g1
          exact ⟨e, p', pg'', g3, g4 _ g2⟩
        | _ => exact hq
    · obtain ⟨pg'', g5, g6⟩ := keep p' pg' g1
      exact Or.inr ⟨p', pg'', a, ag, g5, g6 _ g2, akeep a ag g3, g4⟩
  · intro q qg k' a ag hq hqg hka hag
    have hne : q ≠ p := by rintro rfl; exact hq hcur
    have hqg' := same q qg hne hqg
    have hval := hh.valid q qg k' a hqg' hka
    have hag' : s.aggs[a]? = some ag := by
      dsimp only at hag; rwa [List.getElem?_append_left hval] at hag
    rcases h.frozen q qg k' a ag hq hqg' hka hag' with hr | ⟨j, x, ks, hj, hx, hks⟩
    · exact Or.inl hr
    · have hij : i ≠ j := by rintro rfl; rw [h1] at hj; cases hj; cases hx
      exact Or.inr ⟨j, x, ks, by dsimp only; rw [List.getElem?_set_ne hij]; exact hj, hx, hks⟩
  · intro j q hj
    rcases getElem?_set_cases h1 hj with ⟨_, rfl⟩ | ⟨_, hj'⟩
    · trivial
    · have hm := h.must j q hj'
      have aux : ∀ (p' : Nat) (must ks : List Bytes), q.own = some (p', ks) → (∀ (pg : CPage), s.pages[p']? = some pg → ∀ e ∈ pg.m, e.1 ∈ must) →
          ∀ (pg' : CPage), (s.pages.set p { pg with m := pg.m ++ [(k, s.aggs.length)] })[p']? = some pg' → ∀ e ∈ pg'.m, e.1 ∈ must := by
        intro p' must ks ho hmust pg' hp' e he
        have hne : p' ≠ p := by
          rintro rfl; exact (hw.own j q p' ks hj' ho).1 hcur
        exact hmust pg' (same p' pg' hne hp') e he
      cases q with
      | range cap p' now' must seen => cases cap with
        | true => exact aux p' must seen rfl hm
        | false => trivial
      | fin1 cap p' now' must seen k' a => cases cap with
        | true => exact aux p' must seen.tail rfl hm
        | false => trivial
      | fin2 cap p' now' must seen k' a r => cases cap with
        | true => exact aux p' must seen.tail rfl hm
        | false => trivial
      | _ => trivial

/-- Steps of `Observe`. -/
theorem WSep.observe {calls : List WCall} {s : WSys} (hh : WHeap s) (h : WSep calls s) {i : Nat} {pc pc' : WrPc} {a : Nat} {ag ag' : Agg} {x : List Obs} (h1 : s.th[i]? = some pc) (h2 : s.aggs[a]? = some ag)
    (hl : ag'.locked = false) (hsome : ag'.dist ≠ none) (hd : ag'.dist.getD [] = ag.dist.getD [] ++ x) (hagg : pc.addAgg = some a) (hagg' : pc'.addAgg = none ∨ pc'.addAgg = some a) (hpg' : pc'.addPage = none)
    (hown : pc.own = none) (hpanic : pc' ≠ .panic) (h4' : ∀ o a, pc' ≠ .add4 o a) (hmust : ∀ t, pc'.MustOk t) (hold : ∀ k o, pc.Holds s k o → o ∈ x) :
    WSep calls { s with aggs := s.aggs.set a ag', th := s.th.set i pc' } := by
  have hlt := (List.getElem?_eq_some_iff.mp h1).1
  have halt := (List.getElem?_eq_some_iff.mp h2).1
  obtain ⟨cp, cpg, ck, c1, c2, c3⟩ := h.agg1 i pc a h1 hagg
  have akeep : ∀ (b : Nat) (bg : Agg), s.aggs[b]? = some bg → ∃ bg', (s.aggs.set a ag')[b]? = some bg' ∧ ∀ o ∈ bg.dist.getD [], o ∈ bg'.dist.getD [] := by
    intro b bg hb
    by_cases hab : a = b
    · subst hab
      rw [h2] at hb; cases hb
      exact ⟨ag', List.getElem?_set_self halt, fun o ho => by rw [hd]; simp [ho]⟩
    · exact ⟨bg, by rw [List.getElem?_set_ne hab]; exact hb, fun o ho => ho⟩
  refine ⟨?_, ?_, ?_, ?_, ?_, ?_, h.keysNd, ?_, ?_, ?_⟩
  · intro j q p hj hq
    rcases getElem?_set_cases h1 hj with ⟨_, rfl⟩ | ⟨_, hj⟩
    · rw [hpg'] at hq; cases hq
    · exact h.page1 j q p hj hq
  · intro j q b hj hq
    rcases getElem?_set_cases h1 hj with ⟨_, rfl⟩ | ⟨_, hj⟩
    · rcases hagg' with e | e
      · rw [e] at hq; cases hq
      · rw [e] at hq; cases hq; exact ⟨cp, cpg, ck, c1, c2, c3⟩
    · exact h.agg1 j q b hj hq
  · intro bg hb
    rcases List.mem_or_eq_of_mem_set hb with hb | rfl
    · exact h.unlocked bg hb
    · exact hl
  · intro b bg hb hn
    by_cases hab : a = b
    · subst hab
      dsimp only at hb; rw [List.getElem?_set_self halt] at hb
      cases hb; exact absurd hn hsome
    · dsimp only at hb; rw [List.getElem?_set_ne hab] at hb
      obtain ⟨j, o, hj⟩ := h.init b bg hb hn
      have hij : i ≠ j := by
        rintro rfl; rw [h1] at hj; cases hj; cases hagg; exact hab rfl
      exact ⟨j, o, by dsimp only; rw [List.getElem?_set_ne hij]; exact hj⟩
  · intro j hj
    rcases getElem?_set_cases h1 hj with ⟨_, e⟩ | ⟨_, hj⟩
    · exact hpanic e.symm
    · exact h.noPanic j hj
  · intro j o b m bg hj hb
    by_cases hab : a = b
    · subst hab
      dsimp only at hb; rw [List.getElem?_set_self halt] at hb
      cases hb; exact hsome
    · dsimp only at hb; rw [List.getElem?_set_ne hab] at hb
      rcases getElem?_set_cases h1 hj with ⟨_, e⟩ | ⟨_, hj⟩
      · rcases hagg' with e' | e'
        · rw [← e] at e'; cases e'
        · rw [← e] at e'; cases e'; exact absurd rfl hab
      · exact h.obs2dist j o b m bg hj hb
  · intro j k o hc hf
    rcases h.kept j k o hc hf with ⟨q, hj, hq⟩ | ⟨p, pg, b, bg, g1, g2, g3, g4⟩
    · by_cases hij : i = j
      · subst hij
        rw [h1] at hj; cases hj
        have hx := hold k o hq
        cases pc with
        | add4 o' a' =>
          cases hagg
          obtain ⟨_, p, pg, g1, g2⟩ := hq
          exact Or.inr ⟨p, pg, a, ag', g1, g2, List.getElem?_set_self halt, by rw [hd]; simp [hx]⟩
        | add5 => exact hq.elim
        | _ => cases hagg
      · exact Or.inl ⟨q, by dsimp only; rw [List.getElem?_set_ne hij]; exact hj, by cases q <;> exact hq⟩
    · obtain ⟨bg', g5, g6⟩ := akeep b bg g3
      exact Or.inr ⟨p, pg, b, bg', g1, g2, g5, g6 o g4⟩
  · intro p pg k b bg hcur hpg hkb hb
    have hab : a ≠ b := by
      rintro rfl
      have := (hh.inj cp p cpg pg ck k a c2 hpg c3 hkb).1
      subst this; exact hcur c1
    dsimp only at hb; rw [List.getElem?_set_ne hab] at hb
    rcases h.frozen p pg k b bg hcur hpg hkb hb with hr | ⟨j, q, ks, hj, hq, hks⟩
    · exact Or.inl hr
    · have hij : i ≠ j := by rintro rfl; rw [h1] at hj; cases hj; rw [hown] at hq; cases hq
      exact Or.inr ⟨j, q, ks, by dsimp only; rw [List.getElem?_set_ne hij]; exact hj, hq, hks⟩
  · intro j q hj
    rcases getElem?_set_cases h1 hj with ⟨_, rfl⟩ | ⟨_, hj'⟩
    · exact hmust _
    · have := h.must j q hj'
      cases q <;> exact this

theorem nodup_keys_fun {l : List (Bytes × Nat)} (h : (l.map (·.1)).Nodup) {k : Bytes} {a b : Nat} (ha : (k, a) ∈ l) (hb : (k, b) ∈ l) : a = b := by
  induction l with
  | nil => cases ha
  | cons e l ih =>
    rw [List.map_cons, List.nodup_cons] at h
    rcases List.mem_cons.mp ha with rfl | ha'
    · rcases List.mem_cons.mp hb with e | hb
      · cases e; rfl
      · exact absurd (List.mem_map.mpr ⟨_, hb, rfl⟩) h.1
    · rcases List.mem_cons.mp hb with rfl | hb
      · exact absurd (List.mem_map.mpr ⟨(k, a), ha', rfl⟩) h.1
      · exact ih h.2 ha' hb

theorem WSep.report {calls : List WCall} {s : WSys} (hh : WHeap s) (h : WSep calls s) {i : Nat} {cap : Bool} {p : Nat} {now : Int64} {must seen : List Bytes} {k : Bytes} {a : Nat} {r r' : DRec} {ag : Agg} {l : List Obs}
    (h1 : s.th[i]? = some (.fin2 cap p now must seen k a r)) (h2 : s.aggs[a]? = some ag) (h3 : ag.dist = some l) :
    WSep calls { s with out := s.out ++ [⟨cap, p, k, r', l⟩], th := s.th.set i (.range cap p now must seen) } := by
  have hlt := (List.getElem?_eq_some_iff.mp h1).1
  obtain ⟨⟨pg, f1, f2⟩, seen', f3, f4⟩ := hh.th i _ h1
  subst f3
  refine ⟨?_, ?_, h.unlocked, ?_, ?_, ?_, h.keysNd, ?_, ?_, ?_⟩
  · intro j q p' hj hq
    rcases getElem?_set_cases h1 hj with ⟨_, rfl⟩ | ⟨_, hj⟩
    · cases hq
    · exact h.page1 j q p' hj hq
  · intro j q b hj hq
    rcases getElem?_set_cases h1 hj with ⟨_, rfl⟩ | ⟨_, hj⟩
    · cases hq
    · exact h.agg1 j q b hj hq
  · intro b bg hb hn
    obtain ⟨j, o, hj⟩ := h.init b bg hb hn
    have hij : i ≠ j := by rintro rfl; rw [h1] at hj; cases hj
    exact ⟨j, o, by dsimp only; rw [List.getElem?_set_ne hij]; exact hj⟩
  · intro j hj
    rcases getElem?_set_cases h1 hj with ⟨_, e⟩ | ⟨_, hj⟩
    · cases e
    · exact h.noPanic j hj
  · intro j o b m bg hj hb
    rcases getElem?_set_cases h1 hj with ⟨_, e⟩ | ⟨_, hj⟩
    · cases e
    · exact h.obs2dist j o b m bg hj hb
  · intro j k' o hc hf
    rcases h.kept j k' o hc hf with ⟨q, hj, hq⟩ | hr
    · by_cases hij : i = j
      · subst hij
        rw [h1] at hj; cases hj
        exact hq.elim
      · exact Or.inl ⟨q, by dsimp only; rw [List.getElem?_set_ne hij]; exact hj, by cases q <;> exact hq⟩
    · exact Or.inr hr
  · intro p' pg' k' b bg hcur hpg hkb hb
    rcases h.frozen p' pg' k' b bg hcur hpg hkb hb with ⟨x, hx, hr⟩ | ⟨j, q, ks, hj, hq, hks⟩
    · exact Or.inl ⟨x, List.mem_append_left _ hx, hr⟩
    · by_cases hij : i = j
      · subst hij
        rw [h1] at hj; cases hj
        cases cap with
        | false => cases hq
        | true =>
          cases hq
          by_cases hkk : k' = k
          · subst hkk
            rw [f1] at hpg; cases hpg
            have : a = b := nodup_keys_fun (h.keysNd p pg f1) f2 hkb
            subst this
            rw [h2] at hb; cases hb
            exact Or.inl ⟨⟨true, p, k', r', l⟩, by simp, rfl, rfl, rfl, by rw [h3]; rfl⟩
          · refine Or.inr ⟨i, .range true p now must (k :: seen'), k :: seen', by dsimp only; rw [List.getElem?_set_self hlt], rfl, ?_⟩
            intro hmem
            rcases List.mem_cons.mp hmem with e | e
            · exact hkk e
            · exact hks e
      · exact Or.inr ⟨j, q, ks, by dsimp only; rw [List.getElem?_set_ne hij]; exact hj, hq, hks⟩
  · intro j q hj
    rcases getElem?_set_cases h1 hj with ⟨_, rfl⟩ | ⟨_, hj'⟩
    · have := h.must i _ h1
      cases cap <;> exact this
    · have := h.must j q hj'
      cases q <;> exact this


theorem WSep.step {d : DistParams} (hd : d.newOk = true) {calls : List WCall} {s t : WSys} (hh : WHeap s) (hw : WOwn s) (hsep : s.Separate) (h : WSep calls s) (st : WSys.Step d false s t) : WSep calls t := by
  have noAdd : ∀ {i : Nat} {pc : WrPc}, s.th[i]? = some pc → pc.reading = true → ∀ (j : Nat) (q : WrPc), s.th[j]? = some q → q.adding = false := by
    intro i pc hi hr j q hj
    cases hq : q.adding with
    | false => rfl
    | true => exact (hsep q (List.mem_of_getElem? hj) pc (List.mem_of_getElem? hi) hq hr).elim
  have idle : ∀ q : WrPc, q.adding = false → q.addPage = none ∧ q.addAgg = none := by
    intro q hq; cases q <;> first | exact ⟨rfl, rfl⟩ | cases hq
  have noPg : ∀ {P : Prop} {p : Nat}, (none : Option Nat) = some p → P := fun e => by cases e
  cases st with
  | skip h1 h2 =>
    exact h.loc h1 (fun _ e => noPg e) (fun _ e => noPg e) (by simp) (by simp) (by simp) (fun k o hf hq => by obtain ⟨_, rfl⟩ := hq; rw [h2] at hf; cases hf) (Or.inl rfl) trivial
  | load h1 h2 h3 =>
    exact h.loc h1 (fun _ e => by cases e; exact h3) (fun _ e => noPg e) (by simp) (by simp) (by simp) (fun k o hf hq => hq) (Or.inl rfl) trivial
  | loadNil h1 h2 h3 =>
    exact h.loc h1 (fun _ e => noPg e) (fun _ e => noPg e) (by simp) (by simp) (by simp) (fun k o hf hq => hq) (Or.inl rfl) trivial
  | @cas i k o now h1 h2 =>
    refine h.newPage hh now h1 (fun j q _ hj => ?_) rfl (Or.inl ⟨h2, k, o, rfl, rfl⟩)
    refine ⟨?_, ?_⟩
    · cases hq : q.addPage with
      | none => rfl
      | some p => have := h.page1 j q p hj hq; rw [h2] at this; cases this
    · cases hq : q.addAgg with
      | none => rfl
      | some a => obtain ⟨p, _, _, g, _⟩ := h.agg1 j q a hj hq; rw [h2] at g; cases g
  | casFail h1 h2 =>
    exact h.loc h1 (fun _ e => noPg e) (fun _ e => noPg e) (by simp) (by simp) (by simp) (fun k o hf hq => hq) (Or.inl rfl) trivial
  | @hit i k o p a pg h1 h2 h3 =>
    have hc := h.page1 i _ p h1 rfl
    have hm := CPage.load_some h3
    exact h.loc h1 (fun _ e => noPg e) (fun _ e => by cases e; exact ⟨p, pg, k, hc, h2, hm⟩) (by simp) (by simp) (by simp) (fun k' o' hf hq => by obtain ⟨rfl, rfl⟩ := hq; exact ⟨rfl, p, pg, h2, hm⟩) (Or.inl rfl) trivial
  | @miss i k o p pg h1 h2 h3 =>
    have hc := h.page1 i _ p h1 rfl
    exact h.loc h1 (fun _ e => by cases e; exact hc) (fun _ e => noPg e) (by simp) (by simp) (by simp) (fun k' o' hf hq => hq) (Or.inl rfl) trivial
  | @hit2 i k o p a pg h1 h2 h3 =>
    have hc := h.page1 i _ p h1 rfl
    have hm := CPage.load_some h3
    exact h.loc h1 (fun _ e => noPg e) (fun _ e => by cases e; exact ⟨p, pg, k, hc, h2, hm⟩) (by simp) (by simp) (by simp) (fun k' o' hf hq => by obtain ⟨rfl, rfl⟩ := hq; exact ⟨rfl, p, pg, h2, hm⟩) (Or.inl rfl) trivial
  | store h1 h2 h3 => exact h.store hh hw h1 h2 h3
  | @obs1 i o a ag ag' m h1 h2 h3 h4 =>
    obtain ⟨e1, e2, e3, e4⟩ := observe1_dist h4
    refine h.observe hh (x := [o]) h1 h2 (by rw [e2]; exact h3) (by rw [e1]; simp) (by rw [e1]; rfl) rfl ?_ ?_ rfl ?_ ?_ ?_ ?_
    · split
      · exact Or.inr rfl
      · exact Or.inl rfl
    · split <;> rfl
    · split <;> simp
    · intro o a; split <;> simp
    · intro t; split <;> trivial
    · intro k o' hq; obtain ⟨rfl, _⟩ := hq; simp
  | @obsFail i o a ag ag' h1 h2 h3 h4 =>
    obtain ⟨a', m, h5⟩ := observe1_ok hd ag o
    rw [h5] at h4; cases h4
  | @obs2 i o a m ag h1 h2 h3 =>
    obtain ⟨e1, e2, e3, _⟩ := observe2_same ag o m
    refine h.observe hh (x := []) h1 h2 (by rw [e2]; exact h3) ?_ (by rw [e1]; simp) rfl (Or.inl rfl) rfl rfl (by simp) (by simp) (fun _ => trivial) (fun k o hq => hq.elim)
    rw [e1]
    intro hn
    -- only a first observer is missing a distribution, and it is at `add4`
    exact h.obs2dist i o a m ag h1 h2 hn
  | capNil h1 h2 => exact h.loc h1 (fun _ e => noPg e) (fun _ e => noPg e) (by simp) (by simp) (by simp) (fun k o hf hq => hq.elim) (Or.inl rfl) trivial
  | capLoad h1 h2 => exact h.loc h1 (fun _ e => noPg e) (fun _ e => noPg e) (by simp) (by simp) (by simp) (fun k o hf hq => hq.elim) (Or.inl rfl) trivial
  | @capCas i p now h1 h2 => exact h.newPage hh now h1 (fun j q _ hj => idle q (noAdd h1 rfl j q hj)) rfl (Or.inr ⟨p, h2, rfl, rfl⟩)
  | capFail h1 h2 => exact h.loc h1 (fun _ e => noPg e) (fun _ e => noPg e) (by simp) (by simp) (by simp) (fun k o hf hq => hq.elim) (Or.inl rfl) trivial
  | itNil h1 h2 => exact h.loc h1 (fun _ e => noPg e) (fun _ e => noPg e) (by simp) (by simp) (by simp) (fun k o hf hq => hq.elim) (Or.inl rfl) trivial
  | itLoad h1 h2 => exact h.loc h1 (fun _ e => noPg e) (fun _ e => noPg e) (by simp) (by simp) (by simp) (fun k o hf hq => hq.elim) (Or.inl rfl) trivial
  | @begin i cap p now pg h1 h2 =>
    refine h.loc h1 (fun _ e => noPg e) (fun _ e => noPg e) (by simp) (by simp) (by simp) (fun k o hf hq => hq.elim) (Or.inl (by cases cap <;> rfl)) ?_
    cases cap with
    | false => trivial
    | true => intro pg' hp e he; rw [h2] at hp; cases hp; exact List.mem_map.mpr ⟨e, he, rfl⟩
  | @visit i cap p now must seen pg k a h1 h2 h3 h4 =>
    refine h.loc h1 (fun _ e => noPg e) (fun _ e => noPg e) (by simp) (by simp) (by simp) (fun k o hf hq => hq.elim) (Or.inl (by cases cap <;> rfl)) ?_
    have := h.must i _ h1
    cases cap <;> exact this
  | @finish i cap p now must seen h1 h2 =>
    refine h.loc h1 (fun _ e => noPg e) (fun _ e => noPg e) (by simp) (by simp) (by simp) (fun k o hf hq => hq.elim) (Or.inr ?_) trivial
    intro p' ks ho pg hp e he
    have := h.must i _ h1
    cases cap with
    | false => cases ho
    | true => cases ho; exact h2 _ (this pg hp e he)
  | @copy i cap p now must seen k a ag h1 h2 h3 =>
    refine h.loc h1 (fun _ e => noPg e) (fun _ e => noPg e) (by simp) (by simp) (by simp) (fun k o hf hq => hq.elim) (Or.inl (by cases cap <;> rfl)) ?_
    have := h.must i _ h1
    cases cap <;> exact this
  | @crash i cap p now must seen k a r ag h1 h2 h3 =>
    obtain ⟨j, o, hj⟩ := h.init a ag h2 h3
    have := noAdd h1 rfl j _ hj
    cases this
  | report h1 h2 h3 => exact h.report hh h1 h2 h3
  | reportStop hs => cases hs

theorem wsep_reach {d : DistParams} (hd : d.newOk = true) {calls : List WCall} (hn : (addTags calls).Nodup) {s : WSys} (h : WSys.SepReach d (WSys.init calls) s) :
    WSys.Reach d false (WSys.init calls) s ∧ s.Separate ∧ WSep calls s := by
  induction h with
  | refl =>
    have hpc : ∀ (i : Nat) (pc : WrPc), (WSys.init calls).th[i]? = some pc → ∃ c, calls[i]? = some c ∧ pc = c.pc := by
      intro i pc hi
      simp only [WSys.init, List.getElem?_map, Option.map_eq_some_iff] at hi
      obtain ⟨c, hc, rfl⟩ := hi
      exact ⟨c, hc, rfl⟩
    refine ⟨.refl, ?_, ?_⟩
    · intro pc hp pc' hp' ha
      obtain ⟨c, _, rfl⟩ := List.mem_map.mp hp
      cases c <;> cases ha
    · refine ⟨?_, ?_, by simp [WSys.init], by simp [WSys.init], ?_, by simp [WSys.init], by simp [WSys.init], ?_, by simp [WSys.init], ?_⟩
      · intro i pc p hi hq
        obtain ⟨c, _, rfl⟩ := hpc i pc hi; cases c <;> cases hq
      · intro i pc p hi hq
        obtain ⟨c, _, rfl⟩ := hpc i pc hi; cases c <;> cases hq
      · intro i hi
        obtain ⟨c, _, e⟩ := hpc i _ hi; cases c <;> cases e
      · intro i k o hc hf
        refine Or.inl ⟨.add0 k o, ?_, rfl, rfl⟩
        simp [WSys.init, hc, WCall.pc]
      · intro i pc hi
        obtain ⟨c, _, rfl⟩ := hpc i pc hi; cases c <;> trivial
  | step _ st hs ih =>
    obtain ⟨h1, h2, h3⟩ := ih
    have hw := wall_reach hn h1
    exact ⟨h1.step st, hs, h3.step hd hw.heap hw.own h2 st⟩

/-- **C44**, partial: if no `Add` overlaps a `Capture` or `Iterate` (adds may overlap adds, captures may overlap captures and iterations) and callbacks return true, then no call crashes, and once all calls have returned
every finite observation is in a record of its metric reported by a capture, or with the current page. With `C44_once`: exactly one of them. -/
theorem C44_exclusive_partial (d : DistParams) (hd : d.newOk = true) (calls : List WCall) (hn : (addTags calls).Nodup) (s : WSys) (h : WSys.SepReach d (WSys.init calls) s) :
    (∀ i : Nat, s.th[i]? ≠ some WrPc.panic) ∧
    ((∀ pc ∈ s.th, pc = WrPc.done) → ∀ (k : Bytes) (o : Obs), WCall.add k o ∈ calls → fFinite o.val = true →
      (∃ r ∈ s.out, r.cap = true ∧ r.metric = k ∧ o ∈ r.vals) ∨
      ∃ (p : Nat) (pg : CPage) (a : Nat) (ag : Agg), s.page = some p ∧ s.pages[p]? = some pg ∧ (k, a) ∈ pg.m ∧ s.aggs[a]? = some ag ∧ o ∈ ag.dist.getD []) := by
  obtain ⟨h1, h2, h3⟩ := wsep_reach hd hn h
  refine ⟨h3.noPanic, fun hdone k o hc hf => ?_⟩
  obtain ⟨i, hi, hi'⟩ := List.getElem_of_mem hc
  have hci : calls[i]? = some (.add k o) := by rw [List.getElem?_eq_getElem hi, hi']
  rcases h3.kept i k o hci hf with ⟨pc, g1, g2⟩ | ⟨p, pg, a, ag, g1, g2, g3, g4⟩
  · rw [hdone pc (List.mem_of_getElem? g1)] at g2
    exact g2.elim
  · by_cases hcur : s.page = some p
    · exact Or.inr ⟨p, pg, a, ag, hcur, g1, g2, g3, g4⟩
    · rcases h3.frozen p pg k a ag hcur g1 g2 g3 with ⟨r, r1, r2, r3, r4, r5⟩ | ⟨j, q, ks, q1, q2, _⟩
      · exact Or.inl ⟨r, r1, r2, r4, by rw [r5]; exact g4⟩
      · rw [hdone q (List.mem_of_getElem? q1)] at q2; cases q2

theorem separate_of {s : WSys} (h : (s.th.any WrPc.adding && s.th.any WrPc.reading) = false) : s.Separate := by
  intro pc hp pc' hp' ha hr
  have h1 : s.th.any WrPc.adding = true := List.any_eq_true.mpr ⟨pc, hp, ha⟩
  have h2 : s.th.any WrPc.reading = true := List.any_eq_true.mpr ⟨pc', hp', hr⟩
  rw [h1, h2] at h; cases h

/-- A run that meets the hypotheses of `C44_exclusive_partial`: an add, then a capture that reports it; all calls return. -/
theorem C44_exclusive_example : ∃ s : WSys, WSys.SepReach {} (WSys.init [.add [97] ⟨0x4014000000000000#64, [1], 0⟩, .capture]) s ∧ (∀ pc ∈ s.th, pc = WrPc.done) ∧ s.out.length = 1 := by
  have s0 : WSys.SepReach {} (WSys.init [.add [97] ⟨0x4014000000000000#64, [1], 0⟩, .capture]) _ := .refl
  have s1 := s0.step (.loadNil (i := 0) (now := 10) rfl (by decide +kernel) rfl) (separate_of rfl)
  have s2 := s1.step (.cas (i := 0) rfl rfl) (separate_of rfl)
  have s3 := s2.step (.miss (i := 0) rfl rfl rfl) (separate_of rfl)
  have s4 := s3.step (.store (i := 0) rfl rfl rfl) (separate_of rfl)
  have s5 := s4.step (.obs1 (i := 0) rfl rfl rfl rfl) (separate_of rfl)
  have s6 := s5.step (.obs2 (i := 0) (o := ⟨0x4014000000000000#64, [1], 0⟩) (a := 0) (m := ⟨0, 0, 0⟩) rfl rfl rfl) (separate_of rfl)
  have s7 := s6.step (.capLoad (i := 1) (now := 20) rfl rfl) (separate_of rfl)
  have s8 := s7.step (.capCas (i := 1) rfl rfl) (separate_of rfl)
  have s9 := s8.step (.begin (i := 1) rfl rfl) (separate_of rfl)
  have s10 := s9.step (.visit (i := 1) (k := [97]) (a := 0) rfl rfl (List.Mem.head _) List.not_mem_nil) (separate_of rfl)
  have s11 := s10.step (.copy (i := 1) rfl rfl rfl) (separate_of rfl)
  have s12 := s11.step (.report (i := 1) rfl rfl rfl) (separate_of rfl)
  have s13 := s12.step (.finish (i := 1) rfl (fun k hk => hk)) (separate_of rfl)
  refine ⟨_, s13, ?_, rfl⟩
  intro pc hpc
  cases hpc with
  | head => rfl
  | tail _ h => cases h with
    | head => rfl
    | tail _ h => cases h

end Rothko
