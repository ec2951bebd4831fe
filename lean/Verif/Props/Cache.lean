import Verif.Spec.Cache
import Verif.Props.Pcg
/-!
# C26: the handle cache
-/
namespace Rothko
variable {φ : Type} [Inhabited φ]

/-- Every token in `order` has its entry, which knows its place; nothing else has an entry. -/
structure HCache.Ok (c : HCache φ) : Prop where
  len : c.order.length ≤ c.cap
  small : c.cap < 2 ^ 63
  nodup : c.order.Nodup
  entry : ∀ t, t ∈ c.order → ∃ f i, c.handles t = some ⟨i, t, f⟩ ∧ c.order[i]? = some t
  only : ∀ t, t ∉ c.order → c.handles t = none
  fresh : ∀ t ∈ c.order, t ≤ c.tok

/-- The entries inside. -/
def HCache.inside (c : HCache φ) : List (Nat × φ) := c.order.map (fun t => (t, (c.get t).f))

omit [Inhabited φ] in
theorem HCache.Ok.mem {c : HCache φ} (h : c.Ok) {t : Nat} {e : CEntry φ} (he : c.handles t = some e) : t ∈ c.order ∧ e.tok = t ∧ c.order[e.loc]? = some t := by
  by_cases ht : t ∈ c.order
  · obtain ⟨f, i, h1, h2⟩ := h.entry t ht
    rw [h1] at he; cases he
    exact ⟨ht, rfl, h2⟩
  · rw [h.only t ht] at he; cases he

theorem HCache.new_ok (cap : Nat) (h : cap < 2 ^ 63) : (HCache.new φ cap).Ok :=
  ⟨by simp [HCache.new], h, by simp [HCache.new], by simp [HCache.new], by simp [HCache.new], by simp [HCache.new]⟩

theorem inside_perm {c c' : HCache φ} {o : List Nat} (hp : o.Perm c.order) (h : ∀ t ∈ o, (c'.handles t).map (·.f) = (c.handles t).map (·.f)) :
    (o.map (fun t => (t, (c'.get t).f))).Perm c.inside := by
  have : o.map (fun t => (t, (c'.get t).f)) = o.map (fun t => (t, (c.get t).f)) := by
    apply List.map_congr_left
    intro t ht
    have := h t ht
    simp only [HCache.get]
    cases h1 : c.handles t <;> cases h2 : c'.handles t <;> simp_all
  rw [this]
  exact hp.map _

omit [Inhabited φ] in
theorem nodup_idx {l : List Nat} (h : l.Nodup) {i j t : Nat} (hi : l[i]? = some t) (hj : l[j]? = some t) : i = j := by
  obtain ⟨h1, h1'⟩ := List.getElem?_eq_some_iff.mp hi
  obtain ⟨h2, h2'⟩ := List.getElem?_eq_some_iff.mp hj
  exact (List.Nodup.getElem_inj_iff h).mp (h1'.trans h2'.symm)

omit [Inhabited φ] in
theorem set_perm {l : List Nat} {i t : Nat} (u : Nat) (h : l[i]? = some t) : (t :: l.set i u).Perm (u :: l) := by
  obtain ⟨hi, ht⟩ := List.getElem?_eq_some_iff.mp h
  have h1 : l = l.take i ++ t :: l.drop (i + 1) := by
    rw [← ht]; simp
  have h2 : l.set i u = l.take i ++ u :: l.drop (i + 1) := by rw [List.set_eq_take_append_cons_drop, if_pos hi]
  rw [h2]
  conv => rhs; rw [h1]
  refine (List.Perm.cons t List.perm_middle).trans ?_
  exact (List.Perm.swap u t _).trans (List.Perm.cons u List.perm_middle.symm)

/-- One `Put`. -/
theorem HCache.Ok.put {c : HCache φ} (h : c.Ok) (f : φ) : ∃ ev c', c.put f = some ((c.tok + 1, ev), c') ∧ c'.Ok ∧ c'.tok = c.tok + 1 ∧ c'.cap = c.cap ∧
    ((ev = none ∧ c.order.length < c.cap ∧ c'.inside.Perm ((c.tok + 1, f) :: c.inside)) ∨
     (∃ t g, ev = some g ∧ c.order.length = c.cap ∧ ((t, g) :: c'.inside).Perm ((c.tok + 1, f) :: c.inside))) := by
  have hlen := h.len
  have hnew : c.tok + 1 ∉ c.order := fun hm => by have := h.fresh _ hm; omega
  unfold HCache.put
  simp only
  by_cases hl : c.order.length < c.cap
  · rw [if_pos hl]
    refine ⟨_, _, rfl, ?_, rfl, rfl, Or.inl ⟨rfl, hl, ?_⟩⟩
    · refine ⟨?_, h.small, ?_, ?_, ?_, ?_⟩
      · simp [HCache.setHandle]; omega
      · simp only [HCache.setHandle]
        rw [List.nodup_append]
        refine ⟨h.nodup, by simp, ?_⟩
        intro a ha b hb
        rw [List.mem_singleton.mp hb]
        rintro rfl; exact hnew ha
      · intro t ht
        simp only [HCache.setHandle, List.mem_append, List.mem_singleton] at ht ⊢
        by_cases he : t = c.tok + 1
        · subst he
          exact ⟨f, c.order.length, by simp, by simp⟩
        · rcases ht with ht | ht
          · obtain ⟨g, i, h1, h2⟩ := h.entry t ht
            refine ⟨g, i, by rw [if_neg he]; exact h1, ?_⟩
            rw [List.getElem?_append_left (List.getElem?_eq_some_iff.mp h2).1]; exact h2
          · exact absurd ht he
      · intro t ht
        simp only [HCache.setHandle, List.mem_append, List.mem_singleton, not_or] at ht ⊢
        rw [if_neg ht.2]; exact h.only t ht.1
      · intro t ht
        simp only [HCache.setHandle, List.mem_append, List.mem_singleton] at ht ⊢
        rcases ht with ht | ht
        · have := h.fresh t ht; omega
        · omega
    · have hh : ∀ t, (({ c with tok := c.tok + 1 } : HCache φ).setHandle (c.tok + 1) ⟨c.order.length, c.tok + 1, f⟩).handles t =
          if t = c.tok + 1 then some ⟨c.order.length, c.tok + 1, f⟩ else c.handles t := fun t => rfl
      refine (List.Perm.map _ (List.perm_append_comm)).trans ?_
      rw [List.singleton_append, List.map_cons]
      have e1 : ∀ (c' : HCache φ), c'.handles (c.tok + 1) = some ⟨c.order.length, c.tok + 1, f⟩ → (c'.get (c.tok + 1)).f = f := by
        intro c' h; simp [HCache.get, h]
      rw [e1 _ (by rw [hh, if_pos rfl])]
      apply List.Perm.cons
      apply inside_perm (c := c) (List.Perm.refl _)
      intro t ht
      have : t ≠ c.tok + 1 := fun e => hnew (e ▸ ht)
      rw [hh, if_neg this]
  · rw [if_neg hl]
    have heq : c.order.length = c.cap := by omega
    by_cases h0 : c.cap = 0
    · rw [if_pos h0]
      refine ⟨_, _, rfl, ⟨h.len, h.small, h.nodup, h.entry, h.only, fun t ht => by have := h.fresh t ht; simp only; omega⟩, rfl, rfl, Or.inr ⟨c.tok + 1, f, rfl, heq, List.Perm.refl _⟩⟩
    · rw [if_neg h0]
      have hr := C28_in_range c.pcg.uint32.1 c.cap (by omega) h.small
      generalize c.pcg.uint32 = r at hr
      have hlt : fastMod r.1 c.cap < c.order.length := by omega
      generalize fastMod r.1 c.cap = k at hlt
      have hk : c.order[k]? = some c.order[k] := List.getElem?_eq_getElem hlt
      generalize c.order[k] = t at hk
      rw [hk]
      have htm : t ∈ c.order := List.mem_of_getElem? hk
      obtain ⟨g, i, h1, h2⟩ := h.entry t htm
      have hik := nodup_idx h.nodup h2 hk
      subst hik
      have hg : ∀ (a : Nat) (q : Pcg), ({ c with tok := a, pcg := q } : HCache φ).get t = ⟨i, t, g⟩ := by intro a q; simp [HCache.get, h1]
      simp only [hg]
      have hne : t ≠ c.tok + 1 := fun e => hnew (e ▸ htm)
      simp only [HCache.setOrder, HCache.setHandle, HCache.delHandle, if_pos hlt]
      have hperm := set_perm (c.tok + 1) hk
      have hmem : ∀ s, s ∈ c.order.set i (c.tok + 1) → s ≠ t ∧ (s = c.tok + 1 ∨ s ∈ c.order) := by
        intro s hs
        constructor
        · rintro rfl
          have hnd : (s :: c.order.set i (c.tok + 1)).Nodup := hperm.nodup_iff.mpr (List.nodup_cons.mpr ⟨hnew, h.nodup⟩)
          exact (List.nodup_cons.mp hnd).1 hs
        · have := hperm.subset (List.mem_cons_of_mem _ hs)
          exact List.mem_cons.mp this
      have hnd : (t :: c.order.set i (c.tok + 1)).Nodup := hperm.nodup_iff.mpr (List.nodup_cons.mpr ⟨hnew, h.nodup⟩)
      refine ⟨_, _, rfl, ?_, rfl, rfl, Or.inr ⟨t, g, rfl, heq, ?_⟩⟩
      · refine ⟨by simpa using h.len, h.small, (List.nodup_cons.mp hnd).2, ?_, ?_, ?_⟩
        · intro s hs
          obtain ⟨hst, hs'⟩ := hmem s hs
          rcases hs' with rfl | hs'
          · exact ⟨f, i, by simp, by simp [hlt]⟩
          · have hsn : s ≠ c.tok + 1 := fun e => hnew (e ▸ hs')
            obtain ⟨g', j, e1, e2⟩ := h.entry s hs'
            refine ⟨g', j, by simp [hsn, hst, e1], ?_⟩
            have hij : i ≠ j := by
              rintro rfl; rw [h2] at e2; exact hst (Option.some.inj e2).symm
            rw [List.getElem?_set_ne hij]; exact e2
        · intro s hs
          by_cases hsn : s = c.tok + 1
          · subst hsn
            exact absurd (List.mem_set hlt _) hs
          · by_cases hst : s = t
            · simp [hsn, hst, hne]
            · have : s ∉ c.order := by
                intro hm
                have := hperm.symm.subset (List.mem_cons_of_mem _ hm)
                rcases List.mem_cons.mp this with e | e
                · exact hst e
                · exact hs e
              simp [hsn, hst, h.only s this]
        · intro s hs
          rcases (hmem s hs).2 with rfl | hs'
          · exact Nat.le_refl _
          · have := h.fresh s hs'; simp only; omega
      · -- the entries
        let g' : Nat → φ := fun s => if s = c.tok + 1 then f else (c.get s).f
        have e1 : ∀ c' : HCache φ, c'.order = c.order.set i (c.tok + 1) →
            (∀ s, c'.handles s = if s = c.tok + 1 then some ⟨i, c.tok + 1, f⟩ else if s = t then none else c.handles s) →
            c'.inside = (c.order.set i (c.tok + 1)).map (fun s => (s, g' s)) := by
          intro c' ho hh
          unfold HCache.inside
          rw [ho]
          apply List.map_congr_left
          intro s hs
          simp only [g', HCache.get, hh]
          by_cases hsn : s = c.tok + 1
          · simp [hsn]
          · simp [hsn, (hmem s hs).1]
        rw [e1 _ rfl (fun s => rfl)]
        have e2 : g' t = g := by simp [g', hne, HCache.get, h1]
        have e3 : (c.tok + 1, f) :: c.inside = ((c.tok + 1) :: c.order).map (fun s => (s, g' s)) := by
          simp only [List.map_cons, g', if_true, HCache.inside]
          congr 1
          apply List.map_congr_left
          intro s hs
          have : s ≠ c.tok + 1 := fun e => hnew (e ▸ hs)
          simp [this]
        rw [e3, ← e2]
        exact hperm.map (fun s => (s, g' s))

/-- One `Take`. -/
theorem HCache.Ok.take {c : HCache φ} (h : c.Ok) (tok : Nat) : ∃ res c', c.take tok = some (res, c') ∧ c'.Ok ∧ c'.tok = c.tok ∧ c'.cap = c.cap ∧
    (∀ f, res = some f ↔ (tok, f) ∈ c.inside) ∧
    ((res = none ∧ c' = c) ∨ (∃ f, res = some f ∧ ((tok, f) :: c'.inside).Perm c.inside)) := by
  unfold HCache.take
  cases he : c.handles tok with
  | none =>
    refine ⟨_, _, rfl, h, rfl, rfl, ?_, Or.inl ⟨rfl, rfl⟩⟩
    intro f
    simp only [reduceCtorEq, false_iff]
    intro hm
    obtain ⟨s, hs, e⟩ := List.mem_map.mp hm
    cases e
    obtain ⟨f, i, h1, _⟩ := h.entry tok hs
    rw [h1] at he; cases he
  | some entry =>
    obtain ⟨hm, htok, hloc⟩ := h.mem he
    obtain ⟨i, tok', f⟩ := entry
    simp only at htok hloc
    subst htok
    have hne : c.order ≠ [] := List.ne_nil_of_mem hm
    obtain ⟨ini, lt, ho⟩ : ∃ ini lt, c.order = ini ++ [lt] := ⟨_, _, (List.dropLast_concat_getLast hne).symm⟩
    have hltm : lt ∈ c.order := by rw [ho]; simp
    obtain ⟨g, j, h1, h2⟩ := h.entry lt hltm
    have hj : j = ini.length := by
      refine nodup_idx h.nodup h2 ?_
      rw [ho]; simp
    have hget : c.get lt = ⟨j, lt, g⟩ := by simp [HCache.get, h1]
    have hilt : i < c.order.length := (List.getElem?_eq_some_iff.mp hloc).1
    have hlast : c.order.getLast? = some lt := by rw [ho]; simp
    simp only [hlast, hget, HCache.setOrder, if_pos hilt, HCache.setHandle, HCache.delHandle]
    -- the new order
    have hperm : (tok' :: (c.order.set i lt).dropLast).Perm c.order := by
      by_cases hi : i = ini.length
      · have : tok' = lt := by
          rw [hi, ho] at hloc; simpa using hloc.symm
        subst this
        rw [hi, ho]
        simp only [List.set_append_right _ _ (Nat.le_refl _), Nat.sub_self, List.set_cons_zero, List.dropLast_concat]
        exact (List.perm_append_singleton _ _).symm
      · have hil : i < ini.length := by rw [ho] at hilt; simp at hilt; omega
        have hl' : ini[i]? = some tok' := by rw [ho, List.getElem?_append_left hil] at hloc; exact hloc
        rw [ho, List.set_append_left _ _ hil, List.dropLast_concat]
        exact (set_perm lt hl').trans (List.perm_append_singleton _ _).symm
    have hnd : (tok' :: (c.order.set i lt).dropLast).Nodup := hperm.nodup_iff.mpr h.nodup
    have hsub : ∀ s ∈ (c.order.set i lt).dropLast, s ≠ tok' ∧ s ∈ c.order := by
      intro s hs
      exact ⟨fun e => (List.nodup_cons.mp hnd).1 (e ▸ hs), hperm.subset (List.mem_cons_of_mem _ hs)⟩
    have hgt : (tok', f) ∈ c.inside := List.mem_map.mpr ⟨tok', hm, by simp [HCache.get, he]⟩
    refine ⟨_, _, rfl, ?_, rfl, rfl, ?_, Or.inr ⟨f, rfl, ?_⟩⟩
    · refine ⟨?_, h.small, (List.nodup_cons.mp hnd).2, ?_, ?_, ?_⟩
      · have := h.len; simp; omega
      · intro s hs
        obtain ⟨hst, hsm⟩ := hsub s hs
        simp only [if_neg hst]
        by_cases hsl : s = lt
        · subst hsl
          refine ⟨g, i, by simp, ?_⟩
          have hil : i < ini.length := by
            have : i ≠ ini.length := by
              rintro rfl
              rw [← hj, h2] at hloc
              exact hst (Option.some.inj hloc)
            rw [ho] at hilt; simp at hilt; omega
          rw [List.getElem?_dropLast]
          rw [if_pos (by rw [ho]; simp; omega), List.getElem?_set_self hilt]
        · obtain ⟨g', k, e1, e2⟩ := h.entry s hsm
          refine ⟨g', k, by simp [hsl, e1], ?_⟩
          have hik : i ≠ k := by rintro rfl; rw [hloc] at e2; exact hst (Option.some.inj e2).symm
          have hjk : k ≠ ini.length := by rintro rfl; rw [← hj, h2] at e2; exact hsl (Option.some.inj e2).symm
          have hkl := (List.getElem?_eq_some_iff.mp e2).1
          rw [List.getElem?_dropLast, if_pos (by rw [ho] at hkl ⊢; simp at hkl ⊢; omega), List.getElem?_set_ne hik]
          exact e2
      · intro s hs
        by_cases hst : s = tok'
        · simp [hst]
        · have hsn : s ∉ c.order := by
            intro hm'
            rcases List.mem_cons.mp (hperm.symm.subset hm') with e | e
            · exact hst e
            · exact hs e
          have hsl : s ≠ lt := fun e => hsn (e ▸ hltm)
          simp [hst, hsl, h.only s hsn]
      · intro s hs; exact h.fresh s (hsub s hs).2
    · intro f'
      constructor
      · intro e; cases e; exact hgt
      · intro hm'
        obtain ⟨s, hs, e⟩ := List.mem_map.mp hm'
        cases e
        simp [HCache.get, he]
    · have e1 : ∀ c' : HCache φ, c'.order = (c.order.set i lt).dropLast →
          (∀ s, c'.handles s = if s = tok' then none else if s = lt then some ⟨i, lt, g⟩ else c.handles s) →
          c'.inside = (c.order.set i lt).dropLast.map (fun s => (s, (c.get s).f)) := by
        intro c' ho hh
        unfold HCache.inside
        rw [ho]
        apply List.map_congr_left
        intro s hs
        simp only [HCache.get, hh, if_neg (hsub s hs).1]
        by_cases hsl : s = lt
        · simp [hsl, h1]
        · simp [hsl]
      rw [e1 _ rfl (fun s => rfl)]
      have : (tok', f) = (tok', (c.get tok').f) := by simp [HCache.get, he]
      rw [this]
      exact hperm.map (fun s => (s, (c.get s).f))

/-- One `TakeAll`. -/
theorem HCache.Ok.takeAllLoop (stop : φ → Bool) (fuel : Nat) : ∀ {c : HCache φ}, c.Ok → ∃ l, (c.takeAllLoop stop fuel).1 = l.map Prod.snd ∧
    (c.takeAllLoop stop fuel).2.Ok ∧ (c.takeAllLoop stop fuel).2.tok = c.tok ∧ (c.takeAllLoop stop fuel).2.cap = c.cap ∧
    (l ++ (c.takeAllLoop stop fuel).2.inside).Perm c.inside ∧
    ((∀ f, stop f = false) → c.order.length < fuel → (c.takeAllLoop stop fuel).2.order = []) := by
  induction fuel with
  | zero => intro c h; exact ⟨[], rfl, h, rfl, rfl, List.Perm.refl _, fun _ h => absurd h (by omega)⟩
  | succ fuel ih =>
    intro c h
    unfold HCache.takeAllLoop
    rcases c.order.eq_nil_or_concat with ho | ⟨ini, lt, ho⟩
    · rw [show c.order.getLast? = none by rw [ho]; rfl]
      exact ⟨[], rfl, h, rfl, rfl, List.Perm.refl _, fun _ _ => ho⟩
    · rw [List.concat_eq_append] at ho
      have hl : c.order.getLast? = some lt := by rw [ho]; simp
      have hltm : lt ∈ c.order := by rw [ho]; simp
      obtain ⟨g, j, h1, h2⟩ := h.entry lt hltm
      have hget : c.get lt = ⟨j, lt, g⟩ := by simp [HCache.get, h1]
      simp only [hl, hget]
      have hnd := h.nodup
      rw [ho] at hnd
      have hni : lt ∉ ini := by
        intro hm
        rw [List.nodup_append] at hnd
        exact hnd.2.2 lt hm lt (by simp) rfl
      generalize hc : ({ c with order := c.order.dropLast } : HCache φ).delHandle lt = c'
      have ho' : c'.order = ini := by subst hc; simp [HCache.delHandle, ho]
      have hh' : ∀ t, c'.handles t = if t = lt then none else c.handles t := by subst hc; intro t; rfl
      have htk : c'.tok = c.tok := by subst hc; rfl
      have hcp : c'.cap = c.cap := by subst hc; rfl
      have hok : c'.Ok := by
        refine ⟨?_, by rw [hcp]; exact h.small, ?_, ?_, ?_, ?_⟩
        · have := h.len; rw [ho'] ; rw [ho] at this; simp at this; omega
        · rw [ho']; exact (List.nodup_append.mp hnd).1
        · intro t ht
          rw [ho'] at ht
          have hne : t ≠ lt := fun e => hni (e ▸ ht)
          obtain ⟨g', k, e1, e2⟩ := h.entry t (by rw [ho]; simp [ht])
          refine ⟨g', k, by rw [hh', if_neg hne]; exact e1, ?_⟩
          rw [ho'] 
          rw [ho] at e2
          have hk := (List.getElem?_eq_some_iff.mp e2).1
          have : k ≠ ini.length := by
            rintro rfl
            simp at e2; exact hne e2.symm
          simp at hk
          rw [List.getElem?_append_left (by omega)] at e2
          exact e2
        · intro t ht
          rw [hh']
          split
          · rfl
          · next hne => exact h.only t (by rw [ho]; rw [ho'] at ht; simp [ht, hne])
        · intro t ht
          rw [htk]; exact h.fresh t (by rw [ho]; rw [ho'] at ht; simp [ht])
      have hins : ((lt, g) :: c'.inside).Perm c.inside := by
        have e : c'.inside = ini.map (fun s => (s, (c.get s).f)) := by
          unfold HCache.inside
          rw [ho']
          apply List.map_congr_left
          intro s hs
          have hne : s ≠ lt := fun e => hni (e ▸ hs)
          simp [HCache.get, hh', hne]
        rw [e]
        have e2 : c.inside = ini.map (fun s => (s, (c.get s).f)) ++ [(lt, g)] := by
          unfold HCache.inside; rw [ho, List.map_append]; simp [hget]
        rw [e2]
        exact (List.perm_append_singleton _ _).symm
      by_cases hs : stop g = true
      · rw [if_pos hs]
        exact ⟨[(lt, g)], rfl, hok, htk, hcp, hins, fun hx => by rw [hx] at hs; cases hs⟩
      · rw [if_neg hs]
        obtain ⟨l, e1, e2, e3, e4, e5, e6⟩ := ih hok
        refine ⟨(lt, g) :: l, by simp [e1], e2, by rw [e3, htk], by rw [e4, hcp], ?_, ?_⟩
        · exact (List.Perm.cons _ e5).trans hins
        · intro hx hy
          apply e6 hx
          rw [ho']; rw [ho] at hy; simp at hy; omega

/-- **C26.** For any sequence of calls on a new cache of any capacity: nothing panics; the cache never holds more than its capacity; the tokens given out are all different; and every handle put in either is
still inside or came back exactly once (`CameBack`), and from `Take` only under its own token. (`inside` is the set of entries that `Take` can still retrieve, see `C26_take`.) -/
theorem C26_conservation (cap : Nat) (hcap : cap < 2 ^ 63) (ops : List (COp φ)) :
    ∃ events c, (HCache.new φ cap).run ops = some (events, c) ∧ c.order.length ≤ cap ∧ ((issued events).map Prod.fst).Nodup ∧
      ∃ outs, CameBack events outs ∧ (issued events).Perm (outs ++ c.inside) := by
  have gen : ∀ (ops : List (COp φ)) (c : HCache φ), c.Ok → c.cap = cap → ∃ events c', c.run ops = some (events, c') ∧ c'.Ok ∧ c'.cap = cap ∧ c.tok ≤ c'.tok ∧
      (∀ e ∈ issued events, c.tok < e.1) ∧ ((issued events).map Prod.fst).Nodup ∧
      ∃ outs, CameBack events outs ∧ (issued events ++ c.inside).Perm (outs ++ c'.inside) := by
    intro ops
    induction ops with
    | nil => intro c h hc; exact ⟨[], c, rfl, h, hc, Nat.le_refl _, by simp [issued], by simp [issued], [], rfl, by simp [issued]⟩
    | cons op ops ih =>
      intro c h hc
      cases op with
      | put f =>
        obtain ⟨ev, c1, e1, ok1, t1, p1, hcase⟩ := h.put f
        obtain ⟨events, c', e2, ok2, p2, t2, hgt, hnd, outs, hcb, hperm⟩ := ih c1 ok1 (p1.trans hc)
        refine ⟨.put f (c.tok + 1) ev :: events, c', by simp [HCache.run, e1, e2], ok2, p2, by omega, ?_, ?_, ?_⟩
        · intro e he
          simp only [issued, List.mem_cons] at he
          rcases he with rfl | he
          · simp
          · have := hgt e he; omega
        · simp only [issued, List.map_cons, List.nodup_cons]
          refine ⟨?_, hnd⟩
          intro hm
          obtain ⟨e, he, hx⟩ := List.mem_map.mp hm
          have := hgt e he; omega
        · rcases hcase with ⟨rfl, _, hp⟩ | ⟨t, g, rfl, _, hp⟩
          · refine ⟨outs, hcb, ?_⟩
            simp only [issued]
            refine List.Perm.trans ?_ hperm
            rw [List.cons_append]
            refine List.perm_middle.symm.trans ?_
            exact List.Perm.append_left _ hp.symm
          · refine ⟨(t, g) :: outs, ⟨t, outs, rfl, hcb⟩, ?_⟩
            simp only [issued]
            rw [List.cons_append, List.cons_append]
            refine (List.perm_middle.symm.trans (List.Perm.append_left _ hp.symm)).trans ?_
            exact List.perm_middle.trans (List.Perm.cons _ hperm)
      | take t =>
        obtain ⟨res, c1, e1, ok1, t1, p1, hiff, hcase⟩ := h.take t
        obtain ⟨events, c', e2, ok2, p2, t2, hgt, hnd, outs, hcb, hperm⟩ := ih c1 ok1 (p1.trans hc)
        refine ⟨.take t res :: events, c', by simp [HCache.run, e1, e2], ok2, p2, by omega, by intro e he; rw [← t1]; exact hgt e he, hnd, ?_⟩
        rcases hcase with ⟨rfl, rfl⟩ | ⟨f, rfl, hp⟩
        · exact ⟨outs, hcb, hperm⟩
        · refine ⟨(t, f) :: outs, ⟨outs, rfl, hcb⟩, ?_⟩
          simp only [issued]
          refine (List.Perm.append_left _ hp.symm).trans ?_
          exact List.perm_middle.trans (List.Perm.cons _ hperm)
      | takeAll stop =>
        obtain ⟨l, e1, ok1, t1, p1, hp, _⟩ := HCache.Ok.takeAllLoop stop (c.order.length + 1) h
        obtain ⟨events, c', e2, ok2, p2, t2, hgt, hnd, outs, hcb, hperm⟩ := ih _ ok1 (p1.trans hc)
        refine ⟨.takeAll (l.map Prod.snd) :: events, c', ?_, ok2, p2, by omega, by intro e he; rw [← t1]; exact hgt e he, hnd, l ++ outs, ⟨l, outs, rfl, rfl, hcb⟩, ?_⟩
        · simp only [HCache.run, HCache.takeAll, e2, Option.map_some, e1]
        · simp only [issued]
          refine (List.Perm.append_left _ hp.symm).trans ?_
          rw [← List.append_assoc]
          refine (List.Perm.append_right _ List.perm_append_comm).trans ?_
          rw [List.append_assoc, List.append_assoc]
          exact List.Perm.append_left _ hperm
  obtain ⟨events, c', e, ok, hc, _, _, hnd, outs, hcb, hperm⟩ := gen ops _ (HCache.new_ok cap hcap) rfl
  refine ⟨events, c', e, by rw [← hc]; exact ok.len, hnd, outs, hcb, ?_⟩
  have : (HCache.new φ cap).inside = [] := rfl
  rw [this, List.append_nil] at hperm
  exact hperm

/-- **C26.** In every reachable cache, `Take` returns a handle exactly if that handle is inside under that token, and a put evicts something only if the cache is full. -/
theorem C26_take (cap : Nat) (hcap : cap < 2 ^ 63) (ops : List (COp φ)) (events : List (CEvent φ)) (c : HCache φ) (h : (HCache.new φ cap).run ops = some (events, c)) :
    (∀ tok, ∃ res c', c.take tok = some (res, c') ∧ ∀ f, res = some f ↔ (tok, f) ∈ c.inside) ∧
    (∀ f, ∃ r c', c.put f = some (r, c') ∧ ((∃ g, r.2 = some g) → c.inside.length = cap)) ∧
    (c.takeAll (fun _ => false)).2.inside = [] := by
  have gen : ∀ (ops : List (COp φ)) (c c' : HCache φ) events, c.Ok → c.cap = cap → c.run ops = some (events, c') → c'.Ok ∧ c'.cap = cap := by
    intro ops
    induction ops with
    | nil => intro c c' events h hc e; cases e; exact ⟨h, hc⟩
    | cons op ops ih =>
      intro c c' events h hc e
      cases op with
      | put f =>
        obtain ⟨ev, c1, e1, ok1, t1, p1, hcase⟩ := h.put f
        simp only [HCache.run, e1, Option.map_eq_some_iff] at e
        obtain ⟨⟨es, c2⟩, e2, e3⟩ := e
        cases e3
        exact ih c1 _ es ok1 (p1.trans hc) e2
      | take t =>
        obtain ⟨res, c1, e1, ok1, t1, p1, hiff, hcase⟩ := h.take t
        simp only [HCache.run, e1, Option.map_eq_some_iff] at e
        obtain ⟨⟨es, c2⟩, e2, e3⟩ := e
        cases e3
        exact ih c1 _ es ok1 (p1.trans hc) e2
      | takeAll stop =>
        obtain ⟨l, e1, ok1, t1, p1, hp, _⟩ := HCache.Ok.takeAllLoop stop (c.order.length + 1) h
        simp only [HCache.run, Option.map_eq_some_iff] at e
        obtain ⟨⟨es, c2⟩, e2, e3⟩ := e
        cases e3
        exact ih _ _ es ok1 (p1.trans hc) e2
  obtain ⟨ok, hc⟩ := gen ops _ _ _ (HCache.new_ok cap hcap) rfl h
  refine ⟨?_, ?_, ?_⟩
  · intro tok
    obtain ⟨res, c', e, _, _, _, hiff, _⟩ := ok.take tok
    exact ⟨res, c', e, hiff⟩
  · intro f
    obtain ⟨ev, c', e, _, _, _, hcase⟩ := ok.put f
    refine ⟨_, c', e, ?_⟩
    rintro ⟨g, rfl⟩
    rcases hcase with ⟨h0, _⟩ | ⟨_, _, _, h1, _⟩
    · cases h0
    · unfold HCache.inside; rw [List.length_map, h1, hc]
  · obtain ⟨l, _, _, _, _, _, h6⟩ := HCache.Ok.takeAllLoop (fun _ => false) (c.order.length + 1) ok
    unfold HCache.inside
    rw [show (c.takeAll (fun _ => false)).2.order = [] from h6 (fun _ => rfl) (by omega)]
    rfl

/-- Test of C26: a cache of two; the third put evicts; a take of the evicted token finds nothing, a take of the new one finds it. -/
example : ((HCache.new Nat 2).run [.put 10, .put 20, .put 30, .take 3, .take 1, .take 2]).map (fun r => r.1.map (fun e => match e with
    | .put _ t ev => (t, ev)
    | .take t r => (t, r)
    | .takeAll _ => (0, none))) = some [(1, none), (2, none), (3, some 20), (3, some 30), (1, some 10), (2, none)] := by decide +kernel

end Rothko
