import Verif.Spec.FileCache
import Verif.Props.Cache
/-!
# C27: the file cache
-/
namespace Rothko

/-- The handles in the cache. -/
def FWorld.cached (w : FWorld) : List FHandle := w.fch.ch.inside.map Prod.snd

structure FWorld.Ok (handles : Nat) (w : FWorld) : Prop where
  ch : w.fch.ch.Ok
  cap : w.fch.ch.cap = handles
  toks : ∀ t f, (t, f) ∈ w.fch.ch.inside → w.fch.toks f.path = some t
  old : ∀ p t, w.fch.toks p = some t → t ≤ w.fch.ch.tok
  inj : ∀ p p' t, w.fch.toks p = some t → w.fch.toks p' = some t → p = p'
  sep : ∀ t f, (t, f) ∈ w.fch.ch.inside → ∀ g ∈ w.inUse, g.path ≠ f.path
  uniq : (w.inUse.map FHandle.path).Nodup
  cons : w.opened.Perm (w.inUse ++ w.cached ++ w.closed)
  ids : w.opened.map FHandle.id = (List.range w.opened.length).reverse

theorem FWorld.Ok.opened_nodup {n : Nat} {w : FWorld} (h : w.Ok n) : w.opened.Nodup := by
  have : (w.opened.map FHandle.id).Nodup := by rw [h.ids]; exact List.nodup_reverse.mpr List.nodup_range
  exact this.of_map _

theorem perm_map_snd {l l' : List (Nat × FHandle)} (h : l.Perm l') : (l.map Prod.snd).Perm (l'.map Prod.snd) := h.map _

theorem inside_unique {n : Nat} {w : FWorld} (h : w.Ok n) {path : Bytes} {tok : Nat} {f : FHandle} {c' : HCache FHandle} (ht : w.fch.toks path = some tok)
    (hp : ((tok, f) :: c'.inside).Perm w.fch.ch.inside) : ∀ t g, (t, g) ∈ c'.inside → g.path ≠ path := by
  intro t g hm e
  have h1 := h.toks t g (hp.subset (List.mem_cons_of_mem _ hm))
  rw [e, ht] at h1
  cases h1
  have hnd : (w.fch.ch.inside.map Prod.fst).Nodup := by
    unfold HCache.inside
    rw [List.map_map]
    have : (Prod.fst ∘ fun t => (t, (w.fch.ch.get t).f)) = id := rfl
    rw [this, List.map_id]
    exact h.ch.nodup
  have := (hp.map Prod.fst).nodup_iff.mpr hnd
  simp only [List.map_cons, List.nodup_cons] at this
  exact this.1 (List.mem_map.mpr ⟨_, hm, rfl⟩)

theorem FWorld.Ok.step {n : Nat} {w : FWorld} (h : w.Ok n) (op : FOp) (ha : op.Allowed w) :
    ∃ r w', w.step op = some (r, w') ∧ w'.Ok n ∧
      (∀ path ok, op = .acquire path ok →
        (∀ f, r = some f → f.path = path ∧ f ∈ w'.inUse) ∧
        (∀ f ∈ w.cached, f.path = path → r = some f)) ∧
      (∀ path, op = .evict path → ∀ f ∈ w'.cached, f.path ≠ path) ∧
      (op = .close → w'.cached = []) := by
  cases op with
  | acquire path ok =>
    simp only [FOp.Allowed] at ha
    simp only [FWorld.step, FileCache.acquire]
    have hopen : ∀ fch' : FileCache, fch' = w.fch → (∀ t f, (t, f) ∈ w.fch.ch.inside → f.path ≠ path) →
        ∀ w' : FWorld, w' = { w with fch := fch', inUse := (w.fresh path ok).toList ++ w.inUse, opened := (if false = true then [] else (w.fresh path ok).toList) ++ w.opened } → w'.Ok n := by
      intro fch' he hno w' hw
      subst he; subst hw
      unfold FWorld.fresh
      cases ok with
      | false => exact ⟨h.ch, h.cap, h.toks, h.old, h.inj, h.sep, h.uniq, h.cons, h.ids⟩
      | true =>
        simp only [if_true, Option.toList_some, Bool.false_eq_true, if_false, List.singleton_append]
        refine ⟨h.ch, h.cap, h.toks, h.old, h.inj, ?_, ?_, ?_, ?_⟩
        · intro t f hm g hg
          rcases List.mem_cons.mp hg with rfl | hg
          · exact fun e => hno t f hm e.symm
          · exact h.sep t f hm g hg
        · simp only [List.map_cons, List.nodup_cons]
          refine ⟨?_, h.uniq⟩
          intro hm
          obtain ⟨g, hg, e⟩ := List.mem_map.mp hm
          exact ha g hg e
        · exact List.Perm.cons _ h.cons
        · simp only [List.map_cons, List.length_cons, List.range_succ, List.reverse_append, List.reverse_singleton, List.singleton_append, h.ids]
    cases ht : w.fch.toks path with
    | none =>
      simp only
      have hno : ∀ t f, (t, f) ∈ w.fch.ch.inside → f.path ≠ path := by
        intro t f hm e
        have := h.toks t f hm
        rw [e, ht] at this; cases this
      refine ⟨_, _, rfl, hopen _ rfl hno _ rfl, ?_, by simp, by simp⟩
      intro p ok' e
      cases e
      refine ⟨?_, ?_⟩
      · intro f hf
        unfold FWorld.fresh at hf ⊢
        cases ok <;> simp at hf
        subst hf; simp
      · intro f hf e
        obtain ⟨⟨t, f'⟩, hm, rfl⟩ := List.mem_map.mp hf
        exact absurd e (hno t _ hm)
    | some tok =>
      obtain ⟨res, c', e, ok', htok, hcap, hiff, hcase⟩ := h.ch.take tok
      simp only [e]
      rcases hcase with ⟨rfl, rfl⟩ | ⟨f, rfl, hp⟩
      · simp only
        have hno : ∀ t f, (t, f) ∈ w.fch.ch.inside → f.path ≠ path := by
          intro t f hm e
          have := h.toks t f hm
          rw [e, ht] at this; cases this
          have := (hiff f).mpr hm
          cases this
        refine ⟨_, _, rfl, hopen _ rfl hno _ rfl, ?_, by simp, by simp⟩
        intro p ok' e
        cases e
        refine ⟨?_, ?_⟩
        · intro f hf
          unfold FWorld.fresh at hf ⊢
          cases ok <;> simp at hf
          subst hf; simp
        · intro f hf e
          obtain ⟨⟨t, f'⟩, hm, rfl⟩ := List.mem_map.mp hf
          exact absurd e (hno t _ hm)
      · have hmem := (hiff f).mp rfl
        have hpath : f.path = path := h.inj _ _ tok (h.toks tok f hmem) ht
        have hsub : ∀ e ∈ c'.inside, e ∈ w.fch.ch.inside := fun e he => hp.subset (List.mem_cons_of_mem _ he)
        have hgone : ∀ t g, (t, g) ∈ c'.inside → g.path ≠ path := inside_unique h ht hp
        have hins : (f :: c'.inside.map Prod.snd).Perm w.cached := perm_map_snd hp
        simp only [if_true, Option.toList_some, List.singleton_append, List.nil_append]
        refine ⟨_, _, rfl, ?_, ?_, by simp, by simp⟩
        · refine ⟨ok', hcap.trans h.cap, ?_, ?_, h.inj, ?_, ?_, ?_, h.ids⟩
          · intro t g hm; exact h.toks t g (hsub _ hm)
          · intro p t he; simp only [htok]; exact h.old p t he
          · intro t g hm x hx
            rcases List.mem_cons.mp hx with rfl | hx
            · rw [hpath]; exact fun e => hgone t g hm e.symm
            · exact h.sep t g (hsub _ hm) x hx
          · simp only [List.map_cons, List.nodup_cons]
            refine ⟨?_, h.uniq⟩
            intro hm
            obtain ⟨g, hg, e⟩ := List.mem_map.mp hm
            exact ha g hg (by rw [e, hpath])
          · refine h.cons.trans ?_
            show List.Perm _ ((f :: w.inUse) ++ c'.inside.map Prod.snd ++ w.closed)
            rw [List.cons_append, List.cons_append, ← List.cons_append]
            apply List.Perm.append_right
            rw [← List.cons_append]
            refine List.Perm.trans (List.Perm.append_left _ hins.symm) ?_
            exact List.perm_middle
        · intro p ok' e
          cases e
          refine ⟨?_, ?_⟩
          · intro g hg; cases hg; exact ⟨hpath, by simp⟩
          · intro g hg e
            obtain ⟨⟨t, g'⟩, hm, rfl⟩ := List.mem_map.mp hg
            have h1 := h.toks t g' hm
            simp only at e
            rw [e, ht] at h1
            cases h1
            have := (hiff g').mpr hm
            exact this
  | release f =>
    simp only [FOp.Allowed] at ha
    obtain ⟨ev, c', e, ok', htok, hcap, hcase⟩ := h.ch.put f
    simp only [FWorld.step, FileCache.release, e]
    refine ⟨_, _, rfl, ?_, by simp, by simp, by simp⟩
    have hnot : ∀ t g, (t, g) ∈ w.fch.ch.inside → g.path ≠ f.path := fun t g hm => (h.sep t g hm f ha).symm
    have hsub : ∀ t g, (t, g) ∈ c'.inside → (t = w.fch.ch.tok + 1 ∧ g = f) ∨ (t, g) ∈ w.fch.ch.inside := by
      intro t g hm
      have : (t, g) ∈ (w.fch.ch.tok + 1, f) :: w.fch.ch.inside := by
        rcases hcase with ⟨_, _, hp⟩ | ⟨t', g', _, _, hp⟩
        · exact hp.subset hm
        · exact hp.subset (List.mem_cons_of_mem _ hm)
      rcases List.mem_cons.mp this with e | e
      · cases e; exact Or.inl ⟨rfl, rfl⟩
      · exact Or.inr e
    refine ⟨ok', hcap.trans h.cap, ?_, ?_, ?_, ?_, ?_, ?_, h.ids⟩
    · intro t g hm
      rcases hsub t g hm with ⟨rfl, rfl⟩ | hm
      · simp
      · simp only; rw [if_neg (hnot t g hm)]; exact h.toks t g hm
    · intro p t he
      simp only [htok] at he ⊢
      split at he
      · cases he; exact Nat.le_refl _
      · have := h.old p t he; omega
    · intro p p' t h1 h2
      simp only at h1 h2
      split at h1 <;> split at h2
      · simp_all
      · have := h.old p' t h2; cases h1; omega
      · have := h.old p t h1; cases h2; omega
      · exact h.inj p p' t h1 h2
    · intro t g hm x hx
      have hx' := List.mem_of_mem_erase hx
      rcases hsub t g hm with ⟨rfl, rfl⟩ | hm
      · -- other handles in use have other paths
        intro e
        have hperm : w.inUse.Perm (g :: w.inUse.erase g) := List.perm_cons_erase ha
        have := (hperm.map FHandle.path).nodup_iff.mp h.uniq
        simp only [List.map_cons, List.nodup_cons] at this
        exact this.1 (List.mem_map.mpr ⟨x, hx, e⟩)
      · exact h.sep t g hm x hx'
    · exact (List.Sublist.map _ List.erase_sublist).nodup h.uniq
    · refine h.cons.trans ?_
      show List.Perm _ (w.inUse.erase f ++ c'.inside.map Prod.snd ++ (ev.toList ++ w.closed))
      rw [← List.append_assoc]
      apply List.Perm.append_right
      have hperm : w.inUse.Perm (f :: w.inUse.erase f) := List.perm_cons_erase ha
      refine (List.Perm.append_right _ hperm).trans ?_
      rw [List.append_assoc, List.cons_append]
      refine List.perm_middle.symm.trans ?_
      apply List.Perm.append_left
      rcases hcase with ⟨rfl, _, hp⟩ | ⟨t', g', rfl, _, hp⟩
      · have := perm_map_snd hp.symm
        simpa [FWorld.cached] using this
      · have := perm_map_snd hp.symm
        simp only [List.map_cons] at this
        exact this.trans (List.perm_append_singleton _ _).symm
  | evict path =>
    simp only [FOp.Allowed] at ha
    simp only [FWorld.step, FileCache.evict]
    cases ht : w.fch.toks path with
    | none =>
      simp only
      refine ⟨_, _, rfl, ⟨h.ch, h.cap, h.toks, h.old, h.inj, h.sep, h.uniq, h.cons, h.ids⟩, by simp, ?_, by simp⟩
      intro p e f hf hpath
      cases e
      obtain ⟨⟨t, f'⟩, hm, rfl⟩ := List.mem_map.mp hf
      have := h.toks t f' hm
      rw [hpath, ht] at this; cases this
    | some tok =>
      obtain ⟨res, c', e, ok', htok, hcap, hiff, hcase⟩ := h.ch.take tok
      simp only [e]
      have hsub : ∀ x ∈ c'.inside, x ∈ w.fch.ch.inside := by
        intro x hx
        rcases hcase with ⟨_, rfl⟩ | ⟨f, _, hp⟩
        · exact hx
        · exact hp.subset (List.mem_cons_of_mem _ hx)
      have hgone : ∀ t g, (t, g) ∈ c'.inside → g.path ≠ path := by
        rcases hcase with ⟨rfl, rfl⟩ | ⟨f, _, hp⟩
        · intro t g hm e
          have := h.toks t g hm
          rw [e, ht] at this; cases this
          have := (hiff g).mpr hm
          cases this
        · exact inside_unique h ht hp
      refine ⟨_, _, rfl, ?_, by simp, ?_, by simp⟩
      · refine ⟨ok', hcap.trans h.cap, ?_, ?_, ?_, ?_, h.uniq, ?_, h.ids⟩
        · intro t g hm
          simp only
          rw [if_neg (hgone t g hm)]; exact h.toks t g (hsub _ hm)
        · intro p t he
          simp only [htok] at he ⊢
          split at he
          · cases he
          · exact h.old p t he
        · intro p p' t h1 h2
          simp only at h1 h2
          split at h1
          · cases h1
          · split at h2
            · cases h2
            · exact h.inj p p' t h1 h2
        · intro t g hm; exact h.sep t g (hsub _ hm)
        · refine h.cons.trans ?_
          show List.Perm _ (w.inUse ++ c'.inside.map Prod.snd ++ (res.toList ++ w.closed))
          rw [← List.append_assoc]
          apply List.Perm.append_right
          rw [List.append_assoc]
          apply List.Perm.append_left
          rcases hcase with ⟨rfl, rfl⟩ | ⟨f, rfl, hp⟩
          · simp [FWorld.cached]
          · have := perm_map_snd hp.symm
            simp only [List.map_cons] at this
            exact this.trans (List.perm_append_singleton _ _).symm
      · intro p e f hf hpath
        cases e
        obtain ⟨⟨t, f'⟩, hm, rfl⟩ := List.mem_map.mp hf
        exact hgone t f' hm hpath
  | close =>
    obtain ⟨l, e1, ok', htok, hcap, hp, hempty⟩ := HCache.Ok.takeAllLoop (fun _ => false) (w.fch.ch.order.length + 1) h.ch
    have hz : (w.fch.ch.takeAll (fun _ => false)).2.inside = [] := by
      unfold HCache.inside
      rw [show (w.fch.ch.takeAll (fun _ => false)).2.order = [] from hempty (fun _ => rfl) (by omega)]; rfl
    simp only [FWorld.step, FileCache.close]
    refine ⟨_, _, rfl, ?_, by simp, by simp, ?_⟩
    · refine ⟨ok', hcap.trans h.cap, ?_, by simp, by simp, ?_, h.uniq, ?_, h.ids⟩
      · intro t f hm; simp only at hm; rw [hz] at hm; cases hm
      · intro t f hm; simp only at hm; rw [hz] at hm; cases hm
      · refine h.cons.trans ?_
        show List.Perm _ (w.inUse ++ (w.fch.ch.takeAll (fun _ => false)).2.inside.map Prod.snd ++ ((w.fch.ch.takeAll (fun _ => false)).1 ++ w.closed))
        rw [← List.append_assoc]
        apply List.Perm.append_right
        rw [List.append_assoc]
        apply List.Perm.append_left
        have hp' : (l ++ (w.fch.ch.takeAll (fun _ => false)).2.inside).Perm w.fch.ch.inside := hp
        rw [hz] at hp' ⊢
        have e1' : (w.fch.ch.takeAll (fun _ => false)).1 = l.map Prod.snd := e1
        rw [e1']
        have := perm_map_snd hp'.symm
        simpa [FWorld.cached] using this
    · intro _
      show (w.fch.ch.takeAll (fun _ => false)).2.inside.map Prod.snd = []
      rw [hz]; rfl

theorem FReach.ok {n : Nat} (hn : n < 2 ^ 63) {w : FWorld} (h : FReach n w) : w.Ok n := by
  induction h with
  | init =>
    refine ⟨HCache.new_ok n hn, rfl, ?_, by simp [FileCache.new], by simp [FileCache.new], ?_, by simp, ?_, by simp⟩
    · intro t f hm; cases hm
    · intro t f hm; cases hm
    · exact List.Perm.refl _
  | step _ ha e ih =>
    obtain ⟨r, w', e', ok, _⟩ := ih.step _ ha
    rw [e] at e'; cases e'
    exact ok

/-- **C27.** In every world that arises under exclusive use per path: no call panics; every handle ever opened is in exactly one place (in use, cached or closed), and no two handles in use are of the same path. -/
theorem C27_accounting {n : Nat} (hn : n < 2 ^ 63) {w : FWorld} (h : FReach n w) :
    w.opened.Nodup ∧ w.opened.Perm (w.inUse ++ w.cached ++ w.closed) ∧ w.cached.length ≤ n ∧ (w.inUse.map FHandle.path).Nodup ∧
    ∀ op, op.Allowed w → ∃ r w', w.step op = some (r, w') := by
  have ok := h.ok hn
  refine ⟨ok.opened_nodup, ok.cons, ?_, ok.uniq, ?_⟩
  · unfold FWorld.cached HCache.inside
    simp only [List.length_map]
    exact Nat.le_trans ok.ch.len (Nat.le_of_eq ok.cap)
  · intro op ha
    obtain ⟨r, w', e, _⟩ := ok.step op ha
    exact ⟨r, w', e⟩

/-- **C27.** Acquiring a path gives a handle opened at that path, and the cached one if there is one. -/
theorem C27_acquire {n : Nat} (hn : n < 2 ^ 63) {w w' : FWorld} (h : FReach n w) (path : Bytes) (ok : Bool) (r : Option FHandle)
    (ha : (FOp.acquire path ok).Allowed w) (e : w.step (.acquire path ok) = some (r, w')) :
    (∀ f, r = some f → f.path = path ∧ f ∈ w'.inUse) ∧ (∀ f ∈ w.cached, f.path = path → r = some f) := by
  obtain ⟨r1, w1, e1, _, h1, _⟩ := (h.ok hn).step _ ha
  rw [e] at e1; cases e1
  exact h1 path ok rfl

/-- **C27.** After evicting a path, no handle of it is cached (so, by `C27_accounting`, a handle that was is closed); after closing the cache every handle not in use is closed. -/
theorem C27_evict_close {n : Nat} (hn : n < 2 ^ 63) {w w' : FWorld} (h : FReach n w) :
    (∀ path r, (FOp.evict path).Allowed w → w.step (.evict path) = some (r, w') → ∀ f ∈ w'.cached, f.path ≠ path) ∧
    (∀ r, w.step .close = some (r, w') → w'.cached = [] ∧ w'.opened.Perm (w'.inUse ++ w'.closed)) := by
  constructor
  · intro path r ha e
    obtain ⟨r1, w1, e1, _, _, h1, _⟩ := (h.ok hn).step _ ha
    rw [e] at e1; cases e1
    exact h1 path rfl
  · intro r e
    obtain ⟨r1, w1, e1, ok1, _, _, h1⟩ := (h.ok hn).step .close trivial
    rw [e] at e1; cases e1
    have := h1 rfl
    refine ⟨this, ?_⟩
    have hc := ok1.cons
    rw [this, List.append_nil] at hc
    exact hc

/-- Test of C27: with room for one handle, path `1` is opened, released, evicted from the cache by the release of path `2`, and opened again. -/
example : ∃ w, FReach 1 w ∧ w.inUse = [⟨2, [1]⟩] ∧ w.cached = [⟨1, [2]⟩] ∧ w.closed = [⟨0, [1]⟩] := by
  refine ⟨_, .step (op := .acquire [1] true) (r := some ⟨2, [1]⟩) (.step (op := .release ⟨1, [2]⟩) (r := none) (.step (op := .acquire [2] true) (r := some ⟨1, [2]⟩)
    (.step (op := .release ⟨0, [1]⟩) (r := none) (.step (op := .acquire [1] true) (r := some ⟨0, [1]⟩) .init ?_ rfl) ?_ rfl) ?_ rfl) ?_ rfl) ?_ rfl, rfl, rfl, rfl⟩
  · exact fun f hf => nomatch hf
  · exact List.Mem.head _
  · intro f hf
    have hf : f ∈ ([] : List FHandle) := hf
    cases hf
  · exact List.Mem.head _
  · intro f hf
    have hf : f ∈ ([] : List FHandle) := hf
    cases hf

end Rothko
