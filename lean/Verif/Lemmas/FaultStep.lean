import Verif.Props.FaultCalls
/-!
# One step of a call on the shared file cache, when the operating system may report errors
-/
namespace Rothko

attribute [local irreducible] createFile openFile

variable {α : Type}

/-- The answers `chs` are those of the oracles from the present time on. -/
def AnswersF (chs : List (Bool × Nat × Option FileFault)) (s : Store) (ids : Oracles) : Prop :=
  ∀ i b d f, chs[i]? = some (b, d, f) → s.hit (s.clock + i) = b ∧ ids.1 (s.clock + i) = d ∧ ids.2 (s.clock + i) = f

theorem answersF_one {b : Bool} {d : Nat} {f : Option FileFault} {s : Store} {ids : Oracles} (h : AnswersF [(b, d, f)] s ids) : s.hit s.clock = b ∧ ids.1 s.clock = d ∧ ids.2 s.clock = f := h 0 b d f rfl

theorem install_same {a b : Store} (h : SameFs a b) (c : Except FErr File × Bytes) (idx : Int) :
    (a.install c idx).1 = (b.install c idx).1 ∧ SameFs (a.install c idx).2 (b.install c idx).2 ∧ (b.install c idx).2.cache = b.cache ∧ (b.install c idx).2.hit = b.hit ∧ (b.install c idx).2.clock = b.clock := by
  obtain ⟨h1, h2, h3, h4⟩ := h
  have hl : a.lookup idx = b.lookup idx := by unfold Store.lookup; rw [h2]
  obtain ⟨c, d⟩ := c
  unfold Store.install
  rw [hl, h2, h3, h4]
  cases c <;> exact ⟨rfl, ⟨h1, rfl, rfl, rfl⟩, rfl, rfl, rfl⟩

/-- `failed` with the file that would be made. -/
def failedWith (c : Except FErr File × Bytes) (r : Bool) (s : Store) (idx : Int) (ex : Bool) : FileFault → Except MErr Handle × Store
  | .clean => (.error .os, s)
  | .partly n => if ex then (.error .os, s) else if r then (.error .os, (s.install (.error .panic, List.replicate n 0) idx).2) else s.install c idx

theorem failed_with (cfg : Cfg) (s : Store) (idx : Int) (ex : Bool) (f : FileFault) : s.failed cfg idx ex f = failedWith (createFile cfg.size cfg.cap) (decide (createRefused cfg.size cfg.cap = some false)) s idx ex f := by
  cases f with
  | clean => rfl
  | partly n =>
    unfold Store.failed failedWith Store.createAt
    generalize createFile cfg.size cfg.cap = c
    cases ex <;> simp

theorem failedWith_same {a b : Store} (h : SameFs a b) (c : Except FErr File × Bytes) (r : Bool) (idx : Int) (ex : Bool) (f : FileFault) :
    (failedWith c r a idx ex f).1 = (failedWith c r b idx ex f).1 ∧ SameFs (failedWith c r a idx ex f).2 (failedWith c r b idx ex f).2 ∧
    (failedWith c r b idx ex f).2.cache = b.cache ∧ (failedWith c r b idx ex f).2.hit = b.hit ∧ (failedWith c r b idx ex f).2.clock = b.clock := by
  cases f with
  | clean => exact ⟨rfl, h, rfl, rfl, rfl⟩
  | partly n =>
    unfold failedWith
    cases ex with
    | true => exact ⟨rfl, h, rfl, rfl, rfl⟩
    | false =>
      cases r with
      | true => exact ⟨rfl, (install_same h (.error .panic, List.replicate n 0) idx).2⟩
      | false => exact install_same h c idx

theorem failed_same {a b : Store} (h : SameFs a b) (cfg : Cfg) (idx : Int) (ex : Bool) (f : FileFault) :
    (a.failed cfg idx ex f).1 = (b.failed cfg idx ex f).1 ∧ SameFs (a.failed cfg idx ex f).2 (b.failed cfg idx ex f).2 ∧
    (b.failed cfg idx ex f).2.cache = b.cache ∧ (b.failed cfg idx ex f).2.hit = b.hit ∧ (b.failed cfg idx ex f).2.clock = b.clock := by
  rw [failed_with, failed_with]
  exact failedWith_same h _ _ idx ex f

theorem openF_same {a b : Store} (h : SameFs a b) (cfg : Cfg) (idx : Int) (ex : Bool) (f : Option FileFault) :
    (a.openF cfg idx ex f).1 = (b.openF cfg idx ex f).1 ∧ SameFs (a.openF cfg idx ex f).2 (b.openF cfg idx ex f).2 ∧
    (b.openF cfg idx ex f).2.cache = b.cache ∧ (b.openF cfg idx ex f).2.hit = b.hit ∧ (b.openF cfg idx ex f).2.clock = b.clock := by
  cases f with
  | none => exact openNew_same h cfg idx ex
  | some f => exact failed_same h cfg idx ex f

theorem sharedF_miss (flt : Faults) (cfg : Cfg) (s : Store) (idx : Int) (ex : Bool) (h : s.hit s.clock = false) :
    s.acquireF flt cfg idx ex = Store.openF cfg { s.evict idx with clock := s.clock + 1 } idx ex (flt.file s.clock) := by
  rw [acquireF_openF, h]
  cases s.cache idx <;> rfl

theorem sharedF_hit (flt : Faults) (cfg : Cfg) (s : Store) (idx : Int) (ex : Bool) (h : s.hit s.clock = true) (x : Handle) (hx : s.cache idx = some x) :
    s.acquireF flt cfg idx ex = (.ok x, { s.evict idx with clock := s.clock + 1 }) := by
  rw [acquireF_openF, h, hx]

/-- What one step of a call on `m` does. -/
structure StepOkF (may : FileFault → Prop) (n : Nat) (path : Bytes → Int → Bytes) (m : Bytes) (g : FsState) (held : List (Int × FsHandle)) (p p' : FsProg α) (g' : FsState) (held' : List (Int × FsHandle)) (chs : List (Bool × Nat × Option FileFault)) : Prop where
  ok : g'.w.Ok n
  careful : p'.Careful held'
  heldOk : HeldOk path m g' held'
  others : ∀ f ∈ g.w.inUse, (∀ idx, f.path ≠ path m idx) → f ∈ g'.w.inUse
  back : ∀ f ∈ g'.w.inUse, (∃ x ∈ held', f = ⟨x.2.id, path m x.1⟩) ∨ (f ∈ g.w.inUse ∧ ∀ idx, f.path ≠ path m idx)
  opened : ∀ f ∈ g.w.opened, f ∈ g'.w.opened
  table : ∀ f ∈ g.w.opened, g'.table f.id = g.table f.id
  length : g'.w.inUse.length + held.length = g.w.inUse.length + held'.length
  cached : ∀ f ∈ g'.w.cached, (∀ idx, f.path ≠ path m idx) → f ∈ g.w.cached
  fs : ∀ m', m' ≠ m → g'.fs m' = g.fs m'
  mays : ∀ c ∈ chs, ∀ f, c.2.2 = some f → may f
  sim : ∀ s ids, SameFs (g.fs m) s → CacheRel path m g s → AnswersF chs s ids →
    ∃ s', p.oneF (s, ids) = some (p', (s', ids)) ∧ SameFs (g'.fs m) s' ∧ CacheRel path m g' s' ∧ s'.hit = s.hit ∧ s'.clock = s.clock + chs.length

theorem mays_nil {may : FileFault → Prop} : ∀ c ∈ ([] : List (Bool × Nat × Option FileFault)), ∀ f, c.2.2 = some f → may f := by
  intro c hc
  cases hc

theorem mays_none {may : FileFault → Prop} {b : Bool} {d : Nat} : ∀ c ∈ [((b, d, none) : Bool × Nat × Option FileFault)], ∀ f, c.2.2 = some f → may f := by
  intro c hc f hf
  rw [List.mem_singleton.mp hc] at hf
  cases hf

theorem mays_one {may : FileFault → Prop} {flt : Option FileFault} (h : ∀ f, flt = some f → may f) {b : Bool} {d : Nat} : ∀ c ∈ [((b, d, flt) : Bool × Nat × Option FileFault)], ∀ f, c.2.2 = some f → may f := by
  intro c hc f hf
  rw [List.mem_singleton.mp hc] at hf
  exact h f hf

section
variable {n : Nat} {path : Bytes → Int → Bytes} {m : Bytes} {g : FsState} {held : List (Int × FsHandle)}

theorem execF_acquire {may : FileFault → Prop} (flt : Option FileFault) (hmay : ∀ f, flt = some f → may f) (hinj : Paths path) (ok : g.w.Ok n) (cfg : Cfg) (idx : Int) (ex : Bool) (k : Except MErr FsHandle → FsProg α)
    (hc : (FsProg.acquire cfg idx ex k).Careful held) (hh : HeldOk path m g held) (hx : Exclusive path m g held) :
    ∃ p' g' held' chs, (FsProg.acquire cfg idx ex k).execF flt path m g = some (p', g') ∧ StepOkF may n path m g held (.acquire cfg idx ex k) p' g' held' chs := by
  obtain ⟨hlen, hne, hce, hck⟩ := hc
  have hfree := not_held hinj hx hne
  obtain ⟨r, w', e, ok', hcl, hu, hrp, hcach, hcase⟩ := acquire_shape ok (path m idx) (isOk ((g.fs m).openF cfg idx ex flt).1) hfree
  have holders : ∀ f ∈ w'.cached, (∀ i, f.path ≠ path m i) → f ∈ g.w.cached := fun f hf _ => (hcach f hf).2
  have hold : ∀ f ∈ g.w.inUse, f ∈ w'.inUse := fun f hf => by rw [hu]; exact List.mem_append_right _ hf
  have back0 : ∀ f ∈ g.w.inUse, (∃ x ∈ held, f = ⟨x.2.id, path m x.1⟩) ∨ (f ∈ g.w.inUse ∧ ∀ i, f.path ≠ path m i) := by
    intro f hf
    rcases mine (m := m) hinj f with ⟨i, hi⟩ | hi
    · exact Or.inl (hx f hf i hi)
    · exact Or.inr ⟨hf, hi⟩
  rcases hcase with ⟨ho, f, rfl, hfc, hlt⟩ | ⟨ho, hfresh⟩
  · -- from the cache
    have hp : f.path = path m idx := hrp f rfl
    refine ⟨k (.ok ⟨f.id, g.table f.id⟩), { g with w := w' }, (idx, ⟨f.id, g.table f.id⟩) :: held, [(true, f.id, none)], ?_, ?_⟩
    · simp only [FsProg.execF, e, if_pos hlt]
    · have hfe : f = ⟨f.id, path m idx⟩ := by rw [← hp]
      refine ⟨ok', hck _, ⟨?_, by simp only [List.length_cons]; omega, ?_, ?_⟩, fun f' hf' _ => hold f' hf', ?_, fun f' hf' => by show f' ∈ w'.opened; rw [ho]; exact hf', fun _ _ => rfl, ?_, holders, fun _ _ => rfl, mays_none, ?_⟩
      · rw [List.map_cons, List.nodup_cons]
        refine ⟨?_, hh.nodup⟩
        intro hm
        obtain ⟨x, hx1, hx2⟩ := List.mem_map.mp hm
        exact hne x hx1 hx2
      · intro x hxm
        rcases List.mem_cons.mp hxm with rfl | hxm
        · show _ ∈ w'.inUse
          rw [hu]
          exact List.mem_append_left _ (by rw [← hfe]; exact List.mem_cons_self ..)
        · exact hold _ (hh.inUse x hxm)
      · intro x hxm
        rcases List.mem_cons.mp hxm with rfl | hxm
        · rfl
        · exact hh.table x hxm
      · intro f' hf'
        have hf' : f' ∈ w'.inUse := hf'
        rw [hu] at hf'
        rcases List.mem_append.mp hf' with hf' | hf'
        · rw [Option.toList_some, List.mem_singleton] at hf'
          subst hf'
          exact Or.inl ⟨_, List.mem_cons_self .., hfe⟩
        · rcases back0 f' hf' with ⟨x, h1, h2⟩ | h1
          · exact Or.inl ⟨x, List.mem_cons_of_mem _ h1, h2⟩
          · exact Or.inr h1
      · show w'.inUse.length + _ = _
        rw [hu]
        simp only [Option.toList_some, List.singleton_append, List.length_cons]
        omega
      · intro s ids hs hr ha
        obtain ⟨a1, a2, a3⟩ := answersF_one ha
        have hcs := hr f hfc idx hp
        refine ⟨{ s.evict idx with clock := s.clock + 1 }, ?_, ⟨hs.1, hs.2, hs.3, hs.4⟩, ?_, rfl, rfl⟩
        · simp only [FsProg.oneF, sharedF_hit _ cfg s idx ex a1 _ hcs, a2]
        · intro f' hf' i hi
          obtain ⟨h1, h2⟩ := hcach f' hf'
          have hii : i ≠ idx := fun ei => h1 (by rw [hi, ei])
          show (s.evict idx).cache i = _
          rw [evict_cache s idx i hii]
          exact hr f' h2 i hi
  · -- opened or made
    have evs : ∀ s, SameFs (g.fs m) s → SameFs (g.fs m) { s.evict idx with clock := s.clock + 1 } := fun s hs => ⟨hs.1, hs.2, hs.3, hs.4⟩
    generalize hon : (g.fs m).openF cfg idx ex flt = on at e hfresh
    obtain ⟨x | x, s1⟩ := on
    · -- failed
      have hr0 : r = none := hfresh
      subst hr0
      refine ⟨k (.error x), { g.setFs m s1 with w := w', leaked := g.leaked + (if flt.isNone && mapsAt cfg (g.fs m) idx ex then 1 else 0) }, held, [(false, 0, flt)], ?_, ?_⟩
      · simp only [FsProg.execF, hon, e]
      · refine ⟨ok', hce _, ⟨hh.nodup, hh.two, fun y hy => hold _ (hh.inUse y hy), hh.table⟩, fun f' hf' _ => hold f' hf', ?_, fun f' hf' => by show f' ∈ w'.opened; rw [ho]; exact hf', fun _ _ => rfl, ?_, holders, fun m' hm' => if_neg hm', mays_one hmay, ?_⟩
        · intro f' hf'
          have hf' : f' ∈ w'.inUse := hf'
          rw [hu] at hf'
          exact back0 f' hf'
        · show w'.inUse.length + _ = _
          rw [hu]; simp
        · intro s ids hs hr ha
          obtain ⟨a1, a2, a3⟩ := answersF_one ha
          obtain ⟨o1, o2, o3, o4, o5⟩ := openF_same (evs s hs) cfg idx ex flt
          rw [hon] at o1 o2
          generalize ho' : Store.openF cfg { s.evict idx with clock := s.clock + 1 } idx ex flt = on' at o1 o2 o3 o4 o5
          obtain ⟨y, s'⟩ := on'
          dsimp only at o1 o2 o3 o4 o5
          subst o1
          refine ⟨s', ?_, ?_, ?_, o4, o5⟩
          · simp only [FsProg.oneF, sharedF_miss _ cfg s idx ex a1, fileFaults, a3, ho']
          · show SameFs (if m = m then s1 else g.fs m) s'
            rw [if_pos rfl]; exact o2
          · intro f' hf' i hi
            obtain ⟨h1, h2⟩ := hcach f' hf'
            have hii : i ≠ idx := fun ei => h1 (by rw [hi, ei])
            rw [o3]
            show (s.evict idx).cache i = _
            rw [evict_cache s idx i hii]
            exact hr f' h2 i hi
    · -- succeeded
      have hr0 : r = some ⟨g.w.opened.length, path m idx⟩ := hfresh
      subst hr0
      refine ⟨k (.ok ⟨g.w.opened.length, x⟩), { g.setFs m s1 with w := w', table := fun i => if i = g.w.opened.length then x else g.table i }, (idx, ⟨g.w.opened.length, x⟩) :: held, [(false, g.w.opened.length, flt)], ?_, ?_⟩
      · simp only [FsProg.execF, hon, e, Nat.lt_irrefl, if_false]
      · have tab : ∀ f' ∈ g.w.opened, (if f'.id = g.w.opened.length then x else g.table f'.id) = g.table f'.id := by
          intro f' hf'
          have := ok.id_lt hf'
          rw [if_neg (by omega)]
        refine ⟨ok', hck _, ⟨?_, by simp only [List.length_cons]; omega, ?_, ?_⟩, fun f' hf' _ => hold f' hf', ?_, fun f' hf' => by show f' ∈ w'.opened; rw [ho]; exact List.mem_append_right _ hf', tab, ?_, holders, fun m' hm' => if_neg hm', mays_one hmay, ?_⟩
        · rw [List.map_cons, List.nodup_cons]
          refine ⟨?_, hh.nodup⟩
          intro hm
          obtain ⟨y, hx1, hx2⟩ := List.mem_map.mp hm
          exact hne y hx1 hx2
        · intro y hym
          rcases List.mem_cons.mp hym with rfl | hym
          · show _ ∈ w'.inUse
            rw [hu]
            exact List.mem_append_left _ (List.mem_cons_self ..)
          · exact hold _ (hh.inUse y hym)
        · intro y hym
          rcases List.mem_cons.mp hym with rfl | hym
          · exact if_pos rfl
          · have := tab _ ((ok.places _).mpr (Or.inl (hh.inUse y hym)))
            exact this.trans (hh.table y hym)
        · intro f' hf'
          have hf' : f' ∈ w'.inUse := hf'
          rw [hu] at hf'
          rcases List.mem_append.mp hf' with hf' | hf'
          · rw [Option.toList_some, List.mem_singleton] at hf'
            subst hf'
            exact Or.inl ⟨_, List.mem_cons_self .., rfl⟩
          · rcases back0 f' hf' with ⟨y, h1, h2⟩ | h1
            · exact Or.inl ⟨y, List.mem_cons_of_mem _ h1, h2⟩
            · exact Or.inr h1
        · show w'.inUse.length + _ = _
          rw [hu]
          simp only [Option.toList_some, List.singleton_append, List.length_cons]
          omega
        · intro s ids hs hr ha
          obtain ⟨a1, a2, a3⟩ := answersF_one ha
          obtain ⟨o1, o2, o3, o4, o5⟩ := openF_same (evs s hs) cfg idx ex flt
          rw [hon] at o1 o2
          generalize ho' : Store.openF cfg { s.evict idx with clock := s.clock + 1 } idx ex flt = on' at o1 o2 o3 o4 o5
          obtain ⟨y, s'⟩ := on'
          dsimp only at o1 o2 o3 o4 o5
          subst o1
          refine ⟨s', ?_, ?_, ?_, o4, o5⟩
          · simp only [FsProg.oneF, sharedF_miss _ cfg s idx ex a1, fileFaults, a3, ho', a2]
          · show SameFs (if m = m then s1 else g.fs m) s'
            rw [if_pos rfl]; exact o2
          · intro f' hf' i hi
            obtain ⟨h1, h2⟩ := hcach f' hf'
            have hii : i ≠ idx := fun ei => h1 (by rw [hi, ei])
            rw [o3]
            show (s.evict idx).cache i = some (if f'.id = g.w.opened.length then x else g.table f'.id)
            rw [evict_cache s idx i hii, tab f' ((ok.places f').mpr (Or.inr (Or.inl h2)))]
            exact hr f' h2 i hi

theorem execF_release {may : FileFault → Prop} (flt : Option FileFault) (hinj : Paths path) (ok : g.w.Ok n) (idx : Int) (h : FsHandle) (k : FsProg α)
    (hc : (FsProg.release idx h k).Careful held) (hh : HeldOk path m g held) (hx : Exclusive path m g held) :
    ∃ p' g' held' chs, (FsProg.release idx h k).execF flt path m g = some (p', g') ∧ StepOkF may n path m g held (.release idx h k) p' g' held' chs := by
  obtain ⟨hmem, hck⟩ := hc
  have hin := hh.inUse _ hmem
  obtain ⟨r, w', e, ok', ho, hu, hcach⟩ := release_shape ok _ hin
  have hnd : held.Nodup := hh.nodup.of_map _
  have hothers : ∀ x ∈ held.erase (idx, h), x.1 ≠ idx ∧ x ∈ held := by
    intro x hxm
    have hx1 := List.mem_of_mem_erase hxm
    refine ⟨?_, hx1⟩
    intro ei
    have hp : held.Perm ((idx, h) :: held.erase (idx, h)) := List.perm_cons_erase hmem
    have := (hp.map Prod.fst).nodup_iff.mp hh.nodup
    rw [List.map_cons, List.nodup_cons] at this
    exact this.1 (List.mem_map.mpr ⟨x, hxm, ei⟩)
  refine ⟨k, { g with w := w' }, held.erase (idx, h), [], ?_, ?_⟩
  · simp only [FsProg.execF, e]
  · refine ⟨ok', hck, ⟨?_, ?_, ?_, ?_⟩, ?_, ?_, fun f' hf' => by show f' ∈ w'.opened; rw [ho]; exact hf', fun _ _ => rfl, ?_, ?_, fun _ _ => rfl, mays_nil, ?_⟩
    · exact (List.Sublist.map _ List.erase_sublist).nodup hh.nodup
    · exact Nat.le_trans (List.Sublist.length_le List.erase_sublist) hh.two
    · intro x hxm
      obtain ⟨h1, h2⟩ := hothers x hxm
      show _ ∈ w'.inUse
      rw [hu]
      refine (List.mem_erase_of_ne ?_).mpr (hh.inUse x h2)
      intro e1
      injection e1 with _ e1
      exact h1 (hinj _ _ _ _ e1).2
    · intro x hxm
      exact hh.table x (hothers x hxm).2
    · intro f' hf' hne
      show f' ∈ w'.inUse
      rw [hu]
      exact (List.mem_erase_of_ne (fun e1 => hne idx (by rw [e1]))).mpr hf'
    · intro f' hf'
      have hf' : f' ∈ w'.inUse := hf'
      rw [hu] at hf'
      have h1 := List.mem_of_mem_erase hf'
      rcases mine (m := m) hinj f' with ⟨i, hi⟩ | hi
      · left
        obtain ⟨x, hx1, hx2⟩ := hx f' h1 i hi
        refine ⟨x, ?_, hx2⟩
        refine (List.mem_erase_of_ne ?_).mpr hx1
        rintro rfl
        -- it was erased
        have hndu : g.w.inUse.Nodup := ok.uniq.of_map _
        rw [hx2] at hf'
        exact (List.Nodup.mem_erase_iff hndu).mp hf' |>.1 rfl
      · exact Or.inr ⟨h1, hi⟩
    · show w'.inUse.length + _ = _
      rw [hu, List.length_erase_of_mem hin, List.length_erase_of_mem hmem]
      have l1 := List.length_pos_of_mem hin
      have l2 := List.length_pos_of_mem hmem
      omega
    · intro f' hf' hne
      rcases hcach f' hf' with rfl | ⟨_, h2⟩
      · exact absurd rfl (hne idx)
      · exact h2
    · intro s ids hs hr ha
      refine ⟨s.release idx h.geo, rfl, ⟨hs.1, hs.2, hs.3, hs.4⟩, ?_, rfl, rfl⟩
      intro f' hf' i hi
      show (if i = idx then some h.geo else s.cache i) = some (g.table f'.id)
      rcases hcach f' hf' with rfl | ⟨h1, h2⟩
      · have : i = idx := ((hinj _ _ _ _ hi).2).symm
        rw [if_pos this, hh.table _ hmem]
      · have : i ≠ idx := fun ei => h1 (by rw [hi, ei])
        rw [if_neg this]
        exact hr f' h2 i hi

/-- One step of a careful call: it is finished, or the step is possible. -/
theorem execF_ok {may : FileFault → Prop} (flt : Option FileFault) (hmay : ∀ f, flt = some f → may f) (hinj : Paths path) (ok : g.w.Ok n) (p : FsProg α) (hc : p.Careful held) (hh : HeldOk path m g held) (hx : Exclusive path m g held) :
    (∃ a, p = .done a) ∨ ∃ p' g' held' chs, p.execF flt path m g = some (p', g') ∧ StepOkF may n path m g held p p' g' held' chs := by
  have back0 : ∀ f ∈ g.w.inUse, (∃ x ∈ held, f = ⟨x.2.id, path m x.1⟩) ∨ (f ∈ g.w.inUse ∧ ∀ i, f.path ≠ path m i) := by
    intro f hf
    rcases mine (m := m) hinj f with ⟨i, hi⟩ | hi
    · exact Or.inl (hx f hf i hi)
    · exact Or.inr ⟨hf, hi⟩
  cases p with
  | done a => exact Or.inl ⟨a, rfl⟩
  | acquire cfg idx ex k => exact Or.inr (execF_acquire flt hmay hinj ok cfg idx ex k hc hh hx)
  | release idx h k => exact Or.inr (execF_release flt hinj ok idx h k hc hh hx)
  | evict idx k =>
    right
    obtain ⟨hne, hck⟩ := hc
    obtain ⟨r, w', e, ok', ho, hu, hcach⟩ := evict_shape ok (path m idx) (not_held hinj hx hne)
    refine ⟨k, { g with w := w' }, held, [], by simp only [FsProg.execF, e], ?_⟩
    refine ⟨ok', hck, ⟨hh.nodup, hh.two, fun y hy => by show _ ∈ w'.inUse; rw [hu]; exact hh.inUse y hy, hh.table⟩, fun f' hf' _ => by show _ ∈ w'.inUse; rw [hu]; exact hf', ?_,
      fun f' hf' => by show f' ∈ w'.opened; rw [ho]; exact hf', fun _ _ => rfl, by show w'.inUse.length + _ = _; rw [hu], fun f' hf' _ => (hcach f' hf').2, fun _ _ => rfl, mays_nil, ?_⟩
    · intro f' hf'
      have hf' : f' ∈ w'.inUse := hf'
      rw [hu] at hf'
      exact back0 f' hf'
    · intro s ids hs hr ha
      refine ⟨s.evict idx, rfl, ⟨hs.1, hs.2, hs.3, hs.4⟩, ?_, rfl, rfl⟩
      intro f' hf' i hi
      obtain ⟨h1, h2⟩ := hcach f' hf'
      rw [evict_cache s idx i (fun ei => h1 (by rw [hi, ei]))]
      exact hr f' h2 i hi
  | remove idx k =>
    right
    refine ⟨k, g.setFs m ((g.fs m).remove idx), held, [], rfl, ok, hc, ⟨hh.nodup, hh.two, hh.inUse, hh.table⟩, fun _ h _ => h, back0, fun _ h => h, fun _ _ => rfl, rfl, fun _ h _ => h, fun m' hm' => if_neg hm', mays_nil, ?_⟩
    intro s ids hs hr ha
    refine ⟨s.remove idx, rfl, ?_, hr, rfl, rfl⟩
    show SameFs (if m = m then (g.fs m).remove idx else g.fs m) _
    rw [if_pos rfl]
    exact ⟨hs.1, by show List.filter _ _ = List.filter _ _; rw [hs.2], hs.3, hs.4⟩
  | load h k =>
    right
    refine ⟨k ((g.fs m).file h.geo), g, held, [], rfl, ok, hc.2 _, hh, fun _ h _ => h, back0, fun _ h => h, fun _ _ => rfl, rfl, fun _ h _ => h, fun m' hm' => rfl, mays_nil, ?_⟩
    intro s ids hs hr ha
    refine ⟨s, ?_, hs, hr, rfl, rfl⟩
    show some (k (s.file h.geo), (s, ids)) = _
    unfold Store.file
    rw [hs.disk]
  | store h head v f k =>
    right
    refine ⟨k, g.setFs m ((g.fs m).setFile h.geo f), held, [], rfl, ok, hc.2, ⟨hh.nodup, hh.two, hh.inUse, hh.table⟩, fun _ h _ => h, back0, fun _ h => h, fun _ _ => rfl, rfl, fun _ h _ => h, fun m' hm' => if_neg hm', mays_nil, ?_⟩
    intro s ids hs hr ha
    refine ⟨s.setFile h.geo f, rfl, ?_, hr, rfl, rfl⟩
    show SameFs (if m = m then (g.fs m).setFile h.geo f else g.fs m) _
    rw [if_pos rfl]
    refine ⟨hs.1, hs.2, ?_, hs.4⟩
    show (fun i => if i = h.geo.ino then f.data else (g.fs m).disk i) = (fun i => if i = h.geo.ino then f.data else s.disk i)
    rw [hs.disk]

end

end Rothko
