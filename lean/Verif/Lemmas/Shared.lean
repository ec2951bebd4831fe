import Verif.Props.Handles
import Verif.Props.FileCache
/-!
# One step of a call on the shared file cache
-/
namespace Rothko

variable {α : Type}

theorem FWorld.Ok.id_lt {n : Nat} {w : FWorld} (h : w.Ok n) {f : FHandle} (hf : f ∈ w.opened) : f.id < w.opened.length := by
  have : f.id ∈ w.opened.map FHandle.id := List.mem_map.mpr ⟨f, hf, rfl⟩
  rw [h.ids] at this
  exact List.mem_range.mp (List.mem_reverse.mp this)

theorem FWorld.Ok.places {n : Nat} {w : FWorld} (h : w.Ok n) (f : FHandle) : f ∈ w.opened ↔ f ∈ w.inUse ∨ f ∈ w.cached ∨ f ∈ w.closed := by
  rw [h.cons.mem_iff, List.mem_append, List.mem_append, or_assoc]

theorem FWorld.Ok.apart {n : Nat} {w : FWorld} (h : w.Ok n) (f : FHandle) : ¬ (f ∈ w.inUse ∧ f ∈ w.cached) ∧ ¬ (f ∈ w.inUse ∧ f ∈ w.closed) ∧ ¬ (f ∈ w.cached ∧ f ∈ w.closed) := by
  have hn := h.cons.nodup_iff.mp h.opened_nodup
  rw [List.nodup_append] at hn
  obtain ⟨h1, h2, h3⟩ := hn
  rw [List.nodup_append] at h1
  obtain ⟨_, _, h4⟩ := h1
  refine ⟨fun ⟨a, b⟩ => h4 f a f b rfl, fun ⟨a, b⟩ => h3 f (List.mem_append_left _ a) f b rfl, fun ⟨a, b⟩ => h3 f (List.mem_append_right _ a) f b rfl⟩

/-- A handle that is cached after a call was cached before, or it was in use and is not any more. -/
theorem FWorld.Ok.cached_from {n : Nat} {w w' : FWorld} (h : w.Ok n) (h' : w'.Ok n) (hc : ∀ f ∈ w.closed, f ∈ w'.closed) {f : FHandle} (hf : f ∈ w'.cached) (ho : f ∈ w.opened) :
    f ∈ w.cached ∨ (f ∈ w.inUse ∧ f ∉ w'.inUse) := by
  rcases (h.places f).mp ho with hu | hc' | hc'
  · exact Or.inr ⟨hu, fun hu' => (h'.apart f).1 ⟨hu', hf⟩⟩
  · exact Or.inl hc'
  · exact absurd ⟨hf, hc f hc'⟩ (h'.apart f).2.2

theorem acquire_shape {n : Nat} {w : FWorld} (h : w.Ok n) (p : Bytes) (ok : Bool) (ha : ∀ f ∈ w.inUse, f.path ≠ p) :
    ∃ r w', w.step (.acquire p ok) = some (r, w') ∧ w'.Ok n ∧ w'.closed = w.closed ∧ w'.inUse = r.toList ++ w.inUse ∧ (∀ f, r = some f → f.path = p) ∧ (∀ f ∈ w'.cached, f.path ≠ p ∧ f ∈ w.cached) ∧
      ((w'.opened = w.opened ∧ ∃ f, r = some f ∧ f ∈ w.cached ∧ f.id < w.opened.length) ∨ (w'.opened = r.toList ++ w.opened ∧ r = w.fresh p ok)) := by
  obtain ⟨r, w', e, ok', h1, _, _⟩ := h.step (.acquire p ok) ha
  obtain ⟨h2, h3⟩ := h1 p ok rfl
  have shape : w'.closed = w.closed ∧ w'.inUse = r.toList ++ w.inUse ∧ ((w'.opened = w.opened ∧ ∃ f, r = some f) ∨ (w'.opened = r.toList ++ w.opened ∧ r = w.fresh p ok)) := by
    simp only [FWorld.step, FileCache.acquire] at e
    cases ht : w.fch.toks p with
    | none =>
      simp only [ht, Option.some.injEq, Prod.mk.injEq] at e
      obtain ⟨rfl, rfl⟩ := e
      exact ⟨rfl, rfl, Or.inr ⟨rfl, rfl⟩⟩
    | some tok =>
      simp only [ht] at e
      cases hk : w.fch.ch.take tok with
      | none => simp only [hk] at e; cases e
      | some res =>
        obtain ⟨f | f, c⟩ := res
        · simp only [hk, Option.some.injEq, Prod.mk.injEq] at e
          obtain ⟨rfl, rfl⟩ := e
          exact ⟨rfl, rfl, Or.inr ⟨rfl, rfl⟩⟩
        · simp only [hk, Option.some.injEq, Prod.mk.injEq] at e
          obtain ⟨rfl, rfl⟩ := e
          exact ⟨rfl, rfl, Or.inl ⟨rfl, f, rfl⟩⟩
  obtain ⟨hc, hu, ho⟩ := shape
  have hcl : ∀ f ∈ w.closed, f ∈ w'.closed := fun f hf => hc.symm ▸ hf
  have old : ∀ f ∈ w'.cached, f ∈ w.cached := by
    intro f hf
    have hin : f ∈ w.opened := by
      have hfo := (ok'.places f).mpr (Or.inr (Or.inl hf))
      rcases ho with ⟨e1, _⟩ | ⟨e1, e2⟩
      · rw [← e1]; exact hfo
      · rw [e1, List.mem_append] at hfo
        rcases hfo with hfo | hfo
        · have : f ∈ w'.inUse := by rw [hu]; exact List.mem_append_left _ hfo
          exact absurd ⟨this, hf⟩ (ok'.apart f).1
        · exact hfo
    rcases h.cached_from ok' hcl hf hin with h4 | ⟨h4, h5⟩
    · exact h4
    · exact absurd (by rw [hu]; exact List.mem_append_right _ h4) h5
  refine ⟨r, w', e, ok', hc, hu, fun f hf => (h2 f hf).1, ?_, ?_⟩
  · intro f hf
    refine ⟨?_, old f hf⟩
    intro hp
    have hr := h3 f (old f hf) hp
    have : f ∈ w'.inUse := by rw [hu, hr]; exact List.mem_cons_self ..
    exact (ok'.apart f).1 ⟨this, hf⟩
  · rcases ho with ⟨e1, f, hr⟩ | e1
    · left
      refine ⟨e1, f, hr, ?_⟩
      have hfu : f ∈ w'.inUse := by rw [hu, hr]; exact List.mem_cons_self ..
      have hfo : f ∈ w.opened := by rw [← e1]; exact (ok'.places f).mpr (Or.inl hfu)
      refine ⟨?_, h.id_lt hfo⟩
      rcases (h.places f).mp hfo with a | a | a
      · exact absurd (h2 f hr).1 (ha f a)
      · exact a
      · exact absurd ⟨hfu, hcl f a⟩ (ok'.apart f).2.1
    · exact Or.inr e1

theorem release_shape {n : Nat} {w : FWorld} (h : w.Ok n) (f : FHandle) (hf : f ∈ w.inUse) :
    ∃ r w', w.step (.release f) = some (r, w') ∧ w'.Ok n ∧ w'.opened = w.opened ∧ w'.inUse = w.inUse.erase f ∧ ∀ x ∈ w'.cached, x = f ∨ (x.path ≠ f.path ∧ x ∈ w.cached) := by
  obtain ⟨r, w', e, ok', _⟩ := h.step (.release f) hf
  have shape : w'.opened = w.opened ∧ w'.inUse = w.inUse.erase f ∧ ∀ x ∈ w.closed, x ∈ w'.closed := by
    simp only [FWorld.step] at e
    cases hk : w.fch.release f.path f with
    | none => simp only [hk] at e; cases e
    | some res =>
      obtain ⟨ev, c⟩ := res
      simp only [hk, Option.some.injEq, Prod.mk.injEq] at e
      obtain ⟨_, rfl⟩ := e
      exact ⟨rfl, rfl, fun x hx => List.mem_append_right _ hx⟩
  obtain ⟨ho, hu, hc⟩ := shape
  refine ⟨r, w', e, ok', ho, hu, ?_⟩
  intro x hx
  have hxo : x ∈ w.opened := by rw [← ho]; exact (ok'.places x).mpr (Or.inr (Or.inl hx))
  rcases h.cached_from ok' hc hx hxo with h1 | ⟨h1, h2⟩
  · obtain ⟨⟨t, x'⟩, hm, rfl⟩ := List.mem_map.mp h1
    exact Or.inr ⟨(h.sep t x' hm f hf).symm, h1⟩
  · by_cases e1 : x = f
    · exact Or.inl e1
    · exact absurd (by rw [hu]; exact (List.mem_erase_of_ne e1).mpr h1) h2

theorem evict_shape {n : Nat} {w : FWorld} (h : w.Ok n) (p : Bytes) (ha : ∀ f ∈ w.inUse, f.path ≠ p) :
    ∃ r w', w.step (.evict p) = some (r, w') ∧ w'.Ok n ∧ w'.opened = w.opened ∧ w'.inUse = w.inUse ∧ ∀ x ∈ w'.cached, x.path ≠ p ∧ x ∈ w.cached := by
  obtain ⟨r, w', e, ok', _, h1, _⟩ := h.step (.evict p) ha
  have shape : w'.opened = w.opened ∧ w'.inUse = w.inUse ∧ ∀ x ∈ w.closed, x ∈ w'.closed := by
    simp only [FWorld.step] at e
    cases hk : w.fch.evict p with
    | none => simp only [hk] at e; cases e
    | some res =>
      obtain ⟨ev, c⟩ := res
      simp only [hk, Option.some.injEq, Prod.mk.injEq] at e
      obtain ⟨_, rfl⟩ := e
      exact ⟨rfl, rfl, fun x hx => List.mem_append_right _ hx⟩
  obtain ⟨ho, hu, hc⟩ := shape
  refine ⟨r, w', e, ok', ho, hu, ?_⟩
  intro x hx
  refine ⟨h1 p rfl x hx, ?_⟩
  have hxo : x ∈ w.opened := by rw [← ho]; exact (ok'.places x).mpr (Or.inr (Or.inl hx))
  rcases h.cached_from ok' hc hx hxo with h2 | ⟨h2, h3⟩
  · exact h2
  · exact absurd (by rw [hu]; exact h2) h3

theorem close_shape {n : Nat} {w : FWorld} (h : w.Ok n) : ∃ r w', w.step .close = some (r, w') ∧ w'.Ok n ∧ w'.opened = w.opened ∧ w'.inUse = w.inUse ∧ w'.cached = [] := by
  obtain ⟨r, w', e, ok', _, _, h1⟩ := h.step .close trivial
  refine ⟨r, w', e, ok', ?_, ?_, h1 rfl⟩
  · simp only [FWorld.step, Option.some.injEq, Prod.mk.injEq] at e
    rw [← e.2]
  · simp only [FWorld.step, Option.some.injEq, Prod.mk.injEq] at e
    rw [← e.2]

/-! ## What is kept -/

/-- The same directory and files. -/
structure SameFs (a b : Store) : Prop where
  dirExists : a.dirExists = b.dirExists
  dir : a.dir = b.dir
  disk : a.disk = b.disk
  next : a.next = b.next

/-- The cached handles of a metric are those that Model/Metric has. -/
def CacheRel (path : Bytes → Int → Bytes) (m : Bytes) (g : FsState) (s : Store) : Prop := ∀ f ∈ g.w.cached, ∀ idx, f.path = path m idx → s.cache idx = some (g.table f.id)

/-- The answers `chs` are those of the oracles from the present time on. -/
def Answers (chs : List (Bool × Nat)) (s : Store) (ids : Nat → Nat) : Prop := ∀ i b d, chs[i]? = some (b, d) → s.hit (s.clock + i) = b ∧ ids (s.clock + i) = d

/-- The handles a call on `m` holds. -/
structure HeldOk (path : Bytes → Int → Bytes) (m : Bytes) (g : FsState) (held : List (Int × FsHandle)) : Prop where
  nodup : (held.map Prod.fst).Nodup
  two : held.length ≤ 2
  inUse : ∀ x ∈ held, ⟨x.2.id, path m x.1⟩ ∈ g.w.inUse
  table : ∀ x ∈ held, g.table x.2.id = x.2.geo

/-- No one but the holder of `held` has handles of `m`. -/
def Exclusive (path : Bytes → Int → Bytes) (m : Bytes) (g : FsState) (held : List (Int × FsHandle)) : Prop := ∀ f ∈ g.w.inUse, ∀ idx, f.path = path m idx → ∃ x ∈ held, f = ⟨x.2.id, path m x.1⟩

/-- What one step of a call on `m` does. -/
structure StepOk (n : Nat) (path : Bytes → Int → Bytes) (m : Bytes) (g : FsState) (held : List (Int × FsHandle)) (p p' : FsProg α) (g' : FsState) (held' : List (Int × FsHandle)) (chs : List (Bool × Nat)) : Prop where
  ok : g'.w.Ok n
  careful : p'.Careful held'
  heldOk : HeldOk path m g' held'
  others : ∀ f ∈ g.w.inUse, (∀ idx, f.path ≠ path m idx) → f ∈ g'.w.inUse
  back : ∀ f ∈ g'.w.inUse, (∃ x ∈ held', f = ⟨x.2.id, path m x.1⟩) ∨ (f ∈ g.w.inUse ∧ ∀ idx, f.path ≠ path m idx)
  opened : ∀ f ∈ g.w.opened, f ∈ g'.w.opened
  table : ∀ f ∈ g.w.opened, g'.table f.id = g.table f.id
  length : g'.w.inUse.length + held.length = g.w.inUse.length + held'.length
  cached : ∀ f ∈ g'.w.cached, (∀ idx, f.path ≠ path m idx) → f ∈ g.w.cached
  fs : ∀ m', m' ≠ m → g'.fs m' = g.fs m'
  sim : ∀ s ids, SameFs (g.fs m) s → CacheRel path m g s → Answers chs s ids →
    ∃ s', p.one (s, ids) = some (p', (s', ids)) ∧ SameFs (g'.fs m) s' ∧ CacheRel path m g' s' ∧ s'.hit = s.hit ∧ s'.clock = s.clock + chs.length

theorem openNew_same {a b : Store} (h : SameFs a b) (cfg : Cfg) (idx : Int) (ex : Bool) :
    (a.openNew cfg idx ex).1 = (b.openNew cfg idx ex).1 ∧ SameFs (a.openNew cfg idx ex).2 (b.openNew cfg idx ex).2 ∧
    (b.openNew cfg idx ex).2.cache = b.cache ∧ (b.openNew cfg idx ex).2.hit = b.hit ∧ (b.openNew cfg idx ex).2.clock = b.clock := by
  obtain ⟨h1, h2, h3, h4⟩ := h
  have hl : a.lookup idx = b.lookup idx := by unfold Store.lookup; rw [h2]
  unfold Store.openNew
  cases ex with
  | true =>
    simp only [if_true]
    unfold Store.openAt
    rw [hl, h3]
    cases b.lookup idx with
    | none => exact ⟨rfl, ⟨h1, h2, h3, h4⟩, rfl, rfl, rfl⟩
    | some ino =>
      dsimp only
      cases openFile (b.disk ino) <;> exact ⟨rfl, ⟨h1, h2, h3, h4⟩, rfl, rfl, rfl⟩
  | false =>
    simp only [Bool.false_eq_true, if_false]
    unfold Store.createAt
    generalize createFile cfg.size cfg.cap = c
    obtain ⟨c, d⟩ := c
    unfold Store.install
    rw [hl, h2, h3, h4]
    cases c <;> exact ⟨rfl, ⟨h1, rfl, rfl, rfl⟩, rfl, rfl, rfl⟩

theorem shared_miss (cfg : Cfg) (s : Store) (idx : Int) (ex : Bool) (h : s.hit s.clock = false) :
    s.acquire cfg idx ex = Store.openNew cfg { s.evict idx with clock := s.clock + 1 } idx ex := by
  rw [acquire_acqOf, h]
  unfold acqOf Store.openNew
  cases s.cache idx <;> rfl

theorem shared_hit (cfg : Cfg) (s : Store) (idx : Int) (ex : Bool) (h : s.hit s.clock = true) (x : Handle) (hx : s.cache idx = some x) :
    s.acquire cfg idx ex = (.ok x, { s.evict idx with clock := s.clock + 1 }) := by
  rw [acquire_acqOf, h, hx]
  rfl

theorem answers_one {b : Bool} {d : Nat} {s : Store} {ids : Nat → Nat} (h : Answers [(b, d)] s ids) : s.hit s.clock = b ∧ ids s.clock = d := h 0 b d rfl

theorem evict_cache (s : Store) (idx i : Int) (h : i ≠ idx) : (s.evict idx).cache i = s.cache i := by
  show (if i = idx then none else s.cache i) = s.cache i
  rw [if_neg h]

section
variable {n : Nat} {path : Bytes → Int → Bytes} {m : Bytes} {g : FsState} {held : List (Int × FsHandle)}

/-- Different files have different paths. -/
def Paths (path : Bytes → Int → Bytes) : Prop := ∀ m i m' i', path m i = path m' i' → m = m' ∧ i = i'

theorem mine (hinj : Paths path) (f : FHandle) : (∃ idx, f.path = path m idx) ∨ ∀ idx, f.path ≠ path m idx := by
  by_cases h : ∃ idx, f.path = path m idx
  · exact Or.inl h
  · exact Or.inr (fun idx e => h ⟨idx, e⟩)

theorem not_held (hinj : Paths path) (hx : Exclusive path m g held) {idx : Int} (hi : ∀ x ∈ held, x.1 ≠ idx) : ∀ f ∈ g.w.inUse, f.path ≠ path m idx := by
  intro f hf e
  obtain ⟨x, hxh, rfl⟩ := hx f hf idx e
  exact hi x hxh (hinj _ _ _ _ e).2

theorem exec_acquire (hinj : Paths path) (ok : g.w.Ok n) (cfg : Cfg) (idx : Int) (ex : Bool) (k : Except MErr FsHandle → FsProg α)
    (hc : (FsProg.acquire cfg idx ex k).Careful held) (hh : HeldOk path m g held) (hx : Exclusive path m g held) :
    ∃ p' g' held' chs, (FsProg.acquire cfg idx ex k).exec path m g = some (p', g') ∧ StepOk n path m g held (.acquire cfg idx ex k) p' g' held' chs := by
  obtain ⟨hlen, hne, hce, hck⟩ := hc
  have hfree := not_held hinj hx hne
  obtain ⟨r, w', e, ok', hcl, hu, hrp, hcach, hcase⟩ := acquire_shape ok (path m idx) (isOk ((g.fs m).openNew cfg idx ex).1) hfree
  have holders : ∀ f ∈ w'.cached, (∀ i, f.path ≠ path m i) → f ∈ g.w.cached := fun f hf _ => (hcach f hf).2
  have hold : ∀ f ∈ g.w.inUse, f ∈ w'.inUse := fun f hf => by rw [hu]; exact List.mem_append_right _ hf
  have back0 : ∀ f ∈ g.w.inUse, (∃ x ∈ held, f = ⟨x.2.id, path m x.1⟩) ∨ (f ∈ g.w.inUse ∧ ∀ i, f.path ≠ path m i) := by
    intro f hf
    rcases mine (m := m) hinj f with ⟨i, hi⟩ | hi
    · exact Or.inl (hx f hf i hi)
    · exact Or.inr ⟨hf, hi⟩
  rcases hcase with ⟨ho, f, rfl, hfc, hlt⟩ | ⟨ho, hfresh⟩
  · -- from the cache
    have hp : f.path = path m idx := hrp f rfl
    refine ⟨k (.ok ⟨f.id, g.table f.id⟩), { g with w := w' }, (idx, ⟨f.id, g.table f.id⟩) :: held, [(true, f.id)], ?_, ?_⟩
    · simp only [FsProg.exec, e, if_pos hlt]
    · have hfe : f = ⟨f.id, path m idx⟩ := by rw [← hp]
      refine ⟨ok', hck _, ⟨?_, by simp only [List.length_cons]; omega, ?_, ?_⟩, fun f' hf' _ => hold f' hf', ?_, fun f' hf' => by show f' ∈ w'.opened; rw [ho]; exact hf', fun _ _ => rfl, ?_, holders, fun _ _ => rfl, ?_⟩
      · rw [List.map_cons, List.nodup_cons]
        refine ⟨?_, hh.nodup⟩
        intro hm
        obtain ⟨x, hx1, hx2⟩ := List.mem_map.mp hm
        exact hne x hx1 hx2
      · intro x hxm
        rcases List.mem_cons.mp hxm with rfl | hxm
        · show _ ∈ w'.inUse
          rw [hu]
          exact List.mem_append_left _ (by rw [← hfe]; exact List.mem_cons_self ..)
        · exact hold _ (hh.inUse x hxm)
      · intro x hxm
        rcases List.mem_cons.mp hxm with rfl | hxm
        · rfl
        · exact hh.table x hxm
      · intro f' hf'
        have hf' : f' ∈ w'.inUse := hf'
        rw [hu] at hf'
        rcases List.mem_append.mp hf' with hf' | hf'
        · rw [Option.toList_some, List.mem_singleton] at hf'
          subst hf'
          exact Or.inl ⟨_, List.mem_cons_self .., hfe⟩
        · rcases back0 f' hf' with ⟨x, h1, h2⟩ | h1
          · exact Or.inl ⟨x, List.mem_cons_of_mem _ h1, h2⟩
          · exact Or.inr h1
      · show w'.inUse.length + _ = _
        rw [hu]
        simp only [Option.toList_some, List.singleton_append, List.length_cons]
        omega
      · intro s ids hs hr ha
        obtain ⟨a1, a2⟩ := answers_one ha
        have hcs := hr f hfc idx hp
        refine ⟨{ s.evict idx with clock := s.clock + 1 }, ?_, ⟨hs.1, hs.2, hs.3, hs.4⟩, ?_, rfl, rfl⟩
        · simp only [FsProg.one, shared_hit cfg s idx ex a1 _ hcs, a2]
        · intro f' hf' i hi
          obtain ⟨h1, h2⟩ := hcach f' hf'
          have hii : i ≠ idx := fun ei => h1 (by rw [hi, ei])
          show (s.evict idx).cache i = _
          rw [evict_cache s idx i hii]
          exact hr f' h2 i hi
  · -- opened or made
    have evs : ∀ s, SameFs (g.fs m) s → SameFs (g.fs m) { s.evict idx with clock := s.clock + 1 } := fun s hs => ⟨hs.1, hs.2, hs.3, hs.4⟩
    generalize hon : (g.fs m).openNew cfg idx ex = on at e hfresh
    obtain ⟨x | x, s1⟩ := on
    · -- failed
      have hr0 : r = none := hfresh
      subst hr0
      refine ⟨k (.error x), { g.setFs m s1 with w := w', leaked := g.leaked + (if mapsAt cfg (g.fs m) idx ex then 1 else 0) }, held, [(false, 0)], ?_, ?_⟩
      · simp only [FsProg.exec, hon, e]
      · refine ⟨ok', hce _, ⟨hh.nodup, hh.two, fun y hy => hold _ (hh.inUse y hy), hh.table⟩, fun f' hf' _ => hold f' hf', ?_, fun f' hf' => by show f' ∈ w'.opened; rw [ho]; exact hf', fun _ _ => rfl, ?_, holders, fun m' hm' => if_neg hm', ?_⟩
        · intro f' hf'
          have hf' : f' ∈ w'.inUse := hf'
          rw [hu] at hf'
          exact back0 f' hf'
        · show w'.inUse.length + _ = _
          rw [hu]; simp
        · intro s ids hs hr ha
          obtain ⟨a1, a2⟩ := answers_one ha
          obtain ⟨o1, o2, o3, o4, o5⟩ := openNew_same (evs s hs) cfg idx ex
          rw [hon] at o1 o2
          generalize ho' : Store.openNew cfg { s.evict idx with clock := s.clock + 1 } idx ex = on' at o1 o2 o3 o4 o5
          obtain ⟨y, s'⟩ := on'
          dsimp only at o1 o2 o3 o4 o5
          subst o1
          refine ⟨s', ?_, ?_, ?_, o4, o5⟩
          · simp only [FsProg.one, shared_miss cfg s idx ex a1, ho']
          · show SameFs (if m = m then s1 else g.fs m) s'
            rw [if_pos rfl]; exact o2
          · intro f' hf' i hi
            obtain ⟨h1, h2⟩ := hcach f' hf'
            have hii : i ≠ idx := fun ei => h1 (by rw [hi, ei])
            rw [o3]
            show (s.evict idx).cache i = _
            rw [evict_cache s idx i hii]
            exact hr f' h2 i hi
    · -- succeeded
      have hr0 : r = some ⟨g.w.opened.length, path m idx⟩ := hfresh
      subst hr0
      refine ⟨k (.ok ⟨g.w.opened.length, x⟩), { g.setFs m s1 with w := w', table := fun i => if i = g.w.opened.length then x else g.table i }, (idx, ⟨g.w.opened.length, x⟩) :: held, [(false, g.w.opened.length)], ?_, ?_⟩
      · simp only [FsProg.exec, hon, e, Nat.lt_irrefl, if_false]
      · have tab : ∀ f' ∈ g.w.opened, (if f'.id = g.w.opened.length then x else g.table f'.id) = g.table f'.id := by
          intro f' hf'
          have := ok.id_lt hf'
          rw [if_neg (by omega)]
        refine ⟨ok', hck _, ⟨?_, by simp only [List.length_cons]; omega, ?_, ?_⟩, fun f' hf' _ => hold f' hf', ?_, fun f' hf' => by show f' ∈ w'.opened; rw [ho]; exact List.mem_append_right _ hf', tab, ?_, holders, fun m' hm' => if_neg hm', ?_⟩
        · rw [List.map_cons, List.nodup_cons]
          refine ⟨?_, hh.nodup⟩
          intro hm
          obtain ⟨y, hx1, hx2⟩ := List.mem_map.mp hm
          exact hne y hx1 hx2
        · intro y hym
          rcases List.mem_cons.mp hym with rfl | hym
          · show _ ∈ w'.inUse
            rw [hu]
            exact List.mem_append_left _ (List.mem_cons_self ..)
          · exact hold _ (hh.inUse y hym)
        · intro y hym
          rcases List.mem_cons.mp hym with rfl | hym
          · exact if_pos rfl
          · have := tab _ ((ok.places _).mpr (Or.inl (hh.inUse y hym)))
            exact this.trans (hh.table y hym)
        · intro f' hf'
          have hf' : f' ∈ w'.inUse := hf'
          rw [hu] at hf'
          rcases List.mem_append.mp hf' with hf' | hf'
          · rw [Option.toList_some, List.mem_singleton] at hf'
            subst hf'
            exact Or.inl ⟨_, List.mem_cons_self .., rfl⟩
          · rcases back0 f' hf' with ⟨y, h1, h2⟩ | h1
            · exact Or.inl ⟨y, List.mem_cons_of_mem _ h1, h2⟩
            · exact Or.inr h1
        · show w'.inUse.length + _ = _
          rw [hu]
          simp only [Option.toList_some, List.singleton_append, List.length_cons]
          omega
        · intro s ids hs hr ha
          obtain ⟨a1, a2⟩ := answers_one ha
          obtain ⟨o1, o2, o3, o4, o5⟩ := openNew_same (evs s hs) cfg idx ex
          rw [hon] at o1 o2
          generalize ho' : Store.openNew cfg { s.evict idx with clock := s.clock + 1 } idx ex = on' at o1 o2 o3 o4 o5
          obtain ⟨y, s'⟩ := on'
          dsimp only at o1 o2 o3 o4 o5
          subst o1
          refine ⟨s', ?_, ?_, ?_, o4, o5⟩
          · simp only [FsProg.one, shared_miss cfg s idx ex a1, ho', a2]
          · show SameFs (if m = m then s1 else g.fs m) s'
            rw [if_pos rfl]; exact o2
          · intro f' hf' i hi
            obtain ⟨h1, h2⟩ := hcach f' hf'
            have hii : i ≠ idx := fun ei => h1 (by rw [hi, ei])
            rw [o3]
            show (s.evict idx).cache i = some (if f'.id = g.w.opened.length then x else g.table f'.id)
            rw [evict_cache s idx i hii, tab f' ((ok.places f').mpr (Or.inr (Or.inl h2)))]
            exact hr f' h2 i hi

theorem answers_nil {s : Store} {ids : Nat → Nat} : Answers [] s ids := by
  intro i b d h
  rw [List.getElem?_nil] at h
  cases h

theorem exec_release (hinj : Paths path) (ok : g.w.Ok n) (idx : Int) (h : FsHandle) (k : FsProg α)
    (hc : (FsProg.release idx h k).Careful held) (hh : HeldOk path m g held) (hx : Exclusive path m g held) :
    ∃ p' g' held' chs, (FsProg.release idx h k).exec path m g = some (p', g') ∧ StepOk n path m g held (.release idx h k) p' g' held' chs := by
  obtain ⟨hmem, hck⟩ := hc
  have hin := hh.inUse _ hmem
  obtain ⟨r, w', e, ok', ho, hu, hcach⟩ := release_shape ok _ hin
  have hnd : held.Nodup := hh.nodup.of_map _
  have hothers : ∀ x ∈ held.erase (idx, h), x.1 ≠ idx ∧ x ∈ held := by
    intro x hxm
    have hx1 := List.mem_of_mem_erase hxm
    refine ⟨?_, hx1⟩
    intro ei
    have hp : held.Perm ((idx, h) :: held.erase (idx, h)) := List.perm_cons_erase hmem
    have := (hp.map Prod.fst).nodup_iff.mp hh.nodup
    rw [List.map_cons, List.nodup_cons] at this
    exact this.1 (List.mem_map.mpr ⟨x, hxm, ei⟩)
  refine ⟨k, { g with w := w' }, held.erase (idx, h), [], ?_, ?_⟩
  · simp only [FsProg.exec, e]
  · refine ⟨ok', hck, ⟨?_, ?_, ?_, ?_⟩, ?_, ?_, fun f' hf' => by show f' ∈ w'.opened; rw [ho]; exact hf', fun _ _ => rfl, ?_, ?_, fun _ _ => rfl, ?_⟩
    · exact (List.Sublist.map _ List.erase_sublist).nodup hh.nodup
    · exact Nat.le_trans (List.Sublist.length_le List.erase_sublist) hh.two
    · intro x hxm
      obtain ⟨h1, h2⟩ := hothers x hxm
      show _ ∈ w'.inUse
      rw [hu]
      refine (List.mem_erase_of_ne ?_).mpr (hh.inUse x h2)
      intro e1
      injection e1 with _ e1
      exact h1 (hinj _ _ _ _ e1).2
    · intro x hxm
      exact hh.table x (hothers x hxm).2
    · intro f' hf' hne
      show f' ∈ w'.inUse
      rw [hu]
      exact (List.mem_erase_of_ne (fun e1 => hne idx (by rw [e1]))).mpr hf'
    · intro f' hf'
      have hf' : f' ∈ w'.inUse := hf'
      rw [hu] at hf'
      have h1 := List.mem_of_mem_erase hf'
      rcases mine (m := m) hinj f' with ⟨i, hi⟩ | hi
      · left
        obtain ⟨x, hx1, hx2⟩ := hx f' h1 i hi
        refine ⟨x, ?_, hx2⟩
        refine (List.mem_erase_of_ne ?_).mpr hx1
        rintro rfl
        -- it was erased
        have hndu : g.w.inUse.Nodup := ok.uniq.of_map _
        rw [hx2] at hf'
        exact (List.Nodup.mem_erase_iff hndu).mp hf' |>.1 rfl
      · exact Or.inr ⟨h1, hi⟩
    · show w'.inUse.length + _ = _
      rw [hu, List.length_erase_of_mem hin, List.length_erase_of_mem hmem]
      have l1 := List.length_pos_of_mem hin
      have l2 := List.length_pos_of_mem hmem
      omega
    · intro f' hf' hne
      rcases hcach f' hf' with rfl | ⟨_, h2⟩
      · exact absurd rfl (hne idx)
      · exact h2
    · intro s ids hs hr ha
      refine ⟨s.release idx h.geo, rfl, ⟨hs.1, hs.2, hs.3, hs.4⟩, ?_, rfl, rfl⟩
      intro f' hf' i hi
      show (if i = idx then some h.geo else s.cache i) = some (g.table f'.id)
      rcases hcach f' hf' with rfl | ⟨h1, h2⟩
      · have : i = idx := ((hinj _ _ _ _ hi).2).symm
        rw [if_pos this, hh.table _ hmem]
      · have : i ≠ idx := fun ei => h1 (by rw [hi, ei])
        rw [if_neg this]
        exact hr f' h2 i hi

/-- One step of a careful call: it is finished, or the step is possible. -/
theorem exec_ok (hinj : Paths path) (ok : g.w.Ok n) (p : FsProg α) (hc : p.Careful held) (hh : HeldOk path m g held) (hx : Exclusive path m g held) :
    (∃ a, p = .done a) ∨ ∃ p' g' held' chs, p.exec path m g = some (p', g') ∧ StepOk n path m g held p p' g' held' chs := by
  have back0 : ∀ f ∈ g.w.inUse, (∃ x ∈ held, f = ⟨x.2.id, path m x.1⟩) ∨ (f ∈ g.w.inUse ∧ ∀ i, f.path ≠ path m i) := by
    intro f hf
    rcases mine (m := m) hinj f with ⟨i, hi⟩ | hi
    · exact Or.inl (hx f hf i hi)
    · exact Or.inr ⟨hf, hi⟩
  cases p with
  | done a => exact Or.inl ⟨a, rfl⟩
  | acquire cfg idx ex k => exact Or.inr (exec_acquire hinj ok cfg idx ex k hc hh hx)
  | release idx h k => exact Or.inr (exec_release hinj ok idx h k hc hh hx)
  | evict idx k =>
    right
    obtain ⟨hne, hck⟩ := hc
    obtain ⟨r, w', e, ok', ho, hu, hcach⟩ := evict_shape ok (path m idx) (not_held hinj hx hne)
    refine ⟨k, { g with w := w' }, held, [], by simp only [FsProg.exec, e], ?_⟩
    refine ⟨ok', hck, ⟨hh.nodup, hh.two, fun y hy => by show _ ∈ w'.inUse; rw [hu]; exact hh.inUse y hy, hh.table⟩, fun f' hf' _ => by show _ ∈ w'.inUse; rw [hu]; exact hf', ?_,
      fun f' hf' => by show f' ∈ w'.opened; rw [ho]; exact hf', fun _ _ => rfl, by show w'.inUse.length + _ = _; rw [hu], fun f' hf' _ => (hcach f' hf').2, fun _ _ => rfl, ?_⟩
    · intro f' hf'
      have hf' : f' ∈ w'.inUse := hf'
      rw [hu] at hf'
      exact back0 f' hf'
    · intro s ids hs hr ha
      refine ⟨s.evict idx, rfl, ⟨hs.1, hs.2, hs.3, hs.4⟩, ?_, rfl, rfl⟩
      intro f' hf' i hi
      obtain ⟨h1, h2⟩ := hcach f' hf'
      rw [evict_cache s idx i (fun ei => h1 (by rw [hi, ei]))]
      exact hr f' h2 i hi
  | remove idx k =>
    right
    refine ⟨k, g.setFs m ((g.fs m).remove idx), held, [], rfl, ok, hc, ⟨hh.nodup, hh.two, hh.inUse, hh.table⟩, fun _ h _ => h, back0, fun _ h => h, fun _ _ => rfl, rfl, fun _ h _ => h, fun m' hm' => if_neg hm', ?_⟩
    intro s ids hs hr ha
    refine ⟨s.remove idx, rfl, ?_, hr, rfl, rfl⟩
    show SameFs (if m = m then (g.fs m).remove idx else g.fs m) _
    rw [if_pos rfl]
    exact ⟨hs.1, by show List.filter _ _ = List.filter _ _; rw [hs.2], hs.3, hs.4⟩
  | load h k =>
    right
    refine ⟨k ((g.fs m).file h.geo), g, held, [], rfl, ok, hc.2 _, hh, fun _ h _ => h, back0, fun _ h => h, fun _ _ => rfl, rfl, fun _ h _ => h, fun m' hm' => rfl, ?_⟩
    intro s ids hs hr ha
    refine ⟨s, ?_, hs, hr, rfl, rfl⟩
    show some (k (s.file h.geo), (s, ids)) = _
    unfold Store.file
    rw [hs.disk]
  | store h head v f k =>
    right
    refine ⟨k, g.setFs m ((g.fs m).setFile h.geo f), held, [], rfl, ok, hc.2, ⟨hh.nodup, hh.two, hh.inUse, hh.table⟩, fun _ h _ => h, back0, fun _ h => h, fun _ _ => rfl, rfl, fun _ h _ => h, fun m' hm' => if_neg hm', ?_⟩
    intro s ids hs hr ha
    refine ⟨s.setFile h.geo f, rfl, ?_, hr, rfl, rfl⟩
    show SameFs (if m = m then (g.fs m).setFile h.geo f else g.fs m) _
    rw [if_pos rfl]
    refine ⟨hs.1, hs.2, ?_, hs.4⟩
    show (fun i => if i = h.geo.ino then f.data else (g.fs m).disk i) = (fun i => if i = h.geo.ino then f.data else s.disk i)
    rw [hs.disk]

end

end Rothko
