/-
C58: opening and listing the files of a tarball.
-/
import Verif.Model.Tgzfs

namespace Rothko

variable {I : Type}

/-! ## The tree as a map from paths -/

/-- What is visible of the file at a path. -/
def TNode.view (n : TNode I) (q : List Bytes) : Option (Option I × Bytes) := (n.get q).map (fun m => (m.fi, m.data))

theorem lookup_putChild (k k' : Bytes) (v : TNode I) (l : List (Bytes × TNode I)) : (putChild k v l).lookup k' = if k' = k then some v else l.lookup k' := by
  induction l with
  | nil =>
    unfold putChild
    rw [List.lookup_cons]
    by_cases h : k' = k
    · subst h; simp
    · rw [beq_eq_false_iff_ne.mpr h, if_neg h]
  | cons a l ih =>
    obtain ⟨a, b⟩ := a
    unfold putChild
    by_cases h : a = k
    · subst h
      rw [if_pos rfl, List.lookup_cons, List.lookup_cons]
      by_cases h : k' = a
      · subst h; simp
      · rw [beq_eq_false_iff_ne.mpr h, if_neg h]
    · rw [if_neg h, List.lookup_cons, List.lookup_cons, ih]
      by_cases h' : k' = a
      · subst h'; simp [h]
      · rw [beq_eq_false_iff_ne.mpr h']

theorem mem_putChild (k x : Bytes) (v : TNode I) (l : List (Bytes × TNode I)) : x ∈ (putChild k v l).map Prod.fst ↔ x = k ∨ x ∈ l.map Prod.fst := by
  induction l with
  | nil => simp [putChild]
  | cons a l ih =>
    obtain ⟨a, b⟩ := a
    unfold putChild
    by_cases h : a = k
    · subst h; simp
    · rw [if_neg h, List.map_cons, List.mem_cons, ih, List.map_cons, List.mem_cons]
      constructor
      · rintro (a | a | a)
        · exact Or.inr (Or.inl a)
        · exact Or.inl a
        · exact Or.inr (Or.inr a)
      · rintro (a | a | a)
        · exact Or.inr (Or.inl a)
        · exact Or.inl a
        · exact Or.inr (Or.inr a)

theorem nodup_putChild (k : Bytes) (v : TNode I) (l : List (Bytes × TNode I)) (h : (l.map Prod.fst).Nodup) : ((putChild k v l).map Prod.fst).Nodup := by
  induction l with
  | nil => simp [putChild]
  | cons a l ih =>
    obtain ⟨a, b⟩ := a
    rw [List.map_cons, List.nodup_cons] at h
    unfold putChild
    by_cases e : a = k
    · subst e
      rw [if_pos rfl, List.map_cons, List.nodup_cons]
      exact h
    · rw [if_neg e, List.map_cons, List.nodup_cons, mem_putChild]
      refine ⟨?_, ih h.2⟩
      rintro (x | x)
      · exact e x
      · exact h.1 x

theorem view_nil (n : TNode I) : n.view [] = some (n.fi, n.data) := rfl

theorem view_cons (n : TNode I) (p : Bytes) (q : List Bytes) : n.view (p :: q) = (n.children.lookup p).bind (fun c => c.view q) := by
  unfold TNode.view
  rw [TNode.get]
  cases n.children.lookup p <;> rfl

theorem view_new (q : List Bytes) : (TNode.new (I := I)).view q = if q = [] then some (none, []) else none := by
  cases q with
  | nil => rfl
  | cons p q => rw [view_cons, if_neg (by simp)]; rfl

theorem view_update (i : I) (d : Bytes) (p : List Bytes) : ∀ (n : TNode I) (q : List Bytes),
    (n.update (fun n => .mk (some i) d n.children) p).view q =
      if q = p then some (some i, d) else if q <+: p then some ((n.view q).getD (none, [])) else n.view q := by
  induction p with
  | nil =>
    intro n q
    unfold TNode.update
    cases q with
    | nil => rfl
    | cons a q => rw [if_neg (by simp), if_neg (by simp), view_cons, view_cons]; rfl
  | cons p ps ih =>
    intro n q
    cases q with
    | nil =>
      rw [if_neg (by simp), if_pos (List.nil_prefix)]
      rfl
    | cons a q =>
      unfold TNode.update
      rw [view_cons]
      show ((putChild p _ n.children).lookup a).bind _ = _
      rw [lookup_putChild]
      by_cases ha : a = p
      · subst ha
        rw [if_pos rfl, Option.bind_some, ih]
        rw [view_cons]
        by_cases h1 : q = ps
        · rw [if_pos h1, if_pos (by rw [h1])]
        · rw [if_neg h1, if_neg (c := a :: q = a :: ps) (by simpa using h1)]
          by_cases h2 : q <+: ps
          · rw [if_pos h2, if_pos (c := a :: q <+: a :: ps) (by simpa using h2)]
            cases n.children.lookup a with
            | none =>
              show some ((TNode.new.view q).getD _) = some (Option.getD none _)
              rw [view_new]
              split <;> rfl
            | some c => rfl
          · rw [if_neg h2, if_neg (c := a :: q <+: a :: ps) (by simpa using h2)]
            cases n.children.lookup a with
            | none =>
              show TNode.new.view q = none
              rw [view_new, if_neg]
              intro e
              rw [e] at h2
              exact h2 List.nil_prefix
            | some c => rfl
      · rw [if_neg ha, view_cons, if_neg (by simp [ha]), if_neg (by simp [ha])]

/-- What one entry does to what is visible at a path. -/
def viewStep (q : List Bytes) (v : Option (Option I × Bytes)) (e : TEntry I) : Option (Option I × Bytes) :=
  if q = cleanParts e.name then some (some e.info, e.data) else if q <+: cleanParts e.name then some (v.getD (none, [])) else v

theorem view_fold (es : List (TEntry I)) (q : List Bytes) : ∀ (fs : TFs I), (es.foldl TFs.add fs).root.view q = es.foldl (viewStep q) (fs.root.view q) := by
  induction es with
  | nil => intro fs; rfl
  | cons e es ih =>
    intro fs
    rw [List.foldl_cons, ih, List.foldl_cons]
    congr 1
    exact view_update e.info e.data _ fs.root q

theorem viewStep_keep (es : List (TEntry I)) (q : List Bytes) (x : Option I × Bytes) (h : ∀ e ∈ es, cleanParts e.name ≠ q) : es.foldl (viewStep q) (some x) = some x := by
  induction es with
  | nil => rfl
  | cons e es ih =>
    rw [List.foldl_cons]
    have : viewStep q (some x) e = some x := by
      unfold viewStep
      rw [if_neg (fun a => h e (List.mem_cons_self ..) a.symm)]
      split <;> rfl
    rw [this]
    exact ih (fun e' he' => h e' (List.mem_cons_of_mem _ he'))

theorem viewStep_last (pre post : List (TEntry I)) (e : TEntry I) (v : Option (Option I × Bytes)) (h : ∀ e' ∈ post, cleanParts e'.name ≠ cleanParts e.name) :
    (pre ++ e :: post).foldl (viewStep (cleanParts e.name)) v = some (some e.info, e.data) := by
  rw [List.foldl_append, List.foldl_cons]
  have : ∀ v, viewStep (cleanParts e.name) v e = some (some e.info, e.data) := by intro v; unfold viewStep; rw [if_pos rfl]
  rw [this]
  exact viewStep_keep post _ _ h

theorem viewStep_none (es : List (TEntry I)) (q : List Bytes) (v : Option (Option I × Bytes)) (h : ∀ e ∈ es, ¬ q <+: cleanParts e.name) : es.foldl (viewStep q) v = v := by
  induction es with
  | nil => rfl
  | cons e es ih =>
    rw [List.foldl_cons]
    have hp := h e (List.mem_cons_self ..)
    have : viewStep q v e = v := by
      unfold viewStep
      rw [if_neg (fun a => hp (by rw [a]; exact List.prefix_refl _)), if_neg hp]
    rw [this]
    exact ih (fun e' he' => h e' (List.mem_cons_of_mem _ he'))

theorem viewStep_dir (es : List (TEntry I)) (q : List Bytes) (h : ∀ e ∈ es, cleanParts e.name ≠ q) (hd : ∃ e ∈ es, q <+: cleanParts e.name) :
    es.foldl (viewStep q) none = some (none, []) := by
  induction es with
  | nil => obtain ⟨e, he, _⟩ := hd; cases he
  | cons e es ih =>
    rw [List.foldl_cons]
    by_cases hp : q <+: cleanParts e.name
    · have : viewStep q none e = some (none, []) := by
        unfold viewStep
        rw [if_neg (fun a => h e (List.mem_cons_self ..) a.symm), if_pos hp]
        rfl
      rw [this]
      exact viewStep_keep es q _ (fun e' he' => h e' (List.mem_cons_of_mem _ he'))
    · have : viewStep q none e = none := by
        unfold viewStep
        rw [if_neg (fun a => h e (List.mem_cons_self ..) a.symm), if_neg hp]
      rw [this]
      refine ih (fun e' he' => h e' (List.mem_cons_of_mem _ he')) ?_
      obtain ⟨e', he', hq⟩ := hd
      rcases List.mem_cons.mp he' with rfl | he'
      · exact absurd hq hp
      · exact ⟨e', he', hq⟩

theorem view_tree (ri : I) (es : List (TEntry I)) (q : List Bytes) : (TFs.new ri es).root.view q = es.foldl (viewStep q) (if q = [] then some (some ri, []) else none) := by
  unfold TFs.new
  rw [view_fold]
  congr 1
  cases q with
  | nil => rfl
  | cons a q => rw [if_neg (by simp), view_cons]; rfl

theorem view_eq_some {n : TNode I} {q : List Bytes} {x : Option I × Bytes} (h : n.view q = some x) : ∃ m, n.get q = some m ∧ m.fi = x.1 ∧ m.data = x.2 := by
  unfold TNode.view at h
  cases e : n.get q with
  | none => rw [e] at h; cases h
  | some m => rw [e] at h; simp at h; exact ⟨m, rfl, by rw [← h], by rw [← h]⟩

theorem open_of_get {fs : TFs I} {path : Bytes} {m : TNode I} (h : fs.root.get (cleanParts path) = some m) : fs.open path = some m := by
  unfold TFs.open; rw [h]

/-! ## Opening -/

/-- **C58** (stored files). Opening a path whose cleaned form is that of an archive entry gives the contents and the info of that entry (of the last one, if there are several). -/
theorem C58_stored (ri : I) (pre post : List (TEntry I)) (e : TEntry I) (path : Bytes) (hp : cleanParts path = cleanParts e.name) (hl : ∀ e' ∈ post, cleanParts e'.name ≠ cleanParts e.name) :
    ∃ n, (TFs.new ri (pre ++ e :: post)).open path = some n ∧ n.fi = some e.info ∧ n.data = e.data := by
  have v := view_tree ri (pre ++ e :: post) (cleanParts e.name)
  rw [viewStep_last pre post e _ hl] at v
  obtain ⟨m, g, h⟩ := view_eq_some v
  exact ⟨m, open_of_get (hp ▸ g), h⟩

/-- **C58** (root). Opening the root gives the fixed info of the root, unless the archive has an entry for it. -/
theorem C58_root (ri : I) (es : List (TEntry I)) (path : Bytes) (hp : cleanParts path = []) (hl : ∀ e ∈ es, cleanParts e.name ≠ []) :
    ∃ n, (TFs.new ri es).open path = some n ∧ n.fi = some ri ∧ n.data = [] := by
  have v := view_tree ri es []
  rw [if_pos rfl, viewStep_keep es [] _ hl] at v
  obtain ⟨m, g, h⟩ := view_eq_some v
  exact ⟨m, open_of_get (hp ▸ g), h⟩

theorem dflt_fold (es : List (TEntry I)) : ∀ (fs : TFs I), (es.foldl TFs.add fs).dflt = if ∃ e ∈ es, e.name = indexName ∨ e.name = dotIndexName then some [indexName] else fs.dflt := by
  have hi : ∀ e : TEntry I, (e.name = indexName ∨ e.name = dotIndexName) → cleanParts e.name = [indexName] := by
    rintro e (h | h) <;> rw [h] <;> decide
  induction es with
  | nil => intro fs; rw [if_neg (by rintro ⟨e, he, _⟩; cases he)]; rfl
  | cons e es ih =>
    intro fs
    rw [List.foldl_cons, ih]
    by_cases h1 : ∃ e ∈ es, e.name = indexName ∨ e.name = dotIndexName
    · rw [if_pos h1, if_pos (by obtain ⟨e', he', h⟩ := h1; exact ⟨e', List.mem_cons_of_mem _ he', h⟩)]
    · rw [if_neg h1]
      show (if _ then _ else _) = _
      by_cases h2 : e.name = indexName ∨ e.name = dotIndexName
      · rw [if_pos h2, if_pos ⟨e, List.mem_cons_self .., h2⟩, hi e h2]
      · rw [if_neg h2, if_neg]
        rintro ⟨e', he', h⟩
        rcases List.mem_cons.mp he' with rfl | he'
        · exact h2 h
        · exact h1 ⟨e', he', h⟩

/-- **C58** (default). Opening a path that is neither an entry nor a directory of one gives index.html when the archive has an entry named `index.html` or `./index.html`. -/
theorem C58_default (ri : I) (pre post : List (TEntry I)) (e : TEntry I) (path : Bytes) (hp : cleanParts path ≠ []) (hn : ∀ e' ∈ pre ++ e :: post, ¬ cleanParts path <+: cleanParts e'.name)
    (hx : ∃ e' ∈ pre ++ e :: post, e'.name = indexName ∨ e'.name = dotIndexName)
    (hi : cleanParts e.name = [indexName]) (hl : ∀ e' ∈ post, cleanParts e'.name ≠ [indexName]) :
    ∃ n, (TFs.new ri (pre ++ e :: post)).open path = some n ∧ n.fi = some e.info ∧ n.data = e.data := by
  have v := view_tree ri (pre ++ e :: post) (cleanParts path)
  rw [viewStep_none _ _ _ hn, if_neg hp] at v
  have g : (TFs.new ri (pre ++ e :: post)).root.get (cleanParts path) = none := by
    unfold TNode.view at v
    exact Option.map_eq_none_iff.mp v
  have v' := view_tree ri (pre ++ e :: post) (cleanParts e.name)
  rw [viewStep_last pre post e _ (by rw [hi]; exact hl)] at v'
  obtain ⟨m, g', h⟩ := view_eq_some v'
  refine ⟨m, ?_, h⟩
  have d : (TFs.new ri (pre ++ e :: post)).dflt = some [indexName] := by unfold TFs.new; rw [dflt_fold, if_pos hx]
  unfold TFs.open
  rw [g, d]
  rw [hi] at g'
  exact g'

/-- **C58** (missing). Without such an entry it does not exist. -/
theorem C58_missing (ri : I) (es : List (TEntry I)) (path : Bytes) (hp : cleanParts path ≠ []) (hn : ∀ e ∈ es, ¬ cleanParts path <+: cleanParts e.name)
    (hx : ∀ e ∈ es, e.name ≠ indexName ∧ e.name ≠ dotIndexName) : (TFs.new ri es).open path = none := by
  have v := view_tree ri es (cleanParts path)
  rw [viewStep_none _ _ _ hn, if_neg hp] at v
  have g : (TFs.new ri es).root.get (cleanParts path) = none := by
    unfold TNode.view at v
    exact Option.map_eq_none_iff.mp v
  have d : (TFs.new ri es).dflt = none := by
    unfold TFs.new
    rw [dflt_fold, if_neg]
    rintro ⟨e, he, h | h⟩
    · exact (hx e he).1 h
    · exact (hx e he).2 h
  unfold TFs.open
  rw [g, d]

/-- **C58** (directories without an entry). A directory that has files but no entry of its own opens without an error but has no info: Stat returns nil, which callers dereference. -/
theorem C58_directory (ri : I) (es : List (TEntry I)) (path : Bytes) (hp : cleanParts path ≠ []) (hn : ∀ e ∈ es, cleanParts e.name ≠ cleanParts path) (hd : ∃ e ∈ es, cleanParts path <+: cleanParts e.name) :
    ∃ n, (TFs.new ri es).open path = some n ∧ n.fi = none ∧ n.data = [] := by
  have v := view_tree ri es (cleanParts path)
  rw [if_neg hp, viewStep_dir es _ hn hd] at v
  obtain ⟨m, g, h⟩ := view_eq_some v
  exact ⟨m, open_of_get g, h⟩

/-- **C58** is false for them: an opened file may have no info. -/
theorem C58_directory_refuted : ¬ ∀ (ri : Unit) (es : List (TEntry Unit)) (path : Bytes) (n : TNode Unit), (TFs.new ri es).open path = some n → n.fi.isSome := by
  intro h
  obtain ⟨n, hn, hf, _⟩ := C58_directory () [⟨[97, 47, 98], (), []⟩] [97] (by decide) (by decide) (by decide)
  have := h () _ _ _ hn
  rw [hf] at this
  cases this

/-- **C58** is false for the default, too, when index.html is stored under another spelling of its path. -/
theorem C58_index_refuted : ¬ ∀ (ri : Unit) (es : List (TEntry Unit)) (path : Bytes), (∃ e ∈ es, cleanParts e.name = [indexName]) → ((TFs.new ri es).open path).isSome := by
  intro h
  have := h () [⟨47 :: indexName, (), []⟩] [97] ⟨_, List.mem_singleton.mpr rfl, by decide⟩
  rw [C58_missing () _ [97] (by decide) (by decide) (by decide)] at this
  cases this

/-! ## Listing -/

/-- The names in a directory are distinct, everywhere in the tree. -/
def Tidy (n : TNode I) : Prop := ∀ q m, n.get q = some m → (m.children.map Prod.fst).Nodup

theorem tidy_new : Tidy (TNode.new (I := I)) := by
  intro q m h
  cases q with
  | nil => simp [TNode.get] at h; subst h; simp [TNode.new, TNode.children]
  | cons p q => simp [TNode.get, TNode.new, TNode.children] at h

theorem tidy_update (i : I) (d : Bytes) (p : List Bytes) : ∀ (n : TNode I), Tidy n → Tidy (n.update (fun n => .mk (some i) d n.children) p) := by
  induction p with
  | nil =>
    intro n h q m hq
    cases q with
    | nil =>
      simp [TNode.get, TNode.update] at hq
      subst hq
      exact h [] n rfl
    | cons a q => exact h (a :: q) m hq
  | cons p ps ih =>
    intro n h q m hq
    cases q with
    | nil =>
      simp [TNode.get, TNode.update] at hq
      subst hq
      exact nodup_putChild _ _ _ (h [] n rfl)
    | cons a q =>
      unfold TNode.update TNode.get at hq
      change (match (putChild p _ n.children).lookup a with | none => none | some c => TNode.get q c) = some m at hq
      rw [lookup_putChild] at hq
      by_cases ha : a = p
      · rw [if_pos ha] at hq
        refine ih _ ?_ q m hq
        cases hc : n.children.lookup p with
        | none => exact tidy_new
        | some c =>
          intro q' m' h'
          refine h (p :: q') m' ?_
          unfold TNode.get
          rw [hc]
          exact h'
      · rw [if_neg ha] at hq
        refine h (a :: q) m ?_
        unfold TNode.get
        exact hq

theorem tidy_fold (es : List (TEntry I)) : ∀ (fs : TFs I), Tidy fs.root → Tidy (es.foldl TFs.add fs).root := by
  induction es with
  | nil => intro fs h; exact h
  | cons e es ih => intro fs h; exact ih _ (tidy_update e.info e.data _ _ h)

theorem get_append (p q : List Bytes) : ∀ n : TNode I, n.get (p ++ q) = (n.get p).bind (TNode.get q) := by
  induction p with
  | nil => intro n; rfl
  | cons a p ih =>
    intro n
    rw [List.cons_append, TNode.get, TNode.get]
    cases n.children.lookup a with
    | none => rfl
    | some c => exact ih c

theorem viewStep_some (es : List (TEntry I)) (q : List Bytes) (h : ∃ e ∈ es, q <+: cleanParts e.name) (v : Option (Option I × Bytes)) : es.foldl (viewStep q) v ≠ none := by
  have keep : ∀ (es : List (TEntry I)) (v : Option (Option I × Bytes)), v ≠ none → es.foldl (viewStep q) v ≠ none := by
    intro es
    induction es with
    | nil => intro v hv; exact hv
    | cons e es ih =>
      intro v hv
      refine ih _ ?_
      unfold viewStep
      split
      · simp
      · split
        · simp
        · exact hv
  induction es generalizing v with
  | nil => obtain ⟨e, he, _⟩ := h; cases he
  | cons e es ih =>
    obtain ⟨e', he', hq⟩ := h
    rcases List.mem_cons.mp he' with rfl | he'
    · refine keep es _ ?_
      unfold viewStep
      split <;> simp
    · exact ih ⟨e', he', hq⟩ _

/-- **C58** (listing). What a directory lists: exactly the next elements of the paths of the entries below it, each once. -/
theorem C58_listing (ri : I) (es : List (TEntry I)) (q : List Bytes) (n : TNode I) (h : (TFs.new ri es).root.get q = some n) :
    (n.children.map Prod.fst).Nodup ∧ ∀ c, c ∈ n.children.map Prod.fst ↔ ∃ e ∈ es, ∃ rest, cleanParts e.name = q ++ c :: rest := by
  refine ⟨?_, fun c => ?_⟩
  · refine tidy_fold es _ ?_ q n h
    intro q m h
    cases q with
    | nil => simp [TNode.get] at h; subst h; simp [TNode.children]
    | cons p q => simp [TNode.get, TNode.children] at h
  · have g : (TFs.new ri es).root.get (q ++ [c]) = n.children.lookup c := by
      rw [get_append, h]
      show TNode.get [c] n = _
      rw [TNode.get]
      cases n.children.lookup c <;> rfl
    have v := view_tree ri es (q ++ [c])
    rw [if_neg (by simp)] at v
    unfold TNode.view at v
    rw [g] at v
    have l : c ∈ n.children.map Prod.fst ↔ n.children.lookup c ≠ none := by
      rw [ne_eq, List.lookup_eq_none_iff, List.mem_map]
      constructor
      · rintro ⟨⟨a, b⟩, hm, rfl⟩ hx
        have := hx _ hm
        simp at this
      · intro hx
        apply Decidable.byContradiction
        intro hne
        refine hx (fun p hp => ?_)
        rw [bne_iff_ne]
        intro e
        exact hne ⟨p, hp, e.symm⟩
    rw [l]
    constructor
    · intro hne
      apply Classical.byContradiction
      intro hx
      refine hne ?_
      rw [viewStep_none es _ _ ?_] at v
      · exact Option.map_eq_none_iff.mp v
      · rintro e he ⟨t, ht⟩
        exact hx ⟨e, he, t, by rw [← ht]; simp⟩
    · rintro ⟨e, he, rest, ht⟩ hnone
      rw [hnone] at v
      exact viewStep_some es (q ++ [c]) ⟨e, he, rest, by rw [ht]; simp⟩ none v.symm

/-! ## Readdir -/

/-- **C58** (one read of everything). Asked for at least as many entries as there are, Readdir returns all of them once and then the end. -/
theorem C58_readdir_partial {α : Type} (listing : List α) (count count' : Int) (h : (listing.length : Int) ≤ count) (hne : listing ≠ []) :
    ∃ rest, readdir listing count = (.entries listing, rest) ∧ (readdir rest count').1 = .eof := by
  have hl : listing.length ≠ 0 := by
    intro e
    exact hne (List.length_eq_zero_iff.mp e)
  refine ⟨[], ?_, rfl⟩
  unfold readdir
  rw [if_neg hl]
  have e : (if (listing.length : Int) < count then (listing.length : Int) else count) = listing.length := by
    split
    · rfl
    · omega
  simp only [e]
  rw [if_neg (by omega)]
  simp

/-- **C58** is false for smaller reads: the entries read come from the front but the end of the listing is dropped, so some are repeated and others never seen. -/
theorem C58_readdir_refuted :
    ¬ ∀ (listing : List Nat) (count : Int) (l l' rest rest' : List Nat), 0 < count → listing.Nodup → readdir listing count = (.entries l, rest) → readdir rest count = (.entries l', rest') → (l ++ l').Nodup := by
  intro h
  have := h [1, 2] 1 [1] [1] [1] [] (by decide) (by decide) (by decide) (by decide)
  revert this
  decide

/-- **C58** (negative counts). net/http lists directories with Readdir(-1), "all entries": that panics unless the directory is empty. -/
theorem C58_readdir_negative {α : Type} (listing : List α) (count : Int) (hc : count < 0) (hne : listing ≠ []) : (readdir listing count).1 = .panic := by
  have hl : listing.length ≠ 0 := by
    intro e
    exact hne (List.length_eq_zero_iff.mp e)
  unfold readdir
  rw [if_neg hl]
  have e : (if (listing.length : Int) < count then (listing.length : Int) else count) = count := by
    rw [if_neg (by omega)]
  simp only [e]
  rw [if_pos hc]

/-! ## Paths -/

/-- **C58** (paths of requests). A path that starts with a slash is cleaned to elements none of which is empty, "." or "..", so it names nothing outside the tree. -/
theorem C58_rooted (p : Bytes) : ∀ e ∈ cleanParts (47 :: p), e ≠ [] ∧ e ≠ [46] ∧ e ≠ [46, 46] := by
  have gen : ∀ (l acc : List Bytes), (∀ e ∈ acc, e ≠ [] ∧ e ≠ [46] ∧ e ≠ [46, 46]) → ∀ e ∈ l.foldl (cleanStep true) acc, e ≠ [] ∧ e ≠ [46] ∧ e ≠ [46, 46] := by
    intro l
    induction l with
    | nil => intro acc h; exact h
    | cons a l ih =>
      intro acc h
      refine ih _ ?_
      unfold cleanStep
      by_cases h1 : a = [] ∨ a = [46]
      · rw [if_pos h1]; exact h
      · rw [if_neg h1]
        by_cases h2 : a = [46, 46]
        · rw [if_pos h2]
          cases acc with
          | nil => exact h
          | cons t r =>
            dsimp only
            rw [if_neg (h t (List.mem_cons_self ..)).2.2]
            exact fun e he => h e (List.mem_cons_of_mem _ he)
        · rw [if_neg h2]
          intro e he
          rcases List.mem_cons.mp he with rfl | he
          · exact ⟨fun x => h1 (Or.inl x), fun x => h1 (Or.inr x), h2⟩
          · exact h e he
  intro e he
  unfold cleanParts at he
  simp only [List.head?_cons, if_true, decide_true] at he
  exact gen _ [] (fun e he => (by cases he)) e (List.mem_reverse.mp he)

/-- An archive with a directory, two files below it (one stored twice) and an index. -/
theorem C58_example :
    let es : List (TEntry Nat) := [⟨[97, 47], 1, []⟩, ⟨[97, 47, 98], 2, [7]⟩, ⟨dotIndexName, 3, [8]⟩, ⟨[46, 47, 97, 47, 98], 4, [9]⟩]
    let fs := TFs.new 0 es
    (∃ n, fs.open [47, 97, 47, 47, 98] = some n ∧ n.fi = some 4 ∧ n.data = [9]) ∧
    (∃ n, fs.open [47, 99] = some n ∧ n.fi = some 3 ∧ n.data = [8]) ∧
    (∃ n, fs.open [47, 46, 46, 47, 97] = some n ∧ n.fi = some 1 ∧ n.children.map Prod.fst = [[98]]) := by
  exact ⟨⟨_, rfl, rfl, rfl⟩, ⟨_, rfl, rfl, rfl⟩, ⟨_, rfl, rfl, rfl⟩⟩

end Rothko
