import Verif.Props.Dirent
import Verif.Props.Convert
import Verif.Props.SSet
/-!
# C36: `PopulateMetrics` finds exactly the stored metrics
-/
namespace Rothko

/-! ## Specification -/

/-- The node at a path (its components) below a node. -/
inductive FTree.At : FTree → List Bytes → FTree → Prop
  | here (t : FTree) : At t [] t
  | there {es : List (Bytes × FTree)} {n : Bytes} {t u : FTree} {p : List Bytes} : (n, t) ∈ es → At t p u → At (.dir es) (n :: p) u

/-- The components of the directory of a metric, relative to the database directory. -/
def dirComps (m : Bytes) : List Bytes := if m = [] then [] else splitOn 47 (metricToDir [] m)

/-- The path of data file `i` of metric `m`, relative to the database directory. -/
def dataPath (m : Bytes) (i : Int) : List Bytes := dirComps m ++ [intDec i ++ dataSuffix]

/-- A tree as writes produce it, found at the path `p` below the database directory: directories have names that are not empty and have no dot (C09), and all files are data files of metrics. -/
structure FTree.Good (p : List Bytes) (t : FTree) : Prop where
  dirs : ∀ q n es, t.At (q ++ [n]) (.dir es) → n ≠ [] ∧ 46 ∉ n
  files : ∀ q, t.At q .file → ∃ m i, p ++ q = dataPath m i

/-- A database tree. -/
def FTree.Db (t : FTree) : Prop := t.Good []

/-! ## Proof -/

theorem joinWith_snoc (sep : UInt8) (p : List Bytes) (n : Bytes) : joinWith sep (p ++ [n]) = if p = [] then n else joinWith sep p ++ sep :: n := by
  induction p with
  | nil => rfl
  | cons a p ih =>
    cases p with
    | nil => simp [joinWith]
    | cons b p => simp only [List.cons_append, joinWith] at ih ⊢; rw [ih]; simp

theorem joinWith_dirComps (m : Bytes) : joinWith 47 (dirComps m) = metricToDir [] m := by
  unfold dirComps
  split
  · rename_i h; subst h; rfl
  · exact joinWith_splitOn _ _

theorem joinWith_pos {p : List Bytes} (h : ∀ c ∈ p, c ≠ []) : 0 < (joinWith 47 p).length ↔ p ≠ [] := by
  constructor
  · rintro h' rfl; simp [joinWith] at h'
  · intro h'
    cases p with
    | nil => exact absurd rfl h'
    | cons a p =>
      have ha := List.length_pos_iff.mpr (h a (by simp))
      cases p with
      | nil => simpa [joinWith] using ha
      | cons b p => simp [joinWith]; omega

theorem At_cons_inv {es : List (Bytes × FTree)} {n : Bytes} {p : List Bytes} {u : FTree} (h : FTree.At (.dir es) (n :: p) u) : ∃ t, (n, t) ∈ es ∧ FTree.At t p u := by
  cases h with
  | there h1 h2 => exact ⟨_, h1, h2⟩

theorem At_nil_inv {t u : FTree} (h : t.At [] u) : t = u := by cases h; rfl

theorem FTree.Good.sub {p : List Bytes} {es : List (Bytes × FTree)} (h : FTree.Good p (.dir es)) {n : Bytes} {t : FTree} (hn : (n, t) ∈ es) : FTree.Good (p ++ [n]) t where
  dirs := fun q n' es' ha => h.dirs (n :: q) n' es' (.there hn ha)
  files := fun q ha => by
    obtain ⟨m, i, e⟩ := h.files (n :: q) (.there hn ha)
    exact ⟨m, i, by rw [← e]; simp⟩

/-- The metric has a data file in the entries (which are those of the directory `p`). -/
def FoundIn (p : List Bytes) (es : List (Bytes × FTree)) (m : Bytes) : Prop := ∃ q i, FTree.At (.dir es) q .file ∧ p ++ q = dataPath m i

theorem FoundIn.cons {p : List Bytes} {n : Bytes} {t : FTree} {es : List (Bytes × FTree)} {m : Bytes} :
    FoundIn p ((n, t) :: es) m ↔ (∃ q i, t.At q .file ∧ p ++ n :: q = dataPath m i) ∨ FoundIn p es m := by
  constructor
  · rintro ⟨q, i, ha, e⟩
    cases q with
    | nil => cases ha
    | cons c q =>
      obtain ⟨t', hm, ha'⟩ := At_cons_inv ha
      rcases List.mem_cons.mp hm with h | h
      · cases h; exact Or.inl ⟨q, i, ha', e⟩
      · exact Or.inr ⟨c :: q, i, .there h ha', e⟩
  · rintro (⟨q, i, ha, e⟩ | ⟨q, i, ha, e⟩)
    · exact ⟨n :: q, i, .there (by simp) ha, e⟩
    · cases q with
      | nil => cases ha
      | cons c q =>
        obtain ⟨t', hm, ha'⟩ := At_cons_inv ha
        exact ⟨c :: q, i, .there (by simp [hm]) ha', e⟩

theorem dataSuffix_of_file {p : List Bytes} {n m : Bytes} {i : Int} (h : p ++ [n] = dataPath m i) : dataSuffix.isSuffixOf n = true ∧ p = dirComps m := by
  unfold dataPath at h
  obtain ⟨h1, h2⟩ := List.append_inj' h rfl
  simp only [List.cons.injEq, and_true] at h2
  exact ⟨by rw [h2]; simp, h1⟩

mutual
theorem populate_ok (t : FTree) (p : List Bytes) (hp : ∀ c ∈ p, c ≠ []) (h : t.Good p) (out : SSet) :
    ∃ l : List Bytes, populate t (joinWith 47 p) out = some (joinWith 47 p, l.foldl SSet.add out) ∧
      ∀ m, m ∈ l ↔ (∃ es, t = .dir es ∧ FoundIn p es m) := by
  match t with
  | .file => exact ⟨[], by simp [populate], by simp⟩
  | .dir es =>
    obtain ⟨l, h1, h2, h3⟩ := populateLoop_ok es p hp (fun n t hn => h.sub hn) (fun n es' hn => h.dirs [] n es' (.there hn (.here _))) false out
    refine ⟨l, by simpa [populate] using h1, fun m => ⟨fun hm => ⟨es, rfl, h2 m hm⟩, ?_⟩⟩
    rintro ⟨es', he, hf⟩
    cases he
    rcases h3 m hf with h4 | ⟨h4, _⟩
    · exact h4
    · cases h4

theorem populateLoop_ok (es : List (Bytes × FTree)) (p : List Bytes) (hp : ∀ c ∈ p, c ≠ []) (h : ∀ n t, (n, t) ∈ es → t.Good (p ++ [n]))
    (hd : ∀ n es', (n, FTree.dir es') ∈ es → n ≠ [] ∧ 46 ∉ n) (added : Bool) (out : SSet) :
    ∃ l : List Bytes, populateLoop es (joinWith 47 p).length added (joinWith 47 p) out = some (joinWith 47 p, l.foldl SSet.add out) ∧
      (∀ m ∈ l, FoundIn p es m) ∧ ∀ m, FoundIn p es m → m ∈ l ∨ (added = true ∧ p = dirComps m) := by
  match es with
  | [] =>
    refine ⟨[], by simp [populateLoop], by simp, ?_⟩
    rintro m ⟨q, i, ha, e⟩
    cases q with
    | nil => cases ha
    | cons c q => obtain ⟨t', hm, _⟩ := At_cons_inv ha; simp at hm
  | (n, t) :: es =>
    have hrest := fun added out => populateLoop_ok es p hp (fun n t hn => h n t (by simp [hn])) (fun n es' hn => hd n es' (by simp [hn])) added out
    have ht := h n t (by simp)
    by_cases hs : dataSuffix.isSuffixOf n = true
    · -- a data file
      have htf : t = .file := by
        cases t with
        | file => rfl
        | dir es' =>
          exfalso
          have := (hd n es' (by simp)).2
          rw [List.isSuffixOf_iff_suffix] at hs
          exact this (hs.subset (by decide))
      subst htf
      obtain ⟨m0, i0, e0⟩ := ht.files [] (.here _)
      have hp0 : p = dirComps m0 := (dataSuffix_of_file (by simpa using e0)).2
      have hfnd : ∀ m, (∃ q i, FTree.file.At q .file ∧ p ++ n :: q = dataPath m i) ↔ m = m0 := by
        intro m
        constructor
        · rintro ⟨q, i, ha, e⟩
          cases ha
          have := (dataSuffix_of_file e).2
          rw [hp0] at this
          have := congrArg (joinWith 47) this
          rw [joinWith_dirComps, joinWith_dirComps] at this
          exact (C08_dir_injective _ _ this).symm
        · rintro rfl
          exact ⟨[], i0, .here _, by simpa using e0⟩
      cases added with
      | true =>
        obtain ⟨l, h1, h2, h3⟩ := hrest true out
        refine ⟨l, ?_, ?_, ?_⟩
        · rw [populateLoop]; simp only [hs, Bool.not_true, Bool.false_eq_true, if_false, if_true]; exact h1
        · intro m hm; exact FoundIn.cons.mpr (Or.inr (h2 m hm))
        · intro m hm
          rcases FoundIn.cons.mp hm with hm | hm
          · rw [(hfnd m).mp hm]; exact Or.inr ⟨rfl, hp0⟩
          · exact h3 m hm
      | false =>
        obtain ⟨l, h1, h2, h3⟩ := hrest true (out.add m0)
        refine ⟨m0 :: l, ?_, ?_, ?_⟩
        · rw [populateLoop]
          simp only [hs, Bool.not_true, Bool.false_eq_true, if_false]
          have : dirToMetric [] (joinWith 47 p) = some m0 := by rw [hp0, joinWith_dirComps]; exact C08_dir_round_trip m0
          rw [this]
          exact h1
        · intro m hm
          rcases List.mem_cons.mp hm with rfl | hm
          · exact FoundIn.cons.mpr (Or.inl ((hfnd m).mpr rfl))
          · exact FoundIn.cons.mpr (Or.inr (h2 m hm))
        · intro m hm
          left
          rcases FoundIn.cons.mp hm with hm | hm
          · rw [(hfnd m).mp hm]; simp
          · rcases h3 m hm with h4 | ⟨_, h4⟩
            · simp [h4]
            · rw [hp0] at h4
              have := congrArg (joinWith 47) h4
              rw [joinWith_dirComps, joinWith_dirComps] at this
              rw [C08_dir_injective _ _ this]; simp
    · -- a directory
      have hdir : ∃ es', t = .dir es' := by
        cases t with
        | file =>
          obtain ⟨m0, i0, e0⟩ := ht.files [] (.here _)
          exact absurd (dataSuffix_of_file (by simpa using e0)).1 hs
        | dir es' => exact ⟨es', rfl⟩
      obtain ⟨es', rfl⟩ := hdir
      have hn := (hd n es' (by simp)).1
      obtain ⟨l1, h1, h2⟩ := populate_ok (.dir es') (p ++ [n]) (by intro c hc; rcases List.mem_append.mp hc with hc | hc; exact hp c hc; simp at hc; exact hc ▸ hn) ht out
      obtain ⟨l2, h3, h4, h5⟩ := hrest added (l1.foldl SSet.add out)
      have hbuf : (if (joinWith 47 p).length > 0 then joinWith 47 p ++ [47] else joinWith 47 p) ++ n = joinWith 47 (p ++ [n]) := by
        rw [joinWith_snoc]
        have := joinWith_pos hp
        by_cases hp' : p = []
        · subst hp'; simp [joinWith]
        · rw [if_pos (this.mpr hp'), if_neg hp']; simp
      have htake : (joinWith 47 (p ++ [n])).take (joinWith 47 p).length = joinWith 47 p := by
        rw [joinWith_snoc]
        split
        · rename_i hp'; subst hp'; simp [joinWith]
        · simp
      have hsplit : ∀ m, (∃ q i, (FTree.dir es').At q .file ∧ p ++ n :: q = dataPath m i) ↔ m ∈ l1 := by
        intro m
        rw [h2 m]
        constructor
        · rintro ⟨q, i, ha, e⟩; exact ⟨es', rfl, q, i, ha, by rw [← e]; simp⟩
        · rintro ⟨_, he, q, i, ha, e⟩; cases he; exact ⟨q, i, ha, by rw [← e]; simp⟩
      refine ⟨l1 ++ l2, ?_, ?_, ?_⟩
      · rw [populateLoop]
        have hs' : dataSuffix.isSuffixOf n = false := Bool.eq_false_iff.mpr hs
        simp only [hs', Bool.not_false, if_true]
        rw [hbuf, h1]
        simp only
        rw [htake, h3, List.foldl_append]
      · intro m hm
        rcases List.mem_append.mp hm with hm | hm
        · exact FoundIn.cons.mpr (Or.inl ((hsplit m).mpr hm))
        · exact FoundIn.cons.mpr (Or.inr (h4 m hm))
      · intro m hm
        rcases FoundIn.cons.mp hm with hm | hm
        · exact Or.inl (List.mem_append_left _ ((hsplit m).mp hm))
        · rcases h5 m hm with h6 | h6
          · exact Or.inl (List.mem_append_right _ h6)
          · exact Or.inr h6
end

/-- **C36.** For every database tree, of any shape and in any listing order: the scan succeeds, and its result is exactly the metrics that have a data file in the tree,
once each and in order. -/
theorem C36_scan (t : FTree) (h : t.Db) (hd : ∃ es, t = .dir es) :
    ∃ out, populateDb (some t) = some out ∧ Sorted out.order ∧
      ∀ m, (out.has m = true ↔ ∃ i, t.At (dataPath m i) .file) ∧ (m ∈ out.order ↔ ∃ i, t.At (dataPath m i) .file) := by
  obtain ⟨l, h1, h2⟩ := populate_ok t [] (by simp) h .new
  have his := SSet.Is.new.addAll l
  refine ⟨l.foldl SSet.add .new, ?_, his.sorted, fun m => ?_⟩
  · unfold populateDb; simp only; rw [show ([] : Bytes) = joinWith 47 [] from rfl, h1]; rfl
  · have hm : m ∈ l ↔ ∃ i, t.At (dataPath m i) .file := by
      rw [h2 m]
      obtain ⟨es, rfl⟩ := hd
      constructor
      · rintro ⟨_, he, q, i, ha, e⟩
        cases he
        rw [List.nil_append] at e
        exact ⟨i, e ▸ ha⟩
      · rintro ⟨i, ha⟩
        exact ⟨es, rfl, dataPath m i, i, ha, rfl⟩
    exact ⟨(his.has m).trans (by simpa using hm), (his.mem m).trans (by simpa using hm)⟩

/-- **C36.** A database directory that does not exist yet has no metrics. -/
theorem C36_missing : ∃ out, populateDb none = some out ∧ out.order = [] := ⟨_, rfl, rfl⟩

/-- **C36.** Every tree that writes produce is a database tree: it begins as an empty directory, and a step leaves a tree where each file was there before or is a data file of some metric, and each
directory was there before or is on the way to the directory of some metric. This covers `MkdirAll`, creation and removal of data files (database/files/metric.go:91,201,264, database/files/file.go:35),
complete or interrupted, and does not depend on the order of listings. -/
theorem C36_writes : FTree.Db (.dir []) ∧ ∀ t t' : FTree, t.Db →
    (∀ q, t'.At q .file → t.At q .file ∨ ∃ m i, q = dataPath m i) →
    (∀ q es, t'.At q (.dir es) → (∃ es', t.At q (.dir es')) ∨ ∃ m, q <+: dirComps m) → t'.Db := by
  refine ⟨⟨fun q n es ha => ?_, fun q ha => ?_⟩, fun t t' h hf hd => ⟨fun q n es ha => ?_, fun q ha => ?_⟩⟩
  · cases q with
    | nil => obtain ⟨t, hm, _⟩ := At_cons_inv ha; simp at hm
    | cons c q => obtain ⟨t, hm, _⟩ := At_cons_inv ha; simp at hm
  · cases q with
    | nil => cases ha
    | cons c q => obtain ⟨t, hm, _⟩ := At_cons_inv ha; simp at hm
  · rcases hd _ _ ha with ⟨es', h'⟩ | ⟨m, hm⟩
    · exact h.dirs q n es' h'
    · have hn : n ∈ dirComps m := hm.subset (by simp)
      unfold dirComps at hn
      split at hn
      · simp at hn
      · rename_i hne
        exact metricToDir_good hne n hn
  · rcases hf q ha with h' | ⟨m, i, e⟩
    · exact h.files q h'
    · exact ⟨m, i, by simpa using e⟩

/-! ## A concrete tree -/

def FTree.isFile : FTree → Bool
  | .file => true
  | .dir _ => false

mutual
/-- All paths below a node, with a mark for files. -/
def FTree.paths : FTree → List (List Bytes × Bool)
  | .file => [([], true)]
  | .dir es => ([], false) :: FTree.pathsL es
def FTree.pathsL : List (Bytes × FTree) → List (List Bytes × Bool)
  | [] => []
  | (n, t) :: es => (FTree.paths t).map (fun x => (n :: x.1, x.2)) ++ FTree.pathsL es
end

theorem FTree.mem_pathsL {es : List (Bytes × FTree)} {n : Bytes} {t : FTree} (h : (n, t) ∈ es) {x : List Bytes × Bool} (hx : x ∈ t.paths) : (n :: x.1, x.2) ∈ FTree.pathsL es := by
  induction es with
  | nil => simp at h
  | cons e es ih =>
    obtain ⟨n', t'⟩ := e
    rw [FTree.pathsL, List.mem_append]
    rcases List.mem_cons.mp h with h | h
    · cases h; exact Or.inl (List.mem_map.mpr ⟨x, hx, rfl⟩)
    · exact Or.inr (ih h)

theorem FTree.At.mem_paths {t u : FTree} {q : List Bytes} (h : t.At q u) : (q, u.isFile) ∈ t.paths := by
  induction h with
  | here t => cases t <;> simp [FTree.paths, FTree.isFile]
  | there h1 _ ih => rw [FTree.paths]; exact List.mem_cons_of_mem _ (FTree.mem_pathsL h1 ih)

/-- Three metrics (one of them below another, one with an escaped name), an empty directory, and two data files of one metric. -/
def populateTree : FTree :=
  .dir [([98], .dir [([50] ++ dataSuffix, .file), ([49] ++ dataSuffix, .file), ([99], .dir [([51] ++ dataSuffix, .file)])]), ([101], .dir []),
    ([97, 37, 50, 102], .dir [([49] ++ dataSuffix, .file)])]

theorem C36_example : populateTree.Db ∧ (populateDb (some populateTree)).map SSet.order = some [[97, 47], [98], [98, 46, 99]] := by
  have hp : populateTree.paths = [([], false), ([[98]], false), (dataPath [98] 2, true), (dataPath [98] 1, true), ([[98], [99]], false), (dataPath [98, 46, 99] 3, true), ([[101]], false),
      ([[97, 37, 50, 102]], false), (dataPath [97, 47] 1, true)] := by decide +kernel
  refine ⟨⟨fun q n es ha => ?_, fun q ha => ?_⟩, by decide +kernel⟩
  · have := ha.mem_paths
    rw [hp] at this
    simp only [FTree.isFile, List.mem_cons, Prod.mk.injEq, Bool.false_eq_true, and_false, and_true, List.not_mem_nil, or_false, false_or, reduceCtorEq] at this
    have hl : (q ++ [n]).getLast? = some n := by simp
    rcases this with h | h | h | h | h <;> rw [h] at hl <;> simp at hl <;> subst hl <;> decide
  · have := ha.mem_paths
    rw [hp] at this
    simp only [FTree.isFile, List.mem_cons, Prod.mk.injEq, Bool.true_eq_false, and_false, and_true, List.not_mem_nil, or_false, false_or, reduceCtorEq] at this
    rcases this with h | h | h | h <;> exact ⟨_, _, h⟩

end Rothko
