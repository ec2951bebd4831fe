import Verif.Props.ScanEnds
/-!
# C114: examples
-/
namespace Rothko

/-! ## Runs from steps -/

/-- Steps, with a condition on the file system at each time; the last is one of the scan. -/
inductive Scan.Steps (whole : List Bytes → Prop) (P : World → Prop) : Scan → Scan → Prop
  | last {s s' : Scan} : P s.w → P s'.w → s.Go whole s' → Steps whole P s s'
  | cons {s s1 s' : Scan} : P s.w → s.Step whole s1 → Steps whole P s1 s' → Steps whole P s s'

theorem Scan.Steps.run {whole : List Bytes → Prop} {P : World → Prop} {s s' : Scan} (h : Scan.Steps whole P s s') :
    ∃ (N : Nat) (σ : Nat → Scan), σ 0 = s ∧ (∀ t, (σ t).Step whole (σ (t + 1)) ∨ σ (t + 1) = σ t) ∧ (σ N).Go whole (σ (N + 1)) ∧ (∀ t, N < t → σ t = s') ∧ ∀ t, P (σ t).w := by
  induction h with
  | @last s s' h1 h2 h3 =>
    refine ⟨0, fun t => if t = 0 then s else s', rfl, fun t => ?_, h3, fun t ht => if_neg (by omega), fun t => ?_⟩
    · cases t with
      | zero => exact Or.inl (Or.inl h3)
      | succ t => exact Or.inr rfl
    · dsimp only
      split
      · exact h1
      · exact h2
  | @cons s s1 s' h1 h2 _ ih =>
    obtain ⟨N, σ, e0, hs, hl, hN, hP⟩ := ih
    refine ⟨N + 1, fun t => match t with | 0 => s | t + 1 => σ t, rfl, fun t => ?_, hl, fun t ht => ?_, fun t => ?_⟩
    · cases t with
      | zero => left; show s.Step whole (σ 0); rw [e0]; exact h2
      | succ t => exact hs t
    · cases t with
      | zero => omega
      | succ t => exact hN t (by omega)
    · cases t with
      | zero => exact h1
      | succ t => exact hP t

theorem Scan.Steps.go {whole : List Bytes → Prop} {P : World → Prop} {Q : Scan → Prop} {s s1 : Scan} (hP : P s.w) (hs : s.Go whole s1) (h : ∃ s', Scan.Steps whole P s1 s' ∧ Q s') : ∃ s', Scan.Steps whole P s s' ∧ Q s' := by
  obtain ⟨s', h1, h2⟩ := h
  exact ⟨s', .cons hP (Or.inl hs) h1, h2⟩

theorem Scan.Steps.chg {whole : List Bytes → Prop} {P : World → Prop} {Q : Scan → Prop} {s : Scan} {w : World} (hP : P s.w) (hw : w.Tree) (h : ∃ s', Scan.Steps whole P (s.change w) s' ∧ Q s') : ∃ s', Scan.Steps whole P s s' ∧ Q s' := by
  obtain ⟨s', h1, h2⟩ := h
  exact ⟨s', .cons hP (Or.inr ⟨w, hw, rfl⟩) h1, h2⟩

/-! ## What one entry does -/

theorem entry_skip {s : Scan} {f : ScanFrame} {rest : List ScanFrame} {buf name : Bytes} (h : nextDirent f.buf = .ret buf name false) : s.entry f rest = { s with stack := { f with buf } :: rest } := by
  unfold Scan.entry
  rw [h]
  rfl

theorem entry_dir {s : Scan} {f : ScanFrame} {rest : List ScanFrame} {buf name : Bytes} (h : nextDirent f.buf = .ret buf name true) (hn : dataSuffix.isSuffixOf name = false) :
    s.entry f rest = { s with stack := { f with buf } :: rest, dirbuf := (if f.len > 0 then s.dirbuf ++ [47] else s.dirbuf) ++ name, mode := .call } := by
  unfold Scan.entry
  rw [h]
  simp only [Bool.not_true, Bool.false_eq_true, if_false, hn, Bool.not_false, if_true]

theorem entry_add {s : Scan} {f : ScanFrame} {rest : List ScanFrame} {buf name m : Bytes} (h : nextDirent f.buf = .ret buf name true) (hn : dataSuffix.isSuffixOf name = true) (ha : f.added = false) (hm : dirToMetric [] s.dirbuf = some m) :
    s.entry f rest = { s with stack := { f with buf, added := true } :: rest, out := s.out.add m } := by
  unfold Scan.entry
  rw [h]
  simp only [Bool.not_true, Bool.false_eq_true, if_false, hn, ha, hm]

theorem entry_added {s : Scan} {f : ScanFrame} {rest : List ScanFrame} {buf name : Bytes} (h : nextDirent f.buf = .ret buf name true) (hn : dataSuffix.isSuffixOf name = true) (ha : f.added = true) :
    s.entry f rest = { s with stack := { f with buf } :: rest } := by
  unfold Scan.entry
  rw [h]
  simp only [Bool.not_true, Bool.false_eq_true, if_false, hn, ha, if_true]

/-! ## Small file systems -/

def worldOf (l : List (List Bytes × NodeKind)) : World := fun p => l.lookup p

theorem worldOf_mem {l : List (List Bytes × NodeKind)} {p : List Bytes} (h : worldOf l p ≠ none) : p ∈ l.map Prod.fst := by
  unfold worldOf at h
  induction l with
  | nil => exact absurd rfl h
  | cons x l ih =>
    obtain ⟨q, k⟩ := x
    by_cases e : p = q
    · subst e; simp
    · rw [List.lookup_cons, show (p == q) = false by simpa using e] at h
      exact List.mem_cons_of_mem _ (ih h)

/-- `1.data` and `2.data`. -/
def data1 : Bytes := 49 :: dataSuffix
def data2 : Bytes := 50 :: dataSuffix

def scanList1 : List (List Bytes × NodeKind) := [([], .dir), ([[97]], .dir), ([[97], data1], .file)]
def scanList2 : List (List Bytes × NodeKind) := [([], .dir), ([[97]], .dir), ([[97], data1], .file), ([[97], data2], .file), ([[98]], .dir), ([[98], data1], .file)]
def scanList3 : List (List Bytes × NodeKind) := [([], .dir), ([[97]], .dir), ([[97], data2], .file), ([[98]], .dir), ([[98], data1], .file)]

theorem tree_of {l : List (List Bytes × NodeKind)} (h : ∀ p ∈ l.map Prod.fst, p = [] ∨ ∃ q n, p = q ++ [n] ∧ worldOf l q = some .dir ∧ (n ≠ [] ∧ 47 ∉ n ∧ 0 ∉ n ∧ n ≠ [46] ∧ n ≠ [46, 46]) ∧ (dataSuffix.isSuffixOf n = true → ∃ m i, p = dataPath m i)) : (worldOf l).Tree := by
  have key : ∀ p n, worldOf l (p ++ [n]) ≠ none → worldOf l p = some .dir ∧ (n ≠ [] ∧ 47 ∉ n ∧ 0 ∉ n ∧ n ≠ [46] ∧ n ≠ [46, 46]) ∧ (dataSuffix.isSuffixOf n = true → ∃ m i, p ++ [n] = dataPath m i) := by
    intro p n hw
    rcases h _ (worldOf_mem hw) with e | ⟨q, n', e, h1, h2, h3⟩
    · simp at e
    · obtain ⟨rfl, e2⟩ := List.append_inj' e rfl
      injection e2 with e2 _
      subst e2
      exact ⟨h1, h2, h3⟩
  exact ⟨fun p n hw => (key p n hw).1, fun p n hw => (key p n hw).2.1, fun p n hw => (key p n hw).2.2⟩

theorem dataA1 : [[97], data1] = dataPath [97] 1 := by decide +kernel
theorem dataA2 : [[97], data2] = dataPath [97] 2 := by decide +kernel
theorem dataB1 : [[98], data1] = dataPath [98] 1 := by decide +kernel

theorem scanTree1 : (worldOf scanList1).Tree := by
  refine tree_of fun p hp => ?_
  simp only [scanList1, List.map_cons, List.map_nil, List.mem_cons, List.not_mem_nil, or_false] at hp
  rcases hp with rfl | rfl | rfl
  · exact Or.inl rfl
  · exact Or.inr ⟨[], [97], rfl, rfl, by decide, fun h => absurd h (by decide)⟩
  · exact Or.inr ⟨[[97]], data1, rfl, rfl, by decide, fun _ => ⟨_, _, dataA1⟩⟩

theorem scanTree2 : (worldOf scanList2).Tree := by
  refine tree_of fun p hp => ?_
  simp only [scanList2, List.map_cons, List.map_nil, List.mem_cons, List.not_mem_nil, or_false] at hp
  rcases hp with rfl | rfl | rfl | rfl | rfl | rfl
  · exact Or.inl rfl
  · exact Or.inr ⟨[], [97], rfl, rfl, by decide, fun h => absurd h (by decide)⟩
  · exact Or.inr ⟨[[97]], data1, rfl, rfl, by decide, fun _ => ⟨_, _, dataA1⟩⟩
  · exact Or.inr ⟨[[97]], data2, rfl, rfl, by decide, fun _ => ⟨_, _, dataA2⟩⟩
  · exact Or.inr ⟨[], [98], rfl, rfl, by decide, fun h => absurd h (by decide)⟩
  · exact Or.inr ⟨[[98]], data1, rfl, rfl, by decide, fun _ => ⟨_, _, dataB1⟩⟩

theorem scanTree3 : (worldOf scanList3).Tree := by
  refine tree_of fun p hp => ?_
  simp only [scanList3, List.map_cons, List.map_nil, List.mem_cons, List.not_mem_nil, or_false] at hp
  rcases hp with rfl | rfl | rfl | rfl | rfl
  · exact Or.inl rfl
  · exact Or.inr ⟨[], [97], rfl, rfl, by decide, fun h => absurd h (by decide)⟩
  · exact Or.inr ⟨[[97]], data2, rfl, rfl, by decide, fun _ => ⟨_, _, dataA2⟩⟩
  · exact Or.inr ⟨[], [98], rfl, rfl, by decide, fun h => absurd h (by decide)⟩
  · exact Or.inr ⟨[[98]], data1, rfl, rfl, by decide, fun _ => ⟨_, _, dataB1⟩⟩

/-! ## The runs -/

def exEntry (n : Bytes) : Entry := ⟨7, 1, 4, n, [0]⟩

theorem exEntry_listed (n : Bytes) (h1 : n ≠ [46]) (h2 : n ≠ [46, 46]) : (exEntry n).listed = true := by
  have d1 : (".".toUTF8.toList : Bytes) = [46] := by decide +kernel
  have d2 : ("..".toUTF8.toList : Bytes) = [46, 46] := by decide +kernel
  unfold Entry.listed exEntry
  rw [d1, d2]
  simp [h1, h2]

/-- The entries of the top directory. -/
def exRoot : List Entry := [exEntry [46], exEntry [97]]

/-- What is in the top directory at first. -/
theorem root1 {n : Bytes} (h : worldOf scanList1 ([] ++ [n]) ≠ none) : n = [97] := by
  have := worldOf_mem h
  simp only [scanList1, List.map_cons, List.map_nil, List.mem_cons, List.not_mem_nil, or_false, List.nil_append] at this
  rcases this with h | h | h
  · cases h
  · injection h
  · cases h

/-- The states after the first steps: the top directory is open, its entries are read, the directory of the metric is open. -/
theorem first_steps {whole : List Bytes → Prop} {P : World → Prop} {Q : Scan → Prop} (hP : P (worldOf scanList1)) (h : ∃ s', Scan.Steps whole P
      { w := worldOf scanList1, fds := [1, 0], stack := [⟨DirFd.opened (worldOf scanList1) .dir [[97]], 1, 1, false, []⟩, ⟨(DirFd.opened (worldOf scanList1) .dir []).returned exRoot, 0, 0, false, []⟩], mode := .loop, dirbuf := [97], out := .new } s' ∧ Q s') :
    ∃ s', Scan.Steps whole P (.init (worldOf scanList1) []) s' ∧ Q s' := by
  refine Scan.Steps.go hP (.opened .dir 0 rfl rfl (by simp [Scan.init])) ?_
  refine Scan.Steps.go hP (.read _ _ exRoot rfl rfl rfl rfl ⟨(by decide), (by decide), ?_, ?_, (fun e _ h => h), ?_⟩) ?_
  · intro e he
    simp only [exRoot, List.mem_cons, List.not_mem_nil, or_false] at he
    rcases he with rfl | rfl <;> exact ⟨by decide, by decide, by decide⟩
  · intro e he
    simp only [exRoot, List.mem_cons, List.not_mem_nil, or_false] at he
    rcases he with rfl | rfl
    · exact Or.inl (Or.inl rfl)
    · exact Or.inr (by show worldOf scanList1 [[97]] ≠ none; decide)
  · intro _ _ n hn
    exact ⟨exEntry [97], by simp [exRoot], exEntry_listed _ (by decide) (by decide), (root1 hn).symm⟩
  refine Scan.Steps.go hP (.entry _ _ rfl rfl (by decide)) ?_
  rw [entry_skip (buf := (exEntry [97]).bytes) (name := [46]) (by decide +kernel)]
  refine Scan.Steps.go hP (.entry _ _ rfl rfl (by decide)) ?_
  rw [entry_dir (buf := []) (name := [97]) (by decide +kernel) (by decide)]
  refine Scan.Steps.go hP (.opened .dir 1 rfl rfl (by simp [Scan.init])) ?_
  exact h

/-- The last steps: the directory of the metric is read, and so is the top directory. -/
theorem last_steps {whole : List Bytes → Prop} {P : World → Prop} {s : Scan} {f g : ScanFrame} (hP : P s.w) (hs : s.stack = [f, g]) (hm : s.mode = .loop) (hf : f.buf = []) (hg : g.buf = []) (kf : f.fd.kind = .dir) (kg : g.fd.kind = .dir)
    (ef : f.fd.CanEnd (whole f.fd.path) s.w) (eg : g.fd.CanEnd (whole g.fd.path) s.w) : ∃ s', Scan.Steps whole P s s' ∧ s'.mode = .over none (some s.out) ∧ s'.w = s.w := by
  refine Scan.Steps.go hP (.eof f [g] hm hs hf kf ef) ?_
  refine Scan.Steps.go hP (.resume g [] rfl rfl) ?_
  refine Scan.Steps.go hP (.eof g [] rfl rfl hg kg eg) ?_
  refine ⟨_, Scan.Steps.last hP ?_ (.store rfl rfl), ?_, ?_⟩
  · exact hP
  · rfl
  · rfl

/-- What is in the directory of the metric after the change. -/
theorem in_a2 {n : Bytes} (h : worldOf scanList2 ([[97]] ++ [n]) ≠ none) : n = data1 ∨ n = data2 := by
  have := worldOf_mem h
  simp only [scanList2, List.map_cons, List.map_nil, List.mem_cons, List.not_mem_nil, or_false, List.cons_append, List.nil_append] at this
  rcases this with h | h | h | h | h | h
  · cases h
  · cases h
  · injection h with _ h; injection h with h; exact Or.inl h
  · injection h with _ h; injection h with h; exact Or.inr h
  · cases h
  · injection h with h _; cases h

theorem in_a3 {n : Bytes} (h : worldOf scanList3 ([[97]] ++ [n]) ≠ none) : n = data2 := by
  have := worldOf_mem h
  simp only [scanList3, List.map_cons, List.map_nil, List.mem_cons, List.not_mem_nil, or_false, List.cons_append, List.nil_append] at this
  rcases this with h | h | h | h | h
  · cases h
  · cases h
  · injection h with _ h; injection h with h
  · cases h
  · injection h with h _; cases h

theorem not_in_a1 : worldOf scanList1 ([[97]] ++ [data2]) = none := by decide

def exFiles : List Entry := [exEntry data2, exEntry data1]

/-- A file of the metric `a` is there all the time; a second file and another metric appear while its directory is read. The hypotheses of all theorems of C114 are met, with all directories small. -/
theorem C114_example : ∃ (σ : Nat → Scan) (T : Nat) (o : SSet), Scan.Run (fun _ => True) [] σ ∧ (σ T).mode = .over none (some o) ∧ o.order = [[97]] ∧ (∀ t, (σ t).w (dataPath [97] 1) ≠ none) ∧ (σ 0).w (dataPath [98] 1) = none ∧ (σ T).w (dataPath [98] 1) ≠ none ∧
    (∃ L : List (List Bytes), ∀ t p, (σ t).w p ≠ none → p ∈ L) ∧ (∃ T, ∀ t, T ≤ t → (σ t).Go (fun _ => True) (σ (t + 1)) ∨ σ (t + 1) = σ t) ∧
    (∀ t, (∀ r st, (σ t).mode ≠ .over r st) → ∃ t', t ≤ t' ∧ (σ t').Go (fun _ => True) (σ (t' + 1))) := by
  have hP1 : (worldOf scanList1) (dataPath [97] 1) ≠ none ∧ ∀ p, (worldOf scanList1) p ≠ none → p ∈ scanList2.map Prod.fst := by
    refine ⟨by rw [← dataA1]; decide, fun p hp => ?_⟩
    have := worldOf_mem hp
    simp only [scanList1, scanList2, List.map_cons, List.map_nil, List.mem_cons, List.not_mem_nil, or_false] at this ⊢
    rcases this with h | h | h <;> simp [h]
  have hP2 : (worldOf scanList2) (dataPath [97] 1) ≠ none ∧ ∀ p, (worldOf scanList2) p ≠ none → p ∈ scanList2.map Prod.fst := ⟨by rw [← dataA1]; decide, fun p hp => worldOf_mem hp⟩
  obtain ⟨s', hs, hm, ho, hb⟩ : ∃ s', Scan.Steps (fun _ => True) (fun w => w (dataPath [97] 1) ≠ none ∧ ∀ p, w p ≠ none → p ∈ scanList2.map Prod.fst) (.init (worldOf scanList1) []) s' ∧ s'.mode = .over none (some (SSet.new.add [97])) ∧ (SSet.new.add [97]).order = [[97]] ∧
      s'.w (dataPath [98] 1) ≠ none := by
    refine first_steps hP1 ?_
    refine Scan.Steps.chg (w := worldOf scanList2) hP1 scanTree2 ?_
    unfold Scan.change
    dsimp only [List.map_cons, List.map_nil]
    refine Scan.Steps.go hP2 (.read _ _ exFiles rfl rfl rfl rfl ⟨(by decide), (by decide), ?_, ?_, (fun e _ h => h.1), ?_⟩) ?_
    · intro e he
      simp only [exFiles, List.mem_cons, List.not_mem_nil, or_false] at he
      rcases he with rfl | rfl <;> exact ⟨by decide, by decide, by decide⟩
    · intro e he
      simp only [exFiles, List.mem_cons, List.not_mem_nil, or_false] at he
      rcases he with rfl | rfl
      · exact Or.inr (Or.inr (by show worldOf scanList2 [[97], data2] ≠ none; decide))
      · exact Or.inr (Or.inr (by show worldOf scanList2 [[97], data1] ≠ none; decide))
    · intro _ _ n hn
      rcases in_a2 hn with rfl | rfl
      · exact ⟨exEntry data1, by simp [exFiles], exEntry_listed _ (by decide) (by decide), rfl⟩
      · exact ⟨exEntry data2, by simp [exFiles], exEntry_listed _ (by decide) (by decide), rfl⟩
    refine Scan.Steps.go hP2 (.entry _ _ rfl rfl (by decide)) ?_
    rw [entry_add (buf := (exEntry data1).bytes) (name := data2) (m := [97]) (by decide +kernel) (by decide) rfl (by decide +kernel)]
    refine Scan.Steps.go hP2 (.entry _ _ rfl rfl (by decide)) ?_
    rw [entry_added (buf := []) (name := data1) (by decide +kernel) (by decide) rfl]
    refine Exists.imp (fun s' h => ⟨h.1, h.2.1, (by decide +kernel), ?_⟩) (last_steps (P := fun w => w (dataPath [97] 1) ≠ none ∧ ∀ p, w p ≠ none → p ∈ scanList2.map Prod.fst) hP2 rfl rfl rfl rfl rfl rfl ⟨fun n hn => ?_, fun _ h => by cases h⟩ ⟨fun n hn => ?_, fun _ h => by cases h⟩)
    · rw [h.2.2, ← dataB1]
      decide
    · rcases in_a2 hn.1.2 with rfl | rfl
      · exact hn.2 ⟨exEntry data1, by simp [exFiles], exEntry_listed _ (by decide) (by decide), rfl⟩
      · exact hn.2 ⟨exEntry data2, by simp [exFiles], exEntry_listed _ (by decide) (by decide), rfl⟩
    · exact hn.1.2 ⟨exEntry [97], by simp [exRoot], exEntry_listed _ (by decide) (by decide), (root1 hn.1.1).symm⟩
  obtain ⟨N, σ, e0, hstep, hgo, hN, hP⟩ := hs.run
  refine ⟨σ, N + 1, _, ⟨⟨_, scanTree1, e0⟩, List.nodup_nil, hstep⟩, by rw [hN _ (Nat.lt_succ_self _)]; exact hm, ho, fun t => (hP t).1, ?_, by rw [hN _ (Nat.lt_succ_self _)]; exact hb, ⟨_, fun t => (hP t).2⟩, ⟨N + 1, fun t ht => Or.inr ?_⟩, fun t ht => ⟨N, ?_, hgo⟩⟩
  · rw [e0, ← dataB1]; decide
  · rw [hN t (by omega), hN (t + 1) (by omega)]
  · refine Nat.le_of_not_lt fun hlt => ?_
    rw [hN t hlt] at ht
    exact ht _ _ hm

/-- The condition that the directory is read at once cannot be dropped for a metric whose files are replaced: here there is at each time a data file of the metric `a`, the second appears before the first is removed, but the first is removed before
the directory is read, and the second appeared after it was opened; the scan succeeds without the metric. -/
theorem C114_replaced_refuted : ∃ (σ : Nat → Scan) (T : Nat) (o : SSet), Scan.Run (fun _ => False) [] σ ∧ (σ T).mode = .over none (some o) ∧ (∀ t, ∃ i, (σ t).w (dataPath [97] i) ≠ none) ∧ [97] ∉ o.order := by
  have hP1 : ∃ i, (worldOf scanList1) (dataPath [97] i) ≠ none := ⟨1, by rw [← dataA1]; decide⟩
  have hP2 : ∃ i, (worldOf scanList2) (dataPath [97] i) ≠ none := ⟨1, by rw [← dataA1]; decide⟩
  have hP3 : ∃ i, (worldOf scanList3) (dataPath [97] i) ≠ none := ⟨2, by rw [← dataA2]; decide⟩
  obtain ⟨s', hs, hm⟩ : ∃ s', Scan.Steps (fun _ => False) (fun w => ∃ i, w (dataPath [97] i) ≠ none) (.init (worldOf scanList1) []) s' ∧ s'.mode = .over none (some SSet.new) := by
    refine first_steps hP1 ?_
    refine Scan.Steps.chg (w := worldOf scanList2) hP1 scanTree2 ?_
    refine Scan.Steps.chg (w := worldOf scanList3) hP2 scanTree3 ?_
    unfold Scan.change
    dsimp only [List.map_cons, List.map_nil]
    refine Exists.imp (fun s' h => ⟨h.1, h.2.1⟩) (last_steps (P := fun w => ∃ i, w (dataPath [97] i) ≠ none) hP3 rfl rfl rfl rfl rfl rfl ⟨fun n hn => ?_, fun h => h.elim⟩ ⟨fun n hn => ?_, fun h => h.elim⟩)
    · have := in_a3 hn.2
      subst this
      exact hn.1.1 not_in_a1
    · exact hn.1.1.2 ⟨exEntry [97], by simp [exRoot], exEntry_listed _ (by decide) (by decide), (root1 hn.1.1.1).symm⟩
  obtain ⟨N, σ, e0, hstep, hgo, hN, hP⟩ := hs.run
  exact ⟨σ, N + 1, _, ⟨⟨_, scanTree1, e0⟩, List.nodup_nil, hstep⟩, by rw [hN _ (Nat.lt_succ_self _)]; exact hm, hP, fun h => by cases h⟩

end Rothko
