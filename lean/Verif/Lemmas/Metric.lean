import Verif.Lemmas.FileRep
/-! Invariants of one metric's directory and their preservation. -/
namespace Rothko

/-! ## The directory scan -/

theorem scan_true (l : List Int) (a b : Int) : l.foldl scanStep (a, b, true) = (l.foldl min a, l.foldl max b, true) := by
  induction l generalizing a b with
  | nil => rfl
  | cons x l ih =>
    simp only [List.foldl_cons]
    have : scanStep (a, b, true) x = (min a x, max b x, true) := by
      unfold scanStep
      simp only [Bool.not_true, Bool.or_false, decide_eq_true_eq]
      by_cases h1 : x > b <;> by_cases h2 : x < a <;> simp [h1, h2] <;> omega
    rw [this, ih]

theorem foldl_min_eq (l : List Int) (a m : Int) (h1 : m ≤ a) (h2 : ∀ x ∈ l, m ≤ x) (h3 : a = m ∨ m ∈ l) : l.foldl min a = m := by
  induction l generalizing a with
  | nil => rcases h3 with h | h
           · exact h
           · simp at h
  | cons x l ih =>
    rw [List.foldl_cons]
    have hx := h2 x List.mem_cons_self
    apply ih _ (by omega) (fun y hy => h2 y (List.mem_cons_of_mem _ hy))
    rcases h3 with h | h
    · left; omega
    · rcases List.mem_cons.mp h with h | h
      · left; omega
      · right; exact h

theorem foldl_max_eq (l : List Int) (a m : Int) (h1 : a ≤ m) (h2 : ∀ x ∈ l, x ≤ m) (h3 : a = m ∨ m ∈ l) : l.foldl max a = m := by
  induction l generalizing a with
  | nil => rcases h3 with h | h
           · exact h
           · simp at h
  | cons x l ih =>
    rw [List.foldl_cons]
    have hx := h2 x List.mem_cons_self
    apply ih _ (by omega) (fun y hy => h2 y (List.mem_cons_of_mem _ hy))
    rcases h3 with h | h
    · left; omega
    · rcases List.mem_cons.mp h with h | h
      · left; omega
      · right; exact h

theorem scan_eq (l : List Int) (first last : Int) (h1 : 1 ≤ first) (hl : first ∈ l) (hr : last ∈ l)
    (hall : ∀ x ∈ l, first ≤ x ∧ x ≤ last) : l.foldl scanStep (0, 0, false) = (first, last, true) := by
  cases l with
  | nil => simp at hl
  | cons x l =>
    rw [List.foldl_cons]
    have hx := hall x List.mem_cons_self
    have : scanStep (0, 0, false) x = (x, x, true) := by
      unfold scanStep
      simp; omega
    rw [this, scan_true, foldl_min_eq l x first hx.1 (fun y hy => (hall y (List.mem_cons_of_mem _ hy)).1)
        (by rcases List.mem_cons.mp hl with h | h
            · left; exact h.symm
            · right; exact h),
      foldl_max_eq l x last hx.2 (fun y hy => (hall y (List.mem_cons_of_mem _ hy)).2)
        (by rcases List.mem_cons.mp hr with h | h
            · left; exact h.symm
            · right; exact h)]

/-! ## What readers rely on -/

/-- The files of a metric from number `n` downwards. -/
def filesDown (F : Int → α) : Nat → Int → List α
  | 0, _ => []
  | k + 1, n => F n :: filesDown F k (n - 1)

theorem filesDown_congr {F F' : Int → α} {k : Nat} {n : Int} (h : ∀ i, n - k < i → i ≤ n → F i = F' i) : filesDown F k n = filesDown F' k n := by
  induction k generalizing n with
  | zero => rfl
  | succ k ih => simp only [filesDown]; rw [h n (by omega) (by omega), ih (fun i h1 h2 => h i (by omega) (by omega))]

theorem filesDown_snoc (F : Int → α) (k : Nat) (n : Int) : filesDown F (k + 1) n = filesDown F k n ++ [F (n - k)] := by
  induction k generalizing n with
  | zero => simp [filesDown]
  | succ k ih =>
    rw [filesDown, ih (n - 1)]
    simp only [filesDown, List.cons_append]
    congr 3
    congr 1
    omega

theorem filesDown_map (F : Int → α) (g : α → β) (k : Nat) (n : Int) : (filesDown F k n).map g = filesDown (fun i => g (F i)) k n := by
  induction k generalizing n with
  | zero => rfl
  | succ k ih => simp [filesDown, ih]

theorem filesDown_length (F : Int → α) (k : Nat) (n : Int) : (filesDown F k n).length = k := by
  induction k generalizing n with
  | zero => rfl
  | succ k ih => simp [filesDown, ih]

theorem mem_filesDown {F : Int → α} {k : Nat} {n : Int} {x : α} (h : x ∈ filesDown F k n) : ∃ i, n - k < i ∧ i ≤ n ∧ x = F i := by
  induction k generalizing n with
  | zero => simp [filesDown] at h
  | succ k ih =>
    rcases List.mem_cons.mp h with h | h
    · exact ⟨n, by omega, by omega, h⟩
    · obtain ⟨i, h1, h2, h3⟩ := ih h; exact ⟨i, by omega, by omega, h3⟩

/-- What a query sees of a list of files (values and recorded smallest end), newest file first. -/
def visible (bound : Int64) : List (List Val × Int64) → List Val
  | [] => []
  | f :: rest => if f.2 ≥ bound then [] else before bound f.1 ++ visible bound rest

/-- Only handles and the lookup counter differ. -/
structure SameDisk (s s' : Store) : Prop where
  dirExists : s'.dirExists = s.dirExists
  dir : s'.dir = s.dir
  disk : s'.disk = s.disk
  next : s'.next = s.next
  hit : s'.hit = s.hit

theorem SameDisk.refl (s : Store) : SameDisk s s := ⟨rfl, rfl, rfl, rfl, rfl⟩
theorem SameDisk.trans {a b c : Store} (h : SameDisk a b) (g : SameDisk b c) : SameDisk a c :=
  ⟨g.1.trans h.1, g.2.trans h.2, g.3.trans h.3, g.4.trans h.4, g.5.trans h.5⟩

theorem SameDisk.lookup {s s' : Store} (h : SameDisk s s') (idx : Int) : s'.lookup idx = s.lookup idx := by
  unfold Store.lookup; rw [h.dir]

theorem SameDisk.file {s s' : Store} (h : SameDisk s s') (x : Handle) : s'.file x = s.file x := by
  unfold Store.file; rw [h.disk]

/-- Cached handles are handles of existing files. -/
def CacheOk (s : Store) (first last : Int) (H : Int → Handle) : Prop :=
  ∀ i h, s.cache i = some h → (first ≤ i ∧ i ≤ last) ∧ h = H i

/-- Directory contents as readers need them: files `first..last`, each showing values and a smallest end. -/
structure DirInv (s : Store) (first last : Int) (H : Int → Handle) (F : Int → List Val × Int64) : Prop where
  ex : s.dirExists = true
  rng : 1 ≤ first ∧ first ≤ last
  lookup : ∀ idx, s.lookup idx = if first ≤ idx ∧ idx ≤ last then some (H idx).ino else none
  view : ∀ i, first ≤ i → i ≤ last → FileSees (s.file (H i)) (F i).1 (F i).2
  cache : CacheOk s first last H

theorem DirInv.same {s s' : Store} {first last : Int} {H : Int → Handle} {F : Int → List Val × Int64} (h : DirInv s first last H F)
    (hs : SameDisk s s') (hc : CacheOk s' first last H) : DirInv s' first last H F :=
  ⟨by rw [hs.dirExists]; exact h.ex, h.rng, fun i => by rw [hs.lookup]; exact h.lookup i,
    fun i h1 h2 => by rw [hs.file]; exact h.view i h1 h2, hc⟩

theorem CacheOk.release {s : Store} {first last : Int} {H : Int → Handle} (h : CacheOk s first last H) {idx : Int}
    (h1 : first ≤ idx) (h2 : idx ≤ last) : CacheOk (s.release idx (H idx)) first last H := by
  intro i x hx
  simp only [Store.release] at hx
  split at hx
  · rename_i hi; subst hi; cases hx; exact ⟨⟨h1, h2⟩, rfl⟩
  · exact h i x hx

theorem CacheOk.evict {s : Store} {first last : Int} {H : Int → Handle} (h : CacheOk s first last H) (idx : Int) :
    CacheOk (s.evict idx) first last H := by
  intro i x hx
  simp only [Store.evict] at hx
  split at hx
  · cases hx
  · exact h i x hx

theorem sameDisk_release (s : Store) (idx : Int) (h : Handle) : SameDisk s (s.release idx h) := ⟨rfl, rfl, rfl, rfl, rfl⟩

theorem DirInv.acquire {s : Store} {first last : Int} {H : Int → Handle} {F : Int → List Val × Int64} (h : DirInv s first last H F)
    (cfg : Cfg) (idx : Int) (h1 : first ≤ idx) (h2 : idx ≤ last) :
    ∃ s', s.acquire cfg idx true = (.ok (H idx), s') ∧ SameDisk s s' ∧ CacheOk s' first last H := by
  let s1 : Store := { s.evict idx with clock := s.clock + 1 }
  have hs1 : SameDisk s s1 := ⟨rfl, rfl, rfl, rfl, rfl⟩
  have hc1 : CacheOk s1 first last H := fun i x hx => h.cache.evict idx i x hx
  have hopen : s1.openAt idx = (.ok (H idx), s1) := by
    unfold Store.openAt
    rw [hs1.lookup, h.lookup, if_pos ⟨h1, h2⟩]
    simp only
    have hv := (h.view idx h1 h2).opens
    have hd : s1.disk (H idx).ino = (s.file (H idx)).data := rfl
    rw [hd, hv]
    rfl
  refine ⟨s1, ?_, hs1, hc1⟩
  unfold Store.acquire
  cases hcache : s.cache idx with
  | none => simp only [if_true]; exact hopen
  | some x =>
    cases hhit : s.hit s.clock with
    | false => simp only [if_true]; exact hopen
    | true => simp only; rw [(h.cache idx x hcache).2]

theorem mem_keys {s : Store} {idx : Int} : idx ∈ s.dir.map Prod.fst ↔ (s.lookup idx).isSome = true := by
  unfold Store.lookup
  simp [List.find?_isSome]

theorem DirInv.newMetric {s : Store} {first last : Int} {H : Int → Handle} {F : Int → List Val × Int64} (h : DirInv s first last H F)
    (cfg : Cfg) (ro : Bool) : Rothko.newMetric cfg ro s = (.ok (first, last), s) := by
  unfold Rothko.newMetric
  have hr := h.rng
  rw [h.ex]
  simp only [Bool.not_true, Bool.false_and, Bool.false_eq_true, if_false]
  have hscan := scan_eq (s.dir.map Prod.fst) first last hr.1
    (by rw [mem_keys, h.lookup, if_pos ⟨by omega, hr.2⟩]; rfl)
    (by rw [mem_keys, h.lookup, if_pos ⟨hr.2, by omega⟩]; rfl)
    (fun x hx => by
      rw [mem_keys, h.lookup] at hx
      by_cases hin : first ≤ x ∧ x ≤ last
      · exact hin
      · rw [if_neg hin] at hx; cases hx)
  have hs : ({ s with dirExists := true } : Store) = s := by
    rw [← h.ex]
  simp only [hs, hscan, if_true]

/-- `Read` over the files. -/
theorem DirInv.read {s : Store} {first last : Int} {H : Int → Handle} {F : Int → List Val × Int64} (h : DirInv s first last H F)
    {σ : Type} (cfg : Cfg) (bound : Int64) (cb : σ → Val → σ × Cb) (k : Nat) (num : Int) (hk : num = first + k - 1) (hl : num ≤ last) (st : σ) :
    ∃ s', metricRead cfg bound cb k num s st =
        (((visit cb (visible bound (filesDown F k num)) st).1, (visit cb (visible bound (filesDown F k num)) st).2.error), s') ∧
      SameDisk s s' ∧ CacheOk s' first last H := by
  induction k generalizing s num st with
  | zero => exact ⟨s, rfl, SameDisk.refl s, h.cache⟩
  | succ k ih =>
    obtain ⟨s1, e1, sd1, c1⟩ := h.acquire cfg num (by omega) hl
    have hv := (h.view num (by omega) hl).reads bound cb st
    simp only [metricRead, e1, sd1.file, hv, filesDown, visible]
    by_cases hse : (F num).2 ≥ bound
    · rw [if_pos hse, if_pos hse]
      exact ⟨_, rfl, sd1.trans (sameDisk_release _ _ _), c1.release (by omega) hl⟩
    · rw [if_neg hse, if_neg hse, visit_append]
      rcases hvis : visit cb (before bound (F num).1) st with ⟨st', c⟩
      cases c with
      | more =>
        simp only
        have h2 : DirInv (s1.release num (H num)) first last H F :=
          h.same (sd1.trans (sameDisk_release _ _ _)) (c1.release (by omega) hl)
        obtain ⟨s3, e3, sd3, c3⟩ := ih h2 (num - 1) (by omega) (by omega) st'
        exact ⟨s3, e3, (sd1.trans (sameDisk_release _ _ _)).trans sd3, c3⟩
      | stop => exact ⟨_, rfl, sd1.trans (sameDisk_release _ _ _), c1.release (by omega) hl⟩
      | fail e => exact ⟨_, rfl, sd1.trans (sameDisk_release _ _ _), c1.release (by omega) hl⟩

/-- `Query` on a directory with files: exactly the visible values; nothing on disk changes. -/
theorem DirInv.query {s : Store} {first last : Int} {H : Int → Handle} {F : Int → List Val × Int64} (h : DirInv s first last H F)
    {σ : Type} (cfg : Cfg) (bound : Int64) (cb : σ → Val → σ × Cb) (st : σ) :
    ∃ s', dbQuery cfg bound cb st s =
        (((visit cb (visible bound (filesDown F (last - first + 1).toNat last)) st).1,
          (visit cb (visible bound (filesDown F (last - first + 1).toNat last)) st).2.error), s') ∧
      SameDisk s s' ∧ CacheOk s' first last H := by
  have hr := h.rng
  unfold dbQuery
  rw [h.newMetric]
  exact h.read cfg bound cb _ last (by omega) (by omega) st

end Rothko
