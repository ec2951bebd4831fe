import Verif.Model.Convert
import Verif.Lemmas.Bytes
import Verif.Lemmas.Metric
import Verif.Spec.Split
/-! # Lemmas about names -/
namespace Rothko

def dots (k : Nat) : Bytes := List.replicate k 46
def escDots (k : Nat) : Bytes := (List.replicate k escDot).flatten

theorem escDots_succ (k : Nat) : escDots (k + 1) = escDots k ++ escDot := by
  simp [escDots, List.replicate_succ', -List.replicate_succ]
theorem escDots_length (k : Nat) : (escDots k).length = k * 3 := by
  induction k with
  | zero => rfl
  | succ k ih => rw [escDots_succ, List.length_append, ih]; simp [escDot]; omega
theorem dots_succ (k : Nat) : dots (k + 1) = dots k ++ [46] := by simp [dots, List.replicate_succ', -List.replicate_succ]

theorem decLoop_append {x : Bytes} {s s' : DecState} (h : decLoop x s = some s') (y : Bytes) : decLoop (x ++ y) s = decLoop y s' := by
  induction x, s using decLoop.induct <;> first
    | (simp_all [decLoop]; done)
    | (rw [List.cons_append]; rw [decLoop.eq_def] at h ⊢; simp_all)

theorem decLoop_escDot (s : DecState) : decLoop escDot s = some { s with buf := s.buf ++ [46], lastDot := true } := rfl

theorem decLoop_encByte (ch : UInt8) (h : ch ≠ 46) (s : DecState) :
    decLoop (encByte ch) s = some { buf := s.buf ++ [ch], lastDot := false, allDots := false } := by
  unfold encByte
  split
  · next h => subst h; rfl
  · split
    · next h => subst h; rfl
    · next h1 h2 => simp [decLoop, *]

theorem decLoop_escDots (k : Nat) (s : DecState) (hk : s.lastDot = true ∨ 0 < k) :
    decLoop (escDots k) s = some { s with buf := s.buf ++ dots k, lastDot := true } := by
  induction k with
  | zero =>
    have : s.lastDot = true := by simpa using hk
    cases s; simp_all [escDots, dots, decLoop]
  | succ k ih =>
    rw [escDots_succ]
    by_cases h : s.lastDot = true ∨ 0 < k
    · rw [decLoop_append (ih h), decLoop_escDot]; simp [dots_succ]
    · have : k = 0 := by simp at h; omega
      subst this
      simp [escDots, decLoop_escDot, dots]

/-- Every component of the path is non-empty and has no dot. -/
def GoodPath (b : Bytes) : Prop := ∀ c ∈ splitOn 47 b, c ≠ [] ∧ 46 ∉ c

theorem GoodPath.join {a b : Bytes} (ha : GoodPath a) (hb : GoodPath b) : GoodPath (a ++ 47 :: b) := by
  intro c hc
  rw [splitOn_append, List.mem_append] at hc
  exact hc.elim (ha c) (hb c)

theorem GoodPath.single {e : Bytes} (h0 : e ≠ []) (h1 : 47 ∉ e) (h2 : 46 ∉ e) : GoodPath e := by
  intro c hc
  rw [splitOn_none _ _ h1, List.mem_singleton] at hc
  subst hc; exact ⟨h0, h2⟩

theorem last_sep (sep : UInt8) (a : Bytes) : sep ∉ a ∨ ∃ x l, a = x ++ sep :: l ∧ sep ∉ l := by
  induction a with
  | nil => left; simp
  | cons c a ih =>
    rcases ih with h | ⟨x, l, rfl, h⟩
    · by_cases hc : c = sep
      · subst hc; exact Or.inr ⟨[], a, rfl, h⟩
      · left; simp only [List.mem_cons, not_or]; exact ⟨fun e => hc e.symm, h⟩
    · exact Or.inr ⟨c :: x, l, rfl, h⟩

theorem GoodPath.snoc {a e : Bytes} (ha : GoodPath a) (h1 : 47 ∉ e) (h2 : 46 ∉ e) : GoodPath (a ++ e) := by
  rcases last_sep 47 a with h | ⟨x, l, rfl, h⟩
  · have := ha a (by rw [splitOn_none _ _ h]; simp)
    exact .single (by simp [this.1]) (by simp [h, h1]) (by simp [this.2, h2])
  · have hx : GoodPath x := fun c hc => ha c (by rw [splitOn_append, List.mem_append]; exact Or.inl hc)
    have hl := ha l (by rw [splitOn_append, List.mem_append, splitOn_none _ _ h]; simp)
    rw [List.append_assoc, List.cons_append]
    exact hx.join (.single (by simp [hl.1]) (by simp [h, h1]) (by simp [hl.2, h2]))

theorem encByte_ok (ch : UInt8) (h : ch ≠ 46) : encByte ch ≠ [] ∧ 47 ∉ encByte ch ∧ 46 ∉ encByte ch := by
  unfold encByte
  split
  · decide
  · split
    · decide
    · next h1 h2 => simp only [List.mem_singleton]; exact ⟨by simp, fun e => h1 e.symm, fun e => h e.symm⟩

theorem escDots_ok (k : Nat) : 47 ∉ escDots k ∧ 46 ∉ escDots k ∧ (0 < k → escDots k ≠ []) := by
  refine ⟨?_, ?_, ?_⟩
  · intro h; simp only [escDots, List.mem_flatten] at h
    obtain ⟨l, hl, h⟩ := h
    rw [(List.mem_replicate.mp hl).2] at h; revert h; decide
  · intro h; simp only [escDots, List.mem_flatten] at h
    obtain ⟨l, hl, h⟩ := h
    rw [(List.mem_replicate.mp hl).2] at h; revert h; decide
  · intro hk h
    have := escDots_length k
    rw [h] at this; simp at this; omega

/-- What the encoder has written after the prefix `p`. -/
def EncInv (base p : Bytes) (s : EncState) : Prop :=
  (s.nonDots = false ∧ p = dots s.dots ∧ s.buf = base ++ escDots s.dots) ∨
  (s.nonDots = true ∧ ∃ b0 p0, p = p0 ++ dots s.dots ∧ GoodPath b0 ∧ p0 ≠ [] ∧
    (∀ pre, decLoop b0 ⟨pre, false, false⟩ = some ⟨pre ++ p0, false, false⟩) ∧
    s.buf = base ++ b0 ++ (if s.dots = 0 then [] else [47] ++ escDots (s.dots - 1)))

theorem encInv_step {base p : Bytes} {s : EncState} (h : EncInv base p s) (ch : UInt8) : EncInv base (p ++ [ch]) (encStep s ch) := by
  unfold encStep
  rcases h with ⟨hn, hp, hb⟩ | ⟨hn, b0, p0, hp, hgood, hp0, hd, hb⟩
  · by_cases hc : ch = 46
    · subst hc
      left
      simp only [if_true, hn, Bool.not_false, Bool.or_true]
      exact ⟨trivial, by rw [hp, dots_succ], by rw [hb, escDots_succ, List.append_assoc]⟩
    · right
      simp only [if_neg hc, hn, Bool.not_false, Bool.true_and, decide_eq_true_eq]
      refine ⟨trivial, escDots s.dots ++ (if s.dots > 0 then [47] else []) ++ encByte ch, p ++ [ch], by simp [dots], ?_, by simp, ?_, ?_⟩
      · have ⟨e0, e1, e2⟩ := encByte_ok ch hc
        have ⟨d1, d2, d0⟩ := escDots_ok s.dots
        by_cases hk : s.dots = 0
        · rw [if_neg (by omega), hk]; exact .single e0 e1 e2
        · rw [if_pos (by omega), List.append_assoc]
          exact (GoodPath.single (d0 (by omega)) d1 d2).join (.single e0 e1 e2)
      · intro pre
        by_cases hk : s.dots = 0
        · simp only [hk, escDots, List.replicate_zero, List.flatten_nil, List.nil_append, gt_iff_lt, Nat.lt_irrefl, if_false]
          rw [decLoop_encByte _ hc, hp, hk]; rfl
        · have : 0 < s.dots := by omega
          rw [if_pos this, List.append_assoc, decLoop_append (decLoop_escDots s.dots _ (Or.inr this))]
          rw [List.singleton_append]
          conv => lhs; unfold decLoop
          simp only [if_true]
          rw [decLoop_encByte _ hc, hp]
          simp
      · rw [hb]; simp
  · by_cases hc : ch = 46
    · subst hc
      right
      simp only [if_true, hn, Bool.not_true, Bool.or_false, decide_eq_true_eq]
      refine ⟨trivial, b0, p0, by rw [hp, dots_succ, List.append_assoc], hgood, hp0, hd, ?_⟩
      rw [hb]
      by_cases hk : s.dots = 0
      · simp [hk, escDots]
      · have : s.dots > 0 := by omega
        rw [if_neg hk, if_pos this, if_neg (by omega)]
        rw [show s.dots + 1 - 1 = (s.dots - 1) + 1 by omega, escDots_succ]
        simp [List.append_assoc]
    · right
      simp only [if_neg hc, hn, Bool.not_true, Bool.false_and]
      refine ⟨trivial, b0 ++ (if s.dots = 0 then [] else [47] ++ escDots (s.dots - 1)) ++ encByte ch, p ++ [ch], by simp [dots], ?_, by simp, ?_, ?_⟩
      · have ⟨e0, e1, e2⟩ := encByte_ok ch hc
        have ⟨d1, d2, d0⟩ := escDots_ok (s.dots - 1)
        by_cases hk : s.dots = 0
        · rw [if_pos hk, List.append_nil]; exact hgood.snoc e1 e2
        · rw [if_neg hk, List.append_assoc, List.append_assoc, List.singleton_append]
          exact hgood.join (.single (by simp [e0]) (by simp [d1, e1]) (by simp [d2, e2]))
      · intro pre
        by_cases hk : s.dots = 0
        · rw [if_pos hk, List.append_nil, decLoop_append (hd pre), decLoop_encByte _ hc, hp, hk]
          simp [dots]
        · rw [if_neg hk, List.append_assoc, decLoop_append (hd pre), List.append_assoc, List.singleton_append]
          conv => lhs; unfold decLoop
          simp only [if_true, Bool.false_eq_true, if_false]
          rw [decLoop_append (decLoop_escDots (s.dots - 1) _ (Or.inl rfl)), decLoop_encByte _ hc, hp]
          obtain ⟨k, hk'⟩ : ∃ k, s.dots = k + 1 := ⟨s.dots - 1, by omega⟩
          simp [hk', dots, List.replicate_succ]
      · rw [hb]; simp [List.append_assoc]

theorem encInv_fold (base m : Bytes) : EncInv base m (m.foldl encStep ⟨base, false, 0⟩) := by
  suffices h : ∀ (m p : Bytes) s, EncInv base p s → EncInv base (p ++ m) (m.foldl encStep s) by
    have := h m [] ⟨base, false, 0⟩ (Or.inl ⟨rfl, rfl, by simp [escDots]⟩)
    simpa using this
  intro m
  induction m with
  | nil => intro p s h; simpa using h
  | cons c m ih =>
    intro p s h
    have := ih (p ++ [c]) _ (encInv_step h c)
    simpa using this

/-- The result of `metricToDir`. -/
theorem metricToDir_spec (base m : Bytes) :
    (∃ k, m = dots k ∧ metricToDir base m = base ++ escDots k) ∨
    (∃ b0 p0 k, m = p0 ++ dots k ∧ GoodPath b0 ∧ p0 ≠ [] ∧
      (∀ pre, decLoop b0 ⟨pre, false, false⟩ = some ⟨pre ++ p0, false, false⟩) ∧
      metricToDir base m = base ++ b0 ++ (if k = 0 then [] else [47] ++ escDots k)) := by
  unfold metricToDir encFinish
  rcases encInv_fold base m with ⟨hn, hp, hb⟩ | ⟨hn, b0, p0, hp, hgood, hp0, hd, hb⟩
  · left
    exact ⟨_, hp, by simp [hn, hb]⟩
  · right
    refine ⟨b0, p0, _, hp, hgood, hp0, hd, ?_⟩
    generalize m.foldl encStep ⟨base, false, 0⟩ = s at *
    by_cases hk : s.dots = 0
    · simp [hk, hb]
    · have hpos : 0 < s.dots := by omega
      simp only [hn, Bool.and_true, gt_iff_lt, hpos, decide_true, if_true, hb, if_neg hk]
      have : (base ++ b0 ++ ([47] ++ escDots (s.dots - 1))).length - (1 + (s.dots - 1) * 3) = (base ++ b0).length := by
        simp only [List.length_append, escDots_length, List.length_singleton]; omega
      rw [this, List.take_left]
      simp [escDots]

theorem metricToDir_base (base m : Bytes) : metricToDir base m = base ++ metricToDir [] m := by
  have gen : ∀ (m : Bytes) (s : EncState), m.foldl encStep { s with buf := base ++ s.buf } = { m.foldl encStep s with buf := base ++ (m.foldl encStep s).buf } := by
    intro m
    induction m with
    | nil => intro s; rfl
    | cons c m ih =>
      intro s
      simp only [List.foldl_cons]
      rw [← ih (encStep s c)]
      congr 1
      unfold encStep
      split <;> simp
  have h1 := gen m ⟨[], false, 0⟩
  rcases encInv_fold [] m with ⟨hn, hp, hb⟩ | ⟨hn, b0, p0, hp, hgood, hp0, hd, hb⟩
  · simp only [List.append_nil] at h1
    unfold metricToDir
    rw [h1]
    simp [encFinish, hn]
  · simp only [List.append_nil] at h1
    unfold metricToDir
    rw [h1]
    generalize m.foldl encStep ⟨[], false, 0⟩ = s at *
    unfold encFinish
    simp only
    split
    · next hk =>
      have hpos : 0 < s.dots := by simp at hk; omega
      have hlen : 1 + (s.dots - 1) * 3 ≤ s.buf.length := by
        rw [hb, if_neg (by omega)]
        simp only [List.length_append, escDots_length, List.length_singleton]; omega
      rw [List.length_append, show base.length + s.buf.length - (1 + (s.dots - 1) * 3) = base.length + (s.buf.length - (1 + (s.dots - 1) * 3)) by omega]
      rw [List.take_length_add_append]
      simp
    · rfl

theorem metricToDir_good {m : Bytes} (hm : m ≠ []) : GoodPath (metricToDir [] m) := by
  rcases metricToDir_spec [] m with ⟨k, hk, he⟩ | ⟨b0, p0, k, hk, hg, hp0, hd, he⟩
  · rw [he, List.nil_append]
    have h := escDots_ok k
    have : 0 < k := by
      rcases Nat.eq_zero_or_pos k with h0 | h0
      · subst h0; exact absurd hk hm
      · exact h0
    exact .single (h.2.2 this) h.1 h.2.1
  · rw [he, List.nil_append]
    have h := escDots_ok k
    by_cases h0 : k = 0
    · rw [if_pos h0, List.append_nil]; exact hg
    · rw [if_neg h0, List.singleton_append]
      exact hg.join (.single (h.2.2 (by omega)) h.1 h.2.1)

theorem goodPath_ends {d : Bytes} (h : GoodPath d) : d ≠ [] ∧ d.getLast? ≠ some 47 := by
  refine ⟨?_, ?_⟩
  · rintro rfl; exact (h [] (by simp [splitOn])).1 rfl
  · intro hl
    obtain ⟨x, rfl⟩ := List.getLast?_eq_some_iff.mp hl
    exact (h [] (by rw [splitOn_append]; simp [splitOn])).1 rfl

theorem addSlash_ends (b : Bytes) : addSlash b = [] ∨ ∃ x, addSlash b = x ++ [47] := by
  unfold addSlash
  split
  · exact Or.inr ⟨b, rfl⟩
  · next h =>
    rcases b.eq_nil_or_concat with rfl | ⟨x, c, rfl⟩
    · exact Or.inl rfl
    · simp at h
      subst h; exact Or.inr ⟨x, by simp⟩

theorem split_last {x y a b : Bytes} (hx : x = [] ∨ ∃ z, x = z ++ [47]) (hy : y = [] ∨ ∃ z, y = z ++ [47]) (ha : 47 ∉ a) (hb : 47 ∉ b)
    (h : x ++ a = y ++ b) : x = y ∧ a = b := by
  rcases List.append_eq_append_iff.mp h with ⟨w, rfl, rfl⟩ | ⟨w, rfl, rfl⟩
  · have : w = [] := by
      rcases w.eq_nil_or_concat with rfl | ⟨w', c, rfl⟩
      · rfl
      · exfalso
        rcases hy with hy | ⟨z, hz⟩
        · simp at hy
        · rw [List.concat_eq_append, ← List.append_assoc] at hz
          have := (List.append_inj' hz rfl).2
          simp only [List.cons.injEq, and_true] at this
          subst this
          exact ha (by simp)
    subst this; simp
  · have : w = [] := by
      rcases w.eq_nil_or_concat with rfl | ⟨w', c, rfl⟩
      · rfl
      · exfalso
        rcases hx with hx | ⟨z, hz⟩
        · simp at hx
        · rw [List.concat_eq_append, ← List.append_assoc] at hz
          have := (List.append_inj' hz rfl).2
          simp only [List.cons.injEq, and_true] at this
          subst this
          exact hb (by simp)
    subst this; simp

theorem digit_byte (d : Nat) (h : d < 10) : 48 ≤ UInt8.ofNat (48 + d) ∧ UInt8.ofNat (48 + d) ≤ 57 ∧ (UInt8.ofNat (48 + d)).toNat = 48 + d := by
  have : ∀ d : Fin 10, 48 ≤ UInt8.ofNat (48 + d.val) ∧ UInt8.ofNat (48 + d.val) ≤ 57 ∧ (UInt8.ofNat (48 + d.val)).toNat = 48 + d.val := by decide
  exact this ⟨d, h⟩

theorem natDec_bytes (n : Nat) : natDec n ≠ [] ∧ ∀ c ∈ natDec n, 48 ≤ c ∧ c ≤ 57 := by
  induction n using natDec.induct with
  | case1 n h => unfold natDec; rw [if_pos h]; have := digit_byte n h; exact ⟨by simp, fun c hc => by rw [List.mem_singleton.mp hc]; exact ⟨this.1, this.2.1⟩⟩
  | case2 n h ih =>
    unfold natDec; rw [if_neg h]
    have := digit_byte (n % 10) (by omega)
    refine ⟨by simp, ?_⟩
    intro c hc
    rcases List.mem_append.mp hc with hc | hc
    · exact ih.2 c hc
    · rw [List.mem_singleton.mp hc]; exact ⟨this.1, this.2.1⟩

theorem parseDigits_natDec (n : Nat) : parseDigits (natDec n) = some n := by
  unfold parseDigits
  rw [if_neg (natDec_bytes n).1]
  induction n using natDec.induct with
  | case1 n h =>
    unfold natDec; rw [if_pos h]
    have := digit_byte n h
    simp only [List.foldl_cons, List.foldl_nil, Option.bind_some, this.1, this.2.1, and_self, if_true, this.2.2]
    congr 1; omega
  | case2 n h ih =>
    unfold natDec; rw [if_neg h]
    have := digit_byte (n % 10) (by omega)
    rw [List.foldl_append, ih]
    simp only [List.foldl_cons, List.foldl_nil, Option.bind_some, this.1, this.2.1, and_self, if_true, this.2.2]
    congr 1; omega

theorem natDec_head (n : Nat) : (natDec n).head? ≠ some 45 ∧ (natDec n).head? ≠ some 43 := by
  have ⟨h0, h⟩ := natDec_bytes n
  cases hn : natDec n with
  | nil => exact absurd hn h0
  | cons c t =>
    have := h c (by rw [hn]; simp)
    simp only [List.head?_cons, Option.some.injEq, ne_eq]
    constructor
    · rintro rfl; revert this; decide
    · rintro rfl; revert this; decide

theorem parseInt_intDec (i : Int) (h : -2 ^ 63 ≤ i ∧ i < 2 ^ 63) : parseInt (intDec i) = some i := by
  unfold parseInt intDec
  by_cases hi : i < 0
  · simp only [if_pos hi, List.head?_cons, beq_self_eq_true, Bool.true_or, if_true, List.tail_cons, parseDigits_natDec]
    rw [if_pos (by omega)]
    congr 1; omega
  · have ⟨h1, h2⟩ := natDec_head i.natAbs
    have e1 : ((natDec i.natAbs).head? == some 45) = false := by simpa using h1
    have e2 : ((natDec i.natAbs).head? == some 43) = false := by simpa using h2
    simp only [if_neg hi, e1, e2, Bool.or_false, Bool.false_eq_true, if_false, parseDigits_natDec]
    rw [if_pos (by omega)]
    congr 1; omega

theorem name_noSlash (i : Int) : 47 ∉ intDec i ++ dataSuffix := by
  have h := (natDec_bytes i.natAbs).2
  have hn : (47 : UInt8) ∉ natDec i.natAbs := fun hm => by have := h 47 hm; revert this; decide
  unfold intDec
  intro hm
  rcases List.mem_append.mp hm with hm | hm
  · split at hm
    · rcases List.mem_cons.mp hm with hm | hm
      · revert hm; decide
      · exact hn hm
    · exact hn hm
  · revert hm; decide

theorem addSlash_metricDir (dbDir m : Bytes) : addSlash (metricDir dbDir m) = addSlash dbDir ++ (if m = [] then [] else metricToDir [] m ++ [47]) := by
  unfold metricDir
  rw [metricToDir_base]
  by_cases hm : m = []
  · subst hm
    rw [if_pos rfl, show metricToDir [] [] = [] from rfl, List.append_nil]
    rcases addSlash_ends dbDir with h | ⟨x, h⟩
    · rw [h]; rfl
    · rw [h]; simp [addSlash]
  · rw [if_neg hm]
    have ⟨h1, h2⟩ := goodPath_ends (metricToDir_good hm)
    generalize metricToDir [] m = d at *
    generalize hA : addSlash dbDir = A
    rw [show addSlash (A ++ d) = if 0 < (A ++ d).length && (A ++ d).getLast? != some 47 then A ++ d ++ [47] else A ++ d from rfl]
    have hl : 0 < (A ++ d).length := by
      have := List.length_pos_iff.mpr h1
      simp; omega
    have hg : (A ++ d).getLast? = d.getLast? := by
      rw [List.getLast?_append]
      cases hd : d.getLast? with
      | none => exact absurd (List.getLast?_eq_none_iff.mp hd) h1
      | some x => rfl
    rw [hg]
    simp only [hl, decide_true, Bool.true_and, bne_iff_ne, ne_eq, h2, not_false_eq_true, if_true, List.append_assoc]

theorem scanNames_eq (names : List Bytes) : scanNames names = (names.filterMap dataFileIndex).foldl scanStep (0, 0, false) := by
  unfold scanNames
  generalize ((0 : Int), (0 : Int), false) = a
  induction names generalizing a with
  | nil => rfl
  | cons n names ih =>
    simp only [List.foldl_cons, List.filterMap_cons]
    cases dataFileIndex n with
    | none => exact ih a
    | some iv => simpa using ih _

end Rothko
