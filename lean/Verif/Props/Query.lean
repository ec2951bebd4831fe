import Verif.Lemmas.Query
/-!
# C38–C40: searching metrics
-/
namespace Rothko

/-! ## Specification -/

/-- Text matching a pattern as a whole, by the usual reading: `?` is one byte, `*` is any run of bytes, another byte of the pattern is the name's byte with upper case ASCII letters lowered. -/
inductive Wild : Bytes → Bytes → Prop
  | nil : Wild [] []
  | any {p s : Bytes} (n : UInt8) : Wild p s → Wild (63 :: p) (n :: s)
  | lit {p s : Bytes} (c n : UInt8) : c ≠ 63 → c ≠ 42 → c = lowerByte n → Wild p s → Wild (c :: p) (n :: s)
  | star {p s : Bytes} (run : Bytes) : Wild p s → Wild (42 :: p) (run ++ s)

/-- The pattern without its trailing stars. -/
def trimStars (p : Bytes) : Bytes := (p.reverse.dropWhile (· == 42)).reverse

/-! ## C38 -/

theorem trimStars_decomp (p : Bytes) : ∃ k, p = trimStars p ++ List.replicate k 42 ∧ (trimStars p).getLast? ≠ some 42 ∧ (p.getLast? = some 42 ↔ 0 < k) := by
  have h1 : p.reverse = p.reverse.takeWhile (· == 42) ++ p.reverse.dropWhile (· == 42) := List.takeWhile_append_dropWhile.symm
  have h2 : p.reverse.takeWhile (· == 42) = List.replicate (p.reverse.takeWhile (· == 42)).length 42 := by
    refine List.eq_replicate_iff.mpr ⟨rfl, fun x hx => ?_⟩
    have := List.all_takeWhile (l := p.reverse) (p := (· == 42))
    simpa using List.all_eq_true.mp this x hx
  have h3 : (p.reverse.dropWhile (· == 42)).head? ≠ some 42 := by
    have h := List.head?_dropWhile_not (fun x : UInt8 => x == 42) p.reverse
    intro hh
    rw [hh] at h
    simp at h
  have hdec : p = trimStars p ++ List.replicate (p.reverse.takeWhile (· == 42)).length 42 := by
    have h4 := congrArg List.reverse h1
    rw [List.reverse_reverse, List.reverse_append, h2, List.reverse_replicate] at h4
    simpa [trimStars] using h4
  have hlast : (trimStars p).getLast? ≠ some 42 := by unfold trimStars; rw [List.getLast?_reverse]; exact h3
  refine ⟨_, hdec, hlast, ?_⟩
  constructor
  · intro hp
    refine Nat.pos_of_ne_zero (fun h0 => ?_)
    rw [h0] at hdec
    rw [List.replicate_zero, List.append_nil] at hdec
    rw [hdec] at hp
    exact hlast hp
  · intro hk
    generalize (p.reverse.takeWhile (· == 42)).length = k at *
    rw [hdec]
    cases k with
    | zero => omega
    | succ k => rw [List.replicate_succ', ← List.append_assoc, List.getLast?_concat]

theorem Glob.stars (k : Nat) (n : Bytes) : Glob (List.replicate k 42) n ↔ (0 < k → n ≠ []) := by
  induction k with
  | zero => simp; exact Glob.nil n
  | succ k ih =>
    rw [List.replicate_succ]
    constructor
    · intro h _ hn; subst hn; cases h.nil_right
    · intro h
      have hn := h (by omega)
      cases n with
      | nil => exact absurd rfl hn
      | cons c n => exact .zero c (ih.mpr (fun _ => by simp))

theorem Glob.split (q : Bytes) (k : Nat) (n : Bytes) (hq : q.getLast? ≠ some 42) :
    Glob (q ++ List.replicate k 42) n ↔ ∃ b c, n = b ++ c ∧ Wild q b ∧ (0 < k → c ≠ []) := by
  induction q generalizing n with
  | nil =>
    rw [List.nil_append, Glob.stars]
    constructor
    · intro h; exact ⟨[], n, rfl, .nil, h⟩
    · rintro ⟨b, c, rfl, hw, h⟩; cases hw; exact h
  | cons x q ih =>
    have hq' : q.getLast? ≠ some 42 := by
      cases q with
      | nil => simp
      | cons y q => simpa using hq
    rw [List.cons_append]
    by_cases hx : x = 42
    · subst hx
      have hne : q ≠ [] := by rintro rfl; simp at hq
      constructor
      · intro h
        obtain ⟨t, r, e, hr, hg⟩ := h.star_elim
        obtain ⟨b, c, e2, hw, hc⟩ := (ih r hq').mp hg
        exact ⟨t ++ b, c, by rw [e, e2]; simp, .star t hw, hc⟩
      · rintro ⟨b, c, rfl, hw, hc⟩
        cases hw with
        | lit _ _ _ h => exact absurd rfl h
        | star run hw =>
          rename_i s
          have hg := (ih (s ++ c) hq').mpr ⟨s, c, rfl, hw, hc⟩
          have hnn : s ++ c ≠ [] := by
            intro h0; rw [h0] at hg
            have := hg.nil_right
            simp at this; exact hne this.1
          rw [List.append_assoc]
          refine Glob.star_append ?_ run
          cases hsc : s ++ c with
          | nil => exact absurd hsc hnn
          | cons y r => rw [hsc] at hg; exact .zero y hg
    · constructor
      · intro h
        cases h with
        | any m h => obtain ⟨b, c, rfl, hw, hc⟩ := (ih _ hq').mp h; exact ⟨m :: b, c, rfl, .any m hw, hc⟩
        | lit h1 h2 h3 h => obtain ⟨b, c, rfl, hw, hc⟩ := (ih _ hq').mp h; exact ⟨_ :: b, c, rfl, .lit _ _ h1 h2 h3.symm hw, hc⟩
        | zero => exact absurd rfl hx
        | more => exact absurd rfl hx
      · rintro ⟨b, c, rfl, hw, hc⟩
        cases hw with
        | any m hw => exact .any m ((ih _ hq').mpr ⟨_, c, rfl, hw, hc⟩)
        | lit _ _ h1 h2 h3 hw => exact .lit h1 h2 h3.symm ((ih _ hq').mpr ⟨_, c, rfl, hw, hc⟩)
        | star => exact absurd rfl hx

/-- **C38.** For every pattern and name: `glob` is true exactly when the pattern without its trailing stars matches a beginning of the name as a whole, and, if it has trailing stars,
some byte of the name is left for them. -/
theorem C38_glob (pattern name : Bytes) :
    glob pattern name = true ↔ ∃ b c, name = b ++ c ∧ Wild (trimStars pattern) b ∧ (pattern.getLast? = some 42 → c ≠ []) := by
  rw [glob_iff]
  obtain ⟨k, h1, h2, h3⟩ := trimStars_decomp pattern
  have h4 := Glob.split (trimStars pattern) k name h2
  rw [← h1] at h4
  rw [h4, h3]

/-- **C38.** It always terminates, within `(len(name)+1)·(len(pattern)+2)` iterations. -/
theorem C38_terminates (pattern name : Bytes) (fuel : Nat) (h : globBound pattern name ≤ fuel) :
    ∃ b, globRun pattern name fuel ⟨0, 0, 0, 0⟩ = some b ∧ b = glob pattern name := by
  obtain ⟨b, h1, h2⟩ := globRun_init pattern name
  have mono : ∀ (f : Nat) (s : GState) (b : Bool) (d : Nat), globRun pattern name f s = some b → globRun pattern name (f + d) s = some b := by
    intro f
    induction f with
    | zero => intro s b d h; cases h
    | succ f ih =>
      intro s b d h
      rw [show f + 1 + d = (f + d) + 1 by omega, globRun]
      rw [globRun] at h
      cases hs : globStep pattern name s with
      | inr b' => rw [hs] at h; exact h
      | inl s' => rw [hs] at h; exact ih s' b d h
  refine ⟨b, ?_, ?_⟩
  · have := mono _ _ _ (fuel - globBound pattern name) h1
    rwa [show globBound pattern name + (fuel - globBound pattern name) = fuel by omega] at this
  · unfold glob; rw [h1]; simp

/-- Test: the cases of the doc comment and the unit tests, and backtracking over a repeated beginning. -/
example : glob "abc*".toUTF8.toList "abcdefg".toUTF8.toList = true ∧ glob "abc*".toUTF8.toList "abc".toUTF8.toList = false ∧
    glob "*aab?*c".toUTF8.toList "xAaAaBxyzaczz".toUTF8.toList = true ∧ glob "a?c".toUTF8.toList "ac".toUTF8.toList = false := by decide +kernel

/-! ## C39 -/

/-- A component contains a part of a search term: some piece of it matches the part, ignoring (ASCII) case. The component is not empty, and stars at the end of the part need
something to be left. -/
def Contains (part comp : Bytes) : Prop :=
  comp ≠ [] ∧ ∃ a b c, comp = a ++ b ++ c ∧ Wild (trimStars (part.map lowerByte)) b ∧ (part.getLast? = some 42 → c ≠ [])

/-- Part by part. -/
inductive ContainsAll : List Bytes → List Bytes → Prop
  | nil : ContainsAll [] []
  | cons {part comp : Bytes} {parts comps : List Bytes} : Contains part comp → ContainsAll parts comps → ContainsAll (part :: parts) (comp :: comps)

/-- A run of consecutive dot separated components contains the dot separated parts of the term. -/
def TermMatches (term metric : Bytes) : Prop := ∃ pre run post, splitOn 46 metric = pre ++ run ++ post ∧ ContainsAll (splitOn 46 term) run

theorem lowerByte_fix (c d : UInt8) (hd : d.toNat < 65) : lowerByte c = d ↔ c = d := by
  unfold lowerByte
  split
  · rename_i h
    have h1 : 65 ≤ c.toNat := UInt8.le_iff_toNat_le.mp h.1
    have h2 : c.toNat ≤ 90 := UInt8.le_iff_toNat_le.mp h.2
    constructor
    · intro e
      have := congrArg UInt8.toNat e
      rw [UInt8.toNat_add] at this
      have h3 : (32 : UInt8).toNat = 32 := rfl
      omega
    · rintro rfl; omega
  · exact Iff.rfl

theorem lowerByte_star (c : UInt8) : lowerByte c = 42 ↔ c = 42 := lowerByte_fix c 42 (by decide)

theorem glob_globify (part comp : Bytes) : glob (globify part) comp = true ↔ Contains part comp := by
  rw [glob_iff]
  unfold globify Contains
  obtain ⟨k, h1, h2, h3⟩ := trimStars_decomp (part.map lowerByte)
  have hl : part.getLast? = some 42 ↔ (part.map lowerByte).getLast? = some 42 := by
    rw [List.getLast?_map]
    cases part.getLast? with
    | none => simp
    | some c => simp [lowerByte_star]
  rw [hl, h3]
  constructor
  · intro h
    have hc : comp ≠ [] := by rintro rfl; cases h.nil_right
    obtain ⟨t, r, e, hr, hg⟩ := h.star_elim
    rw [h1] at hg
    obtain ⟨b, c, e2, hw, hc2⟩ := (Glob.split _ k r h2).mp hg
    exact ⟨hc, t, b, c, by rw [e, e2]; simp, hw, hc2⟩
  · rintro ⟨hc, a, b, c, e, hw, hc2⟩
    have hg := (Glob.split _ k (b ++ c) h2).mpr ⟨b, c, rfl, hw, hc2⟩
    rw [← h1] at hg
    cases hbc : b ++ c with
    | cons y r =>
      rw [hbc] at hg
      have : comp = a ++ (y :: r) := by rw [e, List.append_assoc, hbc]
      rw [this]
      exact Glob.star_append (.zero y hg) a
    | nil =>
      -- the pattern is empty: a star alone
      rw [hbc] at hg
      rw [hg.nil_right]
      cases comp with
      | nil => exact absurd rfl hc
      | cons y r => exact .zero y (.nil _)

theorem splitMetric_eq (m : Bytes) : splitOn 46 m = (splitMetric m).1 :: (if 46 ∈ m then splitOn 46 (splitMetric m).2 else []) ∧ (46 ∉ m → (splitMetric m).2 = []) := by
  unfold splitMetric indexDot
  by_cases h : 46 ∈ m
  · rw [if_pos h]
    simp only [h, if_true, not_true, false_implies, and_true]
    have hd : m.takeWhile (· != 46) ++ m.dropWhile (· != 46) = m := List.takeWhile_append_dropWhile
    have hno : 46 ∉ m.takeWhile (· != 46) := by
      intro hm
      have := List.all_eq_true.mp (List.all_takeWhile (l := m) (p := (· != 46))) 46 hm
      simp at this
    cases hw : m.dropWhile (· != 46) with
    | nil => rw [hw, List.append_nil] at hd; rw [hd] at hno; exact absurd h hno
    | cons x r =>
      have hx : x = 46 := by
        have := List.head?_dropWhile_not (fun x : UInt8 => x != 46) m
        rw [hw] at this
        simpa using this
      subst hx
      rw [hw] at hd
      generalize m.takeWhile (· != 46) = a at hd hno
      subst hd
      simp only [List.take_left']
      rw [splitOn_append, splitOn_none 46 a hno]
      have : (a ++ 46 :: r).drop (a.length + 1) = r := by
        rw [show a ++ 46 :: r = (a ++ [46]) ++ r by simp, List.drop_left' (by simp)]
      rw [this]; rfl
  · rw [if_neg h]
    simp only [h, if_false]
    exact ⟨splitOn_none 46 m h, by simp⟩

theorem Contains.not_nil {part : Bytes} : ¬ Contains part [] := fun h => h.1 rfl

theorem specParts_iff (parts : List Bytes) (part tail : Bytes) (comps : List Bytes) (hc : comps = part :: splitOn 46 tail ∨ (comps = [part] ∧ tail = [])) :
    matchGlobs (parts.map globify) part tail = true ↔ ∃ run post, comps = run ++ post ∧ ContainsAll parts run := by
  induction parts generalizing part tail comps with
  | nil =>
    simp only [List.map_nil, matchGlobs, true_iff]
    exact ⟨[], comps, by simp, .nil⟩
  | cons p parts ih =>
    simp only [List.map_cons, matchGlobs]
    have hhead : ∃ more, comps = part :: more ∧ (more = splitOn 46 tail ∨ (more = [] ∧ tail = [])) := by
      rcases hc with hc | ⟨hc, ht⟩
      · exact ⟨_, hc, Or.inl rfl⟩
      · exact ⟨[], hc, Or.inr ⟨rfl, ht⟩⟩
    obtain ⟨more, hcomps, hmore⟩ := hhead
    subst hcomps
    by_cases hg : glob (globify p) part = true
    · rw [if_pos hg]
      have hp := (glob_globify p part).mp hg
      -- the remaining components, with one empty component if there are none
      obtain ⟨hs1, hs2⟩ := splitMetric_eq tail
      have hrest := ih (splitMetric tail).1 (splitMetric tail).2 (splitOn 46 tail) (by
        by_cases h46 : 46 ∈ tail
        · left; rw [if_pos h46] at hs1; exact hs1
        · right; rw [if_neg h46] at hs1; exact ⟨hs1, hs2 h46⟩)
      rw [hrest]
      rcases hmore with rfl | ⟨rfl, rfl⟩
      · constructor
        · rintro ⟨run, post, e, ha⟩; exact ⟨part :: run, post, by rw [e]; rfl, .cons hp ha⟩
        · rintro ⟨run, post, e, ha⟩
          cases ha with
          | cons h1 h2 => simp only [List.cons_append, List.cons.injEq] at e; exact ⟨_, post, e.2, h2⟩
      · constructor
        · rintro ⟨run, post, e, ha⟩
          cases ha with
          | nil => exact ⟨[part], [], rfl, .cons hp .nil⟩
          | cons h1 h2 =>
            simp only [splitOn, List.cons_append, List.cons.injEq] at e
            rw [← e.1] at h1
            exact absurd h1 Contains.not_nil
        · rintro ⟨run, post, e, ha⟩
          cases ha with
          | cons h1 h2 =>
            simp only [List.cons_append, List.cons.injEq] at e
            have hnil := List.append_eq_nil_iff.mp e.2.symm
            rw [hnil.1] at h2
            cases h2
            exact ⟨[], splitOn 46 [], rfl, .nil⟩
    · rw [if_neg hg]
      simp only [Bool.false_eq_true, false_iff]
      rintro ⟨run, post, e, ha⟩
      cases ha with
      | cons h1 h2 =>
        simp only [List.cons_append, List.cons.injEq] at e
        rw [← e.1] at h1
        exact hg ((glob_globify p part).mpr h1)

/-- **C39.** For every search term and metric name: the term matches exactly when some run of consecutive components of the name contains the parts of the term, in order. -/
theorem C39_match (term metric : Bytes) : specMatch (newSpec term) metric = true ↔ TermMatches term metric := by
  have hne : ∀ run, ContainsAll (splitOn 46 term) run → ∃ p comp rest, run = comp :: rest ∧ Contains p comp := by
    intro run h
    have hn := splitOn_ne_nil 46 term
    generalize splitOn 46 term = parts at h hn
    cases h with
    | nil => exact absurd rfl hn
    | cons h1 h2 => exact ⟨_, _, _, rfl, h1⟩
  unfold TermMatches newSpec
  induction hlen : metric.length using Nat.strongRecOn generalizing metric with
  | ind n ih =>
    rw [specMatch]
    by_cases hm : metric = []
    · subst hm
      simp only [dif_pos, Bool.false_eq_true, false_iff]
      rintro ⟨pre, run, post, e, ha⟩
      obtain ⟨p, comp, rest, rfl, hc⟩ := hne run ha
      simp only [splitOn] at e
      have hmem : comp ∈ [[]] := by rw [e]; simp
      simp at hmem
      subst hmem
      exact hc.not_nil
    · rw [dif_neg hm]
      obtain ⟨hs1, hs2⟩ := splitMetric_eq metric
      have hsome := specParts_iff (splitOn 46 term) (splitMetric metric).1 (splitMetric metric).2 (splitOn 46 metric) (by
        by_cases h46 : 46 ∈ metric
        · left; rw [if_pos h46] at hs1; exact hs1
        · right; rw [if_neg h46] at hs1; exact ⟨hs1, hs2 h46⟩)
      by_cases hg : matchGlobs ((splitOn 46 term).map globify) (splitMetric metric).1 (splitMetric metric).2 = true
      · rw [if_pos hg]
        obtain ⟨run, post, e, ha⟩ := hsome.mp hg
        simp only [true_iff]
        exact ⟨[], run, post, by simpa using e, ha⟩
      · rw [if_neg hg]
        have hih := ih _ (by rw [← hlen]; exact splitMetric_lt hm) (splitMetric metric).2 rfl
        refine hih.trans ?_
        constructor
        · rintro ⟨pre, run, post, e, ha⟩
          by_cases h46 : 46 ∈ metric
          · rw [if_pos h46] at hs1
            exact ⟨(splitMetric metric).1 :: pre, run, post, by rw [hs1, e]; rfl, ha⟩
          · rw [hs2 h46] at e
            obtain ⟨p, comp, rest, rfl, hc⟩ := hne run ha
            simp only [splitOn] at e
            have hmem : comp ∈ [[]] := by rw [e]; simp
            simp at hmem
            subst hmem
            exact (hc.not_nil).elim
        · rintro ⟨pre, run, post, e, ha⟩
          cases pre with
          | nil => exact absurd (hsome.mpr ⟨run, post, by simpa using e, ha⟩) hg
          | cons c pre =>
            rw [hs1] at e
            simp only [List.cons_append, List.cons.injEq] at e
            by_cases h46 : 46 ∈ metric
            · rw [if_pos h46] at e
              exact ⟨pre, run, post, e.2, ha⟩
            · rw [if_neg h46] at e
              have hnil := List.append_eq_nil_iff.mp e.2.symm
              have := List.append_eq_nil_iff.mp hnil.1
              obtain ⟨p, comp, rest, rfl, hc⟩ := hne run ha
              simp at this

theorem wild_plain (p s : Bytes) (h1 : 63 ∉ p) (h2 : 42 ∉ p) : Wild p s ↔ p = s.map lowerByte := by
  induction p generalizing s with
  | nil =>
    constructor
    · intro h; cases h; rfl
    · intro h; cases s with
      | nil => exact .nil
      | cons => cases h
  | cons c p ih =>
    simp only [List.mem_cons, not_or] at h1 h2
    constructor
    · intro h
      cases h with
      | any => exact absurd rfl h1.1
      | lit _ n _ _ h3 h => rw [(ih _ h1.2 h2.2).mp h, h3]; rfl
      | star => exact absurd rfl h2.1
    · intro h
      cases s with
      | nil => cases h
      | cons n s =>
        simp only [List.map_cons, List.cons.injEq] at h
        exact .lit c n (fun hh => h1.1 hh.symm) (fun hh => h2.1 hh.symm) h.1 ((ih s h1.2 h2.2).mpr h.2)

theorem lowerByte_qm (c : UInt8) : lowerByte c = 63 ↔ c = 63 := lowerByte_fix c 63 (by decide)

theorem trimStars_none (p : Bytes) (h : 42 ∉ p) : trimStars p = p := by
  obtain ⟨k, h1, _, _⟩ := trimStars_decomp p
  cases k with
  | zero => simpa using h1.symm
  | succ k => exact absurd (by rw [h1]; simp) h

/-- **C39.** A part without wildcards is contained in a component exactly when it is a substring of it, ignoring case (and the component is not empty). -/
theorem C39_plain (part comp : Bytes) (h1 : 63 ∉ part) (h2 : 42 ∉ part) :
    Contains part comp ↔ comp ≠ [] ∧ part.map lowerByte <:+: comp.map lowerByte := by
  have q1 : 63 ∉ part.map lowerByte := by
    intro h; obtain ⟨c, hc, e⟩ := List.mem_map.mp h; exact h1 ((lowerByte_qm c).mp e ▸ hc)
  have q2 : 42 ∉ part.map lowerByte := by
    intro h; obtain ⟨c, hc, e⟩ := List.mem_map.mp h; exact h2 ((lowerByte_star c).mp e ▸ hc)
  have hlast : part.getLast? ≠ some 42 := fun h => h2 (List.mem_of_getLast? h)
  unfold Contains
  rw [trimStars_none _ q2]
  constructor
  · rintro ⟨hc, a, b, c, e, hw, _⟩
    rw [wild_plain _ _ q1 q2] at hw
    exact ⟨hc, a.map lowerByte, c.map lowerByte, by rw [hw, e]; simp⟩
  · rintro ⟨hc, x, y, e⟩
    refine ⟨hc, comp.take x.length, (comp.drop x.length).take part.length, (comp.drop x.length).drop part.length, ?_, ?_, fun h => absurd h hlast⟩
    · rw [List.append_assoc, List.take_append_drop, List.take_append_drop]
    · rw [wild_plain _ _ q1 q2]
      rw [List.map_take, List.map_drop, ← e, List.append_assoc, List.drop_left' rfl, List.take_left' (by simp)]

/-- Test: a term with two parts, in a name with three components. -/
example : specMatch (newSpec "OO.b?r*".toUTF8.toList) "x.foo.Zbarz".toUTF8.toList = true ∧ specMatch (newSpec "oo.bar".toUTF8.toList) "foo.x.bar".toUTF8.toList = false ∧
    specMatch (newSpec "a.".toUTF8.toList) "a".toUTF8.toList = false := by decide +kernel

/-! ## C40 -/

/-- A Unicode scalar value: any code point but the surrogates. -/
def Scalar (r : Nat) : Prop := r < 55296 ∨ (57344 ≤ r ∧ r < 1114112)

/-- The UTF-8 encoding of a code point. -/
def utf8 (r : Nat) : Bytes :=
  if r < 128 then [UInt8.ofNat r]
  else if r < 2048 then [UInt8.ofNat (192 + r / 64), UInt8.ofNat (128 + r % 64)]
  else if r < 65536 then [UInt8.ofNat (224 + r / 4096), UInt8.ofNat (128 + r / 64 % 64), UInt8.ofNat (128 + r % 64)]
  else [UInt8.ofNat (240 + r / 262144), UInt8.ofNat (128 + r / 4096 % 64), UInt8.ofNat (128 + r / 64 % 64), UInt8.ofNat (128 + r % 64)]

/-- The characters of a string: each is the encoding of a code point, or a single byte where none begins, read as U+FFFD. -/
inductive Chars : Bytes → List (Nat × Bytes) → Prop
  | nil : Chars [] []
  | char (r : Nat) {s : Bytes} {cs : List (Nat × Bytes)} : Scalar r → Chars s cs → Chars (utf8 r ++ s) ((r, utf8 r) :: cs)
  | broken (b : UInt8) {s : Bytes} {cs : List (Nat × Bytes)} : (∀ r, Scalar r → ¬ utf8 r <+: b :: s) → Chars s cs → Chars (b :: s) ((65533, [b]) :: cs)

/-- Unicode's white space: tab to carriage return, space, next line, no-break space, ogham space, the spaces U+2000 to U+200A, line and paragraph separator, narrow no-break, mathematical and ideographic space. -/
def White (r : Nat) : Prop := r ∈ [9, 10, 11, 12, 13, 32, 0x85, 0xA0, 0x1680, 0x2000, 0x2001, 0x2002, 0x2003, 0x2004, 0x2005, 0x2006, 0x2007, 0x2008, 0x2009, 0x200A, 0x2028, 0x2029, 0x202F, 0x205F, 0x3000]

/-- `fs` are the words of a list of characters: the maximal runs of characters that are not white space. -/
inductive Words : List Bytes → List (Nat × Bytes) → Prop
  | nil (sp : List (Nat × Bytes)) : (∀ c ∈ sp, White c.1) → Words [] sp
  | cons (sp f : List (Nat × Bytes)) {fs : List Bytes} {rest : List (Nat × Bytes)} : (∀ c ∈ sp, White c.1) → f ≠ [] → (∀ c ∈ f, ¬ White c.1) →
      (rest = [] ∨ ∃ c r, rest = c :: r ∧ White c.1) → Words fs rest → Words (f.flatMap (·.2) :: fs) (sp ++ f ++ rest)

theorem white_iff (r : Nat) : isSpaceRune r = true ↔ White r := by
  unfold isSpaceRune White
  simp only [Bool.or_eq_true, Bool.and_eq_true, decide_eq_true_eq, List.mem_cons, List.not_mem_nil, or_false]
  omega

theorem byte_eq {a : UInt8} {n : Nat} (h : a.toNat = n) : a = UInt8.ofNat n := by
  rw [← h, UInt8.ofNat_toNat]

theorem byte_toNat {n : Nat} (h : n < 256) : (UInt8.ofNat n).toNat = n := by
  rw [UInt8.toNat_ofNat']
  omega

theorem isCont_iff (b : UInt8) : isCont b = true ↔ 128 ≤ b.toNat ∧ b.toNat ≤ 191 := by
  unfold isCont
  simp

theorem runeClass_cases (a : Nat) (h : a < 256) :
    (a < 128 ∧ runeClass a = (1, 0, 0)) ∨ ((128 ≤ a ∧ a < 194 ∨ 245 ≤ a) ∧ runeClass a = (0, 0, 0)) ∨ (194 ≤ a ∧ a < 224 ∧ runeClass a = (2, 128, 191)) ∨
    (224 ≤ a ∧ a < 240 ∧ ∃ lo hi, runeClass a = (3, lo, hi) ∧ ∀ b, (lo ≤ b ∧ b ≤ hi ↔ 128 ≤ b ∧ b ≤ 191 ∧ (a = 224 → 160 ≤ b) ∧ (a = 237 → b ≤ 159))) ∨
    (240 ≤ a ∧ a < 245 ∧ ∃ lo hi, runeClass a = (4, lo, hi) ∧ ∀ b, (lo ≤ b ∧ b ≤ hi ↔ 128 ≤ b ∧ b ≤ 191 ∧ (a = 240 → 144 ≤ b) ∧ (a = 244 → b ≤ 143))) := by
  unfold runeClass
  repeat' split
  · exact .inl ⟨by assumption, rfl⟩
  · exact .inr (.inl ⟨by omega, rfl⟩)
  · exact .inr (.inr (.inl ⟨by omega, by omega, rfl⟩))
  · exact .inr (.inr (.inr (.inl ⟨by omega, by omega, _, _, rfl, fun b => by omega⟩)))
  · exact .inr (.inr (.inr (.inl ⟨by omega, by omega, _, _, rfl, fun b => by omega⟩)))
  · exact .inr (.inr (.inr (.inl ⟨by omega, by omega, _, _, rfl, fun b => by omega⟩)))
  · exact .inr (.inr (.inr (.inr ⟨by omega, by omega, _, _, rfl, fun b => by omega⟩)))
  · exact .inr (.inr (.inr (.inr ⟨by omega, by omega, _, _, rfl, fun b => by omega⟩)))
  · exact .inr (.inr (.inr (.inr ⟨by omega, by omega, _, _, rfl, fun b => by omega⟩)))
  · exact .inr (.inl ⟨by omega, rfl⟩)

theorem decodeRune_1 {a : UInt8} (s : Bytes) {lo hi : Nat} (h : runeClass a.toNat = (1, lo, hi)) : decodeRune a s = (a.toNat, [a]) := by
  unfold decodeRune; rw [h]; rfl
theorem decodeRune_0 {a : UInt8} (s : Bytes) {lo hi : Nat} (h : runeClass a.toNat = (0, lo, hi)) : decodeRune a s = (65533, [a]) := by
  unfold decodeRune; rw [h]; rfl
theorem decodeRune_2 {a : UInt8} (s : Bytes) {lo hi : Nat} (h : runeClass a.toNat = (2, lo, hi)) : decodeRune a s = decode2 a lo hi s := by
  unfold decodeRune; rw [h]; rfl
theorem decodeRune_3 {a : UInt8} (s : Bytes) {lo hi : Nat} (h : runeClass a.toNat = (3, lo, hi)) : decodeRune a s = decode3 a lo hi s := by
  unfold decodeRune; rw [h]; rfl
theorem decodeRune_4 {a : UInt8} (s : Bytes) {lo hi : Nat} (h : runeClass a.toNat = (4, lo, hi)) : decodeRune a s = decode4 a lo hi s := by
  unfold decodeRune; rw [h]; rfl

theorem decode_sound (a : UInt8) (s : Bytes) :
    decodeRune a s = (65533, [a]) ∨ (Scalar (decodeRune a s).1 ∧ (decodeRune a s).2 = utf8 (decodeRune a s).1 ∧ (decodeRune a s).2 <+: a :: s) := by
  have ha : a.toNat < 256 := a.toNat_lt
  rcases runeClass_cases a.toNat ha with ⟨h, e⟩ | ⟨_, e⟩ | ⟨h1, h2, e⟩ | ⟨h1, h2, lo, hi, e, hb⟩ | ⟨h1, h2, lo, hi, e, hb⟩
  · rw [decodeRune_1 s e]
    refine .inr ⟨.inl (by omega), ?_, s, rfl⟩
    unfold utf8
    rw [if_pos h, UInt8.ofNat_toNat]
  · rw [decodeRune_0 s e]
    exact .inl rfl
  · rw [decodeRune_2 s e]
    cases s with
    | nil => exact .inl rfl
    | cons b s =>
      dsimp only [decode2]
      split
      · rename_i hb
        right
        refine ⟨.inl (by dsimp only; omega), ?_, s, rfl⟩
        generalize hr : a.toNat % 32 * 64 + b.toNat % 64 = r
        unfold utf8
        rw [if_neg (by omega), if_pos (by omega)]
        rw [byte_eq (show a.toNat = 192 + r / 64 by omega), byte_eq (show b.toNat = 128 + r % 64 by omega)]
      · exact .inl rfl
  · rw [decodeRune_3 s e]
    cases s with
    | nil => exact .inl rfl
    | cons b s =>
      cases s with
      | nil => exact .inl rfl
      | cons c s =>
        dsimp only [decode3]
        split
        · rename_i h
          rw [isCont_iff, ← and_assoc, hb] at h
          obtain ⟨⟨hb1, hb2, hb3, hb4⟩, hc⟩ := h
          right
          generalize hr : a.toNat % 16 * 4096 + b.toNat % 64 * 64 + c.toNat % 64 = r
          refine ⟨?_, ?_, s, rfl⟩
          · unfold Scalar
            omega
          · unfold utf8
            rw [if_neg (by omega), if_neg (by omega), if_pos (by omega)]
            rw [byte_eq (show a.toNat = 224 + r / 4096 by omega), byte_eq (show b.toNat = 128 + r / 64 % 64 by omega), byte_eq (show c.toNat = 128 + r % 64 by omega)]
        · exact .inl rfl
  · rw [decodeRune_4 s e]
    cases s with
    | nil => exact .inl rfl
    | cons b s =>
      cases s with
      | nil => exact .inl rfl
      | cons c s =>
        cases s with
        | nil => exact .inl rfl
        | cons d s =>
          dsimp only [decode4]
          split
          · rename_i h
            rw [isCont_iff, isCont_iff, ← and_assoc, hb] at h
            obtain ⟨⟨hb1, hb2, hb3, hb4⟩, hc, hd⟩ := h
            right
            generalize hr : a.toNat % 8 * 262144 + b.toNat % 64 * 4096 + c.toNat % 64 * 64 + d.toNat % 64 = r
            refine ⟨?_, ?_, s, rfl⟩
            · unfold Scalar
              omega
            · unfold utf8
              rw [if_neg (by omega), if_neg (by omega), if_neg (by omega)]
              rw [byte_eq (show a.toNat = 240 + r / 262144 by omega), byte_eq (show b.toNat = 128 + r / 4096 % 64 by omega), byte_eq (show c.toNat = 128 + r / 64 % 64 by omega),
                byte_eq (show d.toNat = 128 + r % 64 by omega)]
          · exact .inl rfl

theorem decode_complete (r : Nat) (hr : Scalar r) (a : UInt8) (s : Bytes) (h : utf8 r <+: a :: s) : decodeRune a s = (r, utf8 r) := by
  obtain ⟨t, ht⟩ := h
  unfold Scalar at hr
  unfold utf8 at ht ⊢
  split at ht
  · rename_i h1
    injection ht with h2 h3
    have ha : a.toNat = r := by rw [← h2, byte_toNat (by omega)]
    have e : runeClass a.toNat = (1, 0, 0) := by unfold runeClass; rw [if_pos (by omega)]
    rw [if_pos h1, decodeRune_1 s e, ha, h2]
  · rename_i h1
    rw [if_neg h1]
    split at ht
    · rename_i h2
      injection ht with h3 h4
      have ha : a.toNat = 192 + r / 64 := by rw [← h3, byte_toNat (by omega)]
      have hb : (UInt8.ofNat (128 + r % 64)).toNat = 128 + r % 64 := byte_toNat (by omega)
      rw [if_pos h2, h3, ← h4]
      generalize UInt8.ofNat (128 + r % 64) = b at *
      rcases runeClass_cases a.toNat a.toNat_lt with ⟨h, e⟩ | ⟨h, e⟩ | ⟨_, _, e⟩ | ⟨h, _⟩ | ⟨h, _⟩ <;> try omega
      rw [decodeRune_2 _ e]
      show (if _ then _ else _) = _
      rw [if_pos (by omega)]
      congr 1
      omega
    · rename_i h2
      rw [if_neg h2]
      split at ht
      · rename_i h3
        injection ht with h4 h5
        have ha : a.toNat = 224 + r / 4096 := by rw [← h4, byte_toNat (by omega)]
        have hb : (UInt8.ofNat (128 + r / 64 % 64)).toNat = 128 + r / 64 % 64 := byte_toNat (by omega)
        have hc : (UInt8.ofNat (128 + r % 64)).toNat = 128 + r % 64 := byte_toNat (by omega)
        rw [if_pos h3, h4, ← h5]
        generalize UInt8.ofNat (128 + r % 64) = c at *
        generalize UInt8.ofNat (128 + r / 64 % 64) = b at *
        rcases runeClass_cases a.toNat a.toNat_lt with ⟨h, e⟩ | ⟨h, e⟩ | ⟨h, h', e⟩ | ⟨_, _, lo, hi, e, hr⟩ | ⟨h, _⟩ <;> try omega
        have h6 := (hr b.toNat).mpr (by omega)
        rw [decodeRune_3 _ e]
        show (if _ then _ else _) = _
        rw [if_pos ⟨h6.1, h6.2, (isCont_iff c).mpr (by omega)⟩]
        congr 1
        omega
      · rename_i h3
        injection ht with h4 h5
        have ha : a.toNat = 240 + r / 262144 := by rw [← h4, byte_toNat (by omega)]
        have hb : (UInt8.ofNat (128 + r / 4096 % 64)).toNat = 128 + r / 4096 % 64 := byte_toNat (by omega)
        have hc : (UInt8.ofNat (128 + r / 64 % 64)).toNat = 128 + r / 64 % 64 := byte_toNat (by omega)
        have hd : (UInt8.ofNat (128 + r % 64)).toNat = 128 + r % 64 := byte_toNat (by omega)
        rw [if_neg h3, h4, ← h5]
        generalize UInt8.ofNat (128 + r % 64) = d at *
        generalize UInt8.ofNat (128 + r / 64 % 64) = c at *
        generalize UInt8.ofNat (128 + r / 4096 % 64) = b at *
        rcases runeClass_cases a.toNat a.toNat_lt with ⟨h, e⟩ | ⟨h, e⟩ | ⟨h, h', e⟩ | ⟨_, h, _⟩ | ⟨_, _, lo, hi, e, hr⟩ <;> try omega
        have h6 := (hr b.toNat).mpr (by omega)
        rw [decodeRune_4 _ e]
        show (if _ then _ else _) = _
        rw [if_pos ⟨h6.1, h6.2, (isCont_iff c).mpr (by omega), (isCont_iff d).mpr (by omega)⟩]
        congr 1
        omega

theorem decode_broken (a : UInt8) (s : Bytes) (h : decodeRune a s = (65533, [a])) (r : Nat) (hr : Scalar r) : ¬ utf8 r <+: a :: s := by
  intro hp
  have := decode_complete r hr a s hp
  rw [h] at this
  injection this with h1 h2
  rw [← h1] at h2
  have h3 := congrArg List.length h2
  rw [show List.length (utf8 65533) = 3 by decide] at h3
  cases h3

theorem runesLoop_chars (fuel : Nat) (s : Bytes) (h : s.length ≤ fuel) : Chars s (runesLoop fuel s) := by
  induction fuel generalizing s with
  | zero =>
    cases s with
    | nil => exact .nil
    | cons a s => simp at h
  | succ fuel ih =>
    cases s with
    | nil => exact .nil
    | cons a s =>
      have hlen : s.length ≤ fuel := by simpa using h
      have ih' : ∀ k, Chars (s.drop k) (runesLoop fuel (s.drop k)) := fun k => ih _ (by rw [List.length_drop]; omega)
      rw [runesLoop]
      rcases decode_sound a s with e | ⟨h1, h2, t, h3⟩
      · have hb := decode_broken a s e
        rw [e]
        exact .broken a hb (ih' 0)
      · have hpos : 0 < (decodeRune a s).2.length := by
          rw [h2]
          unfold utf8
          repeat' split
          all_goals simp
        have ht : s.drop ((decodeRune a s).2.length - 1) = t := by
          have := congrArg (List.drop (decodeRune a s).2.length) h3
          rw [List.drop_left] at this
          rw [this]
          obtain ⟨k, hk⟩ : ∃ k, (decodeRune a s).2.length = k + 1 := ⟨_, (Nat.sub_add_cancel hpos).symm⟩
          rw [hk]
          rfl
        have := ih' ((decodeRune a s).2.length - 1)
        rw [ht] at this ⊢
        rw [← h3, h2]
        have e : decodeRune a s = ((decodeRune a s).1, utf8 (decodeRune a s).1) := by rw [← h2]
        rw [e]
        exact .char _ h1 this

theorem fieldsLoop_acc (s : List (Nat × Bytes)) (acc : List Bytes) (cur : Bytes) : fieldsLoop s acc cur = acc ++ fieldsLoop s [] cur := by
  induction s generalizing acc cur with
  | nil => unfold fieldsLoop; split <;> simp
  | cons c s ih =>
    rw [fieldsLoop, fieldsLoop]
    split
    · rw [ih, ih (if cur = [] then [] else [] ++ [cur])]
      split <;> simp
    · exact ih _ _

theorem Words.space {fs : List Bytes} {s : List (Nat × Bytes)} (h : Words fs s) {c : Nat × Bytes} (hc : White c.1) : Words fs (c :: s) := by
  cases h with
  | nil _ h => exact .nil (c :: s) (by intro x hx; rcases List.mem_cons.mp hx with rfl | hx; exact hc; exact h x hx)
  | cons sp f h1 h2 h3 h4 h5 =>
    exact .cons (c :: sp) f (by intro x hx; rcases List.mem_cons.mp hx with rfl | hx; exact hc; exact h1 x hx) h2 h3 h4 h5

theorem flat_nil {l : List (Nat × Bytes)} (hne : ∀ c ∈ l, c.2 ≠ []) : l.flatMap (·.2) = [] ↔ l = [] := by
  cases l with
  | nil => simp
  | cons c l => simp [hne c (by simp)]

theorem fieldsLoop_words (s cur : List (Nat × Bytes)) (hne : ∀ c ∈ s, c.2 ≠ []) (hne' : ∀ c ∈ cur, c.2 ≠ []) (hcur : ∀ c ∈ cur, ¬ White c.1) :
    Words (fieldsLoop s [] (cur.flatMap (·.2))) (cur ++ s) := by
  induction s generalizing cur with
  | nil =>
    unfold fieldsLoop
    by_cases h : cur = []
    · rw [if_pos ((flat_nil hne').mpr h), h]; exact .nil [] (by simp)
    · rw [if_neg (fun e => h ((flat_nil hne').mp e))]; exact Words.cons [] cur (by simp) h hcur (Or.inl rfl) (.nil [] (by simp))
  | cons c s ih =>
    obtain ⟨r, bs⟩ := c
    rw [fieldsLoop]
    have hne1 : ∀ c ∈ s, c.2 ≠ [] := fun c hc => hne c (by simp [hc])
    by_cases hc : isSpaceRune r = true
    · rw [if_pos hc, fieldsLoop_acc]
      have hw : White (r, bs).1 := (white_iff r).mp hc
      have hr := (ih [] hne1 (by simp) (by simp)).space hw
      by_cases h : cur = []
      · rw [if_pos ((flat_nil hne').mpr h), h]; exact hr
      · rw [if_neg (fun e => h ((flat_nil hne').mp e))]
        exact Words.cons [] cur (by simp) h hcur (Or.inr ⟨(r, bs), s, rfl, hw⟩) hr
    · rw [if_neg hc]
      have hn : ¬ White (r, bs).1 := fun h => hc ((white_iff r).mpr h)
      have := ih (cur ++ [(r, bs)]) hne1 (by intro x hx; rcases List.mem_append.mp hx with hx | hx; exact hne' x hx; simp at hx; rw [hx]; exact hne (r, bs) (by simp))
        (by intro x hx; rcases List.mem_append.mp hx with hx | hx; exact hcur x hx; simp at hx; rw [hx]; exact hn)
      simpa using this

theorem Chars.nonempty {s : Bytes} {cs : List (Nat × Bytes)} (h : Chars s cs) : ∀ c ∈ cs, c.2 ≠ [] := by
  induction h with
  | nil => simp
  | char r _ _ ih =>
    intro c hc
    rcases List.mem_cons.mp hc with rfl | hc
    · dsimp only
      unfold utf8
      repeat' split
      all_goals simp
    · exact ih c hc
  | broken b _ _ ih =>
    intro c hc
    rcases List.mem_cons.mp hc with rfl | hc
    · simp
    · exact ih c hc

/-- **C40.** The terms of a query are its words: the query is a sequence of characters, and its terms are the maximal runs of those that are not white space. -/
theorem C40_terms (query : Bytes) : ∃ cs, Chars query cs ∧ Words (fields query) cs := by
  have h := runesLoop_chars query.length query (Nat.le_refl _)
  exact ⟨_, h, fieldsLoop_words (runes query) [] h.nonempty (by simp) (by simp)⟩

/-- Test: an ideographic space and a no-break space separate terms; a broken byte and the second byte of "Å" (which is no white space here) do not. -/
example : fields "a　b\u00A0cÅ d".toUTF8.toList = ["a".toUTF8.toList, "b".toUTF8.toList, "cÅ".toUTF8.toList, "d".toUTF8.toList] ∧ fields [97, 160, 98, 32, 0xC2, 0x85, 99] = [[97, 160, 98], [99]] := by decide +kernel

theorem runSearch_matched (s : Search) (names : List Bytes) (seen : List Bytes) (hcap : s.matched.length ≤ s.cap) :
    (iterLoop Search.add names s seen).1.matched = s.matched ++ (names.filter s.match_).take (s.cap - s.matched.length) := by
  induction names generalizing s seen with
  | nil => simp [iterLoop]
  | cons x names ih =>
    simp only [iterLoop, Search.add]
    by_cases h1 : s.matched.length = s.cap
    · simp [h1]
    · simp only [h1, if_false]
      cases h2 : s.match_ x with
      | false =>
        simp only [Bool.not_false, if_true]
        rw [ih s _ hcap, List.filter_cons, h2]
        rfl
      | true =>
        simp only [Bool.not_true, Bool.false_eq_true, if_false, if_true]
        rw [ih _ _ (by simp; omega)]
        dsimp only
        rw [List.filter_cons, h2, if_pos rfl]
        obtain ⟨d, hd⟩ : ∃ d, s.cap - s.matched.length = d + 1 := ⟨s.cap - s.matched.length - 1, by omega⟩
        rw [hd, List.take_succ_cons, List.length_append, List.length_singleton, show s.cap - (s.matched.length + 1) = d by omega]
        have hm : ({ s with matched := s.matched ++ [x] } : Search).match_ = s.match_ := rfl
        rw [hm]; simp

theorem runSearch_seen (s : Search) (names : List Bytes) (seen : List Bytes) (hcap : s.matched.length ≤ s.cap) :
    ∃ n, (iterLoop Search.add names s seen).2 = seen ++ names.take n ∧
      (n < names.length → 0 < n ∧ ((names.take (n - 1)).filter s.match_).length = s.cap - s.matched.length) ∧
      ∀ k, k + 1 < n → k < names.length → ((names.take k).filter s.match_).length < s.cap - s.matched.length := by
  induction names generalizing s seen with
  | nil => exact ⟨0, by simp [iterLoop], by simp, by simp⟩
  | cons x names ih =>
    simp only [iterLoop, Search.add]
    by_cases h1 : s.matched.length = s.cap
    · refine ⟨1, by simp [h1], fun _ => by simp [h1], fun k hk => by omega⟩
    · simp only [h1, if_false]
      cases h2 : s.match_ x with
      | false =>
        simp only [Bool.not_false, if_true]
        obtain ⟨n, e1, e2, e3⟩ := ih s (seen ++ [x]) hcap
        refine ⟨n + 1, by rw [e1]; simp, fun hn => ?_, fun k hk hk2 => ?_⟩
        · simp only [List.length_cons] at hn
          obtain ⟨q1, q2⟩ := e2 (by omega)
          refine ⟨by omega, ?_⟩
          obtain ⟨d, hd⟩ : ∃ d, n = d + 1 := ⟨n - 1, by omega⟩
          subst hd
          simp only [Nat.add_sub_cancel] at q2 ⊢
          rw [List.take_succ_cons, List.filter_cons, h2]; exact q2
        · cases k with
          | zero => simp; omega
          | succ k =>
            simp only [List.length_cons] at hk2
            rw [List.take_succ_cons, List.filter_cons, h2]
            exact e3 k (by omega) (by omega)
      | true =>
        simp only [Bool.not_true, Bool.false_eq_true, if_false, if_true]
        obtain ⟨n, e1, e2, e3⟩ := ih { s with matched := s.matched ++ [x] } (seen ++ [x]) (by simp; omega)
        have hm : ({ s with matched := s.matched ++ [x] } : Search).match_ = s.match_ := rfl
        rw [hm] at e2 e3
        simp only [List.length_append, List.length_singleton] at e2 e3
        refine ⟨n + 1, by rw [e1]; simp, fun hn => ?_, fun k hk hk2 => ?_⟩
        · simp only [List.length_cons] at hn
          obtain ⟨q1, q2⟩ := e2 (by omega)
          refine ⟨by omega, ?_⟩
          obtain ⟨d, hd⟩ : ∃ d, n = d + 1 := ⟨n - 1, by omega⟩
          subst hd
          simp only [Nat.add_sub_cancel] at q2 ⊢
          rw [List.take_succ_cons, List.filter_cons, h2, if_pos rfl, List.length_cons, q2]; omega
        · cases k with
          | zero => simp; omega
          | succ k =>
            simp only [List.length_cons] at hk2
            rw [List.take_succ_cons, List.filter_cons, h2, if_pos rfl, List.length_cons]
            have := e3 k (by omega) (by omega)
            omega

open Classical in
/-- The names that match every term of the query. -/
noncomputable def matching (query : Bytes) (names : List Bytes) : List Bytes := names.filter (fun m => decide (∀ t ∈ fields query, TermMatches t m))

theorem newSearch_match (query : Bytes) (limit : Nat) (names : List Bytes) (s : Search) (h : newSearch query limit = some s) :
    names.filter s.match_ = matching query names ∧ s.matched = [] ∧ s.cap = limit := by
  unfold newSearch at h
  rw [if_neg (by omega)] at h
  cases h
  refine ⟨?_, rfl, by simp⟩
  unfold matching
  refine List.filter_congr (fun m _ => ?_)
  rw [Bool.eq_iff_iff]
  simp only [Search.match_, List.all_map, List.all_eq_true, Function.comp, decide_eq_true_eq, C39_match]

/-- **C40.** For every query, limit and list of metrics: the result is the first `limit` names, in the order of the list, that match every term. -/
theorem C40_result (query : Bytes) (limit : Nat) (names : List Bytes) :
    ∃ s, newSearch query limit = some s ∧ (runSearch s names).1.matched = (matching query names).take limit := by
  have hs : newSearch query limit = some ⟨(fields query).map newSpec, [], limit⟩ := by unfold newSearch; rw [if_neg (by omega)]; simp
  refine ⟨_, hs, ?_⟩
  obtain ⟨h1, h2, h3⟩ := newSearch_match query limit names _ hs
  unfold runSearch
  rw [runSearch_matched _ _ _ (by simp), h1]
  simp

/-- **C40.** The scan stops once the result is full: if it did not see the whole list, it saw one name more than a part of it that has `limit` matches; and it does not go on past such a name. -/
theorem C40_stops (query : Bytes) (limit : Nat) (names : List Bytes) :
    ∃ s n, newSearch query limit = some s ∧ (runSearch s names).2 = names.take n ∧
      (n < names.length → 0 < n ∧ (matching query (names.take (n - 1))).length = limit) ∧
      ∀ k, k + 1 < n → k < names.length → (matching query (names.take k)).length < limit := by
  have hs : newSearch query limit = some ⟨(fields query).map newSpec, [], limit⟩ := by unfold newSearch; rw [if_neg (by omega)]; simp
  obtain ⟨n, h1, h2, h3⟩ := runSearch_seen ⟨(fields query).map newSpec, [], limit⟩ names [] (by simp)
  refine ⟨_, n, hs, by simpa [runSearch] using h1, fun hn => ?_, fun k hk hk2 => ?_⟩
  · obtain ⟨q1, q2⟩ := h2 hn
    rw [(newSearch_match query limit _ _ hs).1] at q2
    exact ⟨q1, by simpa using q2⟩
  · have := h3 k hk hk2
    rw [(newSearch_match query limit _ _ hs).1] at this
    simpa using this

/-- Test: two terms, a limit of 1: the first match is returned, and the scan stops at the name after it. -/
example : (newSearch " foo  b".toUTF8.toList 1).map (fun s => (runSearch s ["foo".toUTF8.toList, "foo.bar".toUTF8.toList, "c".toUTF8.toList, "foob".toUTF8.toList]).1.matched) = some ["foo.bar".toUTF8.toList] ∧
    (newSearch " foo  b".toUTF8.toList 1).map (fun s => (runSearch s ["foo".toUTF8.toList, "foo.bar".toUTF8.toList, "c".toUTF8.toList, "foob".toUTF8.toList]).2.length) = some 3 := by
  decide +kernel

end Rothko
