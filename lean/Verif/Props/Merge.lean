import Verif.Model.Merge
import Verif.Props.Writer
/-!
# C45: merging records
-/
namespace Rothko

theorem int64_lt {a b : Int64} : a < b ↔ a.toInt < b.toInt := Int64.lt_iff_toInt_lt

theorem mergeStart_spec (rs : List DRec) (out : Int64) :
    (mergeStart out rs = out ∨ ∃ r ∈ rs, r.startTime = mergeStart out rs) ∧ (mergeStart out rs).toInt ≤ out.toInt ∧ ∀ r ∈ rs, (mergeStart out rs).toInt ≤ r.startTime.toInt := by
  induction rs generalizing out with
  | nil => simp [mergeStart]
  | cons r rs ih =>
    simp only [mergeStart]
    by_cases h : r.startTime < out
    · rw [if_pos h]
      obtain ⟨h1, h2, h3⟩ := ih r.startTime
      have := int64_lt.mp h
      refine ⟨Or.inr ?_, by omega, ?_⟩
      · rcases h1 with h1 | ⟨x, hx, h1⟩
        · exact ⟨r, by simp, h1.symm⟩
        · exact ⟨x, by simp [hx], h1⟩
      · intro x hx
        rcases List.mem_cons.mp hx with rfl | hx
        · exact h2
        · exact h3 x hx
    · rw [if_neg h]
      obtain ⟨h1, h2, h3⟩ := ih out
      rw [int64_lt] at h
      refine ⟨?_, h2, ?_⟩
      · rcases h1 with h1 | ⟨x, hx, h1⟩
        · exact Or.inl h1
        · exact Or.inr ⟨x, by simp [hx], h1⟩
      · intro x hx
        rcases List.mem_cons.mp hx with rfl | hx
        · omega
        · exact h3 x hx

theorem mergeEnd_spec (rs : List DRec) (out : Int64) :
    (mergeEnd out rs = out ∨ ∃ r ∈ rs, r.endTime = mergeEnd out rs) ∧ out.toInt ≤ (mergeEnd out rs).toInt ∧ ∀ r ∈ rs, r.endTime.toInt ≤ (mergeEnd out rs).toInt := by
  induction rs generalizing out with
  | nil => simp [mergeEnd]
  | cons r rs ih =>
    simp only [mergeEnd]
    by_cases h : r.endTime > out
    · rw [if_pos h]
      obtain ⟨h1, h2, h3⟩ := ih r.endTime
      have := int64_lt.mp h
      refine ⟨Or.inr ?_, by omega, ?_⟩
      · rcases h1 with h1 | ⟨x, hx, h1⟩
        · exact ⟨r, by simp, h1.symm⟩
        · exact ⟨x, by simp [hx], h1⟩
      · intro x hx
        rcases List.mem_cons.mp hx with rfl | hx
        · exact h2
        · exact h3 x hx
    · rw [if_neg h]
      obtain ⟨h1, h2, h3⟩ := ih out
      rw [gt_iff_lt, int64_lt] at h
      refine ⟨?_, h2, ?_⟩
      · rcases h1 with h1 | ⟨x, hx, h1⟩
        · exact Or.inl h1
        · exact Or.inr ⟨x, by simp [hx], h1⟩
      · intro x hx
        rcases List.mem_cons.mp hx with rfl | hx
        · omega
        · exact h3 x hx

/-- Either nothing was smaller, or the result is from a later record, with its id. -/
theorem mergeMin_spec (rs : List DRec) (out : F64 × Bytes) (ho : fFinite out.1 = true) (hf : ∀ r ∈ rs, fFinite r.min = true) :
    fFinite (mergeMin out rs).1 = true ∧ fKey (mergeMin out rs).1 ≤ fKey out.1 ∧ (∀ r ∈ rs, fKey (mergeMin out rs).1 ≤ fKey r.min) ∧
    ((mergeMin out rs = out) ∨ (fKey (mergeMin out rs).1 < fKey out.1 ∧ ∃ r ∈ rs, r.min = (mergeMin out rs).1 ∧ r.minId = (mergeMin out rs).2)) := by
  induction rs generalizing out with
  | nil => simp [mergeMin, ho]
  | cons r rs ih =>
    simp only [mergeMin]
    have hr := hf r (by simp)
    by_cases h : fLt r.min out.1 = true
    · rw [if_pos h]
      obtain ⟨h0, h1, h2, h3⟩ := ih (r.min, r.minId) hr (fun x hx => hf x (by simp [hx]))
      have := (fLt_iff hr ho).mp h
      dsimp only at h1
      refine ⟨h0, by omega, ?_, Or.inr ⟨by omega, ?_⟩⟩
      · intro x hx
        rcases List.mem_cons.mp hx with rfl | hx
        · exact h1
        · exact h2 x hx
      · rcases h3 with h3 | ⟨_, x, hx, h3⟩
        · exact ⟨r, by simp, by rw [h3], by rw [h3]⟩
        · exact ⟨x, by simp [hx], h3⟩
    · rw [if_neg h]
      obtain ⟨h0, h1, h2, h3⟩ := ih out ho (fun x hx => hf x (by simp [hx]))
      have := (fLt_false_iff hr ho).mp (by simpa using h)
      refine ⟨h0, h1, ?_, ?_⟩
      · intro x hx
        rcases List.mem_cons.mp hx with rfl | hx
        · omega
        · exact h2 x hx
      · rcases h3 with h3 | ⟨h4, x, hx, h3⟩
        · exact Or.inl h3
        · exact Or.inr ⟨h4, x, by simp [hx], h3⟩

theorem mergeMax_spec (rs : List DRec) (out : F64 × Bytes) (ho : fFinite out.1 = true) (hf : ∀ r ∈ rs, fFinite r.max = true) :
    fFinite (mergeMax out rs).1 = true ∧ fKey out.1 ≤ fKey (mergeMax out rs).1 ∧ (∀ r ∈ rs, fKey r.max ≤ fKey (mergeMax out rs).1) ∧
    ((mergeMax out rs = out) ∨ (fKey out.1 < fKey (mergeMax out rs).1 ∧ ∃ r ∈ rs, r.max = (mergeMax out rs).1 ∧ r.maxId = (mergeMax out rs).2)) := by
  induction rs generalizing out with
  | nil => simp [mergeMax, ho]
  | cons r rs ih =>
    simp only [mergeMax]
    have hr := hf r (by simp)
    by_cases h : fLt out.1 r.max = true
    · rw [if_pos h]
      obtain ⟨h0, h1, h2, h3⟩ := ih (r.max, r.maxId) hr (fun x hx => hf x (by simp [hx]))
      have := (fLt_iff ho hr).mp h
      dsimp only at h1
      refine ⟨h0, by omega, ?_, Or.inr ⟨by omega, ?_⟩⟩
      · intro x hx
        rcases List.mem_cons.mp hx with rfl | hx
        · exact h1
        · exact h2 x hx
      · rcases h3 with h3 | ⟨_, x, hx, h3⟩
        · exact ⟨r, by simp, by rw [h3], by rw [h3]⟩
        · exact ⟨x, by simp [hx], h3⟩
    · rw [if_neg h]
      obtain ⟨h0, h1, h2, h3⟩ := ih out ho (fun x hx => hf x (by simp [hx]))
      have := (fLt_false_iff ho hr).mp (by simpa using h)
      refine ⟨h0, h1, ?_, ?_⟩
      · intro x hx
        rcases List.mem_cons.mp hx with rfl | hx
        · omega
        · exact h2 x hx
      · rcases h3 with h3 | ⟨h4, x, hx, h3⟩
        · exact Or.inl h3
        · exact Or.inr ⟨h4, x, by simp [hx], h3⟩

theorem mergeObs_spec (rs : List DRec) (out : Int64) : mergeObs out rs = out + (rs.map (·.observations)).sum := by
  induction rs generalizing out with
  | nil => simp [mergeObs]
  | cons r rs ih => simp only [mergeObs, ih, List.map_cons, List.sum_cons]; rw [Int64.add_assoc]

/-- How many originals a record stands for: 0 is from before the field existed. -/
def originals (r : DRec) : Int64 := if r.merged = 0 then 1 else r.merged

theorem mergeMerged_spec (rs : List DRec) (out : Int64) : mergeMerged out rs = out + (rs.map originals).sum := by
  induction rs generalizing out with
  | nil => simp [mergeMerged]
  | cons r rs ih => simp only [mergeMerged, ih, List.map_cons, List.sum_cons]; rw [Int64.add_assoc]; rfl

/-- **C45** (fields). Merging records gives the earliest start, the latest end, the sum of the observations, the number of originals, the smallest minimum and largest maximum, and the merged distribution. -/
theorem C45_fields (dist : List DRec → Option (Bytes × Bytes)) (rs : List DRec) (out : DRec) (h : mergeRecs dist rs = some out) (hf : ∀ r ∈ rs, fFinite r.min = true ∧ fFinite r.max = true) :
    ((∃ r ∈ rs, r.startTime = out.startTime) ∧ ∀ r ∈ rs, out.startTime ≤ r.startTime) ∧
    ((∃ r ∈ rs, r.endTime = out.endTime) ∧ ∀ r ∈ rs, r.endTime ≤ out.endTime) ∧
    out.observations = (rs.map (·.observations)).sum ∧ out.merged = (rs.map originals).sum ∧
    ((∃ r ∈ rs, r.min = out.min) ∧ ∀ r ∈ rs, fLt r.min out.min = false) ∧
    ((∃ r ∈ rs, r.max = out.max) ∧ ∀ r ∈ rs, fLt out.max r.max = false) ∧
    dist rs = some (out.distribution, out.kind) := by
  cases rs with
  | nil => cases h
  | cons r rs =>
    cases hd : dist (r :: rs) with
    | none => simp [mergeRecs, hd] at h
    | some x =>
      obtain ⟨d, kind⟩ := x
      simp only [mergeRecs, hd, Option.some.injEq] at h
      subst h
      obtain ⟨s1, s2, s3⟩ := mergeStart_spec rs r.startTime
      obtain ⟨e1, e2, e3⟩ := mergeEnd_spec rs r.endTime
      obtain ⟨m0, m1, m2, m3⟩ := mergeMin_spec rs (r.min, []) (hf r (by simp)).1 (fun x hx => (hf x (by simp [hx])).1)
      obtain ⟨x0, x1, x2, x3⟩ := mergeMax_spec rs (r.max, []) (hf r (by simp)).2 (fun x hx => (hf x (by simp [hx])).2)
      refine ⟨⟨?_, ?_⟩, ⟨?_, ?_⟩, ?_, ?_, ⟨?_, ?_⟩, ⟨?_, ?_⟩, rfl⟩
      · rcases s1 with s1 | ⟨x, hx, s1⟩
        · exact ⟨r, by simp, s1.symm⟩
        · exact ⟨x, by simp [hx], s1⟩
      · intro x hx
        rw [Int64.le_iff_toInt_le]
        rcases List.mem_cons.mp hx with rfl | hx
        · exact s2
        · exact s3 x hx
      · rcases e1 with e1 | ⟨x, hx, e1⟩
        · exact ⟨r, by simp, e1.symm⟩
        · exact ⟨x, by simp [hx], e1⟩
      · intro x hx
        rw [Int64.le_iff_toInt_le]
        rcases List.mem_cons.mp hx with rfl | hx
        · exact e2
        · exact e3 x hx
      · rw [mergeObs_spec]; simp
      · rw [mergeMerged_spec]; simp
      · rcases m3 with m3 | ⟨_, x, hx, m3, _⟩
        · exact ⟨r, by simp, by rw [m3]⟩
        · exact ⟨x, by simp [hx], m3⟩
      · intro x hx
        rw [fLt_false_iff (hf x hx).1 m0]
        rcases List.mem_cons.mp hx with rfl | hx
        · exact m1
        · exact m2 x hx
      · rcases x3 with x3 | ⟨_, x, hx, x3, _⟩
        · exact ⟨r, by simp, by rw [x3]⟩
        · exact ⟨x, by simp [hx], x3⟩
      · intro x hx
        rw [fLt_false_iff x0 (hf x hx).2]
        rcases List.mem_cons.mp hx with rfl | hx
        · exact x1
        · exact x2 x hx

/-- **C45** (none). Merging no records is an error, and merging some is one only if their distributions cannot be merged. -/
theorem C45_error (dist : List DRec → Option (Bytes × Bytes)) (rs : List DRec) : mergeRecs dist rs = none ↔ rs = [] ∨ dist rs = none := by
  cases rs with
  | nil => simp [mergeRecs]
  | cons r rs =>
    cases hd : dist (r :: rs) <;> simp [mergeRecs, hd]

/-- **C45** (ids), partial: the id of the minimum is that of a record that has it, if the first record is not among the smallest; same for the maximum. Missing: when the first record is smallest, the id is
lost (`C45_ids_refuted`). -/
theorem C45_ids_partial (dist : List DRec → Option (Bytes × Bytes)) (r : DRec) (rs : List DRec) (out : DRec) (h : mergeRecs dist (r :: rs) = some out)
    (hf : ∀ x ∈ r :: rs, fFinite x.min = true ∧ fFinite x.max = true) :
    ((∃ x ∈ rs, fLt x.min r.min = true) → ∃ x ∈ rs, x.min = out.min ∧ x.minId = out.minId) ∧
    ((∃ x ∈ rs, fLt r.max x.max = true) → ∃ x ∈ rs, x.max = out.max ∧ x.maxId = out.maxId) := by
  cases hd : dist (r :: rs) with
  | none => simp [mergeRecs, hd] at h
  | some x =>
    obtain ⟨d, kind⟩ := x
    simp only [mergeRecs, hd, Option.some.injEq] at h
    subst h
    obtain ⟨m0, m1, m2, m3⟩ := mergeMin_spec rs (r.min, []) (hf r (by simp)).1 (fun x hx => (hf x (by simp [hx])).1)
    obtain ⟨x0, x1, x2, x3⟩ := mergeMax_spec rs (r.max, []) (hf r (by simp)).2 (fun x hx => (hf x (by simp [hx])).2)
    constructor
    · rintro ⟨x, hx, hlt⟩
      rcases m3 with m3 | ⟨_, m3⟩
      · have h1 := m2 x hx
        have h2 := (fLt_iff (hf x (by simp [hx])).1 (hf r (by simp)).1).mp hlt
        rw [m3] at h1; dsimp only at h1; omega
      · exact m3
    · rintro ⟨x, hx, hlt⟩
      rcases x3 with x3 | ⟨_, x3⟩
      · have h1 := x2 x hx
        have h2 := (fLt_iff (hf r (by simp)).2 (hf x (by simp [hx])).2).mp hlt
        rw [x3] at h1; dsimp only at h1; omega
      · exact x3

/-- **C45 refuted** (ids). The first record has the smallest and the largest value, with ids; the merged record has the values but no ids. -/
theorem C45_ids_refuted : ∃ (rs : List DRec) (out : DRec), mergeRecs (fun _ => some ([], [])) rs = some out ∧ (∀ r ∈ rs, r.minId ≠ [] ∧ r.maxId ≠ []) ∧ out.minId = [] ∧ out.maxId = [] :=
  ⟨[{ min := 0x3ff0000000000000#64, max := 0x4014000000000000#64, minId := [1], maxId := [2], observations := 2, merged := 1 },
    { min := 0x4000000000000000#64, max := 0x4008000000000000#64, minId := [3], maxId := [4], observations := 2, merged := 0 }], _, rfl, by simp, by decide +kernel, by decide +kernel⟩

/-- A non-trivial merge: the second record has the smaller minimum, merged 0 counts as 1. -/
theorem C45_example : (mergeRecs (fun _ => some ([7], [8]))
    [{ startTime := 5, endTime := 9, min := 0x4000000000000000#64, max := 0x4000000000000000#64, minId := [1], maxId := [2], observations := 2, merged := 3 },
     { startTime := 3, endTime := 8, min := 0x3ff0000000000000#64, max := 0x4014000000000000#64, minId := [3], maxId := [4], observations := 4, merged := 0 }]) =
    some { startTime := 3, endTime := 9, observations := 6, distribution := [7], kind := [8], min := 0x3ff0000000000000#64, max := 0x4014000000000000#64, minId := [3], maxId := [4], merged := 4 } := by
  decide +kernel

end Rothko
