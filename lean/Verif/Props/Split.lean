import Verif.Lemmas.Record
/-!
# C04: values are split and reassembled losslessly
-/
namespace Rothko

/-- Independent description of a correct split of a value into chunks (kinds 2 = complete, 3 = begin, 4 = continue, 5 = end). -/
structure SplitOf (start stop : Int64) (data : Bytes) (size : Nat) (l : List Rec) : Prop where
  /-- payloads concatenate to the value -/
  concat : (l.map Rec.data).flatten = data
  /-- each chunk fits the record size, its declared payload size is right, and it carries the value's times and the
  current version -/
  fits : ∀ r ∈ l, 24 + r.data.length ≤ size ∧ r.data.length = r.size.toNat ∧ r.start = start ∧ r.stop = stop ∧ r.version = 1
  /-- complete, or begin continue* end -/
  kinds : l.map Rec.kind = [2] ∨ ∃ n, l.map Rec.kind = 3 :: (List.replicate n 4 ++ [5])

theorem chunkInvalid_iff (size : Int) : chunkInvalid size = true ↔ (size < 24 ∨ 24 + 65535 < size) := by
  simp only [chunkInvalid, Bool.or_eq_true, decide_eq_true_eq, bne_iff_ne, ne_eq,
    show ((recordHeaderSize : Nat) : Int) = 24 from rfl]
  omega

private theorem chunksFrom_props (start stop : Int64) (chunk : Nat) (hc : 0 < chunk ∧ chunk ≤ 65535) (complete : Bool) (kind : UInt8)
    (data : Bytes) :
    ((chunksFrom start stop chunk complete kind data).map Rec.data).flatten = data ∧
    (∀ r ∈ chunksFrom start stop chunk complete kind data,
      r.data.length ≤ chunk ∧ r.data.length = r.size.toNat ∧ r.start = start ∧ r.stop = stop ∧ r.version = 1) ∧
    ((chunksFrom start stop chunk complete kind data).map Rec.kind =
      if data.length ≤ chunk then [if complete then 2 else 5]
      else kind :: (List.replicate ((data.length + chunk - 1) / chunk - 2) 4 ++ [if complete then 2 else 5])) ∧
    (chunksFrom start stop chunk complete kind data).length = if data.length = 0 then 1 else (data.length + chunk - 1) / chunk := by
  induction hn : data.length using Nat.strongRecOn generalizing kind data with
  | _ n ih =>
  subst hn
  unfold chunksFrom
  by_cases hgt : data.length > chunk ∧ chunk > 0
  · rw [if_pos hgt]
    obtain ⟨h1, h2, h3, h4⟩ := ih (data.drop chunk).length (by simp; omega) kindContinue (data.drop chunk) rfl
    have hdiv : (data.length + chunk - 1) / chunk = (data.length - chunk + chunk - 1) / chunk + 1 := by
      rw [show data.length + chunk - 1 = (data.length - chunk + chunk - 1) + chunk by omega,
        Nat.add_div_right _ hc.1]
    have hpos : 1 ≤ (data.length - chunk + chunk - 1) / chunk := by
      rw [Nat.le_div_iff_mul_le hc.1]; omega
    refine ⟨?_, ?_, ?_, ?_⟩
    · simp [h1]
    · intro r hr
      rcases List.mem_cons.mp hr with rfl | hr
      · simp only [List.length_take, recordVersion, UInt16.toNat_ofNat']
        refine ⟨by omega, ?_, trivial, trivial, trivial⟩
        rw [Nat.mod_eq_of_lt (by omega)]; omega
      · exact h2 r hr
    · rw [if_neg (by omega), List.map_cons, h3]
      simp only [List.length_drop, kindContinue]
      split
      · rename_i hle
        have : (data.length - chunk + chunk - 1) / chunk = 1 := by
          apply Nat.div_eq_of_lt_le <;> omega
        rw [hdiv, this]; simp
      · rename_i hle
        have : 2 ≤ (data.length - chunk + chunk - 1) / chunk := by
          rw [Nat.le_div_iff_mul_le hc.1]; omega
        rw [hdiv, show (data.length - chunk + chunk - 1) / chunk + 1 - 2 = ((data.length - chunk + chunk - 1) / chunk - 2) + 1 by omega,
          List.replicate_succ]
        simp
    · rw [List.length_cons, h4, List.length_drop, if_neg (show ¬ (data.length - chunk = 0) by omega),
        if_neg (show ¬ data.length = 0 by omega), hdiv]
  · rw [if_neg hgt]
    have hle : data.length ≤ chunk := by omega
    refine ⟨by simp, ?_, ?_, ?_⟩
    · intro r hr
      rcases List.mem_singleton.mp hr with rfl
      simp only [recordVersion, UInt16.toNat_ofNat']
      refine ⟨hle, ?_, trivial, trivial, trivial⟩
      rw [Nat.mod_eq_of_lt (by omega)]
    · rw [if_pos hle]; cases complete <;> simp [kindComplete, kindEnd]
    · rw [List.length_singleton]
      split
      · rfl
      · symm; apply Nat.div_eq_of_lt_le <;> omega

/-- **C04.** For every value and every record size that leaves room for a payload byte, the value is stored as a correct split of
exactly `numRecords` chunks. -/
theorem C04_split (start stop : Int64) (data : Bytes) (size : Nat) (h1 : 25 ≤ size) (h2 : size ≤ 24 + 65535) :
    ∃ l n, iterateRecords start stop data size = .recs l ∧ numRecords data.length size = some n ∧
      l.length = n ∧ 0 < n ∧ SplitOf start stop data size l := by
  have hinv : chunkInvalid size = false := by
    rw [Bool.eq_false_iff, ne_eq, chunkInvalid_iff]; omega
  have hch : ((size : Int) - (recordHeaderSize : Nat)).toNat = size - 24 := by simp only [recordHeaderSize]; omega
  obtain ⟨p1, p2, p3, p4⟩ := chunksFrom_props start stop (size - 24) ⟨by omega, by omega⟩
    (decide (data.length ≤ size - 24)) kindBegin data
  refine ⟨chunksFrom start stop (size - 24) (decide (data.length ≤ size - 24)) kindBegin data,
    if data.length = 0 then 1 else (data.length + (size - 24) - 1) / (size - 24), ?_, ?_, p4, ?_, p1, ?_, ?_⟩
  · simp only [iterateRecords, hinv, hch]
    simp; omega
  · simp only [numRecords, hinv, hch]
    rw [if_neg (by simp)]
    by_cases hd : data.length = 0
    · rw [if_pos hd, if_pos hd]
    · rw [if_neg hd, if_neg hd, if_neg (by omega)]
  · split
    · omega
    · apply Nat.div_pos <;> omega
  · intro r hr
    obtain ⟨q1, q2⟩ := p2 r hr
    exact ⟨by omega, q2⟩
  · rw [p3]
    split
    · rename_i h; left; simp [h]
    · rename_i h; right
      exact ⟨(data.length + (size - 24) - 1) / (size - 24) - 2, by simp [h, kindBegin]⟩

/-- **C04**, record sizes outside the valid range are refused by both functions, and no others are; the two exact failure points are a record size of exactly
one header with a non-empty value, for which the code loops forever (and `numRecords` divides by zero). -/
theorem C04_size_range (start stop : Int64) (data : Bytes) (size : Int) :
    (iterateRecords start stop data size = .invalid ↔ (size < 24 ∨ 24 + 65535 < size)) ∧
    (numRecords data.length size = some 0 ↔ (size < 24 ∨ 24 + 65535 < size)) ∧
    (iterateRecords start stop data size = .diverges ↔ (size = 24 ∧ data ≠ [])) ∧
    (numRecords data.length size = none ↔ (size = 24 ∧ data ≠ [])) := by
  have hdata : data ≠ [] ↔ 0 < data.length := by cases data <;> simp
  rw [hdata, ← chunkInvalid_iff]
  have e : ((recordHeaderSize : Nat) : Int) = 24 := rfl
  cases hinv : chunkInvalid size
  · have h3 : ¬ (size < 24 ∨ 24 + 65535 < size) := by rw [← chunkInvalid_iff]; simp [hinv]
    simp only [iterateRecords, numRecords, hinv, e]
    by_cases h0 : size = 24
    · subst h0
      by_cases hd : data.length = 0
      · simp [hd]
      · simp [hd, Nat.pos_of_ne_zero hd]
    · have hc : (size - 24).toNat ≠ 0 := by omega
      by_cases hd : data.length = 0
      · simp [hd, h0]
      · have hp : (data.length + (size - 24).toNat - 1) / (size - 24).toNat ≠ 0 := by
          have := Nat.div_pos (a := data.length + (size - 24).toNat - 1) (b := (size - 24).toNat) (by omega) (by omega)
          omega
        simp only [hd, hc, h0, if_false, false_and]
        simp only [Bool.false_eq_true, if_false, reduceCtorEq, iff_false, Option.some.injEq]
        exact ⟨trivial, hp, trivial, trivial⟩
  · have h3 : (size < 24 ∨ 24 + 65535 < size) := by rw [← chunkInvalid_iff]; simp [hinv]
    have : size ≠ 24 := by omega
    simp [iterateRecords, numRecords, hinv, this]

/-- The chunks determine the value: two values with the same chunks are equal (no two values are stored alike). -/
theorem C04_injective (start stop : Int64) (d d' : Bytes) (size : Nat) (h1 : 25 ≤ size) (h2 : size ≤ 24 + 65535)
    (h : iterateRecords start stop d size = iterateRecords start stop d' size) : d = d' := by
  obtain ⟨l, n, e, _, _, _, s⟩ := C04_split start stop d size h1 h2
  obtain ⟨l', n', e', _, _, _, s'⟩ := C04_split start stop d' size h1 h2
  rw [e, e'] at h
  cases h
  rw [← s.concat, ← s'.concat]

/-- Non-vacuity: seven bytes in records with three payload bytes give begin, continue, end. -/
example : ∃ l, iterateRecords 1 2 [1, 2, 3, 4, 5, 6, 7] 27 = .recs l ∧ l.map Rec.kind = [3, 4, 5] ∧
    l.map Rec.data = [[1, 2, 3], [4, 5, 6], [7]] :=
  ⟨_, rfl, by decide +kernel, by decide +kernel⟩

end Rothko
