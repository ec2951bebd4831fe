import Verif.Lemmas.Proto
import Verif.Model.DataRecord
/-!
# C05 (payload part), C06: metadata and distribution record encodings round-trip
-/
namespace Rothko

private theorem putVarint_reaches (field : σ → Int → Nat → Bytes → Int → Option (Outcome (σ × Int))) (tag : UInt8) (v : Int64)
    (set : BitVec 64 → σ) (m : σ) (p rest : Bytes) (htag : tag < 0x80) (hwt : tag.toNat % 8 = 0) (hnum : 8 ≤ tag.toNat)
    (hf : ∀ d i, field m (tag.toNat / 8 : Nat) 0 d i = some (varintField set 0 d i))
    (h0 : set 0#64 = m) :
    Reaches field (p ++ (putVarintField tag v ++ rest)) m p.length (set v.toBitVec) (p ++ putVarintField tag v).length := by
  unfold putVarintField
  split
  · apply reaches_field _ _ _ _ _ _ _ htag (by omega) hnum
    rw [hwt, hf]
    have := varintField_encode set v.toBitVec (p ++ [tag]) rest
    simp only [List.append_assoc, List.singleton_append] at this
    rw [show p.length + 1 = (p ++ [tag]).length by simp, this]
  · rename_i h
    have : v = 0 := by simpa using h
    subst this
    have e : (0 : Int64).toBitVec = 0#64 := rfl
    rw [e, h0]; simpa using Reaches.refl

private theorem putBytes_reaches (field : σ → Int → Nat → Bytes → Int → Option (Outcome (σ × Int))) (tag : UInt8) (b : Bytes)
    (set : Bytes → σ) (m : σ) (p rest : Bytes) (htag : tag < 0x80) (hwt : tag.toNat % 8 = 2) (hnum : 8 ≤ tag.toNat)
    (hlen : (p ++ (putBytesField tag b ++ rest)).length < 2 ^ 63)
    (hf : ∀ d i, field m (tag.toNat / 8 : Nat) 2 d i = some (bytesField set 2 d i))
    (h0 : set [] = m) :
    Reaches field (p ++ (putBytesField tag b ++ rest)) m p.length (set b) (p ++ putBytesField tag b).length := by
  unfold putBytesField at *
  split
  · rename_i hb
    rw [if_pos hb] at hlen
    apply reaches_field _ _ _ _ _ _ _ htag (by omega) hnum
    rw [hwt, hf]
    have := bytesField_encode set b (p ++ [tag]) rest (by simpa using hlen)
    simp only [List.append_assoc, List.singleton_append] at this ⊢
    rw [show p.length + 1 = (p ++ [tag]).length by simp, this]
  · rename_i h
    have : b = [] := by cases b <;> simp_all
    subst this
    rw [h0]; simpa using Reaches.refl

/-- The value a float field reads back as: negative zero is not distinguished from zero. -/
def normZero (x : BitVec 64) : BitVec 64 := if x = 0x8000000000000000#64 then 0#64 else x

private theorem floatNonZero_false (x : BitVec 64) (h : floatNonZero x = false) : normZero x = 0#64 := by
  unfold floatNonZero at h
  simp only [ne_eq, decide_not, Bool.not_eq_false', decide_eq_true_eq] at h
  have hb : ∀ i, i < 63 → x.getLsbD i = false := by
    intro i hi
    have := congrArg (fun z => z.getLsbD i) h
    simp only [BitVec.getLsbD_and, BitVec.getLsbD_zero] at this
    have h1 : ∀ j : Fin 63, (0x7fffffffffffffff#64).getLsbD j = true := by decide +kernel
    rw [h1 ⟨i, hi⟩] at this
    simpa using this
  unfold normZero
  split
  · rfl
  · rename_i hne
    cases h63 : x.getLsbD 63
    · apply BitVec.eq_of_getLsbD_eq
      intro i hi
      by_cases h' : i < 63
      · simp [hb i h']
      · have : i = 63 := by omega
        subst this; rw [h63]; rfl
    · exfalso; apply hne
      apply BitVec.eq_of_getLsbD_eq
      intro i hi
      by_cases h' : i < 63
      · have h1 : ∀ j : Fin 63, (0x8000000000000000#64).getLsbD j = false := by decide +kernel
        rw [hb i h', h1 ⟨i, h'⟩]
      · have : i = 63 := by omega
        subst this; rw [h63]; decide

private theorem floatNonZero_true (x : BitVec 64) (h : floatNonZero x = true) : normZero x = x := by
  unfold normZero
  split
  · rename_i h'; subst h'; revert h; decide
  · rfl

private theorem putFixed_reaches (field : σ → Int → Nat → Bytes → Int → Option (Outcome (σ × Int))) (tag : UInt8) (v : BitVec 64)
    (set : BitVec 64 → σ) (m : σ) (p rest : Bytes) (htag : tag < 0x80) (hwt : tag.toNat % 8 = 1) (hnum : 8 ≤ tag.toNat)
    (hf : ∀ d i, field m (tag.toNat / 8 : Nat) 1 d i = some (fixed64Field set 1 d i))
    (h0 : set 0#64 = m) :
    Reaches field (p ++ (putFixedField tag v ++ rest)) m p.length (set (normZero v)) (p ++ putFixedField tag v).length := by
  unfold putFixedField
  split
  · rename_i h
    rw [floatNonZero_true v h]
    apply reaches_field _ _ _ _ _ _ _ htag (by omega) hnum
    rw [hwt, hf]
    have := fixed64Field_encode set v (p ++ [tag]) rest
    simp only [List.append_assoc, List.singleton_append] at this
    rw [show p.length + 1 = (p ++ [tag]).length by simp, this]
  · rename_i h
    rw [floatNonZero_false v (by simpa using h), h0]; simpa using Reaches.refl

theorem sizeVarintField_eq (tag : UInt8) (v : Int64) : (putVarintField tag v).length = sizeVarintField v := by
  unfold putVarintField sizeVarintField
  split <;> simp [encodeVarint_length]; omega

/-- Metadata payload: decoding what was encoded gives it back (all 64-bit values, negative ones included), and `Size` is the
number of bytes written. -/
theorem meta_payload_round_trip (m : Meta) : Meta.decode m.encode = .ok m ∧ m.encode.length = m.encSize := by
  constructor
  · unfold Meta.decode
    apply reaches_end _ _ _ _ 0 _ (by omega)
    have r1 := putVarint_reaches Meta.field 0x08 m.size (fun v => { ({} : Meta) with size := ⟨⟨v⟩⟩ }) {} []
      (putVarintField 0x10 m.head ++ (putVarintField 0x18 m.start ++ (putVarintField 0x20 m.stop ++ putVarintField 0x28 m.smallestEnd)))
      (by decide) (by decide) (by decide) (fun _ _ => rfl) rfl
    have r2 := putVarint_reaches Meta.field 0x10 m.head (fun v => { ({ size := m.size } : Meta) with head := ⟨⟨v⟩⟩ }) { size := m.size }
      (putVarintField 0x08 m.size)
      (putVarintField 0x18 m.start ++ (putVarintField 0x20 m.stop ++ putVarintField 0x28 m.smallestEnd))
      (by decide) (by decide) (by decide) (fun _ _ => rfl) rfl
    have r3 := putVarint_reaches Meta.field 0x18 m.start (fun v => { ({ size := m.size, head := m.head } : Meta) with start := ⟨⟨v⟩⟩ })
      { size := m.size, head := m.head }
      (putVarintField 0x08 m.size ++ putVarintField 0x10 m.head)
      (putVarintField 0x20 m.stop ++ putVarintField 0x28 m.smallestEnd)
      (by decide) (by decide) (by decide) (fun _ _ => rfl) rfl
    have r4 := putVarint_reaches Meta.field 0x20 m.stop (fun v => { ({ size := m.size, head := m.head, start := m.start } : Meta) with stop := ⟨⟨v⟩⟩ })
      { size := m.size, head := m.head, start := m.start }
      (putVarintField 0x08 m.size ++ putVarintField 0x10 m.head ++ putVarintField 0x18 m.start)
      (putVarintField 0x28 m.smallestEnd)
      (by decide) (by decide) (by decide) (fun _ _ => rfl) rfl
    have r5 := putVarint_reaches Meta.field 0x28 m.smallestEnd (fun v => { ({ size := m.size, head := m.head, start := m.start, stop := m.stop } : Meta) with smallestEnd := ⟨⟨v⟩⟩ })
      { size := m.size, head := m.head, start := m.start, stop := m.stop }
      (putVarintField 0x08 m.size ++ putVarintField 0x10 m.head ++ putVarintField 0x18 m.start ++ putVarintField 0x20 m.stop)
      []
      (by decide) (by decide) (by decide) (fun _ _ => rfl) rfl
    simp only [List.nil_append, List.append_assoc, List.append_nil, List.length_nil] at r1 r2 r3 r4 r5
    simp only [Meta.encode, List.append_assoc]
    exact r1.trans (r2.trans (r3.trans (r4.trans r5)))
  · simp only [Meta.encode, Meta.encSize, List.length_append, sizeVarintField_eq]

private theorem sizeBytesField_eq (tag : UInt8) (b : Bytes) : (putBytesField tag b).length = sizeBytesField b := by
  unfold putBytesField sizeBytesField
  split <;> simp [encodeVarint_length]; omega

private theorem sizeFixedField_eq (tag : UInt8) (v : BitVec 64) : (putFixedField tag v).length = if floatNonZero v then 9 else 0 := by
  unfold putFixedField
  split <;> simp [leBytes_length]

/-- **C06.** Decoding an encoded distribution record yields the same record, except that a negative-zero minimum or maximum reads back as zero; the
encoder writes exactly `Size` bytes. (The only hypothesis is that the encoding is shorter than 2^63 bytes, as every Go slice is.) -/
theorem C06_record_round_trip (m : DRec) (hlen : m.encode.length < 2 ^ 63) :
    DRec.decode m.encode = .ok { m with min := normZero m.min, max := normZero m.max } ∧ m.encode.length = m.encSize := by
  constructor
  · unfold DRec.decode DRec.decodeInto
    apply reaches_end _ _ _ _ 0 _ (by omega)
    simp only [DRec.encode, List.append_assoc] at hlen ⊢
    have r1 := putVarint_reaches DRec.field 0x08 m.startTime (fun v => { ({} : DRec) with startTime := ⟨⟨v⟩⟩ }) {} []
      (putVarintField 0x10 m.endTime ++ (putVarintField 0x18 m.observations ++ (putBytesField 0x22 m.distribution ++
        (putBytesField 0x2a m.kind ++ (putFixedField 0x31 m.min ++ (putFixedField 0x39 m.max ++ (putBytesField 0x42 m.minId ++
        (putBytesField 0x4a m.maxId ++ putVarintField 0x50 m.merged))))))))
      (by decide) (by decide) (by decide) (fun _ _ => rfl) rfl
    have r2 := putVarint_reaches DRec.field 0x10 m.endTime (fun v => { ({ startTime := m.startTime } : DRec) with endTime := ⟨⟨v⟩⟩ }) { startTime := m.startTime }
      (putVarintField 0x08 m.startTime)
      (putVarintField 0x18 m.observations ++ (putBytesField 0x22 m.distribution ++
        (putBytesField 0x2a m.kind ++ (putFixedField 0x31 m.min ++ (putFixedField 0x39 m.max ++ (putBytesField 0x42 m.minId ++
        (putBytesField 0x4a m.maxId ++ putVarintField 0x50 m.merged)))))))
      (by decide) (by decide) (by decide) (fun _ _ => rfl) rfl
    have r3 := putVarint_reaches DRec.field 0x18 m.observations
      (fun v => { ({ startTime := m.startTime, endTime := m.endTime } : DRec) with observations := ⟨⟨v⟩⟩ })
      { startTime := m.startTime, endTime := m.endTime }
      (putVarintField 0x08 m.startTime ++ putVarintField 0x10 m.endTime)
      (putBytesField 0x22 m.distribution ++
        (putBytesField 0x2a m.kind ++ (putFixedField 0x31 m.min ++ (putFixedField 0x39 m.max ++ (putBytesField 0x42 m.minId ++
        (putBytesField 0x4a m.maxId ++ putVarintField 0x50 m.merged))))))
      (by decide) (by decide) (by decide) (fun _ _ => rfl) rfl
    have r4 := putBytes_reaches DRec.field 0x22 m.distribution
      (fun v => { ({ startTime := m.startTime, endTime := m.endTime, observations := m.observations } : DRec) with distribution := v })
      { startTime := m.startTime, endTime := m.endTime, observations := m.observations }
      (putVarintField 0x08 m.startTime ++ putVarintField 0x10 m.endTime ++ putVarintField 0x18 m.observations)
      (putBytesField 0x2a m.kind ++ (putFixedField 0x31 m.min ++ (putFixedField 0x39 m.max ++ (putBytesField 0x42 m.minId ++
        (putBytesField 0x4a m.maxId ++ putVarintField 0x50 m.merged)))))
      (by decide) (by decide) (by decide) (by simp only [List.append_assoc]; exact hlen) (fun _ _ => rfl) rfl
    have r5 := putBytes_reaches DRec.field 0x2a m.kind
      (fun v => { ({ startTime := m.startTime, endTime := m.endTime, observations := m.observations,
                     distribution := m.distribution } : DRec) with kind := v })
      { startTime := m.startTime, endTime := m.endTime, observations := m.observations, distribution := m.distribution }
      (putVarintField 0x08 m.startTime ++ putVarintField 0x10 m.endTime ++ putVarintField 0x18 m.observations ++
        putBytesField 0x22 m.distribution)
      (putFixedField 0x31 m.min ++ (putFixedField 0x39 m.max ++ (putBytesField 0x42 m.minId ++
        (putBytesField 0x4a m.maxId ++ putVarintField 0x50 m.merged))))
      (by decide) (by decide) (by decide) (by simp only [List.append_assoc]; exact hlen) (fun _ _ => rfl) rfl
    have r6 := putFixed_reaches DRec.field 0x31 m.min
      (fun v => { ({ startTime := m.startTime, endTime := m.endTime, observations := m.observations,
                     distribution := m.distribution, kind := m.kind } : DRec) with min := v })
      { startTime := m.startTime, endTime := m.endTime, observations := m.observations, distribution := m.distribution, kind := m.kind }
      (putVarintField 0x08 m.startTime ++ putVarintField 0x10 m.endTime ++ putVarintField 0x18 m.observations ++
        putBytesField 0x22 m.distribution ++ putBytesField 0x2a m.kind)
      (putFixedField 0x39 m.max ++ (putBytesField 0x42 m.minId ++
        (putBytesField 0x4a m.maxId ++ putVarintField 0x50 m.merged)))
      (by decide) (by decide) (by decide) (fun _ _ => rfl) rfl
    have r7 := putFixed_reaches DRec.field 0x39 m.max
      (fun v => { ({ startTime := m.startTime, endTime := m.endTime, observations := m.observations,
                     distribution := m.distribution, kind := m.kind, min := normZero m.min } : DRec) with max := v })
      { startTime := m.startTime, endTime := m.endTime, observations := m.observations, distribution := m.distribution, kind := m.kind,
        min := normZero m.min }
      (putVarintField 0x08 m.startTime ++ putVarintField 0x10 m.endTime ++ putVarintField 0x18 m.observations ++
        putBytesField 0x22 m.distribution ++ putBytesField 0x2a m.kind ++ putFixedField 0x31 m.min)
      (putBytesField 0x42 m.minId ++ (putBytesField 0x4a m.maxId ++ putVarintField 0x50 m.merged))
      (by decide) (by decide) (by decide) (fun _ _ => rfl) rfl
    have r8 := putBytes_reaches DRec.field 0x42 m.minId
      (fun v => { ({ startTime := m.startTime, endTime := m.endTime, observations := m.observations,
                     distribution := m.distribution, kind := m.kind, min := normZero m.min, max := normZero m.max } : DRec) with minId := v })
      { startTime := m.startTime, endTime := m.endTime, observations := m.observations, distribution := m.distribution, kind := m.kind,
        min := normZero m.min, max := normZero m.max }
      (putVarintField 0x08 m.startTime ++ putVarintField 0x10 m.endTime ++ putVarintField 0x18 m.observations ++
        putBytesField 0x22 m.distribution ++ putBytesField 0x2a m.kind ++ putFixedField 0x31 m.min ++ putFixedField 0x39 m.max)
      (putBytesField 0x4a m.maxId ++ putVarintField 0x50 m.merged)
      (by decide) (by decide) (by decide) (by simp only [List.append_assoc]; exact hlen) (fun _ _ => rfl) rfl
    have r9 := putBytes_reaches DRec.field 0x4a m.maxId
      (fun v => { ({ startTime := m.startTime, endTime := m.endTime, observations := m.observations,
                     distribution := m.distribution, kind := m.kind, min := normZero m.min, max := normZero m.max, minId := m.minId } : DRec) with maxId := v })
      { startTime := m.startTime, endTime := m.endTime, observations := m.observations, distribution := m.distribution, kind := m.kind,
        min := normZero m.min, max := normZero m.max, minId := m.minId }
      (putVarintField 0x08 m.startTime ++ putVarintField 0x10 m.endTime ++ putVarintField 0x18 m.observations ++
        putBytesField 0x22 m.distribution ++ putBytesField 0x2a m.kind ++ putFixedField 0x31 m.min ++ putFixedField 0x39 m.max ++
        putBytesField 0x42 m.minId)
      (putVarintField 0x50 m.merged)
      (by decide) (by decide) (by decide) (by simp only [List.append_assoc]; exact hlen) (fun _ _ => rfl) rfl
    have r10 := putVarint_reaches DRec.field 0x50 m.merged
      (fun v => { ({ startTime := m.startTime, endTime := m.endTime, observations := m.observations,
                     distribution := m.distribution, kind := m.kind, min := normZero m.min, max := normZero m.max, minId := m.minId,
                     maxId := m.maxId } : DRec) with merged := ⟨⟨v⟩⟩ })
      { startTime := m.startTime, endTime := m.endTime, observations := m.observations, distribution := m.distribution, kind := m.kind,
        min := normZero m.min, max := normZero m.max, minId := m.minId, maxId := m.maxId }
      (putVarintField 0x08 m.startTime ++ putVarintField 0x10 m.endTime ++ putVarintField 0x18 m.observations ++
        putBytesField 0x22 m.distribution ++ putBytesField 0x2a m.kind ++ putFixedField 0x31 m.min ++ putFixedField 0x39 m.max ++
        putBytesField 0x42 m.minId ++ putBytesField 0x4a m.maxId)
      []
      (by decide) (by decide) (by decide) (fun _ _ => rfl) rfl
    simp only [List.nil_append, List.append_assoc, List.append_nil, List.length_nil] at r1 r2 r3 r4 r5 r6 r7 r8 r9 r10
    exact r1.trans (r2.trans (r3.trans (r4.trans (r5.trans (r6.trans (r7.trans (r8.trans (r9.trans r10))))))))
  · simp only [DRec.encode, DRec.encSize, List.length_append, sizeVarintField_eq, sizeBytesField_eq, sizeFixedField_eq]

/-- Non-vacuity: a record with all fields set (min 2.0, max -0.0). -/
example : (DRec.mk 5 (-9) 3 [1, 2, 3] [116] (0x4000000000000000#64) (0x8000000000000000#64) [7] [8] 2).encode.length < 2 ^ 63 := by
  decide +kernel

end Rothko
