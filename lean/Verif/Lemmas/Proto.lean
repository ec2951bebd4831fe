import Verif.Model.Proto
/-! Helper lemmas on varints and the generated unmarshalling loop. -/
namespace Rothko

theorem encodeVarintLoop_length (n : Nat) (v : BitVec 64) : (encodeVarintLoop n v).length = sovLoop n v := by
  induction n generalizing v with
  | zero => rfl
  | succ n ih =>
    unfold encodeVarintLoop sovLoop
    by_cases h : v ≥ 128#64
    · have h2 : ¬ (v >>> 7 = 0#64) := by
        intro h0
        have := congrArg BitVec.toNat h0
        simp only [BitVec.toNat_ushiftRight, Nat.shiftRight_eq_div_pow] at this
        have h3 : 128 ≤ v.toNat := by simpa [BitVec.le_def] using h
        simp at this
        omega
      rw [if_pos h, if_neg h2, List.length_cons, ih]; omega
    · have h2 : v >>> 7 = 0#64 := by
        apply BitVec.eq_of_toNat_eq
        have h3 : ¬ 128 ≤ v.toNat := by simpa [BitVec.le_def] using h
        simp only [BitVec.toNat_ushiftRight, Nat.shiftRight_eq_div_pow]
        simp; omega
      rw [if_neg h, if_pos h2]; rfl

theorem encodeVarint_length (v : BitVec 64) : (encodeVarint v).length = sov v := encodeVarintLoop_length 9 v

theorem encodeVarint_pos (v : BitVec 64) : 0 < (encodeVarint v).length := by
  unfold encodeVarint encodeVarintLoop; split <;> simp

theorem byteAt_append (p : Bytes) (b : UInt8) (t : Bytes) : byteAt (p ++ b :: t) p.length = .ok b := by
  unfold byteAt
  rw [if_neg (by simp; omega), if_neg (by omega)]
  simp

/-- low seven bits -/
theorem and_7f_bits (v : BitVec 64) (i : Nat) : (v &&& 0x7f#64).getLsbD i = (v.getLsbD i && decide (i < 7)) := by
  rw [BitVec.getLsbD_and]
  congr 1
  by_cases h : i < 64
  · have : ∀ j : Fin 64, (0x7f#64).getLsbD j = decide (j.val < 7) := by decide
    exact this ⟨i, h⟩
  · rw [BitVec.getLsbD_of_ge _ _ (by omega)]
    symm; simp; omega

theorem readVarintLoop_encode (n shift : Nat) (acc v : BitVec 64) (p rest : Bytes) (hs : shift + 7 * (n + 1) = 70)
    (hv : v.toNat < 2 ^ (64 - shift)) :
    readVarintLoop (p ++ (encodeVarintLoop n v ++ rest)) (n + 1) shift acc p.length
      = .ok (acc ||| (v <<< shift), ((p ++ encodeVarintLoop n v).length : Nat)) := by
  induction n generalizing shift acc v p with
  | zero =>
    have hs : shift = 63 := by omega
    subst hs
    have hv : v.toNat < 2 := by simpa using hv
    have e1 : encodeVarintLoop 0 v = [UInt8.ofBitVec (v.setWidth 8)] := rfl
    rw [e1, readVarintLoop, List.singleton_append, byteAt_append]
    simp only [Outcome.ok_bind, Outcome.pure_eq]
    rw [if_pos]
    · have e : ((UInt8.ofBitVec (v.setWidth 8)).toBitVec.setWidth 64 &&& 0x7f#64) = v := by
        apply BitVec.eq_of_getLsbD_eq
        intro i hi
        rw [and_7f_bits]
        simp only [BitVec.getLsbD_setWidth, hi]
        by_cases h7 : i < 7
        · simp [h7, show i < 8 by omega]
        · have : v.getLsbD i = false := by
            apply BitVec.getLsbD_of_lt_two_pow'
            calc v.toNat < 2 := hv
              _ ≤ 2 ^ i := by
                have := Nat.pow_le_pow_right (n := 2) (by omega) (show 1 ≤ i by omega)
                simpa using this
          simp [h7, this]
      rw [e]; simp
    · show (UInt8.ofBitVec (v.setWidth 8)).toNat < 128
      have : (UInt8.ofBitVec (v.setWidth 8)).toNat = v.toNat % 256 := by simp [UInt8.toNat]
      omega
  | succ n ih =>
    rw [readVarintLoop]
    unfold encodeVarintLoop
    by_cases hge : v ≥ 128#64
    · have hge' : 128 ≤ v.toNat := by simpa [BitVec.le_def] using hge
      rw [if_pos hge, List.cons_append, byteAt_append]
      simp only [Outcome.ok_bind, Outcome.pure_eq]
      have hb : ¬ (UInt8.ofBitVec ((v &&& 0x7f#64 ||| 0x80#64).setWidth 8) < 0x80) := by
        show ¬ (UInt8.ofBitVec ((v &&& 0x7f#64 ||| 0x80#64).setWidth 8)).toNat < 128
        have h8 : ((v &&& 0x7f#64 ||| 0x80#64).setWidth 8).getLsbD 7 = true := by
          simp only [BitVec.getLsbD_setWidth, BitVec.getLsbD_or]
          have : (0x80#64).getLsbD 7 = true := by decide
          rw [this]; simp
        have : 2 ^ 7 ≤ ((v &&& 0x7f#64 ||| 0x80#64).setWidth 8).toNat := by
          apply Nat.ge_two_pow_of_testBit
          exact h8
        have e : (UInt8.ofBitVec ((v &&& 0x7f#64 ||| 0x80#64).setWidth 8)).toNat
          = ((v &&& 0x7f#64 ||| 0x80#64).setWidth 8).toNat := rfl
        omega
      rw [if_neg hb]
      have e : ((UInt8.ofBitVec ((v &&& 0x7f#64 ||| 0x80#64).setWidth 8)).toBitVec.setWidth 64 &&& 0x7f#64)
          = v &&& 0x7f#64 := by
        apply BitVec.eq_of_getLsbD_eq
        intro i hi
        rw [and_7f_bits, and_7f_bits]
        by_cases h7 : i < 7
        · simp only [BitVec.getLsbD_setWidth, BitVec.getLsbD_or, and_7f_bits]
          have : ∀ j : Fin 7, (0x80#64).getLsbD j = false := by decide
          rw [this ⟨i, h7⟩]
          simp [h7, hi, show i < 8 by omega]
        · simp [h7]
      rw [e]
      have hsh : shift < 57 := by
        apply Decidable.byContradiction
        intro hc
        have : 2 ^ (64 - shift) ≤ 2 ^ 7 := Nat.pow_le_pow_right (by omega) (by omega)
        omega
      have hpre : p ++ UInt8.ofBitVec ((v &&& 0x7f#64 ||| 0x80#64).setWidth 8) :: (encodeVarintLoop n (v >>> 7) ++ rest)
          = (p ++ [UInt8.ofBitVec ((v &&& 0x7f#64 ||| 0x80#64).setWidth 8)]) ++ (encodeVarintLoop n (v >>> 7) ++ rest) := by
        simp
      have hlen : (p.length : Int) + 1
          = ((p ++ [UInt8.ofBitVec ((v &&& 0x7f#64 ||| 0x80#64).setWidth 8)]).length : Nat) := by simp
      rw [hpre, hlen, ih (shift + 7) _ (v >>> 7) _ (by omega)]
      · congr 2
        · rw [BitVec.or_assoc]
          congr 1
          apply BitVec.eq_of_getLsbD_eq
          intro i hi
          simp only [BitVec.getLsbD_or, BitVec.getLsbD_shiftLeft, BitVec.getLsbD_ushiftRight, and_7f_bits, hi]
          by_cases h1 : i < shift
          · simp [h1, show i < shift + 7 by omega]
          · by_cases h2 : i < shift + 7
            · simp [h1, h2, show i - shift < 7 by omega]
            · have : 7 + (i - (shift + 7)) = i - shift := by omega
              simp [h1, h2, show ¬ (i - shift < 7) by omega, this]
        · simp
      · rw [BitVec.toNat_ushiftRight, Nat.shiftRight_eq_div_pow]
        rw [Nat.div_lt_iff_lt_mul (by omega), ← Nat.pow_add]
        rw [show 64 - (shift + 7) + 7 = 64 - shift by omega]
        exact hv
    · have hlt : v.toNat < 128 := by
        have : ¬ 128 ≤ v.toNat := by simpa [BitVec.le_def] using hge
        omega
      rw [if_neg hge, List.singleton_append, byteAt_append]
      simp only [Outcome.ok_bind, Outcome.pure_eq]
      rw [if_pos]
      · have e : ((UInt8.ofBitVec (v.setWidth 8)).toBitVec.setWidth 64 &&& 0x7f#64) = v := by
          apply BitVec.eq_of_getLsbD_eq
          intro i hi
          rw [and_7f_bits]
          simp only [BitVec.getLsbD_setWidth, hi]
          by_cases h7 : i < 7
          · simp [h7, show i < 8 by omega]
          · have : v.getLsbD i = false := by
              apply BitVec.getLsbD_of_lt_two_pow'
              calc v.toNat < 2 ^ 7 := hlt
                _ ≤ 2 ^ i := Nat.pow_le_pow_right (by omega) (by omega)
            simp [h7, this]
        rw [e]; simp
      · show (UInt8.ofBitVec (v.setWidth 8)).toNat < 128
        have : (UInt8.ofBitVec (v.setWidth 8)).toNat = v.toNat % 256 := by simp [UInt8.toNat]
        omega
where
  BitVec.getLsbD_of_lt_two_pow' {v : BitVec 64} {i : Nat} (h : v.toNat < 2 ^ i) : v.getLsbD i = false := by
    exact Nat.testBit_lt_two_pow h

/-- Reading back an encoded varint at its position. -/
theorem readVarint_encode (v : BitVec 64) (p rest : Bytes) :
    readVarint (p ++ (encodeVarint v ++ rest)) p.length = .ok (v, ((p ++ encodeVarint v).length : Nat)) := by
  have := readVarintLoop_encode 9 0 0#64 v p rest (by omega) (by have := v.isLt; simpa using this)
  simpa [readVarint, encodeVarint] using this

/-- A one-byte tag. -/
theorem readVarint_tag (tag : UInt8) (h : tag < 0x80) (p rest : Bytes) :
    readVarint (p ++ (tag :: rest)) p.length = .ok (tag.toBitVec.setWidth 64, (p.length + 1 : Nat)) := by
  unfold readVarint readVarintLoop
  rw [byteAt_append]
  simp only [Outcome.ok_bind, Outcome.pure_eq]
  rw [if_pos h]
  congr 2
  have : ∀ t : Fin 128, (0#64 ||| ((UInt8.ofNat t.val).toBitVec.setWidth 64 &&& 0x7f#64) <<< 0)
      = (UInt8.ofNat t.val).toBitVec.setWidth 64 := by decide +kernel
  have h' : tag.toNat < 128 := h
  have h3 := this ⟨tag.toNat, h'⟩
  simpa using h3

/-- Reaching: parsing from `(m, i)` continues as parsing from `(m', i')`, whatever sufficient fuel is given. -/
def Reaches (field : σ → Int → Nat → Bytes → Int → Option (Outcome (σ × Int))) (d : Bytes) (m : σ) (i : Nat) (m' : σ) (i' : Nat) : Prop :=
  ∀ fuel, d.length < i + fuel → ∃ fuel', d.length < i' + fuel' ∧
    unmarshalLoop field d fuel m i = unmarshalLoop field d fuel' m' i'

theorem Reaches.refl {field : σ → Int → Nat → Bytes → Int → Option (Outcome (σ × Int))} {d : Bytes} {m : σ} {i : Nat} :
    Reaches field d m i m i := fun fuel h => ⟨fuel, h, rfl⟩

theorem Reaches.trans {field : σ → Int → Nat → Bytes → Int → Option (Outcome (σ × Int))} {d : Bytes} {m m' m'' : σ} {i i' i'' : Nat}
    (h1 : Reaches field d m i m' i') (h2 : Reaches field d m' i' m'' i'') : Reaches field d m i m'' i'' := by
  intro fuel h
  obtain ⟨f', h', e'⟩ := h1 fuel h
  obtain ⟨f'', h'', e''⟩ := h2 f' h'
  exact ⟨f'', h'', e'.trans e''⟩

/-- One known field: tag byte, then whatever the handler consumes. -/
theorem reaches_field (field : σ → Int → Nat → Bytes → Int → Option (Outcome (σ × Int))) (p body rest : Bytes) (tag : UInt8) (m m' : σ)
    (htag : tag < 0x80) (hwt : tag.toNat % 8 ≠ 4) (hnum : 8 ≤ tag.toNat)
    (hf : field m (tag.toNat / 8 : Nat) (tag.toNat % 8) (p ++ (tag :: (body ++ rest))) (p.length + 1 : Nat)
      = some (.ok (m', ((p ++ tag :: body).length : Nat)))) :
    Reaches field (p ++ (tag :: (body ++ rest))) m p.length m' (p ++ tag :: body).length := by
  intro fuel hfuel
  match fuel, hfuel with
  | 0, hfuel => simp at hfuel; omega
  | fuel + 1, hfuel =>
  refine ⟨fuel, by simp at hfuel ⊢; omega, ?_⟩
  rw [unmarshalLoop]
  rw [if_pos (by simp; omega), readVarint_tag tag htag]
  simp only [Outcome.ok_bind]
  have htag' : tag.toNat < 128 := htag
  have e1 : (tag.toBitVec.setWidth 64 &&& 7#64).toNat = tag.toNat % 8 := by
    have : ∀ t : Fin 128, ((UInt8.ofNat t.val).toBitVec.setWidth 64 &&& 7#64).toNat = t.val % 8 := by decide +kernel
    have := this ⟨tag.toNat, htag'⟩
    simpa using this
  have e2 : (tag.toBitVec.setWidth 64 >>> 3).toNat = tag.toNat / 8 := by
    have : ∀ t : Fin 128, ((UInt8.ofNat t.val).toBitVec.setWidth 64 >>> 3).toNat = t.val / 8 := by decide +kernel
    have := this ⟨tag.toNat, htag'⟩
    simpa using this
  have e3 : Int.bmod ((tag.toNat / 8 : Nat) : Int) (2 ^ 32) = (tag.toNat / 8 : Nat) := by
    apply Int.bmod_eq_of_le <;> omega
  rw [e1, e2, e3, if_neg hwt, if_neg (by omega), hf]
  rfl

theorem reaches_end (field : σ → Int → Nat → Bytes → Int → Option (Outcome (σ × Int))) (d : Bytes) (m m' : σ) (i : Nat) (fuel : Nat)
    (hfuel : d.length < i + fuel) (h : Reaches field d m i m' d.length) :
    unmarshalLoop field d fuel m i = .ok m' := by
  obtain ⟨f, hf, e⟩ := h fuel hfuel
  rw [e]
  match f, hf with
  | 0, hf => omega
  | f + 1, _ => rw [unmarshalLoop, if_neg (by omega), if_neg (by omega)]

theorem varintField_encode (set : BitVec 64 → σ) (v : BitVec 64) (p rest : Bytes) :
    varintField set 0 (p ++ (encodeVarint v ++ rest)) p.length = .ok (set v, ((p ++ encodeVarint v).length : Nat)) := by
  simp only [varintField, ne_eq, not_true_eq_false, if_false, readVarint_encode, Outcome.ok_bind, Outcome.pure_eq]

theorem bytesField_encode (set : Bytes → σ) (b p rest : Bytes)
    (hlen : (p ++ (encodeVarint (BitVec.ofNat 64 b.length) ++ (b ++ rest))).length < 2 ^ 63) :
    bytesField set 2 (p ++ (encodeVarint (BitVec.ofNat 64 b.length) ++ (b ++ rest))) p.length
      = .ok (set b, ((p ++ (encodeVarint (BitVec.ofNat 64 b.length) ++ b)).length : Nat)) := by
  simp only [bytesField, ne_eq, not_true_eq_false, if_false, readVarint_encode, Outcome.ok_bind, Outcome.pure_eq]
  simp only [List.length_append] at hlen
  have e : (BitVec.ofNat 64 b.length).toInt = b.length := by
    rw [BitVec.toInt_eq_toNat_bmod, BitVec.toNat_ofNat, Nat.mod_eq_of_lt (by omega)]
    apply Int.bmod_eq_of_le <;> omega
  rw [e, if_neg (by omega)]
  have e2 : wrap64 (((p ++ encodeVarint (BitVec.ofNat 64 b.length)).length : Nat) + (b.length : Int))
      = ((p ++ (encodeVarint (BitVec.ofNat 64 b.length) ++ b)).length : Nat) := by
    simp only [List.length_append]
    rw [wrap64, Int.bmod_eq_of_le] <;> omega
  rw [e2, if_neg (by simp only [List.length_append]; omega), if_neg (by simp only [List.length_append]; omega)]
  simp only [Int.toNat_natCast]
  have : p ++ (encodeVarint (BitVec.ofNat 64 b.length) ++ (b ++ rest))
    = (p ++ (encodeVarint (BitVec.ofNat 64 b.length) ++ b)) ++ rest := by simp
  rw [this, List.take_left, ← List.append_assoc, List.drop_left]

theorem leNat_leBytes (n x : Nat) : leNat (leBytes n x) = x % 256 ^ n := by
  induction n generalizing x with
  | zero => simp [leBytes, leNat]; omega
  | succ n ih =>
    rw [leBytes, leNat, ih, Nat.pow_succ, Nat.mul_comm (256 ^ n), Nat.mod_mul]
    simp

theorem leBytes_length (n x : Nat) : (leBytes n x).length = n := by
  induction n generalizing x with
  | zero => rfl
  | succ n ih => simp [leBytes, ih]

theorem fixed64Field_encode (set : BitVec 64 → σ) (v : BitVec 64) (p rest : Bytes) :
    fixed64Field set 1 (p ++ (leBytes 8 v.toNat ++ rest)) p.length
      = .ok (set v, ((p ++ leBytes 8 v.toNat).length : Nat)) := by
  unfold fixed64Field
  have h8 := leBytes_length 8 v.toNat
  rw [if_neg (by omega), if_neg (by simp only [List.length_append, h8]; omega)]
  simp only [Int.toNat_natCast, List.drop_left, Outcome.pure_eq]
  have : (leBytes 8 v.toNat ++ rest).take 8 = leBytes 8 v.toNat := by
    conv => lhs; rw [← h8]
    rw [h8]; exact List.take_left' h8
  rw [this, leNat_leBytes, Nat.mod_eq_of_lt (by have := v.isLt; simpa using this)]
  simp [h8]

end Rothko
