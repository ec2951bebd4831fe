import Verif.Spec.Wire
import Verif.Lemmas.Proto
/-! The decoders against the wire format. -/
namespace Rothko

theorem leb_eq_aux (n : Nat) (v : BitVec 64) (hv : v.toNat < 2 ^ (7 * (n + 1))) : encodeVarintLoop n v = leb v.toNat := by
  induction n generalizing v with
  | zero =>
    have h : v.toNat < 128 := by simpa using hv
    rw [leb, if_pos h, encodeVarintLoop]
    rfl
  | succ n ih =>
    rw [leb, encodeVarintLoop]
    by_cases h : v.toNat < 128
    · rw [if_pos h, if_neg (by show ¬ (128 ≤ v.toNat); omega)]
      rfl
    · rw [if_neg h, if_pos (by show 128 ≤ v.toNat; omega)]
      congr 1
      · apply UInt8.toNat_inj.mp
        have e1 : (v &&& 127#64).toNat = v.toNat % 128 := by
          rw [BitVec.toNat_and]; exact Nat.and_two_pow_sub_one_eq_mod v.toNat 7
        have e2 : (v &&& 127#64 ||| 128#64).toNat = v.toNat % 128 + 128 := by
          rw [BitVec.toNat_or, e1]
          have : (v.toNat % 128) ||| 128 = 128 + v.toNat % 128 := by
            rw [Nat.or_comm]
            exact (Nat.two_pow_add_eq_or_of_lt (i := 7) (by omega) 1).symm
          rw [show (128#64).toNat = 128 from rfl, this]; omega
        show ((v &&& 127#64 ||| 128#64).setWidth 8).toNat = _
        rw [BitVec.toNat_setWidth, e2, UInt8.toNat_ofNat']
      · rw [ih (v >>> 7) (by
          rw [BitVec.toNat_ushiftRight, Nat.shiftRight_eq_div_pow]
          rw [Nat.div_lt_iff_lt_mul (by omega)]
          calc v.toNat < 2 ^ (7 * (n + 1 + 1)) := hv
            _ = 2 ^ (7 * (n + 1)) * 2 ^ 7 := by rw [← Nat.pow_add]; congr 1)]
        rw [BitVec.toNat_ushiftRight, Nat.shiftRight_eq_div_pow]

theorem leb_eq (v : BitVec 64) : encodeVarint v = leb v.toNat :=
  leb_eq_aux 9 v (by have := v.isLt; omega)

theorem leb_ofNat (n : Nat) (h : n < 18446744073709551616) : leb n = encodeVarint (BitVec.ofNat 64 n) := by
  rw [leb_eq, BitVec.toNat_ofNat, Nat.mod_eq_of_lt h]

theorem leb_pos (n : Nat) : 0 < (leb n).length := by
  rw [leb]; split <;> simp

theorem readVarint_leb (n : Nat) (h : n < 18446744073709551616) (p rest : Bytes) :
    readVarint (p ++ (leb n ++ rest)) p.length = .ok (BitVec.ofNat 64 n, ((p.length + (leb n).length : Nat) : Int)) := by
  rw [leb_ofNat n h, readVarint_encode, List.length_append]

theorem tag_parts (n k : Nat) (hn : n < 536870912) (hk : k < 8) :
    (BitVec.ofNat 64 (n * 8 + k) &&& 7#64).toNat = k ∧ Int.bmod ((BitVec.ofNat 64 (n * 8 + k)) >>> 3).toNat (2 ^ 32) = n := by
  have e : (BitVec.ofNat 64 (n * 8 + k)).toNat = n * 8 + k := by rw [BitVec.toNat_ofNat, Nat.mod_eq_of_lt (by omega)]
  constructor
  · rw [BitVec.toNat_and, e]
    have := Nat.and_two_pow_sub_one_eq_mod (n * 8 + k) 3
    rw [show (7#64).toNat = 2 ^ 3 - 1 from rfl, this]
    omega
  · rw [BitVec.toNat_ushiftRight, e, Nat.shiftRight_eq_div_pow, show (n * 8 + k) / 2 ^ 3 = n by omega]
    apply Int.bmod_eq_of_le <;> omega

theorem wrap_small (x : Int) (h0 : 0 ≤ x) (h1 : x < 2 ^ 62) : wrap64 x = x := by
  unfold wrap64; apply Int.bmod_eq_of_le <;> omega

theorem WireField.length {n : Nat} {b : Bytes} (h : WireField n b) : 2 ≤ b.length ∧ 1 ≤ n ∧ n < 536870912 ∧
    ∃ k body, k < 8 ∧ k ≠ 4 ∧ b = wireTag n k ++ body := by
  have ht := fun k => leb_pos (n * 8 + k)
  cases h with
  | varint n v hn hv => have := leb_pos v; have := ht 0; exact ⟨by simp only [wireTag, List.length_append]; omega, hn.1, hn.2, 0, _, by omega, by omega, rfl⟩
  | fixed64 n b hn hb => have := ht 1; exact ⟨by simp only [wireTag, List.length_append]; omega, hn.1, hn.2, 1, _, by omega, by omega, rfl⟩
  | bytes n b hn => have := leb_pos b.length; have := ht 2; exact ⟨by simp only [wireTag, List.length_append]; omega, hn.1, hn.2, 2, _, by omega, by omega, rfl⟩
  | group n body hn h =>
    have := ht 3; have := ht 4
    exact ⟨by simp only [wireTag, List.length_append]; omega, hn.1, hn.2, 3, _, by omega, by omega, rfl⟩
  | fixed32 n b hn hb => have := ht 5; exact ⟨by simp only [wireTag, List.length_append]; omega, hn.1, hn.2, 5, _, by omega, by omega, rfl⟩

theorem int_of_len (n : Nat) (h : n < 2 ^ 62) : (BitVec.ofNat 64 n).toInt = n := by
  rw [BitVec.toInt_eq_toNat_bmod, BitVec.toNat_ofNat, Nat.mod_eq_of_lt (by omega)]
  apply Int.bmod_eq_of_le <;> omega

/-- Skipping a complete field advances exactly to its end. -/
theorem skip_wire {n : Nat} {b : Bytes} (h : WireField n b) : ∀ (rest : Bytes) (fuel : Nat), b.length ≤ fuel → (b ++ rest).length < 2 ^ 62 →
    skipField fuel (b ++ rest) = .ok b.length := by
  refine WireField.rec (motive_1 := fun n b _ => ∀ (rest : Bytes) (fuel : Nat), b.length ≤ fuel → (b ++ rest).length < 2 ^ 62 →
      skipField fuel (b ++ rest) = .ok b.length)
    (motive_2 := fun body _ => ∀ (p : Bytes) (n : Nat) (rest : Bytes) (fuel : Nat), n < 536870912 → body.length + 1 ≤ fuel →
      (p ++ (body ++ (wireTag n 4 ++ rest))).length < 2 ^ 62 →
      skipGroup fuel (p ++ (body ++ (wireTag n 4 ++ rest))) p.length = .ok ((p.length + body.length + (wireTag n 4).length : Nat) : Int))
    ?_ ?_ ?_ ?_ ?_ ?_ ?_ h
  · intro n v hn hv rest fuel hf hl
    obtain ⟨t1, t2⟩ := tag_parts n 0 hn.2 (by omega)
    have hp := leb_pos (n * 8 + 0)
    match fuel, hf with
    | 0, hf => simp only [wireTag, List.length_append] at hf; omega
    | fuel + 1, hf =>
      rw [skipField, if_neg (by simp only [wireTag, List.length_append]; omega)]
      simp only [wireTag, List.append_assoc]
      have r1 := readVarint_leb (n * 8 + 0) (by omega) [] (leb v ++ rest)
      simp only [List.nil_append, List.length_nil, Nat.zero_add] at r1
      rw [show ((0 : Nat) : Int) = 0 from rfl] at r1
      rw [r1]
      simp only [Outcome.ok_bind, t1]
      rw [readVarint_leb v hv (leb (n * 8 + 0)) rest]
      simp only [Outcome.ok_bind, Outcome.pure_eq, List.length_append]
  · intro n b hn hb rest fuel hf hl
    obtain ⟨t1, t2⟩ := tag_parts n 1 hn.2 (by omega)
    have hp := leb_pos (n * 8 + 1)
    match fuel, hf with
    | 0, hf => simp only [wireTag, List.length_append] at hf; omega
    | fuel + 1, hf =>
      rw [skipField, if_neg (by simp only [wireTag, List.length_append]; omega)]
      simp only [wireTag, List.append_assoc, List.length_append] at hl ⊢
      have r1 := readVarint_leb (n * 8 + 1) (by omega) [] (b ++ rest)
      simp only [List.nil_append, List.length_nil, Nat.zero_add] at r1
      rw [show ((0 : Nat) : Int) = 0 from rfl] at r1
      rw [r1]
      simp only [Outcome.ok_bind, t1, Outcome.pure_eq]
      rw [wrap_small _ (by omega) (by omega), hb]
      rfl
  · intro n b hn rest fuel hf hl
    obtain ⟨t1, t2⟩ := tag_parts n 2 hn.2 (by omega)
    have hp := leb_pos (n * 8 + 2)
    match fuel, hf with
    | 0, hf => simp only [wireTag, List.length_append] at hf; omega
    | fuel + 1, hf =>
      rw [skipField, if_neg (by simp only [wireTag, List.length_append]; omega)]
      simp only [wireTag, List.append_assoc, List.length_append] at hl ⊢
      have r1 := readVarint_leb (n * 8 + 2) (by omega) [] (leb b.length ++ (b ++ rest))
      simp only [List.nil_append, List.length_nil, Nat.zero_add] at r1
      rw [show ((0 : Nat) : Int) = 0 from rfl] at r1
      rw [r1]
      simp only [Outcome.ok_bind, t1]
      rw [readVarint_leb b.length (by omega) (leb (n * 8 + 2)) (b ++ rest)]
      simp only [Outcome.ok_bind, Outcome.pure_eq]
      rw [int_of_len _ (by omega), if_neg (by omega), wrap_small _ (by omega) (by omega)]
      exact congrArg Outcome.ok (by omega)
  · intro n body hn hbody ih rest fuel hf hl
    obtain ⟨t1, t2⟩ := tag_parts n 3 hn.2 (by omega)
    have hp := leb_pos (n * 8 + 3)
    have hp4 := leb_pos (n * 8 + 4)
    match fuel, hf with
    | 0, hf => simp only [wireTag, List.length_append] at hf; omega
    | fuel + 1, hf =>
      rw [skipField, if_neg (by simp only [wireTag, List.length_append]; omega)]
      have hl2 := hl
      simp only [wireTag, List.append_assoc, List.length_append] at hl hf ⊢
      have r1 := readVarint_leb (n * 8 + 3) (by omega) [] (body ++ (leb (n * 8 + 4) ++ rest))
      simp only [List.nil_append, List.length_nil, Nat.zero_add] at r1
      rw [show ((0 : Nat) : Int) = 0 from rfl] at r1
      rw [r1]
      simp only [Outcome.ok_bind, t1]
      have := ih (leb (n * 8 + 3)) n rest fuel hn.2 (by omega) (by simp only [wireTag, List.length_append]; omega)
      simp only [wireTag] at this
      rw [this]
      exact congrArg Outcome.ok (by omega)
  · intro n b hn hb rest fuel hf hl
    obtain ⟨t1, t2⟩ := tag_parts n 5 hn.2 (by omega)
    have hp := leb_pos (n * 8 + 5)
    match fuel, hf with
    | 0, hf => simp only [wireTag, List.length_append] at hf; omega
    | fuel + 1, hf =>
      rw [skipField, if_neg (by simp only [wireTag, List.length_append]; omega)]
      simp only [wireTag, List.append_assoc, List.length_append] at hl ⊢
      have r1 := readVarint_leb (n * 8 + 5) (by omega) [] (b ++ rest)
      simp only [List.nil_append, List.length_nil, Nat.zero_add] at r1
      rw [show ((0 : Nat) : Int) = 0 from rfl] at r1
      rw [r1]
      simp only [Outcome.ok_bind, t1, Outcome.pure_eq]
      rw [wrap_small _ (by omega) (by omega), hb]
      rfl
  · intro p n rest fuel hn hf hl
    obtain ⟨t1, t2⟩ := tag_parts n 4 hn (by omega)
    match fuel, hf with
    | fuel + 1, hf =>
      rw [skipGroup]
      simp only [wireTag, List.nil_append, List.length_nil]
      rw [readVarint_leb (n * 8 + 4) (by omega) p rest]
      simp only [Outcome.ok_bind, t1, if_true, Outcome.pure_eq, Nat.add_zero]
  · intro n b tl hb htl ih1 ih2 p m rest fuel hm hf hl
    obtain ⟨hb2, hn1, hn2, k, body, hk, hk4, hbk⟩ := hb.length
    obtain ⟨t1, t2⟩ := tag_parts n k hn2 hk
    simp only [List.length_append] at hf hl
    match fuel, hf with
    | fuel + 1, hf =>
      rw [skipGroup]
      have e1 : p ++ (b ++ tl ++ (wireTag m 4 ++ rest)) = p ++ (leb (n * 8 + k) ++ (body ++ (tl ++ (wireTag m 4 ++ rest)))) := by
        rw [hbk]; simp [wireTag]
      rw [show readVarint (p ++ (b ++ tl ++ (wireTag m 4 ++ rest))) p.length =
        .ok (BitVec.ofNat 64 (n * 8 + k), ((p.length + (leb (n * 8 + k)).length : Nat) : Int)) by rw [e1]; exact readVarint_leb _ (by omega) p _]
      simp only [Outcome.ok_bind, t1]
      rw [if_neg hk4]
      have e2 : (p ++ (b ++ tl ++ (wireTag m 4 ++ rest))).drop ((p.length : Nat) : Int).toNat = b ++ (tl ++ (wireTag m 4 ++ rest)) := by
        rw [Int.toNat_natCast, List.drop_left, List.append_assoc]
      rw [e2, ih1 _ fuel (by omega) (by simp only [List.length_append]; omega)]
      simp only [Outcome.ok_bind]
      rw [wrap_small _ (by omega) (by omega)]
      have := ih2 (p ++ b) m rest fuel hm (by omega) (by simp only [List.length_append]; omega)
      rw [show p ++ (b ++ tl ++ (wireTag m 4 ++ rest)) = p ++ b ++ (tl ++ (wireTag m 4 ++ rest)) by simp]
      rw [show ((p.length : Int) + (b.length : Int)) = ((p ++ b).length : Nat) by simp [List.length_append]]
      rw [this]
      simp only [List.length_append]
      exact congrArg Outcome.ok (by omega)

/-- One step of the decoder over a known field. -/
theorem reaches_known (field : σ → Int → Nat → Bytes → Int → Option (Outcome (σ × Int))) (p body rest : Bytes) (n k : Nat) (m m' : σ)
    (hn : 1 ≤ n ∧ n < 536870912) (hk : k < 8) (hk4 : k ≠ 4)
    (hf : field m n k (p ++ (wireTag n k ++ (body ++ rest))) ((p ++ wireTag n k).length : Nat)
      = some (.ok (m', ((p ++ (wireTag n k ++ body)).length : Nat)))) :
    Reaches field (p ++ (wireTag n k ++ (body ++ rest))) m p.length m' (p ++ (wireTag n k ++ body)).length := by
  have hp := leb_pos (n * 8 + k)
  intro fuel hfuel
  match fuel, hfuel with
  | 0, hfuel => simp only [List.length_append, wireTag] at hfuel; omega
  | fuel + 1, hfuel =>
  refine ⟨fuel, by simp only [List.length_append, wireTag] at hfuel ⊢; omega, ?_⟩
  obtain ⟨t1, t2⟩ := tag_parts n k hn.2 hk
  rw [unmarshalLoop, if_pos (by simp only [List.length_append, wireTag]; omega)]
  rw [show readVarint (p ++ (wireTag n k ++ (body ++ rest))) p.length = _ from readVarint_leb (n * 8 + k) (by omega) p (body ++ rest)]
  simp only [Outcome.ok_bind]
  rw [t1, t2, if_neg hk4, if_neg (by omega)]
  rw [show ((p.length + (leb (n * 8 + k)).length : Nat) : Int) = ((p ++ wireTag n k).length : Nat) by simp [wireTag], hf]
  rfl

private theorem loop_unknown (field : σ → Int → Nat → Bytes → Int → Option (Outcome (σ × Int))) (d : Bytes) (fuel : Nat) (m : σ) (i j s : Int) (w : BitVec 64)
    (hi : i < d.length) (h1 : readVarint d i = .ok (w, j)) (h4 : (w &&& 7#64).toNat ≠ 4) (hnum : ¬ Int.bmod (w >>> 3).toNat (2 ^ 32) ≤ 0)
    (hf : field m (Int.bmod (w >>> 3).toNat (2 ^ 32)) (w &&& 7#64).toNat d j = none)
    (f2 : Nat) (hf2 : f2 = 2 * d.length + 2) (hs : skipField f2 (d.drop i.toNat) = .ok s) (hs0 : ¬ s < 0) (hs1 : ¬ wrap64 (i + s) > d.length) :
    unmarshalLoop field d (fuel + 1) m i = unmarshalLoop field d fuel m (wrap64 (i + s)) := by
  rw [unmarshalLoop, if_pos hi, h1]
  simp only [Outcome.ok_bind]
  rw [if_neg h4, if_neg hnum, hf]
  simp only
  rw [← hf2, hs]
  simp only [Outcome.ok_bind]
  rw [if_neg hs0, if_neg hs1]

/-- One step of the decoder over a field with an unknown number. -/
theorem reaches_unknown (field : σ → Int → Nat → Bytes → Int → Option (Outcome (σ × Int))) (p b rest : Bytes) (n : Nat) (m : σ)
    (hb : WireField n b) (hf : ∀ k d i, field m n k d i = none) (hl : (p ++ (b ++ rest)).length < 2 ^ 62) :
    Reaches field (p ++ (b ++ rest)) m p.length m (p ++ b).length := by
  obtain ⟨hb2, hn1, hn2, k, body, hk, hk4, hbk⟩ := hb.length
  intro fuel hfuel
  match fuel, hfuel with
  | 0, hfuel => simp only [List.length_append] at hfuel; omega
  | fuel + 1, hfuel =>
  refine ⟨fuel, by simp only [List.length_append] at hfuel ⊢; omega, ?_⟩
  obtain ⟨t1, t2⟩ := tag_parts n k hn2 hk
  simp only [List.length_append] at hl
  have e1 : readVarint (p ++ (b ++ rest)) p.length = .ok (BitVec.ofNat 64 (n * 8 + k), ((p.length + (leb (n * 8 + k)).length : Nat) : Int)) := by
    rw [hbk, List.append_assoc]
    exact readVarint_leb (n * 8 + k) (by omega) p (body ++ rest)
  obtain ⟨f2, hf2⟩ : ∃ f2, f2 = 2 * (p ++ (b ++ rest)).length + 2 := ⟨_, rfl⟩
  have e2 : skipField f2 ((p ++ (b ++ rest)).drop ((p.length : Nat) : Int).toNat) = .ok b.length := by
    rw [Int.toNat_natCast, List.drop_left]
    apply skip_wire hb rest f2
    · rw [hf2]; simp only [List.length_append]; omega
    · simp only [List.length_append]; omega
  have ew : wrap64 ((p.length : Int) + (b.length : Int)) = ((p ++ b).length : Nat) := by
    rw [wrap_small _ (by omega) (by omega), List.length_append, Int.natCast_add]
  have := loop_unknown field (p ++ (b ++ rest)) fuel m p.length _ b.length _ (by simp only [List.length_append]; omega) e1 (by rw [t1]; exact hk4)
    (by rw [t2]; omega) (by rw [t1, t2]; exact hf _ _ _) f2 hf2 e2 (by omega) (by rw [ew]; simp only [List.length_append]; omega)
  rw [this, ew]

theorem le8_eq (x : Nat) : le8 x = leBytes 8 x := by
  unfold le8
  simp [leBytes, List.range, List.range.loop, Nat.div_div_eq_div_mul]

end Rothko
