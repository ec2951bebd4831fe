import Verif.Lemmas.Crc
/-!
# C03: corruption of a stored chunk is detected

Full statement (false): for every stored chunk and every change of one byte (or of at most four consecutive bytes) of its
marshalled form, parsing fails.  `C03_size_byte_refuted` shows a chunk for which a change of one byte of the *size* field is
accepted, because that field decides which bytes the checksum covers.  `C03_burst_detected_partial` and
`C03_byte_detected_partial` prove detection for every change outside the size field (bytes 18 and 19); a burst must lie within
one of the regions header-before-size, checksum, payload.
-/
namespace Rothko

/-- **C03 (partial).** If at most four consecutive bytes of a stored chunk are replaced by other bytes, the region being the header
before the size field, the checksum field, or the payload, then the parser refuses the result. -/
theorem C03_burst_detected_partial (r : Rec) (b pre old new post suffix : Bytes)
    (hs : r.data.length = r.size.toNat)
    (hm : r.marshal = some b) (hb : b = pre ++ old ++ post)
    (hne : new ≠ old) (hlen : new.length = old.length) (h4 : old.length ≤ 4)
    (hregion : pre.length + old.length ≤ 18 ∨ (20 ≤ pre.length ∧ pre.length + old.length ≤ 24) ∨ 24 ≤ pre.length) :
    ∃ e, parse (pre ++ new ++ post ++ suffix) = .error e := by
  rw [marshal_eq r hs, Option.some.injEq] at hm
  cases hp : parse (pre ++ new ++ post ++ suffix) with
  | error e => exact ⟨e, rfl⟩
  | ok r' =>
  exfalso
  have h20 := head20_length r
  generalize hcdef : beBytes 4 (recCrc r.head20 r.data).toNat = c at hm
  have hc4 : c.length = 4 := by rw [← hcdef]; simp
  have hcv : (crcUpdate 0#32 (r.head20 ++ r.data)).toNat = beNat c := by
    rw [← hcdef, u32_rt, recCrc_eq]
  have hsz : beNat (r.head20.drop 18) = r.size.toNat := by
    have := head20_size r []
    simp only [List.append_nil, slice] at this
    rw [List.take_of_length_le (by omega)] at this
    rw [this, beNat_beBytes, Nat.mod_eq_of_lt]
    have := r.size.toNat_lt; simpa using this
  rw [← hm, List.append_assoc, List.append_assoc] at hb
  rcases hregion with h | ⟨hA, hB⟩ | h
  · -- inside the header before the size field: post = (rest of header) ++ c ++ data
    obtain ⟨p2, hp2⟩ : ∃ p2, r.head20 = pre ++ old ++ p2 := by
      have := (List.append_eq_append_iff.mp (show r.head20 ++ (c ++ r.data) = (pre ++ old) ++ post by rw [hb]; simp))
      rcases this with ⟨a, ha, hb'⟩ | ⟨a, ha, hb'⟩
      · have hl := congrArg List.length ha
        simp at hl
        exact absurd hl (by omega)
      · exact ⟨a, ha⟩
    have hl := congrArg List.length hp2
    simp only [h20, List.length_append] at hl
    have hpost : post = p2 ++ (c ++ r.data) := by
      rw [hp2] at hb; simpa using hb.symm
    have hsz' : r.data.length = beNat ((pre ++ new ++ p2).drop 18) := by
      rw [hs, ← hsz, hp2, List.drop_append (l₁ := pre ++ old), List.drop_append (l₁ := pre ++ new),
        List.drop_eq_nil_of_le (as := pre ++ old) (by simp; omega),
        List.drop_eq_nil_of_le (as := pre ++ new) (by simp; omega)]
      simp [hlen]
    have hp' : parse ((pre ++ new ++ p2) ++ (c ++ (r.data ++ suffix))) = .ok r' := by
      rw [← hp, hpost]; simp
    have := parse_ok_crc (pre ++ new ++ p2) c r.data suffix (by simp; omega) hc4 hsz' r' hp'
    rw [← hcv, hp2] at this
    have := BitVec.eq_of_toNat_eq this
    exact hne (crcUpdate_burst 0#32 pre new old (p2 ++ r.data) hlen.symm (by omega) (by simpa using this))
  · -- inside the checksum field
    obtain ⟨p1, hp1⟩ : ∃ p1, pre = r.head20 ++ p1 := by
      rcases List.append_eq_append_iff.mp hb with ⟨a, ha, _⟩ | ⟨a, ha, _⟩
      · exact ⟨a, ha⟩
      · have hl := congrArg List.length ha
        simp at hl
        have : a = [] := List.eq_nil_of_length_eq_zero (by omega)
        exact ⟨[], by simp [ha, this]⟩
    have hb2 : c ++ r.data = (p1 ++ old) ++ post := by
      rw [hp1] at hb; simpa using hb
    have hpl : pre.length = 20 + p1.length := by rw [hp1]; simp
    obtain ⟨p2, hp2⟩ : ∃ p2, c = p1 ++ old ++ p2 := by
      rcases List.append_eq_append_iff.mp hb2 with ⟨a, ha, _⟩ | ⟨a, ha, _⟩
      · have hl := congrArg List.length ha
        simp at hl
        have : a = [] := List.eq_nil_of_length_eq_zero (by omega)
        exact ⟨[], by simp [ha, this]⟩
      · exact ⟨a, ha⟩
    have hpost : post = p2 ++ r.data := by
      rw [hp2] at hb2; simpa using hb2.symm
    have hcl := congrArg List.length hp2
    simp only [List.length_append] at hcl
    have hp' : parse (r.head20 ++ ((p1 ++ new ++ p2) ++ (r.data ++ suffix))) = .ok r' := by
      rw [← hp, hpost, hp1]; simp
    have := parse_ok_crc r.head20 (p1 ++ new ++ p2) r.data suffix h20 (by simp; omega) (by rw [hs, hsz]) r' hp'
    rw [hcv] at this
    have h1 := beBytes_beNat c
    have h2 := beBytes_beNat (p1 ++ new ++ p2)
    have hl2 : (p1 ++ new ++ p2).length = c.length := by simp; omega
    rw [hl2, ← this, h1, hp2] at h2
    simp at h2
    exact hne h2.symm
  · -- inside the payload
    obtain ⟨p1, hp1⟩ : ∃ p1, pre = r.head20 ++ c ++ p1 := by
      rcases List.append_eq_append_iff.mp (show (r.head20 ++ c) ++ r.data = pre ++ (old ++ post) by rw [← hb]; simp)
        with ⟨a, ha, _⟩ | ⟨a, ha, _⟩
      · exact ⟨a, ha⟩
      · have hl := congrArg List.length ha
        simp at hl
        have : a = [] := List.eq_nil_of_length_eq_zero (by omega)
        exact ⟨[], by simp [ha, this]⟩
    have hd : r.data = p1 ++ (old ++ post) := by
      rw [hp1] at hb; simpa using hb
    have hdl : (p1 ++ (new ++ post)).length = beNat (r.head20.drop 18) := by
      rw [hsz, ← hs, hd]; simp [hlen]
    have hp' : parse (r.head20 ++ (c ++ ((p1 ++ (new ++ post)) ++ suffix))) = .ok r' := by
      rw [← hp, hp1]; simp
    have := parse_ok_crc r.head20 c _ suffix h20 hc4 hdl r' hp'
    rw [← hcv, hd] at this
    have := BitVec.eq_of_toNat_eq this
    have h3 := crcUpdate_burst 0#32 (r.head20 ++ p1) new old post hlen.symm (by omega) (by simpa using this)
    exact hne h3

/-- **C03 (partial), single bytes.** Changing one byte of a stored chunk, other than the two bytes of the size field, makes the
parser refuse it. -/
theorem C03_byte_detected_partial (r : Rec) (b suffix : Bytes) (i : Nat) (v : UInt8)
    (hs : r.data.length = r.size.toNat) (hm : r.marshal = some b)
    (hi : i < b.length) (hne : b[i] ≠ v) (h18 : i ≠ 18) (h19 : i ≠ 19) :
    ∃ e, parse (b.set i v ++ suffix) = .error e := by
  have hsplit : b = b.take i ++ [b[i]] ++ b.drop (i + 1) := by
    rw [List.append_assoc, List.singleton_append, List.getElem_cons_drop, List.take_append_drop]
  have := C03_burst_detected_partial r b (b.take i) [b[i]] [v] (b.drop (i + 1)) suffix hs hm hsplit
    (by simpa using fun h => hne h.symm) rfl (by simp) (by
      simp only [List.length_take, List.length_singleton]; omega)
  rwa [show b.take i ++ [v] ++ b.drop (i + 1) = b.set i v by
    rw [List.set_eq_take_append_cons_drop, if_pos hi]; simp] at this

/-- Non-vacuity: a four byte burst inside the payload of a concrete chunk. -/
example : ∃ b pre old new post, (Rec.mk 1 3 5 9 6 [1, 2, 3, 4, 5, 6]).marshal = some b ∧ b = pre ++ old ++ post ∧ new ≠ old ∧
    new.length = old.length ∧ old.length = 4 ∧ 24 ≤ pre.length :=
  ⟨_, ((Rec.mk 1 3 5 9 6 [1, 2, 3, 4, 5, 6]).marshal.getD []).take 25, [2, 3, 4, 5], [0, 0, 0, 0], [6],
    rfl, by decide +kernel, by decide, rfl, rfl, by decide +kernel⟩

/-- The chunk used for the refutation: a complete chunk with end 1590831574 and one payload byte. -/
def c03Witness : Rec := ⟨1, 2, 0, 1590831574, 1, [7]⟩

/-- **C03 (refutation of the full statement).** For this stored chunk, changing byte 19 (the low byte of the size) from 1 to 0 is not detected: the parser
accepts the corrupted bytes and returns a chunk with an altered (empty) payload. -/
theorem C03_size_byte_refuted :
    ∃ b, c03Witness.marshal = some b ∧ b.set 19 0 ≠ b ∧
      parse (b.set 19 0) = .ok { c03Witness with size := 0, data := [] } :=
  ⟨_, rfl, by decide +kernel, by decide +kernel⟩

end Rothko
