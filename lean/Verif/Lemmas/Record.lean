import Verif.Lemmas.Bytes
/-! Helper lemmas on `marshal` / `parse`. -/
namespace Rothko

@[simp] theorem head20_length (r : Rec) : r.head20.length = 20 := by simp [Rec.head20]

theorem int64_rt (x : Int64) : (UInt64.ofNat (beNat (beBytes 8 x.toUInt64.toNat))).toInt64 = x := by
  rw [beNat_beBytes, Nat.mod_eq_of_lt (by have := x.toUInt64.toNat_lt; simpa using this)]
  simp

theorem int64_rt' (bs : Bytes) (h : bs.length = 8) :
    beBytes 8 (UInt64.ofNat (beNat bs)).toInt64.toUInt64.toNat = bs := by
  have := beNat_lt bs
  rw [h] at this
  simp only [UInt64.toUInt64_toInt64, UInt64.toNat_ofNat']
  rw [Nat.mod_eq_of_lt (by simpa using this)]
  have := beBytes_beNat bs
  rwa [h] at this

theorem u16_rt (x : UInt16) : UInt16.ofNat (beNat (beBytes 2 x.toNat)) = x := by
  rw [beNat_beBytes, Nat.mod_eq_of_lt (by have := x.toNat_lt; simpa using this)]
  simp

theorem u16_rt' (bs : Bytes) (h : bs.length = 2) :
    beBytes 2 (UInt16.ofNat (beNat bs)).toNat = bs := by
  have := beNat_lt bs
  rw [h] at this
  simp only [UInt16.toNat_ofNat']
  rw [Nat.mod_eq_of_lt (by simpa using this)]
  have := beBytes_beNat bs
  rwa [h] at this

theorem u32_rt (x : BitVec 32) : beNat (beBytes 4 x.toNat) = x.toNat := by
  rw [beNat_beBytes, Nat.mod_eq_of_lt (by have := x.isLt; simpa using this)]

/-- Explicit form of the marshalled bytes for a record whose payload has exactly `size` bytes. -/
theorem marshal_eq (r : Rec) (h : r.data.length = r.size.toNat) :
    r.marshal = some (r.head20 ++ beBytes 4 (recCrc r.head20 r.data).toNat ++ r.data) := by
  have h2 : r.data.take r.size.toNat = r.data := List.take_of_length_le (by omega)
  simp only [Rec.marshal, Rec.marshalHeader, h2]
  rw [if_neg (by omega)]; rfl

theorem head20_getD0 (r : Rec) (s : Bytes) : (r.head20 ++ s).getD 0 0 = r.version := by
  simp [Rec.head20]
theorem head20_getD1 (r : Rec) (s : Bytes) : (r.head20 ++ s).getD 1 0 = r.kind := by
  simp [Rec.head20]
theorem head20_start (r : Rec) (s : Bytes) :
    slice (r.head20 ++ s) 2 10 = beBytes 8 r.start.toUInt64.toNat := by
  simp only [Rec.head20, List.append_assoc]
  rw [slice_append_right _ _ _ _ (by simp), slice_append_left _ _ _ _ (by simp)]
  simp
theorem head20_stop (r : Rec) (s : Bytes) :
    slice (r.head20 ++ s) 10 18 = beBytes 8 r.stop.toUInt64.toNat := by
  simp only [Rec.head20, List.append_assoc]
  rw [slice_append_right _ _ _ _ (by simp), slice_append_right _ _ _ _ (by simp),
    slice_append_left _ _ _ _ (by simp)]
  simp
theorem head20_size (r : Rec) (s : Bytes) :
    slice (r.head20 ++ s) 18 20 = beBytes 2 r.size.toNat := by
  simp only [Rec.head20, List.append_assoc]
  rw [slice_append_right _ _ _ _ (by simp), slice_append_right _ _ _ _ (by simp),
    slice_append_right _ _ _ _ (by simp), slice_append_left _ _ _ _ (by simp)]
  simp

/-- What `parse` does on a buffer that starts with the header of `r`, then any four bytes, then the payload. -/
theorem parse_framed (r : Rec) (c d suf : Bytes) (hc : c.length = 4) (hd : d.length = r.size.toNat) :
    parse (r.head20 ++ (c ++ (d ++ suf))) =
      if r.version ≠ recordVersion then .error .version
      else if (recCrc r.head20 d).toNat ≠ beNat c then .error .crc
      else .ok { r with data := d } := by
  have hlen : (r.head20 ++ (c ++ (d ++ suf))).length = 24 + r.size.toNat + suf.length := by
    simp [hc, hd]; omega
  unfold parse
  have e24 : recordHeaderSize = 24 := rfl
  rw [if_neg (show ¬ _ < recordHeaderSize by omega), e24]
  simp only [head20_getD0, head20_getD1, head20_start, head20_stop, head20_size, int64_rt, u16_rt]
  split
  · rfl
  · rw [if_neg (show ¬ (r.head20 ++ (c ++ (d ++ suf))).length < 24 + r.size.toNat by omega)]
    have hcrc : slice (r.head20 ++ (c ++ (d ++ suf))) 20 24 = c := by
      rw [slice_append_right _ _ _ _ (by simp), slice_append_left _ _ _ _ (by simp [hc])]
      simp [hc]
    have hdat : slice (r.head20 ++ (c ++ (d ++ suf))) 24 (24 + r.size.toNat) = d := by
      rw [slice_append_right _ _ _ _ (by simp), slice_append_right _ _ _ _ (by simp [hc]),
        slice_append_left _ _ _ _ (by simp [hd, hc]; omega)]
      simp only [head20_length, hc]
      rw [slice_full]
      simp [hd]; omega
    have hh : slice (r.head20 ++ (c ++ (d ++ suf))) 0 20 = r.head20 := by
      rw [slice_append_left _ _ _ _ (by simp)]; simp
    simp only [show 24 - 4 = 20 from rfl]
    rw [hcrc, hdat, hh]

end Rothko
