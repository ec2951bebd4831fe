import Verif.Model.File
import Verif.Props.Record
import Verif.Props.Proto
/-! Helper lemmas on in-place writes to data files. -/
namespace Rothko

theorem splice_length (buf : Bytes) (off : Nat) (bs : Bytes) (h : off + bs.length ≤ buf.length) :
    (splice buf off bs).length = buf.length := by
  simp [splice]; omega

theorem slice_splice_before (buf : Bytes) (off : Nat) (bs : Bytes) (lo hi : Nat) (h : hi ≤ off) (hb : off ≤ buf.length) :
    slice (splice buf off bs) lo hi = slice buf lo hi := by
  unfold splice
  rw [List.append_assoc, slice_append_left _ _ _ _ (by simp; omega)]
  unfold slice
  rw [List.take_take, Nat.min_eq_left h]

theorem slice_splice_after (buf : Bytes) (off : Nat) (bs : Bytes) (lo hi : Nat) (h : off + bs.length ≤ lo) (hb : off + bs.length ≤ buf.length) :
    slice (splice buf off bs) lo hi = slice buf lo hi := by
  unfold splice
  rw [slice_append_right _ _ _ _ (by simp; omega)]
  have hl : (buf.take off ++ bs).length = off + bs.length := by simp; omega
  rw [hl]
  unfold slice
  rw [List.drop_take, List.drop_take, List.drop_drop]
  congr 1
  · omega
  · congr 1; omega

theorem slice_splice_at (buf : Bytes) (off : Nat) (bs : Bytes) (hi : Nat) (h : off + bs.length ≤ hi) (hb : off + bs.length ≤ buf.length) :
    slice (splice buf off bs) off hi = bs ++ slice buf (off + bs.length) hi := by
  unfold splice
  rw [List.append_assoc, slice_append_right _ _ _ _ (by simp; omega)]
  have hl : (buf.take off).length = off := by simp; omega
  rw [hl, Nat.sub_self]
  unfold slice
  rw [List.drop_zero, List.take_append, List.take_of_length_le (by omega), List.drop_take]
  congr 2
  omega

theorem getD_splice_before (buf : Bytes) (off : Nat) (bs : Bytes) (i : Nat) (h : i < off) (hb : off ≤ buf.length) :
    (splice buf off bs).getD i 0 = buf.getD i 0 := by
  unfold splice
  simp only [List.getD_eq_getElem?_getD]
  rw [List.append_assoc, List.getElem?_append_left (by simp; omega), List.getElem?_take_of_lt h]

theorem getD_splice_after (buf : Bytes) (off : Nat) (bs : Bytes) (i : Nat) (h : off + bs.length ≤ i) (hb : off + bs.length ≤ buf.length) :
    (splice buf off bs).getD i 0 = buf.getD i 0 := by
  unfold splice
  simp only [List.getD_eq_getElem?_getD]
  have hl : (buf.take off ++ bs).length = off + bs.length := by simp; omega
  rw [List.getElem?_append_right (by omega), hl, List.getElem?_drop]
  congr 2; omega

theorem getD_splice_at (buf : Bytes) (off : Nat) (bs : Bytes) (hb : off ≤ buf.length) (h : 0 < bs.length) :
    (splice buf off bs).getD off 0 = bs.getD 0 0 := by
  unfold splice
  simp only [List.getD_eq_getElem?_getD]
  have hl : (buf.take off).length = off := by simp; omega
  rw [List.append_assoc, List.getElem?_append_right (by omega), hl, Nat.sub_self, List.getElem?_append_left h]

/-- A usable handle: the mapping holds the metadata slot and `cap` record slots, and a slot holds at least a header. -/
def File.WF (f : File) : Prop := (f.cap + 1) * f.size ≤ f.data.length ∧ 24 ≤ f.size

theorem File.oob_false {f : File} {n : Int} (h0 : 0 ≤ n) (h1 : n < f.cap) : f.oob n = false := by
  simp [File.oob]; omega

theorem File.oob_true {f : File} {n : Int} (h : n < 0 ∨ f.cap ≤ n) : f.oob n = true := by
  simp [File.oob]; omega

theorem File.slot_end {f : File} (hf : f.WF) {n : Nat} (h : n < f.cap) : f.offset n + f.size ≤ f.data.length := by
  have h1 : (n + 1) * f.size + f.size = (n + 2) * f.size := by rw [← Nat.succ_mul]
  have h2 : (n + 2) * f.size ≤ (f.cap + 1) * f.size := Nat.mul_le_mul_right _ (by omega)
  have := hf.1
  simp only [File.offset]; omega

theorem File.size_le {f : File} (hf : f.WF) : f.size ≤ f.data.length := by
  have h2 : 1 * f.size ≤ (f.cap + 1) * f.size := Nat.mul_le_mul_right _ (by omega)
  have := hf.1; omega

theorem offset_lt {s : Nat} {n m : Nat} (h : n < m) : (n + 1) * s + s ≤ (m + 1) * s := by
  have h1 : (n + 1) * s + s = (n + 2) * s := by rw [← Nat.succ_mul]
  rw [h1]; exact Nat.mul_le_mul_right _ (by omega)

theorem size_le_offset {s n : Nat} : s ≤ (n + 1) * s := by
  have := Nat.mul_le_mul_right s (show 1 ≤ n + 1 by omega); omega

/-- Effect of storing some bytes at the start of slot `n`. -/
theorem File.splice_slot (f : File) (hf : f.WF) (n : Nat) (hn : n < f.cap) (b : Bytes) (hb : b.length ≤ f.size) :
    let f' : File := { f with data := splice f.data (f.offset n) b }
    f'.WF ∧ (∀ m : Int, m ≠ n → f'.record m = f.record m ∧ f'.hasRecord m = f.hasRecord m) ∧ f'.metadata = f.metadata
      ∧ slice f'.data 0 f.size = slice f.data 0 f.size := by
  intro f'
  have he := File.slot_end hf hn
  have hlen : (splice f.data (f.offset n) b).length = f.data.length := splice_length _ _ _ (by omega)
  have hz : slice f'.data 0 f.size = slice f.data 0 f.size := by
    apply slice_splice_before
    · exact size_le_offset
    · omega
  refine ⟨⟨by rw [show f'.data.length = f.data.length from hlen]; exact hf.1, hf.2⟩, ?_, ?_, hz⟩
  · intro m hm
    by_cases ho : f.oob m = true
    · have ho' : f'.oob m = true := ho
      simp [File.record, File.hasRecord, ho, ho']
    · have ho' : ¬ f'.oob m = true := ho
      have hm0 : 0 ≤ m ∧ m < f.cap := by
        simp [File.oob] at ho; omega
      obtain ⟨k, rfl⟩ : ∃ k : Nat, m = k := ⟨m.toNat, by omega⟩
      have hk : k < f.cap := by omega
      have hkn : k ≠ n := by intro h; subst h; exact hm rfl
      have hek := File.slot_end hf hk
      have hs : 0 < f.size := by have := hf.2; omega
      unfold File.record File.hasRecord
      rw [if_neg ho, if_neg ho', if_neg ho, if_neg ho']
      simp only [Int.toNat_natCast]
      rcases Nat.lt_or_gt_of_ne hkn with h | h
      · have hoff : f.offset k + f.size ≤ f.offset n := offset_lt h
        have e1 : slice f'.data (f'.offset k) (f'.offset k + f'.size) = slice f.data (f.offset k) (f.offset k + f.size) :=
          slice_splice_before _ _ _ _ _ hoff (by omega)
        have e2 : f'.data.getD (f'.offset k) 0 = f.data.getD (f.offset k) 0 :=
          getD_splice_before _ _ _ _ (by show f.offset k < f.offset n; omega) (by omega)
        simp only [e1, e2]; exact ⟨trivial, trivial⟩
      · have hoff : f.offset n + f.size ≤ f.offset k := offset_lt h
        have e1 : slice f'.data (f'.offset k) (f'.offset k + f'.size) = slice f.data (f.offset k) (f.offset k + f.size) :=
          slice_splice_after _ _ _ _ _ (by show f.offset n + b.length ≤ f.offset k; omega) (by omega)
        have e2 : f'.data.getD (f'.offset k) 0 = f.data.getD (f.offset k) 0 :=
          getD_splice_after _ _ _ _ (by show f.offset n + b.length ≤ f.offset k; omega) (by omega)
        simp only [e1, e2]; exact ⟨trivial, trivial⟩
  · unfold File.metadata
    rw [show f'.size = f.size from rfl, hz]

/-- Effect of replacing the metadata slot. -/
theorem File.splice_meta (f : File) (hf : f.WF) (b : Bytes) (hb : b.length = f.size) :
    let f' : File := { f with data := splice f.data 0 b }
    f'.WF ∧ (∀ m : Int, f'.record m = f.record m ∧ f'.hasRecord m = f.hasRecord m) ∧ slice f'.data 0 f.size = b := by
  intro f'
  have hsz := File.size_le hf
  have hlen : (splice f.data 0 b).length = f.data.length := splice_length _ _ _ (by omega)
  refine ⟨⟨by rw [show f'.data.length = f.data.length from hlen]; exact hf.1, hf.2⟩, ?_, ?_⟩
  · intro m
    by_cases ho : f.oob m = true
    · have ho' : f'.oob m = true := ho
      simp [File.record, File.hasRecord, ho, ho']
    · have ho' : ¬ f'.oob m = true := ho
      have hm0 : 0 ≤ m ∧ m < f.cap := by
        simp [File.oob] at ho; omega
      obtain ⟨k, rfl⟩ : ∃ k : Nat, m = k := ⟨m.toNat, by omega⟩
      have hoff : f.size ≤ f.offset k := size_le_offset
      unfold File.record File.hasRecord
      rw [if_neg ho, if_neg ho', if_neg ho, if_neg ho']
      simp only [Int.toNat_natCast]
      have e1 : slice f'.data (f'.offset k) (f'.offset k + f'.size) = slice f.data (f.offset k) (f.offset k + f.size) :=
        slice_splice_after _ _ _ _ _ (by show 0 + b.length ≤ f.offset k; omega) (by omega)
      have e2 : f'.data.getD (f'.offset k) 0 = f.data.getD (f.offset k) 0 :=
        getD_splice_after _ _ _ _ (by show 0 + b.length ≤ f.offset k; omega) (by omega)
      simp only [e1, e2]; exact ⟨trivial, trivial⟩
  · have := slice_splice_at f.data 0 b f.size (by omega) (by omega)
    rw [show f'.data = splice f.data 0 b from rfl, this, hb]
    simp [slice]

theorem metaRec_wf (m : Meta) (h : m.encSize ≤ 65535) : (metaRec m).version = 1 ∧ (metaRec m).data.length = (metaRec m).size.toNat := by
  refine ⟨rfl, ?_⟩
  simp only [metaRec, UInt16.toNat_ofNat']
  rw [(meta_payload_round_trip m).2, Nat.mod_eq_of_lt (by omega)]

/-- `writeMetadata` in one step: the marshalled record followed by the unchanged rest of the buffer. -/
theorem writeMetadata_eq (buf : Bytes) (m : Meta) (h16 : m.encSize ≤ 65535) (hfit : 24 + m.encSize ≤ buf.length) :
    ∃ b, (metaRec m).marshal = some b ∧ b.length = 24 + m.encSize ∧ writeMetadata buf m = .ok (b ++ buf.drop (24 + m.encSize)) := by
  have hwf := metaRec_wf m h16
  have hlen := (meta_payload_round_trip m).2
  refine ⟨_, marshal_eq _ hwf.2, ?_, ?_⟩
  · simp [metaRec, hlen]; omega
  · unfold writeMetadata writeMetaPayload
    have e24 : recordHeaderSize = 24 := rfl
    rw [e24, if_neg (by omega), if_neg (by omega)]
    have hdrop : (splice buf 24 m.encode).drop 24 = m.encode ++ buf.drop (24 + m.encSize) := by
      unfold splice
      rw [List.append_assoc, List.drop_append, List.drop_eq_nil_of_le (by simp; omega)]
      simp only [List.nil_append, List.length_take]
      rw [show 24 - min 24 buf.length = 0 by omega, List.drop_zero, hlen]
    simp only [hdrop]
    have htake : (m.encode ++ buf.drop (24 + m.encSize)).take (metaRec m).size.toNat = m.encode := by
      rw [← hwf.2]; show (m.encode ++ _).take m.encode.length = _; exact List.take_left
    have hmh : ({ metaRec m with data := m.encode ++ buf.drop (24 + m.encSize) } : Rec).marshalHeader
        = some ((metaRec m).head20 ++ beBytes 4 (recCrc (metaRec m).head20 m.encode).toNat) := by
      unfold Rec.marshalHeader
      simp only [htake]
      rw [if_neg]
      · rfl
      · rw [← hwf.2]; show ¬ (m.encode ++ _).length < m.encode.length; simp
    simp only [hmh]
    congr 1
    unfold splice
    have hl24 : ((metaRec m).head20 ++ beBytes 4 (recCrc (metaRec m).head20 m.encode).toNat).length = 24 := by simp
    rw [hl24]
    simp only [List.take_zero, List.nil_append, Nat.zero_add]
    have hdrop2 : (List.take 24 buf ++ m.encode ++ List.drop (24 + m.encode.length) buf).drop 24
        = m.encode ++ buf.drop (24 + m.encSize) := hdrop
    rw [hdrop2]
    simp [metaRec]

theorem readMetadata_marshal (m : Meta) (h16 : m.encSize ≤ 65535) (b suf : Bytes) (hb : (metaRec m).marshal = some b) :
    readMetadata (b ++ suf) = .ok m := by
  have hwf := metaRec_wf m h16
  obtain ⟨b', h1, _, h3⟩ := C01_chunk_round_trip (metaRec m) suf hwf.1 hwf.2
  rw [hb] at h1
  cases h1
  unfold readMetadata
  rw [h3]
  show ofOutcome (Meta.decode m.encode) = _
  rw [(meta_payload_round_trip m).1]
  rfl

end Rothko
