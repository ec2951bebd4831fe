import Verif.Lemmas.File
/-!
# C05: metadata round-trips in its slot; C12: slots of a data file are isolated

`File.WF f`: the mapping holds the metadata slot and `cap` record slots, each at least a header long. It is established by `createFile`
(`createFile_wf`) and `openFile` (`openFile_wf`) and preserved by all writes.
-/
namespace Rothko

/-- **C12.** Storing a chunk that fits in slot `n`: exactly slot `n` then reads back as that chunk; every other slot and the metadata read as before. -/
theorem C12_store_slot (f : File) (hf : f.WF) (n : Int) (h0 : 0 ≤ n) (hn : n < f.cap) (r : Rec)
    (hv : r.version = 1) (hs : r.data.length = r.size.toNat) (hfit : 24 + r.data.length ≤ f.size) :
    ∃ f', f.setRecord n r = .ok f' ∧ f'.WF ∧ f'.size = f.size ∧ f'.cap = f.cap ∧
      f'.record n = .ok r ∧ f'.hasRecord n = true ∧
      (∀ m, m ≠ n → f'.record m = f.record m ∧ f'.hasRecord m = f.hasRecord m) ∧
      f'.metadata = f.metadata := by
  obtain ⟨k, rfl⟩ : ∃ k : Nat, n = k := ⟨n.toNat, by omega⟩
  have hk : k < f.cap := by omega
  obtain ⟨b, hb1, hb2, _⟩ := C01_chunk_round_trip r [] hv hs
  have ho := File.oob_false (f := f) h0 hn
  have he := File.slot_end hf hk
  obtain ⟨s1, s2, s3, _⟩ := File.splice_slot f hf k hk b (by omega)
  refine ⟨{ f with data := splice f.data (f.offset k) b }, ?_, s1, rfl, rfl, ?_, ?_, s2, s3⟩
  · unfold File.setRecord
    rw [if_neg (by simp [ho]), if_neg (by simp only [Rec.marshalledSize, show recordHeaderSize = 24 from rfl]; omega), hb1]
    simp
  · unfold File.record
    have ho' : File.oob { f with data := splice f.data (f.offset k) b } (k : Int) = false := ho
    rw [if_neg (by simp [ho'])]
    simp only [Int.toNat_natCast, File.offset]
    have := slice_splice_at f.data ((k + 1) * f.size) b ((k + 1) * f.size + f.size) (by omega)
      (by have : f.offset k = (k + 1) * f.size := rfl; omega)
    rw [this]
    obtain ⟨b', h1', _, h3'⟩ := C01_chunk_round_trip r (slice f.data ((k + 1) * f.size + b.length) ((k + 1) * f.size + f.size)) hv hs
    rw [hb1] at h1'; cases h1'
    rw [h3']
  · unfold File.hasRecord
    have ho' : File.oob { f with data := splice f.data (f.offset k) b } (k : Int) = false := ho
    rw [if_neg (by simp [ho'])]
    simp only [Int.toNat_natCast, File.offset]
    have := getD_splice_at f.data ((k + 1) * f.size) b (by have : f.offset k = (k + 1) * f.size := rfl; omega) (by omega)
    rw [this]
    have hm := marshal_eq r hs
    rw [hb1] at hm; cases hm
    rw [List.append_assoc, head20_getD0, hv]
    decide

/-- **C12.** Storing a chunk outside the file or larger than a slot is refused (and nothing is returned that could replace the file). -/
theorem C12_store_refused (f : File) (n : Int) (r : Rec) :
    ((n < 0 ∨ f.cap ≤ n) → f.setRecord n r = .error .bounds) ∧
    (0 ≤ n → n < f.cap → f.size < 24 + r.size.toNat → f.setRecord n r = .error .tooLarge) ∧
    ((n < 0 ∨ f.cap ≤ n) → f.record n = .error .bounds ∧ f.hasRecord n = false) := by
  refine ⟨?_, ?_, ?_⟩
  · intro h; unfold File.setRecord; rw [if_pos (File.oob_true h)]
  · intro h0 h1 h2
    unfold File.setRecord
    rw [if_neg (by simp [File.oob_false h0 h1]), if_pos (by simp only [Rec.marshalledSize, show recordHeaderSize = 24 from rfl]; omega)]
  · intro h; unfold File.record File.hasRecord
    rw [if_pos (File.oob_true h), if_pos (File.oob_true h)]; exact ⟨rfl, rfl⟩

/-- **C05 / C12.** Storing metadata that fits: it reads back unchanged, and no record slot changes. -/
theorem C05_metadata_round_trip (f : File) (hf : f.WF) (m : Meta) (h16 : m.encSize ≤ 65535) (hfit : 24 + m.encSize ≤ f.size) :
    ∃ f', f.setMetadata m = .ok f' ∧ f'.WF ∧ f'.size = f.size ∧ f'.cap = f.cap ∧ f'.metadata = .ok m ∧
      (∀ n, f'.record n = f.record n ∧ f'.hasRecord n = f.hasRecord n) := by
  have hsz := File.size_le hf
  have hl : (slice f.data 0 f.size).length = f.size := by rw [slice_length _ _ _ hsz]; omega
  obtain ⟨b, hb1, hb2, hb3⟩ := writeMetadata_eq (slice f.data 0 f.size) m h16 (by omega)
  have hbl : (b ++ (slice f.data 0 f.size).drop (24 + m.encSize)).length = f.size := by
    simp [hb2, hl]; omega
  obtain ⟨s1, s2, s3⟩ := File.splice_meta f hf _ hbl
  refine ⟨{ f with data := splice f.data 0 (b ++ (slice f.data 0 f.size).drop (24 + m.encSize)) }, ?_, s1, rfl, rfl, ?_, s2⟩
  · unfold File.setMetadata; rw [hb3]
  · unfold File.metadata
    rw [s3, readMetadata_marshal m h16 b _ hb1]

/-- **C05.** Metadata that does not fit in the slot is refused. -/
theorem C05_metadata_too_large (f : File) (hf : f.WF) (m : Meta) (h : 65535 < m.encSize ∨ f.size < 24 + m.encSize) :
    f.setMetadata m = .error .tooLarge := by
  have hsz := File.size_le hf
  have hl : (slice f.data 0 f.size).length = f.size := by rw [slice_length _ _ _ hsz]; omega
  unfold File.setMetadata writeMetadata writeMetaPayload
  rw [hl, show recordHeaderSize = 24 from rfl]
  by_cases h1 : m.encSize % 65536 ≠ m.encSize
  · rw [if_pos h1]
  · rw [if_neg h1, if_pos (by omega)]

private theorem sovLoop_le (n : Nat) (x : BitVec 64) : sovLoop n x ≤ n + 1 := by
  induction n generalizing x with
  | zero => simp [sovLoop]
  | succ n ih =>
    unfold sovLoop
    split
    · omega
    · have := ih (x >>> 7); omega

private theorem sizeVarintField_le (v : Int64) : sizeVarintField v ≤ 11 := by
  unfold sizeVarintField
  have : sov v.toBitVec ≤ 10 := sovLoop_le 9 v.toBitVec
  split <;> omega

/-- Metadata never takes more than 55 bytes, so it always fits when the record size is at least 79. -/
theorem meta_encSize_le (m : Meta) : m.encSize ≤ 55 := by
  unfold Meta.encSize
  have := sizeVarintField_le m.size
  have := sizeVarintField_le m.head
  have := sizeVarintField_le m.start
  have := sizeVarintField_le m.stop
  have := sizeVarintField_le m.smallestEnd
  omega

private theorem int32_small (x : Nat) (hx : x < 2147483648) : int32 x = x := by
  unfold int32
  rw [Int.bmod_eq_emod_of_lt]
  · exact Int.emod_eq_of_lt (by omega) (by omega)
  · rw [Int.emod_eq_of_lt (by omega) (by omega)]; omega

private theorem createRefused_small (size cap : Nat) (hc : 1 ≤ cap) (hov : size * cap < 2147483648) (hcs : cap < 2147483648)
    (hss : size < 2147483648) : createRefused size cap = some false := by
  unfold createRefused
  rw [int32_small cap hcs, int32_small size hss, if_neg (by simp), if_neg (by omega)]
  have : ((size : Int) * cap) = ((size * cap : Nat) : Int) := by simp
  rw [this, int32_small _ hov]
  have hdiv : Int.tdiv ((size * cap : Nat) : Int) cap = size := by
    rw [← Int.ofNat_tdiv, Nat.mul_div_cancel _ (by omega)]
  rw [hdiv, int32_small size hss]; simp

theorem setMetadata_length (f f' : File) (hf : f.WF) (m : Meta) (hfit : 24 + m.encSize ≤ f.size) (h : f.setMetadata m = .ok f') :
    f'.data.length = f.data.length := by
  have hle := meta_encSize_le m
  have hsz := File.size_le hf
  have hl : (slice f.data 0 f.size).length = f.size := by rw [slice_length _ _ _ hsz]; omega
  unfold File.setMetadata at h
  split at h
  · cases h
  · rename_i b hb
    cases h
    obtain ⟨b2, _, hb2, hb3⟩ := writeMetadata_eq (slice f.data 0 f.size) m (by omega) (by omega)
    rw [hb] at hb3; cases hb3
    apply splice_length
    rw [List.length_append, List.length_drop, hb2, hl]
    omega

private theorem zeros_hasRecord (size cap : Nat) (n : Int) : File.hasRecord (zeroFile size cap) n = false := by
  unfold File.hasRecord zeroFile
  split
  · rfl
  · have hgd : ∀ (l i : Nat), (List.replicate l (0 : UInt8)).getD i 0 = 0 := by
      intro l i
      by_cases h : i < l <;> simp [List.getD_eq_getElem?_getD, h]
    simp only [hgd]; rfl

private theorem createFile_eq (size cap : Nat) (h : createRefused size cap = some false) (f : File)
    (hf : (zeroFile size cap).setMetadata (initMeta size cap) = .ok f) : createFile size cap = (.ok f, f.data) := by
  unfold createFile
  rw [h]
  simp only [createChecked, hf]

/-- A freshly created file: empty, with the initial metadata, and usable. -/
theorem createFile_wf (size cap : Nat) (hs : 79 ≤ size) (hc : 1 ≤ cap) (hov : size * cap < 2147483648) :
    ∃ f, createFile size cap = (.ok f, f.data) ∧ f.WF ∧ f.size = size ∧ f.cap = cap ∧ f.data.length = size * (cap + 1) ∧
      f.metadata = .ok { size := Int64.ofInt size, head := Int64.ofInt (cap - 1) } ∧
      (∀ n, f.hasRecord n = false) := by
  have hcs : cap < 2147483648 := Nat.lt_of_le_of_lt (Nat.le_mul_of_pos_left cap (by omega)) hov
  have hss : size < 2147483648 := Nat.lt_of_le_of_lt (Nat.le_mul_of_pos_right size (by omega)) hov
  have hce := createFile_eq size cap (createRefused_small size cap hc hov hcs hss)
  have hz := zeros_hasRecord size cap
  have hlz : (zeroFile size cap).data.length = size * (cap + 1) := List.length_replicate
  have hle := meta_encSize_le (initMeta size cap)
  have hwf : File.WF (zeroFile size cap) := by
    refine ⟨?_, by show 24 ≤ size; omega⟩
    rw [hlz]
    show (cap + 1) * size ≤ size * (cap + 1)
    rw [Nat.mul_comm]; exact Nat.le_refl _
  have hfit : 24 + (initMeta size cap).encSize ≤ (zeroFile size cap).size := by show _ ≤ size; omega
  obtain ⟨f, h1, h2, h3, h4, h5, h6⟩ := C05_metadata_round_trip (zeroFile size cap) hwf (initMeta size cap) (by omega) hfit
  have hflen := setMetadata_length _ f hwf _ hfit h1
  exact ⟨f, hce f h1, h2, h3, h4, by rw [hflen, hlz], h5, fun n => by rw [(h6 n).2]; exact hz n⟩

/-- Opening a file whose metadata slot holds a metadata record recovers the geometry it was created with. -/
theorem openFile_wf (f : File) (hf : f.WF) (m : Meta) (hm : f.metadata = .ok m) (hsz : m.size.toInt = f.size)
    (hlen : f.data.length = f.size * (f.cap + 1)) : openFile f.data = .ok f := by
  have h24 := hf.2
  have hle := File.size_le hf
  unfold openFile
  rw [if_neg (by simp only [show recordHeaderSize = 24 from rfl]; omega)]
  have hread : readMetadata f.data = .ok m := by
    unfold File.metadata at hm
    unfold readMetadata at hm ⊢
    cases hp : parse (slice f.data 0 f.size) with
    | error e => rw [hp] at hm; cases hm
    | ok r =>
      rw [hp] at hm
      obtain ⟨hv, hs, b, suf, hb, heq⟩ := C02_parse_only_marshalled _ _ hp
      obtain ⟨b', h1, _, h3⟩ := C01_chunk_round_trip r (suf ++ f.data.drop f.size) hv hs
      rw [hb] at h1; cases h1
      have : f.data = b ++ (suf ++ f.data.drop f.size) := by
        rw [← List.append_assoc, ← heq]; simp [slice]
      rw [this, h3]; exact hm
  rw [hread]
  simp only
  rw [hsz, if_neg (by simp only [show recordHeaderSize = 24 from rfl]; omega), if_neg (by omega)]
  congr 1
  rw [hlen]
  simp only [Int.toNat_natCast]
  rw [Nat.mul_div_cancel_left _ (by omega)]
  cases f
  simp only at hlen
  simp [hlen]

/-- Non-vacuity for C05 and C12: a created file with 3 slots of 80 bytes is usable, and negative metadata values fit. -/
example : ∃ f, createFile 80 3 = (.ok f, f.data) ∧ f.WF ∧ f.cap = 3 ∧
    24 + ({ size := 80, head := -1, start := -5, stop := -4, smallestEnd := -4 } : Meta).encSize ≤ f.size := by
  obtain ⟨f, h1, h2, h3, h4, _⟩ := createFile_wf 80 3 (by omega) (by omega) (by omega)
  exact ⟨f, h1, h2, h4, by rw [h3]; decide +kernel⟩

end Rothko
