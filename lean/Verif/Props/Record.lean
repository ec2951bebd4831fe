import Verif.Lemmas.Record
/-!
# C01, C02: the chunk codec
-/
namespace Rothko

/-- **C01.** A chunk of the current version whose payload has exactly `size` bytes (what every caller builds) is marshalled
into `header + size` bytes, and parsing any buffer that starts with these bytes gives back exactly the chunk. -/
theorem C01_chunk_round_trip (r : Rec) (suffix : Bytes)
    (hv : r.version = 1) (hs : r.data.length = r.size.toNat) :
    ∃ b, r.marshal = some b ∧ b.length = 24 + r.data.length ∧ parse (b ++ suffix) = .ok r := by
  refine ⟨_, marshal_eq r hs, ?_, ?_⟩
  · simp; omega
  · rw [List.append_assoc, List.append_assoc, parse_framed r _ _ _ (by simp) hs]
    rw [u32_rt, if_neg (by simpa [recordVersion] using hv), if_neg (by simp)]

/-- C01 in terms of the fields: every kind, start, end and payload of at most 65535 bytes round-trips. -/
theorem C01_chunk_round_trip_fields (kind : UInt8) (start stop : Int64) (payload suffix : Bytes)
    (h : payload.length ≤ 65535) :
    ∃ b, (Rec.mk 1 kind start stop (UInt16.ofNat payload.length) payload).marshal = some b ∧
      parse (b ++ suffix) = .ok ⟨1, kind, start, stop, UInt16.ofNat payload.length, payload⟩ := by
  have hs : payload.length = (UInt16.ofNat payload.length).toNat := by
    rw [UInt16.toNat_ofNat']; omega
  obtain ⟨b, h1, _, h3⟩ := C01_chunk_round_trip
    ⟨1, kind, start, stop, UInt16.ofNat payload.length, payload⟩ suffix rfl hs
  exact ⟨b, h1, h3⟩

/-- Non-vacuity: a concrete chunk with negative start and a three byte payload. -/
example : (Rec.mk 1 2 (-5) 77 3 [9, 8, 7]).version = 1 ∧
    (Rec.mk 1 2 (-5) 77 3 [9, 8, 7]).data.length = (Rec.mk 1 2 (-5) 77 3 [9, 8, 7]).size.toNat := by decide

/-- The header of a Rec put together from the fields found in a buffer is the first 20 bytes of the buffer. -/
private theorem head20_of_slices (buf : Bytes) (hl : 24 ≤ buf.length) (d : Bytes) :
    (Rec.mk (buf.getD 0 0) (buf.getD 1 0) (UInt64.ofNat (beNat (slice buf 2 10))).toInt64
      (UInt64.ofNat (beNat (slice buf 10 18))).toInt64 (UInt16.ofNat (beNat (slice buf 18 20))) d).head20
      = slice buf 0 20 := by
  simp only [Rec.head20]
  rw [int64_rt' _ (by rw [slice_length _ _ _ (by omega)]), int64_rt' _ (by rw [slice_length _ _ _ (by omega)]),
    u16_rt' _ (by rw [slice_length _ _ _ (by omega)])]
  have h2 : [buf.getD 0 0, buf.getD 1 0] = slice buf 0 2 := by
    match buf, hl with
    | a :: b :: t, _ => simp [slice]
  rw [h2, slice_append_slice _ _ _ _ (by omega) (by omega), slice_append_slice _ _ _ _ (by omega) (by omega),
    slice_append_slice _ _ _ _ (by omega) (by omega)]

/-- **C02.** Whatever the parser accepts is exactly a marshalled chunk, followed by arbitrary bytes: the chunk has the current
version, its payload has the declared size, and the buffer starts with its marshalled form. -/
theorem C02_parse_only_marshalled (buf : Bytes) (r : Rec) (h : parse buf = .ok r) :
    r.version = 1 ∧ r.data.length = r.size.toNat ∧
    ∃ b suffix, r.marshal = some b ∧ buf = b ++ suffix := by
  have e24 : recordHeaderSize = 24 := rfl
  simp only [parse, e24, show 24 - 4 = 20 from rfl] at h
  by_cases hl : buf.length < 24
  · rw [if_pos hl] at h; cases h
  rw [if_neg hl] at h
  by_cases hver : buf.getD 0 0 ≠ recordVersion
  · rw [if_pos hver] at h; cases h
  rw [if_neg hver] at h
  by_cases hdl : buf.length < 24 + (UInt16.ofNat (beNat (slice buf 18 20))).toNat
  · rw [if_pos hdl] at h; cases h
  rw [if_neg hdl] at h
  by_cases hcrc : (recCrc (slice buf 0 20) (slice buf 24 (24 + (UInt16.ofNat (beNat (slice buf 18 20))).toNat))).toNat
      ≠ beNat (slice buf 20 24)
  · rw [if_pos hcrc] at h; cases h
  rw [if_neg hcrc] at h
  replace hl : 24 ≤ buf.length := by omega
  have hh := head20_of_slices buf hl
    (slice buf 24 (24 + (UInt16.ofNat (beNat (slice buf 18 20))).toNat))
  have hr := Except.ok.inj h
  rw [hr] at hh
  have hdata : r.data = slice buf 24 (24 + r.size.toNat) := by rw [← hr]
  have hsz : r.data.length = r.size.toNat := by
    rw [hdata, slice_length]
    · omega
    · rw [← hr]; simp only []; omega
  have hver' : r.version = 1 := by
    rw [← hr]; simpa [recordVersion] using hver
  refine ⟨hver', hsz, _, buf.drop (24 + r.size.toNat), marshal_eq r hsz, ?_⟩
  have hc : beBytes 4 (recCrc r.head20 r.data).toNat = slice buf 20 24 := by
    have h1 : (recCrc (slice buf 0 20) r.data).toNat = beNat (slice buf 20 24) := by
      rw [hdata, ← hr]; simpa using hcrc
    rw [hh, h1]
    have := beBytes_beNat (slice buf 20 24)
    rwa [slice_length _ _ _ (by omega)] at this
  rw [hc, hh, slice_append_slice _ _ _ _ (by omega) (by omega), hdata,
    slice_append_slice _ _ _ _ (by omega) (by omega)]
  simp [slice]

/-- C02, converse directions: too short for a header, another version, too short for the declared payload and a checksum
mismatch are all refused (and these are the only reasons: each error names its cause). -/
theorem C02_rejects (buf : Bytes) :
    (buf.length < 24 → parse buf = .error .header) ∧
    (24 ≤ buf.length → buf.getD 0 0 ≠ 1 → parse buf = .error .version) ∧
    (24 ≤ buf.length → buf.getD 0 0 = 1 → buf.length < 24 + beNat (slice buf 18 20) →
      parse buf = .error .data) ∧
    (24 + beNat (slice buf 18 20) ≤ buf.length → buf.getD 0 0 = 1 →
      (crcUpdate 0 (slice buf 0 20 ++ slice buf 24 (24 + beNat (slice buf 18 20)))).toNat ≠ beNat (slice buf 20 24) →
      parse buf = .error .crc) := by
  have hsz : 24 ≤ buf.length → (UInt16.ofNat (beNat (slice buf 18 20))).toNat = beNat (slice buf 18 20) := by
    intro hl
    have := beNat_lt (slice buf 18 20)
    rw [slice_length _ _ _ (by omega)] at this
    rw [UInt16.toNat_ofNat', Nat.mod_eq_of_lt (by simpa using this)]
  refine ⟨?_, ?_, ?_, ?_⟩
  · intro h; simp [parse, recordHeaderSize, h]
  · intro h hv; simp [parse, recordHeaderSize, recordVersion, show ¬ buf.length < 24 by omega]
    intro h'; exact absurd h' (by simpa using hv)
  · intro h hv hd
    have h1 := hsz h
    unfold parse
    rw [if_neg (by simp [recordHeaderSize]; omega)]
    simp only
    rw [if_neg (by simpa [recordVersion] using hv), if_pos (by simp only [recordHeaderSize]; omega)]
  · intro hd hv hc
    have h1 := hsz (by omega)
    unfold parse
    rw [if_neg (by simp [recordHeaderSize]; omega)]
    simp only
    rw [if_neg (by simpa [recordVersion] using hv), if_neg (by simp only [recordHeaderSize]; omega), if_pos]
    simp only [recordHeaderSize, recCrc, show 1 + 1 + 8 + 8 + 2 + 4 = 24 from rfl, show 24 - 4 = 20 from rfl]
    rw [h1]
    simpa [crcUpdate] using hc

/-- Non-vacuity of C02: a concrete buffer (an empty "complete" chunk) with two trailing bytes is accepted. -/
example : ∃ r, parse ([1, 2] ++ List.replicate 18 0 ++ beBytes 4 (recCrc ([1, 2] ++ List.replicate 18 0) []).toNat
    ++ [5, 6]) = .ok r :=
  ⟨⟨1, 2, 0, 0, 0, []⟩, by decide +kernel⟩

end Rothko
