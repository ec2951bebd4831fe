import Verif.Model.Dirent
/-!
# C37: decoding directory entries
-/
namespace Rothko

/-! ## Specification: the entries the kernel writes -/

/-- `x` in `n` bytes, least significant first. -/
def leVBytes : Nat → Nat → Bytes
  | 0, _ => []
  | n + 1, x => UInt8.ofNat (x % 256) :: leVBytes n (x / 256)

/-- `struct linux_dirent64`: the name is followed by a zero byte and any padding. -/
structure Entry where
  ino : Nat
  off : Nat
  typ : UInt8
  name : Bytes
  pad : Bytes

/-- Fields fit, and the name has no zero byte. -/
structure Entry.Valid (e : Entry) : Prop where
  ino : e.ino < 256 ^ 8
  len : 20 + e.name.length + e.pad.length < 65536
  name : 0 ∉ e.name

def Entry.bytes (e : Entry) : Bytes :=
  leVBytes 8 e.ino ++ leVBytes 8 e.off ++ leVBytes 2 (20 + e.name.length + e.pad.length) ++ [e.typ] ++ e.name ++ 0 :: e.pad

/-- In use, and neither `.` nor `..`. -/
def Entry.listed (e : Entry) : Bool := decide (e.ino ≠ 0) && decide (e.name ≠ ".".toUTF8.toList) && decide (e.name ≠ "..".toUTF8.toList)

/-! ## Lemmas -/

theorem leVBytes_length (n x : Nat) : (leVBytes n x).length = n := by
  induction n generalizing x with
  | zero => rfl
  | succ n ih => simp [leVBytes, ih]

theorem leVal_leVBytes (n x : Nat) (h : x < 256 ^ n) : leVal (leVBytes n x) = x := by
  induction n generalizing x with
  | zero => simp only [Nat.pow_zero] at h; simp only [leVBytes, leVal]; omega
  | succ n ih =>
    rw [Nat.pow_succ] at h
    simp only [leVBytes, leVal]
    rw [ih (x / 256) (by omega)]
    have : (UInt8.ofNat (x % 256)).toNat = x % 256 := by rw [UInt8.toNat_ofNat']; omega
    rw [this]; omega

theorem leVal_lt (b : Bytes) : leVal b < 256 ^ b.length := by
  induction b with
  | nil => simp [leVal]
  | cons x b ih =>
    simp only [leVal, List.length_cons, Nat.pow_succ]
    have := x.toNat_lt
    omega

theorem Entry.length (e : Entry) : e.bytes.length = 20 + e.name.length + e.pad.length := by
  simp [Entry.bytes, leVBytes_length]; omega

theorem drop_len_append {α : Type} (a b : List α) (n : Nat) (h : a.length = n) : (a ++ b).drop n = b := by rw [← h]; simp
theorem take_len_append {α : Type} (a b : List α) (n : Nat) (h : a.length = n) : (a ++ b).take n = a := by rw [← h]; simp

theorem readInt_at (a b c : Bytes) (off size : Nat) (h1 : a.length = off) (h2 : b.length = size) : readInt (a ++ (b ++ c)) off size = some (leVal b) := by
  unfold readInt
  rw [if_neg (by simp; omega), drop_len_append a _ off h1, take_len_append b c size h2]

theorem takeWhile_nul (a b : Bytes) (h : 0 ∉ a) : untilNul (a ++ 0 :: b) = a := by
  unfold untilNul
  rw [List.takeWhile_append_of_pos]
  · simp
  · intro x hx; simp only [bne_iff_ne, ne_eq]; intro h'; subst h'; exact h hx

theorem nextDirent_entry (e : Entry) (h : e.Valid) (rest : Bytes) :
    nextDirent (e.bytes ++ rest) = .ret rest (if e.ino = 0 then [] else e.name) e.listed := by
  have hlen := e.length
  have hr : ∀ r, readInt (e.bytes ++ r) 16 2 = some (20 + e.name.length + e.pad.length) := by
    intro r
    have hsh : e.bytes ++ r = (leVBytes 8 e.ino ++ leVBytes 8 e.off) ++ (leVBytes 2 (20 + e.name.length + e.pad.length) ++ ([e.typ] ++ e.name ++ 0 :: e.pad ++ r)) := by
      simp [Entry.bytes]
    rw [hsh, readInt_at _ _ _ 16 2 (by simp [leVBytes_length]) (leVBytes_length _ _), leVal_leVBytes _ _ h.len]
  have hr0 : readInt e.bytes 16 2 = some (20 + e.name.length + e.pad.length) := by simpa using hr []
  have hi : readInt e.bytes 0 8 = some e.ino := by
    have hsh : e.bytes = [] ++ (leVBytes 8 e.ino ++ (leVBytes 8 e.off ++ leVBytes 2 (20 + e.name.length + e.pad.length) ++ [e.typ] ++ e.name ++ 0 :: e.pad)) := by simp [Entry.bytes]
    rw [hsh, readInt_at _ _ _ 0 8 rfl (leVBytes_length _ _), leVal_leVBytes _ _ h.ino]
  unfold nextDirent direntReadReclen
  rw [hr rest]
  simp only
  rw [if_neg (by simp [hlen])]
  rw [take_len_append _ _ _ hlen, drop_len_append _ _ _ hlen]
  simp only [direntReadIno, hi]
  by_cases hz : e.ino = 0
  · rw [if_pos hz, if_pos hz]; simp [Entry.listed, hz]
  · rw [if_neg hz, if_neg hz]
    simp only [direntReadNamlen, direntReadReclen, hr0]
    have hv := h.len
    have e1 : u64 (((20 + e.name.length + e.pad.length : Nat) : Int) - nameOffset) = 1 + e.name.length + e.pad.length := by
      simp only [u64, nameOffset]; omega
    rw [e1]
    have e2 : u64 ((nameOffset : Int) + ((1 + e.name.length + e.pad.length : Nat) : Int)) = 20 + e.name.length + e.pad.length := by
      simp only [u64, nameOffset]; omega
    rw [e2, hlen, if_neg (by omega), if_neg (by simp only [nameOffset]; omega)]
    have e3 : (e.bytes.take (20 + e.name.length + e.pad.length)).drop nameOffset = e.name ++ 0 :: e.pad := by
      rw [List.take_of_length_le (by omega)]
      have hsh : e.bytes = (leVBytes 8 e.ino ++ leVBytes 8 e.off ++ leVBytes 2 (20 + e.name.length + e.pad.length) ++ [e.typ]) ++ (e.name ++ 0 :: e.pad) := by simp [Entry.bytes]
      rw [hsh]
      exact drop_len_append _ _ _ (by simp [leVBytes_length, nameOffset])
    rw [e3, takeWhile_nul _ _ h.name]
    have e4 : ".".toUTF8.toList = [46] := by decide +kernel
    have e5 : "..".toUTF8.toList = [46, 46] := by decide +kernel
    simp only [Entry.listed, hz, e4, e5, ne_eq, not_false_eq_true, decide_true, Bool.true_and]

theorem readBuf_entries (es : List Entry) (h : ∀ e ∈ es, e.Valid) (acc : List Bytes) :
    readBuf (es.map Entry.bytes).flatten acc = .names (acc ++ (es.filter Entry.listed).map Entry.name) := by
  induction es generalizing acc with
  | nil => rw [readBuf]; simp
  | cons e es ih =>
    have hlen := e.length
    rw [readBuf, List.map_cons, List.flatten_cons]
    rw [if_neg (by intro hh; have := congrArg List.length hh; simp [hlen] at this)]
    rw [nextDirent_entry e (h e (by simp))]
    simp only
    rw [dif_pos (by simp; omega), ih (fun x hx => h x (by simp [hx]))]
    by_cases hl : e.listed = true
    · have hz : ¬ e.ino = 0 := by intro hz; simp [Entry.listed, hz] at hl
      simp [hl, hz]
    · simp [hl]

/-- **C37.** For any directory, however the kernel divides its entries into buffers: reading them all yields the names of the entries in use other than `.` and `..`, in order,
without panic or endless loop. -/
theorem C37_names (bufs : List (List Entry)) (h : ∀ es ∈ bufs, ∀ e ∈ es, e.Valid) :
    readDir (bufs.map (fun es => (es.map Entry.bytes).flatten)) [] = .names ((bufs.flatten.filter Entry.listed).map Entry.name) := by
  have hg : ∀ acc, readDir (bufs.map (fun es => (es.map Entry.bytes).flatten)) acc = .names (acc ++ (bufs.flatten.filter Entry.listed).map Entry.name) := by
    induction bufs with
    | nil => intro acc; simp [readDir]
    | cons b bs ih =>
      intro acc
      rw [List.map_cons, readDir, readBuf_entries b (h b (by simp))]
      simp only
      rw [ih (fun x hx => h x (by simp [hx]))]
      simp
  simpa using hg []

/-- **C37**, one step: an entry at the front is consumed exactly, so the decoder makes progress whatever follows it. -/
theorem C37_step (e : Entry) (h : e.Valid) (rest : Bytes) : ∃ name, nextDirent (e.bytes ++ rest) = .ret rest name e.listed ∧ (e.listed = true → name = e.name) := by
  refine ⟨_, nextDirent_entry e h rest, fun hl => ?_⟩
  have hz : ¬ e.ino = 0 := by intro hz; simp [Entry.listed, hz] at hl
  rw [if_neg hz]

/-- **C37**, arbitrary bytes (a kernel that does not keep to the format): the record length decides. There is progress unless a record of length 0 is claimed, and
a panic only for a record of length 18. -/
theorem C37_any (buf : Bytes) (hb : buf ≠ []) :
    (nextDirent buf = .panic → direntReadReclen buf = some 18) ∧
    ∀ buf' name ok, nextDirent buf = .ret buf' name ok →
      (buf'.length < buf.length ∨ (direntReadReclen buf = some 0 ∧ buf' = buf ∧ ok = false)) ∧ (∃ k, buf' = buf.drop k) ∧
      (ok = true → name ≠ [46] ∧ name ≠ [46, 46] ∧ 0 ∉ name) := by
  have hpos : 0 < buf.length := List.length_pos_iff.mpr hb
  unfold nextDirent
  cases hr : direntReadReclen buf with
  | none => simp [hpos]; exact ⟨buf.length, by simp⟩
  | some r =>
    simp only
    by_cases h1 : r > buf.length
    · rw [if_pos h1]; simp [hpos]; exact ⟨buf.length, by simp⟩
    · rw [if_neg h1]
      have hr' : r < 65536 := by
        unfold direntReadReclen readInt at hr
        split at hr
        · cases hr
        · cases hr
          refine Nat.lt_of_lt_of_le (leVal_lt _) ?_
          refine Nat.le_trans (Nat.pow_le_pow_right (by omega) (i := (List.take 2 (List.drop 16 buf)).length) (j := 2) ?_) (by decide)
          simp; omega
      have prog : (buf.drop r).length < buf.length ∨ (some r = some 0 ∧ buf.drop r = buf ∧ false = false) := by
        by_cases h0 : r = 0
        · exact Or.inr ⟨by rw [h0], by rw [h0]; rfl, rfl⟩
        · left; simp; omega
      cases hi : direntReadIno (buf.take r) with
      | none =>
        refine ⟨fun h => (by cases h), fun buf' name ok h => ?_⟩
        cases h; exact ⟨prog, ⟨r, rfl⟩, by simp⟩
      | some ino =>
        simp only
        by_cases hz : ino = 0
        · rw [if_pos hz]
          refine ⟨fun h => (by cases h), fun buf' name ok h => ?_⟩
          cases h; exact ⟨prog, ⟨r, rfl⟩, by simp⟩
        · rw [if_neg hz]
          unfold direntReadNamlen
          cases hn : direntReadReclen (buf.take r) with
          | none =>
            refine ⟨fun h => (by cases h), fun buf' name ok h => ?_⟩
            cases h; exact ⟨prog, ⟨r, rfl⟩, by simp⟩
          | some r2 =>
            simp only
            have hlen : (buf.take r).length = r := by simp; omega
            have hge : 18 ≤ r := by
              unfold direntReadReclen readInt at hn
              split at hn
              · cases hn
              · omega
            have h22 : r2 = r := by
              unfold direntReadReclen readInt at hn hr
              rw [if_neg (by omega)] at hn hr
              have : (List.drop 16 (buf.take r)).take 2 = (buf.drop 16).take 2 := by
                rw [List.drop_take, List.take_take, Nat.min_eq_left (by omega)]
              rw [this] at hn
              rw [hn] at hr; exact Option.some.inj hr
            subst h22
            rw [hlen]
            have e2 : u64 ((nameOffset : Int) + ((u64 ((r2 : Int) - nameOffset) : Nat) : Int)) = r2 := by
              simp only [u64, nameOffset]; omega
            rw [e2, if_neg (by omega)]
            by_cases h18 : r2 < nameOffset
            · rw [if_pos h18]
              simp only [nameOffset] at h18
              refine ⟨fun _ => by rw [show r2 = 18 by omega], fun buf' name ok h => by cases h⟩
            · rw [if_neg h18]
              refine ⟨fun h => (by cases h), fun buf' name ok h => ?_⟩
              cases h
              refine ⟨Or.inl (by simp; omega), ⟨r2, rfl⟩, fun hok => ?_⟩
              simp only [Bool.and_eq_true, decide_eq_true_eq] at hok
              refine ⟨hok.1, hok.2, fun hmem => ?_⟩
              have := List.all_takeWhile (l := ((buf.take r2).take r2).drop nameOffset) (p := (· != 0))
              have := List.all_eq_true.mp this 0 hmem
              simp at this

/-- A directory with `.`, `..`, a deleted entry and three names, in two buffers. -/
theorem C37_example :
    let mk (i : Nat) (n : Bytes) : Entry := ⟨i, 7, 4, n, [1, 2]⟩
    (∀ es ∈ [[mk 5 [46], mk 6 [46, 46], mk 7 [49, 46, 100]], [mk 0 [97], mk 258 [98, 99], mk 9 [46, 46, 46]]], ∀ e ∈ es, e.Valid) ∧
    readDir ([[mk 5 [46], mk 6 [46, 46], mk 7 [49, 46, 100]], [mk 0 [97], mk 258 [98, 99], mk 9 [46, 46, 46]]].map (fun es => (es.map Entry.bytes).flatten)) [] =
      .names [[49, 46, 100], [98, 99], [46, 46, 46]] := by
  intro mk
  have hv : ∀ es ∈ [[mk 5 [46], mk 6 [46, 46], mk 7 [49, 46, 100]], [mk 0 [97], mk 258 [98, 99], mk 9 [46, 46, 46]]], ∀ e ∈ es, e.Valid := by
    intro es hes e he
    simp only [List.mem_cons, List.not_mem_nil, or_false] at hes
    rcases hes with rfl | rfl <;> simp only [List.mem_cons, List.not_mem_nil, or_false] at he <;> rcases he with rfl | rfl | rfl <;>
      exact ⟨by decide, by decide, by decide⟩
  refine ⟨hv, ?_⟩
  rw [C37_names _ hv]
  decide +kernel

end Rothko
