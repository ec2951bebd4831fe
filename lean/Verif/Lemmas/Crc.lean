import Verif.Lemmas.Record
/-! Injectivity of the CRC register updates. -/
namespace Rothko

theorem crcStep_xor (x y : BitVec 32) : crcStep (x ^^^ y) = crcStep x ^^^ crcStep y := by
  unfold crcStep
  rw [BitVec.getLsbD_xor, BitVec.ushiftRight_xor_distrib]
  cases x.getLsbD 0 <;> cases y.getLsbD 0 <;> simp
  · ac_rfl
  · ac_rfl
  · calc x >>> 1 ^^^ y >>> 1 = (x >>> 1 ^^^ y >>> 1) ^^^ (castagnoli ^^^ castagnoli) := by simp
      _ = _ := by ac_rfl

theorem crcStep_eq_zero (z : BitVec 32) (h : crcStep z = 0#32) : z = 0#32 := by
  unfold crcStep at h
  split at h
  · exfalso
    have := congrArg (fun b => b.getLsbD 31) h
    simp [castagnoli] at this
  · rename_i h0
    apply BitVec.eq_of_getLsbD_eq
    intro i hi
    match i with
    | 0 => simpa using h0
    | i + 1 =>
      have := congrArg (fun b => b.getLsbD i) h
      simpa [Nat.add_comm] using this

theorem xor_eq_zero {x y : BitVec n} (h : x ^^^ y = 0#n) : x = y := by
  have : x ^^^ y ^^^ y = y := by rw [h]; simp
  rwa [BitVec.xor_assoc, BitVec.xor_self, BitVec.xor_zero] at this

theorem crcStep_inj {x y : BitVec 32} (h : crcStep x = crcStep y) : x = y := by
  apply xor_eq_zero
  apply crcStep_eq_zero
  rw [crcStep_xor, h, BitVec.xor_self]

theorem iter_crcStep_inj (n : Nat) {x y : BitVec 32} (h : iter crcStep n x = iter crcStep n y) : x = y := by
  induction n generalizing x y with
  | zero => exact h
  | succ n ih => exact crcStep_inj (ih h)

theorem iter_crcStep_xor (n : Nat) (x y : BitVec 32) :
    iter crcStep n (x ^^^ y) = iter crcStep n x ^^^ iter crcStep n y := by
  induction n generalizing x y with
  | zero => rfl
  | succ n ih => simp only [iter]; rw [crcStep_xor, ih]

theorem iter_add (f : α → α) (m n : Nat) (x : α) : iter f (m + n) x = iter f n (iter f m x) := by
  induction m generalizing x with
  | zero => simp [iter]
  | succ m ih => rw [Nat.succ_add]; simp only [iter]; exact ih _

/-- Running the register over `k` zero low bits is a plain shift. -/
theorem iter_crcStep_shl (k : Nat) (x : BitVec 32) (hx : ∀ i, 32 - k ≤ i → x.getLsbD i = false) (hk : k ≤ 32) :
    iter crcStep k (x <<< k) = x := by
  induction k with
  | zero => simp [iter]
  | succ k ih =>
    have h1 : crcStep (x <<< (k + 1)) = x <<< k := by
      unfold crcStep
      rw [if_neg (by simp)]
      apply BitVec.eq_of_getLsbD_eq
      intro i hi
      simp only [BitVec.getLsbD_ushiftRight, BitVec.getLsbD_shiftLeft]
      by_cases h31 : i = 31
      · subst h31
        have := hx (31 - k) (by omega)
        simp [this]
      · have e1 : 1 + i - (k + 1) = i - k := by omega
        rw [e1]
        have e2 : decide (1 + i < 32) = decide (i < 32) := by simp; omega
        have e3 : decide (1 + i < k + 1) = decide (i < k) := by
          congr 1; apply propext; constructor <;> (intro _; omega)
        rw [e2, e3]
    simp only [iter]
    rw [h1]
    exact ih (fun i hi => hx i (by omega)) (by omega)

/-- The table-driven byte update is eight bit steps on the register xored with the byte. -/
theorem crcByte_eq (c : BitVec 32) (v : UInt8) :
    crcByte c v = iter crcStep 8 (c ^^^ v.toBitVec.setWidth 32) := by
  have hsplit : c ^^^ v.toBitVec.setWidth 32
      = (c.setWidth 8 ^^^ v.toBitVec).setWidth 32 ^^^ ((c >>> 8) <<< 8) := by
    apply BitVec.eq_of_getLsbD_eq
    intro i hi
    simp only [BitVec.getLsbD_xor, BitVec.getLsbD_setWidth, BitVec.getLsbD_shiftLeft, BitVec.getLsbD_ushiftRight, hi]
    by_cases h8 : i < 8
    · simp [h8]
    · have h9 : v.toBitVec.getLsbD i = false := BitVec.getLsbD_of_ge _ _ (by omega)
      have h10 : 8 + (i - 8) = i := by omega
      simp [h8, h9, h10]
  rw [hsplit, iter_crcStep_xor]
  unfold crcByte castTable
  congr 1
  symm
  apply iter_crcStep_shl _ _ _ (by omega)
  intro i hi
  simp only [BitVec.getLsbD_ushiftRight]
  exact BitVec.getLsbD_of_ge _ _ (by omega)

/-- The bytes as one little-endian word. -/
def leWord : Bytes → BitVec 32
  | [] => 0#32
  | b :: t => b.toBitVec.setWidth 32 ^^^ (leWord t <<< 8)

theorem leWord_high (l : Bytes) (i : Nat) (h : 8 * l.length ≤ i) : (leWord l).getLsbD i = false := by
  induction l generalizing i with
  | nil => simp [leWord]
  | cons b t ih =>
    simp only [List.length_cons] at h
    simp only [leWord, BitVec.getLsbD_xor, BitVec.getLsbD_setWidth, BitVec.getLsbD_shiftLeft]
    rw [ih (i - 8) (by omega), BitVec.getLsbD_of_ge b.toBitVec i (by omega)]
    simp

theorem foldl_crcByte (l : Bytes) (hl : l.length ≤ 4) (s : BitVec 32) :
    l.foldl crcByte s = iter crcStep (8 * l.length) (s ^^^ leWord l) := by
  induction l generalizing s with
  | nil => simp [leWord, iter]
  | cons b t ih =>
    simp only [List.length_cons] at hl
    rw [List.foldl_cons, ih (by omega), crcByte_eq]
    have h1 : leWord t = iter crcStep 8 (leWord t <<< 8) := by
      symm; apply iter_crcStep_shl _ _ _ (by omega)
      intro i hi; exact leWord_high t i (by omega)
    conv => lhs; rw [h1]
    rw [← iter_crcStep_xor, ← iter_add, List.length_cons, leWord]
    congr 1
    · omega
    · rw [BitVec.xor_assoc]

theorem leWord_inj (a b : Bytes) (hl : a.length = b.length) (h4 : a.length ≤ 4) (h : leWord a = leWord b) : a = b := by
  induction a generalizing b with
  | nil => cases b <;> simp_all
  | cons x a ih =>
    match b, hl with
    | y :: b, hl =>
    simp only [List.length_cons] at hl h4
    simp only [leWord] at h
    have hbit (i : Nat) := congrArg (fun z => z.getLsbD i) h
    simp only [BitVec.getLsbD_xor, BitVec.getLsbD_setWidth, BitVec.getLsbD_shiftLeft] at hbit
    have hxy : x = y := by
      apply UInt8.eq_of_toBitVec_eq
      apply BitVec.eq_of_getLsbD_eq
      intro i hi
      have := hbit i
      simpa [show i < 32 by omega, hi] using this
    have hab : leWord a = leWord b := by
      apply BitVec.eq_of_getLsbD_eq
      intro i hi
      by_cases h24 : i < 24
      · have := hbit (i + 8)
        rw [hxy] at this
        simpa [show i + 8 < 32 by omega, show ¬ (i + 8 < 8) by omega] using this
      · rw [leWord_high a i (by omega), leWord_high b i (by omega)]
    rw [hxy, ih b (by omega) (by omega) hab]

theorem crcByte_inj_state (v : UInt8) {s t : BitVec 32} (h : crcByte s v = crcByte t v) : s = t := by
  rw [crcByte_eq, crcByte_eq] at h
  have := iter_crcStep_inj 8 h
  have h2 := congrArg (· ^^^ v.toBitVec.setWidth 32) this
  simpa [BitVec.xor_assoc] using h2

theorem foldl_crcByte_inj_state (l : Bytes) {s t : BitVec 32} (h : l.foldl crcByte s = l.foldl crcByte t) : s = t := by
  induction l generalizing s t with
  | nil => exact h
  | cons v l ih => exact crcByte_inj_state v (ih h)

/-- Two byte strings that differ only in a window of at most four bytes have different checksums. -/
theorem crcUpdate_burst (c : BitVec 32) (p old new q : Bytes) (hl : new.length = old.length) (h4 : old.length ≤ 4)
    (h : crcUpdate c (p ++ (old ++ q)) = crcUpdate c (p ++ (new ++ q))) : old = new := by
  unfold crcUpdate at h
  have h1 := congrArg (~~~ ·) h
  simp only [BitVec.not_not, List.foldl_append] at h1
  have h2 := foldl_crcByte_inj_state q h1
  generalize p.foldl crcByte (~~~ c) = s at h2
  rw [foldl_crcByte old h4, foldl_crcByte new (by omega), hl] at h2
  have h3 := iter_crcStep_inj _ h2
  have h4' := congrArg (s ^^^ ·) h3
  simp only [← BitVec.xor_assoc, BitVec.xor_self, BitVec.zero_xor] at h4'
  exact leWord_inj _ _ hl.symm h4 h4'

theorem crcUpdate_append (c : BitVec 32) (a b : Bytes) : crcUpdate (crcUpdate c a) b = crcUpdate c (a ++ b) := by
  simp [crcUpdate]

theorem recCrc_eq (h d : Bytes) : recCrc h d = crcUpdate 0#32 (h ++ d) := crcUpdate_append _ _ _

/-- An accepted buffer has a matching checksum. -/
theorem parse_ok_crc (h c d suf : Bytes) (hh : h.length = 20) (hc : c.length = 4)
    (hd : d.length = beNat (h.drop 18)) (r : Rec) (hp : parse (h ++ (c ++ (d ++ suf))) = .ok r) :
    (crcUpdate 0#32 (h ++ d)).toNat = beNat c := by
  have e18 : slice (h ++ (c ++ (d ++ suf))) 18 20 = h.drop 18 := by
    rw [slice_append_left _ _ _ _ (by omega)]
    simp [slice, ← hh]
  have hsz : (UInt16.ofNat (beNat (h.drop 18))).toNat = d.length := by
    rw [hd]
    have := beNat_lt (h.drop 18)
    have h2 : (h.drop 18).length = 2 := by simp [hh]
    rw [h2] at this
    rw [UInt16.toNat_ofNat', Nat.mod_eq_of_lt (by simpa using this)]
  have ecrc : slice (h ++ (c ++ (d ++ suf))) 20 24 = c := by
    rw [slice_append_right _ _ _ _ (by omega), slice_append_left _ _ _ _ (by omega)]
    simp [hh, hc]
  have edat : slice (h ++ (c ++ (d ++ suf))) 24 (24 + d.length) = d := by
    rw [slice_append_right _ _ _ _ (by omega), slice_append_right _ _ _ _ (by omega),
      slice_append_left _ _ _ _ (by omega)]
    simp only [hh, hc]
    rw [show 24 - 20 - 4 = 0 from rfl, slice_full _ _ (by omega)]
  have eh : slice (h ++ (c ++ (d ++ suf))) 0 20 = h := by
    rw [slice_append_left _ _ _ _ (by omega)]; simp [hh]
  have e24 : recordHeaderSize = 24 := rfl
  simp only [parse, e24, show 24 - 4 = 20 from rfl, e18, hsz, ecrc, edat, eh] at hp
  split at hp
  · cases hp
  split at hp
  · cases hp
  split at hp
  · cases hp
  split at hp
  · cases hp
  rename_i h1
  rw [← recCrc_eq]
  simpa using h1

end Rothko
