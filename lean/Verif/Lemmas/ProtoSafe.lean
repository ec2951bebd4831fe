import Verif.Lemmas.Proto
import Verif.Model.DataRecord
/-! Termination and absence of panics of the generated unmarshalling code. -/
namespace Rothko

/-- Never out of fuel, and successful results satisfy `P`. -/
def NoStuck (x : Outcome α) (P : α → Prop) : Prop :=
  match x with
  | .ok a => P a
  | .err _ => True
  | .panic => True
  | .stuck => False

/-- Never out of fuel, never a panic, and successful results satisfy `P`. -/
def Safe (x : Outcome α) (P : α → Prop) : Prop :=
  match x with
  | .ok a => P a
  | .err _ => True
  | .panic => False
  | .stuck => False

theorem NoStuck.bind {x : Outcome α} {P : α → Prop} {f : α → Outcome β} {Q : β → Prop}
    (hx : NoStuck x P) (hf : ∀ a, P a → NoStuck (f a) Q) : NoStuck (x >>= f) Q := by
  cases x <;> simp_all [NoStuck]

theorem Safe.bind {x : Outcome α} {P : α → Prop} {f : α → Outcome β} {Q : β → Prop}
    (hx : Safe x P) (hf : ∀ a, P a → Safe (f a) Q) : Safe (x >>= f) Q := by
  cases x <;> simp_all [Safe]

theorem Safe.noStuck {x : Outcome α} {P : α → Prop} (h : Safe x P) : NoStuck x P := by
  cases x <;> simp_all [Safe, NoStuck]

theorem byteAt_neg (d : Bytes) (i : Int) (h : i < 0) : byteAt d i = .panic := by
  unfold byteAt; rw [if_neg (by omega), if_pos h]

theorem readVarint_neg (d : Bytes) (i : Int) (h : i < 0) : readVarint d i = .panic := by
  unfold readVarint readVarintLoop; rw [byteAt_neg d i h]; rfl

theorem readVarintLoop_safe (d : Bytes) (n shift : Nat) (acc : BitVec 64) (i : Int) (hi : 0 ≤ i) :
    Safe (readVarintLoop d n shift acc i) (fun r => i < r.2 ∧ r.2 ≤ d.length) := by
  induction n generalizing shift acc i with
  | zero => simp [readVarintLoop, Safe]
  | succ n ih =>
    unfold readVarintLoop byteAt
    by_cases h1 : i ≥ d.length
    · simp [h1, Safe]
    · rw [if_neg h1, if_neg (by omega)]
      simp only [Outcome.ok_bind]
      split
      · simp only [Outcome.pure_eq, Safe]; omega
      · have := ih (shift + 7) (acc ||| ((d.getD i.toNat 0).toBitVec.setWidth 64 &&& 0x7f#64) <<< shift) (i + 1) (by omega)
        revert this
        generalize readVarintLoop d n _ _ _ = x
        cases x <;> simp [Safe]; omega

theorem readVarint_safe (d : Bytes) (i : Int) (hi : 0 ≤ i) :
    Safe (readVarint d i) (fun r => i < r.2 ∧ r.2 ≤ d.length) := readVarintLoop_safe d 10 0 0#64 i hi

/-- No eight consecutive bytes all have the continuation bit set. -/
def NoRun (d : Bytes) : Prop := ∀ i, i + 8 ≤ d.length → ∃ j, i ≤ j ∧ j < i + 8 ∧ d.getD j 0 < 0x80

theorem NoRun.drop {d : Bytes} (h : NoRun d) (k : Nat) : NoRun (d.drop k) := by
  intro i hi
  simp only [List.length_drop] at hi
  by_cases hk : k ≤ d.length
  · obtain ⟨j, h1, h2, h3⟩ := h (k + i) (by omega)
    refine ⟨j - k, by omega, by omega, ?_⟩
    simpa [List.getD_eq_getElem?_getD, show k + (j - k) = j by omega] using h3
  · omega

theorem readVarintLoop_small (d : Bytes) (hd : NoRun d) (n k : Nat) (acc : BitVec 64) (i : Int) (hi : 0 ≤ i) (hk : k ≤ 7) (hki : (k : Int) ≤ i)
    (hrun : ∀ j : Nat, i - k ≤ j → (j : Int) < i → 0x80 ≤ (d.getD j 0)) (hacc : acc.toNat < 2 ^ (7 * k)) :
    ∀ v j, readVarintLoop d n (7 * k) acc i = .ok (v, j) → v.toNat < 2 ^ 56 := by
  induction n generalizing k acc i with
  | zero => intro v j h; simp [readVarintLoop] at h
  | succ n ih =>
    intro v j h
    unfold readVarintLoop byteAt at h
    by_cases h1 : i ≥ d.length
    · rw [if_pos h1] at h; simp at h
    · rw [if_neg h1, if_neg (by omega)] at h
      simp only [Outcome.ok_bind, Outcome.pure_eq] at h
      generalize hb : d.getD i.toNat 0 = b at h
      have hacc' : (acc ||| (b.toBitVec.setWidth 64 &&& 0x7f#64) <<< (7 * k)).toNat < 2 ^ (7 * (k + 1)) := by
        rw [BitVec.toNat_or]
        apply Nat.or_lt_two_pow
        · exact Nat.lt_of_lt_of_le hacc (Nat.pow_le_pow_right (by omega) (by omega))
        · rw [BitVec.toNat_shiftLeft, BitVec.toNat_and]
          have h7 : (b.toBitVec.setWidth 64).toNat &&& (0x7f#64).toNat < 2 ^ 7 :=
            Nat.and_lt_two_pow _ (by decide)
          refine Nat.lt_of_le_of_lt (Nat.mod_le _ _) ?_
          rw [Nat.shiftLeft_eq, show 7 * (k + 1) = 7 + 7 * k by omega, Nat.pow_add]
          exact Nat.mul_lt_mul_of_pos_right h7 (Nat.two_pow_pos _)
      split at h
      · simp only [Outcome.ok.injEq, Prod.mk.injEq] at h
        rw [← h.1]
        exact Nat.lt_of_lt_of_le hacc' (Nat.pow_le_pow_right (by omega) (by omega))
      · rename_i hge
        have hrun' : ∀ j : Nat, i + 1 - (k + 1 : Nat) ≤ j → (j : Int) < i + 1 → 0x80 ≤ (d.getD j 0) := by
          intro j hj1 hj2
          by_cases hj : (j : Int) < i
          · exact hrun j (by omega) hj
          · have : j = i.toNat := by omega
            rw [this, hb]; exact UInt8.not_lt.mp hge
        by_cases hk6 : k = 7
        · exfalso
          subst hk6
          obtain ⟨j, j1, j2, j3⟩ := hd (i.toNat - 7) (by omega)
          have := hrun' j (by omega) (by omega)
          exact absurd j3 (UInt8.not_lt.mpr this)
        · exact ih (k + 1) _ (i + 1) (by omega) (by omega) (by omega) hrun' hacc' v j h

theorem readVarint_small {d : Bytes} (hd : NoRun d) (i : Int) (hi : 0 ≤ i) :
    Safe (readVarint d i) (fun r => i < r.2 ∧ r.2 ≤ d.length ∧ r.1.toNat < 2 ^ 56) := by
  have h1 := readVarint_safe d i hi
  have h2 := readVarintLoop_small d hd 10 0 0#64 i hi (by omega) (by omega) (by intro j h h'; omega) (by simp)
  revert h1
  cases h : readVarint d i with
  | ok r => simp only [Safe]; intro h'; exact ⟨h'.1, h'.2, h2 r.1 r.2 h⟩
  | err e => simp [Safe]
  | panic => simp [Safe]
  | stuck => simp [Safe]

theorem toInt_small (v : BitVec 64) (h : v.toNat < 2 ^ 56) : v.toInt = v.toNat := by
  rw [BitVec.toInt_eq_toNat_cond]; rw [if_pos (by omega)]

theorem wrap64_id (x : Int) (h : -2 ^ 63 ≤ x) (h' : x < 2 ^ 63) : wrap64 x = x := by
  unfold wrap64; apply Int.bmod_eq_of_le <;> omega

theorem wrap64_range (x : Int) : -2 ^ 63 ≤ wrap64 x ∧ wrap64 x < 2 ^ 63 := by
  have h1 := Int.le_bmod (x := x) (m := 2 ^ 64) (by decide)
  have h2 := Int.bmod_lt (x := x) (m := 2 ^ 64) (by decide)
  unfold wrap64; omega

theorem wrap64_over (x : Int) (h : 2 ^ 63 ≤ x) (h' : x < 2 ^ 63 + 2 ^ 62) : wrap64 x = x - 2 ^ 64 := by
  have : Int.bmod x (2 ^ 64) = Int.bmod (x - 2 ^ 64) (2 ^ 64) := by
    exact (Int.sub_bmod_right x (2 ^ 64)).symm
  unfold wrap64; rw [this]; apply Int.bmod_eq_of_le <;> omega

/-- `skipRecord` terminates: with enough fuel it is never stuck; a result is positive or far negative (after wrap-around). -/
theorem skip_noStuck (fuel : Nat) :
    (∀ d : Bytes, 2 * d.length + 1 ≤ fuel → d.length < 2 ^ 60 → NoStuck (skipField fuel d) (fun n => (1 ≤ n ∧ n < 2 ^ 63) ∨ (n < -2 ^ 62 ∧ -2 ^ 63 ≤ n))) ∧
    (∀ (d : Bytes) (i : Int), (0 ≤ i → i ≤ d.length → 2 * ((d.length : Int) - i) + 2 ≤ fuel) → 1 ≤ fuel → d.length < 2 ^ 60 →
      NoStuck (skipGroup fuel d i) (fun n => 1 ≤ n ∧ n ≤ d.length)) := by
  induction fuel with
  | zero => exact ⟨fun d h => by omega, fun d i _ h => by omega⟩
  | succ fuel ih =>
    constructor
    · intro d hf hl
      unfold skipField
      split
      · simp [NoStuck]
      · refine (readVarint_safe d 0 (by omega)).noStuck.bind ?_
        rintro ⟨wire, i⟩ ⟨hi1, hi2⟩
        simp only at hi1 hi2 ⊢
        split
        · refine (readVarint_safe d i (by omega)).noStuck.bind ?_
          rintro ⟨_, j⟩ ⟨h1, h2⟩
          simp only at h1 h2
          simp only [Outcome.pure_eq, NoStuck]; omega
        · simp only [Outcome.pure_eq, NoStuck]; rw [wrap64_id _ (by omega) (by omega)]; omega
        · refine (readVarint_safe d i (by omega)).noStuck.bind ?_
          rintro ⟨len, j⟩ ⟨h1, h2⟩
          simp only at h1 h2 ⊢
          split
          · simp [NoStuck]
          · rename_i hnn
            simp only [Outcome.pure_eq, NoStuck]
            have hl1 := BitVec.toInt_lt (x := len)
            simp only [show 64 - 1 = 63 from rfl] at hl1
            by_cases hb : j + len.toInt < 2 ^ 63
            · rw [wrap64_id _ (by omega) hb]; omega
            · rw [wrap64_over _ (by omega) (by omega)]; omega
        · have := ih.2 d i (by intro _ _; omega) (by omega) hl
          revert this
          cases skipGroup fuel d i <;> simp [NoStuck]; omega
        · simp only [Outcome.pure_eq, NoStuck]; omega
        · simp only [Outcome.pure_eq, NoStuck]; rw [wrap64_id _ (by omega) (by omega)]; omega
        · simp [NoStuck]
    · intro d i hf _ hl
      unfold skipGroup
      by_cases hneg : i < 0
      · rw [readVarint_neg d i hneg]; simp [NoStuck]
      · by_cases hge : i ≥ d.length
        · have : readVarint d i = .err .eof := by
            unfold readVarint readVarintLoop byteAt; rw [if_pos hge]; rfl
          rw [this]; simp [NoStuck]
        refine (readVarint_safe d i (by omega)).noStuck.bind ?_
        rintro ⟨inner, j⟩ ⟨h1, h2⟩
        simp only at h1 h2 ⊢
        split
        · simp only [Outcome.pure_eq, NoStuck]; omega
        · have hf' := hf (by omega) (by omega)
          refine (ih.1 (d.drop i.toNat) (by simp only [List.length_drop]; omega) (by simp only [List.length_drop]; omega)).bind ?_
          intro next hnext
          apply ih.2 d _ _ (by omega) hl
          intro h0 h1'
          rcases hnext with ⟨hn1, hn2⟩ | ⟨hn1, hn2⟩
          · by_cases hb : i + next < 2 ^ 63
            · rw [wrap64_id _ (by omega) hb] at *; omega
            · rw [wrap64_over _ (by omega) (by omega)] at *; omega
          · rw [wrap64_id _ (by omega) (by omega)] at *; omega

/-- Without long runs of continuation bytes `skipRecord` does not panic and its result is in range. -/
theorem skip_safe (fuel : Nat) :
    (∀ d : Bytes, 2 * d.length + 1 ≤ fuel → d.length < 2 ^ 60 → NoRun d → d ≠ [] →
      Safe (skipField fuel d) (fun n => 1 ≤ n ∧ n < 2 ^ 62)) ∧
    (∀ (d : Bytes) (i : Int), 0 ≤ i → (i ≤ d.length → 2 * ((d.length : Int) - i) + 2 ≤ fuel) → 1 ≤ fuel → d.length < 2 ^ 60 → NoRun d →
      Safe (skipGroup fuel d i) (fun n => 1 ≤ n ∧ n ≤ d.length)) := by
  induction fuel with
  | zero => exact ⟨fun d h => by omega, fun d i _ _ h => by omega⟩
  | succ fuel ih =>
    constructor
    · intro d hf hl hd hne
      unfold skipField
      split
      · rename_i h; exact absurd (List.eq_nil_of_length_eq_zero h) hne
      · refine (readVarint_safe d 0 (by omega)).bind ?_
        rintro ⟨wire, i⟩ ⟨hi1, hi2⟩
        simp only at hi1 hi2 ⊢
        split
        · refine (readVarint_safe d i (by omega)).bind ?_
          rintro ⟨_, j⟩ ⟨h1, h2⟩
          simp only at h1 h2
          simp only [Outcome.pure_eq, Safe]; omega
        · simp only [Outcome.pure_eq, Safe]; rw [wrap64_id _ (by omega) (by omega)]; omega
        · refine (readVarint_small hd i (by omega)).bind ?_
          rintro ⟨len, j⟩ ⟨h1, h2, h3⟩
          simp only at h1 h2 h3
          rw [toInt_small len h3]
          split
          · simp [Safe]
          · simp only [Outcome.pure_eq, Safe]
            rw [wrap64_id _ (by omega) (by omega)]; omega
        · have := ih.2 d i (by omega) (by intro _; omega) (by omega) hl hd
          revert this
          cases skipGroup fuel d i <;> simp [Safe]; omega
        · simp only [Outcome.pure_eq, Safe]; omega
        · simp only [Outcome.pure_eq, Safe]; rw [wrap64_id _ (by omega) (by omega)]; omega
        · simp [Safe]
    · intro d i h0 hf _ hl hd
      unfold skipGroup
      · by_cases hge : i ≥ d.length
        · have : readVarint d i = .err .eof := by
            unfold readVarint readVarintLoop byteAt; rw [if_pos hge]; rfl
          rw [this]; simp [Safe]
        refine (readVarint_safe d i (by omega)).bind ?_
        rintro ⟨inner, j⟩ ⟨h1, h2⟩
        simp only at h1 h2 ⊢
        split
        · simp only [Outcome.pure_eq, Safe]; omega
        · have hf' := hf (by omega)
          have hne : d.drop i.toNat ≠ [] := by
            intro h; have := congrArg List.length h; simp only [List.length_drop, List.length_nil] at this; omega
          refine (ih.1 (d.drop i.toNat) (by simp only [List.length_drop]; omega) (by simp only [List.length_drop]; omega) (hd.drop _) hne).bind ?_
          intro next hnext
          rw [wrap64_id _ (by omega) (by omega)]
          apply ih.2 d _ (by omega) _ (by omega) hl hd
          intro h1'; omega

/-- Handlers: never stuck and they do not move backwards. -/
def FieldOk (field : σ → Int → Nat → Bytes → Int → Option (Outcome (σ × Int))) : Prop :=
  ∀ m num wt d (i : Int) r, 0 ≤ i → i ≤ d.length → field m num wt d i = some r → NoStuck r (fun p => i ≤ p.2 ∧ p.2 ≤ d.length)

def FieldSafe (field : σ → Int → Nat → Bytes → Int → Option (Outcome (σ × Int))) : Prop :=
  ∀ m num wt d (i : Int) r, NoRun d → d.length < 2 ^ 60 → 0 ≤ i → i ≤ d.length → field m num wt d i = some r →
    Safe r (fun p => i ≤ p.2 ∧ p.2 ≤ d.length)

theorem unmarshalLoop_noStuck (field : σ → Int → Nat → Bytes → Int → Option (Outcome (σ × Int))) (hfield : FieldOk field) (d : Bytes)
    (hl : d.length < 2 ^ 60) (fuel : Nat) (m : σ) (i : Int) (hf : 1 ≤ fuel) (hf2 : 0 ≤ i → (d.length : Int) < i + fuel) :
    NoStuck (unmarshalLoop field d fuel m i) (fun _ => True) := by
  induction fuel generalizing m i with
  | zero => omega
  | succ fuel ih =>
    unfold unmarshalLoop
    split
    · rename_i hlt
      by_cases hneg : i < 0
      · simp only [readVarint_neg d i hneg]; simp [NoStuck]
      · have hf2' := hf2 (by omega)
        refine (readVarint_safe d i (by omega)).noStuck.bind ?_
        rintro ⟨wire, j⟩ ⟨h1, h2⟩
        simp only at h1 h2 ⊢
        generalize Int.bmod _ (2 ^ 32) = num
        split
        · simp [NoStuck]
        split
        · simp [NoStuck]
        split
        · rename_i r hr
          refine (hfield m _ _ d j r (by omega) (by omega) hr).bind ?_
          rintro ⟨m', k⟩ ⟨hk1, hk2⟩
          simp only at hk1 hk2
          exact ih m' k (by omega) (by intro _; omega)
        · refine ((skip_noStuck (2 * d.length + 2)).1 (d.drop i.toNat) (by simp only [List.length_drop]; omega)
            (by simp only [List.length_drop]; omega)).bind ?_
          intro n hn
          split
          · simp [NoStuck]
          · split
            · simp [NoStuck]
            · apply ih m _ (by omega)
              intro h0
              by_cases hb : i + n < 2 ^ 63
              · rw [wrap64_id _ (by omega) hb] at *; omega
              · rw [wrap64_over _ (by omega) (by omega)] at *; omega
    · split <;> simp [NoStuck]

theorem unmarshalLoop_safe (field : σ → Int → Nat → Bytes → Int → Option (Outcome (σ × Int))) (hfield : FieldSafe field) (d : Bytes)
    (hl : d.length < 2 ^ 60) (hd : NoRun d) (fuel : Nat) (m : σ) (i : Int) (h0 : 0 ≤ i) (hf : 1 ≤ fuel) (hf2 : (d.length : Int) < i + fuel) :
    Safe (unmarshalLoop field d fuel m i) (fun _ => True) := by
  induction fuel generalizing m i with
  | zero => omega
  | succ fuel ih =>
    unfold unmarshalLoop
    split
    · rename_i hlt
      refine (readVarint_safe d i (by omega)).bind ?_
      rintro ⟨wire, j⟩ ⟨h1, h2⟩
      simp only at h1 h2 ⊢
      generalize Int.bmod _ (2 ^ 32) = num
      split
      · simp [Safe]
      split
      · simp [Safe]
      split
      · rename_i r hr
        refine (hfield m _ _ d j r hd hl (by omega) (by omega) hr).bind ?_
        rintro ⟨m', k⟩ ⟨hk1, hk2⟩
        simp only at hk1 hk2
        exact ih m' k (by omega) (by omega) (by omega)
      · have hne : d.drop i.toNat ≠ [] := by
          intro h; have := congrArg List.length h; simp only [List.length_drop, List.length_nil] at this; omega
        refine ((skip_safe (2 * d.length + 2)).1 (d.drop i.toNat) (by simp only [List.length_drop]; omega)
          (by simp only [List.length_drop]; omega) (hd.drop _) hne).bind ?_
        intro n hn
        rw [wrap64_id _ (by omega) (by omega)]
        split
        · simp [Safe]
        · split
          · simp [Safe]
          · exact ih m _ (by omega) (by omega) (by omega)
    · split <;> simp [Safe]

theorem varintField_safe (set : BitVec 64 → σ) (wt : Nat) (d : Bytes) (i : Int) (h0 : 0 ≤ i) :
    Safe (varintField set wt d i) (fun p => i ≤ p.2 ∧ p.2 ≤ d.length) := by
  unfold varintField
  split
  · simp [Safe]
  · refine (readVarint_safe d i h0).bind ?_
    rintro ⟨v, j⟩ ⟨h1, h2⟩
    simp only at h1 h2
    simp only [Outcome.pure_eq, Safe]; omega

theorem fixed64Field_safe (set : BitVec 64 → σ) (wt : Nat) (d : Bytes) (i : Int) :
    Safe (fixed64Field set wt d i) (fun p => i ≤ p.2 ∧ p.2 ≤ d.length) := by
  unfold fixed64Field
  split
  · simp [Safe]
  · split
    · simp [Safe]
    · simp only [Outcome.pure_eq, Safe]; omega

theorem bytesField_noStuck (set : Bytes → σ) (wt : Nat) (d : Bytes) (i : Int) (h0 : 0 ≤ i) :
    NoStuck (bytesField set wt d i) (fun p => i ≤ p.2 ∧ p.2 ≤ d.length) := by
  unfold bytesField
  split
  · simp [NoStuck]
  · refine (readVarint_safe d i h0).noStuck.bind ?_
    rintro ⟨v, j⟩ ⟨h1, h2⟩
    simp only at h1 h2 ⊢
    split
    · simp [NoStuck]
    · split
      · simp [NoStuck]
      · split
        · simp [NoStuck]
        · simp only [Outcome.pure_eq, NoStuck]; omega

theorem bytesField_safe (set : Bytes → σ) (wt : Nat) (d : Bytes) (hd : NoRun d) (hl : d.length < 2 ^ 60) (i : Int) (h0 : 0 ≤ i) :
    Safe (bytesField set wt d i) (fun p => i ≤ p.2 ∧ p.2 ≤ d.length) := by
  unfold bytesField
  split
  · simp [Safe]
  · refine (readVarint_small hd i h0).bind ?_
    rintro ⟨v, j⟩ ⟨h1, h2, h3⟩
    simp only at h1 h2 h3 ⊢
    rw [toInt_small v h3, wrap64_id _ (by omega) (by omega)]
    split
    · simp [Safe]
    · split
      · simp [Safe]
      · split
        · omega
        · simp only [Outcome.pure_eq, Safe]; omega

end Rothko
