import Verif.Lemmas.Visible
import Verif.Spec.Damage
/-! Reading damaged files. -/
namespace Rothko

theorem headLoop_any (has : Int → Bool) (cap : Nat) (fuel : Nat) (head hint : Int) (o : Bool) (h0 : 0 ≤ hint) (hh0 : 0 ≤ head) (hhc : head < cap)
    (hinv : if o then head ≤ hint ∧ ∀ n, head ≤ n → n ≤ hint → has n = true else hint ≤ head ∧ ∀ n, hint ≤ n → n ≤ head → has n = false)
    (h' : Int) (e : headLoop has cap o fuel head = .ok h') :
    -1 ≤ h' ∧ h' < cap ∧ ((h' < hint ∧ ∀ n, h' < n → n ≤ hint → has n = true) ∨ (hint ≤ h' ∧ ∀ n, hint ≤ n → n ≤ h' → has n = false)) := by
  induction fuel generalizing head with
  | zero => cases e
  | succ fuel ih =>
    unfold headLoop at e
    cases o with
    | false =>
      simp only [Bool.false_eq_true, if_false] at e hinv
      by_cases hcap : head + 1 = cap
      · rw [if_pos hcap] at e
        cases e
        exact ⟨by omega, by omega, Or.inr ⟨by omega, fun n a b => hinv.2 n a (by omega)⟩⟩
      · rw [if_neg hcap, if_neg (by omega)] at e
        cases hx : has (head + 1) with
        | true =>
          rw [hx] at e; simp at e
          subst e
          exact ⟨by omega, by omega, Or.inr ⟨by omega, fun n a b => hinv.2 n a (by omega)⟩⟩
        | false =>
          rw [hx] at e; simp only [ne_eq, not_true_eq_false, if_false] at e
          refine ih (head + 1) (by omega) (by omega) ?_ e
          simp only [Bool.false_eq_true, if_false]
          refine ⟨by omega, fun n a b => ?_⟩
          by_cases hn : n = head + 1
          · rw [hn]; exact hx
          · exact hinv.2 n a (by omega)
    | true =>
      simp only [if_true] at e hinv
      rw [if_neg (by omega)] at e
      by_cases hneg : head - 1 < 0
      · rw [if_pos hneg] at e
        cases e
        exact ⟨by omega, by omega, Or.inl ⟨by omega, fun n a b => hinv.2 n (by omega) b⟩⟩
      · rw [if_neg hneg] at e
        cases hx : has (head - 1) with
        | false =>
          rw [hx] at e; simp at e
          subst e
          exact ⟨by omega, by omega, Or.inl ⟨by omega, fun n a b => hinv.2 n (by omega) b⟩⟩
        | true =>
          rw [hx] at e; simp only [ne_eq, not_true_eq_false, if_false] at e
          refine ih (head - 1) (by omega) (by omega) ?_ e
          simp only [if_true]
          refine ⟨by omega, fun n a b => ?_⟩
          by_cases hn : n = head - 1
          · rw [hn]; exact hx
          · exact hinv.2 n (by omega) b

/-- The head search from a hint inside the file always ends, and everything between the hint and the result looks the same. -/
theorem headPointer_any (has : Int → Bool) (cap : Nat) (hint : Int) (h0 : 0 ≤ hint) (hc : hint < cap) :
    ∃ h', Rothko.headPointer has cap hint = .ok h' ∧ -1 ≤ h' ∧ h' < cap ∧
      ((h' < hint ∧ ∀ n, h' < n → n ≤ hint → has n = true) ∨ (hint ≤ h' ∧ ∀ n, hint ≤ n → n ≤ h' → has n = false)) := by
  unfold Rothko.headPointer
  rw [if_neg (by omega)]
  obtain ⟨h', e, _⟩ := headLoop_total has cap (has hint) (cap + 1) hint h0 hc (by cases has hint <;> simp <;> omega)
  refine ⟨h', e, headLoop_any has cap (cap + 1) hint hint (has hint) h0 h0 hc ?_ h' e⟩
  cases hx : has hint with
  | true => simp only [if_true]; exact ⟨by omega, fun n a b => by rw [show n = hint by omega]; exact hx⟩
  | false => simp only [Bool.false_eq_true, if_false]; exact ⟨by omega, fun n a b => by rw [show n = hint by omega]; exact hx⟩

theorem recordsFrom_append (f : File) (k : Nat) (n : Int) (hn : n + k ≤ f.cap) :
    f.recordsFrom n = (List.range k).map (fun (i : Nat) => f.record (n + i)) ++ f.recordsFrom (n + k) := by
  induction k generalizing n with
  | zero => simp
  | succ k ih =>
    rw [recordsFrom_cons f n (by omega), ih (n + 1) (by omega), List.range_succ_eq_map]
    simp only [List.map_cons, List.map_map, List.cons_append]
    congr 1
    · simp
    · congr 1
      · apply List.map_congr_left
        intro i _
        simp only [Function.comp_apply]
        congr 1
        omega
      · congr 1; omega

theorem recordsFrom_get (f : File) (n : Int) (i : Nat) (h : i < (f.recordsFrom n).length) : (f.recordsFrom n)[i] = f.record (n + i) := by
  simp [File.recordsFrom]

/-- Leading unreadable slots change nothing. -/
theorem readSlots_errors (bound : Int64) (cb : σ → Val → σ × Cb) (L rest : List (Except FErr Rec)) (st : σ) (h : ∀ x ∈ L, ∃ e, x = .error e) :
    readSlots bound cb none (L ++ rest) st = readSlots bound cb none rest st := by
  induction L with
  | nil => rfl
  | cons x L ih =>
    obtain ⟨e, rfl⟩ := h x List.mem_cons_self
    simp only [List.cons_append, readSlots]
    exact ih (fun y hy => h y (List.mem_cons_of_mem _ hy))

/-- If `hint + 1` and `h' + 1` are separated only by unreadable slots, reading from either is the same. -/
theorem readSlots_between (bound : Int64) (cb : σ → Val → σ × Cb) (f : File) (a b : Int) (hb : b ≤ f.cap) (hab : a ≤ b) (st : σ)
    (h : ∀ n, a ≤ n → n < b → ∃ e, f.record n = .error e) :
    readSlots bound cb none (f.recordsFrom a) st = readSlots bound cb none (f.recordsFrom b) st := by
  rw [recordsFrom_append f (b - a).toNat a (by omega), readSlots_errors]
  · congr 2; omega
  · intro x hx
    obtain ⟨i, hi, rfl⟩ := List.mem_map.mp hx
    rw [List.mem_range] at hi
    exact h _ (by omega) (by omega)

/-- An empty slot is unreadable. -/
theorem record_of_not_has {f : File} (hf : f.WF) (n : Int) (h0 : 0 ≤ n) (h1 : n < f.cap) (h : f.hasRecord n = false) : ∃ e, f.record n = .error e := by
  unfold File.hasRecord at h
  rw [if_neg (by simp [File.oob_false h0 h1])] at h
  unfold File.record
  rw [if_neg (by simp [File.oob_false h0 h1])]
  simp only
  have hl := File.slot_end hf (n := n.toNat) (by omega)
  have hs := hf.2
  have hlen : (slice f.data (f.offset n.toNat) (f.offset n.toNat + f.size)).length = f.size := by
    rw [slice_length _ _ _ (by omega)]; omega
  have hz : (slice f.data (f.offset n.toNat) (f.offset n.toNat + f.size)).getD 0 0 = 0 := by
    have h' : f.data.getD (f.offset n.toNat) 0 = 0 := by simpa using h
    rw [List.getD_eq_getElem?_getD] at h' ⊢
    unfold slice
    rw [List.getElem?_drop, Nat.add_zero, List.getElem?_take, if_pos (by omega)]
    exact h'
  rw [(C02_rejects _).2.1 (by omega) (by rw [hz]; decide)]
  exact ⟨_, rfl⟩

theorem slotsOf_eq {size : Nat} (h1 : 25 ≤ size) (h2 : size ≤ 24 + 65535) (vs : List Val) : used size vs = slotsOf size vs := by
  induction vs with
  | nil => rfl
  | cons v vs ih =>
    rw [used_cons, (chunks_spec size v h1 h2).2.2.1, ih]
    simp [slotsOf]

theorem Slots.length {L : List (Except FErr Rec)} {l : List Rec} (h : Slots L l) : L.length = l.length := by
  induction h with
  | nil => rfl
  | good _ _ ih => simp [ih]
  | bad _ _ _ ih => simp [ih]

/-- Reading slots that hold the chunks of a list of values, some unreadable: the surviving values before the bound. -/
theorem readSlots_damaged (bound : Int64) (cb : σ → Val → σ × Cb) (size : Nat) (h1 : 25 ≤ size) (h2 : size ≤ 24 + 65535) (bad : Nat → Bool)
    (vs : List Val) (pos : Nat) (L : List (Except FErr Rec)) (hs : Slots L (vs.flatMap (chunks size)))
    (hbad : ∀ (i : Nat) (h : i < L.length), (∃ e, L[i] = .error e) ↔ bad (pos + i) = true) (st : σ) :
    readSlots bound cb none L st = visit cb (before bound (survivors bad size pos vs)) st := by
  induction vs generalizing pos L st with
  | nil => cases hs; simp [readSlots, before, visit, survivors]
  | cons v vs ih =>
    have hsp := chunks_spec size v h1 h2
    rw [List.flatMap_cons] at hs
    obtain ⟨A, B, rfl, hA, hB⟩ := hs.split
    have hlenA : A.length = needs size v.data.length := by rw [hA.length, hsp.2.2.1]
    rw [readSlots_value bound cb B st v size A _ hsp.2.2.2.2 hA]
    have ih' := ih (pos + needs size v.data.length) B hB (fun i h => by
      have := hbad (A.length + i) (by simp; omega)
      rw [List.getElem_append_right (by omega)] at this
      simp only [Nat.add_sub_cancel_left] at this
      rw [this, hlenA]
      rw [Nat.add_assoc])
    have hok : allOk A = !(List.range (needs size v.data.length)).any (fun i => bad (pos + i)) := by
      rw [Bool.eq_iff_iff]
      simp only [Bool.not_eq_true', List.any_eq_false, List.mem_range]
      unfold allOk
      rw [List.all_eq_true]
      constructor
      · intro h i hi
        have hiA : i < A.length := by omega
        have h1 := h A[i] (List.getElem_mem _)
        intro hb
        have := (hbad i (by simp; omega)).mpr hb
        rw [List.getElem_append_left hiA] at this
        obtain ⟨e, he⟩ := this
        rw [he] at h1; cases h1
      · intro h x hx
        obtain ⟨i, hi, rfl⟩ := List.mem_iff_getElem.mp hx
        have := h i (by omega)
        cases hxi : A[i] with
        | ok r => rfl
        | error e =>
          exact absurd ((hbad i (by simp; omega)).mp (by rw [List.getElem_append_left hi]; exact ⟨e, hxi⟩)) this
    rw [hok]
    simp only [survivors]
    cases hany : (List.range (needs size v.data.length)).any (fun i => bad (pos + i)) with
    | true =>
      simp only [Bool.not_true, Bool.false_eq_true, false_and, if_false, if_true]
      exact ih' st
    | false =>
      simp only [Bool.not_false, true_and, Bool.false_eq_true, if_false]
      unfold before
      by_cases hb : v.stop < bound
      · rw [if_pos hb, List.filter_cons_of_pos (by simpa using hb)]
        unfold emit
        simp only [visit]
        rcases cb st v with ⟨st', c⟩
        cases c <;> simp [ih', before]
      · rw [if_neg hb, List.filter_cons_of_neg (by simpa using hb)]
        exact ih' st

theorem record_slot (f : File) (n : Nat) (h : n < f.cap) : f.record n = match parse (slotBytes f.size f.data n) with
    | .ok r => .ok r
    | .error e => .error (.parse e) := by
  unfold File.record
  rw [if_neg (by simp [File.oob_false (f := f) (n := n) (by omega) (by omega)])]
  rfl

theorem slots_of_pointwise {l : List Rec} {L : List (Except FErr Rec)} (hlen : L.length = l.length)
    (h : ∀ (i : Nat) (h1 : i < L.length) (h2 : i < l.length), L[i] = .ok l[i] ∨ ∃ e, L[i] = .error e) : Slots L l := by
  induction l generalizing L with
  | nil => rw [List.length_eq_zero_iff.mp hlen]; exact .nil
  | cons r l ih =>
    cases L with
    | nil => simp at hlen
    | cons x L =>
      have ih' := ih (L := L) (by simpa using hlen) (fun i h1 h2 => by
        have := h (i + 1) (by simp; omega) (by simp; omega)
        simpa using this)
      have h0 := h 0 (by simp) (by simp)
      simp only [List.getElem_cons_zero] at h0
      rcases h0 with rfl | ⟨e, rfl⟩
      · exact .good r ih'
      · exact .bad e r ih'

/-- What a reader sees of a damaged file. -/
theorem FileRep.damaged {f : File} {vs : List Val} (h : FileRep f vs) (bad : Nat → Bool) (data' : Bytes)
    (hd : Damage f.size f.cap bad f.data data') :
    FileSees { f with data := data' } (survivors bad f.size (f.cap - slotsOf f.size vs) vs) (smallestEnd vs) := by
  let f' : File := { f with data := data' }
  have hg := geo_size h.geo
  have hu := slotsOf_eq hg.1 hg.2 vs
  have hfits := h.fits
  have hwf : f'.WF := ⟨by show _ ≤ data'.length; rw [hd.len]; exact h.wf.1, h.wf.2⟩
  obtain ⟨m, hm, h1, h2, h3⟩ := h.md
  have hmd : f'.metadata = .ok m := by
    unfold File.metadata at hm ⊢
    rw [show slice f'.data 0 f'.size = slice f.data 0 f.size from hd.header]; exact hm
  refine ⟨openFile_wf f' hwf m hmd h1 (by show data'.length = _; rw [hd.len]; exact h.len), ?_⟩
  intro σ bound cb st
  have hrec : ∀ n : Nat, n < f.cap → (bad n = false → f'.record n = f.record n) ∧ (bad n = true → ∃ e, f'.record n = .error e) := by
    intro n hn
    constructor
    · intro hb
      rw [record_slot f' n hn, record_slot f n hn, show slotBytes f'.size f'.data n = slotBytes f.size f.data n from hd.keep n hn hb]
    · intro hb
      obtain ⟨e, he⟩ := hd.lost n hn hb
      rw [record_slot f' n hn, show slotBytes f'.size f'.data n = slotBytes f.size data' n from rfl, he]
      exact ⟨_, rfl⟩
  -- slots before the used ones are unreadable
  have hfree : ∀ n : Int, 0 ≤ n → n < f.cap - used f.size vs → ∃ e, f'.record n = .error e := by
    intro n a b
    obtain ⟨k, rfl⟩ : ∃ k : Nat, n = k := ⟨n.toNat, by omega⟩
    cases hb : bad k with
    | true => exact (hrec k (by omega)).2 hb
    | false =>
      rw [(hrec k (by omega)).1 hb]
      apply record_of_not_has h.wf _ a (by omega)
      rw [Bool.eq_false_iff]
      intro hx
      have := (h.has _ a (by omega)).mp hx
      omega
  -- the head found is separated from the true one by unreadable slots only
  obtain ⟨hd', ehd, hrd⟩ : ∃ h', f'.headPointer = .ok h' ∧
      ∀ st : σ, readSlots bound cb none (f'.recordsFrom (h' + 1)) st = readSlots bound cb none (f'.recordsFrom (f.cap - used f.size vs)) st := by
    unfold File.headPointer
    rw [hmd]
    simp only [h2]
    by_cases hneg : (f.cap : Int) - used f.size vs - 1 < 0
    · rw [C11_full_hint _ _ _ hneg]
      refine ⟨_, rfl, fun st => ?_⟩
      congr 2; omega
    · obtain ⟨h', e, a, b, c⟩ := headPointer_any f'.hasRecord f'.cap (f.cap - used f.size vs - 1) (by omega) (by show _ < (f.cap : Int); omega)
      rw [e]
      refine ⟨h', rfl, fun st => ?_⟩
      have hbc : h' < (f.cap : Int) := b
      rcases c with ⟨c1, c2⟩ | ⟨c1, c2⟩
      · rw [readSlots_between bound cb f' (h' + 1) (f.cap - used f.size vs) (by show _ ≤ (f.cap : Int); omega) (by omega) st]
        intro n n1 n2
        exact hfree n (by omega) n2
      · rw [readSlots_between bound cb f' (f.cap - used f.size vs) (h' + 1) (by show _ ≤ (f.cap : Int); omega) (by omega) st]
        intro n n1 n2
        exact record_of_not_has hwf n (by omega) (by show n < (f.cap : Int); omega) (c2 n (by omega) (by omega))
  show readFile bound cb f' st = _
  unfold readFile
  rw [hmd, ehd]
  simp only [h3]
  rw [hrd st]
  split
  · rfl
  · have hlenR : (f'.recordsFrom (f.cap - used f.size vs)).length = used f.size vs := by
      unfold File.recordsFrom
      rw [List.length_map, List.length_range]
      show ((f.cap : Int) - (f.cap - used f.size vs)).toNat = _
      omega
    have hget : ∀ (i : Nat) (hi : i < (f'.recordsFrom (f.cap - used f.size vs)).length),
        (f'.recordsFrom (f.cap - used f.size vs))[i] = f'.record ((f.cap - slotsOf f.size vs + i : Nat) : Int) := by
      intro i hi
      rw [recordsFrom_get]
      congr 1
      omega
    have hold : ∀ (i : Nat) (hi : i < (allChunks f.size vs).length), f.record ((f.cap - slotsOf f.size vs + i : Nat) : Int) = .ok (allChunks f.size vs)[i] := by
      intro i hi
      have hi' : i < (f.recordsFrom (f.cap - used f.size vs)).length := by rw [h.recs]; simpa using hi
      have e1 : (f.recordsFrom (f.cap - used f.size vs))[i] = .ok (allChunks f.size vs)[i] := by
        simp only [h.recs, List.getElem_map]
      rw [← e1]
      rw [recordsFrom_get]
      congr 1
      have : i < used f.size vs := hi
      omega
    apply readSlots_damaged bound cb f.size hg.1 hg.2 bad vs (f.cap - slotsOf f.size vs)
    · apply slots_of_pointwise
      · rw [hlenR]; rfl
      · intro i h1 h2
        rw [hget i h1]
        have hlt : f.cap - slotsOf f.size vs + i < f.cap := by omega
        cases hb : bad (f.cap - slotsOf f.size vs + i) with
        | true => exact Or.inr ((hrec _ hlt).2 hb)
        | false => left; rw [(hrec _ hlt).1 hb]; exact hold i h2
    · intro i h1
      rw [hget i h1]
      have hlt : f.cap - slotsOf f.size vs + i < f.cap := by omega
      constructor
      · rintro ⟨e, he⟩
        cases hb : bad (f.cap - slotsOf f.size vs + i) with
        | true => rfl
        | false =>
          rw [(hrec _ hlt).1 hb, hold i (by rw [hlenR] at h1; exact h1)] at he
          cases he
      · intro hb
        exact (hrec _ hlt).2 hb

end Rothko
