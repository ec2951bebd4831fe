import Verif.Model.Params
import Verif.Props.Query
import Verif.Props.Names
/-!
# C80, C81: the parameters of a request, and the query request
-/
namespace Rothko

/-! ## Specification -/

/-- The number a list of digits, most significant first, stands for. -/
def digitsValue : List Nat → Nat := List.foldl (fun n d => n * 10 + d) 0

/-- A decimal number: maybe a sign, and at least one digit. -/
def Decimal (x : Bytes) (v : Int) : Prop :=
  ∃ ds : List Nat, ds ≠ [] ∧ (∀ d ∈ ds, d ≤ 9) ∧
    ((x = ds.map (fun d => UInt8.ofNat (48 + d)) ∧ v = digitsValue ds) ∨ (x = 43 :: ds.map (fun d => UInt8.ofNat (48 + d)) ∧ v = digitsValue ds) ∨
      (x = 45 :: ds.map (fun d => UInt8.ofNat (48 + d)) ∧ v = - (digitsValue ds : Int)))

/-! ## Proof -/

theorem foldl_ge (ds : List Nat) (n : Nat) : n ≤ ds.foldl (fun n d => n * 10 + d) n := by
  induction ds generalizing n with
  | nil => exact Nat.le_refl _
  | cons d ds ih => exact Nat.le_trans (by omega) (ih (n * 10 + d))

theorem digit_toNat {d : Nat} (h : d ≤ 9) : (UInt8.ofNat (48 + d)).toNat = 48 + d := by
  rw [UInt8.toNat_ofNat']
  omega

theorem parse_complete (ds : List Nat) (hd : ∀ d ∈ ds, d ≤ 9) (n : UInt64) (h : ds.foldl (fun n d => n * 10 + d) n.toNat < 18446744073709551616) :
    ∃ u, parseUintLoop (ds.map (fun d => UInt8.ofNat (48 + d))) n = some u ∧ u.toNat = ds.foldl (fun n d => n * 10 + d) n.toNat := by
  induction ds generalizing n with
  | nil => exact ⟨n, rfl, rfl⟩
  | cons d ds ih =>
    have h9 : d ≤ 9 := hd d (by simp)
    have hb := digit_toNat h9
    have hle := foldl_ge ds (n.toNat * 10 + d)
    have hx : n.toNat * 10 + d < 18446744073709551616 := by
      simp only [List.foldl_cons] at h
      omega
    have hsub : (UInt8.ofNat (48 + d) - 48).toUInt64.toNat = d := by
      rw [UInt8.toNat_toUInt64, UInt8.toNat_sub, hb]
      show (256 - 48 + (48 + d)) % 256 = d
      omega
    have hm : (n * 10).toNat = n.toNat * 10 := by
      rw [UInt64.toNat_mul]
      show n.toNat * 10 % 18446744073709551616 = _
      omega
    have ha : (n * 10 + (UInt8.ofNat (48 + d) - 48).toUInt64).toNat = n.toNat * 10 + d := by
      rw [UInt64.toNat_add, hm, hsub]
      show (n.toNat * 10 + d) % 18446744073709551616 = _
      omega
    rw [List.map_cons, parseUintLoop]
    rw [if_neg, if_neg, if_neg]
    · obtain ⟨u, h1, h2⟩ := ih (fun d hd' => hd d (by simp [hd'])) (n * 10 + (UInt8.ofNat (48 + d) - 48).toUInt64) (by rw [ha]; exact h)
      exact ⟨u, h1, by rw [h2, ha]; rfl⟩
    · rw [UInt64.lt_iff_toNat_lt, ha, hm]
      omega
    · rw [ge_iff_le, UInt64.le_iff_toNat_le]
      show ¬ 1844674407370955162 ≤ n.toNat
      omega
    · rw [UInt8.le_iff_toNat_le, UInt8.le_iff_toNat_le, hb]
      show ¬ ¬ (48 ≤ 48 + d ∧ 48 + d ≤ 57)
      omega

theorem parse_sound (s : Bytes) (n u : UInt64) (h : parseUintLoop s n = some u) :
    ∃ ds : List Nat, (∀ d ∈ ds, d ≤ 9) ∧ s = ds.map (fun d => UInt8.ofNat (48 + d)) ∧ u.toNat = ds.foldl (fun n d => n * 10 + d) n.toNat := by
  induction s generalizing n with
  | nil =>
    rw [parseUintLoop] at h
    injection h with h
    exact ⟨[], by simp, rfl, by rw [h]; rfl⟩
  | cons c s ih =>
    rw [parseUintLoop] at h
    split at h
    · cases h
    · rename_i hc
      split at h
      · cases h
      · rename_i hn
        split at h
        · cases h
        · rename_i hw
          obtain ⟨ds, h1, h2, h3⟩ := ih _ h
          have hc : 48 ≤ c.toNat ∧ c.toNat ≤ 57 := by
            rw [UInt8.le_iff_toNat_le, UInt8.le_iff_toNat_le] at hc
            exact Classical.byContradiction hc
          have hn : n.toNat < 1844674407370955162 := by
            rw [ge_iff_le, UInt64.le_iff_toNat_le] at hn
            exact Nat.lt_of_not_le hn
          have hcn : c = UInt8.ofNat (48 + (c.toNat - 48)) := by
            apply UInt8.toNat_inj.mp
            rw [digit_toNat (by omega)]
            omega
          have hsub : (c - 48).toUInt64.toNat = c.toNat - 48 := by
            rw [UInt8.toNat_toUInt64, UInt8.toNat_sub]
            show (256 - 48 + c.toNat) % 256 = _
            omega
          have hm : (n * 10).toNat = n.toNat * 10 := by
            rw [UInt64.toNat_mul]
            show n.toNat * 10 % 18446744073709551616 = _
            omega
          have ha : (n * 10 + (c - 48).toUInt64).toNat = n.toNat * 10 + (c.toNat - 48) := by
            rw [UInt64.lt_iff_toNat_lt, UInt64.toNat_add, hm, hsub] at hw
            rw [UInt64.toNat_add, hm, hsub]
            have hw : ¬ (n.toNat * 10 + (c.toNat - 48)) % 18446744073709551616 < n.toNat * 10 := hw
            show (n.toNat * 10 + (c.toNat - 48)) % 18446744073709551616 = _
            omega
          refine ⟨(c.toNat - 48) :: ds, ?_, ?_, ?_⟩
          · intro d hd
            rcases List.mem_cons.mp hd with rfl | hd
            · omega
            · exact h1 d hd
          · rw [List.map_cons, ← hcn, ← h2]
          · rw [h3, ha]
            rfl

theorem parseUint_iff (s : Bytes) (u : UInt64) :
    parseUint s = some u ↔ ∃ ds : List Nat, ds ≠ [] ∧ (∀ d ∈ ds, d ≤ 9) ∧ s = ds.map (fun d => UInt8.ofNat (48 + d)) ∧ u.toNat = digitsValue ds := by
  unfold parseUint
  constructor
  · intro h
    split at h
    · cases h
    · rename_i hs
      obtain ⟨ds, h1, h2, h3⟩ := parse_sound s 0 u h
      exact ⟨ds, fun e => hs (by rw [h2, e]; rfl), h1, h2, h3⟩
  · rintro ⟨ds, hne, h1, h2, h3⟩
    rw [if_neg (by rw [h2]; simpa using hne)]
    have hlt : u.toNat < 18446744073709551616 := u.toNat_lt
    obtain ⟨v, hv, e⟩ := parse_complete ds h1 0 (by show digitsValue ds < _; omega)
    rw [h2, hv]
    congr 1
    apply UInt64.toNat_inj.mp
    rw [e, h3]
    rfl

theorem signless {ds : List Nat} (h : ∀ d ∈ ds, d ≤ 9) : cutSign (ds.map (fun d => UInt8.ofNat (48 + d))) = (false, ds.map (fun d => UInt8.ofNat (48 + d))) := by
  cases ds with
  | nil => rfl
  | cons d ds =>
    have hb := digit_toNat (h d (by simp))
    rw [List.map_cons]
    generalize UInt8.ofNat (48 + d) = c at hb
    unfold cutSign
    split
    · rename_i heq
      injection heq with h1 h2
      subst h1
      have : (43 : UInt8).toNat = 43 := rfl
      omega
    · rename_i heq
      injection heq with h1 h2
      subst h1
      have : (45 : UInt8).toNat = 45 := rfl
      omega
    · rfl

/-- The parts `cutSign` gives, as the specification says them. -/
theorem cutSign_cases (x : Bytes) : (cutSign x = (false, x)) ∨ (∃ s, x = 43 :: s ∧ cutSign x = (false, s)) ∨ ∃ s, x = 45 :: s ∧ cutSign x = (true, s) := by
  unfold cutSign
  split
  · exact .inr (.inl ⟨_, rfl, rfl⟩)
  · exact .inr (.inr ⟨_, rfl, rfl⟩)
  · exact .inl rfl

theorem toInt64_small (u : UInt64) (h : u.toNat < 9223372036854775808) : u.toInt64.toInt = u.toNat := by
  show u.toBitVec.toInt = _
  rw [BitVec.toInt_eq_toNat_cond, if_pos (by show 2 * u.toNat < _; omega)]
  rfl

theorem neg_toInt64 (u : UInt64) (h : u.toNat ≤ 9223372036854775808) : (- u.toInt64).toInt = - (u.toNat : Int) := by
  by_cases he : u.toNat = 9223372036854775808
  · have : u = 9223372036854775808 := UInt64.toNat_inj.mp he
    subst this
    decide
  · rw [Int64.toInt_neg, toInt64_small u (by omega)]
    exact Int.bmod_eq_of_le (by show _ ≤ -(u.toNat : Int); omega) (by show -(u.toNat : Int) < _; omega)

/-- **C80** (numbers). Parsing succeeds exactly for decimal numbers of 64 bits, with their value. -/
theorem C80_parse (x : Bytes) (v : Int64) : parseInt64 x = some v ↔ Decimal x v.toInt := by
  have hv1 := v.toInt_lt
  have hv2 := v.le_toInt
  have neq : ∀ a b : Int64, a.toInt = b.toInt → a = b := fun a b h => Int64.toInt_inj.mp h
  constructor
  · intro h
    unfold parseInt64 at h
    split at h
    · cases h
    · split at h
      · cases h
      · rename_i un hu
        obtain ⟨ds, hne, h9, hs, hval⟩ := (parseUint_iff _ _).mp hu
        have c1 : (un ≥ 9223372036854775808) ↔ 9223372036854775808 ≤ un.toNat := UInt64.le_iff_toNat_le
        have c2 : (un > 9223372036854775808) ↔ 9223372036854775808 < un.toNat := UInt64.lt_iff_toNat_lt
        refine ⟨ds, hne, h9, ?_⟩
        rcases cutSign_cases x with e | ⟨s, rfl, e⟩ | ⟨s, rfl, e⟩
        · rw [e] at h hs
          simp only [Bool.not_false, Bool.true_and, decide_eq_true_eq, Bool.false_and, Bool.false_eq_true, if_false] at h
          split at h
          · cases h
          · rename_i hlt
            injection h with h
            rw [← h, toInt64_small un (by rw [c1] at hlt; omega), hval]
            exact .inl ⟨hs, rfl⟩
        · rw [e] at h hs
          simp only [Bool.not_false, Bool.true_and, decide_eq_true_eq, Bool.false_and, Bool.false_eq_true, if_false] at h
          split at h
          · cases h
          · rename_i hlt
            injection h with h
            have hs : s = _ := hs
            rw [← h, toInt64_small un (by rw [c1] at hlt; omega), hval, hs]
            exact .inr (.inl ⟨rfl, rfl⟩)
        · rw [e] at h hs
          simp only [Bool.not_true, Bool.false_and, Bool.false_eq_true, if_false, Bool.true_and, decide_eq_true_eq, if_true] at h
          split at h
          · cases h
          · rename_i hlt
            injection h with h
            have hs : s = _ := hs
            rw [← h, neg_toInt64 un (by rw [c2] at hlt; omega), hval, hs]
            exact .inr (.inr ⟨rfl, rfl⟩)
  · rintro ⟨ds, hne, h9, h⟩
    have hmk : ∀ n : Nat, n < 18446744073709551616 → (UInt64.ofNat n).toNat = n := fun n hn => by
      rw [UInt64.toNat_ofNat']
      show n % 18446744073709551616 = n
      omega
    have hb : digitsValue ds < 18446744073709551616 := by
      have e1 : (2 : Int) ^ 63 = 9223372036854775808 := by decide
      rcases h with ⟨_, h⟩ | ⟨_, h⟩ | ⟨_, h⟩ <;> omega
    have hu := (parseUint_iff (ds.map (fun d => UInt8.ofNat (48 + d))) (UInt64.ofNat (digitsValue ds))).mpr ⟨ds, hne, h9, rfl, hmk _ hb⟩
    have hun := hmk _ hb
    generalize UInt64.ofNat (digitsValue ds) = un at hu hun
    have c1 : (un ≥ 9223372036854775808) ↔ 9223372036854775808 ≤ un.toNat := UInt64.le_iff_toNat_le
    have c2 : (un > 9223372036854775808) ↔ 9223372036854775808 < un.toNat := UInt64.lt_iff_toNat_lt
    have e1 : (2 : Int) ^ 63 = 9223372036854775808 := by decide
    unfold parseInt64
    rcases h with ⟨hx, h⟩ | ⟨hx, h⟩ | ⟨hx, h⟩
    · have hc := signless h9
      rw [← hx] at hc hu
      rw [hc]
      dsimp only
      rw [hu, if_neg (by rw [hx]; simpa using hne)]
      simp only [Bool.not_false, Bool.true_and, decide_eq_true_eq, Bool.false_and, Bool.false_eq_true, if_false]
      rw [if_neg (by rw [c1]; omega)]
      congr 1
      exact neq _ _ (by rw [toInt64_small un (by omega)]; omega)
    · subst hx
      show (if _ then _ else match parseUint (ds.map (fun d => UInt8.ofNat (48 + d))) with | none => none | some un => _) = _
      rw [hu, if_neg (by simp)]
      simp only [cutSign, Bool.not_false, Bool.true_and, decide_eq_true_eq, Bool.false_and, Bool.false_eq_true, if_false]
      rw [if_neg (by rw [c1]; omega)]
      congr 1
      exact neq _ _ (by rw [toInt64_small un (by omega)]; omega)
    · subst hx
      show (if _ then _ else match parseUint (ds.map (fun d => UInt8.ofNat (48 + d))) with | none => none | some un => _) = _
      rw [hu, if_neg (by simp)]
      simp only [cutSign, Bool.not_true, Bool.false_and, Bool.false_eq_true, if_false, Bool.true_and, decide_eq_true_eq, if_true]
      rw [if_neg (by rw [c2]; omega)]
      congr 1
      exact neq _ _ (by rw [neg_toInt64 un (by omega)]; omega)

/-- **C80** (defaults). A parameter is its number, and the default if it is absent or is no decimal number of 64 bits. -/
theorem C80_default (x : Bytes) (dflt : Int64) :
    (∀ v : Int64, Decimal x v.toInt → getInt x dflt = v) ∧ ((∀ v : Int64, ¬ Decimal x v.toInt) → getInt x dflt = dflt) := by
  constructor
  · intro v h
    unfold getInt
    rw [(C80_parse x v).mpr h]
  · intro h
    unfold getInt
    split
    · rename_i v hv
      exact absurd ((C80_parse x v).mp hv) (h v)
    · rfl

/-- What a parameter means: the number if it is one, else the default. -/
def Means (form : List (String × Bytes)) (key : String) (dflt v : Int64) : Prop :=
  (∃ x, (key, x) ∈ form ∧ form.find? (fun p => p.1 = key) = some (key, x) ∧ Decimal x v.toInt) ∨
    (v = dflt ∧ ∀ x, form.find? (fun p => p.1 = key) = some (key, x) → ∀ w : Int64, ¬ Decimal x w.toInt)

theorem formValue_find (form : List (String × Bytes)) (key : String) : formValue form key = ((form.find? (fun p => p.1 = key)).map (·.2)).getD [] := by
  induction form with
  | nil => rfl
  | cons p form ih =>
    obtain ⟨k, v⟩ := p
    by_cases h : k = key
    · simp [formValue, h]
    · simp [formValue, h, ih]

theorem no_decimal_nil (v : Int) : ¬ Decimal [] v := by
  rintro ⟨ds, hne, _, h⟩
  rcases h with ⟨h, _⟩ | ⟨h, _⟩ | ⟨h, _⟩
  · exact hne (List.map_eq_nil_iff.mp h.symm)
  · cases h
  · cases h

theorem getInt_means (form : List (String × Bytes)) (key : String) (dflt : Int64) : Means form key dflt (getInt (formValue form key) dflt) := by
  rw [formValue_find]
  cases hf : form.find? (fun p => p.1 = key) with
  | none =>
    refine .inr ⟨(C80_default _ _).2 (fun v => no_decimal_nil _), fun x h => ?_⟩
    rw [hf] at h
    cases h
  | some p =>
    obtain ⟨k, x⟩ := p
    have hk : k = key := by simpa using List.find?_some hf
    subst hk
    by_cases hd : ∃ v : Int64, Decimal x v.toInt
    · obtain ⟨v, hv⟩ := hd
      refine .inl ⟨x, List.mem_of_find?_eq_some hf, hf, ?_⟩
      rw [show ((some (k, x)).map (·.2)).getD [] = x from rfl, (C80_default x dflt).1 v hv]
      exact hv
    · have hd : ∀ v : Int64, ¬ Decimal x v.toInt := fun v h => hd ⟨v, h⟩
      refine .inr ⟨(C80_default _ _).2 hd, fun y h => ?_⟩
      rw [hf] at h
      injection h with h
      injection h with _ h
      subst h
      exact hd

/-- **C80** (requests). The numbers of a render request are the parameters of their names, 1000 by 350 pixels, no padding, now and 30 samples by default. -/
theorem C80_render (form : List (String × Bytes)) (clock : Int64) :
    Means form "width" 1000 (renderNums form clock).width ∧ Means form "height" 350 (renderNums form clock).height ∧ Means form "padding" 0 (renderNums form clock).padding ∧
    Means form "now" clock (renderNums form clock).now ∧ Means form "samples" 30 (renderNums form clock).samples :=
  ⟨getInt_means _ _ _, getInt_means _ _ _, getInt_means _ _ _, getInt_means _ _ _, getInt_means _ _ _⟩

/-- A request with `width=+12`, `now=-9223372036854775808`, `height=9223372036854775808` and `padding=1x`. -/
theorem C80_example : renderNums [("width", [43, 49, 50]), ("now", 45 :: [57, 50, 50, 51, 51, 55, 50, 48, 51, 54, 56, 53, 52, 55, 55, 53, 56, 48, 56]),
    ("height", [57, 50, 50, 51, 51, 55, 50, 48, 51, 54, 56, 53, 52, 55, 55, 53, 56, 48, 56]), ("padding", [49, 120])] 7 = ⟨12, 350, 0, -9223372036854775808, 30⟩ := by decide +kernel

/-! ## C81 -/

theorem means_getInt {form : List (String × Bytes)} {key : String} {dflt v : Int64} (h : Means form key dflt v) : getInt (formValue form key) dflt = v := by
  rw [formValue_find]
  rcases h with ⟨x, _, hf, hd⟩ | ⟨rfl, h⟩
  · rw [hf]
    exact (C80_default x dflt).1 v hd
  · cases hf : form.find? (fun p => p.1 = key) with
    | none => exact (C80_default _ _).2 (fun v => no_decimal_nil _)
    | some p =>
      obtain ⟨k, x⟩ := p
      have hk : k = key := by simpa using List.find?_some hf
      subst hk
      exact (C80_default _ _).2 (h x hf)

/-- **C81** (answer). The answer to a query is the first names, in order, of those the database lists that match every term of the query, as many as the results parameter says; a negative number of results panics. -/
theorem C81_answer (form : List (String × Bytes)) (names : List Bytes) (n : Int64) (hn : Means form "results" 10 n) :
    serveQuery form names = if n.toInt < 0 then none else some ((matching (formValue form "query") names).take n.toInt.toNat) := by
  unfold serveQuery
  rw [means_getInt hn]
  by_cases h : n.toInt < 0
  · rw [if_pos h]
    unfold newSearch
    rw [if_pos h]
  · rw [if_neg h]
    obtain ⟨s, h1, h2⟩ := C40_result (formValue form "query") n.toInt.toNat names
    rw [show ((n.toInt.toNat : Nat) : Int) = n.toInt by omega] at h1
    rw [h1, ← h2]

/-- **C81**, for databases whose listings and scans do not overlap. The answer is in ascending order, without repetition, has only stored names that match the query, at most as many as asked for; and each matching name that was acknowledged
before the query is in it, unless the answer is full of smaller names. -/
theorem C81_query_partial {workers : Nat} {disk : List Bytes} {nw nm np : Nat} {s : NSys} (h : NSys.Reach true workers disk nw nm np s) {k : Nat} {a0 out : List Bytes} (hk : s.mets[k]? = some (.done a0 out))
    (form : List (String × Bytes)) (n : Int64) (hn : Means form "results" 10 n) (hpos : 0 ≤ n.toInt) :
    ∃ ans, serveQuery form out = some ans ∧ Sorted ans ∧ (ans.length : Int) ≤ n.toInt ∧ (∀ x ∈ ans, x ∈ s.disk ∧ ∀ t ∈ fields (formValue form "query"), TermMatches t x) ∧
      ∀ x ∈ a0, (∀ t ∈ fields (formValue form "query"), TermMatches t x) → x ∈ ans ∨ ((ans.length : Int) = n.toInt ∧ ∀ y ∈ ans, strLt y x = true) := by
  obtain ⟨h1, h2, h3⟩ := C35_listed_partial h hk
  refine ⟨_, by rw [C81_answer form out n hn, if_neg (by omega)], ?_⟩
  have hm : ∀ x, x ∈ matching (formValue form "query") out ↔ x ∈ out ∧ ∀ t ∈ fields (formValue form "query"), TermMatches t x := fun x => by
    unfold matching
    simp
  have hs : Sorted (matching (formValue form "query") out) := by
    unfold matching
    exact List.Pairwise.filter _ h2
  generalize matching (formValue form "query") out = l at hm hs
  refine ⟨List.Pairwise.sublist (List.take_sublist _ _) hs, ?_, fun x hx => ?_, fun x hx ht => ?_⟩
  · rw [List.length_take]
    omega
  · obtain ⟨a, b⟩ := (hm x).mp (List.mem_of_mem_take hx)
    exact ⟨h3 x a, b⟩
  · have hx := (hm x).mpr ⟨h1 x hx, ht⟩
    rw [← List.take_append_drop n.toInt.toNat l] at hx hs
    rcases List.mem_append.mp hx with hx | hx
    · exact .inl hx
    · refine .inr ⟨?_, fun y hy => (List.pairwise_append.mp hs).2.2 y hy x hx⟩
      have : l.drop n.toInt.toNat ≠ [] := fun e => by rw [e] at hx; cases hx
      have : n.toInt.toNat < l.length := by
        refine Classical.byContradiction (fun h => this (List.drop_eq_nil_of_le (by omega)))
      rw [List.length_take]
      omega

/-- A search for "a b" among three names with one result, and with a malformed number of results. -/
theorem C81_example : serveQuery [("query", [97, 32, 98]), ("results", [49])] [[97, 98], [98, 97], [99]] = some [[97, 98]] ∧
    serveQuery [("query", [97, 32, 98]), ("results", [49, 48, 48, 120])] [[97, 98], [98, 97], [99]] = some [[97, 98], [98, 97]] ∧
    serveQuery [("results", [45, 49])] [[97, 98]] = none := by decide +kernel

end Rothko
