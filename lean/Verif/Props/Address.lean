import Verif.Spec.Address
import Verif.Props.Url
import Verif.Props.DurationText
import Verif.Model.Handler
import Verif.Props.ParseFloat
/-!
# C123: an address written by hand
-/
namespace Rothko

theorem hexIs_value {c : UInt8} {n : Nat} (h : HexIs c n) : hexValue c = some n := by
  unfold HexIs at h
  unfold hexValue
  simp only [UInt8.le_iff_toNat_le]
  rcases h with ⟨h1, h2⟩ | ⟨h1, h2, h3 | h3⟩
  · rw [if_pos (by constructor <;> simp <;> omega)]; simp [h2]
  · rw [if_neg (by simp; omega), if_neg (by simp; omega), if_pos (by constructor <;> simp <;> omega)]; simp [h3]
  · rw [if_neg (by simp; omega), if_pos (by constructor <;> simp <;> omega)]; simp [h3]

theorem value_hexIs {c : UInt8} {n : Nat} (h : hexValue c = some n) : HexIs c n := by
  unfold hexValue at h
  simp only [UInt8.le_iff_toNat_le] at h
  unfold HexIs
  have t : (48 : UInt8).toNat = 48 ∧ (57 : UInt8).toNat = 57 ∧ (97 : UInt8).toNat = 97 ∧ (102 : UInt8).toNat = 102 ∧ (65 : UInt8).toNat = 65 ∧ (70 : UInt8).toNat = 70 := by decide
  obtain ⟨t1, t2, t3, t4, t5, t6⟩ := t
  rw [t1, t2, t3, t4, t5, t6] at h
  split at h
  · injection h; omega
  · split at h
    · injection h; omega
    · split at h
      · injection h; omega
      · cases h

theorem unescape_stop {plus c : UInt8} {rest : Bytes} (h : ¬ ∃ a b r x y, rest = a :: b :: r ∧ HexIs a x ∧ HexIs b y) (hc : c = 37) : unescape plus (c :: rest) = none := by
  subst hc
  match rest, h with
  | [], _ => simp [unescape]
  | [a], _ => simp [unescape]
  | a :: b :: r, h =>
    rw [unescape]
    cases ha : hexValue a with
    | none => rfl
    | some x =>
      cases hb : hexValue b with
      | none => rfl
      | some y => exact absurd ⟨a, b, r, x, y, rfl, value_hexIs ha, value_hexIs hb⟩ h

theorem written_unescape {stop : List UInt8} {s t : Bytes} (h : Written stop s t) : unescape 32 s = some t := by
  induction h with
  | nil => rfl
  | byte c h1 h2 h3 hw ih => rw [unescape_plain 32 c h1 h2, ih]; rfl
  | plus hw ih =>
    rename_i s t
    rw [show unescape 32 (43 :: s) = (unescape 32 s).map (32 :: ·) by rw [unescape.eq_3 32 43 s (by intros; simp_all)]; rfl, ih]; rfl
  | escape a b x y c ha hb hc hw ih =>
    rw [unescape, hexIs_value ha, hexIs_value hb, ih]
    simp only
    congr 2
    apply UInt8.toNat_inj.mp
    rw [← hc]; simp

theorem written_mem {stop : List UInt8} {s t : Bytes} (h : Written stop s t) (hs : ∀ c ∈ stop, c = 38 ∨ c = 59 ∨ c = 61) : ∀ c ∈ s, c ∉ stop := by
  have hx : ∀ {d n}, HexIs d n → d ∉ stop := by
    intro d n hd hm
    unfold HexIs at hd
    rcases hs d hm with rfl | rfl | rfl <;> simp at hd <;> omega
  have n37 : (37 : UInt8) ∉ stop := fun hm => by rcases hs _ hm with h | h | h <;> revert h <;> decide
  have n43 : (43 : UInt8) ∉ stop := fun hm => by rcases hs _ hm with h | h | h <;> revert h <;> decide
  induction h with
  | nil => simp
  | byte c h1 h2 h3 hw ih => intro d hd; rcases List.mem_cons.mp hd with rfl | hd; exacts [h3, ih d hd]
  | plus hw ih => intro d hd; rcases List.mem_cons.mp hd with rfl | hd; exacts [n43, ih d hd]
  | escape a b x y c ha hb hc hw ih =>
    intro d hd
    rcases List.mem_cons.mp hd with rfl | hd
    · exact n37
    rcases List.mem_cons.mp hd with rfl | hd
    · exact hx ha
    rcases List.mem_cons.mp hd with rfl | hd
    · exact hx hb
    exact ih d hd

theorem misspelt_unescape {stop : List UInt8} {s : Bytes} (h : Misspelt stop s) : unescape 32 s = none := by
  obtain ⟨good, meant, rest, hw, rfl, -, hr⟩ := h
  induction hw with
  | nil => exact unescape_stop hr rfl
  | byte c h1 h2 h3 hw ih => rw [List.cons_append, unescape_plain 32 c h1 h2, ih]; rfl
  | plus hw ih =>
    rename_i s t
    rw [List.cons_append, show unescape 32 (43 :: (s ++ 37 :: rest)) = (unescape 32 (s ++ 37 :: rest)).map (32 :: ·) by rw [unescape.eq_3 32 43 _ (by intros; simp_all)]; rfl, ih]; rfl
  | escape a b x y c ha hb hc hw ih => simp only [List.cons_append]; rw [unescape, hexIs_value ha, hexIs_value hb, ih]

theorem misspelt_mem {stop : List UInt8} {s : Bytes} (h : Misspelt stop s) (hs : ∀ c ∈ stop, c = 38 ∨ c = 59 ∨ c = 61) : ∀ c ∈ s, c ∉ stop := by
  obtain ⟨good, meant, rest, hw, rfl, hr, -⟩ := h
  intro c hc
  rcases List.mem_append.mp hc with hc | hc
  · exact written_mem hw hs c hc
  · rcases List.mem_cons.mp hc with rfl | hc
    · intro hm; rcases hs _ hm with h | h | h <;> revert h <;> decide
    · exact hr c hc

/-- What a parameter gives. -/
def readParam (seg : Bytes) : Option (Bytes × Bytes) :=
  if seg = [] then none
  else match unescape 32 (seg.takeWhile (· != 61)), unescape 32 ((seg.dropWhile (· != 61)).drop 1) with
    | some k, some v => some (k, v)
    | _, _ => none

theorem take_none (a : Bytes) (h : (61 : UInt8) ∉ a) : a.takeWhile (· != 61) = a ∧ (a.dropWhile (· != 61)).drop 1 = [] := by
  have : ∀ x ∈ a, (x != 61) = true := fun x hx => by simp; rintro rfl; exact h hx
  clear h
  induction a with
  | nil => exact ⟨rfl, rfl⟩
  | cons x a ih =>
    have hx := this x (by simp)
    obtain ⟨i1, i2⟩ := ih (fun y hy => this y (by simp [hy]))
    rw [List.takeWhile_cons, List.dropWhile_cons, hx, if_pos rfl, if_pos rfl, i1]
    exact ⟨rfl, i2⟩

theorem stops_key : ∀ c ∈ ([38, 59, 61] : List UInt8), c = 38 ∨ c = 59 ∨ c = 61 := by simp
theorem stops_value : ∀ c ∈ ([38, 59] : List UInt8), c = 38 ∨ c = 59 ∨ c = 61 := by simp

theorem param_read {seg : Bytes} {o : Option (Bytes × Bytes)} (h : ParamIs seg o) : readParam seg = o := by
  unfold readParam
  cases h with
  | pair hk hv =>
    rename_i ks k vs v
    have := take_eq ks vs (fun hm => written_mem hk stops_key 61 hm (by simp))
    rw [if_neg (by simp), this.1, this.2, written_unescape hk, written_unescape hv]
  | bare hne hk =>
    have := take_none seg (fun hm => written_mem hk stops_key 61 hm (by simp))
    rw [if_neg hne, this.1, this.2, written_unescape hk]; rfl
  | empty => rfl
  | badKey hk hv =>
    rename_i ks vs
    have := take_eq ks vs (fun hm => misspelt_mem hk stops_key 61 hm (by simp))
    rw [if_neg (by simp), this.1, misspelt_unescape hk]
  | badBare hk =>
    have := take_none seg (fun hm => misspelt_mem hk stops_key 61 hm (by simp))
    rw [this.1, misspelt_unescape hk]
    split <;> rfl
  | badValue hk hv =>
    rename_i ks k vs
    have := take_eq ks vs (fun hm => written_mem hk stops_key 61 hm (by simp))
    rw [if_neg (by simp), this.1, this.2, written_unescape hk, misspelt_unescape hv]

theorem param_mem {seg : Bytes} {o : Option (Bytes × Bytes)} (h : ParamIs seg o) : ∀ c ∈ seg, c ≠ 38 ∧ c ≠ 59 := by
  have h2 : ∀ c : UInt8, c ∉ ([38, 59] : List UInt8) → c ≠ 38 ∧ c ≠ 59 := fun c hc => by simpa using hc
  have h3 : ∀ c : UInt8, c ∉ ([38, 59, 61] : List UInt8) → c ≠ 38 ∧ c ≠ 59 := fun c hc => by simp at hc; exact ⟨hc.1, hc.2.1⟩
  have hj : ∀ {a b : Bytes}, (∀ c ∈ a, c ≠ 38 ∧ c ≠ 59) → (∀ c ∈ b, c ≠ 38 ∧ c ≠ 59) → ∀ c ∈ a ++ 61 :: b, c ≠ 38 ∧ c ≠ 59 := by
    intro a b ha hb c hc
    rcases List.mem_append.mp hc with hc | hc
    · exact ha c hc
    · rcases List.mem_cons.mp hc with rfl | hc
      · decide
      · exact hb c hc
  cases h with
  | pair hk hv => exact hj (fun c hc => h3 c (written_mem hk stops_key c hc)) (fun c hc => h2 c (written_mem hv stops_value c hc))
  | bare hne hk => exact fun c hc => h3 c (written_mem hk stops_key c hc)
  | empty => simp
  | badKey hk hv => exact hj (fun c hc => h3 c (misspelt_mem hk stops_key c hc)) hv
  | badBare hk => exact fun c hc => h3 c (misspelt_mem hk stops_key c hc)
  | badValue hk hv => exact hj (fun c hc => h3 c (written_mem hk stops_key c hc)) (fun c hc => h2 c (misspelt_mem hv stops_value c hc))

theorem goForm_eq (q : Bytes) : goForm q = ((splitOn 38 (q.map (fun b => if b = 59 then 38 else b))).filterMap readParam).map (fun p => (keyString p.1, p.2)) := by
  unfold goForm
  rw [List.map_filterMap]
  congr 1
  funext seg
  unfold readParam
  by_cases hs : seg = []
  · rw [if_pos hs, if_pos hs]; rfl
  · rw [if_neg hs, if_neg hs]
    cases unescape 32 (seg.takeWhile (· != 61)) with
    | none => rfl
    | some k =>
      cases unescape 32 ((seg.dropWhile (· != 61)).drop 1) with
      | none => rfl
      | some v => rfl

theorem map_same (seg : Bytes) (h : ∀ c ∈ seg, c ≠ 38 ∧ c ≠ 59) : seg.map (fun b => if b = 59 then 38 else b) = seg := by
  refine (List.map_congr_left (g := id) ?_).trans (List.map_id _)
  intro b hb
  rw [if_neg (h b hb).2]; rfl

/-- **C123** (form). What follows the question mark is read as the keys and the values it says, in their order. -/
theorem C123_form {q : Bytes} {ps : List (Bytes × Bytes)} (h : QueryIs q ps) : goForm q = ps.map (fun p => (keyString p.1, p.2)) := by
  rw [goForm_eq]
  congr 1
  induction h with
  | last hp =>
    rename_i seg o
    rw [map_same seg (param_mem hp), splitOn_none 38 seg (fun hm => (param_mem hp 38 hm).1 rfl), List.filterMap_cons, param_read hp]
    cases o <;> rfl
  | more sep hp hs hq ih =>
    rename_i seg q o ps
    have hsep : (if sep = 59 then 38 else sep) = 38 := by rcases hs with rfl | rfl <;> decide
    rw [List.map_append, List.map_cons, hsep, splitOn_append, List.filterMap_append, ih, map_same seg (param_mem hp), splitOn_none 38 seg (fun hm => (param_mem hp 38 hm).1 rfl), List.filterMap_cons, param_read hp]
    cases o <;> rfl

/-! ## Every address says something -/

theorem written_or {stop : List UInt8} : ∀ (n : Nat) (s : Bytes), s.length ≤ n → (∀ c ∈ s, c ∉ stop) → (∃ t, Written stop s t) ∨ Misspelt stop s := by
  intro n
  induction n with
  | zero =>
    intro s hl _
    rw [List.length_eq_zero_iff.mp (Nat.le_zero.mp hl)]
    exact .inl ⟨[], .nil⟩
  | succ n ih =>
    intro s hl hm
    match s, hl, hm with
    | [], _, _ => exact .inl ⟨[], .nil⟩
    | c :: s, hl, hm =>
      have hc := hm c (by simp)
      have hms : ∀ d ∈ s, d ∉ stop := fun d hd => hm d (by simp [hd])
      by_cases h37 : c = 37
      · subst h37
        by_cases hx : ∃ a b r x y, s = a :: b :: r ∧ HexIs a x ∧ HexIs b y
        · obtain ⟨a, b, r, x, y, rfl, ha, hb⟩ := hx
          have hlt : x * 16 + y < 256 := by unfold HexIs at ha hb; omega
          rcases ih r (by simp at hl; omega) (fun d hd => hms d (by simp [hd])) with ⟨t, ht⟩ | ⟨good, meant, rest, hw, rfl, hr, hn⟩
          · exact .inl ⟨_, .escape a b x y (UInt8.ofNat (x * 16 + y)) ha hb (by simp; omega) ht⟩
          · exact .inr ⟨_, _, rest, .escape a b x y (UInt8.ofNat (x * 16 + y)) ha hb (by simp; omega) hw, rfl, hr, hn⟩
        · exact .inr ⟨[], [], s, .nil, rfl, hms, hx⟩
      · rcases ih s (by simpa using hl) hms with ⟨t, ht⟩ | ⟨good, meant, rest, hw, rfl, hr, hn⟩
        · by_cases h43 : c = 43
          · subst h43; exact .inl ⟨_, .plus ht⟩
          · exact .inl ⟨_, .byte c h37 h43 hc ht⟩
        · by_cases h43 : c = 43
          · subst h43; exact .inr ⟨_, _, rest, .plus hw, rfl, hr, hn⟩
          · exact .inr ⟨_, _, rest, .byte c h37 h43 hc hw, rfl, hr, hn⟩

theorem cut_at (P : UInt8 → Prop) [DecidablePred P] : ∀ s : Bytes, (∀ c ∈ s, ¬ P c) ∨ ∃ a c b, s = a ++ c :: b ∧ P c ∧ ∀ d ∈ a, ¬ P d := by
  intro s
  induction s with
  | nil => exact .inl (by simp)
  | cons c s ih =>
    by_cases hc : P c
    · exact .inr ⟨[], c, s, rfl, hc, by simp⟩
    · rcases ih with h | ⟨a, d, b, rfl, hd, ha⟩
      · exact .inl (by intro x hx; rcases List.mem_cons.mp hx with rfl | hx; exacts [hc, h x hx])
      · exact .inr ⟨c :: a, d, b, rfl, hd, by intro x hx; rcases List.mem_cons.mp hx with rfl | hx; exacts [hc, ha x hx]⟩

theorem param_some (seg : Bytes) (h : ∀ c ∈ seg, c ≠ 38 ∧ c ≠ 59) : ∃ o, ParamIs seg o := by
  have k3 : ∀ {c : UInt8}, c ≠ 38 ∧ c ≠ 59 → c ≠ 61 → c ∉ ([38, 59, 61] : List UInt8) := by intro c h1 h2; simp [h1, h2]
  have k2 : ∀ {c : UInt8}, c ≠ 38 ∧ c ≠ 59 → c ∉ ([38, 59] : List UInt8) := by intro c h1; simp [h1]
  rcases cut_at (· = 61) seg with hno | ⟨ks, c, vs, rfl, rfl, hks⟩
  · rcases written_or (stop := [38, 59, 61]) seg.length seg (le_refl _) (fun c hc => k3 (h c hc) (hno c hc)) with ⟨t, ht⟩ | hb
    · by_cases hne : seg = []
      · subst hne; exact ⟨_, .empty⟩
      · exact ⟨_, .bare hne ht⟩
    · exact ⟨_, .badBare hb⟩
  · rcases written_or (stop := [38, 59, 61]) ks.length ks (le_refl _) (fun c hc => k3 (h c (by simp [hc])) (hks c hc)) with ⟨k, hk⟩ | hb
    · rcases written_or (stop := [38, 59]) vs.length vs (le_refl _) (fun c hc => k2 (h c (by simp [hc]))) with ⟨v, hv⟩ | hv
      · exact ⟨_, .pair hk hv⟩
      · exact ⟨_, .badValue hk hv⟩
    · exact ⟨_, .badKey hb (fun c hc => h c (by simp [hc]))⟩

/-- **C123** (every). Every text after the question mark says something. -/
theorem C123_every : ∀ q : Bytes, ∃ ps, QueryIs q ps := by
  suffices h : ∀ (n : Nat) (q : Bytes), q.length ≤ n → ∃ ps, QueryIs q ps from fun q => h q.length q (le_refl _)
  intro n
  induction n with
  | zero =>
    intro q hl
    rw [List.length_eq_zero_iff.mp (Nat.le_zero.mp hl)]
    exact ⟨_, .last .empty⟩
  | succ n ih =>
    intro q hl
    rcases cut_at (fun c => c = 38 ∨ c = 59) q with hno | ⟨seg, sep, rest, rfl, hsep, hseg⟩
    · obtain ⟨o, ho⟩ := param_some q (fun c hc => by simpa using hno c hc)
      exact ⟨_, .last ho⟩
    · obtain ⟨o, ho⟩ := param_some seg (fun c hc => by simpa using hseg c hc)
      obtain ⟨ps, hps⟩ := ih rest (by simp at hl; omega)
      exact ⟨_, .more sep ho hsep hps⟩

/-! ## Keys -/

theorem byte_char {a b : UInt8} (h : Char.ofNat a.toNat = Char.ofNat b.toNat) : a = b := by
  have ha := a.toNat_lt
  have hb := b.toNat_lt
  have e : ∀ n : Nat, n < 256 → (Char.ofNat n).toNat = n := by
    intro n hn
    have hv : n.isValidChar := .inl (by omega)
    unfold Char.ofNat
    rw [dif_pos hv]
    simp [Char.ofNatAux, Char.toNat]
  apply UInt8.toNat_inj.mp
  rw [← e a.toNat (by omega), ← e b.toNat (by omega), h]

theorem keyString_inj {a b : Bytes} (h : keyString a = keyString b) : a = b := by
  unfold keyString at h
  have h := String.ofList_injective h
  exact List.map_injective_iff.mpr (fun x y h => byte_char h) h

theorem first_value (ps : List (Bytes × Bytes)) (k : Bytes) :
    (∀ v, FirstIs ps k v → formValue (ps.map (fun p => (keyString p.1, p.2))) (keyString k) = v) ∧
    ((∀ v, (k, v) ∉ ps) → formValue (ps.map (fun p => (keyString p.1, p.2))) (keyString k) = []) := by
  induction ps with
  | nil => exact ⟨(fun v h => nomatch h), fun _ => rfl⟩
  | cons p ps ih =>
    rw [List.map_cons, formValue]
    constructor
    · intro v h
      cases h with
      | here => rw [if_pos rfl]
      | later hne h =>
        rw [if_neg (fun e => hne (keyString_inj e))]
        exact ih.1 v h
    · intro h
      rw [if_neg]
      · exact ih.2 (fun v hv => h v (by simp [hv]))
      · intro e
        have := keyString_inj e
        exact h p.2 (by rw [← this]; simp)

theorem text_of {q : Bytes} {ps : List (Bytes × Bytes)} (h : QueryIs q ps) {key : String} (hk : keyString key.toUTF8.toList = key) (text : Bytes) : TextOf ps key text ↔ formValue (goForm q) key = text := by
  obtain ⟨f1, f2⟩ := first_value ps key.toUTF8.toList
  rw [hk] at f1 f2
  rw [C123_form h]
  constructor
  · rintro (h1 | ⟨h1, rfl⟩)
    · exact f1 _ h1
    · exact f2 h1
  · intro e
    have : (∃ v, FirstIs ps key.toUTF8.toList v) ∨ ∀ v, (key.toUTF8.toList, v) ∉ ps := by
      clear f1 f2 e h
      induction ps with
      | nil => exact .inr (by simp)
      | cons p ps ih =>
        obtain ⟨k, v⟩ := p
        by_cases hk : k = key.toUTF8.toList
        · subst hk; exact .inl ⟨v, .here _ _ _⟩
        · rcases ih with ⟨w, hw⟩ | hn
          · exact .inl ⟨w, .later hk hw⟩
          · refine .inr (fun w hw => ?_)
            rcases List.mem_cons.mp hw with hw | hw
            · injection hw with h1 h2; exact hk h1.symm
            · exact hn w hw
    rcases this with ⟨v, hv⟩ | hn
    · rw [← e, f1 v hv]; exact .inl hv
    · rw [← e, f2 hn]; exact .inr ⟨hn, rfl⟩

theorem int_of (text : Bytes) (dflt : Int64) : IntOf text dflt (getInt text dflt) := by
  unfold getInt IntOf
  constructor
  · intro i hi h1 h2
    have : parseInt64 text = some (Int64.ofInt i) := (C80_parse text _).mpr (by rw [Int64.toInt_ofInt_of_le h1 h2]; exact hi)
    rw [this]
    exact Int64.toInt_ofInt_of_le h1 h2
  · intro hn
    cases hp : parseInt64 text with
    | none => rfl
    | some v => exact absurd ⟨v.toInt, (C80_parse text v).mp hp, Int64.le_toInt v, Int64.toInt_lt v⟩ hn

theorem five_val : fVal (0x4014000000000000#64 : F64) = 5 := by
  have h1 : fNeg (0x4014000000000000#64 : F64) = false := by decide
  have h2 : fMag (0x4014000000000000#64 : F64) = 4617315517961601024 := by decide
  unfold fVal
  rw [h1, h2]
  simp [magVal]
  norm_num

/-- **C123** (request). A request for a graph is for what its address says. -/
theorem C123_request {D α P : Type} {b : Backend D α P} (hd : b.duration = parseDuration) (hf : b.float = parseFloat) {q : Bytes} {ps : List (Bytes × Bytes)} (h : QueryIs q ps) (clock : Int64) {ask : RenderAsk}
    (hask : ask = renderAsk b (goForm q) clock) :
    TextOf ps "metric" ask.metric ∧
    (∀ t, TextOf ps "width" t → IntOf t 1000 ask.nums.width) ∧ (∀ t, TextOf ps "height" t → IntOf t 350 ask.nums.height) ∧ (∀ t, TextOf ps "padding" t → IntOf t 0 ask.nums.padding) ∧
    (∀ t, TextOf ps "now" t → IntOf t clock ask.nums.now) ∧ (∀ t, TextOf ps "samples" t → IntOf t 30 ask.nums.samples) ∧
    (∀ t, TextOf ps "duration" t → DurationOf t ask.dur) ∧ (∀ t, TextOf ps "compression" t → CompressionOf t ask.compression) := by
  subst hask
  refine ⟨(text_of h (by decide +kernel) _).mpr rfl, ?_, ?_, ?_, ?_, ?_, ?_, ?_⟩
  · intro t ht; have e := (text_of h (by decide +kernel) _).mp ht; subst e; exact int_of _ _
  · intro t ht; have e := (text_of h (by decide +kernel) _).mp ht; subst e; exact int_of _ _
  · intro t ht; have e := (text_of h (by decide +kernel) _).mp ht; subst e; exact int_of _ _
  · intro t ht; have e := (text_of h (by decide +kernel) _).mp ht; subst e; exact int_of _ _
  · intro t ht; have e := (text_of h (by decide +kernel) _).mp ht; subst e; exact int_of _ _
  · intro t ht
    have e := (text_of h (by decide +kernel) _).mp ht
    subst e
    exact C111_request b hd (goForm q) clock
  · intro t ht
    have e := (text_of h (by decide +kernel) _).mp ht
    have hc : (renderAsk b (goForm q) clock).compression = (parseFloat t).getD 0x4014000000000000#64 := by rw [← e, ← hf]; rfl
    rw [hc]
    constructor
    · intro n hn hs et
      obtain ⟨c1, c2⟩ := C116_number hn hs
      rw [et]
      constructor
      · intro hl
        obtain ⟨x, hx, hr⟩ := c1 hl
        rw [hx]; exact hr
      · intro hl
        rw [c2 hl]; exact five_val
    · intro hno hw
      cases hp : parseFloat t with
      | none => exact five_val
      | some x =>
        refine absurd ?_ hw
        rcases C116_only hp with h | h | h | h
        · exact absurd h hno
        · unfold InfWord at h; simp only [List.map_cons, List.map_nil, List.mem_cons, List.not_mem_nil, or_false] at h ⊢; rcases h with h | h | h | h <;> simp [h]
        · unfold NegInfWord at h; simp only [List.map_cons, List.map_nil, List.mem_cons, List.not_mem_nil, or_false] at h ⊢; rcases h with h | h <;> simp [h]
        · unfold NanWord at h; simp only [List.map_cons, List.map_nil, List.mem_cons, List.not_mem_nil, or_false] at h ⊢; simp [h]

/-- **C123** (search). A search is for what its address says: of the names listed, the first that match the text of `query`, as many as `results` says, or ten; a negative number of them panics. -/
theorem C123_search {q : Bytes} {ps : List (Bytes × Bytes)} (h : QueryIs q ps) (names : List Bytes) {text number : Bytes} (ht : TextOf ps "query" text) (hn : TextOf ps "results" number) :
    ∃ n : Int64, IntOf number 10 n ∧ serveQuery (goForm q) names = if n.toInt < 0 then none else some ((matching text names).take n.toInt.toNat) := by
  have e1 := (text_of h (by decide +kernel) _).mp ht
  have e2 := (text_of h (by decide +kernel) _).mp hn
  refine ⟨_, int_of number 10, ?_⟩
  rw [C81_answer (goForm q) names _ (getInt_means (goForm q) "results" 10), e1, e2]

/-- **C123** (served). A request that is let in uses the metric its address says, or, if it says none, is answered with 400 and uses nothing. -/
theorem C123_served (hash : Bytes → Bytes) (msg : HErr → Bytes) (s : HServer) {q : Bytes} {ps : List (Bytes × Bytes)} (h : QueryIs q ps) {metric : Bytes} (hm : TextOf ps "metric" metric)
    (auth : Option (Bytes × Bytes)) (accept : String) (hin : s.username = [] ∨ auth = some (s.username, s.password)) :
    (metric ≠ [] → (serve hash msg s (getRequest "/api/render" q auth accept)).touched = [.query metric]) ∧
    (metric = [] → (serve hash msg s (getRequest "/api/render" q auth accept)).touched = [] ∧ (serve hash msg s (getRequest "/api/render" q auth accept)).status = 400) := by
  have e := (text_of h (by decide +kernel) _).mp hm
  have hr : serveHTTP hash s (getRequest "/api/render" q auth accept) = route s (getRequest "/api/render" q auth accept) := by
    unfold serveHTTP
    simp only
    rw [if_neg, if_neg (by simp [getRequest])]
    rintro ⟨h1, h2⟩
    rcases hin with hin | rfl
    · exact h1 hin
    · simp [getRequest, validAuth] at h2
  have hroute : route s (getRequest "/api/render" q auth accept) = if metric = [] then { err := some .badRequest }
      else { touched := [.query metric], acts := (s.render (getRequest "/api/render" q auth accept)).1, err := (s.render (getRequest "/api/render" q auth accept)).2 } := by
    unfold route
    rw [if_pos (by rfl), show (getRequest "/api/render" q auth accept).form "metric" = metric from e]
  constructor
  · intro hne
    rw [if_neg hne] at hroute
    unfold serve
    simp only [hr, hroute]
  · intro hne
    rw [if_pos hne] at hroute
    unfold serve
    simp only [hr, hroute]
    constructor <;> trivial

/-- **C123** (one reading). An address says only one thing. -/
theorem C123_unique {q : Bytes} {ps ps' : List (Bytes × Bytes)} (h : QueryIs q ps) (h' : QueryIs q ps') : ps = ps' := by
  have e := (C123_form h).symm.trans (C123_form h')
  refine List.map_injective_iff.mpr ?_ e
  rintro ⟨a, b⟩ ⟨c, d⟩ hx
  simp only [Prod.mk.injEq] at hx
  rw [keyString_inj hx.1, hx.2]

/-- An address with escapes of either case, a plus, an empty and a malformed parameter, a repeated one, and one without a value. -/
def exAddress : Bytes := "wid%74h=%38%30&&metric=a%2bb+c=%2F;height=9%&width=7;compression=2.5&duration=1h30m;x".toUTF8.toList

/-- What it says. -/
def exSays : List (Bytes × Bytes) :=
  [("width".toUTF8.toList, "80".toUTF8.toList), ("metric".toUTF8.toList, "a+b c=/".toUTF8.toList), ("width".toUTF8.toList, "7".toUTF8.toList), ("compression".toUTF8.toList, "2.5".toUTF8.toList),
    ("duration".toUTF8.toList, "1h30m".toUTF8.toList), ("x".toUTF8.toList, [])]

/-- **C123 example.** It says so, and the request is for that. -/
theorem C123_example : QueryIs exAddress exSays ∧ TextOf exSays "metric" "a+b c=/".toUTF8.toList ∧ TextOf exSays "width" "80".toUTF8.toList ∧ TextOf exSays "height" [] ∧ TextOf exSays "compression" "2.5".toUTF8.toList ∧
    TextOf exSays "duration" "1h30m".toUTF8.toList ∧ renderNums (goForm exAddress) 6 = { width := 80, height := 350, padding := 0, now := 6, samples := 30 } ∧ parseDuration "1h30m".toUTF8.toList = some 5400000000000 := by
  have hf : goForm exAddress = exSays.map (fun p => (keyString p.1, p.2)) := by decide +kernel
  have hq : QueryIs exAddress exSays := by
    obtain ⟨ps, h⟩ := C123_every exAddress
    have e : ps = exSays := by
      refine List.map_injective_iff.mpr ?_ ((C123_form h).symm.trans hf)
      rintro ⟨a, b⟩ ⟨c, d⟩ hx
      simp only [Prod.mk.injEq] at hx
      rw [keyString_inj hx.1, hx.2]
    rw [← e]; exact h
  refine ⟨hq, (text_of hq (by decide +kernel) _).mpr (by decide +kernel), (text_of hq (by decide +kernel) _).mpr (by decide +kernel), (text_of hq (by decide +kernel) _).mpr (by decide +kernel),
    (text_of hq (by decide +kernel) _).mpr (by decide +kernel), (text_of hq (by decide +kernel) _).mpr (by decide +kernel), by decide +kernel, by decide +kernel⟩

end Rothko
