import Verif.Model.Json
import Verif.Props.Url
import Verif.Spec.Pipe
/-!
# C93: the answer of a query is JSON for the names
-/
namespace Rothko

/-! ## Specification -/

/-- The value of four hexadecimal digits. -/
def Hex4 (a b c d : UInt8) (n : Nat) : Prop := ∃ w x y z, hexValue a = some w ∧ hexValue b = some x ∧ hexValue c = some y ∧ hexValue d = some z ∧ n = ((w * 16 + x) * 16 + y) * 16 + z

/-- The characters of a JSON string (RFC 8259): characters from the space on but for the quote and the backslash, the eight short escapes, the escapes of four digits. Pairs of surrogates are left out. The first is the text, the second how it is written. -/
inductive JsonChars : Bytes → Bytes → Prop
  | nil : JsonChars [] []
  | char (c : UInt8) {t s : Bytes} : 32 ≤ c → c ≠ 34 → c ≠ 92 → JsonChars t s → JsonChars (c :: t) (c :: s)
  | short (e c : UInt8) {t s : Bytes} : (e, c) ∈ ([(34, 34), (92, 92), (47, 47), (98, 8), (102, 12), (110, 10), (114, 13), (116, 9)] : List (UInt8 × UInt8)) → JsonChars t s → JsonChars (c :: t) (92 :: e :: s)
  | long (a b c d : UInt8) (n : Nat) {t s : Bytes} : Hex4 a b c d n → Scalar n → JsonChars t s → JsonChars (utf8 n ++ t) (92 :: 117 :: a :: b :: c :: d :: s)

/-- The strings of a JSON list after the first one's bracket. -/
inductive JsonItems : List Bytes → Bytes → Prop
  | last {t s : Bytes} (rest : Bytes) : JsonChars t s → rest = [93, 10] → JsonItems [t] (34 :: s ++ 34 :: rest)
  | more {t s : Bytes} {ts : List Bytes} {rest : Bytes} : JsonChars t s → JsonItems ts rest → JsonItems (t :: ts) (34 :: s ++ 34 :: 44 :: rest)

/-- A JSON list of strings on a line of its own. -/
def JsonList (ts : List Bytes) (s : Bytes) : Prop := (ts = [] ∧ s = [91, 93, 10]) ∨ ∃ r, s = 91 :: r ∧ JsonItems ts r

/-- A string with each byte that begins no character replaced by U+FFFD. -/
inductive Repaired : Bytes → Bytes → Prop
  | nil : Repaired [] []
  | char (r : Nat) {s t : Bytes} : Scalar r → Repaired s t → Repaired (utf8 r ++ s) (utf8 r ++ t)
  | broken (b : UInt8) {s t : Bytes} : (∀ r, Scalar r → ¬ utf8 r <+: b :: s) → Repaired s t → Repaired (b :: s) (utf8 65533 ++ t)

/-! ## Proof -/

theorem JsonChars.append {t t' s s' : Bytes} (h : JsonChars t s) (h' : JsonChars t' s') : JsonChars (t ++ t') (s ++ s') := by
  induction h with
  | nil => exact h'
  | char c h1 h2 h3 _ ih => exact .char c h1 h2 h3 ih
  | short e c h1 _ ih => exact .short e c h1 ih
  | long a b c d n h1 h2 _ ih =>
    rw [List.append_assoc]
    exact .long a b c d n h1 h2 ih

theorem hex_lower (n : Nat) (h : n < 16) : hexValue (hexLower n) = some n := by
  revert n
  decide +kernel

theorem json_ascii (n : Nat) (h : n < 128) : JsonChars [UInt8.ofNat n] (jsonAscii (UInt8.ofNat n)) := by
  have hn : (UInt8.ofNat n).toNat = n := byte_toNat (by omega)
  unfold jsonAscii
  split
  · rename_i h'
    rcases h' with h' | h' <;> rw [h']
    · exact .short 92 92 (by decide) .nil
    · exact .short 34 34 (by decide) .nil
  · rename_i h1
    split
    · rename_i h'
      rw [h']
      exact .short 110 10 (by decide) .nil
    · split
      · rename_i h'
        rw [h']
        exact .short 114 13 (by decide) .nil
      · split
        · rename_i h'
          rw [h']
          exact .short 116 9 (by decide) .nil
        · split
          · rw [hn]
            have := JsonChars.long 48 48 (hexLower (n / 16)) (hexLower (n % 16)) n (t := []) (s := [])
              ⟨0, 0, n / 16, n % 16, by decide, by decide, hex_lower _ (by omega), hex_lower _ (by omega), by omega⟩ (.inl (by omega)) .nil
            rw [show utf8 n = [UInt8.ofNat n] by unfold utf8; rw [if_pos h]] at this
            exact this
          · rename_i h5
            simp only [not_or] at h1 h5
            refine .char _ ?_ h1.2 h1.1 .nil
            have := h5.1
            rw [UInt8.not_lt] at this
            exact this

theorem utf8_high (r : Nat) (h : 128 ≤ r) (hr : Scalar r) : ∀ b ∈ utf8 r, 128 ≤ b.toNat := by
  unfold Scalar at hr
  intro b hb
  unfold utf8 at hb
  rw [if_neg (by omega)] at hb
  split at hb
  · simp only [List.mem_cons, List.not_mem_nil, or_false] at hb
    rcases hb with rfl | rfl <;> rw [byte_toNat (by omega)] <;> omega
  · split at hb
    · simp only [List.mem_cons, List.not_mem_nil, or_false] at hb
      rcases hb with rfl | rfl | rfl <;> rw [byte_toNat (by omega)] <;> omega
    · simp only [List.mem_cons, List.not_mem_nil, or_false] at hb
      rcases hb with rfl | rfl | rfl | rfl <;> rw [byte_toNat (by omega)] <;> omega

theorem json_high (s : Bytes) (h : ∀ b ∈ s, 128 ≤ b.toNat) : JsonChars s s := by
  induction s with
  | nil => exact .nil
  | cons b s ih =>
    have hb := h b (by simp)
    refine .char b ?_ ?_ ?_ (ih (fun x hx => h x (by simp [hx])))
    · rw [UInt8.le_iff_toNat_le]
      show 32 ≤ _
      omega
    · rintro rfl
      revert hb
      decide
    · rintro rfl
      revert hb
      decide

theorem json_rune (r : Nat) (hr : Scalar r) : JsonChars (utf8 r) (jsonRune (r, utf8 r)) := by
  unfold jsonRune
  by_cases h : r < 128
  · rw [if_pos h]
    rw [show utf8 r = [UInt8.ofNat r] by unfold utf8; rw [if_pos h]]
    exact json_ascii r h
  · rw [if_neg h, if_neg]
    · split
      · rename_i h2
        have := JsonChars.long 50 48 50 (hexLower (r % 16)) r (t := []) (s := []) ⟨2, 0, 2, r % 16, by decide, by decide, by decide, hex_lower _ (by omega), by dsimp only at h2; omega⟩ hr .nil
        rw [List.append_nil] at this
        exact this
      · exact json_high _ (utf8_high r (by omega) hr)
    · rintro ⟨h1, h2⟩
      dsimp only at h1 h2
      subst h1
      revert h2
      decide

theorem json_chars {s : Bytes} {cs : List (Nat × Bytes)} (h : Chars s cs) : ∃ t, Repaired s t ∧ JsonChars t (cs.flatMap jsonRune) := by
  induction h with
  | nil => exact ⟨[], .nil, .nil⟩
  | char r hr _ ih =>
    obtain ⟨t, h1, h2⟩ := ih
    exact ⟨utf8 r ++ t, .char r hr h1, (json_rune r hr).append h2⟩
  | broken b hb _ ih =>
    obtain ⟨t, h1, h2⟩ := ih
    refine ⟨utf8 65533 ++ t, .broken b hb h1, ?_⟩
    exact JsonChars.long 102 102 102 100 65533 ⟨15, 15, 15, 13, by decide, by decide, by decide, by decide, by decide⟩ (.inr ⟨by decide, by decide⟩) h2

/-- A text is not changed by the repair. -/
theorem repaired_text {s t : Bytes} (h : Repaired s t) (hs : Text s) : t = s := by
  obtain ⟨cs, h1, h2⟩ := hs
  induction h generalizing cs with
  | nil => rfl
  | char r hr hrep ih =>
    rename_i s0 t0
    cases cs with
    | nil => exact absurd h2 (by
        have := utf8_ne r
        cases hu : utf8 r with
        | nil => exact absurd hu this
        | cons a l => simp)
    | cons c cs =>
      rw [List.flatMap_cons] at h2
      cases hu : utf8 r with
      | nil => exact absurd hu (utf8_ne r)
      | cons a l =>
        have e1 := decode_complete r hr a (l ++ s0) (by rw [hu]; exact ⟨s0, rfl⟩)
        have h2' := h2
        rw [hu] at h2'
        have e2 := decode_complete c (h1 c (by simp)) a (l ++ s0) ⟨_, h2'.symm⟩
        rw [e1] at e2
        injection e2 with e2 _
        subst e2
        rw [List.append_cancel_left_eq] at h2
        rw [← hu, ih cs (fun x hx => h1 x (by simp [hx])) h2]
  | broken b hb _ _ =>
    cases cs with
    | nil => cases h2
    | cons c cs =>
      rw [List.flatMap_cons] at h2
      exact absurd ⟨_, h2.symm⟩ (hb c (h1 c (by simp)))

/-- What is written is read in one way, up to the closing quote. -/
theorem json_unique {t s : Bytes} (h : JsonChars t s) : ∀ {t' s' r r' : Bytes}, JsonChars t' s' → s ++ 34 :: r = s' ++ 34 :: r' → t = t' ∧ r = r' := by
  induction h with
  | nil =>
    intro t' s' r r' h' e
    cases h' with
    | nil =>
      injection e with _ e
      exact ⟨rfl, e⟩
    | char c _ h2 _ _ =>
      injection e with e _
      exact absurd e.symm h2
    | short => injection e with e _; exact absurd e (by decide)
    | long => injection e with e _; exact absurd e (by decide)
  | char c _ h2 h3 _ ih =>
    intro t' s' r r' h' e
    cases h' with
    | nil =>
      injection e with e _
      exact absurd e h2
    | char c' _ _ _ h4 =>
      injection e with e1 e2
      obtain ⟨h5, h6⟩ := ih h4 e2
      exact ⟨by rw [e1, h5], h6⟩
    | short => injection e with e _; exact absurd e h3
    | long => injection e with e _; exact absurd e h3
  | short x c hx _ ih =>
    intro t' s' r r' h' e
    cases h' with
    | nil => injection e with e _; exact absurd e (by decide)
    | char c' _ _ h3 _ => injection e with e _; exact absurd e.symm h3
    | short x' c' hx' h4 =>
      injection e with _ e
      injection e with e1 e2
      obtain ⟨h5, h6⟩ := ih h4 e2
      subst e1
      refine ⟨?_, h6⟩
      rw [h5]
      congr 1
      simp only [List.mem_cons, List.not_mem_nil, or_false, Prod.mk.injEq] at hx hx'
      rcases hx with ⟨rfl, rfl⟩ | ⟨rfl, rfl⟩ | ⟨rfl, rfl⟩ | ⟨rfl, rfl⟩ | ⟨rfl, rfl⟩ | ⟨rfl, rfl⟩ | ⟨rfl, rfl⟩ | ⟨rfl, rfl⟩ <;> simp at hx' <;> exact hx'.symm
    | long =>
      injection e with _ e
      injection e with e1 e2
      subst e1
      simp at hx
  | long a b c d n hn _ _ ih =>
    intro t' s' r r' h' e
    cases h' with
    | nil => injection e with e _; exact absurd e (by decide)
    | char c' _ _ h3 _ => injection e with e _; exact absurd e.symm h3
    | short x' c' hx' _ =>
      injection e with _ e
      injection e with e1 e2
      subst e1
      simp at hx'
    | long a' b' c' d' n' hn' _ h4 =>
      injection e with _ e
      injection e with _ e
      injection e with ea e
      injection e with eb e
      injection e with ec e
      injection e with ed e
      subst ea eb ec ed
      obtain ⟨h5, h6⟩ := ih h4 e
      obtain ⟨w, x, y, z, q1, q2, q3, q4, q5⟩ := hn
      obtain ⟨w', x', y', z', p1, p2, p3, p4, p5⟩ := hn'
      rw [q1] at p1; rw [q2] at p2; rw [q3] at p3; rw [q4] at p4
      injection p1 with p1; injection p2 with p2; injection p3 with p3; injection p4 with p4
      subst p1 p2 p3 p4
      exact ⟨by rw [q5, p5, h5], h6⟩

theorem items_unique {ts : List Bytes} {s : Bytes} (h : JsonItems ts s) : ∀ {ts' : List Bytes}, JsonItems ts' s → ts = ts' := by
  induction h with
  | last rest h1 hr =>
    intro ts' h'
    generalize hs : 34 :: _ ++ 34 :: rest = z at h'
    cases h' with
    | last rest' h1' hr' =>
      injection hs with _ hs
      rw [(json_unique h1 h1' hs).1]
    | more h1' _ =>
      injection hs with _ hs
      have := (json_unique h1 h1' hs).2
      rw [hr] at this
      injection this with this _
      exact absurd this (by decide)
  | more h1 hr ih =>
    intro ts' h'
    rename_i _ _ _ rest
    generalize hs : 34 :: _ ++ 34 :: 44 :: rest = z at h'
    cases h' with
    | last rest' h1' hr' =>
      injection hs with _ hs
      have := (json_unique h1 h1' hs).2
      rw [hr'] at this
      injection this with this _
      exact absurd this (by decide)
    | more h1' h2' =>
      injection hs with _ hs
      obtain ⟨e1, e2⟩ := json_unique h1 h1' hs
      injection e2 with _ e2
      subst e2
      rw [e1, ih h2']

theorem items_of (t : Bytes) (ts : List Bytes) (names : List Bytes) (n : Bytes) (h : JsonChars t ((runes n).flatMap jsonRune))
    (hs : EachOf (fun x m => JsonChars x ((runes m).flatMap jsonRune)) ts names) : JsonItems (t :: ts) (joinWith 44 ((n :: names).map jsonString) ++ [93, 10]) := by
  induction names generalizing t ts n with
  | nil =>
    cases hs
    have := JsonItems.last [93, 10] h rfl
    simpa [jsonString, joinWith] using this
  | cons m names ih =>
    cases hs with
    | cons h1 h2 =>
      have := JsonItems.more h (ih _ _ m h1 h2)
      have e : joinWith 44 ((n :: m :: names).map jsonString) = jsonString n ++ 44 :: joinWith 44 ((m :: names).map jsonString) := rfl
      rw [e]
      simpa [jsonString] using this

theorem list_unique {ts ts' : List Bytes} {s : Bytes} (h : JsonList ts s) (h' : JsonList ts' s) : ts = ts' := by
  have no : ∀ {ts : List Bytes}, ¬ JsonItems ts [93, 10] := by
    intro ts h
    generalize hs : ([93, 10] : Bytes) = z at h
    cases h with
    | last => injection hs with hs _; exact absurd hs (by decide)
    | more => injection hs with hs _; exact absurd hs (by decide)
  rcases h with ⟨rfl, rfl⟩ | ⟨r, rfl, h⟩
  · rcases h' with ⟨rfl, _⟩ | ⟨r', e, h'⟩
    · rfl
    · injection e with _ e
      rw [← e] at h'
      exact absurd h' no
  · rcases h' with ⟨rfl, e⟩ | ⟨r', e, h'⟩
    · injection e with _ e
      rw [e] at h
      exact absurd h no
    · injection e with _ e
      rw [← e] at h'
      exact items_unique h h'

/-- **C93** The answer to a query is a JSON list of the names in their order, and reads as nothing else: names that are UTF-8 as they are, in others each byte that begins no character as U+FFFD. -/
theorem C93_answer (names : List Bytes) : ∃ ts, EachOf Repaired names ts ∧ JsonList ts (jsonList names) ∧ ∀ ts', JsonList ts' (jsonList names) → ts' = ts := by
  have hall : ∃ ts, EachOf Repaired names ts ∧ EachOf (fun x m => JsonChars x ((runes m).flatMap jsonRune)) ts names := by
    induction names with
    | nil => exact ⟨[], .nil, .nil⟩
    | cons n names ih =>
      obtain ⟨ts, h1, h2⟩ := ih
      obtain ⟨t, h3, h4⟩ := json_chars (runesLoop_chars n.length n (Nat.le_refl _))
      exact ⟨t :: ts, .cons h3 h1, .cons h4 h2⟩
  obtain ⟨ts, h1, h2⟩ := hall
  have h : JsonList ts (jsonList names) := by
    cases h2 with
    | nil => exact .inl ⟨rfl, rfl⟩
    | cons h3 h4 => exact .inr ⟨_, rfl, items_of _ _ _ _ h3 h4⟩
  exact ⟨ts, h1, h, fun ts' h' => list_unique h' h⟩

/-- **C93** Names that are UTF-8: the answer reads as exactly them. -/
theorem C93_names (names ts : List Bytes) (hn : ∀ n ∈ names, Text n) : JsonList ts (jsonList names) ↔ ts = names := by
  obtain ⟨us, h1, h2, h3⟩ := C93_answer names
  have : us = names := by
    clear h2 h3
    induction h1 with
    | nil => rfl
    | cons h _ ih => rw [repaired_text h (hn _ (by simp)), ih (fun n h => hn n (by simp [h]))]
  subst this
  exact ⟨h3 ts, fun e => e ▸ h2⟩

/-- **C93** The completions of a typed text, from the request to the menu: over names that are UTF-8, what the interface reads is the first ten that match. -/
theorem C93_completions (v : Bytes) (names ts : List Bytes) (hn : ∀ n ∈ names, Text n) (ans : List Bytes) (ha : serveQuery (goForm (browserQuery (completionQuery v))) names = some ans) :
    JsonList ts (jsonList ans) ↔ ts = (matching v names).take 10 := by
  rw [(C92_completions v names).2] at ha
  injection ha with ha
  subst ha
  refine C93_names _ _ (fun n h => hn n ?_)
  have := List.mem_of_mem_take h
  unfold matching at this
  exact (List.mem_filter.mp this).1

/-- Test of C93: quotes, control characters, HTML, a letter outside ASCII, a line separator. -/
theorem C93_example : jsonList ["a\"b<\n\x01é\u2028".toUTF8.toList, [], [255, 97]] = "[\"a\\\"b\\u003c\\n\\u0001é\\u2028\",\"\",\"\\ufffda\"]\n".toUTF8.toList ∧ isText "a\"b<\n\x01é\u2028".toUTF8.toList = true := by decide +kernel

/-- A name that is not UTF-8 is read as another one: selecting it in the menu asks for a metric that is not there. -/
theorem C93_broken_refuted : ∃ n t : Bytes, JsonList [t] (jsonList [n]) ∧ t ≠ n := by
  refine ⟨[255], [239, 191, 189], .inr ⟨_, rfl, ?_⟩, by decide⟩
  exact JsonItems.last (t := [239, 191, 189]) (s := [92, 117, 102, 102, 102, 100]) [93, 10] (JsonChars.long 102 102 102 100 65533 (t := []) ⟨15, 15, 15, 13, by decide, by decide, by decide, by decide, by decide⟩ (.inr ⟨by decide, by decide⟩) .nil) rfl

end Rothko
