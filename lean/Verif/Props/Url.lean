import Verif.Model.Url
import Verif.Props.Params
/-!
# C92: the addresses of the interface mean what was selected
-/
namespace Rothko

/-! ## Specification -/

/-- A text: the UTF-8 encoding of some characters. -/
def Text (s : Bytes) : Prop := ∃ cs : List Nat, (∀ c ∈ cs, Scalar c) ∧ s = cs.flatMap utf8

/-! ## Escapes -/

/-- The characters that are left in an escaped text. -/
def escaped (b : UInt8) : Bool := plainByte b || b == 37

theorem all_bytes {P : UInt8 → Prop} (h : ∀ n < 256, P (UInt8.ofNat n)) (b : UInt8) : P b := by
  have := h b.toNat b.toNat_lt
  rwa [UInt8.ofNat_toNat] at this

theorem hex_value (n : Nat) (h : n < 16) : hexValue (hexDigit n) = some n := by
  revert n
  decide +kernel

theorem hex_plain (n : Nat) (h : n < 16) : plainByte (hexDigit n) = true ∧ hexDigit n ≠ 39 := by
  revert n
  decide +kernel

theorem plain_cases (b : UInt8) (h : plainByte b = true) : b ≠ 37 ∧ b ≠ 43 ∧ b ≠ 38 ∧ b ≠ 59 ∧ b ≠ 61 ∧ b ≠ 32 := by
  revert h
  exact all_bytes (P := fun b => plainByte b = true → b ≠ 37 ∧ b ≠ 43 ∧ b ≠ 38 ∧ b ≠ 59 ∧ b ≠ 61 ∧ b ≠ 32) (by decide +kernel) b

theorem unescape_plain (plus : UInt8) (b : UInt8) (h : b ≠ 37) (h' : b ≠ 43) (s : Bytes) : unescape plus (b :: s) = (unescape plus s).map (b :: ·) := by
  rw [unescape]
  · rw [if_neg h, if_neg h']
  · intro a c t hb
    exact absurd hb (fun e => h e)

theorem unescape_hex (plus : UInt8) (x y : Nat) (hx : x < 16) (hy : y < 16) (s : Bytes) :
    unescape plus (37 :: hexDigit x :: hexDigit y :: s) = (unescape plus s).map (UInt8.ofNat (x * 16 + y) :: ·) := by
  rw [unescape, hex_value x hx, hex_value y hy]
  cases unescape plus s <;> rfl

/-- The escapes of one byte, as they are after the browser. -/
def esc (b : UInt8) : Bytes := browserQuery (if plainByte b then [b] else [37, hexDigit (b.toNat / 16), hexDigit (b.toNat % 16)])

theorem browser_append (a b : Bytes) : browserQuery (a ++ b) = browserQuery a ++ browserQuery b := List.flatMap_append ..

theorem browser_encode (s : Bytes) : browserQuery (percentEncode s) = s.flatMap esc := by
  induction s with
  | nil => rfl
  | cons b s ih =>
    have e : percentEncode (b :: s) = (if plainByte b then [b] else [37, hexDigit (b.toNat / 16), hexDigit (b.toNat % 16)]) ++ percentEncode s := rfl
    rw [e, browser_append, ih]
    rfl

theorem esc_cases (b : UInt8) : (plainByte b = true ∧ b ≠ 39 ∧ esc b = [b]) ∨ (esc b = [37, hexDigit (b.toNat / 16), hexDigit (b.toNat % 16)]) := by
  by_cases hp : plainByte b = true
  · by_cases h39 : b = 39
    · subst h39
      exact .inr (by decide +kernel)
    · refine .inl ⟨hp, h39, ?_⟩
      unfold esc
      rw [if_pos hp]
      show (if (b == 39) = true then _ else _) ++ [] = _
      rw [if_neg (by simpa using h39)]
      rfl
  · right
    unfold esc
    rw [if_neg hp]
    have h1 := (hex_plain (b.toNat / 16) (by have := b.toNat_lt; omega)).2
    have h2 := (hex_plain (b.toNat % 16) (by omega)).2
    unfold browserQuery
    simp only [List.flatMap_cons, List.flatMap_nil]
    rw [if_neg (by decide), if_neg (by simpa using h1), if_neg (by simpa using h2)]
    rfl

theorem byte_parts (b : UInt8) : UInt8.ofNat (b.toNat / 16 * 16 + b.toNat % 16) = b := by
  rw [Nat.div_add_mod' b.toNat 16, UInt8.ofNat_toNat]

/-- What was escaped is read back, whatever a plus stands for. -/
theorem unescape_esc (plus : UInt8) (s : Bytes) : unescape plus (s.flatMap esc) = some s := by
  induction s with
  | nil => rfl
  | cons b s ih =>
    rw [List.flatMap_cons]
    rcases esc_cases b with ⟨hp, _, e⟩ | e
    · rw [e]
      have := plain_cases b hp
      show unescape plus (b :: s.flatMap esc) = _
      rw [unescape_plain plus b this.1 this.2.1, ih]
      rfl
    · rw [e]
      show unescape plus (37 :: hexDigit (b.toNat / 16) :: hexDigit (b.toNat % 16) :: s.flatMap esc) = _
      rw [unescape_hex plus _ _ (by have := b.toNat_lt; omega) (by omega), ih, byte_parts]
      rfl

theorem esc_mem (s : Bytes) (c : UInt8) (h : c ∈ s.flatMap esc) : escaped c = true := by
  rw [List.mem_flatMap] at h
  obtain ⟨b, _, hb⟩ := h
  unfold escaped
  rcases esc_cases b with ⟨hp, _, e⟩ | e
  · rw [e] at hb
    simp only [List.mem_singleton] at hb
    subst hb
    rw [hp]
    rfl
  · rw [e] at hb
    simp only [List.mem_cons, List.not_mem_nil, or_false] at hb
    rcases hb with rfl | rfl | rfl
    · rfl
    · rw [(hex_plain _ (by have := b.toNat_lt; omega)).1]
      rfl
    · rw [(hex_plain _ (by omega)).1]
      rfl

theorem esc_not (s : Bytes) {c : UInt8} (h : escaped c = false) : c ∉ s.flatMap esc := fun hm => by
  rw [esc_mem s c hm] at h
  cases h

/-! ## Queries -/

theorem join_cons (p q : Bytes) (ps : List Bytes) : joinWith 38 (p :: q :: ps) = p ++ 38 :: joinWith 38 (q :: ps) := rfl

theorem browser_query (params : List (Bytes × Bytes)) (h : params ≠ []) :
    browserQuery (toQuery params) = joinWith 38 (params.map (fun p => p.1.flatMap esc ++ 61 :: p.2.flatMap esc)) := by
  unfold toQuery
  induction params with
  | nil => exact absurd rfl h
  | cons p params ih =>
    have hp : browserQuery (percentEncode p.1 ++ 61 :: percentEncode p.2) = p.1.flatMap esc ++ 61 :: p.2.flatMap esc := by
      rw [browser_append, browser_encode]
      show _ ++ (61 :: browserQuery (percentEncode p.2)) = _
      rw [browser_encode]
    cases params with
    | nil => exact hp
    | cons q params =>
      simp only [List.map_cons] at ih ⊢
      rw [join_cons, join_cons, browser_append, hp]
      show _ ++ (38 :: browserQuery _) = _
      rw [ih (by simp)]

theorem split_join (ls : List Bytes) (hne : ls ≠ []) (h : ∀ l ∈ ls, (38 : UInt8) ∉ l) : splitOn 38 (joinWith 38 ls) = ls := by
  induction ls with
  | nil => exact absurd rfl hne
  | cons l ls ih =>
    cases ls with
    | nil => exact splitOn_none 38 l (h l (by simp))
    | cons m ls =>
      rw [join_cons, splitOn_append, splitOn_none 38 l (h l (by simp)), ih (by simp) (fun x hx => h x (by simp [hx]))]
      rfl

theorem pair_not (p : Bytes × Bytes) {c : UInt8} (h : escaped c = false) (h' : c ≠ 61) : c ∉ p.1.flatMap esc ++ 61 :: p.2.flatMap esc := by
  simp only [List.mem_append, List.mem_cons, not_or]
  exact ⟨esc_not p.1 h, h', esc_not p.2 h⟩

theorem join_not (ls : List Bytes) {c : UInt8} (hc : c ≠ 38) (h : ∀ l ∈ ls, c ∉ l) : c ∉ joinWith 38 ls := by
  induction ls with
  | nil => simp [joinWith]
  | cons l ls ih =>
    cases ls with
    | nil => exact h l (by simp)
    | cons m ls =>
      rw [join_cons, List.mem_append, List.mem_cons]
      rintro (h1 | h1 | h1)
      · exact h l (by simp) h1
      · exact hc h1
      · exact ih (fun x hx => h x (by simp [hx])) h1

theorem query_split (params : List (Bytes × Bytes)) (h : params ≠ []) :
    splitOn 38 (browserQuery (toQuery params)) = params.map (fun p => p.1.flatMap esc ++ 61 :: p.2.flatMap esc) := by
  rw [browser_query params h, split_join]
  · simpa using h
  · intro l hl
    obtain ⟨p, _, rfl⟩ := List.mem_map.mp hl
    exact pair_not p (by decide) (by decide)

theorem take_eq (a b : Bytes) (h : (61 : UInt8) ∉ a) : (a ++ 61 :: b).takeWhile (· != 61) = a ∧ ((a ++ 61 :: b).dropWhile (· != 61)).drop 1 = b := by
  induction a with
  | nil => exact ⟨rfl, rfl⟩
  | cons c a ih =>
    simp only [List.mem_cons, not_or] at h
    have hc : (c != 61) = true := by simpa using fun e => h.1 (Eq.symm e)
    rw [List.cons_append, List.takeWhile_cons, List.dropWhile_cons, hc]
    exact ⟨by simp [(ih h.2).1], by simpa using (ih h.2).2⟩

/-- The server reads the parameters that were put into the address. -/
theorem go_form (params : List (Bytes × Bytes)) (h : params ≠ []) :
    goForm (browserQuery (toQuery params)) = params.map (fun p => (keyString p.1, p.2)) := by
  have hmap : (browserQuery (toQuery params)).map (fun b => if b = 59 then 38 else b) = browserQuery (toQuery params) := by
    refine (List.map_congr_left (g := id) ?_).trans (List.map_id _)
    intro b hb
    rw [if_neg]
    · rfl
    · rintro rfl
      revert hb
      rw [browser_query params h]
      refine join_not _ (by decide) ?_
      intro l hl
      obtain ⟨p, _, rfl⟩ := List.mem_map.mp hl
      exact pair_not p (by decide) (by decide)
  unfold goForm
  rw [hmap, query_split params h, List.filterMap_map]
  clear hmap h
  induction params with
  | nil => rfl
  | cons p params ih =>
    have ht := take_eq (p.1.flatMap esc) (p.2.flatMap esc) (esc_not p.1 (by decide))
    rw [List.filterMap_cons, List.map_cons, ih]
    simp only [Function.comp]
    rw [if_neg (by simp), ht.1, ht.2, unescape_esc, unescape_esc]

theorem utf8_ne (c : Nat) : utf8 c ≠ [] := by
  intro e
  have h : 0 < (utf8 c).length := by
    unfold utf8
    repeat' split
    all_goals simp
  rw [e] at h
  exact absurd h (by simp)

theorem text_runes (cs : List Nat) (hcs : ∀ c ∈ cs, Scalar c) (fuel : Nat) (h : (cs.flatMap utf8).length ≤ fuel) :
    runesLoop fuel (cs.flatMap utf8) = cs.map (fun c => (c, utf8 c)) := by
  induction cs generalizing fuel with
  | nil => cases fuel <;> rfl
  | cons c cs ih =>
    rw [List.flatMap_cons] at h ⊢
    cases hu : utf8 c with
    | nil => exact absurd hu (utf8_ne c)
    | cons a t =>
      rw [hu] at h
      cases fuel with
      | zero => simp at h
      | succ fuel =>
        have hd : decodeRune a (t ++ cs.flatMap utf8) = (c, utf8 c) := decode_complete c (hcs c (by simp)) a _ (by rw [hu]; exact ⟨cs.flatMap utf8, rfl⟩)
        rw [List.cons_append, runesLoop, hd, hu]
        simp only [List.length_cons, Nat.add_sub_cancel, List.drop_left]
        rw [ih (fun x hx => hcs x (by simp [hx])) fuel (by simp only [List.cons_append, List.length_cons, List.length_append] at h; omega)]
        simp [hu]

/-- UTF-8 is what passes the check. -/
theorem isText_iff (s : Bytes) : isText s = true ↔ Text s := by
  constructor
  · intro h
    have hc : Chars s (runes s) := runesLoop_chars _ _ (Nat.le_refl _)
    unfold isText at h
    generalize runes s = rs at *
    induction hc with
    | nil => exact ⟨[], by simp, rfl⟩
    | char r hr _ ih =>
      simp only [List.all_cons, Bool.and_eq_true] at h
      obtain ⟨cs, h1, h2⟩ := ih h.2
      exact ⟨r :: cs, by simpa using ⟨hr, h1⟩, by rw [List.flatMap_cons, ← h2]⟩
    | broken b _ _ _ =>
      simp at h
  · rintro ⟨cs, h1, rfl⟩
    unfold isText runes
    rw [text_runes cs h1 _ (Nat.le_refl _), List.all_eq_true]
    intro c hc
    obtain ⟨r, hr, rfl⟩ := List.mem_map.mp hc
    simp only [Bool.not_eq_true', Bool.and_eq_false_iff, beq_eq_false_iff_ne]
    by_cases e : r = 65533
    · subst e
      exact .inr (by decide)
    · exact .inl e

theorem text_decode (s : Bytes) (h : Text s) : percentDecode (s.flatMap esc) = some s := by
  unfold percentDecode
  rw [unescape_esc]
  simp only
  rw [if_pos ((isText_iff s).mpr h)]

/-- The interface reads the parameters that it put into the address. -/
theorem elm_params (params : List (Bytes × Bytes)) (h : params ≠ []) (ht : ∀ p ∈ params, Text p.1 ∧ Text p.2) :
    elmParams (browserQuery (toQuery params)) = params := by
  unfold elmParams
  rw [query_split params h, List.filterMap_map]
  clear h
  induction params with
  | nil => rfl
  | cons p params ih =>
    rw [List.filterMap_cons, ih (fun q hq => ht q (by simp [hq]))]
    simp only [Function.comp]
    rw [splitOn_append, splitOn_none 61 _ (esc_not p.1 (by decide)), splitOn_none 61 _ (esc_not p.2 (by decide))]
    simp only [List.cons_append, List.nil_append]
    rw [text_decode p.1 (ht p (by simp)).1, text_decode p.2 (ht p (by simp)).2]

theorem text_key : Text metricKey := (isText_iff _).mp (by decide +kernel)

/-- **C92** The address a selected metric leads to names that metric, at the top path; and nothing else of the address matters. -/
theorem C92_address (u : UUrl) (m : Bytes) (hm : Text m) (ht : u.top = true) : (u.push m).metric = some m := by
  unfold UUrl.metric
  rw [if_pos (show (u.push m).top = true from ht)]
  unfold elmString UUrl.push
  simp only [Option.elim]
  rw [elm_params _ (by simp) (by simpa using ⟨text_key, hm⟩)]
  simp

/-! ## Numbers -/

theorem decimal_nat (n : Nat) : ∃ ds : List Nat, ds ≠ [] ∧ (∀ d ∈ ds, d ≤ 9) ∧ decimalNat n = ds.map (fun d => UInt8.ofNat (48 + d)) ∧ digitsValue ds = n := by
  induction n using decimalNat.induct with
  | case1 n h =>
    refine ⟨[n], by simp, by simp; omega, ?_, by simp [digitsValue]⟩
    rw [decimalNat, if_pos h]
    rfl
  | case2 n h ih =>
    obtain ⟨ds, h1, h2, h3, h4⟩ := ih
    refine ⟨ds ++ [n % 10], by simp, ?_, ?_, ?_⟩
    · intro d hd
      rcases List.mem_append.mp hd with hd | hd
      · exact h2 d hd
      · simp only [List.mem_singleton] at hd
        omega
    · rw [decimalNat, if_neg h, h3]
      simp
    · unfold digitsValue at h4 ⊢
      rw [List.foldl_append, h4]
      simp only [List.foldl_cons, List.foldl_nil]
      omega

theorem decimal_int (i : Int) : Decimal (decimalInt i) i := by
  obtain ⟨ds, h1, h2, h3, h4⟩ := decimal_nat i.natAbs
  refine ⟨ds, h1, h2, ?_⟩
  unfold decimalInt
  split
  · right; right
    exact ⟨by rw [h3], by rw [h4]; omega⟩
  · left
    exact ⟨h3, by rw [h4]; omega⟩

/-- **C92** The server reads the address of the image as a request for the metric that is seen, with the width that is seen, a padding of 5 and the defaults for everything else. -/
theorem C92_image (m : Bytes) (w clock : Int64) :
    formValue (goForm (browserQuery (imageQuery (m, w.toInt)))) "metric" = m ∧
    renderNums (goForm (browserQuery (imageQuery (m, w.toInt)))) clock = { width := w, height := 350, padding := 5, now := clock, samples := 30 } ∧
    formValue (goForm (browserQuery (imageQuery (m, w.toInt)))) "duration" = [] ∧ formValue (goForm (browserQuery (imageQuery (m, w.toInt)))) "compression" = [] := by
  have hf : goForm (browserQuery (imageQuery (m, w.toInt))) = [("padding", [53]), ("width", decimalInt w.toInt), ("metric", m)] := by
    unfold imageQuery
    rw [go_form _ (by simp)]
    simp only [List.map_cons, List.map_nil]
    rw [show keyString [112, 97, 100, 100, 105, 110, 103] = "padding" by decide +kernel, show keyString [119, 105, 100, 116, 104] = "width" by decide +kernel,
      show keyString metricKey = "metric" by decide +kernel]
  rw [hf]
  refine ⟨rfl, ?_, rfl, rfl⟩
  unfold renderNums
  rw [show formValue [("padding", [53]), ("width", decimalInt w.toInt), ("metric", m)] "width" = decimalInt w.toInt from rfl,
    show formValue [("padding", [53]), ("width", decimalInt w.toInt), ("metric", m)] "height" = [] from rfl,
    show formValue [("padding", [53]), ("width", decimalInt w.toInt), ("metric", m)] "padding" = [53] from rfl,
    show formValue [("padding", [53]), ("width", decimalInt w.toInt), ("metric", m)] "now" = [] from rfl,
    show formValue [("padding", [53]), ("width", decimalInt w.toInt), ("metric", m)] "samples" = [] from rfl,
    (C80_default _ 1000).1 w (decimal_int w.toInt)]
  congr 1

/-- **C92** The server reads the request for completions as a query of the typed text for ten results: over the names the database lists, the answer is the first ten that match. -/
theorem C92_completions (v : Bytes) (names : List Bytes) :
    formValue (goForm (browserQuery (completionQuery v))) "query" = v ∧
    serveQuery (goForm (browserQuery (completionQuery v))) names = some ((matching v names).take 10) := by
  have hf : goForm (browserQuery (completionQuery v)) = [("query", v)] := by
    unfold completionQuery
    rw [go_form _ (by simp)]
    simp only [List.map_cons, List.map_nil]
    rw [show keyString [113, 117, 101, 114, 121] = "query" by decide +kernel]
  rw [hf]
  refine ⟨rfl, ?_⟩
  rw [C81_answer _ names 10 (.inr ⟨rfl, fun x hx => by simp at hx⟩)]
  rfl

/-- A metric with spaces, a plus, an apostrophe, separators and a letter outside ASCII. -/
def exOdd : Bytes := "a b+c&d=e;f%20'é".toUTF8.toList

/-- Test of C92: such a name is a text, is escaped in the address, and is read back. -/
theorem C92_example : isText exOdd = true ∧ browserQuery (toQuery [(metricKey, exOdd)]) = "metric=a%20b%2Bc%26d%3De%3Bf%2520%27%C3%A9".toUTF8.toList ∧
    (UUrl.push ⟨[47], none, some []⟩ exOdd).metric = some exOdd ∧ (UUrl.push ⟨[47, 97], none, none⟩ exOdd).metric = none ∧
    imageQuery ([97], 962) = "padding=5&width=962&metric=a".toUTF8.toList ∧ imageQuery ([], -38) = "padding=5&width=-38&metric=".toUTF8.toList := by decide +kernel

/-- An address written by hand: two metrics, or a malformed escape, name none; a plus is a plus for the interface and a space for the server. -/
theorem C92_by_hand : elmString metricKey (some "metric=a&metric=b".toUTF8.toList) = none ∧ elmString metricKey (some "metric=%C3".toUTF8.toList) = none ∧
    elmString metricKey (some "metric=a+b".toUTF8.toList) = some "a+b".toUTF8.toList ∧ goForm "metric=a+b".toUTF8.toList = [("metric", "a b".toUTF8.toList)] := by decide +kernel

end Rothko
