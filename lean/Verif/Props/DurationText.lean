import Verif.Props.Duration
import Verif.Model.Handler
/-!
# A duration that is written is read back (C111)
-/
namespace Rothko

theorem digitsValue_cons (d : Nat) (ds : List Nat) : digitsValue (d :: ds) = d * 10 ^ ds.length + digitsValue ds := by
  have h1 : digitsValue (d :: ds) = moreDigits (0 * 10 + d) ds := rfl
  rw [h1, moreDigits_eq]
  ring

theorem fmtIntLoop_eq : ∀ (n v : Nat) (ds : List Nat) (buf : Bytes), (∀ d ∈ ds, d ≤ 9) → v < 10 ^ n →
    ∃ es : List Nat, (∀ d ∈ es, d ≤ 9) ∧ fmtIntLoop n v (digitText ds ++ buf) = digitText es ++ buf ∧ digitsValue es = v * 10 ^ ds.length + digitsValue ds ∧ (ds ≠ [] ∨ v ≠ 0 → es ≠ []) := by
  intro n
  induction n with
  | zero =>
    intro v ds buf h9 hv
    rw [pow_zero] at hv
    obtain rfl : v = 0 := by omega
    exact ⟨ds, h9, rfl, by simp, by rintro (h | h); exacts [h, absurd rfl h]⟩
  | succ n ih =>
    intro v ds buf h9 hv
    unfold fmtIntLoop
    by_cases h0 : v = 0
    · rw [if_pos h0, h0]
      exact ⟨ds, h9, rfl, by simp, by rintro (h | h); exacts [h, absurd rfl h]⟩
    · rw [if_neg h0]
      have h9' : ∀ d ∈ (v % 10) :: ds, d ≤ 9 := by
        intro d hd
        rcases List.mem_cons.mp hd with rfl | hd
        · omega
        · exact h9 d hd
      obtain ⟨es, e1, e2, e3, e4⟩ := ih (v / 10) ((v % 10) :: ds) buf h9' (by rw [pow_succ] at hv; omega)
      refine ⟨es, e1, e2, ?_, fun _ => e4 (.inl (by simp))⟩
      rw [e3, digitsValue_cons, List.length_cons, pow_succ]
      have : v = v / 10 * 10 + v % 10 := by omega
      calc v / 10 * (10 ^ ds.length * 10) + (v % 10 * 10 ^ ds.length + digitsValue ds) = (v / 10 * 10 + v % 10) * 10 ^ ds.length + digitsValue ds := by ring
        _ = _ := by rw [← this]

theorem fmtInt_eq {v : Nat} (hv : v < 10 ^ 20) (buf : Bytes) : ∃ es : List Nat, (∀ d ∈ es, d ≤ 9) ∧ fmtInt v buf = digitText es ++ buf ∧ digitsValue es = v ∧ es ≠ [] := by
  unfold fmtInt
  by_cases h0 : v = 0
  · rw [if_pos h0, h0]
    exact ⟨[0], by simp, rfl, rfl, by simp⟩
  · rw [if_neg h0]
    obtain ⟨es, e1, e2, e3, e4⟩ := fmtIntLoop_eq 20 v [] buf (by simp) hv
    exact ⟨es, e1, e2, by rw [e3]; simp [digitsValue], e4 (.inr h0)⟩

theorem fmtFracLoop_eq (V : Nat) (buf : Bytes) : ∀ (n m : Nat) (print : Bool) (ds : List Nat), (∀ d ∈ ds, d ≤ 9) → ds.length ≤ m → digitsValue ds * 10 ^ (m - ds.length) = V % 10 ^ m → (print = false → ds = []) →
    ∃ (p : Bool) (es : List Nat), (∀ d ∈ es, d ≤ 9) ∧ es.length ≤ m + n ∧ digitsValue es * 10 ^ (m + n - es.length) = V % 10 ^ (m + n) ∧ (p = false → es = []) ∧
      fmtFracLoop n (V / 10 ^ m) print (digitText ds ++ buf) = (p, V / 10 ^ (m + n), digitText es ++ buf) := by
  intro n
  induction n with
  | zero =>
    intro m print ds h9 hl hv hp
    exact ⟨print, ds, h9, hl, hv, hp, rfl⟩
  | succ n ih =>
    intro m print ds h9 hl hv hp
    have hdig : V / 10 ^ m % 10 ≤ 9 := by omega
    have hdiv : V / 10 ^ m / 10 = V / 10 ^ (m + 1) := by rw [Nat.div_div_eq_div_mul, pow_succ]
    have hmod : V % 10 ^ (m + 1) = V % 10 ^ m + 10 ^ m * (V / 10 ^ m % 10) := Nat.mod_pow_succ
    have hmn : m + 1 + n = m + (n + 1) := by omega
    unfold fmtFracLoop
    rw [hdiv]
    by_cases hpr : (print || V / 10 ^ m % 10 != 0) = true
    · rw [if_pos hpr, hpr]
      have h9' : ∀ d ∈ (V / 10 ^ m % 10) :: ds, d ≤ 9 := by
        intro d hd
        rcases List.mem_cons.mp hd with rfl | hd
        · exact hdig
        · exact h9 d hd
      have hval : digitsValue ((V / 10 ^ m % 10) :: ds) * 10 ^ (m + 1 - ((V / 10 ^ m % 10) :: ds).length) = V % 10 ^ (m + 1) := by
        rw [digitsValue_cons, List.length_cons, show m + 1 - (ds.length + 1) = m - ds.length by omega, hmod, ← hv]
        have : 10 ^ ds.length * 10 ^ (m - ds.length) = 10 ^ m := by rw [← pow_add]; congr 1; omega
        calc (V / 10 ^ m % 10 * 10 ^ ds.length + digitsValue ds) * 10 ^ (m - ds.length) = V / 10 ^ m % 10 * (10 ^ ds.length * 10 ^ (m - ds.length)) + digitsValue ds * 10 ^ (m - ds.length) := by ring
          _ = _ := by rw [this]; ring
      obtain ⟨p, es, e1, e2, e3, e4, e5⟩ := ih (m + 1) true ((V / 10 ^ m % 10) :: ds) h9' (by rw [List.length_cons]; omega) hval (by simp)
      rw [hmn] at e2 e3 e5
      exact ⟨p, es, e1, e2, e3, e4, e5⟩
    · rw [if_neg hpr]
      have hpr : (print || V / 10 ^ m % 10 != 0) = false := by simpa using hpr
      rw [hpr]
      rw [Bool.or_eq_false_iff] at hpr
      have hds := hp hpr.1
      have hz : V / 10 ^ m % 10 = 0 := by simpa using hpr.2
      have hval : digitsValue ds * 10 ^ (m + 1 - ds.length) = V % 10 ^ (m + 1) := by
        rw [hmod, hz, ← hv, hds]
        simp [digitsValue]
      obtain ⟨p, es, e1, e2, e3, e4, e5⟩ := ih (m + 1) false ds h9 (by omega) hval (fun _ => hds)
      rw [hmn] at e2 e3 e5
      exact ⟨p, es, e1, e2, e3, e4, e5⟩

/-- The number `w` and a fraction, with a unit that has 10^prec nanoseconds. -/
theorem fmt_term {w v prec : Nat} (hw : w < 10 ^ 20) {u : Bytes} (hu : (u, 10 ^ prec) ∈ durUnits) :
    (fmtFrac v prec u).1 = v / 10 ^ prec ∧ ∃ t : DTerm, t.Ok ∧ t.Fine ∧ t.ns = w * 10 ^ prec + (v % 10 ^ prec : ℕ) ∧ fmtInt w (fmtFrac v prec u).2 = t.text := by
  obtain ⟨p, es, e1, e2, e3, e4, e5⟩ := fmtFracLoop_eq v u prec 0 false [] (by simp) (by simp) (by simp [digitsValue, Nat.mod_one]) (by simp)
  rw [Nat.zero_add] at e2 e3 e5
  have e5 : fmtFracLoop prec v false u = (p, v / 10 ^ prec, digitText es ++ u) := by
    have h : fmtFracLoop prec (v / 10 ^ 0) false u = (p, v / 10 ^ prec, digitText es ++ u) := e5
    rw [pow_zero, Nat.div_one] at h
    exact h
  have hpos : (0 : ℚ) < 10 ^ es.length := by positivity
  have hns : ((w : ℚ) + digitsValue es / 10 ^ es.length) * (10 ^ prec : ℕ) = w * 10 ^ prec + (v % 10 ^ prec : ℕ) := by
    rw [← e3]
    push_cast
    have : (10 : ℚ) ^ prec = 10 ^ (prec - es.length) * 10 ^ es.length := by rw [← pow_add]; congr 1; omega
    rw [this]
    field_simp
  unfold fmtFrac
  rw [e5]
  refine ⟨rfl, ?_⟩
  dsimp only
  cases p with
  | false =>
    have hes := e4 rfl
    subst hes
    obtain ⟨ws, w1, w2, w3, w4⟩ := fmtInt_eq hw u
    refine ⟨⟨ws, none, u, 10 ^ prec⟩, ⟨w1, (fun d hd => by cases hd), .inl w4, hu⟩, one_dvd _, ?_, ?_⟩
    · show (((digitsValue ws : ℕ) : ℚ) + digitsValue [] / 10 ^ ([] : List Nat).length) * _ = _
      rw [w3]
      exact hns
    · rw [if_neg (by simp)]
      show fmtInt w u = _
      rw [w2]
      unfold DTerm.text
      simp
  | true =>
    obtain ⟨ws, w1, w2, w3, w4⟩ := fmtInt_eq hw (46 :: (digitText es ++ u))
    refine ⟨⟨ws, some es, u, 10 ^ prec⟩, ⟨w1, e1, .inl w4, hu⟩, pow_dvd_pow _ e2, ?_, ?_⟩
    · show (((digitsValue ws : ℕ) : ℚ) + digitsValue es / 10 ^ es.length) * _ = _
      rw [w3]
      exact hns
    · rw [if_pos rfl, w2]
      unfold DTerm.text
      simp

/-- A whole number with a unit. -/
theorem fmt_whole {w n : Nat} (hw : w < 10 ^ 20) {c : UInt8} (hu : ([c], n) ∈ durUnits) (rest : Bytes) : ∃ t : DTerm, t.Ok ∧ t.Fine ∧ t.ns = w * n ∧ fmtInt w (c :: rest) = t.text ++ rest := by
  obtain ⟨ws, w1, w2, w3, w4⟩ := fmtInt_eq hw (c :: rest)
  refine ⟨⟨ws, none, [c], n⟩, ⟨w1, (fun d hd => by cases hd), .inl w4, hu⟩, one_dvd _, ?_, ?_⟩
  · show (((digitsValue ws : ℕ) : ℚ) + digitsValue [] / 10 ^ ([] : List Nat).length) * _ = _
    rw [w3]
    simp [digitsValue]
  · rw [w2]
    unfold DTerm.text
    simp

/-- The text of a duration is terms that say it. -/
theorem durationText_eq {u : Nat} (hu : u < 10 ^ 20) : ∃ ts : List DTerm, ts ≠ [] ∧ (∀ t ∈ ts, t.Ok) ∧ (∀ t ∈ ts, t.Fine) ∧ (ts.map DTerm.ns).sum = u ∧ durationText u = ts.flatMap DTerm.text := by
  have e : durUnits = [([110, 115], 1), ([117, 115], 1000), ([194, 181, 115], 1000), ([206, 188, 115], 1000), ([109, 115], 1000000), ([115], 1000000000), ([109], 60000000000), ([104], 3600000000000)] := by decide +kernel
  have uns : ([110, 115], 10 ^ 0) ∈ durUnits := by rw [e]; simp
  have uus : ([194, 181, 115], 10 ^ 3) ∈ durUnits := by rw [e]; simp
  have ums : ([109, 115], 10 ^ 6) ∈ durUnits := by rw [e]; simp
  have us : ([115], 10 ^ 9) ∈ durUnits := by rw [e]; simp
  have um : ([109], 60000000000) ∈ durUnits := by rw [e]; simp
  have uh : ([104], 3600000000000) ∈ durUnits := by rw [e]; simp
  have one : ∀ t : DTerm, t.Ok → t.Fine → t.ns = u → durationText u = t.text → ∃ ts : List DTerm, ts ≠ [] ∧ (∀ t ∈ ts, t.Ok) ∧ (∀ t ∈ ts, t.Fine) ∧ (ts.map DTerm.ns).sum = u ∧ durationText u = ts.flatMap DTerm.text := by
    intro t h1 h2 h3 h4
    refine ⟨[t], by simp, by simpa using h1, by simpa using h2, by simpa using h3, by rw [h4]; simp⟩
  have small : ∀ (prec : Nat) (un : Bytes), (un, 10 ^ prec) ∈ durUnits → durationText u = fmtInt (fmtFrac u prec un).1 (fmtFrac u prec un).2 →
      ∃ ts : List DTerm, ts ≠ [] ∧ (∀ t ∈ ts, t.Ok) ∧ (∀ t ∈ ts, t.Fine) ∧ (ts.map DTerm.ns).sum = u ∧ durationText u = ts.flatMap DTerm.text := by
    intro prec un hun htext
    obtain ⟨f1, t, t1, t2, t3, t4⟩ := fmt_term (w := u / 10 ^ prec) (v := u) (lt_of_le_of_lt (Nat.div_le_self _ _) hu) hun
    refine one t t1 t2 ?_ ?_
    · rw [t3]
      have : u / 10 ^ prec * 10 ^ prec + u % 10 ^ prec = u := Nat.div_add_mod' u _
      exact_mod_cast this
    · rw [htext, f1, t4]
  by_cases h9 : u < 1000000000
  · by_cases h0 : u = 0
    · refine one ⟨[0], none, [115], 10 ^ 9⟩ ⟨by simp, (fun d hd => by cases hd), .inl (by simp), us⟩ (one_dvd _) ?_ ?_
      · rw [h0]
        simp [DTerm.ns, DTerm.places, digitsValue]
      · rw [h0]; rfl
    · by_cases h3 : u < 1000
      · exact small 0 _ uns (by unfold durationText; rw [if_pos h9, if_neg h0, if_pos h3])
      · by_cases h6 : u < 1000000
        · exact small 3 _ uus (by unfold durationText; rw [if_pos h9, if_neg h0, if_neg h3, if_pos h6])
        · exact small 6 _ ums (by unfold durationText; rw [if_pos h9, if_neg h0, if_neg h3, if_neg h6])
  · have f1 := (fmt_term (w := 0) (v := u) (by norm_num) us).1
    have h109 : (10 : ℕ) ^ 9 = 1000000000 := by norm_num
    have h20 : (10 : ℕ) ^ 20 = 100000000000000000000 := by norm_num
    rw [h20] at hu
    obtain ⟨_, t, t1, t2, t3, t4⟩ := fmt_term (w := u / 10 ^ 9 % 60) (v := u) (by rw [h20]; omega) us
    rw [h109] at f1 t3 t4
    have t3 : t.ns = (u / 1000000000 % 60 * 1000000000 + u % 1000000000 : ℕ) := by
      rw [t3]; push_cast; norm_num
    unfold durationText
    rw [if_neg h9, f1]
    by_cases hm : u / 1000000000 / 60 = 0
    · rw [if_pos hm, t4]
      refine ⟨[t], by simp, by simpa using t1, by simpa using t2, ?_, by simp⟩
      simp only [List.map_cons, List.map_nil, List.sum_cons, List.sum_nil, add_zero]
      rw [t3]
      congr 1
      omega
    · rw [if_neg hm, t4]
      obtain ⟨m, m1, m2, m3, m4⟩ := fmt_whole (w := u / 1000000000 / 60 % 60) (by rw [h20]; omega) um t.text
      rw [m4]
      have m3 : m.ns = (u / 1000000000 / 60 % 60 * 60000000000 : ℕ) := by rw [m3]; push_cast; rfl
      by_cases hh : u / 1000000000 / 60 / 60 = 0
      · rw [if_pos hh]
        refine ⟨[m, t], by simp, by simpa using ⟨m1, t1⟩, by simpa using ⟨m2, t2⟩, ?_, by simp⟩
        simp only [List.map_cons, List.map_nil, List.sum_cons, List.sum_nil, add_zero]
        rw [t3, m3, ← Nat.cast_add]
        congr 1
        omega
      · rw [if_neg hh]
        obtain ⟨h, h1, h2, h3, h4⟩ := fmt_whole (w := u / 1000000000 / 60 / 60) (by rw [h20]; omega) uh (m.text ++ t.text)
        rw [h4]
        have h3 : h.ns = (u / 1000000000 / 60 / 60 * 3600000000000 : ℕ) := by rw [h3]; push_cast; rfl
        refine ⟨[h, m, t], by simp, by simpa using ⟨h1, m1, t1⟩, by simpa using ⟨h2, m2, t2⟩, ?_, by simp⟩
        simp only [List.map_cons, List.map_nil, List.sum_cons, List.sum_nil, add_zero]
        rw [t3, m3, h3, ← Nat.cast_add, ← Nat.cast_add]
        congr 1
        omega

/-- **C111** (written). A duration is written as a text that is read as that duration; only the least one (-2^63 nanoseconds) is not read back. -/
theorem C111_written (d : Int64) : parseDuration (durationString d) = if d.toInt = -9223372036854775808 then none else some d := by
  have hlo := d.le_toInt
  have hhi := d.toInt_lt
  have h20 : (10 : ℕ) ^ 20 = 100000000000000000000 := by norm_num
  obtain ⟨ts, h1, h2, h3, h4, h5⟩ := durationText_eq (u := d.toInt.natAbs) (by rw [h20]; omega)
  unfold durationString
  rw [h5]
  by_cases hneg : d < 0
  · have hn : d.toInt < 0 := Int64.lt_iff_toInt_lt.mp hneg
    rw [if_pos hneg]
    obtain ⟨e1, e2⟩ := C111_exact (sign := [45]) (sg := -1) (by simp [durSigns]) h1 h2 h3
    rw [h4] at e1 e2
    by_cases hmin : d.toInt = -9223372036854775808
    · rw [if_pos hmin]
      refine e2 ?_
      rw [hmin]; norm_num
    · rw [if_neg hmin]
      obtain ⟨k, k1, k2⟩ := e1 (by
        have : d.toInt.natAbs < 9223372036854775808 := by omega
        exact_mod_cast this)
      have : k.toInt = -1 * (d.toInt.natAbs : ℤ) := by
        have h : ((k.toInt : ℤ) : ℚ) = ((-1 * (d.toInt.natAbs : ℤ) : ℤ) : ℚ) := by rw [k2, Int.cast_mul]; rfl
        exact Int.cast_injective h
      have hk : k = d := by
        apply Int64.toInt_inj.mp
        omega
      rw [← hk]
      exact k1
  · have hn : ¬ d.toInt < 0 := fun h => hneg (Int64.lt_iff_toInt_lt.mpr h)
    rw [if_neg hneg, if_neg (by omega)]
    obtain ⟨e1, _⟩ := C111_exact (sign := []) (sg := 1) (by simp [durSigns]) h1 h2 h3
    rw [h4] at e1
    obtain ⟨k, k1, k2⟩ := e1 (by
      have : d.toInt.natAbs < 9223372036854775808 := by omega
      exact_mod_cast this)
    have : k.toInt = 1 * (d.toInt.natAbs : ℤ) := by
      have h : ((k.toInt : ℤ) : ℚ) = ((1 * (d.toInt.natAbs : ℤ) : ℤ) : ℚ) := by rw [k2, Int.cast_mul]; rfl
      exact Int.cast_injective h
    have hk : k = d := by
      apply Int64.toInt_inj.mp
      omega
    rw [← hk]
    exact k1

/-! ## Requests -/

/-- **C111** (request). A request for a graph is for the duration its form says, if the last digits are worth whole nanoseconds and it is less than 2^63 nanoseconds. A text that is no duration, or none, asks for 24 hours. -/
theorem C111_request {D α P : Type} (b : Backend D α P) (hb : b.duration = parseDuration) (form : List (String × Bytes)) (clock : Int64) :
    (∀ sign sg, (sign, sg) ∈ durSigns → ∀ ts : List DTerm, ts ≠ [] → (∀ t ∈ ts, t.Ok) → (∀ t ∈ ts, t.Fine) → formValue form "duration" = sign ++ ts.flatMap DTerm.text →
      (ts.map DTerm.ns).sum < 9223372036854775808 → ((renderAsk b form clock).dur.toInt : ℚ) = sg * (ts.map DTerm.ns).sum) ∧
    ((¬ ∃ sign sg, (sign, sg) ∈ durSigns ∧ (formValue form "duration" = sign ++ [48] ∨ ∃ ts : List DTerm, ts ≠ [] ∧ (∀ t ∈ ts, t.Ok) ∧ formValue form "duration" = sign ++ ts.flatMap DTerm.text)) →
      (renderAsk b form clock).dur.toInt = 24 * 60 * 60 * 1000000000) := by
  have hd : (renderAsk b form clock).dur = (parseDuration (formValue form "duration")).getD 86400000000000 := by
    rw [← hb]; rfl
  rw [hd]
  constructor
  · intro sign sg hs ts h1 h2 h3 h4 h5
    obtain ⟨d, d1, d2⟩ := (C111_exact hs h1 h2 h3).1 h5
    rw [h4, d1]
    exact d2
  · intro h
    cases hp : parseDuration (formValue form "duration") with
    | none => rfl
    | some d => exact absurd (C111_only hp) h

/-! ## Finer than a nanosecond -/

theorem rn_of {q : ℚ} {e m : ℤ} (h1 : 2 ^ (e + 52) ≤ q) (h2 : q < 2 ^ (e + 53)) (he : -1074 ≤ e) (h3 : |q / 2 ^ e - m| < 1 / 2) : rn q = m * 2 ^ e := by
  have hq : 0 < q := lt_of_lt_of_le (by positivity) h1
  have hlog : Int.log 2 q = e + 52 := by
    apply le_antisymm
    · have := (Int.lt_zpow_iff_log_lt (b := 2) (by norm_num) hq (x := e + 53)).mp (by exact_mod_cast h2)
      omega
    · exact (Int.zpow_le_iff_le_log (b := 2) (by norm_num) hq).mp (by exact_mod_cast h1)
  have hulp : ulpExp q = e := by
    unfold ulpExp
    rw [hlog]
    omega
  unfold rn
  rw [hulp]
  congr 1
  obtain ⟨a1, a2⟩ := abs_lt.mp h3
  unfold roundEven
  by_cases hm : (m : ℚ) ≤ q / 2 ^ e
  · have hf : ⌊q / 2 ^ e⌋ = m := Int.floor_eq_iff.mpr ⟨hm, by linarith⟩
    rw [hf, if_pos (by linarith)]
  · have hf : ⌊q / 2 ^ e⌋ = m - 1 := Int.floor_eq_iff.mpr ⟨by push_cast; linarith, by push_cast; linarith⟩
    rw [hf, if_neg (by push_cast; linarith), if_pos (by push_cast; linarith)]
    push_cast; ring

/-- A term that says exactly 27 nanoseconds: 0.00000000000750h. -/
def shortTerm : DTerm := ⟨[0], some [0, 0, 0, 0, 0, 0, 0, 0, 0, 0, 0, 7, 5, 0], [104], 3600000000000⟩

/-- **C111** (finer, refuted). With more digits a text can be read as less than it says, although that is a whole number of nanoseconds. -/
theorem C111_finer_refuted : ∃ t : DTerm, t.Ok ∧ t.ns = 27 ∧ t.text = "0.00000000000750h".toUTF8.toList ∧ parseDuration t.text = some 26 := by
  have hn : fracNs (i64 750) (i64 3600000000000) (tens 14) = i64 26 := by
    have h1 : rn (36 / 1000 : ℚ) = (5188146770730811 : ℤ) * 2 ^ (-57 : ℤ) := by
      refine rn_of ?_ ?_ (by norm_num) ?_
      · norm_num
      · norm_num
      · rw [abs_lt]; constructor <;> norm_num
    have h2 : rn (750 * ((5188146770730811 : ℤ) * 2 ^ (-57 : ℤ)) : ℚ) = (7599824371187711 : ℤ) * 2 ^ (-48 : ℤ) := by
      refine rn_of ?_ ?_ (by norm_num) ?_
      · norm_num
      · norm_num
      · rw [abs_lt]; constructor <;> norm_num
    unfold fracNs
    rw [i64_toInt (by norm_num), i64_toInt (by norm_num), tens_exact 14 (by norm_num)]
    have r1 : rn (((750 : ℕ) : ℤ) : ℚ) = 750 := by
      have := rn_nat (n := 750) (by norm_num)
      exact_mod_cast this
    have r2 : rn (((3600000000000 : ℕ) : ℤ) : ℚ) = 3600000000000 := by
      have := rn_nat (n := 3600000000000) (by norm_num)
      exact_mod_cast this
    rw [r1, r2, show (3600000000000 : ℚ) / 10 ^ 14 = 36 / 1000 by norm_num, h1, h2]
    have : ⌊((7599824371187711 : ℤ) : ℚ) * 2 ^ (-48 : ℤ)⌋ = 26 := by
      rw [Int.floor_eq_iff]
      constructor <;> norm_num
    rw [this]; rfl
  refine ⟨shortTerm, ⟨by decide, by decide, .inl (by decide), ?_⟩, ?_, by decide +kernel, ?_⟩
  · have e : durUnits = [([110, 115], 1), ([117, 115], 1000), ([194, 181, 115], 1000), ([206, 188, 115], 1000), ([109, 115], 1000000), ([115], 1000000000), ([109], 60000000000), ([104], 3600000000000)] := by decide +kernel
    rw [e]; simp [shortTerm]
  · simp only [DTerm.ns, DTerm.places, shortTerm, digitsValue, List.foldl, Option.getD, List.length]
    norm_num
  · obtain ⟨i, i1, i2, i3, i4⟩ := leadingFraction_read (rest := [104]) (by rintro c ⟨⟩; rfl) [0, 0, 0, 0, 0, 0, 0, 0, 0, 0, 0, 7, 5, 0] 0 0 (by decide) (by norm_num)
    have hi : i = 14 := by
      rcases i3 with h | h
      · exact h
      · exfalso
        have h14 : i ≤ 14 := i1
        have : ∀ i, i ≤ 14 → moreDigits 0 (([0, 0, 0, 0, 0, 0, 0, 0, 0, 0, 0, 7, 5, 0] : List Nat).take (i + 1)) < 9223372036854775808 := by decide
        have := this i h14
        omega
    subst hi
    have i4 : leadingFraction 0 1 false (digitText [0, 0, 0, 0, 0, 0, 0, 0, 0, 0, 0, 7, 5, 0] ++ [104]) = (i64 750, tens 14, [104]) := i4
    have hl : leadingInt 0 shortTerm.text = some (0, 46 :: (digitText [0, 0, 0, 0, 0, 0, 0, 0, 0, 0, 0, 7, 5, 0] ++ [104])) := by decide
    have hu : termUnit 0 (i64 750) (tens 14) [104] = some (26, []) := by
      unfold termUnit
      rw [show durUnit (([104] : Bytes).takeWhile (fun c => !isNumChar c)) = some (i64 3600000000000) by decide]
      dsimp only
      rw [hn]
      decide
    have hp : parseTerm shortTerm.text = some (26, []) := by
      unfold parseTerm
      rw [hl, if_neg (by decide)]
      dsimp only
      unfold termFrac
      rw [if_pos (show (46 :: (digitText [0, 0, 0, 0, 0, 0, 0, 0, 0, 0, 0, 7, 5, 0] ++ [104])).head? = some 46 from rfl), List.tail_cons, i4, if_neg (by decide)]
      exact hu
    have hs : unsignedDuration shortTerm.text = some 26 := by
      unfold unsignedDuration
      rw [if_neg (by decide), if_neg (by decide)]
      have : ∀ n s d, parseTerm s = some (d, []) → s ≠ [] → ¬ (0 : Int64) + d < 0 → termsLoop (n + 1) 0 s = some (0 + d) := by
        intro n s d h hne hd
        cases s with
        | nil => exact absurd rfl hne
        | cons c s =>
          rw [termsLoop, h]
          · dsimp only
            rw [if_neg hd]
            unfold termsLoop; rfl
          · intro h; cases h
      exact this 16 shortTerm.text 26 hp (by decide) (by decide)
    unfold parseDuration
    rw [if_neg (by decide), if_neg (by decide)]
    exact hs

/-! ## Examples -/

/-- 1h30m. -/
def exTerms : List DTerm := [⟨[1], none, [104], 3600000000000⟩, ⟨[3, 0], none, [109], 60000000000⟩]

/-- -2.5s. -/
def exFraction : List DTerm := [⟨[2], some [5], [115], 1000000000⟩]

/-- **C111** (example). 1h30m is 5400 seconds, -2.5s minus 2500 milliseconds; a request with the first is for that; 90 minutes are written 1h30m0s. -/
theorem C111_example :
    exTerms.flatMap DTerm.text = "1h30m".toUTF8.toList ∧ parseDuration "1h30m".toUTF8.toList = some 5400000000000 ∧ exFraction.flatMap DTerm.text = "2.5s".toUTF8.toList ∧ parseDuration "-2.5s".toUTF8.toList = some (-2500000000) ∧
      durationString 5400000000000 = "1h30m0s".toUTF8.toList ∧ parseDuration "tomorrow".toUTF8.toList = none := by
  have e : durUnits = [([110, 115], 1), ([117, 115], 1000), ([194, 181, 115], 1000), ([206, 188, 115], 1000), ([109, 115], 1000000), ([115], 1000000000), ([109], 60000000000), ([104], 3600000000000)] := by decide +kernel
  have o1 : ∀ t ∈ exTerms, t.Ok ∧ t.Fine := by
    intro t ht
    simp only [exTerms, List.mem_cons, List.not_mem_nil, or_false] at ht
    rcases ht with rfl | rfl
    · exact ⟨⟨by decide, by decide, .inl (by decide), by rw [e]; simp⟩, one_dvd _⟩
    · exact ⟨⟨by decide, by decide, .inl (by decide), by rw [e]; simp⟩, one_dvd _⟩
  have o2 : ∀ t ∈ exFraction, t.Ok ∧ t.Fine := by
    intro t ht
    simp only [exFraction, List.mem_cons, List.not_mem_nil, or_false] at ht
    subst ht
    exact ⟨⟨by decide, by decide, .inl (by decide), by rw [e]; simp⟩, by show 10 ^ 1 ∣ 1000000000; norm_num⟩
  have t1 : exTerms.flatMap DTerm.text = "1h30m".toUTF8.toList := by decide +kernel
  have t2 : exFraction.flatMap DTerm.text = "2.5s".toUTF8.toList := by decide +kernel
  have n1 : (exTerms.map DTerm.ns).sum = 5400000000000 := by
    simp only [exTerms, List.map_cons, List.map_nil, List.sum_cons, List.sum_nil, DTerm.ns, DTerm.places, digitsValue, List.foldl, Option.getD, List.length]
    norm_num
  have n2 : (exFraction.map DTerm.ns).sum = 2500000000 := by
    simp only [exFraction, List.map_cons, List.map_nil, List.sum_cons, List.sum_nil, DTerm.ns, DTerm.places, digitsValue, List.foldl, Option.getD, List.length]
    norm_num
  refine ⟨t1, ?_, t2, ?_, by decide +kernel, by decide +kernel⟩
  · obtain ⟨d, d1, d2⟩ := (C111_exact (sign := []) (sg := 1) (by simp [durSigns]) (by decide : exTerms ≠ []) (fun t h => (o1 t h).1) (fun t h => (o1 t h).2)).1 (by rw [n1]; norm_num)
    rw [n1] at d2
    rw [t1, List.nil_append] at d1
    rw [d1]
    congr 1
    apply Int64.toInt_inj.mp
    have : (d.toInt : ℚ) = ((5400000000000 : ℤ) : ℚ) := by rw [d2]; norm_num
    exact Int.cast_injective this
  · obtain ⟨d, d1, d2⟩ := (C111_exact (sign := [45]) (sg := -1) (by simp [durSigns]) (by decide : exFraction ≠ []) (fun t h => (o2 t h).1) (fun t h => (o2 t h).2)).1 (by rw [n2]; norm_num)
    rw [n2] at d2
    have t3 : ([45] : Bytes) ++ "2.5s".toUTF8.toList = "-2.5s".toUTF8.toList := by decide +kernel
    rw [t2, t3] at d1
    rw [d1]
    congr 1
    apply Int64.toInt_inj.mp
    have : (d.toInt : ℚ) = ((-2500000000 : ℤ) : ℚ) := by rw [d2]; norm_num
    exact Int.cast_injective this

end Rothko
