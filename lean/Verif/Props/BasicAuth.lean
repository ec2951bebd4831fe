import Verif.Spec.BasicAuth
import Verif.Model.BasicAuth
import Verif.Props.Http
/-!
# C122: signing in
-/
namespace Rothko

private theorem b64_table : ∀ n, n < 64 → b64Val (b64Char n) = some n ∧ b64Char n ≠ 61 ∧ b64Char n ≠ 13 ∧ b64Char n ≠ 10 := by decide

theorem b64Val_char {n : Nat} (h : n < 64) : b64Val (b64Char n) = some n := (b64_table n h).1

theorem b64Val_some {c : UInt8} {n : Nat} (h : b64Val c = some n) : n < 64 ∧ c = b64Char n := by
  have tab : ∀ k, k < 256 → ∀ n ∈ (b64Val (UInt8.ofNat k)).toList, n < 64 ∧ UInt8.ofNat k = b64Char n := by decide +kernel
  have key : ∀ k, k < 256 → ∀ n, b64Val (UInt8.ofNat k) = some n → n < 64 ∧ UInt8.ofNat k = b64Char n := fun k hk n hn => tab k hk n (by rw [hn]; exact List.mem_cons_self)
  have := key c.toNat c.toNat_lt n (by rw [UInt8.ofNat_toNat]; exact h)
  rw [UInt8.ofNat_toNat] at this
  exact this

theorem byte_of {n : Nat} {a : UInt8} (h : n % 256 = a.toNat) : UInt8.ofNat n = a := by
  rw [← UInt8.toNat_inj, UInt8.toNat_ofNat']
  exact h

theorem byte_is {n : Nat} {a : UInt8} (h : UInt8.ofNat n = a) : n % 256 = a.toNat := by
  rw [← h, UInt8.toNat_ofNat']

/-- The decoder reads exactly the texts that stand for something. -/
theorem b64Groups_of {x s : Bytes} (h : B64Spells x s) : b64Groups x = some s := by
  induction h with
  | done => rfl
  | one x y a hx hy ha =>
    unfold b64Groups
    rw [b64Val_char hx, b64Val_char hy]
    dsimp only
    rw [if_pos rfl, if_pos ⟨rfl, rfl⟩]
    rw [byte_of (n := (x * 64 + y) / 16) (a := a) (by have := a.toNat_lt; omega)]
  | two x y z a b hx hy hz ha hb =>
    unfold b64Groups
    rw [b64Val_char hx, b64Val_char hy]
    dsimp only
    rw [if_neg (b64_table z hz).2.1, b64Val_char hz]
    dsimp only
    rw [if_pos rfl, if_pos rfl]
    rw [byte_of (n := ((x * 64 + y) * 64 + z) / 1024) (a := a) (by have := a.toNat_lt; omega), byte_of (n := ((x * 64 + y) * 64 + z) / 4) (a := b) (by have := b.toNat_lt; omega)]
  | three x y z w a b c hx hy hz hw ha hb hc hr ih =>
    rw [b64Groups.eq_2]
    rw [b64Val_char hx, b64Val_char hy]
    dsimp only
    rw [if_neg (b64_table z hz).2.1, b64Val_char hz]
    dsimp only
    rw [if_neg (b64_table w hw).2.1, b64Val_char hw]
    dsimp only
    rw [ih, byte_of (n := (((x * 64 + y) * 64 + z) * 64 + w) / 65536) (a := a) (by have := a.toNat_lt; omega), byte_of (n := (((x * 64 + y) * 64 + z) * 64 + w) / 256) (a := b) (by have := b.toNat_lt; omega),
      byte_of (n := ((x * 64 + y) * 64 + z) * 64 + w) (a := c) (by have := c.toNat_lt; omega)]
    rfl

theorem b64Groups_spells : ∀ (n : Nat) (x s : Bytes), x.length ≤ n → b64Groups x = some s → B64Spells x s := by
  intro n
  induction n with
  | zero =>
    intro x s hl h
    cases x with
    | nil => cases h; exact .done
    | cons _ _ => simp at hl
  | succ n ih =>
    intro x s hl h
    match x, hl, h with
    | [], _, h => cases h; exact .done
    | [_], _, h => cases h
    | [_, _], _, h => cases h
    | [_, _, _], _, h => cases h
    | a :: b :: c :: d :: rest, hl, h =>
      rw [b64Groups.eq_2] at h
      cases ha : b64Val a with
      | none => rw [ha] at h; cases h
      | some x =>
        cases hb : b64Val b with
        | none => rw [ha, hb] at h; cases h
        | some y =>
          rw [ha, hb] at h
          dsimp only at h
          obtain ⟨lx, rfl⟩ := b64Val_some ha
          obtain ⟨ly, rfl⟩ := b64Val_some hb
          by_cases hc : c = 61
          · rw [if_pos hc] at h
            by_cases hd : d = 61 ∧ rest = []
            · rw [if_pos hd] at h
              obtain ⟨rfl, rfl⟩ := hd
              cases h
              subst hc
              exact .one x y _ lx ly (by rw [← byte_is rfl]; omega)
            · rw [if_neg hd] at h; cases h
          · rw [if_neg hc] at h
            cases hcv : b64Val c with
            | none => rw [hcv] at h; cases h
            | some z =>
              rw [hcv] at h
              dsimp only at h
              obtain ⟨lz, rfl⟩ := b64Val_some hcv
              by_cases hd : d = 61
              · rw [if_pos hd] at h
                by_cases hr : rest = []
                · rw [if_pos hr] at h
                  subst hr
                  subst hd
                  cases h
                  exact .two x y z _ _ lx ly lz (by rw [← byte_is rfl]; omega) (by rw [← byte_is rfl]; omega)
                · rw [if_neg hr] at h; cases h
              · rw [if_neg hd] at h
                cases hdv : b64Val d with
                | none => rw [hdv] at h; cases h
                | some w =>
                  rw [hdv] at h
                  dsimp only at h
                  obtain ⟨lw, rfl⟩ := b64Val_some hdv
                  cases hrest : b64Groups rest with
                  | none => rw [hrest] at h; cases h
                  | some t =>
                    rw [hrest] at h
                    cases h
                    exact .three x y z w _ _ _ lx ly lz lw (by rw [← byte_is rfl]; omega) (by rw [← byte_is rfl]; omega) (by rw [← byte_is rfl]; omega) (ih rest t (by simp at hl; omega) hrest)

/-- The text that a client makes stands for the bytes. -/
theorem b64Encode_spells : ∀ (n : Nat) (s : Bytes), s.length ≤ n → B64Spells (b64Encode s) s := by
  intro n
  induction n with
  | zero =>
    intro s hl
    cases s with
    | nil => exact .done
    | cons _ _ => simp at hl
  | succ n ih =>
    intro s hl
    match s, hl with
    | [], _ => exact .done
    | [a], _ => have := a.toNat_lt; exact .one _ _ a (by omega) (by omega) (by omega)
    | [a, b], _ => have := a.toNat_lt; have := b.toNat_lt; exact .two _ _ _ a b (by omega) (by omega) (by omega) (by omega) (by omega)
    | a :: b :: c :: s, hl =>
      have := a.toNat_lt; have := b.toNat_lt; have := c.toNat_lt
      exact .three _ _ _ _ a b c (by omega) (by omega) (by omega) (by omega) (by omega) (by omega) (by omega) (ih s (by simp at hl; omega))

theorem b64Spells_breaks {x s : Bytes} (h : B64Spells x s) : x.filter (fun c => c != 13 && c != 10) = x := by
  have ok : ∀ n, n < 64 → (b64Char n != 13 && b64Char n != 10) = true := fun n hn => by simp [(b64_table n hn).2.2.1, (b64_table n hn).2.2.2]
  induction h with
  | done => rfl
  | one x y a hx hy _ => simp [ok x hx, ok y hy]
  | two x y z a b hx hy hz _ _ => simp [List.filter_cons, ok x hx, ok y hy, ok z hz]
  | three x y z w a b c hx hy hz hw _ _ _ _ ih => simp [List.filter_cons, ok x hx, ok y hy, ok z hz, ok w hw, ih]

/-- **C122** (base64). The decoder reads a text exactly if it stands for some bytes, line breaks aside. -/
theorem C122_base64 (x s : Bytes) : b64Decode x = some s ↔ B64Spells (x.filter (fun c => c != 13 && c != 10)) s :=
  ⟨b64Groups_spells _ _ _ (Nat.le_refl _), b64Groups_of⟩

/-- **C122** (round trip). What a client encodes is what the server decodes. -/
theorem C122_round_trip (s : Bytes) : b64Decode (b64Encode s) = some s := by
  have h := b64Encode_spells _ s (Nat.le_refl _)
  rw [C122_base64, b64Spells_breaks h]
  exact h

theorem cutColon_some {s u p : Bytes} : cutColon s = some (u, p) ↔ s = u ++ 58 :: p ∧ 58 ∉ u := by
  induction s generalizing u with
  | nil =>
    constructor
    · intro h; cases h
    · rintro ⟨h, _⟩
      have := congrArg List.length h
      simp at this
  | cons c s ih =>
    unfold cutColon
    by_cases hc : c = 58
    · rw [if_pos hc]
      subst hc
      constructor
      · intro h; cases h; exact ⟨rfl, by simp⟩
      · rintro ⟨h, hu⟩
        cases u with
        | nil => cases h; rfl
        | cons a u => injection h with h1 _; subst h1; exact absurd List.mem_cons_self hu
    · rw [if_neg hc]
      constructor
      · intro h
        cases hs : cutColon s with
        | none => rw [hs] at h; cases h
        | some x =>
          obtain ⟨u', p'⟩ := x
          rw [hs] at h
          cases h
          obtain ⟨h1, h2⟩ := (ih (u := u')).mp hs
          exact ⟨by rw [h1]; rfl, fun hm => by rcases List.mem_cons.mp hm with e | e; exact hc e.symm; exact h2 e⟩
      · rintro ⟨h, hu⟩
        cases u with
        | nil => injection h with h1 _; exact absurd h1 hc
        | cons a u =>
          injection h with h1 h2
          subst h1
          rw [(ih (u := u)).mpr ⟨h2, fun hm => hu (List.mem_cons_of_mem _ hm)⟩]
          rfl

/-- **C122** (read). The server reads a name and a password from a header exactly if it is the word Basic, a space and a text that stands for the name, a colon and the password; the name has no colon. -/
theorem C122_read (fold : Bool) (header u p : Bytes) : basicAuth fold header = some (u, p) ↔ 58 ∉ u ∧ Credentials fold header (u ++ 58 :: p) := by
  unfold basicAuth Credentials
  dsimp only
  by_cases hs : header.take 6 = [66, 97, 115, 105, 99, 32] ∨ (fold = true ∧ (header.take 6).map foldLetter = [66, 97, 115, 105, 99, 32].map foldLetter)
  · rw [if_pos hs]
    constructor
    · intro h
      obtain ⟨s, h1, h2⟩ := Option.bind_eq_some_iff.mp h
      obtain ⟨rfl, h3⟩ := cutColon_some.mp h2
      exact ⟨h3, hs, (C122_base64 _ _).mp h1⟩
    · rintro ⟨h1, _, h2⟩
      exact Option.bind_eq_some_iff.mpr ⟨_, (C122_base64 _ _).mpr h2, cutColon_some.mpr ⟨rfl, h1⟩⟩
  · rw [if_neg hs]
    constructor
    · intro h; cases h
    · rintro ⟨_, h, _⟩
      exact absurd h hs

/-- **C122** (let in). A client that sends the configured name and password as browsers do is let in, if the name has no colon: the request is handled as if none were needed. -/
theorem C122_let_in (hash : Bytes → Bytes) (msg : HErr → Bytes) (s : HServer) (req : HReq) (fold : Bool) (hc : 58 ∉ s.username) :
    serve hash msg s (req.withHeader fold (basicHeader s.username s.password)) = serve hash msg { s with username := [], password := [] } (req.withHeader fold (basicHeader s.username s.password)) := by
  apply C50_accepted
  have hs := b64Encode_spells _ (s.username ++ 58 :: s.password) (Nat.le_refl _)
  exact (C122_read fold (basicHeader s.username s.password) s.username s.password).mpr ⟨hc, .inl rfl, by show B64Spells ((b64Encode (s.username ++ 58 :: s.password)).filter _) _; rw [b64Spells_breaks hs]; exact hs⟩

/-- **C122** (refused). With a username configured, a request whose header does not spell the configured name and password, or that has none, gets a 401 with a challenge and nothing behind the server is used; unless it found a collision of the hash. -/
theorem C122_refused (hash : Bytes → Bytes) (msg : HErr → Bytes) (s : HServer) (req : HReq) (fold : Bool) (header : Bytes) (hu : s.username ≠ [])
    (hno : ¬ Credentials fold header (s.username ++ 58 :: s.password)) (hc : ¬ Collides hash s (req.withHeader fold header)) :
    (serve hash msg s (req.withHeader fold header)).touched = [] ∧ (serve hash msg s (req.withHeader fold header)).status = 401 ∧
    ("WWW-Authenticate", "Basic realm=\"rothko\"") ∈ (serve hash msg s (req.withHeader fold header)).headers := by
  obtain ⟨h1, h2, h3, _⟩ := C50_refused hash msg s (req.withHeader fold header) hu (fun h => hno ((C122_read fold header _ _).mp h).2) hc
  exact ⟨h1, h2, h3⟩

/-- **C122** (a name with a colon). If the configured name has a colon, nobody is let in, whatever is sent: what is read as the name ends at the first colon. -/
theorem C122_colon_refuted (hash : Bytes → Bytes) (msg : HErr → Bytes) (s : HServer) (hcol : 58 ∈ s.username) (req : HReq) (fold : Bool) (header : Bytes) (hc : ¬ Collides hash s (req.withHeader fold header)) :
    (serve hash msg s (req.withHeader fold header)).touched = [] ∧ (serve hash msg s (req.withHeader fold header)).status = 401 := by
  obtain ⟨h1, h2, _⟩ := C50_refused hash msg s (req.withHeader fold header) (by intro h; rw [h] at hcol; cases hcol) (fun h => ((C122_read fold header _ _).mp h).1 hcol) hc
  exact ⟨h1, h2⟩

/-- **C122 example.** RFC 7617's: the name Aladdin and the password "open sesame". -/
theorem C122_example : basicHeader "Aladdin".toUTF8.toList "open sesame".toUTF8.toList = "Basic QWxhZGRpbjpvcGVuIHNlc2FtZQ==".toUTF8.toList ∧
    basicAuth false "Basic QWxhZGRpbjpvcGVuIHNlc2FtZQ==".toUTF8.toList = some ("Aladdin".toUTF8.toList, "open sesame".toUTF8.toList) ∧
    basicAuth false "basic QWxhZGRpbjpvcGVuIHNlc2FtZQ==".toUTF8.toList = none ∧ basicAuth true "basic QWxhZGRpbjpvcGVuIHNlc2FtZQ==".toUTF8.toList = some ("Aladdin".toUTF8.toList, "open sesame".toUTF8.toList) ∧
    basicAuth false "Basic QWxhZGRpbjpvcGVuIHNlc2FtZR==".toUTF8.toList = some ("Aladdin".toUTF8.toList, "open sesame".toUTF8.toList) ∧ basicAuth false "Basic QWxhZGRpbjpvcGVuIHNlc2FtZQ".toUTF8.toList = none := by
  decide +kernel

/-- A server with this name and the password "p". -/
def exSign (name : Bytes) : HServer := { origin := "", username := name, password := [112], nonce := [], static := none, render := fun _ => ([], none), query := fun _ => ([.write [91, 93]], none) }

/-- **C122 example** (the server). The header for "u:p" is let in by the server with the name "u"; without one, and with the header for "u:q", it answers 401; and the one with the name "u:" answers 401 to the header for "u::p". -/
theorem C122_served :
    let req : HReq := { method := "GET", path := "/api/query", auth := none, form := fun _ => [] }
    let got := fun name header => serve id (fun _ => []) (exSign name) (req.withHeader false header)
    58 ∉ (exSign [117]).username ∧ ¬ Collides id (exSign [117, 58]) (req.withHeader false (basicHeader [117, 58] [112])) ∧
    (got [117] (basicHeader [117] [112])).status = 200 ∧ (got [117] (basicHeader [117] [112])).touched = [.metrics] ∧ (got [117] []).status = 401 ∧ (got [117] (basicHeader [117] [113])).status = 401 ∧
    (got [117, 58] (basicHeader [117, 58] [112])).status = 401 := by
  refine ⟨by decide, ?_, by decide +kernel, by decide +kernel, by decide +kernel, by decide +kernel, by decide +kernel⟩
  rintro ⟨u, p, _, ⟨h1, h2⟩ | ⟨h1, h2⟩⟩
  · exact h1 h2
  · exact h1 h2

end Rothko
