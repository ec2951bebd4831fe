import Verif.Lemmas.Crash
/-! Data files that a dying process may have left stale or half written chunks in: what later writers and readers make of them. -/
namespace Rothko

/-- What can be left in the unused part of a file: nothing readable (`strict`), or also chunks that begin or continue a value. -/
def Junk (strict : Bool) : Except FErr Rec → Prop
  | .error _ => True
  | .ok r => strict = false ∧ (r.kind = kindBegin ∨ r.kind = kindContinue)

/-- What the record loop remembers after such chunks. -/
def junkState : Option Bytes → List (Except FErr Rec) → Option Bytes
  | b, [] => b
  | _, .error _ :: X => junkState none X
  | none, .ok r :: X => if r.kind = kindBegin then junkState (some r.data) X else junkState none X
  | some buf, .ok r :: X => if r.kind = kindContinue then junkState (some (buf ++ r.data)) X else junkState none X

theorem readSlots_junk (bound : Int64) (cb : σ → Val → σ × Cb) (X rest : List (Except FErr Rec)) (b : Option Bytes) (st : σ)
    (hj : ∀ x ∈ X, Junk false x) (hb : ∀ r, .ok r ∈ X → r.stop < bound) :
    readSlots bound cb b (X ++ rest) st = readSlots bound cb (junkState b X) rest st := by
  induction X generalizing b with
  | nil => cases b <;> rfl
  | cons x X ih =>
    have ih := fun b => ih b (fun y hy => hj y (List.mem_cons_of_mem _ hy)) (fun r hr => hb r (List.mem_cons_of_mem _ hr))
    cases x with
    | error e => cases b <;> (simp only [List.cons_append, readSlots, junkState]; exact ih none)
    | ok r =>
      have hk := (hj _ List.mem_cons_self).2
      have hs := hb r List.mem_cons_self
      cases b with
      | none =>
        simp only [List.cons_append, readSlots, junkState]
        rw [if_neg (int64_not_ge.mpr hs), if_neg (by rcases hk with h | h <;> rw [h] <;> decide)]
        by_cases h1 : r.kind = kindBegin
        · rw [if_neg (by simp [h1]), if_pos h1]; exact ih _
        · rw [if_pos h1, if_neg h1]; exact ih _
      | some buf =>
        simp only [List.cons_append, readSlots, junkState]
        by_cases h1 : r.kind = kindContinue
        · rw [if_pos h1, if_pos h1]; exact ih _
        · rw [if_neg h1, if_neg h1, if_pos (by rcases hk with h | h <;> rw [h] <;> decide)]; exact ih _

theorem junkState_strict (X : List (Except FErr Rec)) (h : ∀ x ∈ X, Junk true x) : junkState none X = none := by
  induction X with
  | nil => rfl
  | cons x X ih =>
    cases x with
    | error e => simp only [junkState]; exact ih (fun y hy => h y (List.mem_cons_of_mem _ hy))
    | ok r => exact absurd (h _ List.mem_cons_self).1 (by decide)

/-- A value that follows an unfinished one is not returned. -/
theorem readSlots_value_some (bound : Int64) (cb : σ → Val → σ × Cb) (rest : List (Except FErr Rec)) (st : σ) (v : Val) (size : Nat)
    (L : List (Except FErr Rec)) (l : List Rec) (hsp : SplitOf v.start v.stop v.data size l) (hs : Slots L l) (buf : Bytes) :
    readSlots bound cb (some buf) (L ++ rest) st = readSlots bound cb none rest st := by
  rcases split_kinds hsp.kinds with ⟨r, rfl, hk⟩ | ⟨b, mids, e, rfl, hkb, hkm, hke⟩
  · cases hs with
    | good _ h =>
      cases h
      simp only [List.cons_append, List.nil_append, readSlots]
      rw [if_neg (by rw [hk]; decide), if_pos (by rw [hk]; decide)]
    | bad x _ h =>
      cases h
      simp only [List.cons_append, List.nil_append, readSlots]
  · have hd : ∀ L', Slots L' (mids ++ [e]) → readSlots bound cb none (L' ++ rest) st = readSlots bound cb none rest st := by
      intro L' h
      apply readSlots_drop _ _ _ _ _ _ h
      intro y hy
      rcases List.mem_append.mp hy with hy | hy
      · exact Or.inl (Or.inl (hkm y hy))
      · rw [List.mem_singleton.mp hy]; exact Or.inl (Or.inr hke)
    cases hs with
    | @good L' _ _ h =>
      simp only [List.cons_append, readSlots]
      rw [if_neg (by rw [hkb]; decide), if_pos (by rw [hkb]; decide)]
      exact hd L' h
    | @bad L' _ x _ h =>
      simp only [List.cons_append, readSlots]
      exact hd L' h

theorem visit_cons (cb : σ → Val → σ × Cb) (v : Val) (vs : List Val) (st : σ) : visit cb (v :: vs) st = emit cb v (visit cb vs) st := by
  unfold emit
  simp only [visit]
  rcases cb st v with ⟨st', c⟩
  cases c <;> rfl

/-- A data file with `u` slots in use, which shows the values `vs` to readers; the rest of the file may hold junk. `P` holds of all ends ever stored. -/
structure FileG (c : Bool) (P : Int64 → Prop) (f : File) (u : Nat) (vs : List Val) : Prop where
  geo : GeoOk f.size f.cap
  len : f.data.length = f.size * (f.cap + 1)
  fits : u ≤ f.cap
  has : ∀ n : Int, (f.cap : Int) - u ≤ n → n < f.cap → f.hasRecord n = true
  top : u < f.cap → f.hasRecord ((f.cap : Int) - u - 1) = false
  below : ∀ n : Int, 0 ≤ n → n < (f.cap : Int) - u → Junk c (f.record n)
  stops : ∀ (n : Int) (r : Rec), f.record n = .ok r → P r.stop
  md : ∃ m, f.metadata = .ok m ∧ m.size.toInt = f.size ∧ ((f.cap : Int) - u - 1 ≤ m.head.toInt ∧ m.head.toInt < f.cap) ∧ (m.smallestEnd = 0 ∨ P m.smallestEnd)
  reads : ∀ {σ : Type} (bound : Int64) (cb : σ → Val → σ × Cb) (st : σ), (∀ e, P e → e < bound) →
    readSlots bound cb none (f.recordsFrom ((f.cap : Int) - u)) st = visit cb vs st
  zero : u = 0 → vs = []

theorem FileG.wf {c : Bool} {P : Int64 → Prop} {f : File} {u : Nat} {vs : List Val} (h : FileG c P f u vs) : f.WF := wf_of_len h.geo h.len

theorem Junk.weaken {c : Bool} {x : Except FErr Rec} (h : Junk c x) : Junk false x := by
  cases x with
  | error e => trivial
  | ok r => exact ⟨rfl, h.2⟩

theorem FileG.mono {c : Bool} {P Q : Int64 → Prop} {f : File} {u : Nat} {vs : List Val} (h : FileG c P f u vs) (hq : ∀ e, P e → Q e) : FileG c Q f u vs := by
  obtain ⟨m, h1, h2, h3, h4⟩ := h.md
  exact ⟨h.geo, h.len, h.fits, h.has, h.top, h.below, fun n r e => hq _ (h.stops n r e), ⟨m, h1, h2, h3, h4.imp id (hq _)⟩,
    fun bound cb st hb => h.reads bound cb st (fun e he => hb e (hq e he)), h.zero⟩

theorem head_of_run (has : Int → Bool) (cap u : Nat) (hint : Int) (hu : u ≤ cap) (hhas : ∀ n : Int, (cap : Int) - u ≤ n → n < cap → has n = true)
    (htop : u < cap → has ((cap : Int) - u - 1) = false) (h1 : (cap : Int) - u - 1 ≤ hint) (h2 : hint < cap) :
    headPointer has cap hint = .ok ((cap : Int) - u - 1) := by
  unfold headPointer
  by_cases hneg : hint < 0
  · rw [if_pos hneg]; congr 1; omega
  · rw [if_neg hneg]
    by_cases hge : (cap : Int) - u ≤ hint
    · rw [hhas hint hge h2]
      exact headLoop_backward has cap (cap - u) (by omega) _ _ h2 hge (fun n a b => hhas n a (by omega)) (fun hp => htop (by omega)) (by omega)
    · have he : hint = (cap : Int) - u - 1 := by omega
      subst he
      rw [htop (by omega)]
      exact headLoop_forward has cap (cap - u) (by omega) _ _ (by omega) (by omega) (fun n a b => by omega) (fun hp => hhas _ (by omega) (by omega)) (by omega)

theorem FileG.head {c : Bool} {P : Int64 → Prop} {f : File} {u : Nat} {vs : List Val} (h : FileG c P f u vs) : f.headPointer = .ok ((f.cap : Int) - u - 1) := by
  obtain ⟨m, h1, _, h3, _⟩ := h.md
  unfold File.headPointer
  rw [h1]
  simp only
  rw [head_of_run f.hasRecord f.cap u m.head.toInt h.fits h.has h.top h3.1 h3.2]

theorem FileG.open {c : Bool} {P : Int64 → Prop} {f : File} {u : Nat} {vs : List Val} (h : FileG c P f u vs) : openFile f.data = .ok f := by
  obtain ⟨m, hm, h1, _⟩ := h.md
  exact openFile_wf f h.wf m hm h1 h.len

/-- Reading such a file with a bound above everything stored. -/
theorem FileG.read {c : Bool} {P : Int64 → Prop} {f : File} {u : Nat} {vs : List Val} (h : FileG c P f u vs) {σ : Type} (bound : Int64)
    (cb : σ → Val → σ × Cb) (st : σ) (h0 : 0 < bound) (hb : ∀ e, P e → e < bound) : readFile bound cb f st = visit cb vs st := by
  obtain ⟨m, hm, _, _, h4⟩ := h.md
  unfold readFile
  rw [hm, h.head]
  simp only
  have hlt : m.smallestEnd < bound := by
    rcases h4 with h4 | h4
    · rw [h4]; exact h0
    · exact hb _ h4
  rw [if_neg (int64_not_ge.mpr hlt), show (f.cap : Int) - u - 1 + 1 = f.cap - u by omega]
  exact h.reads bound cb st hb

theorem run_exists (has : Int → Bool) (cap : Nat) (d u0 : Nat) (hd : d + u0 = cap) (hhas : ∀ n : Int, (cap : Int) - u0 ≤ n → n < cap → has n = true) :
    ∃ u : Nat, u0 ≤ u ∧ u ≤ cap ∧ (∀ n : Int, (cap : Int) - u ≤ n → n < cap → has n = true) ∧ (u < cap → has ((cap : Int) - u - 1) = false) := by
  induction d generalizing u0 with
  | zero => exact ⟨u0, Nat.le_refl _, by omega, hhas, fun h => by omega⟩
  | succ d ih =>
    cases hx : has ((cap : Int) - u0 - 1) with
    | false => exact ⟨u0, Nat.le_refl _, by omega, hhas, fun _ => hx⟩
    | true =>
      obtain ⟨u, h1, h2, h3, h4⟩ := ih (u0 + 1) (by omega) (fun n a b => by
        by_cases hn : n = (cap : Int) - u0 - 1
        · rw [hn]; exact hx
        · exact hhas n (by omega) b)
      exact ⟨u, by omega, h2, h3, h4⟩

/-- After slots `cap-u0 ..` are in use, the used part extends down over adjacent junk. -/
theorem FileG.build {c : Bool} {P : Int64 → Prop} {f : File} (u0 : Nat) (hu0 : 1 ≤ u0) (vs ws : List Val) (geo : GeoOk f.size f.cap)
    (len : f.data.length = f.size * (f.cap + 1)) (fits : u0 ≤ f.cap) (has : ∀ n : Int, (f.cap : Int) - u0 ≤ n → n < f.cap → f.hasRecord n = true)
    (below : ∀ n : Int, 0 ≤ n → n < (f.cap : Int) - u0 → Junk c (f.record n)) (stops : ∀ (n : Int) (r : Rec), f.record n = .ok r → P r.stop)
    (md : ∃ m, f.metadata = .ok m ∧ m.size.toInt = f.size ∧ ((f.cap : Int) - u0 - 1 ≤ m.head.toInt ∧ m.head.toInt < f.cap) ∧
      (m.smallestEnd = 0 ∨ P m.smallestEnd))
    (rn : ∀ {σ : Type} (bound : Int64) (cb : σ → Val → σ × Cb) (st : σ), (∀ e, P e → e < bound) →
      readSlots bound cb none (f.recordsFrom ((f.cap : Int) - u0)) st = visit cb ws st)
    (rs : ∀ {σ : Type} (bound : Int64) (cb : σ → Val → σ × Cb) (st : σ) (buf : Bytes), (∀ e, P e → e < bound) →
      readSlots bound cb (some buf) (f.recordsFrom ((f.cap : Int) - u0)) st = visit cb vs st) :
    ∃ (u : Nat) (vs' : List Val), u0 ≤ u ∧ FileG c P f u vs' ∧ (vs' = ws ∨ vs' = vs) ∧ (c = true → vs' = ws) := by
  obtain ⟨u, h1, h2, h3, h4⟩ := run_exists f.hasRecord f.cap (f.cap - u0) u0 (by omega) has
  obtain ⟨m, m1, m2, m3, m4⟩ := md
  let X : List (Except FErr Rec) := (List.range (u - u0)).map (fun (i : Nat) => f.record ((f.cap : Int) - u + i))
  have hsplit : f.recordsFrom ((f.cap : Int) - u) = X ++ f.recordsFrom ((f.cap : Int) - u0) := by
    rw [recordsFrom_append f (u - u0) ((f.cap : Int) - u) (by omega)]
    congr 2; omega
  have hX : ∀ x ∈ X, Junk c x := by
    intro x hx
    obtain ⟨i, hi, rfl⟩ := List.mem_map.mp hx
    rw [List.mem_range] at hi
    exact below _ (by omega) (by omega)
  have hXs : ∀ bound, (∀ e, P e → e < bound) → ∀ r, Except.ok r ∈ X → r.stop < bound := by
    intro bound hb r hr
    obtain ⟨i, hi, e⟩ := List.mem_map.mp hr
    exact hb _ (stops _ _ e)
  have mk : ∀ vs', (∀ {σ : Type} (bound : Int64) (cb : σ → Val → σ × Cb) (st : σ), (∀ e, P e → e < bound) →
      readSlots bound cb (junkState none X) (f.recordsFrom ((f.cap : Int) - u0)) st = visit cb vs' st) → FileG c P f u vs' := by
    intro vs' hr
    refine ⟨geo, len, h2, h3, h4, fun n a b => below n a (by omega), stops, ⟨m, m1, m2, ⟨by omega, m3.2⟩, m4⟩, ?_, fun h => by omega⟩
    intro σ bound cb st hb
    rw [hsplit, readSlots_junk bound cb X _ none st (fun x hx => (hX x hx).weaken) (hXs bound hb)]
    exact hr bound cb st hb
  cases hjs : junkState none X with
  | none => exact ⟨u, ws, h1, mk ws (fun bound cb st hb => by rw [hjs]; exact rn bound cb st hb), Or.inl rfl, fun _ => rfl⟩
  | some buf =>
    refine ⟨u, vs, h1, mk vs (fun bound cb st hb => by rw [hjs]; exact rs bound cb st buf hb), Or.inr rfl, fun hc => ?_⟩
    subst hc
    rw [junkState_strict X hX] at hjs
    cases hjs

theorem emit_visit {cb : σ → Val → σ × Cb} {v : Val} {vs : List Val} {k : σ → σ × Ctl} (h : ∀ st, k st = visit cb vs st) (st : σ) :
    emit cb v k st = visit cb (v :: vs) st := by
  rw [visit_cons]
  have : k = visit cb vs := funext h
  rw [this]

/-- The second half of `Write` on such a file, with room for the value: the value is shown afterwards, unless it follows an unfinished stale one. -/
theorem FileG.write {c : Bool} {P Q : Int64 → Prop} {f : File} {u : Nat} {vs : List Val} (h : FileG c P f u vs) (hq : ∀ e, P e → Q e) (v : Val) (hv : Q v.stop)
    (hfit : u + (chunks f.size v).length ≤ f.cap) :
    ∃ f' u' vs', writeBody f ((f.cap : Int) - u - (chunks f.size v).length) v = (.written, f') ∧ f'.size = f.size ∧ f'.cap = f.cap ∧
      FileG c Q f' u' vs' ∧ (vs' = v :: vs ∨ vs' = vs) ∧ (c = true → vs' = v :: vs) ∧ 1 ≤ u' := by
  have hg := geo_size h.geo
  have hsp := chunks_spec f.size v hg.1 hg.2
  obtain ⟨f1, e1, w1, s1, c1, l1, m1, oth1, has1, rf1⟩ := storeRecs_ok (chunks f.size v) f h.wf ((f.cap : Int) - u - (chunks f.size v).length) (by omega) (by omega)
    (chunks_storable f.size v hg.1 hg.2)
  obtain ⟨m0, hm, g1, g2, g3⟩ := h.md
  have hcap := geo_cap h.geo
  let m' := updateMeta m0 ((f.cap : Int) - u - (chunks f.size v).length - 1) v
  have hle := meta_encSize_le m'
  have hfit' : 24 + m'.encSize ≤ f1.size := by rw [s1]; have := h.geo.1; omega
  obtain ⟨f2, e2, w2, s2, c2, md2, oth2⟩ := C05_metadata_round_trip f1 w1 m' (by omega) hfit'
  have l2 := setMetadata_length f1 f2 w1 m' hfit' e2
  have hs : f2.size = f.size := s2.trans s1
  have hc : f2.cap = f.cap := c2.trans c1
  have hrec : ∀ n : Int, (n < (f.cap : Int) - u - (chunks f.size v).length ∨ (f.cap : Int) - u ≤ n) → f2.record n = f.record n ∧ f2.hasRecord n = f.hasRecord n := by
    intro n hn
    obtain ⟨a, b⟩ := oth2 n
    obtain ⟨a', b'⟩ := oth1 n (by omega)
    exact ⟨a.trans a', b.trans b'⟩
  have hmem : ∀ (n : Int) (r : Rec), f2.record n = .ok r → Q r.stop := by
    intro n r e
    by_cases hn : n < (f.cap : Int) - u - (chunks f.size v).length ∨ (f.cap : Int) - u ≤ n
    · rw [(hrec n hn).1] at e; exact hq _ (h.stops n r e)
    · rw [(oth2 n).1] at e
      -- one of the chunks
      have hi : (n - ((f.cap : Int) - u - (chunks f.size v).length)).toNat < (chunks f.size v).length := by omega
      have hi2 : (n - ((f.cap : Int) - u - (chunks f.size v).length)).toNat < (f1.recordsFrom ((f.cap : Int) - u - (chunks f.size v).length)).length := by
        rw [rf1]; simp; omega
      have hget := recordsFrom_get f1 ((f.cap : Int) - u - (chunks f.size v).length) _ hi2
      rw [show (f.cap : Int) - u - (chunks f.size v).length + ((n - ((f.cap : Int) - u - (chunks f.size v).length)).toNat : Int) = n by omega, e] at hget
      simp only [rf1] at hget
      rw [List.getElem_append_left (by simp; omega)] at hget
      simp only [List.getElem_map, Except.ok.injEq] at hget
      rw [← hget, (hsp.2.2.2.2.fits _ (List.getElem_mem hi)).2.2.2.1]
      exact hv
  have hrf : f2.recordsFrom ((f2.cap : Int) - (u + (chunks f.size v).length : Nat)) = (chunks f.size v).map .ok ++ f.recordsFrom ((f.cap : Int) - u) := by
    rw [hc, show (f.cap : Int) - (u + (chunks f.size v).length : Nat) = f.cap - u - (chunks f.size v).length by omega,
      recordsFrom_congr f1 f2 _ c2 (fun n _ => (oth2 n).1), rf1]
    congr 2; omega
  obtain ⟨u', vs', h1, h2, h3, h4⟩ := FileG.build (c := c) (P := Q) (f := f2) (u + (chunks f.size v).length) (by omega) vs (v :: vs) (by rw [hs, hc]; exact h.geo)
    (by rw [l2, l1, hs, hc]; exact h.len) (by rw [hc]; exact hfit)
    (fun n a b => by
      rw [hc] at a b
      by_cases hn : (f.cap : Int) - u ≤ n
      · rw [(hrec n (by omega)).2]; exact h.has n hn b
      · rw [(oth2 n).2]; exact has1 n (by omega) (by omega))
    (fun n a b => by
      rw [hc] at b
      rw [(hrec n (by omega)).1]; exact h.below n a (by omega))
    hmem
    ⟨m', md2, by rw [hs]; exact g1, by
      show _ ≤ (Int64.ofInt _).toInt ∧ (Int64.ofInt _).toInt < _
      rw [int64_toInt_ofInt _ (by omega) (by omega), hc]
      constructor <;> omega, by
      show (if m0.smallestEnd = 0 ∨ v.stop < m0.smallestEnd then v.stop else m0.smallestEnd) = 0 ∨ Q _
      change _ ∨ Q (if m0.smallestEnd = 0 ∨ v.stop < m0.smallestEnd then v.stop else m0.smallestEnd)
      split
      · exact Or.inr hv
      · exact g3.imp id (hq _)⟩
    (fun bound cb st hb => by
      rw [hrf, readSlots_value bound cb _ st v f.size _ _ hsp.2.2.2.2 (Slots.of_ok _), allOk_map, if_pos ⟨rfl, hb _ hv⟩]
      exact emit_visit (fun st => h.reads bound cb st (fun e he => hb e (hq e he))) st)
    (fun bound cb st buf hb => by
      rw [hrf, readSlots_value_some bound cb _ st v f.size _ _ hsp.2.2.2.2 (Slots.of_ok _) buf]
      exact h.reads bound cb st (fun e he => hb e (hq e he)))
  refine ⟨f2, u', vs', ?_, hs, hc, h2, h3, h4, by omega⟩
  unfold writeBody
  rw [hsp.1]
  simp only [e1, m1, hm]
  rw [show f1.setMetadata (updateMeta m0 (↑f.cap - ↑u - ↑(chunks f.size v).length - 1) v) = .ok f2 from e2]

/-- The kinds of all chunks but the last. -/
theorem chunk_kind {size : Nat} {v : Val} {l : List Rec} (hsp : SplitOf v.start v.stop v.data size l) (i : Nat) (hi : i + 1 < l.length) :
    (l[i]'(by omega)).kind = kindBegin ∨ (l[i]'(by omega)).kind = kindContinue := by
  rcases split_kinds hsp.kinds with ⟨r, rfl, _⟩ | ⟨b, mids, e, rfl, hkb, hkm, _⟩
  · simp at hi
  · cases i with
    | zero => exact Or.inl hkb
    | succ i =>
      right
      simp only [List.length_cons, List.length_append, List.length_nil] at hi
      rw [List.getElem_cons_succ, List.getElem_append_left (by omega)]
      exact hkm _ (List.getElem_mem _)

/-- A file whose writer died in the middle of storing a value. -/
theorem FileG.crash {c : Bool} {P Q : Int64 → Prop} {f : File} {u : Nat} {vs : List Val} (h : FileG c P f u vs) (hq : ∀ e, P e → Q e) (v : Val) (hv : Q v.stop)
    (hfit : u + (chunks f.size v).length ≤ f.cap) (k j : Nat) (hc1 : c = true → (chunks f.size v).length = 1)
    (htorn : ∀ r r', (chunks f.size v)[k]? = some r →
      (crashStore f ((f.cap : Int) - u - (chunks f.size v).length) (chunks f.size v) k j).record ((f.cap : Int) - u - (chunks f.size v).length + k) = .ok r' →
      r' = r ∨ f.record ((f.cap : Int) - u - (chunks f.size v).length + k) = .ok r') :
    ∃ f' u' vs', crashStore f ((f.cap : Int) - u - (chunks f.size v).length) (chunks f.size v) k j = f' ∧ f'.size = f.size ∧ f'.cap = f.cap ∧
      FileG c Q f' u' vs' ∧ (vs' = v :: vs ∨ vs' = vs) ∧ (1 ≤ u ∨ (c = true ∧ (1 ≤ k ∨ 1 ≤ j)) → 1 ≤ u') ∧
      (c = true → k = 0 → 1 ≤ j → (∃ e, f'.record ((f.cap : Int) - u - (chunks f.size v).length) = .error e) →
        1 ≤ u' ∧ ∃ e, f'.record ((f.cap : Int) - u') = .error e) := by
  have hg := geo_size h.geo
  have hsp := chunks_spec f.size v hg.1 hg.2
  generalize hl : chunks f.size v = l at *
  generalize hn : (f.cap : Int) - u - l.length = n at *
  have hpos : 0 < l.length := hsp.2.2.2.1
  have hstor : ∀ r ∈ l, Storable f.size r := by rw [← hl]; exact chunks_storable f.size v hg.1 hg.2
  obtain ⟨f1, e1, w1, s1, c1, l1, m1, oth1, has1, rf1⟩ := storeRecs_ok (l.take k) f h.wf n (by omega) (by simp; omega)
    (fun r hr => hstor r (List.mem_of_mem_take hr))
  obtain ⟨m0, hm, g1, g2, g3⟩ := h.md
  have hlk : (l.take k).length = min k l.length := List.length_take
  -- the stored chunks
  have hst : ∀ i : Nat, i < k → (hi : i < l.length) → f1.record (n + i) = .ok l[i] := by
    intro i hik hi
    have hi2 : i < (f1.recordsFrom n).length := by rw [rf1]; simp; omega
    rw [← recordsFrom_get f1 n i hi2]
    simp only [rf1]
    rw [List.getElem_append_left (by simp; omega)]
    simp
  -- the file after the crash, slot by slot
  obtain ⟨f2, e2, w2, hs2, hc2, l2, m2, oth2, hk2, hj2⟩ : ∃ f2, crashStore f n l k j = f2 ∧ f2.WF ∧ f2.size = f.size ∧ f2.cap = f.cap ∧
      f2.data.length = f.data.length ∧ f2.metadata = f.metadata ∧
      (∀ q : Int, (l.length ≤ k ∨ q ≠ n + k) → f2.record q = f1.record q ∧ f2.hasRecord q = f1.hasRecord q) ∧
      (∀ (hk : k < l.length) (r' : Rec), f2.record (n + k) = .ok r' → r' = l[k] ∨ f.record (n + k) = .ok r') ∧
      (k < l.length → 1 ≤ j → f2.hasRecord (n + k) = true) := by
    cases hk : l[k]? with
    | none =>
      have hle : l.length ≤ k := by simpa using hk
      have e2 : crashStore f n l k j = f1 := by
        unfold crashStore; rw [e1]; simp only [hk]
      exact ⟨f1, e2, w1, s1, c1, l1, m1, fun q _ => ⟨rfl, rfl⟩, fun hx => by omega, fun hx => by omega⟩
    | some r =>
      have hlt : k < l.length := (List.getElem?_eq_some_iff.mp hk).1
      have hrk : l[k] = r := (List.getElem?_eq_some_iff.mp hk).2
      have hst := hstor r (by rw [← hrk]; exact List.getElem_mem _)
      have hmar := marshal_eq r hst.2.1
      let b : Bytes := ((r.marshal).getD []).take j
      have hb : b.length ≤ f1.size := by
        rw [s1]
        have : b.length ≤ ((r.marshal).getD []).length := by simp only [b, List.length_take]; omega
        rw [hmar] at this
        simp only [Option.getD_some, List.length_append, head20_length, beBytes_length] at this
        have := hst.2.2
        omega
      obtain ⟨t, ht⟩ : ∃ t : Nat, n + k = t := ⟨(n + k).toNat, by omega⟩
      have htc : t < f1.cap := by omega
      let f2 : File := { f1 with data := splice f1.data (f1.offset t) b }
      obtain ⟨w2, oth2, md2, _⟩ := File.splice_slot f1 w1 t htc b hb
      have e2 : crashStore f n l k j = f2 := by
        unfold crashStore; rw [e1]; simp only [hk, ht, Int.toNat_natCast]; rfl
      have hlen2 : f2.data.length = f1.data.length := splice_length _ _ _ (by have := File.slot_end w1 htc; omega)
      refine ⟨f2, e2, w2, s1, c1, hlen2.trans l1, md2.trans m1, ?_, ?_, ?_⟩
      · intro q hq
        exact oth2 q (by omega)
      · intro _ r' hr'
        rw [hrk]
        exact htorn r r' hk (by rw [e2]; exact hr')
      · intro _ hj1
        have hb1 : b[0]? = some 1 := by
          simp only [b, hmar, Option.getD_some]
          rw [List.getElem?_take_of_lt (by omega)]
          simp only [Rec.head20, List.cons_append, List.nil_append, List.getElem?_cons_zero, hst.1]
        have hbl : 0 < b.length := (List.getElem?_eq_some_iff.mp hb1).1
        rw [ht]
        unfold File.hasRecord
        rw [if_neg (by simp [File.oob_false (f := f2) (n := (t : Int)) (by omega) (by show (t : Int) < f1.cap; omega)])]
        simp only [Int.toNat_natCast]
        have hslot := File.slot_end w1 htc
        have hgd := getD_splice_at f1.data (f1.offset t) b (by omega) hbl
        rw [show f2.data.getD (f2.offset t) 0 = b.getD 0 0 from hgd]
        simp [List.getD_eq_getElem?_getD, hb1]
  rw [e2]
  have hout : ∀ q : Int, (q < n ∨ (f.cap : Int) - u ≤ q) → f2.record q = f.record q ∧ f2.hasRecord q = f.hasRecord q := by
    intro q hq
    obtain ⟨a, b⟩ := oth2 q (by omega)
    obtain ⟨a', b'⟩ := oth1 q (by omega)
    exact ⟨a.trans a', b.trans b'⟩
  have hin : ∀ i : Nat, i < l.length → i ≠ k → (i < k → ∀ hi : i < l.length, f2.record (n + i) = .ok l[i] ∧ f2.hasRecord (n + i) = true) ∧
      (k < i → f2.record (n + i) = f.record (n + i) ∧ f2.hasRecord (n + i) = f.hasRecord (n + i)) := by
    intro i hi hik
    obtain ⟨a, b⟩ := oth2 (n + i) (by omega)
    refine ⟨fun hlt _ => ⟨a.trans (hst i hlt hi), b.trans (has1 _ (by omega) (by omega))⟩, fun hgt => ?_⟩
    obtain ⟨a', b'⟩ := oth1 (n + i) (by omega)
    exact ⟨a.trans a', b.trans b'⟩
  have hstopl : ∀ r ∈ l, r.stop = v.stop := fun r hr => (hsp.2.2.2.2.fits r hr).2.2.2.1
  have hstops : ∀ (q : Int) (r : Rec), f2.record q = .ok r → Q r.stop := by
    intro q r e
    by_cases hqo : q < n ∨ (f.cap : Int) - u ≤ q
    · rw [(hout q hqo).1] at e; exact hq _ (h.stops q r e)
    · obtain ⟨i, rfl⟩ : ∃ i : Nat, q = n + i := ⟨(q - n).toNat, by omega⟩
      have hi : i < l.length := by omega
      by_cases hik : i = k
      · subst hik
        rcases hk2 hi r e with rfl | e
        · rw [hstopl _ (List.getElem_mem _)]; exact hv
        · exact hq _ (h.stops _ r e)
      · rcases Nat.lt_or_gt_of_ne hik with hlt | hgt
        · rw [((hin i hi hik).1 hlt hi).1] at e
          cases e
          rw [hstopl _ (List.getElem_mem _)]; exact hv
        · rw [((hin i hi hik).2 hgt).1] at e
          exact hq _ (h.stops _ r e)
  have hbelow : ∀ q : Int, 0 ≤ q → q < n → Junk c (f2.record q) := by
    intro q a b
    rw [(hout q (Or.inl b)).1]; exact h.below q a (by omega)
  have hrest : f2.recordsFrom ((f.cap : Int) - u) = f.recordsFrom ((f.cap : Int) - u) :=
    recordsFrom_congr f f2 _ hc2 (fun q hq => (hout q (Or.inr hq)).1)
  cases htop : f2.hasRecord ((f.cap : Int) - u - 1) with
  | false =>
    -- nothing of the new value is seen
    have hklt : k < l.length := by
      by_cases hx : k < l.length
      · exact hx
      · exfalso
        obtain ⟨a, b⟩ := (hin (l.length - 1) (by omega) (by omega)).1 (by omega) (by omega)
        rw [show n + ((l.length - 1 : Nat) : Int) = (f.cap : Int) - u - 1 by omega, htop] at b
        cases b
    refine ⟨f2, u, vs, rfl, hs2, hc2, ⟨by rw [hs2, hc2]; exact h.geo, by rw [l2, hs2, hc2]; exact h.len, by rw [hc2]; exact h.fits, ?_, ?_, ?_, hstops,
      ⟨m0, m2.trans hm, by rw [hs2]; exact g1, by rw [hc2]; exact g2, g3.imp id (hq _)⟩, ?_, h.zero⟩, Or.inr rfl, ?_, ?_⟩
    · intro q a b
      rw [hc2] at a b
      rw [(hout q (Or.inr a)).2]; exact h.has q a b
    · intro _; rw [hc2]; exact htop
    · intro q a b
      rw [hc2] at b
      by_cases hqn : q < n
      · exact hbelow q a hqn
      · obtain ⟨i, rfl⟩ : ∃ i : Nat, q = n + i := ⟨(q - n).toNat, by omega⟩
        have hi : i < l.length := by omega
        have hjunk : i + 1 < l.length → ∀ x, x = Except.ok (l[i]) → Junk c x := by
          intro hlast x hx
          subst hx
          refine ⟨?_, chunk_kind hsp.2.2.2.2 i hlast⟩
          cases hcc : c with
          | false => rfl
          | true => have := hc1 hcc; omega
        by_cases hik : i = k
        · subst hik
          cases hr : f2.record (n + i) with
          | error e => trivial
          | ok r' =>
            by_cases hlast : i + 1 < l.length
            · rcases hk2 hi r' hr with e | e
              · exact hjunk hlast _ (by rw [e])
              · rw [← e]; exact h.below _ a (by omega)
            · exfalso
              obtain ⟨e, he⟩ := record_of_not_has w2 (n + i) (by omega) (by omega) (by
                rw [show n + (i : Int) = (f.cap : Int) - u - 1 by omega]; exact htop)
              rw [hr] at he; cases he
        · rcases Nat.lt_or_gt_of_ne hik with hlt | hgt
          · exact hjunk (by omega) _ ((hin i hi hik).1 hlt hi).1
          · rw [((hin i hi hik).2 hgt).1]; exact h.below _ a (by omega)
    · intro σ bound cb st hb
      rw [hc2, hrest]
      exact h.reads bound cb st (fun e he => hb e (hq e he))
    · intro hx
      rcases hx with hx | ⟨hx, hkj⟩
      · exact hx
      · exfalso
        have hl1 := hc1 hx
        have := hj2 hklt (by omega)
        rw [show n + (k : Int) = (f.cap : Int) - u - 1 by omega, htop] at this
        cases this
    · intro hx hk0 hj1 _
      exfalso
      have hl1 := hc1 hx
      have := hj2 hklt hj1
      rw [show n + (k : Int) = (f.cap : Int) - u - 1 by omega, htop] at this
      cases this
  | true =>
    -- all but at most the last chunk are complete
    have hkge : l.length ≤ k + 1 := by
      by_cases hx : l.length ≤ k + 1
      · exact hx
      · exfalso
        obtain ⟨a, b⟩ := (hin (l.length - 1) (by omega) (by omega)).2 (by omega)
        rw [show n + ((l.length - 1 : Nat) : Int) = (f.cap : Int) - u - 1 by omega, htop, h.top (by omega)] at b
        cases b
    let A : List (Except FErr Rec) := (List.range l.length).map (fun (i : Nat) => f2.record (n + i))
    have hA : f2.recordsFrom ((f2.cap : Int) - (u + l.length : Nat)) = A ++ f.recordsFrom ((f.cap : Int) - u) := by
      rw [hc2, show (f.cap : Int) - (u + l.length : Nat) = n by omega, recordsFrom_append f2 l.length n (by omega)]
      congr 1
      rw [← hrest]; congr 1; omega
    have hslots : Slots A l := by
      apply slots_of_pointwise
      · simp [A]
      · intro i hi hil
        simp only [A, List.getElem_map, List.getElem_range]
        by_cases hik : i < k
        · exact Or.inl ((hin i hil (by omega)).1 hik hil).1
        · have hie : i = k := by omega
          subst hie
          cases hr : f2.record (n + i) with
          | error e => exact Or.inr ⟨e, rfl⟩
          | ok r' =>
            left
            rcases hk2 hil r' hr with e | e
            · rw [e]
            · exfalso
              obtain ⟨e', he⟩ := record_of_not_has h.wf (n + i) (by omega) (by omega) (by
                rw [show n + (i : Int) = (f.cap : Int) - u - 1 by omega]; exact h.top (by omega))
              rw [e] at he; cases he
    obtain ⟨u', vs', h1, h2, h3, _⟩ := FileG.build (c := c) (P := Q) (f := f2) (u + l.length) (by omega) vs (if allOk A then v :: vs else vs)
      (by rw [hs2, hc2]; exact h.geo) (by rw [l2, hs2, hc2]; exact h.len) (by rw [hc2]; exact hfit)
      (fun q a b => by
        rw [hc2] at a b
        by_cases hqu : (f.cap : Int) - u ≤ q
        · rw [(hout q (Or.inr hqu)).2]; exact h.has q hqu b
        · obtain ⟨i, rfl⟩ : ∃ i : Nat, q = n + i := ⟨(q - n).toNat, by omega⟩
          by_cases hik : i < k
          · exact ((hin i (by omega) (by omega)).1 hik (by omega)).2
          · rw [show n + (i : Int) = (f.cap : Int) - u - 1 by omega]; exact htop)
      (fun q a b => by rw [hc2] at b; exact hbelow q a (by omega))
      hstops
      ⟨m0, m2.trans hm, by rw [hs2]; exact g1, by rw [hc2]; constructor <;> omega, g3.imp id (hq _)⟩
      (fun bound cb st hb => by
        rw [hA, readSlots_value bound cb _ st v f.size _ _ hsp.2.2.2.2 hslots]
        cases hok : allOk A with
        | true =>
          rw [if_pos ⟨rfl, hb _ hv⟩]
          exact emit_visit (fun st => h.reads bound cb st (fun e he => hb e (hq e he))) st
        | false =>
          simp only [Bool.false_eq_true, false_and, if_false]
          exact h.reads bound cb st (fun e he => hb e (hq e he)))
      (fun bound cb st buf hb => by
        rw [hA, readSlots_value_some bound cb _ st v f.size _ _ hsp.2.2.2.2 hslots buf]
        exact h.reads bound cb st (fun e he => hb e (hq e he)))
    refine ⟨f2, u', vs', rfl, hs2, hc2, h2, ?_, fun _ => by omega, ?_⟩
    · rcases h3 with h3 | h3
      · rw [h3]; split
        · exact Or.inl rfl
        · exact Or.inr rfl
      · exact Or.inr h3
    · intro hx _ _ he
      refine ⟨by omega, ?_⟩
      have hl1 := hc1 hx
      have hfit2 := h2.fits
      rw [hc2] at hfit2
      by_cases hu : u' = u + l.length
      · rw [hu, show (f.cap : Int) - (u + l.length : Nat) = n by omega]; exact he
      · have := hbelow ((f.cap : Int) - u') (by omega) (by omega)
        cases hr : f2.record ((f.cap : Int) - u') with
        | error e => exact ⟨e, rfl⟩
        | ok r => rw [hr] at this; rw [hx] at this; exact absurd this.1 (by simp)

/-- A created file. -/
theorem create_g (c : Bool) (P : Int64 → Prop) (size cap : Nat) (h : GeoOk size cap) :
    ∃ f, createFile size cap = (.ok f, f.data) ∧ f.size = size ∧ f.cap = cap ∧ FileG c P f 0 [] := by
  obtain ⟨f, e, hs, hc, hr⟩ := create_rep size cap h
  have hz : used f.size [] = 0 := rfl
  obtain ⟨m, m1, m2, m3, m4⟩ := hr.md
  have hno : ∀ n : Int, 0 ≤ n → n < f.cap → f.hasRecord n = false := by
    intro n a b
    rw [Bool.eq_false_iff]
    intro hx
    have := (hr.has n a b).mp hx
    omega
  have herr : ∀ n : Int, ∃ e, f.record n = .error e := by
    intro n
    by_cases hb : 0 ≤ n ∧ n < f.cap
    · exact record_of_not_has hr.wf n hb.1 hb.2 (hno n hb.1 hb.2)
    · unfold File.record
      rw [if_pos (File.oob_true (by omega))]
      exact ⟨_, rfl⟩
  refine ⟨f, e, hs, hc, hr.geo, hr.len, by omega, fun n a b => by omega, fun hx => hno _ (by omega) (by omega), ?_, ?_,
    ⟨m, m1, m2, by rw [m3]; constructor <;> omega, Or.inl m4⟩, ?_, fun _ => rfl⟩
  · intro n _ _
    obtain ⟨e, he⟩ := herr n
    rw [he]; trivial
  · intro n r hr'
    obtain ⟨e, he⟩ := herr n
    rw [he] at hr'; cases hr'
  · intro σ bound cb st _
    rw [recordsFrom_nil _ _ (by omega)]; rfl

end Rothko
