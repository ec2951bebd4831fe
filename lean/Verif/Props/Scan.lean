import Verif.Spec.ScanRun
import Verif.Lemmas.Scan
/-!
# C114: a scan of a database that changes
-/
namespace Rothko

theorem seenBy_succ {σ : Nat → Scan} {t : Nat} : SeenBy σ (t + 1) = fun p => SeenBy σ t p ∨ (σ (t + 1)).w p ≠ none := by
  funext p
  refine propext ⟨?_, ?_⟩
  · rintro ⟨t', h1, h2⟩
    by_cases e : t' = t + 1
    · subst e; exact Or.inr h2
    · exact Or.inl ⟨t', by omega, h2⟩
  · rintro (⟨t', h1, h2⟩ | h)
    · exact ⟨t', by omega, h2⟩
    · exact ⟨t + 1, Nat.le_refl _, h⟩

section
variable {whole : List Bytes → Prop} {fds : List Nat} {σ : Nat → Scan}

theorem run_inv (hr : Scan.Run whole fds σ) : ∀ t, ScanInv (SeenBy σ t) fds (σ t) := by
  intro t
  induction t with
  | zero =>
    obtain ⟨w, hw, e⟩ := hr.start
    have hseen : SeenBy σ 0 = fun p => w p ≠ none := by
      funext p
      refine propext ⟨?_, ?_⟩
      · rintro ⟨t', h1, h2⟩
        have : t' = 0 := by omega
        subst this
        rw [e] at h2
        exact h2
      · intro h
        exact ⟨0, Nat.le_refl _, by rw [e]; exact h⟩
    rw [hseen, e]
    exact {
      tree := hw
      now := fun p hp => hp
      ok := hw.seenOk
      frames := fun f hf => by cases hf
      chain := trivial
      mode := rfl
      out := SSet.Is.new
      found := fun m hm => by cases hm
      fds := rfl
      nodup := hr.fds }
  | succ t ih =>
    rw [seenBy_succ]
    rcases hr.step t with h | h
    · exact step_inv ih h
    · have e : (fun p => SeenBy σ t p ∨ (σ (t + 1)).w p ≠ none) = SeenBy σ t := by
        funext p
        refine propext ⟨?_, Or.inl⟩
        rintro (h' | h')
        · exact h'
        · rw [h] at h'; exact ih.now p h'
      rw [e, h]
      exact ih

/-- **C114** (nothing made up). Every name that a scan stores has had a data file at some time during the scan; the names are sorted and each is there once; and the set answers `Has` for exactly these. -/
theorem C114_true (hr : Scan.Run whole fds σ) {t : Nat} {r : Option ScanErr} {o : SSet} (he : (σ t).mode = .over r (some o)) :
    (∀ m, m ∈ o.order → ∃ i t', t' ≤ t ∧ (σ t').w (dataPath m i) ≠ none) ∧ Sorted o.order ∧ o.order.Nodup ∧ ∀ m, o.has m = true ↔ m ∈ o.order := by
  have h := run_inv hr t
  have hm := h.mode
  unfold ModeOk at hm
  rw [he] at hm
  obtain ⟨-, rfl⟩ := hm.2 o rfl
  refine ⟨fun m hm => ?_, h.out.sorted, C34_nodup h.out.sorted, fun m => h.out.has m⟩
  obtain ⟨i, t', h1, h2⟩ := h.found m hm
  exact ⟨i, t', h1, h2⟩

/-- **C114** (a scan that fails stores nothing; no scan crashes). `PopulateMetrics` stores a set only if it returns no error, and the scan never panics. -/
theorem C114_fails (hr : Scan.Run whole fds σ) (t : Nat) : (σ t).mode ≠ .panic ∧ ∀ e st, (σ t).mode = .over (some e) st → st = none := by
  have hm := (run_inv hr t).mode
  unfold ModeOk at hm
  refine ⟨fun h => by rw [h] at hm; exact hm, fun e st h => ?_⟩
  rw [h] at hm
  cases st with
  | none => rfl
  | some o => have := (hm.2 o rfl).1; cases this

theorem chain_length : ∀ {f : ScanFrame} {rest : List ScanFrame}, Chain (f :: rest) → (f :: rest).length = f.fd.path.length + 1 := by
  intro f rest
  induction rest generalizing f with
  | nil => intro h; have : f.fd.path = [] := h; rw [this]; rfl
  | cons g rest ih =>
    intro h
    obtain ⟨n, hn⟩ := h.1
    rw [List.length_cons, ih h.2, hn, List.length_append]
    rfl

/-- **C114** (descriptors). When a scan is over, however it ended, the process has the same descriptors open as before; during the scan at most one more than the depth of the deepest directory there was. -/
theorem C114_closed (hr : Scan.Run whole fds σ) (t : Nat) :
    (∀ r st, (σ t).mode = .over r st → (σ t).fds = fds) ∧ ((σ t).fds = fds ∨ ∃ p, SeenBy σ t p ∧ (σ t).fds.length = fds.length + p.length + 1) := by
  have h := run_inv hr t
  refine ⟨fun r st he => ?_, ?_⟩
  · have hm := h.mode
    unfold ModeOk at hm
    rw [he] at hm
    rw [h.fds, hm.1]; rfl
  · cases hst : (σ t).stack with
    | nil => left; rw [h.fds, hst]; rfl
    | cons f rest =>
      right
      refine ⟨f.fd.path, (h.frames f (by rw [hst]; simp)).here, ?_⟩
      rw [h.fds, List.length_append, List.length_map, hst, chain_length (by rw [← hst]; exact h.chain)]
      omega

/-! ## Completeness -/

/-- A data file of `m` is there: the one given, or any. -/
def KeptIn (m : Bytes) (keep : Option Int) (w : World) : Prop :=
  match keep with
  | some i => w (dataPath m i) ≠ none
  | none => ∃ i, w (dataPath m i) ≠ none

theorem KeptIn.some_file {m : Bytes} {keep : Option Int} {w : World} (h : KeptIn m keep w) : ∃ i, w (dataPath m i) ≠ none := by
  cases keep with
  | none => exact h
  | some i => exact ⟨i, h⟩

/-- What the innermost activation that matters still has to do, at the metric's directory. -/
def LeafDue (keep : Option Int) (f : ScanFrame) : Prop :=
  (∃ n, dataSuffix.isSuffixOf n = true ∧ n ∈ bufNames f.buf) ∨ match keep with | some i => f.fd.owed (intDec i ++ dataSuffix) | none => f.fd.read = false

def Due (m : Bytes) (keep : Option Int) (f : ScanFrame) : Prop :=
  f.fd.kind = .dir ∧ ((∃ n q, dirComps m = f.fd.path ++ n :: q ∧ (f.fd.owed n ∨ n ∈ bufNames f.buf)) ∨ (f.fd.path = dirComps m ∧ LeafDue keep f))

def Pend (m : Bytes) (keep : Option Int) (s : Scan) : Prop :=
  (∃ e, s.mode = .back (some e)) ∨ (∃ r, s.mode = .over r none) ∨ m ∈ s.out.order ∨ (s.mode = .call ∧ pathComps s.dirbuf <+: dirComps m) ∨ ∃ f ∈ s.stack, Due m keep f

theorem dirComps_split {m : Bytes} {p q : List Bytes} {n : Bytes} (h : dirComps m = p ++ n :: q) : dataSuffix.isSuffixOf n = false := not_data (dirComps_good m n (by rw [h]; simp)).2

theorem step_pend {m : Bytes} {keep : Option Int} {seen : List Bytes → Prop} {s s' : Scan} (h : ScanInv seen fds s) (hk : KeptIn m keep s.w) (hk' : KeptIn m keep s'.w) (hw : keep = none → whole (dirComps m))
    (hs : s.Step whole s') (hp : Pend m keep s) : Pend m keep s' := by
  -- the directories of the metric are there
  have dirs : ∀ {w : World} (p q : List Bytes), w.Tree → KeptIn m keep w → dirComps m = p ++ q → w p = some .dir := by
    intro w p q ht hkw e
    obtain ⟨i, hi⟩ := hkw.some_file
    refine ht.above (q ++ [intDec i ++ dataSuffix]) p (by simp) ?_
    rw [← List.append_assoc, ← e]
    exact hi
  have here : ∀ {w : World} (p q : List Bytes) (n : Bytes), w.Tree → KeptIn m keep w → dirComps m = p ++ n :: q → w (p ++ [n]) ≠ none := by
    intro w p q n ht hkw e h0
    have := dirs (p ++ [n]) q ht hkw (by rw [e]; simp)
    rw [h0] at this
    cases this
  rcases hs with hs | ⟨w, ht, rfl⟩
  rotate_left
  · rcases hp with ⟨e, hp⟩ | ⟨r, hp⟩ | hp | hp | ⟨f, hf, hkd, hp⟩
    · exact Or.inl ⟨e, hp⟩
    · exact Or.inr (Or.inl ⟨r, hp⟩)
    · exact Or.inr (Or.inr (Or.inl hp))
    · exact Or.inr (Or.inr (Or.inr (Or.inl hp)))
    · refine Or.inr (Or.inr (Or.inr (Or.inr ⟨{ f with fd := f.fd.see w }, List.mem_map.mpr ⟨f, hf, rfl⟩, hkd, ?_⟩)))
      rcases hp with ⟨n, q, e, ho | ho⟩ | ⟨e, ho | ho⟩
      · exact Or.inl ⟨n, q, e, Or.inl ⟨ho, here _ _ _ ht hk' e⟩⟩
      · exact Or.inl ⟨n, q, e, Or.inr ho⟩
      · exact Or.inr ⟨e, Or.inl ho⟩
      · refine Or.inr ⟨e, Or.inr ?_⟩
        cases keep with
        | none => exact ho
        | some i =>
          refine ⟨ho, ?_⟩
          show w (f.fd.path ++ [intDec i ++ dataSuffix]) ≠ none
          rw [e]
          exact hk'
  -- who is not the innermost activation
  have other : ∀ {f g : ScanFrame} {rest : List ScanFrame}, s.stack = f :: rest → g ∈ s.stack → g = f ∨ g ∈ rest := fun e hg => by rw [e] at hg; exact List.mem_cons.mp hg
  cases hs with
  | done e hm he => exact Or.inl ⟨e, rfl⟩
  | noent hm hw' =>
    rcases hp with ⟨e, hp⟩ | ⟨r, hp⟩ | hp | hp | hp
    · rw [hm] at hp; cases hp
    · rw [hm] at hp; cases hp
    · exact Or.inr (Or.inr (Or.inl hp))
    · obtain ⟨q, e⟩ := hp.2
      have := dirs _ q h.tree hk e.symm
      rw [hw'] at this
      cases this
    · exact Or.inr (Or.inr (Or.inr (Or.inr hp)))
  | openErr hm => exact Or.inl ⟨_, rfl⟩
  | opened k num hm hk2 hnum =>
    rcases hp with ⟨e, hp⟩ | ⟨r, hp⟩ | hp | hp | ⟨f, hf, hp⟩
    · rw [hm] at hp; cases hp
    · rw [hm] at hp; cases hp
    · exact Or.inr (Or.inr (Or.inl hp))
    · obtain ⟨q, e⟩ := hp.2
      have hd := dirs _ q h.tree hk e.symm
      rw [hk2] at hd
      have hd := Option.some.inj hd
      refine Or.inr (Or.inr (Or.inr (Or.inr ⟨_, List.mem_cons_self, hd, ?_⟩)))
      cases q with
      | nil =>
        rw [List.append_nil] at e
        refine Or.inr ⟨e, Or.inr ?_⟩
        cases keep with
        | none => rfl
        | some i =>
          show s.w (pathComps s.dirbuf ++ [intDec i ++ dataSuffix]) ≠ none
          rw [e]
          exact hk
      | cons n q => exact Or.inl ⟨n, q, e.symm, Or.inl (here _ _ _ h.tree hk e.symm)⟩
    · exact Or.inr (Or.inr (Or.inr (Or.inr ⟨f, List.mem_cons_of_mem _ hf, hp⟩)))
  | notDir f rest hm hst hb hkf =>
    rcases hp with ⟨e, hp⟩ | ⟨r, hp⟩ | hp | hp | ⟨g, hg, hp⟩
    · rw [hm] at hp; cases hp
    · rw [hm] at hp; cases hp
    · exact Or.inr (Or.inr (Or.inl hp))
    · rw [hm] at hp; cases hp.1
    · rcases other hst hg with rfl | hg
      · have := hp.1; rw [hkf] at this; cases this
      · exact Or.inr (Or.inr (Or.inr (Or.inr ⟨g, hg, hp⟩)))
  | readErr f rest hm hst hb => exact Or.inl ⟨_, rfl⟩
  | eof f rest hm hst hb hkf he =>
    rcases hp with ⟨e, hp⟩ | ⟨r, hp⟩ | hp | hp | ⟨g, hg, hp⟩
    · rw [hm] at hp; cases hp
    · rw [hm] at hp; cases hp
    · exact Or.inr (Or.inr (Or.inl hp))
    · rw [hm] at hp; cases hp.1
    · rcases other hst hg with rfl | hg
      · exfalso
        rcases hp.2 with ⟨n, q, e, ho | ho⟩ | ⟨e, ⟨n, _, ho⟩ | ho⟩
        · exact he.owed n ho
        · rw [hb, bufNames_nil] at ho; cases ho
        · rw [hb, bufNames_nil] at ho; cases ho
        · cases keep with
          | some i => exact he.owed _ ho
          | none =>
            obtain ⟨i, hi⟩ := hk
            have := he.all (by rw [e]; exact hw rfl) ho (intDec i ++ dataSuffix)
            rw [e] at this
            exact hi this
      · exact Or.inr (Or.inr (Or.inr (Or.inr ⟨g, hg, hp⟩)))
  | read f rest es hm hst hb hkf hr =>
    rcases hp with ⟨e, hp⟩ | ⟨r, hp⟩ | hp | hp | ⟨g, hg, hp⟩
    · rw [hm] at hp; cases hp
    · rw [hm] at hp; cases hp
    · exact Or.inr (Or.inr (Or.inl hp))
    · rw [hm] at hp; cases hp.1
    · refine Or.inr (Or.inr (Or.inr (Or.inr ?_)))
      rcases other hst hg with rfl | hg
      · refine ⟨_, List.mem_cons_self, hkf, ?_⟩
        have split : ∀ n, g.fd.owed n → (g.fd.returned es).owed n ∨ n ∈ bufNames (es.map Entry.bytes).flatten := by
          intro n ho
          by_cases hl : Lists es n
          · exact Or.inr ((mem_bufNames hr.valid n).mpr hl)
          · exact Or.inl ⟨ho, hl⟩
        rcases hp.2 with ⟨n, q, e, ho | ho⟩ | ⟨e, ⟨n, _, ho⟩ | ho⟩
        · exact Or.inl ⟨n, q, e, split n ho⟩
        · rw [hb, bufNames_nil] at ho; cases ho
        · rw [hb, bufNames_nil] at ho; cases ho
        · refine Or.inr ⟨e, ?_⟩
          cases keep with
          | some i =>
            rcases split _ ho with ho | ho
            · exact Or.inr ho
            · exact Or.inl ⟨_, dataName_suffix i, ho⟩
          | none =>
            obtain ⟨i, hi⟩ := hk
            refine Or.inl ⟨_, dataName_suffix i, (mem_bufNames hr.valid _).mpr (hr.all (by rw [e]; exact hw rfl) ho _ ?_)⟩
            rw [e]
            exact hi
      · exact ⟨g, List.mem_cons_of_mem _ hg, hp⟩
  | entry f rest hm hst hb =>
    have hfr := h.frames f (by rw [hst]; simp)
    have hd : s.dirbuf = joinWith 47 f.fd.path := by
      have := h.mode
      unfold ModeOk at this
      rw [hm] at this
      obtain ⟨f', rest', e1, e2⟩ := this
      rw [hst] at e1
      cases e1
      exact e2
    obtain ⟨e, buf, name, hn, hl, hbuf, _, hnames⟩ := entry_front hfr hb
    -- the frame as it is afterwards, if the name that is due is not this one
    have keepOn : ∀ {b : Bool}, Due m keep f → (∀ n, e.listed = true → n = e.name → (∀ q, dirComps m ≠ f.fd.path ++ n :: q) ∧ ¬ (f.fd.path = dirComps m ∧ dataSuffix.isSuffixOf n = true)) → Due m keep { f with buf, added := b } := by
      intro b hdue hno
      refine ⟨hdue.1, ?_⟩
      rcases hdue.2 with ⟨n, q, e1, ho | ho⟩ | ⟨e1, ⟨n, hn1, ho⟩ | ho⟩
      · exact Or.inl ⟨n, q, e1, Or.inl ho⟩
      · rcases (hnames n).mp ho with ⟨hl1, hl2⟩ | ho
        · exact absurd e1 ((hno n hl1 hl2).1 q)
        · exact Or.inl ⟨n, q, e1, Or.inr ho⟩
      · rcases (hnames n).mp ho with ⟨hl1, hl2⟩ | ho
        · exact absurd ⟨e1, hn1⟩ (hno n hl1 hl2).2
        · exact Or.inr ⟨e1, Or.inl ⟨n, hn1, ho⟩⟩
      · exact Or.inr ⟨e1, Or.inr ho⟩
    unfold Scan.entry
    rw [hn]
    dsimp only
    have hp : m ∈ s.out.order ∨ ∃ f ∈ s.stack, Due m keep f := by
      rcases hp with ⟨e, hp⟩ | ⟨r, hp⟩ | hp | hp | hp
      · rw [hm] at hp; cases hp
      · rw [hm] at hp; cases hp
      · exact Or.inl hp
      · rw [hm] at hp; cases hp.1
      · exact Or.inr hp
    cases hok : e.listed with
    | false =>
      rcases hp with hp | ⟨g, hg, hp⟩
      · exact Or.inr (Or.inr (Or.inl hp))
      · refine Or.inr (Or.inr (Or.inr (Or.inr ?_)))
        rcases other hst hg with rfl | hg
        · exact ⟨_, List.mem_cons_self, keepOn (b := g.added) hp (fun n hl1 _ => by rw [hok] at hl1; cases hl1)⟩
        · exact ⟨g, List.mem_cons_of_mem _ hg, hp⟩
    | true =>
      obtain ⟨rfl, hev⟩ := hl hok
      have hseen := hfr.ever _ hev
      cases hsuf : dataSuffix.isSuffixOf e.name with
      | false =>
        rcases hp with hp | ⟨g, hg, hp⟩
        · exact Or.inr (Or.inr (Or.inl hp))
        · refine Or.inr (Or.inr (Or.inr ?_))
          rcases other hst hg with rfl | hg
          · by_cases hnext : ∃ q, dirComps m = g.fd.path ++ e.name :: q
            · obtain ⟨q, hq⟩ := hnext
              refine Or.inl ⟨rfl, q, ?_⟩
              show pathComps ((if g.len > 0 then s.dirbuf ++ [47] else s.dirbuf) ++ e.name) ++ q = _
              rw [hfr.len, hd, ← join_snoc hfr.good, pathComps_join (hfr.good.snoc (h.ok.name _ _ hseen).1 (h.ok.name _ _ hseen).2), hq]
              simp
            · refine Or.inr ⟨_, List.mem_cons_self, keepOn (b := g.added) hp fun n _ hn2 => ⟨fun q hq => hnext ⟨q, by rw [← hn2]; exact hq⟩, fun hx => ?_⟩⟩
              rw [hn2, hsuf] at hx
              cases hx.2
          · exact Or.inr ⟨g, List.mem_cons_of_mem _ hg, hp⟩
      | true =>
        have inner : ∀ (g : ScanFrame) (n : Bytes), n = e.name → ∀ q, dirComps m ≠ g.fd.path ++ n :: q := by
          intro g n hn2 q hq
          have := dirComps_split hq
          rw [hn2, hsuf] at this
          cases this
        cases hadd : f.added with
        | true =>
          simp only [Bool.not_true, Bool.false_eq_true, if_false, if_true]
          rcases hp with hp | ⟨g, hg, hp⟩
          · exact Or.inr (Or.inr (Or.inl hp))
          · rcases other hst hg with rfl | hg
            · by_cases hq : g.fd.path = dirComps m
              · obtain ⟨m', hm', hm2⟩ := hfr.added hadd
                have : m = m' := dirComps_inj (by rw [← hq, hm2])
                rw [this]
                exact Or.inr (Or.inr (Or.inl hm'))
              · exact Or.inr (Or.inr (Or.inr (Or.inr ⟨_, List.mem_cons_self, keepOn (b := true) hp fun n _ hn2 => ⟨inner g n hn2, fun hx => hq hx.1⟩⟩)))
            · exact Or.inr (Or.inr (Or.inr (Or.inr ⟨g, List.mem_cons_of_mem _ hg, hp⟩)))
        | false =>
          simp only [Bool.not_true, Bool.false_eq_true, if_false]
          obtain ⟨m', i, hp', hdp, hdm⟩ := dirToMetric_data h.ok hseen hsuf
          rw [← hd] at hdm
          rw [hdm]
          obtain ⟨o1, o2⟩ := h.out.add_order m'
          rcases hp with hp | ⟨g, hg, hp⟩
          · exact Or.inr (Or.inr (Or.inl ((o2 m).mpr (Or.inr hp))))
          · rcases other hst hg with rfl | hg
            · by_cases hq : g.fd.path = dirComps m
              · have : m = m' := dirComps_inj (by rw [← hq, hp'])
                exact Or.inr (Or.inr (Or.inl ((o2 m).mpr (Or.inl this))))
              · exact Or.inr (Or.inr (Or.inr (Or.inr ⟨_, List.mem_cons_self, keepOn (b := true) hp fun n _ hn2 => ⟨inner g n hn2, fun hx => hq hx.1⟩⟩)))
            · exact Or.inr (Or.inr (Or.inr (Or.inr ⟨g, List.mem_cons_of_mem _ hg, hp⟩)))
  | failed f rest e hm hst => exact Or.inl ⟨_, rfl⟩
  | resume f rest hm hst =>
    rcases hp with ⟨e, hp⟩ | ⟨r, hp⟩ | hp | hp | hp
    · rw [hm] at hp; cases hp
    · rw [hm] at hp; cases hp
    · exact Or.inr (Or.inr (Or.inl hp))
    · rw [hm] at hp; cases hp.1
    · exact Or.inr (Or.inr (Or.inr (Or.inr hp)))
  | canceled hm hst => exact Or.inr (Or.inl ⟨_, rfl⟩)
  | error e hm he hst => exact Or.inr (Or.inl ⟨_, rfl⟩)
  | store hm hst =>
    rcases hp with ⟨e, hp⟩ | ⟨r, hp⟩ | hp | hp | ⟨f, hf, _⟩
    · rw [hm] at hp; cases hp
    · rw [hm] at hp; cases hp
    · exact Or.inr (Or.inr (Or.inl hp))
    · rw [hm] at hp; cases hp.1
    · rw [hst] at hf; cases hf

theorem run_pend (hr : Scan.Run whole fds σ) {m : Bytes} {keep : Option Int} (hw : keep = none → whole (dirComps m)) {T : Nat} (hk : ∀ t, t ≤ T → KeptIn m keep (σ t).w) : ∀ t, t ≤ T → Pend m keep (σ t) := by
  intro t
  induction t with
  | zero =>
    intro _
    obtain ⟨w, _, e⟩ := hr.start
    rw [e]
    exact Or.inr (Or.inr (Or.inr (Or.inl ⟨rfl, List.nil_prefix⟩)))
  | succ t ih =>
    intro ht
    rcases hr.step t with h | h
    · exact step_pend (run_inv hr t) (hk t (by omega)) (hk (t + 1) ht) hw h (ih (by omega))
    · rw [h]; exact ih (by omega)

theorem run_found (hr : Scan.Run whole fds σ) {m : Bytes} {keep : Option Int} (hw : keep = none → whole (dirComps m)) {T : Nat} (hk : ∀ t, t ≤ T → KeptIn m keep (σ t).w) {r : Option ScanErr} {o : SSet}
    (he : (σ T).mode = .over r (some o)) : m ∈ o.order := by
  have h := run_inv hr T
  have hm := h.mode
  unfold ModeOk at hm
  rw [he] at hm
  obtain ⟨-, rfl⟩ := hm.2 o rfl
  rcases run_pend hr hw hk T (Nat.le_refl _) with ⟨e, hp⟩ | ⟨r, hp⟩ | hp | hp | ⟨f, hf, _⟩
  · rw [he] at hp; cases hp
  · rw [he] at hp; cases hp
  · exact hp
  · rw [he] at hp; cases hp.1
  · rw [hm.1] at hf; cases hf

/-- **C114** (everything that stays is found). Whatever else changes in the file system while a scan goes on - metrics and directories that appear, files that are removed -, a metric with a data file that is there from the beginning to the end is among the names stored. -/
theorem C114_found (hr : Scan.Run whole fds σ) {T : Nat} {r : Option ScanErr} {o : SSet} (he : (σ T).mode = .over r (some o)) (m : Bytes) (i : Int) (hk : ∀ t, t ≤ T → (σ t).w (dataPath m i) ≠ none) : m ∈ o.order :=
  run_found (keep := some i) hr (fun h => by cases h) hk he

/-- **C114** (files that are replaced). If the directory of a metric is small enough to be read at once, it is enough that at each time there is some data file of the metric. -/
theorem C114_rotated (hr : Scan.Run whole fds σ) {T : Nat} {r : Option ScanErr} {o : SSet} (he : (σ T).mode = .over r (some o)) (m : Bytes) (hm : whole (dirComps m)) (hk : ∀ t, t ≤ T → ∃ i, (σ t).w (dataPath m i) ≠ none) : m ∈ o.order :=
  run_found (keep := none) hr (fun _ => hm) hk he

/-- **C114** (as C35 has it). If all metrics' directories are small and no metric loses its last data file, the names stored have all that were there at the beginning and only such as are there at the end: what `Model/Names` takes a scan to be. -/
theorem C114_names (hr : Scan.Run whole fds σ) {T : Nat} {r : Option ScanErr} {o : SSet} (he : (σ T).mode = .over r (some o)) (hw : ∀ m, whole (dirComps m))
    (hk : ∀ m t t', t ≤ t' → t' ≤ T → (∃ i, (σ t).w (dataPath m i) ≠ none) → ∃ i, (σ t').w (dataPath m i) ≠ none) :
    (∀ m, (∃ i, (σ 0).w (dataPath m i) ≠ none) → m ∈ o.order) ∧ ∀ m ∈ o.order, ∃ i, (σ T).w (dataPath m i) ≠ none := by
  refine ⟨fun m hm => C114_rotated hr he m (hw m) fun t ht => hk m 0 t (Nat.zero_le _) ht hm, fun m hm => ?_⟩
  obtain ⟨i, t', h1, h2⟩ := (C114_true hr he).1 m hm
  exact hk m t' T h1 (Nat.le_refl _) ⟨i, h2⟩

end

end Rothko
