import Verif.Spec.Fault
import Verif.Lemmas.Fault
import Verif.Props.Metric
import Verif.Props.Durable
/-!
# C99: a system call that fails makes the call fail, and nothing else
-/
namespace Rothko

attribute [local irreducible] createFile openFile

/-! ## Without faults -/

theorem runF_none {α : Type} (p : FsProg α) : ∀ s : Store, p.runF Faults.none s = p.run (fun c => c) s := by
  induction p with
  | done a => intro s; rfl
  | acquire cfg idx ex k ih =>
    intro s
    rw [FsProg.runF, FsProg.run, acquireF_none _ _ _ _ _ rfl]
    generalize Store.acquire cfg s idx ex = a
    obtain ⟨e | h, s1⟩ := a
    · exact ih _ s1
    · exact ih _ s1
  | release idx h k ih => intro s; exact ih _
  | evict idx k ih => intro s; exact ih _
  | remove idx k ih => intro s; exact ih _
  | load h k ih => intro s; exact ih _ _
  | store h head v f k ih => intro s; exact ih _

/-- **C99** (the same calls). With nothing failing the calls are those of Model/Metric. -/
theorem C99_none (cfg : Cfg) (s : Store) : (∀ v, dbWriteF .none cfg v s = dbWrite cfg v s) ∧
    (∀ (σ : Type) (bound : Int64) (cb : σ → Val → σ × Cb) (st : σ), dbQueryF .none cfg bound cb st s = dbQuery cfg bound cb st s) ∧
    dbQueryLatestF .none cfg s = dbQueryLatest cfg s := by
  have hq : ∀ (σ : Type) (bound : Int64) (cb : σ → Val → σ × Cb) (st : σ), dbQueryF .none cfg bound cb st s = dbQuery cfg bound cb st s := by
    intro σ bound cb st
    show (dbQueryP cfg bound cb st (dirNames true s).1 .done).runF Faults.none (dirNames true s).2 = _
    rw [runF_none, dbQueryP_run]
    rfl
  refine ⟨fun v => ?_, hq, hq _ _ _ _⟩
  show (dbWriteP cfg v (dirNames false s).1 .done).runF Faults.none (dirNames false s).2 = _
  rw [runF_none, dbWriteP_run]
  rfl

/-! ## A metric without files -/

/-- Nothing stored and no file. -/
def Blank (s : Store) : Prop := s.dir = [] ∧ ∀ i, s.cache i = none

theorem Blank.missed {s : Store} (h : Blank s) (idx : Int) : Blank (s.missed idx) := by
  refine ⟨h.1, fun i => ?_⟩
  show (if i = idx then none else s.cache i) = none
  split
  · rfl
  · exact h.2 i

/-- The directory of a metric without files. -/
theorem Blank.newMetricP {α : Type} {s : Store} (h : Blank s) (hde : s.dirExists = true) (flt : Faults) (cfg : Cfg) (hg : GeoOk cfg.size cfg.cap) (k : Except MErr (Int × Int) → FsProg α) :
    (∃ s' H, (Rothko.newMetricP cfg (some (s.dir.map Prod.fst)) k).runF flt s = (k (.ok (1, 1))).runF flt s' ∧ (∀ ro, newMetric cfg ro s = (.ok (1, 1), s')) ∧ MInv s' [] 1 1 H (fun _ => []) []) ∨
    ((Rothko.newMetricP cfg (some (s.dir.map Prod.fst)) k).runF flt s = (k (.error .os)).runF flt (s.missed 1) ∧ ∃ c, (flt.file c).isSome = true) ∨
    (∃ s' e, (Rothko.newMetricP cfg (some (s.dir.map Prod.fst)) k).runF flt s = (k (.error .os)).runF flt s' ∧ Bricked e s' 1 1 ∧ s'.next = s.next + 1 ∧ ∃ c n, flt.file c = some (.partly n)) := by
  have hs : ({ s with dirExists := true } : Store) = s := by rw [← hde]
  have hrun : (Rothko.newMetricP cfg (some (s.dir.map Prod.fst)) k).runF flt s =
      match s.acquireF flt cfg 1 false with
      | (.error e, s') => (k (.error e)).runF flt s'
      | (.ok h, s') => (k (.ok (1, 1))).runF flt (s'.release 1 h) := by
    unfold Rothko.newMetricP
    rw [h.1]
    simp only [List.map_nil, List.foldl_nil, Bool.false_eq_true, if_false]
    rw [FsProg.runF]
    generalize Store.acquireF flt cfg s 1 false = a
    obtain ⟨e | x, s1⟩ := a
    · rfl
    · rfl
  obtain ⟨s', H, e, inv⟩ := fresh_newMetric s h.1 h.2 cfg hg true (Or.inr hde)
  have hro : ∀ ro, newMetric cfg ro s = newMetric cfg true s := by
    intro ro
    unfold newMetric
    rw [hde]
    simp
  have hplain : ∀ x s1, s.acquire cfg 1 false = (x, s1) → newMetric cfg true s = (match x with | .error e => (.error e, s1) | .ok y => (.ok (1, 1), s1.release 1 y)) := by
    intro x s1 hx
    unfold newMetric
    rw [hde]
    simp only [Bool.not_true, Bool.false_and, Bool.false_eq_true, if_false, h.1, List.map_nil, List.foldl_nil]
    rw [show ({ s with dirExists := true, dir := [] } : Store) = s by rw [← h.1, ← hde]] 
    rw [hx]
    cases x <;> rfl
  have good : s.acquireF flt cfg 1 false = s.acquire cfg 1 false →
      (Rothko.newMetricP cfg (some (s.dir.map Prod.fst)) k).runF flt s = (k (.ok (1, 1))).runF flt s' := by
    intro ha
    rw [hrun, ha]
    rcases hx : s.acquire cfg 1 false with ⟨x, s1⟩
    have hp := hplain x s1 hx
    rw [e] at hp
    cases x with
    | error e' => cases hp
    | ok y => cases hp; rfl
  rcases acquireF_false flt cfg s 1 (h.2 1) with ha | ha | ⟨n, hn, ha⟩
  · exact Or.inl ⟨s', H, good ha, fun ro => by rw [hro ro, e], inv⟩
  · by_cases hf : (flt.file s.clock).isSome = true
    · right; left
      rw [hrun, ha]
      exact ⟨rfl, s.clock, hf⟩
    · have hf : flt.file s.clock = none := by simpa using hf
      exact Or.inl ⟨s', H, good (acquireF_none flt cfg s 1 false hf), fun ro => by rw [hro ro, e], inv⟩
  · right; right
    obtain ⟨e', he⟩ := openFile_zero n
    have hno : (s.missed 1).lookup 1 = none := by
      unfold Store.lookup
      rw [(h.missed 1).1]
      rfl
    rw [hrun, ha]
    refine ⟨_, e', rfl, ?_, ?_, s.clock, n, hn⟩
    · generalize hs' : ((s.missed 1).install (.error .panic, List.replicate n 0) 1).2 = s2
      have hdir : s2.dir = [(1, s.next)] := by
        rw [← hs']
        simp only [Store.install, hno, Option.isSome_none, Bool.false_eq_true, if_false, (h.missed 1).1]
        rfl
      refine ⟨?_, by omega, ?_, ?_, ?_, s.next, ?_, ?_⟩
      · rw [← hs']; exact hde
      · rw [hdir]; simp
      · rw [hdir]; intro y hy; simp at hy; omega
      · rw [← hs']; exact (h.missed 1).2 1
      · unfold Store.lookup; rw [hdir]; rfl
      · rw [← hs']
        simp only [Store.install, hno, Option.getD_none]
        have : (s.missed 1).next = s.next := rfl
        simp only [this, if_true]
        exact he
    · simp only [Store.install, hno, Option.isSome_none, Bool.false_eq_true, if_false]
      rfl

/-! ## Writes -/

/-- How facts about the range of file numbers survive a write with faults. -/
structure KeepsF (P P' : Int → Int → Prop) (flt : Faults) (cfg : Cfg) : Prop where
  one : P 1 1
  same : ∀ f l, 1 ≤ f → f ≤ l → P f l → P' f l
  dropped : ∀ f l, 1 ≤ f → f ≤ l → P f l → l - f ≥ cfg.max ∧ cfg.max > 0 → P' (f + 1) l
  more : ∀ f l, 1 ≤ f → f ≤ l → P f l → (flt.unlink = false → ¬ (l - f ≥ cfg.max ∧ cfg.max > 0)) → P' f (l + 1)
  rotated : ∀ f l, 1 ≤ f → f ≤ l → P f l → l - f ≥ cfg.max ∧ cfg.max > 0 → P' (f + 1) (l + 1)

/-- The acknowledged values after a write. -/
def ackOf (r : WRes) (v : Val) (acc : List Val) : List Val :=
  match r with
  | .written => v :: acc
  | _ => acc

/-- What is left after a write with faults that left no useless file. -/
structure WriteLeft (P' : Int → Int → Prop) (cfg : Cfg) (v : Val) (s : Store) (acc : List Val) (r : WRes) (s' : Store) : Prop where
  inv : StInv P' s' (ackOf r v acc)
  res : r = .failed .os ∨ r = (dbWrite cfg v s).1
  later : r = .written → ∀ w ∈ acc, w.stop < v.stop

theorem FaultStep.left {P P' : Int → Int → Prop} {flt : Faults} {cfg : Cfg} {v : Val} {s : Store} {acc : List Val} {first last : Int} {H : Int → Handle} {V : Int → List Val} {d : List Val}
    (hk : KeepsF P P' flt cfg) (h1 : 1 ≤ first) (h2 : first ≤ last) (hP : P first last) {r : WRes × Store} (h : FaultStep flt cfg v s acc first last H V d r) :
    WriteLeft P' cfg v s acc r.1 r.2 ∨ (r.1 = .failed .os ∧ ∃ e f l, Bricked e r.2 f l ∧ ∃ c n, flt.file c = some (.partly n)) := by
  cases h with
  | plain r w hr =>
    left
    have hres : r.1 = (dbWrite cfg v s).1 := by rw [hr]
    cases w with
    | notLater s' w t ha hw sd inv => exact ⟨Or.inr ⟨_, _, _, _, _, inv, hk.same _ _ h1 h2 hP⟩, Or.inr hres, fun hx => by cases hx⟩
    | offByOne s' w ha hw _ _ _ sd inv => exact ⟨Or.inr ⟨_, _, _, _, _, inv, hk.same _ _ h1 h2 hP⟩, Or.inr hres, fun hx => by cases hx⟩
    | here s' hl inv => exact ⟨Or.inr ⟨_, _, _, _, _, inv, hk.same _ _ h1 h2 hP⟩, Or.inr hres, fun _ => hl⟩
    | rotate s' h2' hl first' d' hf inv =>
      refine ⟨Or.inr ⟨_, _, _, _, _, inv, ?_⟩, Or.inr hres, fun _ => hl⟩
      rcases hf with ⟨rfl, _, hx⟩ | ⟨rfl, _, hx⟩
      · exact hk.more _ _ h1 h2 hP (fun _ => hx)
      · exact hk.rotated _ _ h1 h2 hP hx
  | failed s' _ _ first' d' hf inv =>
    left
    refine ⟨Or.inr ⟨_, _, _, _, _, inv, ?_⟩, Or.inl rfl, fun hx => by cases hx⟩
    rcases hf with ⟨rfl, _⟩ | ⟨rfl, _, hx⟩
    · exact hk.same _ _ h1 h2 hP
    · exact hk.dropped _ _ h1 h2 hP hx
  | rotated s' h2' hl hw first' d' hf inv =>
    left
    refine ⟨Or.inr ⟨_, _, _, _, _, inv, ?_⟩, Or.inr hw.symm, fun _ => hl⟩
    rcases hf with ⟨rfl, _, hx⟩ | ⟨rfl, _, hx⟩
    · exact hk.more _ _ h1 h2 hP hx
    · exact hk.rotated _ _ h1 h2 hP hx
  | stuck s' e first' hb hp => exact Or.inr ⟨rfl, e, first', last + 1, hb, hp⟩

theorem MInv.newMetricP {α : Type} {s : Store} {acc : List Val} {first last : Int} {H : Int → Handle} {V : Int → List Val} {d : List Val}
    (h : MInv s acc first last H V d) (cfg : Cfg) (k : Except MErr (Int × Int) → FsProg α) : Rothko.newMetricP cfg (some (s.dir.map Prod.fst)) k = k (.ok (first, last)) := by
  have hn := h.core.dirInv.newMetric cfg false
  have hs : ({ s with dirExists := true } : Store) = s := by rw [← h.core.ex]
  unfold newMetric at hn
  rw [h.core.ex] at hn
  simp only [Bool.not_true, Bool.false_and, Bool.false_eq_true, if_false] at hn
  unfold Rothko.newMetricP
  dsimp only
  split at hn
  · rename_i hc
    rw [if_pos hc]
    have := congrArg Prod.fst hn
    simp only at this
    rw [this]
  · rename_i hc
    exfalso
    have hr := h.core.rng
    have hscan := scan_eq (s.dir.map Prod.fst) first last hr.1
      (by rw [mem_keys, h.core.lookup, if_pos ⟨by omega, hr.2⟩]; rfl)
      (by rw [mem_keys, h.core.lookup, if_pos ⟨hr.2, by omega⟩]; rfl)
      (fun x hx => by
        rw [mem_keys, h.core.lookup] at hx
        by_cases hin : first ≤ x ∧ x ≤ last
        · exact hin
        · rw [if_neg hin] at hx; cases hx)
    rw [hscan] at hc
    exact hc rfl

/-- Directory read. -/
theorem dirNames_ok (ro : Bool) (s : Store) (h : s.dirExists = true) : dirNames ro s = (some (s.dir.map Prod.fst), s) := by
  unfold dirNames
  rw [h]
  have hs : ({ s with dirExists := true } : Store) = s := by rw [← h]
  simp only [Bool.not_true, Bool.false_and, Bool.false_eq_true, if_false, hs]

/-- A directory made before. -/
theorem StInv.dir {P : Int → Int → Prop} {s : Store} {acc : List Val} (h : StInv P s acc) (b : Bool) : StInv P { s with dirExists := s.dirExists || b } acc := by
  rcases h with ⟨hd, hc, ha⟩ | ⟨first, last, H, V, d, inv, hP⟩
  · exact Or.inl ⟨hd, hc, ha⟩
  · have : ({ s with dirExists := s.dirExists || b } : Store) = s := by
      have := inv.core.ex
      obtain ⟨de, _, _, _, _, _, _⟩ := s
      simp only at this
      subst this
      rfl
    rw [this]
    exact Or.inr ⟨first, last, H, V, d, inv, hP⟩

theorem StInv.writeF {P P' : Int → Int → Prop} {s : Store} {acc : List Val} (h : StInv P s acc) (flt : Faults) (cfg : Cfg) (v : Val) (hg : GeoOk cfg.size cfg.cap)
    (hfit : needs cfg.size v.data.length ≤ cfg.cap) (hk : KeepsF P P' flt cfg) :
    WriteLeft P' cfg v s acc (dbWriteF flt cfg v s).1 (dbWriteF flt cfg v s).2 ∨
    ((dbWriteF flt cfg v s).1 = .failed .os ∧ ∃ e f l, Bricked e (dbWriteF flt cfg v s).2 f l ∧ ∃ c n, flt.file c = some (.partly n)) := by
  have weaken : ∀ {s' : Store} {a : List Val}, StInv P s' a → StInv P' s' a := by
    intro s' a h
    rcases h with h | ⟨first, last, H, V, d, inv, hP⟩
    · exact Or.inl h
    · have hr := inv.core.rng
      exact Or.inr ⟨first, last, H, V, d, inv, hk.same _ _ hr.1 hr.2 hP⟩
  unfold dbWriteF openDirF
  match hdf : flt.dir with
  | some .before => exact Or.inl ⟨weaken h, Or.inl rfl, fun hx => by cases hx⟩
  | some .after => exact Or.inl ⟨weaken (h.dir (!false)), Or.inl rfl, fun hx => by cases hx⟩
  | none =>
    dsimp only
    rcases h with ⟨hd, hc, ha⟩ | ⟨first, last, H, V, d, inv, hP⟩
    · obtain ⟨s0, hs0⟩ : ∃ s0 : Store, s0 = { s with dirExists := true } := ⟨_, rfl⟩
      have hdn : dirNames false s = (some (s0.dir.map Prod.fst), s0) := by
        unfold dirNames
        rw [hs0]
        simp
      rw [hdn]
      dsimp only
      have hblank : Blank s0 := by rw [hs0]; exact ⟨hd, hc⟩
      have hdb : dbWrite cfg v s = dbWrite cfg v s0 := by
        unfold dbWrite newMetric
        rw [hs0]
        simp
      subst ha
      rcases hblank.newMetricP (by rw [hs0]) flt cfg hg (fun x => match x with | .error e => .done (.failed e) | .ok (first, last) => writeP cfg first last v .done) with ⟨s', H, e, hn, inv⟩ | ⟨e, _⟩ | ⟨s', e', e, hb, _, hp⟩
      · have e : (dbWriteP cfg v (some (s0.dir.map Prod.fst)) .done).runF flt s0 = (writeP cfg 1 1 v .done).runF flt s' := e
        rw [e]
        have hstep := (inv.writeF flt cfg v hg hfit).left hk (by omega) (by omega) hk.one
        have hsame : dbWrite cfg v s' = dbWrite cfg v s := by
          rw [hdb]
          unfold dbWrite
          rw [hn, inv.core.dirInv.newMetric]
        rcases hstep with hl | hl
        · refine Or.inl ⟨hl.inv, ?_, hl.later⟩
          rw [← hsame]
          exact hl.res
        · exact Or.inr hl
      · have e : (dbWriteP cfg v (some (s0.dir.map Prod.fst)) .done).runF flt s0 = (.failed .os, s0.missed 1) := e
        rw [e]
        exact Or.inl ⟨Or.inl ⟨(hblank.missed 1).1, (hblank.missed 1).2, rfl⟩, Or.inl rfl, fun hx => by cases hx⟩
      · have e : (dbWriteP cfg v (some (s0.dir.map Prod.fst)) .done).runF flt s0 = (.failed .os, s') := e
        rw [e]
        exact Or.inr ⟨rfl, e', 1, 1, hb, hp⟩
    · have hr := inv.core.rng
      rw [dirNames_ok false s inv.core.ex]
      dsimp only
      unfold dbWriteP
      rw [inv.newMetricP]
      exact (inv.writeF flt cfg v hg hfit).left hk hr.1 hr.2 hP

/-! ## Queries -/

/-- A query that called back with some of the values of `L`, from the newest on, was not told to stop, and reports an error of the operating system. -/
def CutShort {σ : Type} (cb : σ → Val → σ × Cb) (L : List Val) (st : σ) (r : σ × Option MErr) : Prop :=
  ∃ L', L' <+: L ∧ (visit cb L' st).2 = .more ∧ r = ((visit cb L' st).1, some .os)

/-- What a query with faults does. -/
structure QueryLeft (P : Int → Int → Prop) {σ : Type} (flt : Faults) (cfg : Cfg) (bound : Int64) (cb : σ → Val → σ × Cb) (st : σ) (s : Store) (acc L : List Val) (r : (σ × Option MErr) × Store) : Prop where
  res : r.1 = (dbQuery cfg bound cb st s).1 ∨ CutShort cb L st r.1
  same : acc ≠ [] → SameDisk s r.2
  inv : StInv P r.2 acc ∨ ∃ e f l, Bricked e r.2 f l ∧ ∃ c n, flt.file c = some (.partly n)

theorem StInv.queryF {P : Int → Int → Prop} {s : Store} {acc : List Val} (h : StInv P s acc) (h11 : P 1 1) (cfg : Cfg) (hg : GeoOk cfg.size cfg.cap) (bound : Int64) :
    ∃ L : List Val, L.Sublist acc ∧ (∀ v ∈ L, v.stop < bound) ∧ (s.dirExists = true → ∀ (σ : Type) (cb : σ → Val → σ × Cb) (st : σ), (dbQuery cfg bound cb st s).1 = ((visit cb L st).1, (visit cb L st).2.error)) ∧
      ∀ (flt : Faults) (σ : Type) (cb : σ → Val → σ × Cb) (st : σ), QueryLeft P flt cfg bound cb st s acc L (dbQueryF flt cfg bound cb st s) := by
  have hsound := sound_of_inv h cfg hg bound
  have hdirs : ∀ (L : List Val) (flt : Faults) (df : DirFault), flt.dir = some df → ∀ (σ : Type) (cb : σ → Val → σ × Cb) (st : σ), QueryLeft P flt cfg bound cb st s acc L (dbQueryF flt cfg bound cb st s) := by
    intro L flt df hdf σ cb st
    have hs : ({ s with dirExists := s.dirExists || !true } : Store) = s := by
      obtain ⟨de, _, _, _, _, _, _⟩ := s
      cases de <;> rfl
    have : dbQueryF flt cfg bound cb st s = ((st, some .os), s) := by
      unfold dbQueryF openDirF
      rw [hdf]
      cases df with
      | before => rfl
      | after => rw [hs]
    rw [this]
    exact ⟨Or.inr ⟨[], List.nil_prefix, rfl, rfl⟩, fun _ => SameDisk.refl s, Or.inl h⟩
  cases hde : s.dirExists with
  | false =>
    obtain ⟨ha, hq⟩ := hsound.1 hde
    refine ⟨[], List.nil_sublist _, fun v hv => (by cases hv), fun hx => (by cases hx), fun flt σ cb st => ?_⟩
    cases hdf : flt.dir with
    | some df => exact hdirs [] flt df hdf σ cb st
    | none =>
      have : dbQueryF flt cfg bound cb st s = ((st, some .noDir), s) := by
        unfold dbQueryF openDirF dirNames
        rw [hdf, hde]
        rfl
      rw [this]
      exact ⟨Or.inl (by rw [hq σ cb st]), fun _ => SameDisk.refl s, Or.inl h⟩
  | true =>
    obtain ⟨L, hL, hb, _, hq⟩ := hsound.2 hde
    rcases h with ⟨hd, hc, ha⟩ | ⟨first, last, H, V, d, inv, hP⟩
    · refine ⟨L, hL, hb, fun _ => hq, fun flt σ cb st => ?_⟩
      cases hdf : flt.dir with
      | some df => exact hdirs L flt df hdf σ cb st
      | none =>
        have hblank : Blank s := ⟨hd, hc⟩
        subst ha
        have hne : ([] : List Val) ≠ [] → ∀ {p : Prop}, p := fun hx => absurd rfl hx
        have hrun : dbQueryF flt cfg bound cb st s = (dbQueryP cfg bound cb st (some (s.dir.map Prod.fst)) .done).runF flt s := by
          unfold dbQueryF openDirF
          rw [hdf]
          dsimp only
          rw [dirNames_ok true s hde]
        rw [hrun]
        rcases hblank.newMetricP hde flt cfg hg (fun x => match x with | .error e => .done (st, some e) | .ok (first, last) => readP cfg bound cb .done (last - first + 1).toNat last st)
          with ⟨s', H, e, hn, inv⟩ | ⟨e, _⟩ | ⟨s', e', e, hbr, _, hp⟩
        · have e : (dbQueryP cfg bound cb st (some (s.dir.map Prod.fst)) .done).runF flt s = (readP cfg bound cb .done 1 1 st).runF flt s' := e
          obtain ⟨s2, r, e2, sd, cok, hres⟩ := inv.core.dirInv.readF flt cfg bound cb 1 1 (by omega) (by omega) st
          rw [e, e2]
          have hvis : visible bound (filesDown (fun _ : Int => (([] : List Val), smallestEnd [])) 1 1) = [] := by
            simp [filesDown, visible, before]
          rw [hvis] at hres
          have hL0 : L = [] := List.sublist_nil.mp hL
          refine ⟨?_, fun hx => hne hx, Or.inl (Or.inr ⟨1, 1, H, _, [], inv.same sd cok, h11⟩)⟩
          rcases hres with hres | ⟨L', hL', hm, hr, _⟩
          · left
            rw [hq σ cb st, hL0, hres]
          · right
            exact ⟨L', by rw [hL0]; exact hL', hm, hr⟩
        · have e : (dbQueryP cfg bound cb st (some (s.dir.map Prod.fst)) .done).runF flt s = ((st, some .os), s.missed 1) := e
          rw [e]
          exact ⟨Or.inr ⟨[], List.nil_prefix, rfl, rfl⟩, fun hx => hne hx, Or.inl (Or.inl ⟨(hblank.missed 1).1, (hblank.missed 1).2, rfl⟩)⟩
        · have e : (dbQueryP cfg bound cb st (some (s.dir.map Prod.fst)) .done).runF flt s = ((st, some .os), s') := e
          rw [e]
          exact ⟨Or.inr ⟨[], List.nil_prefix, rfl, rfl⟩, fun hx => hne hx, Or.inr ⟨e', 1, 1, hbr, hp⟩⟩
    · refine ⟨MInv.shown V first last bound, inv.shown_sublist bound, visible_before bound _, fun _ σ cb st => inv.query cfg bound cb st, fun flt σ cb st => ?_⟩
      cases hdf : flt.dir with
      | some df => exact hdirs _ flt df hdf σ cb st
      | none =>
        have hr := inv.core.rng
        have hrun : dbQueryF flt cfg bound cb st s = (readP cfg bound cb .done (last - first + 1).toNat last st).runF flt s := by
          unfold dbQueryF openDirF
          rw [hdf]
          dsimp only
          rw [dirNames_ok true s hde]
          dsimp only
          unfold dbQueryP
          rw [inv.newMetricP]
        obtain ⟨s2, r, e2, sd, cok, hres⟩ := inv.core.dirInv.readF flt cfg bound cb (last - first + 1).toNat last (by omega) (by omega) st
        rw [hrun, e2]
        refine ⟨?_, fun _ => sd, Or.inl (Or.inr ⟨first, last, H, V, d, inv.same sd cok, hP⟩)⟩
        rcases hres with hres | ⟨L', hL', hm, hr, _⟩
        · left
          rw [inv.query]
          exact hres
        · exact Or.inr ⟨L', hL', hm, hr⟩

/-! ## Histories -/

theorem StInv.stepF {P P' : Int → Int → Prop} {s : Store} {acc : List Val} (h : StInv P s acc) (o : Op) (flt : Faults) (ho : o.Ok) (hcl : flt.Clean)
    (h11 : P 1 1) (hsame : ∀ f l, 1 ≤ f → f ≤ l → P f l → P' f l) (hk : ∀ cfg v, o = .write cfg v → KeepsF P P' flt cfg) : StInv P' (o.runF flt (s, acc)).1 (o.runF flt (s, acc)).2 := by
  have weaken : ∀ {s' : Store} {a : List Val}, StInv P s' a → StInv P' s' a := by
    intro s' a h
    rcases h with h | ⟨first, last, H, V, d, inv, hP⟩
    · exact Or.inl h
    · have hr := inv.core.rng
      exact Or.inr ⟨first, last, H, V, d, inv, hsame _ _ hr.1 hr.2 hP⟩
  cases o with
  | restart =>
    apply weaken
    rcases h with ⟨hd, hc, ha⟩ | ⟨first, last, H, V, d, inv, hP⟩
    · exact Or.inl ⟨hd, fun _ => rfl, ha⟩
    · exact Or.inr ⟨first, last, H, V, d, inv.same ⟨rfl, rfl, rfl, rfl, rfl⟩ (fun i x hx => by cases hx), hP⟩
  | query cfg bound cb =>
    apply weaken
    obtain ⟨L, _, _, _, hq⟩ := h.queryF h11 cfg ho bound
    rcases (hq flt _ (fun seen v => (seen ++ [v], cb seen v)) []).inv with hi | ⟨_, _, _, _, c, n, hp⟩
    · exact hi
    · exact absurd hp (hcl c n)
  | latest cfg =>
    apply weaken
    obtain ⟨L, _, _, _, hq⟩ := h.queryF h11 cfg ho 0x7fffffffffffffff
    rcases (hq flt _ (fun _ v => (some v, .stop)) none).inv with hi | ⟨_, _, _, _, c, n, hp⟩
    · exact hi
    · exact absurd hp (hcl c n)
  | write cfg v =>
    have hw := h.writeF flt cfg v ho.1 ho.2 (hk cfg v rfl)
    unfold Op.runF
    dsimp only
    generalize dbWriteF flt cfg v s = r at hw
    obtain ⟨r, s'⟩ := r
    rcases hw with hw | ⟨_, _, _, _, _, c, n, hp⟩
    · cases r <;> exact hw.inv
    · exact absurd hp (hcl c n)

theorem runFaults_snoc (ops : List (Op × Faults)) (o : Op × Faults) (sa : Store × List Val) : runFaults (ops ++ [o]) sa = o.1.runF o.2 (runFaults ops sa) := by
  simp [runFaults]

theorem runFaults_inv (P : Nat → Int → Int → Prop) (h11 : ∀ n, P n 1 1) (hup : ∀ n m f l, n ≤ m → P n f l → P m f l) (ops : List (Op × Faults))
    (hops : ∀ o ∈ ops, o.1.Ok ∧ o.2.Clean ∧ ∀ cfg v, o.1 = .write cfg v → ∀ n, KeepsF (P n) (P (n + if o.2.unlink then 1 else 0)) o.2 cfg) :
    ∀ (n : Nat) (s : Store) (acc : List Val), StInv (P n) s acc → StInv (P (n + keptFiles ops)) (runFaults ops (s, acc)).1 (runFaults ops (s, acc)).2 := by
  induction ops with
  | nil => intro n s acc h; exact h
  | cons o ops ih =>
    intro n s acc h
    obtain ⟨ho, hcl, hk⟩ := hops o List.mem_cons_self
    have h1 := h.stepF (P' := P (n + if o.2.unlink then 1 else 0)) o.1 o.2 ho hcl (h11 n) (fun f l _ _ hP => hup _ _ f l (by omega) hP) (fun cfg v hx => hk cfg v hx n)
    have h2 := ih (fun x hx => hops x (List.mem_cons_of_mem _ hx)) _ _ _ h1
    have hc : keptFiles (o :: ops) = (if o.2.unlink then 1 else 0) + keptFiles ops := by
      unfold keptFiles
      cases hu : o.2.unlink with
      | true => rw [List.filter_cons_of_pos (by simpa using hu)]; simp; omega
      | false => rw [List.filter_cons_of_neg (by simp [hu])]; simp
    rw [hc, ← Nat.add_assoc]
    exact h2

theorem ReachF.inv {ops : List (Op × Faults)} {s : Store} {acc : List Val} (h : ReachF ops s acc) : StInv (fun _ _ => True) s acc := by
  obtain ⟨hok, de, hit, hrun⟩ := h
  have := runFaults_inv (fun _ _ _ => True) (fun _ => trivial) (fun _ _ _ _ _ _ => trivial) ops
    (fun o ho => ⟨(hok o ho).1, (hok o ho).2, fun _ _ _ _ => ⟨trivial, fun _ _ _ _ _ => trivial, fun _ _ _ _ _ _ => trivial, fun _ _ _ _ _ _ => trivial, fun _ _ _ _ _ _ => trivial⟩⟩) 0
    (Store.fresh de hit) [] (Or.inl ⟨rfl, fun _ => rfl, rfl⟩)
  rw [hrun] at this
  exact this

/-! ## The statements -/

/-- **C99** (what was acknowledged; partial: without new files left half made, and up to files that were removed). Whatever system calls failed in the past, as long as no new data file was left half made: a query for everything (during which nothing fails) calls back with exactly the acknowledged
values, newest first and byte for byte, minus some of the oldest (those in files that were removed); the values are strictly ordered in time; the newest acknowledged value is what `QueryLatest` answers; a
later value that fits an empty file is accepted unless exactly one value has been acknowledged (C20). -/
theorem C99_kept_partial {ops : List (Op × Faults)} {s : Store} {acc : List Val} (h : ReachF ops s acc) :
    (∃ stored dropped, acc = stored ++ dropped ∧ (acc ≠ [] → stored ≠ []) ∧
      ∀ cfg bound, GeoOk cfg.size cfg.cap → (∀ v ∈ acc, v.stop < bound) →
        (queryList cfg bound (fun _ _ => .more) s).1.1 = stored ∧
        (acc ≠ [] → (queryList cfg bound (fun _ _ => .more) s).1.2 = none)) ∧
    acc.Pairwise (fun a b => b.stop < a.stop) ∧
    (∀ cfg, GeoOk cfg.size cfg.cap → ∀ w t, acc = w :: t → w.stop < 0x7fffffffffffffff → (dbQueryLatest cfg s).1 = (some w, none)) ∧
    (∀ cfg v, GeoOk cfg.size cfg.cap → needs cfg.size v.data.length ≤ cfg.cap → (∀ w ∈ acc, w.stop < v.stop) → acc.length ≠ 1 → (dbWrite cfg v s).1 = .written) := by
  refine ⟨stored_of_inv h.inv, ?_, fun cfg hg => (latest_of_inv h.inv cfg hg).1, fun cfg v hg hfit hl h1 => accepts_of_inv h.inv cfg v hg hfit hl h1⟩
  rcases h.inv with ⟨_, _, ha⟩ | ⟨_, _, _, _, _, inv, _⟩
  · rw [ha]; exact List.Pairwise.nil
  · exact inv.sorted

/-- **C99** (a write; partial). A write during which system calls fail reports their error, or it does what it would have done; and it is acknowledged only if it ends after everything acknowledged. What it leaves is described
by `C99_kept_partial` (it is one more step of the history). -/
theorem C99_write_partial {ops : List (Op × Faults)} {s : Store} {acc : List Val} (h : ReachF ops s acc) (flt : Faults) (cfg : Cfg) (v : Val) (hg : GeoOk cfg.size cfg.cap)
    (hfit : needs cfg.size v.data.length ≤ cfg.cap) :
    ((dbWriteF flt cfg v s).1 = .failed .os ∨ (dbWriteF flt cfg v s).1 = (dbWrite cfg v s).1) ∧
    ((dbWriteF flt cfg v s).1 = .written → ∀ w ∈ acc, w.stop < v.stop) ∧
    (flt.Clean → ReachF (ops ++ [(.write cfg v, flt)]) (dbWriteF flt cfg v s).2 (ackOf (dbWriteF flt cfg v s).1 v acc)) := by
  have hw := h.inv.writeF (P' := fun _ _ => True) flt cfg v hg hfit ⟨trivial, fun _ _ _ _ _ => trivial, fun _ _ _ _ _ _ => trivial, fun _ _ _ _ _ _ => trivial, fun _ _ _ _ _ _ => trivial⟩
  refine ⟨?_, ?_, fun hcl => ?_⟩
  · rcases hw with hw | hw
    · exact hw.res
    · exact Or.inl hw.1
  · rcases hw with hw | hw
    · exact hw.later
    · intro hx; rw [hw.1] at hx; cases hx
  · obtain ⟨hok, de, hit, hrun⟩ := h
    refine ⟨fun o ho => ?_, de, hit, ?_⟩
    · rcases List.mem_append.mp ho with ho | ho
      · exact hok o ho
      · rw [List.mem_singleton.mp ho]; exact ⟨⟨hg, hfit⟩, hcl⟩
    · rw [runFaults_snoc, hrun]
      unfold Op.runF ackOf
      dsimp only
      generalize dbWriteF flt cfg v s = r
      obtain ⟨r, s'⟩ := r
      cases r <;> rfl

/-- **C99** (a query; partial). A query during which system calls fail, whichever they are, answers as it would have, or it calls back with some of the values it would have called back with, from the newest on, and reports the
error; unless nothing was ever acknowledged it leaves all files as they are. -/
theorem C99_query_partial {ops : List (Op × Faults)} {s : Store} {acc : List Val} (h : ReachF ops s acc) (cfg : Cfg) (hg : GeoOk cfg.size cfg.cap) (bound : Int64) :
    ∃ L : List Val, L.Sublist acc ∧ (∀ v ∈ L, v.stop < bound) ∧
      (s.dirExists = true → ∀ (σ : Type) (cb : σ → Val → σ × Cb) (st : σ), (dbQuery cfg bound cb st s).1 = ((visit cb L st).1, (visit cb L st).2.error)) ∧
      ∀ (flt : Faults) (σ : Type) (cb : σ → Val → σ × Cb) (st : σ),
        ((dbQueryF flt cfg bound cb st s).1 = (dbQuery cfg bound cb st s).1 ∨ CutShort cb L st (dbQueryF flt cfg bound cb st s).1) ∧
        (acc ≠ [] → (dbQueryF flt cfg bound cb st s).2.dir = s.dir ∧ (dbQueryF flt cfg bound cb st s).2.disk = s.disk) := by
  obtain ⟨L, hL, hb, hq, hf⟩ := h.inv.queryF trivial cfg hg bound
  refine ⟨L, hL, hb, hq, fun flt σ cb st => ?_⟩
  have := hf flt σ cb st
  exact ⟨this.res, fun hne => ⟨(this.same hne).dir, (this.same hne).disk⟩⟩

theorem ReachF.inv_files {ops : List (Op × Faults)} {s : Store} {acc : List Val} (h : ReachF ops s acc) (max : Int) (hm : ∀ o ∈ ops, ∀ m, o.1.limit = some m → m = max) :
    StInv (fun first last => (max > 0 → last - first ≤ max + keptFiles ops) ∧ (max ≤ 0 → first = 1)) s acc := by
  obtain ⟨hok, de, hit, hrun⟩ := h
  have := runFaults_inv (fun n first last => (max > 0 → last - first ≤ max + n) ∧ (max ≤ 0 → first = 1)) (fun n => by constructor <;> omega)
    (fun n m f l hnm hP => ⟨fun hx => by have := hP.1 hx; omega, hP.2⟩) ops
    (fun o ho => ⟨(hok o ho).1, (hok o ho).2, fun cfg v hov n => by
      have hmx : cfg.max = max := hm o ho cfg.max (by rw [hov]; rfl)
      refine ⟨by constructor <;> omega, ?_, ?_, ?_, ?_⟩
      · intro f l h1 h2 hP; exact ⟨fun hx => by have := hP.1 hx; omega, hP.2⟩
      · intro f l h1 h2 hP hx; exact ⟨fun hy => by have := hP.1 hy; omega, fun hy => by omega⟩
      · intro f l h1 h2 hP hx
        refine ⟨fun hy => ?_, hP.2⟩
        have := hP.1 hy
        cases hu : o.2.unlink with
        | false => have := hx hu; simp; omega
        | true => simp; omega
      · intro f l h1 h2 hP hx; exact ⟨fun hy => by have := hP.1 hy; omega, fun hy => by omega⟩⟩) 0
    (Store.fresh de hit) [] (Or.inl ⟨rfl, fun _ => rfl, rfl⟩)
  rw [hrun, Nat.zero_add] at this
  exact this

/-- **C99** (space; partial). With a positive file limit a metric has at most limit + 1 data files, and one more for each write in which removing a file failed; without a limit nothing acknowledged is ever dropped. -/
theorem C99_files_partial {ops : List (Op × Faults)} {s : Store} {acc : List Val} (h : ReachF ops s acc) (max : Int) (hm : ∀ o ∈ ops, ∀ m, o.1.limit = some m → m = max) :
    (0 < max → (s.dir.length : Int) ≤ max + 1 + keptFiles ops) ∧
    (max ≤ 0 → ∀ cfg bound, GeoOk cfg.size cfg.cap → (∀ v ∈ acc, v.stop < bound) → (queryList cfg bound (fun _ _ => .more) s).1.1 = acc) := by
  have hinv := h.inv_files max hm
  constructor
  · intro hpos
    rcases hinv with ⟨hd, hc, ha⟩ | ⟨first, last, H, V, d, inv, hP⟩
    · rw [hd]; simp; omega
    · have hr := inv.core.rng
      rw [inv.core.count]
      have := hP.1 hpos
      omega
  · intro hneg cfg bound hg hb
    rcases hinv with ⟨hd, hc, ha⟩ | ⟨first, last, H, V, d, inv, hP⟩
    · obtain ⟨stored, dropped, e, _, hq⟩ := stored_of_inv h.inv
      rw [(hq cfg bound hg hb).1]
      rw [ha] at e ⊢
      exact (List.append_eq_nil_iff.mp e.symm).1
    · have hd : d = [] := inv.one (hP.2 hneg)
      have hq := inv.query cfg bound (fun (seen : List Val) v => (seen ++ [v], Cb.more)) []
      have hall : MInv.shown V first last bound = before bound (valuesOf V first last) := by
        apply inv.shown_all
        intro i a b hne
        obtain ⟨v, hv, e⟩ := smallestEnd_mem hne
        rw [e]; apply hb; rw [inv.eq]
        exact List.mem_append_left _ (mem_valuesOf a b hv)
      have hbef : before bound (valuesOf V first last) = valuesOf V first last := by
        unfold before
        rw [List.filter_eq_self]
        intro v hv
        simpa using hb v (by rw [inv.eq]; exact List.mem_append_left _ hv)
      rw [hall, hbef, visit_collect] at hq
      unfold queryList
      rw [hq, inv.eq, hd, List.append_nil]
      rfl

/-- A write to a metric with data: the directory cannot be opened or read, or the steps of `Write`. -/
theorem MInv.dbWriteF {s : Store} {acc : List Val} {first last : Int} {H : Int → Handle} {V : Int → List Val} {d : List Val} (inv : MInv s acc first last H V d) (flt : Faults) (cfg : Cfg) (v : Val) :
    Rothko.dbWriteF flt cfg v s = (.failed .os, s) ∨ Rothko.dbWriteF flt cfg v s = (writeP cfg first last v .done).runF flt s := by
  unfold Rothko.dbWriteF openDirF
  match hdf : flt.dir with
  | some .before => exact Or.inl rfl
  | some .after =>
    left
    have := inv.core.ex
    obtain ⟨de, _, _, _, _, _, _⟩ := s
    simp only at this
    subst this
    rfl
  | none =>
    right
    dsimp only
    rw [dirNames_ok false s inv.core.ex]
    dsimp only
    unfold dbWriteP
    rw [inv.newMetricP]

/-- **C99** (what a write drops; partial: without new files left half made). A write to a metric with data, whatever fails during it, leaves the values of its files as they are but for its own value, which is acknowledged, in
the newest file or a new one, and but for the oldest file: this can only go if there is a positive file limit and there are more files than that, whether or not the write succeeds. So failing writes do not go on removing files. -/
theorem C99_oldest_partial {ops : List (Op × Faults)} {s : Store} {acc : List Val} (h : ReachF ops s acc) (hne : acc ≠ []) (flt : Faults) (hcl : flt.Clean) (cfg : Cfg) (v : Val) (hg : GeoOk cfg.size cfg.cap)
    (hfit : needs cfg.size v.data.length ≤ cfg.cap) :
    ∃ (files : List (List Val)) (files' : List (List Val)), files.length = s.dir.length ∧ files'.length = (dbWriteF flt cfg v s).2.dir.length ∧
      (∀ bound cfg', GeoOk cfg'.size cfg'.cap → (∀ w ∈ v :: acc, w.stop < bound) →
        (queryList cfg' bound (fun _ _ => .more) s).1 = (files.flatten, none) ∧
        (queryList cfg' bound (fun _ _ => .more) (dbWriteF flt cfg v s).2).1 = (files'.flatten, none)) ∧
      (((dbWriteF flt cfg v s).1 ≠ .written ∧
          (files' = files ∨ (files' = files.dropLast ∧ (dbWriteF flt cfg v s).1 = .failed .os ∧ cfg.max > 0 ∧ (files.length : Int) > cfg.max))) ∨
       ((dbWriteF flt cfg v s).1 = .written ∧
          ((∃ f rest, files = f :: rest ∧ files' = (v :: f) :: rest) ∨
           (files' = [v] :: files ∧ (flt.unlink = false → ¬ (cfg.max > 0 ∧ (files.length : Int) > cfg.max))) ∨
           (files' = [v] :: files.dropLast ∧ cfg.max > 0 ∧ (files.length : Int) > cfg.max)))) := by
  rcases h.inv with ⟨_, _, ha⟩ | ⟨first, last, H, V, d, inv, _⟩
  · exact absurd ha hne
  · have hr := inv.core.rng
    have hlen : (filesDown V (last - first + 1).toNat last).length = s.dir.length := by rw [filesDown_length, inv.core.count]
    have same : ∀ {s' : Store}, MInv s' acc first last H V d → ∀ bound cfg', GeoOk cfg'.size cfg'.cap → (∀ w ∈ v :: acc, w.stop < bound) →
        (queryList cfg' bound (fun _ _ => .more) s).1 = ((filesDown V (last - first + 1).toNat last).flatten, none) ∧
        (queryList cfg' bound (fun _ _ => .more) s').1 = ((filesDown V (last - first + 1).toNat last).flatten, none) :=
      fun inv' bound cfg' _ hb => ⟨inv.queryAll bound cfg' (fun w hw => hb w (List.mem_cons_of_mem _ hw)), inv'.queryAll bound cfg' (fun w hw => hb w (List.mem_cons_of_mem _ hw))⟩
    have drop1 : filesDown V (last - (first + 1) + 1).toNat last = (filesDown V (last - first + 1).toNat last).dropLast := by
      rw [show (last - first + 1).toNat = (last - first).toNat + 1 by omega, filesDown_snoc, List.dropLast_concat, show last - (first + 1) + 1 = last - first by omega]
    have up : ∀ n, filesDown (upd V (last + 1) [v]) (n + 1) (last + 1) = [v] :: filesDown V n last := by
      intro n
      simp only [filesDown, upd_same]
      congr 1
      rw [show last + 1 - 1 = last by omega]
      exact filesDown_congr (fun i a b => upd_ne _ _ (by omega))
    rcases inv.dbWriteF flt cfg v with hrun | hrun
    · rw [hrun]
      exact ⟨_, _, hlen, hlen, same inv, Or.inl ⟨by simp, Or.inl rfl⟩⟩
    · have hw := inv.writeF flt cfg v hg hfit
      rw [← hrun] at hw
      generalize dbWriteF flt cfg v s = r at hw
      have newFile : ∀ {s' : Store} {h2 : Handle} (first' : Int) (d' : List Val), MInv s' (v :: acc) first' (last + 1) (upd H (last + 1) h2) (upd V (last + 1) [v]) d' →
          ((first' = first ∧ (flt.unlink = false → ¬ (last - first ≥ cfg.max ∧ cfg.max > 0))) ∨ (first' = first + 1 ∧ last - first ≥ cfg.max ∧ cfg.max > 0)) →
          ∃ (files : List (List Val)) (files' : List (List Val)), files.length = s.dir.length ∧ files'.length = s'.dir.length ∧
            (∀ bound cfg', GeoOk cfg'.size cfg'.cap → (∀ w ∈ v :: acc, w.stop < bound) →
              (queryList cfg' bound (fun _ _ => .more) s).1 = (files.flatten, none) ∧ (queryList cfg' bound (fun _ _ => .more) s').1 = (files'.flatten, none)) ∧
            ((files' = [v] :: files ∧ (flt.unlink = false → ¬ (cfg.max > 0 ∧ (files.length : Int) > cfg.max))) ∨
             (files' = [v] :: files.dropLast ∧ cfg.max > 0 ∧ (files.length : Int) > cfg.max)) := by
        intro s' h2 first' d' inv' hf
        have hr' := inv'.core.rng
        refine ⟨filesDown V (last - first + 1).toNat last, filesDown (upd V (last + 1) [v]) (last + 1 - first' + 1).toNat (last + 1), hlen, by rw [filesDown_length, inv'.core.count],
          fun bound cfg' _ hb => ⟨inv.queryAll bound cfg' (fun w hw => hb w (List.mem_cons_of_mem _ hw)), inv'.queryAll bound cfg' hb⟩, ?_⟩
        rcases hf with ⟨rfl, hx⟩ | ⟨rfl, hx⟩
        · left
          rw [filesDown_length]
          refine ⟨?_, fun hu => by have := hx hu; omega⟩
          rw [show (last + 1 - first' + 1).toNat = (last - first' + 1).toNat + 1 by omega, up]
        · right
          rw [filesDown_length]
          refine ⟨?_, by omega, by omega⟩
          rw [← drop1, show (last + 1 - (first + 1) + 1).toNat = (last - (first + 1) + 1).toNat + 1 by omega, up]
      cases hw with
      | plain r w hr' =>
        cases w with
        | notLater s' w t ha hw sd inv' => exact ⟨_, _, hlen, by rw [filesDown_length, inv'.core.count], same inv', Or.inl ⟨by simp, Or.inl rfl⟩⟩
        | offByOne s' w ha hw _ _ _ sd inv' => exact ⟨_, _, hlen, by rw [filesDown_length, inv'.core.count], same inv', Or.inl ⟨by simp, Or.inl rfl⟩⟩
        | here s' hl inv' =>
          refine ⟨filesDown V (last - first + 1).toNat last, filesDown (upd V last (v :: V last)) (last - first + 1).toNat last, hlen, by rw [filesDown_length, inv'.core.count],
            fun bound cfg' _ hb => ⟨inv.queryAll bound cfg' (fun w hw => hb w (List.mem_cons_of_mem _ hw)), inv'.queryAll bound cfg' hb⟩, Or.inr ⟨rfl, Or.inl ?_⟩⟩
          rw [show (last - first + 1).toNat = (last - first).toNat + 1 by omega]
          refine ⟨V last, filesDown V (last - first).toNat (last - 1), rfl, ?_⟩
          simp only [filesDown, upd_same]
          congr 1
          exact filesDown_congr (fun i a b => upd_ne _ _ (by omega))
        | rotate s' h2 hl first' d' hf inv' =>
          obtain ⟨f, f', h1, h2, h3, h4⟩ := newFile first' d' inv' (by
            rcases hf with ⟨a, _, b⟩ | ⟨a, _, b⟩
            · exact Or.inl ⟨a, fun _ => b⟩
            · exact Or.inr ⟨a, b⟩)
          exact ⟨f, f', h1, h2, h3, Or.inr ⟨rfl, Or.inr h4⟩⟩
      | failed s' _ _ first' d' hf inv' =>
        rcases hf with ⟨rfl, rfl⟩ | ⟨rfl, _, hx⟩
        · exact ⟨_, _, hlen, by rw [filesDown_length, inv'.core.count], same inv', Or.inl ⟨by simp, Or.inl rfl⟩⟩
        · refine ⟨filesDown V (last - first + 1).toNat last, filesDown V (last - (first + 1) + 1).toNat last, hlen, by rw [filesDown_length, inv'.core.count],
            fun bound cfg' _ hb => ⟨inv.queryAll bound cfg' (fun w hw => hb w (List.mem_cons_of_mem _ hw)), inv'.queryAll bound cfg' (fun w hw => hb w (List.mem_cons_of_mem _ hw))⟩,
            Or.inl ⟨by simp, Or.inr ⟨drop1, rfl, by omega, ?_⟩⟩⟩
          rw [filesDown_length]; omega
      | rotated s' h2 hl hw first' d' hf inv' =>
        obtain ⟨f, f', h1, h2, h3, h4⟩ := newFile first' d' inv' (by
          rcases hf with ⟨a, _, b⟩ | ⟨a, _, b⟩
          · exact Or.inl ⟨a, b⟩
          · exact Or.inr ⟨a, b⟩)
        exact ⟨f, f', h1, h2, h3, Or.inr ⟨rfl, Or.inr h4⟩⟩
      | stuck s' e first' hb hp =>
        obtain ⟨c, n, hp⟩ := hp
        exact absurd hp (hcl c n)

/-- **C99 is false without the restriction, in every state.** If a write to a metric with data fails with an error of the operating system and has made a new file (so `fallocate`, or the first `mmap`, failed: the disk is
full, say), then from then on every query of the metric fails without a single value and every write fails, whatever is done and although nothing fails any more. -/
theorem C99_full_refuted {ops : List (Op × Faults)} {s : Store} {acc : List Val} (h : ReachF ops s acc) (hne : acc ≠ []) (flt : Faults) (cfg : Cfg) (v : Val) (hg : GeoOk cfg.size cfg.cap)
    (hfit : needs cfg.size v.data.length ≤ cfg.cap) (hfail : (dbWriteF flt cfg v s).1 = .failed .os) (hnew : (dbWriteF flt cfg v s).2.next ≠ s.next) :
    ∃ e : FErr, ∀ (later : List DOp) (cfg' : Cfg), (∀ w, (dbWrite cfg' w (runD later (dbWriteF flt cfg v s).2)).1 = .failed (.file e)) ∧
      (∀ bound cb, (queryList cfg' bound cb (runD later (dbWriteF flt cfg v s).2)).1 = ([], some (.file e))) ∧
      (dbQueryLatest cfg' (runD later (dbWriteF flt cfg v s).2)).1 = (none, some (.file e)) := by
  rcases h.inv with ⟨_, _, ha⟩ | ⟨first, last, H, V, d, inv, _⟩
  · exact absurd ha hne
  · have hrun := inv.dbWriteF flt cfg v
    rcases hrun with hrun | hrun
    · rw [hrun] at hnew; exact absurd rfl hnew
    · have hw := inv.writeF flt cfg v hg hfit
      rw [← hrun] at hw
      generalize dbWriteF flt cfg v s = r at hw hfail hnew
      cases hw with
      | plain r w hr =>
        cases w <;> cases hfail
      | failed s' hn => exact absurd hn hnew
      | rotated => cases hfail
      | stuck s' e first' hb => exact ⟨e, fun later cfg' => bricked_all hb later cfg'⟩

end Rothko
