import Verif.Props.FaultShared
import Verif.Lemmas.FaultOracle
import Verif.Props.KillMore
/-!
# C112: an error of the operating system during a call, in a process with any number of goroutines, metrics and file handles
-/
namespace Rothko

section
variable {n : Nat} {d : Bytes} {progs : List (List (Bytes × FltCall))} {fs : Bytes → Store} {s : FsSys FltCall DbRes} {may : Bytes → FileFault → Prop}

theorem handlesF_reach (hn : n < 2 ^ 63) (h : FsSys.ReachF dbCallsF may (dbPath d) n progs fs s) : ∃ H ch, MayOk may ch ∧ FInv n (dbPath d) s H ∧ SimF (dbPath d) progs fs s ch :=
  finvF_reach hn (dbPath_paths d) (fun _ => ⟨rfl, rfl, rfl, rfl⟩) h

/-- **C112** (no panic). In every state that any schedule with any errors leads to, a call that is under way is finished or can go on, whatever the next system call reports: nothing that it does with the file cache panics. -/
theorem C112_never_stuck (hn : n < 2 ^ 63) (h : FsSys.ReachF dbCallsF may (dbPath d) n progs fs s) (i : Nat) (m : Bytes) (o : FltCall) (rest : List (Bytes × FltCall)) (p : FsProg DbRes)
    (hb : s.cl[i]? = some ⟨(m, o) :: rest, .busy p⟩) (flt : Option FileFault) : (∃ r, p = .done r) ∨ ∃ p' g, p.execF flt (dbPath d) m s.g = some (p', g) := by
  obtain ⟨H, ch, _, hi, hs⟩ := handlesF_reach hn h
  have hb : BusyAt s i m p := ⟨o, rest, hb⟩
  obtain ⟨h1, h2⟩ := hi.busy i m p hb
  rcases execF_ok (may := fun _ => True) flt (fun _ _ => trivial) (dbPath_paths d) hi.ok p h1 h2 (hi.exclusiveF (dbPath_paths d) hs hb) with ⟨r, e⟩ | ⟨p1, g1, _, _, e, _⟩
  · exact Or.inl ⟨r, e⟩
  · exact Or.inr ⟨p1, g1, e⟩

/-- **C112** (mapped). Whenever a call is about to look at or change the mapped bytes of a data file, the handle it does this with is one of a file of its metric that is in use: it was not closed, it is not in the cache, and it still
stands for the bytes it was made for. -/
theorem C112_mapped (hn : n < 2 ^ 63) (h : FsSys.ReachF dbCallsF may (dbPath d) n progs fs s) (i : Nat) (m : Bytes) (o : FltCall) (rest : List (Bytes × FltCall)) (p : FsProg DbRes)
    (hb : s.cl[i]? = some ⟨(m, o) :: rest, .busy p⟩) (x : FsHandle) (ht : p.Touches x) :
    ∃ idx, ⟨x.id, dbPath d m idx⟩ ∈ s.g.w.inUse ∧ (∀ f ∈ s.g.w.closed, f.id ≠ x.id) ∧ (∀ f ∈ s.g.w.cached, f.id ≠ x.id) ∧ s.g.table x.id = x.geo := by
  obtain ⟨H, ch, _, hi, hs⟩ := handlesF_reach hn h
  obtain ⟨h1, h2⟩ := hi.busy i m p ⟨o, rest, hb⟩
  obtain ⟨idx, hx⟩ := touches_held h1 ht
  have hu := h2.inUse _ hx
  have uniq : ∀ f ∈ s.g.w.opened, f.id = x.id → f = ⟨x.id, dbPath d m idx⟩ := by
    intro f hf e
    have hnd : (s.g.w.opened.map FHandle.id).Nodup := by rw [hi.ok.ids]; exact List.nodup_reverse.mpr List.nodup_range
    exact List.inj_on_of_nodup_map hnd hf ((hi.ok.places _).mpr (Or.inl hu)) e
  refine ⟨idx, hu, ?_, ?_, h2.table _ hx⟩
  · intro f hf e
    have := uniq f ((hi.ok.places f).mpr (Or.inr (Or.inr hf))) e
    subst this
    exact (hi.ok.apart _).2.1 ⟨hu, hf⟩
  · intro f hf e
    have := uniq f ((hi.ok.places f).mpr (Or.inr (Or.inl hf))) e
    subst this
    exact (hi.ok.apart _).1 ⟨hu, hf⟩

/-- **C112** (not shared). Two calls never work with the same mapping at the same time. -/
theorem C112_not_shared (hn : n < 2 ^ 63) (h : FsSys.ReachF dbCallsF may (dbPath d) n progs fs s) (i j : Nat) (m m' : Bytes) (o o' : FltCall) (rest rest' : List (Bytes × FltCall)) (p q : FsProg DbRes)
    (hb : s.cl[i]? = some ⟨(m, o) :: rest, .busy p⟩) (hb' : s.cl[j]? = some ⟨(m', o') :: rest', .busy q⟩) (hij : i ≠ j) (x y : FsHandle) (hx : p.Touches x) (hy : q.Touches y) : x.id ≠ y.id := by
  intro e
  obtain ⟨idx, h1, _⟩ := C112_mapped hn h i m o rest p hb x hx
  obtain ⟨idx', h2, _⟩ := C112_mapped hn h j m' o' rest' q hb' y hy
  obtain ⟨H, ch, _, hi, hs⟩ := handlesF_reach hn h
  have hnd : (s.g.w.opened.map FHandle.id).Nodup := by rw [hi.ok.ids]; exact List.nodup_reverse.mpr List.nodup_range
  have := List.inj_on_of_nodup_map hnd ((hi.ok.places _).mpr (Or.inl h1)) ((hi.ok.places _).mpr (Or.inl h2)) e
  injection this with _ this
  have := (dbPath_paths d _ _ _ _ this).1
  subst this
  exact hij (hs.alone ⟨o, rest, hb⟩ ⟨o', rest', hb'⟩)

/-- **C112** (closed once). No mapping is closed twice, and none is closed while a call uses it or the cache has it. -/
theorem C112_closed_once (hn : n < 2 ^ 63) (h : FsSys.ReachF dbCallsF may (dbPath d) n progs fs s) :
    (s.g.w.closed.map FHandle.id).Nodup ∧ ∀ f ∈ s.g.w.closed, f ∉ s.g.w.inUse ∧ f ∉ s.g.w.cached := by
  obtain ⟨H, ch, _, hi, hs⟩ := handlesF_reach hn h
  constructor
  · have hnd : (s.g.w.opened.map FHandle.id).Nodup := by rw [hi.ok.ids]; exact List.nodup_reverse.mpr List.nodup_range
    have := (hi.ok.cons.map FHandle.id).nodup_iff.mp hnd
    rw [List.map_append] at this
    exact (List.nodup_append.mp this).2.1
  · intro f hf
    exact ⟨fun x => (hi.ok.apart f).2.1 ⟨x, hf⟩, fun x => (hi.ok.apart f).2.2 ⟨x, hf⟩⟩

/-- Who is busy is busy with something. -/
theorem busy_callF {path : Bytes → Int → Bytes} (h : FsSys.ReachF dbCallsF may path n progs fs s) : ∀ (i : Nat) (c : Client FltCall (FsProg DbRes)) (p : FsProg DbRes), s.cl[i]? = some c → c.work = .busy p → ∃ m, BusyAt s i m p := by
  have key : ∀ (i : Nat) (c : Client FltCall (FsProg DbRes)) (p : FsProg DbRes), s.cl[i]? = some c → c.work = .busy p → ∃ m o rest, c = ⟨(m, o) :: rest, .busy p⟩ := by
    induction h with
    | init =>
      intro i c p hc hw
      have hc : (progs.map (fun p => (⟨p, .out⟩ : Client FltCall (FsProg DbRes))))[i]? = some c := hc
      rw [List.getElem?_map] at hc
      cases hp : progs[i]? with
      | none => rw [hp] at hc; cases hc
      | some q => rw [hp] at hc; injection hc with hc; rw [← hc] at hw; cases hw
    | step _ hs ih =>
      intro i c p hc hw
      cases hs with
      | mkdir m => exact ih i c p hc hw
      | close r w hw' => exact ih i c p hc hw
      | call j m o rest h1 h2 => exact ih i c p hc hw
      | done j a h1 h2 => exact ih i c p hc hw
      | enter j m o rest a h1 h2 h3 =>
        rcases client_set_cases hc with ⟨rfl, rfl⟩ | ⟨_, hc⟩
        · cases hw
        · exact ih i c p hc hw
      | finish j m o rest r a a' q h1 h2 h3 =>
        rcases client_set_cases hc with ⟨rfl, rfl⟩ | ⟨_, hc⟩
        · cases hw
        · exact ih i c p hc hw
      | first j m o rest h1 =>
        rcases client_set_cases hc with ⟨rfl, rfl⟩ | ⟨_, hc⟩
        · cases hw; exact ⟨m, o, rest, rfl⟩
        · exact ih i c p hc hw
      | work j m o rest flt q q' g h1 hmay h2 =>
        rcases client_set_cases hc with ⟨rfl, rfl⟩ | ⟨_, hc⟩
        · cases hw; exact ⟨m, o, rest, rfl⟩
        · exact ih i c p hc hw
  intro i c p hc hw
  obtain ⟨m, o, rest, rfl⟩ := key i c p hc hw
  exact ⟨m, o, rest, hc⟩

/-- **C112** (bound). At any moment, the process has at most as many mappings as the configured number of handles, two for each goroutine in the middle of a call, and those that were lost. -/
theorem C112_bound (hn : n < 2 ^ 63) (h : FsSys.ReachF dbCallsF may (dbPath d) n progs fs s) : s.g.mappings ≤ n + 2 * s.active + s.g.leaked := by
  obtain ⟨H, ch, _, hi, hs⟩ := handlesF_reach hn h
  have h1 := inUse_le hi (fun i m p hb => (hi.busy i m p hb).2.two) (busy_callF h)
  have h2 := cached_le hi.ok
  have h3 := hi.ok.cons.length_eq
  rw [List.length_append, List.length_append] at h3
  unfold FsState.mappings
  omega

/-- **C112** (rest). When no call is under way no handle is in use; if the cache is then closed, only the lost mappings are left. -/
theorem C112_rest (hn : n < 2 ^ 63) (h : FsSys.ReachF dbCallsF may (dbPath d) n progs fs s) (ha : s.active = 0) :
    s.g.w.inUse = [] ∧ ∀ r w, s.g.w.step .close = some (r, w) → ({ s.g with w } : FsState).mappings = s.g.leaked := by
  obtain ⟨H, ch, _, hi, hs⟩ := handlesF_reach hn h
  have h1 := inUse_le hi (fun i m p hb => (hi.busy i m p hb).2.two) (busy_callF h)
  rw [ha] at h1
  have h0 : s.g.w.inUse = [] := List.length_eq_zero_iff.mp (by omega)
  refine ⟨h0, fun r w hw => ?_⟩
  obtain ⟨r', w', e, ok', e1, e2, e3⟩ := close_shape hi.ok
  rw [hw] at e
  injection e with e
  injection e with _ e
  subst e
  have := ok'.cons.length_eq
  rw [e2, h0, e3] at this
  unfold FsState.mappings
  dsimp only
  rw [this]
  simp

/-! ## Lost mappings -/

theorem keep_failing (p : FsProg DbRes) (h : p.failing = true) : p.keep.failing = true := by
  induction p with
  | done a => exact h
  | release idx x k ih => exact ih h
  | _ => cases h

theorem keep_blunt (p : FsProg DbRes) (h : p.Blunt) : p.keep.Blunt := by
  induction p with
  | done a => trivial
  | acquire cfg idx ex k ih => exact ⟨fun e => keep_failing _ (h.1 e), fun e => ih _ (h.2.1 e), fun x => ih _ (h.2.2 x)⟩
  | release idx x k ih => exact ih h
  | evict idx k ih => exact ih h
  | remove idx k ih => exact ih h
  | load x k ih => exact fun f => ih f (h f)
  | store x head v f k ih => exact ih h

theorem callsF_blunt (o : FltCall) (names : Except MErr (Option (List Int))) : (dbCallsF.body o names).Blunt := by
  cases names with
  | error e => trivial
  | ok names =>
    show FsProg.Blunt (if o.unlink then (dbCalls.body o.call names).keep else dbCalls.body o.call names)
    split
    · exact keep_blunt _ (calls_blunt o.call names)
    · exact calls_blunt o.call names

theorem execF_leaks {p p' : FsProg DbRes} {flt : Option FileFault} {path : Bytes → Int → Bytes} {m : Bytes} {g g' : FsState} (hp : p.Blunt) (h : p.execF flt path m g = some (p', g')) :
    p'.Blunt ∧ (g'.leaked = g.leaked ∧ (p.failing = true → p'.failing = true) ∨ g'.leaked ≤ g.leaked + 1 ∧ p.failing = false ∧ p'.failing = true) := by
  cases p with
  | done a => cases h
  | acquire cfg idx ex k =>
    rw [FsProg.execF] at h
    split at h
    · cases h
    · split at h
      · cases h; exact ⟨hp.2.2 _, Or.inl ⟨rfl, fun e => by cases e⟩⟩
      · split at h
        · cases h
        · cases h; exact ⟨hp.2.2 _, Or.inl ⟨rfl, fun e => by cases e⟩⟩
    · split at h
      · cases h
      · rename_i e s' he
        cases h
        refine ⟨hp.2.1 _, ?_⟩
        cases flt with
        | some f => exact Or.inl ⟨rfl, fun e => by cases e⟩
        | none =>
          cases hm : mapsAt cfg (g.fs m) idx ex
          · exact Or.inl ⟨rfl, fun e => by cases e⟩
          · obtain ⟨fe, rfl⟩ := mapped_error hm he
            exact Or.inr ⟨Nat.le_refl _, rfl, hp.1 _⟩
  | release idx x k =>
    rw [FsProg.execF] at h
    split at h
    · cases h
    · cases h; exact ⟨hp, Or.inl ⟨rfl, fun e => e⟩⟩
  | evict idx k =>
    rw [FsProg.execF] at h
    split at h
    · cases h
    · cases h; exact ⟨hp, Or.inl ⟨rfl, fun e => by cases e⟩⟩
  | remove idx k => cases h; exact ⟨hp, Or.inl ⟨rfl, fun e => by cases e⟩⟩
  | load x k => cases h; exact ⟨hp _, Or.inl ⟨rfl, fun e => by cases e⟩⟩
  | store x head v f k => cases h; exact ⟨hp, Or.inl ⟨rfl, fun e => by cases e⟩⟩

theorem leakF_inv {path : Bytes → Int → Bytes} (h : FsSys.ReachF dbCallsF may path n progs fs s) :
    (∀ (i : Nat) (c : Client FltCall (FsProg DbRes)) (p : FsProg DbRes), s.cl[i]? = some c → c.work = .busy p → p.Blunt) ∧ s.g.leaked ≤ s.log.countP (fun e => e.2.2.2.broken) + s.cl.countP isFailing := by
  induction h with
  | init =>
    refine ⟨?_, Nat.zero_le _⟩
    intro i c p hc hw
    have hc : (progs.map (fun p => (⟨p, .out⟩ : Client FltCall (FsProg DbRes))))[i]? = some c := hc
    rw [List.getElem?_map] at hc
    cases hp : progs[i]? with
    | none => rw [hp] at hc; cases hc
    | some q => rw [hp] at hc; injection hc with hc; rw [← hc] at hw; cases hw
  | step _ hs ih =>
    obtain ⟨ih1, ih2⟩ := ih
    cases hs with
    | mkdir m => exact ⟨ih1, ih2⟩
    | close r w hw' => exact ⟨ih1, ih2⟩
    | call j m o rest h1 h2 => exact ⟨ih1, ih2⟩
    | done j a h1 h2 => exact ⟨ih1, ih2⟩
    | enter j m o rest a h1 h2 h3 =>
      refine ⟨fun i c p hc hw => ?_, ?_⟩
      · rcases client_set_cases hc with ⟨rfl, rfl⟩ | ⟨_, hc⟩
        · cases hw
        · exact ih1 i c p hc hw
      · have := countP_set_of (p := isFailing) (⟨(m, o) :: rest, .begin⟩ : Client FltCall (FsProg DbRes)) h3
        have e1 : isFailing (⟨(m, o) :: rest, .begin⟩ : Client FltCall (FsProg DbRes)) = false := rfl
        have e2 : isFailing (⟨(m, o) :: rest, .out⟩ : Client FltCall (FsProg DbRes)) = false := rfl
        rw [e1, e2] at this
        dsimp only
        simp only [Bool.false_eq_true, if_false] at this
        omega
    | finish j m o rest r a a' q h1 h2 h3 =>
      refine ⟨fun i c p hc hw => ?_, ?_⟩
      · rcases client_set_cases hc with ⟨rfl, rfl⟩ | ⟨_, hc⟩
        · cases hw
        · exact ih1 i c p hc hw
      · have := countP_set_of (p := isFailing) (⟨rest, .out⟩ : Client FltCall (FsProg DbRes)) h1
        have e1 : isFailing (⟨(m, o) :: rest, .busy (.done r)⟩ : Client FltCall (FsProg DbRes)) = r.broken := rfl
        have e2 : isFailing (⟨rest, .out⟩ : Client FltCall (FsProg DbRes)) = false := rfl
        rw [e1, e2] at this
        dsimp only
        rw [List.countP_append, List.countP_singleton]
        dsimp only
        generalize (if r.broken = true then 1 else 0) = e at this ⊢
        simp only [Bool.false_eq_true, if_false] at this
        omega
    | first j m o rest h1 =>
      refine ⟨fun i c p hc hw => ?_, ?_⟩
      · rcases client_set_cases hc with ⟨rfl, rfl⟩ | ⟨_, hc⟩
        · cases hw; exact callsF_blunt o _
        · exact ih1 i c p hc hw
      · have := countP_set_of (p := isFailing) (⟨(m, o) :: rest, .busy (dbCallsF.body o (openDirF (dbCallsF.dir o) (dbCallsF.ro o) (FsState.fs (FsSys.g ‹_›) m)).1)⟩ : Client FltCall (FsProg DbRes)) h1
        have e2 : isFailing (⟨(m, o) :: rest, .begin⟩ : Client FltCall (FsProg DbRes)) = false := rfl
        rw [e2] at this
        dsimp only [FsState.setFs]
        simp only [Bool.false_eq_true, if_false] at this
        omega
    | work j m o rest flt q q' g h1 hmay h2 =>
      obtain ⟨x1, x2⟩ := execF_leaks (ih1 j _ q h1 rfl) h2
      refine ⟨fun i c p hc hw => ?_, ?_⟩
      · rcases client_set_cases hc with ⟨rfl, rfl⟩ | ⟨_, hc⟩
        · cases hw; exact x1
        · exact ih1 i c p hc hw
      · have := countP_set_of (p := isFailing) (⟨(m, o) :: rest, .busy q'⟩ : Client FltCall (FsProg DbRes)) h1
        have e1 : isFailing (⟨(m, o) :: rest, .busy q⟩ : Client FltCall (FsProg DbRes)) = q.failing := rfl
        have e2 : isFailing (⟨(m, o) :: rest, .busy q'⟩ : Client FltCall (FsProg DbRes)) = q'.failing := rfl
        rw [e1, e2] at this
        dsimp only
        rcases x2 with ⟨y1, y2⟩ | ⟨y1, y2, y3⟩
        · cases hq : q.failing
          · rw [hq] at this
            simp only [Bool.false_eq_true, if_false] at this
            omega
          · rw [hq, y2 hq] at this
            omega
        · rw [y2, y3] at this
          simp only [Bool.false_eq_true, if_false, if_true] at this
          omega

/-- **C112** (lost mappings). An error that the operating system reports loses no mapping: a mapping is lost only by a call that fails because of what is in a data file (or because of the configured sizes), at most one by each. -/
theorem C112_lost (hn : n < 2 ^ 63) (h : FsSys.ReachF dbCallsF may (dbPath d) n progs fs s) :
    s.g.leaked ≤ s.log.countP (fun e => e.2.2.2.broken) + s.active ∧
    (s.active = 0 → (∀ e ∈ s.log, e.2.2.2.broken = false) → s.g.mappings ≤ n) := by
  have h1 := (leakF_inv h).2
  have h2 : s.cl.countP isFailing ≤ s.active := by
    rw [active_count]
    refine List.countP_mono_left ?_
    intro c _ hc
    unfold isFailing at hc
    unfold isBusy
    split at hc
    · rename_i p e; rw [e]
    · cases hc
  refine ⟨by omega, fun ha hf => ?_⟩
  have h3 := C112_bound hn h
  have h4 : s.log.countP (fun e => e.2.2.2.broken) = 0 := by
    rw [List.countP_eq_zero]
    intro e he
    rw [hf e he]
    decide
  omega

theorem fsF_log_lt {path : Bytes → Int → Bytes} (h : FsSys.ReachF dbCallsF may path n progs fs s) : ∀ e ∈ s.log, e.1 < progs.length := by
  induction h with
  | init => intro e he; cases he
  | @step s1 s2 hr1 hst ih =>
    have hl : s1.cl.length = progs.length := by
      clear hst ih
      induction hr1 with
      | init => show (progs.map _).length = _; rw [List.length_map]
      | step _ hs ih => cases hs <;> first | exact ih | (show (List.set _ _ _).length = _; rw [List.length_set]; exact ih)
    intro e he
    cases hst with
    | finish j m o rest r a a' q h1 h2 h3 =>
      rcases List.mem_append.mp he with he | he
      · exact ih e he
      · rw [List.mem_singleton.mp he, ← hl]
        exact (List.getElem?_eq_some_iff.mp h1).1
    | _ => exact ih e he

/-! ## The results -/

/-- What a finished call did, without what the system did to it. -/
def plain (e : Nat × FltCall × DbRes) : Nat × DbCall × DbRes := (e.1, e.2.1.call, e.2.2)

theorem serialF_pair {s0 : Store × Oracles} {evs : List (Option (Nat × FltCall × DbRes))} {t : Store × Oracles} (h : Serial fsRunF mkdirFsF s0 evs t) : Serial (FltCall.run s0.2.2) mkdirEnv s0.1 evs t.1 ∧ t.2 = s0.2 := by
  induction h with
  | nil => exact ⟨.nil, rfl⟩
  | op i o r _ e ih =>
    unfold fsRunF at e
    injection e with e1 e2
    refine ⟨.op i o r ih.1 ?_, by rw [← e2]; exact ih.2⟩
    rw [← e2, ← e1, ih.2]
  | env _ ih => exact ⟨.env ih.1, ih.2⟩

/-- **C112** (the calls of Model/Fault). Whatever the schedule, the number of goroutines and metrics, the evictions from the file cache and the errors of the operating system: the calls finished on a metric have the results they would
have one after the other on that metric alone in Model/Fault, in the order in which they finished, each with its own errors; which lookups of files fail is `file`, and it has only failures that are possible for *this* metric. -/
theorem C112_serial (hn : n < 2 ^ 63) (h : FsSys.ReachF dbCallsF may (dbPath d) n progs fs s) (k : Bytes) (hq : s.quiet k) (base : Store) (hb : SameFs (fs k) base) :
    ∃ (hit : Nat → Bool) (file : Nat → Option FileFault) (evs : List (Option (Nat × FltCall × DbRes))) (t : Store), (∀ i, i < base.clock → hit i = base.hit i) ∧ (∀ i f, file i = some f → may k f) ∧
      Serial (FltCall.run file) mkdirEnv ({ base.reopen with hit }) evs t ∧ evs.filterMap id = s.finished k ∧ SameFs (s.g.fs k) t := by
  obtain ⟨H, ch, hm, hi, hs⟩ := finvF_reach (base := fun k' => if k' = k then base else fs k') hn (dbPath_paths d) (fun k' => by
    split
    · rename_i e; rw [e]; exact hb
    · exact ⟨rfl, rfl, rfl, rfl⟩) h
  obtain ⟨hits, ids, he, hold, hmay⟩ := extendsF_some (fun k' => if k' = k then base else fs k') ch (fun _ => base.hit)
  obtain ⟨st, hr, hk⟩ := hs hits ids he
  obtain ⟨evs, h1, h2⟩ := C59_serial fsMachineF_implements fsMachineF_settled hr k (fun i o rest l => hq i o rest l)
  have h1 := (serialF_pair h1).1
  refine ⟨hits k, (ids k).2, evs, _, ?_, fun i f hf => hmay may hm k i f hf, ?_, h2, (hk k).1⟩
  · intro i hi
    refine hold k i ?_
    show i < (if k = k then base else fs k).clock
    rw [if_pos rfl]
    exact hi
  · have h1 : Serial (FltCall.run (ids k).2) mkdirEnv (startOf (if k = k then base else fs k) (hits k)) evs (st k).1 := h1
    rw [if_pos rfl] at h1
    exact h1

theorem finishedF_mem (hn : n < 2 ^ 63) (h : FsSys.ReachF dbCallsF may (dbPath d) n progs fs s) (k : Bytes) (e : Nat × FltCall × DbRes) (he : e ∈ s.finished k) : ∃ p ∈ progs, (k, e.2.1) ∈ p := by
  obtain ⟨H, ch, _, hi, hs⟩ := handlesF_reach hn h
  obtain ⟨hits, ids, hext, _, _⟩ := extendsF_some fs ch (fun _ _ => false)
  obtain ⟨st, hr, _⟩ := hs hits ids hext
  unfold FsSys.finished at he
  obtain ⟨⟨i, k', o, r⟩, hm, rfl⟩ := List.mem_map.mp he
  obtain ⟨hm2, hk⟩ := List.mem_filter.mp hm
  have hk : k' = k := of_decide_eq_true hk
  subst hk
  have hlen : i < progs.length := fsF_log_lt h (i, k', o, r) hm2
  obtain ⟨rest, e⟩ := C59_order fsMachineF_implements fsMachineF_settled hr i progs[i] (List.getElem?_eq_getElem hlen)
  refine ⟨progs[i], List.getElem_mem hlen, ?_⟩
  rw [← e]
  exact List.mem_append_left _ (List.mem_map.mpr ⟨(i, k', o, r), List.mem_filter.mpr ⟨hm2, by simp⟩, rfl⟩)

theorem runF_fine {file : Nat → Option FileFault} (hf : ∀ i, file i = none) {o : FltCall} (ho : o.Fine) (s : Store) : o.run file s = o.call.run s := by
  obtain ⟨call, dir, unlink⟩ := o
  obtain ⟨h1, h2⟩ := ho
  have e : (⟨dir, file, unlink⟩ : Faults) = Faults.none := by
    have : file = fun _ => none := funext hf
    rw [this]
    cases h1; cases h2
    rfl
  show call.runF ⟨dir, file, unlink⟩ s = call.run s
  rw [e]
  cases call with
  | write cfg v => unfold DbCall.runF DbCall.run; dsimp only; rw [(C99_none cfg s).1 v]
  | query cfg b cb => unfold DbCall.runF DbCall.run; dsimp only; rw [(C99_none cfg s).2.1]; rfl
  | latest cfg => unfold DbCall.runF DbCall.run; dsimp only; rw [(C99_none cfg s).2.2]

theorem filterMap_plain (evs : List (Option (Nat × FltCall × DbRes))) : (evs.map (Option.map plain)).filterMap id = (evs.filterMap id).map plain := by
  induction evs with
  | nil => rfl
  | cons e evs ih => cases e with
    | none => exact ih
    | some e => exact congrArg (plain e :: ·) ih

theorem serialF_fine {file : Nat → Option FileFault} (hf : ∀ i, file i = none) {s0 t : Store} {evs : List (Option (Nat × FltCall × DbRes))} (h : Serial (FltCall.run file) mkdirEnv s0 evs t)
    (hok : ∀ e ∈ evs.filterMap id, e.2.1.Fine) : Serial DbCall.run mkdirEnv s0 (evs.map (Option.map plain)) t := by
  induction h with
  | nil => exact .nil
  | op i o r h1 e ih =>
    rw [List.filterMap_append] at hok
    rw [List.map_append]
    refine .op i o.call r (ih (fun e he => hok e (List.mem_append_left _ he))) ?_
    rw [← e]
    exact (runF_fine hf (hok (i, o, r) (by simp)) _).symm
  | env h1 ih =>
    rw [List.filterMap_append] at hok
    rw [List.map_append]
    exact .env (ih (fun e he => hok e (List.mem_append_left _ he)))

/-- **C112** (other metrics). If no system call fails for one metric, then whatever fails for the others, the calls on it have the results, and leave the files, that they would have one after the other in Model/Metric: no failure is felt
by another metric. -/
theorem C112_spared (hn : n < 2 ^ 63) (h : FsSys.ReachF dbCallsF may (dbPath d) n progs fs s) (k : Bytes) (hq : s.quiet k) (hmay : ∀ f, ¬ may k f) (hfine : ∀ p ∈ progs, ∀ c ∈ p, c.1 = k → c.2.Fine) (base : Store)
    (hb : SameFs (fs k) base) :
    ∃ (hit : Nat → Bool) (evs : List (Option (Nat × DbCall × DbRes))) (t : Store), (∀ i, i < base.clock → hit i = base.hit i) ∧
      Serial DbCall.run mkdirEnv ({ base.reopen with hit }) evs t ∧ evs.filterMap id = (s.finished k).map plain ∧ SameFs (s.g.fs k) t := by
  obtain ⟨hit, file, evs, t, h1, h2, h3, h4, h5⟩ := C112_serial hn h k hq base hb
  have hf : ∀ i, file i = none := by
    intro i
    cases e : file i with
    | none => rfl
    | some f => exact absurd (h2 i f e) (hmay f)
  refine ⟨hit, evs.map (Option.map plain), t, h1, serialF_fine hf h3 ?_, by rw [filterMap_plain, h4], h5⟩
  rw [h4]
  intro e he
  obtain ⟨p, hp, hc⟩ := finishedF_mem hn h k e he
  exact hfine p hp _ hc rfl

/-! ## Histories -/

/-- The directory and files of a metric are those that some history left in which system calls failed (but no data file was left half made), with the file limit `max`; in at most `kept` calls removing files failed. -/
def AfterFaults (s : Store) (acc : List Val) (max : Int) (kept : Nat) : Prop :=
  ∃ ops t, SameFs s t ∧ ReachF ops t acc ∧ (∀ o ∈ ops, ∀ m, o.1.limit = some m → m = max) ∧ keptFiles ops ≤ kept

theorem keptFiles_snoc (ops : List (Op × Faults)) (o : Op × Faults) : keptFiles (ops ++ [o]) = keptFiles ops + (if o.2.unlink then 1 else 0) := by
  unfold keptFiles
  rw [List.filter_append, List.length_append]
  cases h : o.2.unlink <;> simp [h]

theorem serialF_reach {file : Nat → Option FileFault} (hcl : ∀ i k, file i ≠ some (.partly k)) {ops : List (Op × Faults)} {s0 t : Store} {acc : List Val} {max : Int} (h0 : ReachF ops s0 acc)
    (hlim : ∀ o ∈ ops, ∀ m, o.1.limit = some m → m = max) {evs : List (Option (Nat × FltCall × DbRes))} (h : Serial (FltCall.run file) mkdirEnv s0 evs t)
    (hok : ∀ e ∈ evs.filterMap id, e.2.1.call.Ok ∧ ∀ m, e.2.1.call.toOp.limit = some m → m = max) :
    ∃ ops', ReachF ops' t ((ackd ((evs.filterMap id).map plain)).reverse ++ acc) ∧ (∀ o ∈ ops', ∀ m, o.1.limit = some m → m = max) ∧
      keptFiles ops' = keptFiles ops + (evs.filterMap id).countP (fun e => e.2.1.unlink) := by
  induction h with
  | nil => exact ⟨ops, h0, hlim, rfl⟩
  | op i o r h1 hf ih =>
    rw [List.filterMap_append] at hok ⊢
    obtain ⟨ops', r1, r2, r3⟩ := ih (fun e he => hok e (List.mem_append_left _ he))
    obtain ⟨hoo, hom⟩ := hok (i, o, r) (by simp)
    have hop : o.call.toOp.Ok := by cases hcc : o.call <;> (rw [hcc] at hoo; exact hoo)
    refine ⟨ops' ++ [(o.call.toOp, ⟨o.dir, file, o.unlink⟩)], ?_, ?_, ?_⟩
    · refine r1.snoc _ _ hop hcl ?_
      rw [runF_toOp o.call _ _ _ i]
      have hf : o.call.runF ⟨o.dir, file, o.unlink⟩ _ = _ := hf
      rw [hf, List.map_append, ackd_append, List.reverse_append, List.append_assoc]
      have e2 : (ackd (([some (i, o, r)].filterMap id).map plain)).reverse = ackd [(i, o.call, r)] := by
        show (ackd [(i, o.call, r)]).reverse = _
        cases o.call with
        | write cfg v => cases r with
          | write w => cases w <;> rfl
          | query => rfl
          | latest => rfl
        | query => rfl
        | latest => rfl
      rw [e2]
    · intro x hx m hm
      rcases List.mem_append.mp hx with hx | hx
      · exact r2 x hx m hm
      · rw [List.mem_singleton.mp hx] at hm; exact hom m hm
    · rw [keptFiles_snoc, r3, List.countP_append]
      show _ + (if o.unlink = true then 1 else 0) = _ + (_ + List.countP _ [(i, o, r)])
      rw [List.countP_singleton, Nat.add_assoc]
  | env h1 ih =>
    rw [List.filterMap_append] at hok ⊢
    obtain ⟨ops', r1, r2, r3⟩ := ih (fun e he => hok e (List.mem_append_left _ he))
    have e2 : ([none] : List (Option (Nat × FltCall × DbRes))).filterMap id = [] := rfl
    rw [e2, List.append_nil]
    refine ⟨_, r1.mkdir max, ?_, by rw [keptFiles_snoc, r3]; rfl⟩
    intro x hx m hm
    rcases List.mem_append.mp hx with hx | hx
    · exact r2 x hx m hm
    · rw [List.mem_singleton.mp hx] at hm; exact (Option.some.inj hm).symm

/-- **C112** (histories). If the files of a metric were left by a history in which system calls failed (a metric without files was), then after any number of calls by any number of goroutines on all metrics, during which system calls
fail in any way but leave no new file of this metric half made, they are again, and the values acknowledged since are in it, in the order in which the calls finished. So what C99 says holds in a process, and in one started after it. -/
theorem C112_history (hn : n < 2 ^ 63) (h : FsSys.ReachF dbCallsF may (dbPath d) n progs fs s) (k : Bytes) (hmay : ∀ b, ¬ may k (.partly b)) (max : Int)
    (hok : ∀ p ∈ progs, ∀ c ∈ p, c.1 = k → c.2.call.Ok ∧ ∀ m, c.2.call.toOp.limit = some m → m = max) (acc : List Val) (kept : Nat) (h0 : AfterFaults (fs k) acc max kept) (hq : s.quiet k) :
    AfterFaults (s.g.fs k) ((ackd ((s.finished k).map plain)).reverse ++ acc) max (kept + (s.finished k).countP (fun e => e.2.1.unlink)) := by
  obtain ⟨ops, t0, hsame, hr0, hlim, hkept⟩ := h0
  obtain ⟨hit, file, evs, t, e1, e2, e3, e4, e5⟩ := C112_serial hn h k hq t0 hsame
  have hr1 : ReachF (ops ++ [(.restart, Faults.none)]) (t0.withHit hit).reopen acc := (hr0.oracle hit e1).snoc .restart Faults.none trivial (fun _ _ e => by cases e) rfl
  obtain ⟨ops', r1, r2, r3⟩ := serialF_reach (max := max) (fun i b e => hmay b (e2 i _ e)) hr1 (by
    intro x hx m hm
    rcases List.mem_append.mp hx with hx | hx
    · exact hlim x hx m hm
    · rw [List.mem_singleton.mp hx] at hm; cases hm) e3 (by
    rw [e4]
    intro e he
    obtain ⟨p, hp, hc⟩ := finishedF_mem hn h k e he
    exact hok p hp _ hc rfl)
  rw [e4] at r1 r3
  refine ⟨ops', t, e5, r1, r2, ?_⟩
  rw [r3, keptFiles_snoc]
  show keptFiles ops + 0 + _ ≤ _
  omega

theorem MInv.stored_query {s : Store} {acc : List Val} {first last : Int} {H : Int → Handle} {V : Int → List Val} {dr : List Val} (inv : MInv s acc first last H V dr) (cfg : Cfg) (bound : Int64) (hb : ∀ v ∈ acc, v.stop < bound) :
    (queryList cfg bound (fun _ _ => .more) s).1 = (valuesOf V first last, none) := by
  have hq := inv.query cfg bound (fun (seen : List Val) v => (seen ++ [v], Cb.more)) []
  have hall : MInv.shown V first last bound = before bound (valuesOf V first last) := by
    apply inv.shown_all
    intro i a b hne
    obtain ⟨v, hv, e⟩ := smallestEnd_mem hne
    rw [e]; apply hb; rw [inv.eq]
    exact List.mem_append_left _ (mem_valuesOf a b hv)
  have hbef : before bound (valuesOf V first last) = valuesOf V first last := by
    unfold before
    rw [List.filter_eq_self]
    intro v hv
    simpa using hb v (by rw [inv.eq]; exact List.mem_append_left _ hv)
  rw [hall, hbef, visit_collect] at hq
  unfold queryList
  rw [hq]
  rfl

/-- What a process finds that starts on the files a history left in which system calls failed. -/
theorem afterFaults_kept {f : Store} {acc : List Val} {max : Int} {kept : Nat} (h : AfterFaults f acc max kept) :
    (∃ stored dropped, acc = stored ++ dropped ∧ (acc ≠ [] → stored ≠ []) ∧ (max ≤ 0 → dropped = []) ∧
      ∀ u, SameFs u f → (∀ i, u.cache i = none) →
        (∀ cfg bound, GeoOk cfg.size cfg.cap → (∀ v ∈ acc, v.stop < bound) →
          (queryList cfg bound (fun _ _ => .more) u).1.1 = stored ∧ (acc ≠ [] → (queryList cfg bound (fun _ _ => .more) u).1.2 = none)) ∧
        (∀ cfg, GeoOk cfg.size cfg.cap → ∀ w t, acc = w :: t → w.stop < 0x7fffffffffffffff → (dbQueryLatest cfg u).1 = (some w, none))) ∧
    (0 < max → (f.dir.length : Int) ≤ max + 1 + kept) := by
  obtain ⟨ops, t, hs, hr, hlim, hk⟩ := h
  have hinv := hr.inv_files max hlim
  have hsame : ∀ u, SameFs u f → SameFs u t := fun u hu => ⟨hu.1.trans hs.1, hu.2.trans hs.2, hu.3.trans hs.3, hu.4.trans hs.4⟩
  have hlast : ∀ u, SameFs u f → (∀ i, u.cache i = none) → ∀ cfg, GeoOk cfg.size cfg.cap → ∀ w r, acc = w :: r → w.stop < 0x7fffffffffffffff → (dbQueryLatest cfg u).1 = (some w, none) :=
    fun u hu hc cfg hg => (latest_of_inv (hinv.oracle (hsame u hu) hc) cfg hg).1
  constructor
  · rcases hinv with ⟨hd, hc, ha⟩ | ⟨first, last, H, V, dr, inv, hP⟩
    · refine ⟨[], [], by rw [ha]; rfl, fun h => absurd ha h, fun _ => rfl, fun u hu huc => ⟨fun cfg bound hg hb => ?_, hlast u hu huc⟩⟩
      have hud : StInv (fun _ _ => True) u acc := Or.inl ⟨by rw [(hsame u hu).dir]; exact hd, huc, ha⟩
      obtain ⟨stored, dropped, e, _, hq⟩ := stored_of_inv hud
      rw [ha] at e
      refine ⟨?_, fun h => absurd ha h⟩
      rw [(hq cfg bound hg hb).1]
      exact (List.append_eq_nil_iff.mp e.symm).1
    · refine ⟨valuesOf V first last, dr, inv.eq, ?_, fun hx => inv.one (hP.2 hx), fun u hu huc => ⟨fun cfg bound hg hb => ?_, hlast u hu huc⟩⟩
      · intro hne hst
        cases hV : V last with
        | nil => exact hne (inv.empty hV)
        | cons w ws =>
          have := mem_valuesOf (V := V) inv.core.rng.2 (Int.le_refl last) (v := w) (by rw [hV]; simp)
          rw [hst] at this; cases this
      · have h1 := inv.core
        have hst := hsame u hu
        have iu : MInv u acc first last H V dr := by
          refine ⟨⟨by rw [hst.dirExists]; exact h1.ex, h1.rng, fun i => ?_, fun i a b => ?_, fun i x hx => (by rw [huc] at hx; cases hx), by rw [hst.dir]; exact h1.count, by rw [hst.dir]; exact h1.nodup, h1.inj,
            fun i a b => by rw [hst.next]; exact h1.fresh i a b⟩, inv.ne, inv.eq, inv.one, inv.empty, inv.sorted⟩
          · have := h1.lookup i
            unfold Store.lookup at this ⊢
            rw [hst.dir]; exact this
          · have := h1.rep i a b
            unfold Store.file at this ⊢
            rw [hst.disk]; exact this
        rw [iu.stored_query cfg bound hb]
        exact ⟨rfl, fun _ => rfl⟩
  · intro hpos
    rw [hs.dir]
    have := (C99_files_partial hr max hlim).1 hpos
    omega

/-- A metric without files. -/
theorem afterFaults_empty (de : Bool) (max : Int) : AfterFaults (Store.fresh de (fun _ => false)) [] max 0 :=
  ⟨[], _, ⟨rfl, rfl, rfl, rfl⟩, ⟨fun o ho => (by cases ho), de, _, rfl⟩, fun o ho => (by cases ho), Nat.le_refl _⟩

/-- **C112** (what is kept). At any moment at which no call is at work on a metric, a process that starts then finds in its files exactly the values acknowledged so far but some of the oldest, newest first and unchanged, without an error; some value
is left if one was acknowledged; the newest one is what `QueryLatest` reports; with a positive file limit there are at most limit + 1 data files and one more for each call in which removing failed; without a limit every acknowledged value is
there. This holds whatever system calls failed in whatever schedule, as long as no new data file of this metric was left half made. -/
theorem C112_kept (hn : n < 2 ^ 63) (h : FsSys.ReachF dbCallsF may (dbPath d) n progs fs s) (k : Bytes) (hmay : ∀ b, ¬ may k (.partly b)) (max : Int)
    (hok : ∀ p ∈ progs, ∀ c ∈ p, c.1 = k → c.2.call.Ok ∧ ∀ m, c.2.call.toOp.limit = some m → m = max) (de : Bool) (h0 : SameFs (fs k) (Store.fresh de (fun _ => false))) (hq : s.quiet k) (acc : List Val)
    (hacc : acc = (ackd ((s.finished k).map plain)).reverse) :
    (∃ stored dropped, acc = stored ++ dropped ∧ (acc ≠ [] → stored ≠ []) ∧ (max ≤ 0 → dropped = []) ∧
      ∀ u, SameFs u (s.g.fs k) → (∀ i, u.cache i = none) →
        (∀ cfg bound, GeoOk cfg.size cfg.cap → (∀ v ∈ acc, v.stop < bound) →
          (queryList cfg bound (fun _ _ => .more) u).1.1 = stored ∧ (acc ≠ [] → (queryList cfg bound (fun _ _ => .more) u).1.2 = none)) ∧
        (∀ cfg, GeoOk cfg.size cfg.cap → ∀ w t, acc = w :: t → w.stop < 0x7fffffffffffffff → (dbQueryLatest cfg u).1 = (some w, none))) ∧
    (0 < max → ((s.g.fs k).dir.length : Int) ≤ max + 1 + (s.finished k).countP (fun e => e.2.1.unlink)) := by
  obtain ⟨ops, t, e1, e2⟩ := afterFaults_empty de max
  have := C112_history hn h k hmay max hok [] 0 ⟨ops, t, ⟨h0.1.trans e1.1, h0.2.trans e1.2, h0.3.trans e1.3, h0.4.trans e1.4⟩, e2⟩ hq
  rw [List.append_nil, Nat.zero_add, ← hacc] at this
  exact afterFaults_kept this

end

end Rothko
