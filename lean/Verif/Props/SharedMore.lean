import Verif.Props.Shared
import Verif.Props.Dump
import Verif.Props.Convert
import Verif.Lemmas.Oracle
/-!
# C96: handles and mappings of a process; its calls amount to Model/Metric
-/
namespace Rothko

theorem intDec_inj {i j : Int} (h : intDec i = intDec j) : i = j := by
  have nat : ∀ {a b : Nat}, natDec a = natDec b → a = b := by
    intro a b h
    have := parseDigits_natDec a
    rw [h, parseDigits_natDec] at this
    exact (Option.some.inj this).symm
  unfold intDec at h
  split at h <;> split at h
  · have := nat (List.cons.inj h).2; omega
  · have := (natDec_head j.natAbs).1
    rw [← h] at this
    exact absurd rfl this
  · have := (natDec_head i.natAbs).1
    rw [h] at this
    exact absurd rfl this
  · have := nat h; omega

/-- No two data files have the same path. -/
theorem dbPath_paths (d : Bytes) : Paths (dbPath d) := by
  intro m i m' i' h
  unfold dbPath metricFilenameAt at h
  rw [List.append_assoc, List.append_assoc] at h
  obtain ⟨h1, h2⟩ := split_last (addSlash_ends _) (addSlash_ends _) (name_noSlash i) (name_noSlash i') h
  refine ⟨?_, intDec_inj (List.append_cancel_right h2)⟩
  rw [addSlash_metricDir, addSlash_metricDir] at h1
  have h1 := List.append_cancel_left h1
  by_cases hm : m = [] <;> by_cases hm' : m' = []
  · rw [hm, hm']
  · simp [hm, hm'] at h1
  · simp [hm, hm'] at h1
  · rw [if_neg hm, if_neg hm'] at h1
    exact C08_dir_injective m m' (List.append_cancel_right h1)

section
variable {n : Nat} {d : Bytes} {progs : List (List (Bytes × DbCall))} {fs : Bytes → Store} {s : FsSys DbCall DbRes}

theorem handles_reach (hn : n < 2 ^ 63) (h : FsSys.Reach dbCalls (dbPath d) n progs fs s) : ∃ H ch, FInv n (dbPath d) s H ∧ Sim (dbPath d) progs fs s ch :=
  finv_reach hn (dbPath_paths d) (fun _ => ⟨rfl, rfl, rfl, rfl⟩) h

/-- **C96** (no panic). In every state that any schedule leads to, a call that is under way is finished or can go on: nothing that it does with the file cache panics. -/
theorem C96_never_stuck (hn : n < 2 ^ 63) (h : FsSys.Reach dbCalls (dbPath d) n progs fs s) (i : Nat) (m : Bytes) (o : DbCall) (rest : List (Bytes × DbCall)) (p : FsProg DbRes)
    (hb : s.cl[i]? = some ⟨(m, o) :: rest, .busy p⟩) : (∃ r, p = .done r) ∨ ∃ p' g, p.exec (dbPath d) m s.g = some (p', g) := by
  obtain ⟨H, ch, hi, hs⟩ := handles_reach hn h
  have hb : BusyAt s i m p := ⟨o, rest, hb⟩
  obtain ⟨h1, h2⟩ := hi.busy i m p hb
  rcases exec_ok (dbPath_paths d) hi.ok p h1 h2 (hi.exclusive (dbPath_paths d) hs hb) with ⟨r, e⟩ | ⟨p1, g1, _, _, e, _⟩
  · exact Or.inl ⟨r, e⟩
  · exact Or.inr ⟨p1, g1, e⟩

theorem touches_held {p : FsProg DbRes} {x : FsHandle} {held : List (Int × FsHandle)} (hc : p.Careful held) (ht : p.Touches x) : ∃ idx, (idx, x) ∈ held := by
  cases p with
  | load x' k => cases (show x' = x from ht); exact hc.1
  | store x' head v f k => cases (show x' = x from ht); exact hc.1
  | _ => exact ht.elim

/-- **C96** (mapped). Whenever a call is about to look at or change the mapped bytes of a data file, the handle it does this with is one of a file of its metric that is in use: it was not closed, it is not in the cache, and it still
stands for the bytes it was made for. -/
theorem C96_mapped (hn : n < 2 ^ 63) (h : FsSys.Reach dbCalls (dbPath d) n progs fs s) (i : Nat) (m : Bytes) (o : DbCall) (rest : List (Bytes × DbCall)) (p : FsProg DbRes)
    (hb : s.cl[i]? = some ⟨(m, o) :: rest, .busy p⟩) (x : FsHandle) (ht : p.Touches x) :
    ∃ idx, ⟨x.id, dbPath d m idx⟩ ∈ s.g.w.inUse ∧ (∀ f ∈ s.g.w.closed, f.id ≠ x.id) ∧ (∀ f ∈ s.g.w.cached, f.id ≠ x.id) ∧ s.g.table x.id = x.geo := by
  obtain ⟨H, ch, hi, hs⟩ := handles_reach hn h
  obtain ⟨h1, h2⟩ := hi.busy i m p ⟨o, rest, hb⟩
  obtain ⟨idx, hx⟩ := touches_held h1 ht
  have hu := h2.inUse _ hx
  have uniq : ∀ f ∈ s.g.w.opened, f.id = x.id → f = ⟨x.id, dbPath d m idx⟩ := by
    intro f hf e
    have hnd : (s.g.w.opened.map FHandle.id).Nodup := by rw [hi.ok.ids]; exact List.nodup_reverse.mpr List.nodup_range
    exact List.inj_on_of_nodup_map hnd hf ((hi.ok.places _).mpr (Or.inl hu)) e
  refine ⟨idx, hu, ?_, ?_, h2.table _ hx⟩
  · intro f hf e
    have := uniq f ((hi.ok.places f).mpr (Or.inr (Or.inr hf))) e
    subst this
    exact (hi.ok.apart _).2.1 ⟨hu, hf⟩
  · intro f hf e
    have := uniq f ((hi.ok.places f).mpr (Or.inr (Or.inl hf))) e
    subst this
    exact (hi.ok.apart _).1 ⟨hu, hf⟩

/-- **C96** (not shared). Two calls never work with the same mapping at the same time. -/
theorem C96_not_shared (hn : n < 2 ^ 63) (h : FsSys.Reach dbCalls (dbPath d) n progs fs s) (i j : Nat) (m m' : Bytes) (o o' : DbCall) (rest rest' : List (Bytes × DbCall)) (p q : FsProg DbRes)
    (hb : s.cl[i]? = some ⟨(m, o) :: rest, .busy p⟩) (hb' : s.cl[j]? = some ⟨(m', o') :: rest', .busy q⟩) (hij : i ≠ j) (x y : FsHandle) (hx : p.Touches x) (hy : q.Touches y) : x.id ≠ y.id := by
  intro e
  obtain ⟨idx, h1, _⟩ := C96_mapped hn h i m o rest p hb x hx
  obtain ⟨idx', h2, _⟩ := C96_mapped hn h j m' o' rest' q hb' y hy
  obtain ⟨H, ch, hi, hs⟩ := handles_reach hn h
  have hnd : (s.g.w.opened.map FHandle.id).Nodup := by rw [hi.ok.ids]; exact List.nodup_reverse.mpr List.nodup_range
  have := List.inj_on_of_nodup_map hnd ((hi.ok.places _).mpr (Or.inl h1)) ((hi.ok.places _).mpr (Or.inl h2)) e
  injection this with _ this
  have := (dbPath_paths d _ _ _ _ this).1
  subst this
  exact hij (hs.alone ⟨o, rest, hb⟩ ⟨o', rest', hb'⟩)

/-- **C96** (closed once). No mapping is closed twice, and none is closed while a call uses it or the cache has it. -/
theorem C96_closed_once (hn : n < 2 ^ 63) (h : FsSys.Reach dbCalls (dbPath d) n progs fs s) :
    (s.g.w.closed.map FHandle.id).Nodup ∧ ∀ f ∈ s.g.w.closed, f ∉ s.g.w.inUse ∧ f ∉ s.g.w.cached := by
  obtain ⟨H, ch, hi, hs⟩ := handles_reach hn h
  constructor
  · have hnd : (s.g.w.opened.map FHandle.id).Nodup := by rw [hi.ok.ids]; exact List.nodup_reverse.mpr List.nodup_range
    have := (hi.ok.cons.map FHandle.id).nodup_iff.mp hnd
    rw [List.map_append] at this
    exact (List.nodup_append.mp this).2.1
  · intro f hf
    exact ⟨fun x => (hi.ok.apart f).2.1 ⟨x, hf⟩, fun x => (hi.ok.apart f).2.2 ⟨x, hf⟩⟩

theorem cached_le {w : FWorld} (ok : w.Ok n) : w.cached.length ≤ n := by
  unfold FWorld.cached HCache.inside
  simp only [List.length_map]
  exact Nat.le_trans ok.ch.len (Nat.le_of_eq ok.cap)

theorem inUse_le {Op : Type} {s : FsSys Op DbRes} {H : Nat → List (Int × FsHandle)} {path : Bytes → Int → Bytes} (hi : FInv n path s H) (ht : ∀ i m p, BusyAt s i m p → (H i).length ≤ 2)
    (hw : ∀ (i : Nat) (c : Client Op (FsProg DbRes)) (p : FsProg DbRes), s.cl[i]? = some c → c.work = .busy p → ∃ m, BusyAt s i m p) : s.g.w.inUse.length ≤ 2 * s.active := by
  rw [hi.tot, active_count]
  refine tot_le H s.cl 0 ?_
  intro j c hc
  rw [Nat.zero_add]
  cases hcw : c.work with
  | busy p =>
    obtain ⟨m, hb⟩ := hw j c p hc hcw
    have : isBusy c = true := by unfold isBusy; rw [hcw]
    rw [if_pos this]
    exact ht j m p hb
  | _ =>
    rw [hi.idle j ?_]
    · exact Nat.zero_le _
    · rintro m p ⟨o, rest, hb⟩
      rw [hc] at hb
      injection hb with hb
      rw [hb] at hcw
      cases hcw

/-- Who is busy is busy with something. -/
theorem busy_call {path : Bytes → Int → Bytes} (h : FsSys.Reach dbCalls path n progs fs s) : ∀ (i : Nat) (c : Client DbCall (FsProg DbRes)) (p : FsProg DbRes), s.cl[i]? = some c → c.work = .busy p → ∃ m, BusyAt s i m p := by
  have key : ∀ (i : Nat) (c : Client DbCall (FsProg DbRes)) (p : FsProg DbRes), s.cl[i]? = some c → c.work = .busy p → ∃ m o rest, c = ⟨(m, o) :: rest, .busy p⟩ := by
    induction h with
    | init =>
      intro i c p hc hw
      have hc : (progs.map (fun p => (⟨p, .out⟩ : Client DbCall (FsProg DbRes))))[i]? = some c := hc
      rw [List.getElem?_map] at hc
      cases hp : progs[i]? with
      | none => rw [hp] at hc; cases hc
      | some q => rw [hp] at hc; injection hc with hc; rw [← hc] at hw; cases hw
    | step _ hs ih =>
      intro i c p hc hw
      cases hs with
      | mkdir m => exact ih i c p hc hw
      | close r w hw' => exact ih i c p hc hw
      | call j m o rest h1 h2 => exact ih i c p hc hw
      | done j a h1 h2 => exact ih i c p hc hw
      | enter j m o rest a h1 h2 h3 =>
        rcases client_set_cases hc with ⟨rfl, rfl⟩ | ⟨_, hc⟩
        · cases hw
        · exact ih i c p hc hw
      | finish j m o rest r a a' q h1 h2 h3 =>
        rcases client_set_cases hc with ⟨rfl, rfl⟩ | ⟨_, hc⟩
        · cases hw
        · exact ih i c p hc hw
      | first j m o rest h1 =>
        rcases client_set_cases hc with ⟨rfl, rfl⟩ | ⟨_, hc⟩
        · cases hw; exact ⟨m, o, rest, rfl⟩
        · exact ih i c p hc hw
      | work j m o rest q q' g h1 h2 =>
        rcases client_set_cases hc with ⟨rfl, rfl⟩ | ⟨_, hc⟩
        · cases hw; exact ⟨m, o, rest, rfl⟩
        · exact ih i c p hc hw
  intro i c p hc hw
  obtain ⟨m, o, rest, rfl⟩ := key i c p hc hw
  exact ⟨m, o, rest, hc⟩

/-- **C96** (bound). At any moment, the process has at most as many mappings as the configured number of handles, two for each goroutine in the middle of a call, and those that were lost. -/
theorem C96_bound (hn : n < 2 ^ 63) (h : FsSys.Reach dbCalls (dbPath d) n progs fs s) : s.g.mappings ≤ n + 2 * s.active + s.g.leaked := by
  obtain ⟨H, ch, hi, hs⟩ := handles_reach hn h
  have h1 := inUse_le hi (fun i m p hb => (hi.busy i m p hb).2.two) (busy_call h)
  have h2 := cached_le hi.ok
  have h3 := hi.ok.cons.length_eq
  rw [List.length_append, List.length_append] at h3
  unfold FsState.mappings
  omega

/-- **C96** (rest). When no call is under way no handle is in use; if the cache is then closed, only the lost mappings are left. -/
theorem C96_rest (hn : n < 2 ^ 63) (h : FsSys.Reach dbCalls (dbPath d) n progs fs s) (ha : s.active = 0) :
    s.g.w.inUse = [] ∧ ∀ r w, s.g.w.step .close = some (r, w) → ({ s.g with w } : FsState).mappings = s.g.leaked := by
  obtain ⟨H, ch, hi, hs⟩ := handles_reach hn h
  have h1 := inUse_le hi (fun i m p hb => (hi.busy i m p hb).2.two) (busy_call h)
  rw [ha] at h1
  have h0 : s.g.w.inUse = [] := List.length_eq_zero_iff.mp (by omega)
  refine ⟨h0, fun r w hw => ?_⟩
  obtain ⟨r', w', e, ok', e1, e2, e3⟩ := close_shape hi.ok
  rw [hw] at e
  injection e with e
  injection e with _ e
  subst e
  have := ok'.cons.length_eq
  rw [e2, h0, e3] at this
  unfold FsState.mappings
  dsimp only
  rw [this]
  simp

/-! ## Lost mappings -/

/-- The call does nothing any more but release handles, and then fails because of a file. -/
def FsProg.failing : FsProg DbRes → Bool
  | .done r => r.broken
  | .release _ _ k => k.failing
  | _ => false

/-- When acquiring a file fails because of the file, the call fails. -/
def FsProg.Blunt : FsProg DbRes → Prop
  | .done _ => True
  | .acquire _ _ _ k => (∀ e, (k (.error (.file e))).failing = true) ∧ (∀ e, (k (.error e)).Blunt) ∧ ∀ h, (k (.ok h)).Blunt
  | .release _ _ k => k.Blunt
  | .evict _ k => k.Blunt
  | .remove _ k => k.Blunt
  | .load _ k => ∀ f, (k f).Blunt
  | .store _ _ _ _ k => k.Blunt

theorem releaseAllP_blunt (p : FsProg DbRes) (held : List (Int × FsHandle)) : ((releaseAllP p held).Blunt ↔ p.Blunt) ∧ (releaseAllP p held).failing = p.failing := by
  induction held with
  | nil => exact ⟨Iff.rfl, rfl⟩
  | cons a l ih => exact ih

theorem newMetricP_blunt (cfg : Cfg) (names : Option (List Int)) (k : Except MErr (Int × Int) → FsProg DbRes) (he : ∀ e, (k (.error (.file e))).failing = true) (h : ∀ x, (k x).Blunt) :
    (newMetricP cfg names k).Blunt := by
  unfold newMetricP
  cases names with
  | none => exact h _
  | some names =>
    dsimp only
    split
    · exact h _
    · exact ⟨he, fun e => h _, fun g => h _⟩

theorem acquireLastP_blunt (cfg : Cfg) (first : Int) (k : Except MErr (FsHandle × Int × Int) → FsProg DbRes) (he : ∀ e, (k (.error (.file e))).failing = true) (hk : ∀ x, (k x).Blunt)
    (fuel : Nat) : ∀ last : Int, (acquireLastP cfg first k fuel last).Blunt := by
  induction fuel with
  | zero => intro last; exact hk _
  | succ fuel ih =>
    intro last
    unfold acquireLastP
    refine ⟨he, fun e => hk _, fun g f => ?_⟩
    dsimp only
    cases f.headPointer with
    | error e => exact hk _
    | ok head =>
      dsimp only
      split
      · exact ih (last - 1)
      · exact hk _

theorem storeP_blunt (h : FsHandle) (head : Int) (v : Val) (held : List (Int × FsHandle)) (k : WRes → FsProg DbRes) (hk : ∀ r, (k r).Blunt) : (storeP h head v held k).Blunt :=
  fun f => (releaseAllP_blunt (k (writeBody f head v).1) held).1.mpr (hk _)

theorem rotateP_blunt (cfg : Cfg) (last : Int) (h : FsHandle) (v : Val) (k : WRes → FsProg DbRes) (he : ∀ e, (k (.failed (.file e))).failing = true) (hk : ∀ r, (k r).Blunt) : (rotateP cfg last h v k).Blunt := by
  rw [rotateP_cases]
  refine ⟨fun e => ?_, fun e => ?_, fun g => ?_⟩
  · dsimp only; rw [(releaseAllP_blunt _ _).2]; exact he e
  · exact (releaseAllP_blunt _ _).1.mpr (hk _)
  · dsimp only
    refine numCases_all (fun p : FsProg DbRes => p.Blunt) _ _ _ _ ((releaseAllP_blunt _ _).1.mpr (hk _)) ((releaseAllP_blunt _ _).1.mpr (hk _)) (fun n => ?_)
    split
    · exact (releaseAllP_blunt _ _).1.mpr (hk _)
    · exact storeP_blunt _ _ _ _ _ hk

theorem writeP_blunt (cfg : Cfg) (first last : Int) (v : Val) (k : WRes → FsProg DbRes) (he : ∀ e, (k (.failed (.file e))).failing = true) (hk : ∀ r, (k r).Blunt) : (writeP cfg first last v k).Blunt := by
  rw [writeP_found]
  have hl : ∀ r (x : List (Int × FsHandle)), (releaseAllP (k r) x).Blunt := fun r x => (releaseAllP_blunt _ _).1.mpr (hk r)
  refine acquireLastP_blunt cfg first _ (fun e => he e) (fun x => ?_) _ last
  rcases x with e | ⟨h, head, l⟩
  · exact hk _
  · unfold writeFound
    intro f
    dsimp only
    split
    · exact hl _ _
    · refine numCases_all (fun p : FsProg DbRes => p.Blunt) _ _ _ _ (hl _ _) (hl _ _) (fun n => ?_)
      split
      · split
        · exact hl _ _
        · split
          · exact rotateP_blunt cfg l h v k he hk
          · exact rotateP_blunt cfg l h v k he hk
      · exact storeP_blunt _ _ _ _ _ hk

theorem readP_blunt {σ : Type} (cfg : Cfg) (bound : Int64) (cb : σ → Val → σ × Cb) (k : σ × Option MErr → FsProg DbRes) (he : ∀ st e, (k (st, some (.file e))).failing = true) (hk : ∀ r, (k r).Blunt) (fuel : Nat) :
    ∀ (num : Int) (st : σ), (readP cfg bound cb k fuel num st).Blunt := by
  induction fuel with
  | zero => intro num st; exact hk _
  | succ fuel ih =>
    intro num st
    unfold readP
    refine ⟨he st, fun e => hk _, fun g f => ?_⟩
    dsimp only
    rcases readFile bound cb f st with ⟨st', c⟩
    cases c with
    | more => exact ih _ _
    | stop => exact hk _
    | fail e => exact hk _

theorem calls_blunt (o : DbCall) (names : Option (List Int)) : (dbCalls.body o names).Blunt := by
  cases o with
  | write cfg v =>
    unfold dbCalls
    dsimp only
    unfold dbWriteP
    refine newMetricP_blunt cfg names _ (fun e => rfl) (fun x => ?_)
    rcases x with e | ⟨first, last⟩
    · trivial
    · exact writeP_blunt cfg first last v (fun r => .done (DbRes.write r)) (fun e => rfl) (fun r => trivial)
  | query cfg b cb =>
    unfold dbCalls
    dsimp only
    unfold dbQueryP
    refine newMetricP_blunt cfg names _ (fun e => rfl) (fun x => ?_)
    rcases x with e | ⟨first, last⟩
    · trivial
    · exact readP_blunt cfg b _ (fun r => .done (DbRes.query r.1 r.2)) (fun _ _ => rfl) (fun r => trivial) _ last []
  | latest cfg =>
    unfold dbCalls
    dsimp only
    unfold dbQueryP
    refine newMetricP_blunt cfg names _ (fun e => rfl) (fun x => ?_)
    rcases x with e | ⟨first, last⟩
    · trivial
    · exact readP_blunt cfg _ _ (fun r => .done (DbRes.latest r.1 r.2)) (fun _ _ => rfl) (fun r => trivial) _ last none

/-- The call fails whatever comes. -/
def isFailing {Op : Type} (c : Client Op (FsProg DbRes)) : Bool := match c.work with | .busy p => p.failing | _ => false

theorem mapped_error {cfg : Cfg} {s s' : Store} {idx : Int} {ex : Bool} {e : MErr} (hm : mapsAt cfg s idx ex = true) (h : s.openNew cfg idx ex = (.error e, s')) : ∃ fe, e = .file fe := by
  unfold Store.openNew at h
  unfold mapsAt at hm
  cases ex
  · simp only [Bool.false_eq_true, if_false] at h
    clear hm
    unfold Store.createAt at h
    generalize createFile cfg.size cfg.cap = c at h
    obtain ⟨c | c, b⟩ := c
    · injection h with h _; injection h with h; exact ⟨c, h.symm⟩
    · injection h with h _; cases h
  · simp only [if_true] at h hm
    unfold Store.openAt at h
    cases hl : s.lookup idx with
    | none => rw [hl] at hm; cases hm
    | some ino =>
      rw [hl] at h
      dsimp only at h
      split at h
      · rename_i fe _; cases h; exact ⟨fe, rfl⟩
      · cases h

theorem exec_leaks {p p' : FsProg DbRes} {path : Bytes → Int → Bytes} {m : Bytes} {g g' : FsState} (hp : p.Blunt) (h : p.exec path m g = some (p', g')) :
    p'.Blunt ∧ (g'.leaked = g.leaked ∧ (p.failing = true → p'.failing = true) ∨ g'.leaked ≤ g.leaked + 1 ∧ p.failing = false ∧ p'.failing = true) := by
  cases p with
  | done a => cases h
  | acquire cfg idx ex k =>
    rw [FsProg.exec] at h
    split at h
    · cases h
    · split at h
      · cases h; exact ⟨hp.2.2 _, Or.inl ⟨rfl, fun e => by cases e⟩⟩
      · split at h
        · cases h
        · cases h; exact ⟨hp.2.2 _, Or.inl ⟨rfl, fun e => by cases e⟩⟩
    · split at h
      · cases h
      · rename_i e s' he
        cases h
        refine ⟨hp.2.1 _, ?_⟩
        cases hm : mapsAt cfg (g.fs m) idx ex
        · exact Or.inl ⟨rfl, fun e => by cases e⟩
        · obtain ⟨fe, rfl⟩ := mapped_error hm he
          exact Or.inr ⟨Nat.le_refl _, rfl, hp.1 _⟩
  | release idx x k =>
    rw [FsProg.exec] at h
    split at h
    · cases h
    · cases h; exact ⟨hp, Or.inl ⟨rfl, fun e => e⟩⟩
  | evict idx k =>
    rw [FsProg.exec] at h
    split at h
    · cases h
    · cases h; exact ⟨hp, Or.inl ⟨rfl, fun e => by cases e⟩⟩
  | remove idx k => cases h; exact ⟨hp, Or.inl ⟨rfl, fun e => by cases e⟩⟩
  | load x k => cases h; exact ⟨hp _, Or.inl ⟨rfl, fun e => by cases e⟩⟩
  | store x head v f k => cases h; exact ⟨hp, Or.inl ⟨rfl, fun e => by cases e⟩⟩

theorem leak_inv {path : Bytes → Int → Bytes} (h : FsSys.Reach dbCalls path n progs fs s) :
    (∀ (i : Nat) (c : Client DbCall (FsProg DbRes)) (p : FsProg DbRes), s.cl[i]? = some c → c.work = .busy p → p.Blunt) ∧ s.g.leaked ≤ s.log.countP (fun e => e.2.2.2.broken) + s.cl.countP isFailing := by
  induction h with
  | init =>
    refine ⟨?_, Nat.zero_le _⟩
    intro i c p hc hw
    have hc : (progs.map (fun p => (⟨p, .out⟩ : Client DbCall (FsProg DbRes))))[i]? = some c := hc
    rw [List.getElem?_map] at hc
    cases hp : progs[i]? with
    | none => rw [hp] at hc; cases hc
    | some q => rw [hp] at hc; injection hc with hc; rw [← hc] at hw; cases hw
  | step _ hs ih =>
    obtain ⟨ih1, ih2⟩ := ih
    cases hs with
    | mkdir m => exact ⟨ih1, ih2⟩
    | close r w hw' => exact ⟨ih1, ih2⟩
    | call j m o rest h1 h2 => exact ⟨ih1, ih2⟩
    | done j a h1 h2 => exact ⟨ih1, ih2⟩
    | enter j m o rest a h1 h2 h3 =>
      refine ⟨fun i c p hc hw => ?_, ?_⟩
      · rcases client_set_cases hc with ⟨rfl, rfl⟩ | ⟨_, hc⟩
        · cases hw
        · exact ih1 i c p hc hw
      · have := countP_set_of (p := isFailing) (⟨(m, o) :: rest, .begin⟩ : Client DbCall (FsProg DbRes)) h3
        have e1 : isFailing (⟨(m, o) :: rest, .begin⟩ : Client DbCall (FsProg DbRes)) = false := rfl
        have e2 : isFailing (⟨(m, o) :: rest, .out⟩ : Client DbCall (FsProg DbRes)) = false := rfl
        rw [e1, e2] at this
        dsimp only
        simp only [Bool.false_eq_true, if_false] at this
        omega
    | finish j m o rest r a a' q h1 h2 h3 =>
      refine ⟨fun i c p hc hw => ?_, ?_⟩
      · rcases client_set_cases hc with ⟨rfl, rfl⟩ | ⟨_, hc⟩
        · cases hw
        · exact ih1 i c p hc hw
      · have := countP_set_of (p := isFailing) (⟨rest, .out⟩ : Client DbCall (FsProg DbRes)) h1
        have e1 : isFailing (⟨(m, o) :: rest, .busy (.done r)⟩ : Client DbCall (FsProg DbRes)) = r.broken := rfl
        have e2 : isFailing (⟨rest, .out⟩ : Client DbCall (FsProg DbRes)) = false := rfl
        rw [e1, e2] at this
        dsimp only
        rw [List.countP_append, List.countP_singleton]
        dsimp only
        generalize (if r.broken = true then 1 else 0) = e at this ⊢
        simp only [Bool.false_eq_true, if_false] at this
        omega
    | first j m o rest h1 =>
      refine ⟨fun i c p hc hw => ?_, ?_⟩
      · rcases client_set_cases hc with ⟨rfl, rfl⟩ | ⟨_, hc⟩
        · cases hw; exact calls_blunt o _
        · exact ih1 i c p hc hw
      · have := countP_set_of (p := isFailing) (⟨(m, o) :: rest, .busy (dbCalls.body o (dirNames (dbCalls.ro o) (FsState.fs (FsSys.g ‹_›) m)).1)⟩ : Client DbCall (FsProg DbRes)) h1
        have e2 : isFailing (⟨(m, o) :: rest, .begin⟩ : Client DbCall (FsProg DbRes)) = false := rfl
        rw [e2] at this
        dsimp only [FsState.setFs]
        simp only [Bool.false_eq_true, if_false] at this
        omega
    | work j m o rest q q' g h1 h2 =>
      obtain ⟨x1, x2⟩ := exec_leaks (ih1 j _ q h1 rfl) h2
      refine ⟨fun i c p hc hw => ?_, ?_⟩
      · rcases client_set_cases hc with ⟨rfl, rfl⟩ | ⟨_, hc⟩
        · cases hw; exact x1
        · exact ih1 i c p hc hw
      · have := countP_set_of (p := isFailing) (⟨(m, o) :: rest, .busy q'⟩ : Client DbCall (FsProg DbRes)) h1
        have e1 : isFailing (⟨(m, o) :: rest, .busy q⟩ : Client DbCall (FsProg DbRes)) = q.failing := rfl
        have e2 : isFailing (⟨(m, o) :: rest, .busy q'⟩ : Client DbCall (FsProg DbRes)) = q'.failing := rfl
        rw [e1, e2] at this
        dsimp only
        rcases x2 with ⟨y1, y2⟩ | ⟨y1, y2, y3⟩
        · cases hq : q.failing
          · rw [hq] at this
            simp only [Bool.false_eq_true, if_false] at this
            omega
          · rw [hq, y2 hq] at this
            omega
        · rw [y2, y3] at this
          simp only [Bool.false_eq_true, if_false, if_true] at this
          omega

/-- **C96** (lost mappings). A mapping is lost only by a call that fails because of what is in a data file (or because one could not be made), and at most one by each: there are never more than calls that failed so or are about to. So, if no call
does, the process never has more mappings at rest than
the configured number of handles. -/
theorem C96_lost (hn : n < 2 ^ 63) (h : FsSys.Reach dbCalls (dbPath d) n progs fs s) :
    s.g.leaked ≤ s.log.countP (fun e => e.2.2.2.broken) + s.active ∧
    (s.active = 0 → (∀ e ∈ s.log, e.2.2.2.broken = false) → s.g.mappings ≤ n) := by
  have h1 := (leak_inv h).2
  have h2 : s.cl.countP isFailing ≤ s.active := by
    rw [active_count]
    refine List.countP_mono_left ?_
    intro c _ hc
    unfold isFailing at hc
    unfold isBusy
    split at hc
    · rename_i p e; rw [e]
    · cases hc
  refine ⟨by omega, fun ha hf => ?_⟩
  have h3 := C96_bound hn h
  have h4 : s.log.countP (fun e => e.2.2.2.broken) = 0 := by
    rw [List.countP_eq_zero]
    intro e he
    rw [hf e he]
    decide
  omega

/-! ## The results -/

/-- The directory and files of a metric are those that some history left. -/
def AfterHistory (s : Store) (acc : List Val) : Prop := ∃ t, SameFs s t ∧ Reach t acc

theorem serial_pair {s0 : Store × (Nat → Nat)} {evs : List (Option (Nat × DbCall × DbRes))} {t : Store × (Nat → Nat)} (h : Serial fsRun mkdirFs s0 evs t) : Serial DbCall.run mkdirEnv s0.1 evs t.1 := by
  induction h with
  | nil => exact .nil
  | op i o r _ e ih =>
    refine .op i o r ih ?_
    unfold fsRun at e
    injection e with e1 e2
    rw [← e2, ← e1]
  | env _ ih => exact .env ih

theorem serial_reach {s0 t : Store} {acc : List Val} (h0 : Reach s0 acc) {evs : List (Option (Nat × DbCall × DbRes))} (h : Serial DbCall.run mkdirEnv s0 evs t) (hok : ∀ e ∈ evs.filterMap id, e.2.1.Ok) :
    Reach t ((ackd (evs.filterMap id)).reverse ++ acc) := by
  induction h with
  | nil => exact h0
  | op i o r h1 hf ih =>
    rw [List.filterMap_append] at hok ⊢
    have := reach_call (ih (fun e he => hok e (List.mem_append_left _ he))) o (hok (i, o, r) (by simp)) i
    rw [hf] at this
    rw [ackd_append, List.reverse_append, List.append_assoc]
    have e2 : (ackd ([some (i, o, r)].filterMap id)).reverse = ackd [(i, o, r)] := by
      show (ackd [(i, o, r)]).reverse = _
      cases o with
      | write cfg v => cases r with
        | write w => cases w <;> rfl
        | query => rfl
        | latest => rfl
      | query => rfl
      | latest => rfl
    rw [e2]
    exact this
  | env h1 ih =>
    rw [List.filterMap_append] at hok ⊢
    have := reach_mkdir (ih (fun e he => hok e (List.mem_append_left _ he)))
    have e2 : ([none] : List (Option (Nat × DbCall × DbRes))).filterMap id = [] := rfl
    rw [e2, List.append_nil]
    exact this

/-- The finished calls on a metric, in the order in which they finished. -/
def FsSys.finished {Op : Type} (s : FsSys Op DbRes) (k : Bytes) : List (Nat × Op × DbRes) := (s.log.filter (fun e => e.2.1 = k)).map (fun e => (e.1, e.2.2.1, e.2.2.2))

/-- Nobody is at work on the metric. -/
def FsSys.quiet {Op : Type} (s : FsSys Op DbRes) (k : Bytes) : Prop := ∀ (i : Nat) (o : Op) (rest : List (Bytes × Op)) (p : FsProg DbRes), s.cl[i]? ≠ some ⟨(k, o) :: rest, .busy p⟩

/-- **C96** (the calls of Model/Metric). Whatever the schedule, the number of goroutines and metrics, the evictions from the file cache: the calls finished on a metric have the results they would have one after the other on that
metric alone in Model/Metric, in the order in which they finished (apart from its directory, that other metrics may make), for some behaviour `hit` of the cache of Model/Metric, and leave the same files; `base` is any state of
Model/Metric with the files that were there when the process started. -/
theorem C96_serial (hn : n < 2 ^ 63) (h : FsSys.Reach dbCalls (dbPath d) n progs fs s) (k : Bytes) (hq : s.quiet k) (base : Store) (hb : SameFs (fs k) base) :
    ∃ (hit : Nat → Bool) (evs : List (Option (Nat × DbCall × DbRes))) (t : Store), (∀ i, i < base.clock → hit i = base.hit i) ∧
      Serial DbCall.run mkdirEnv ({ base.reopen with hit }) evs t ∧ evs.filterMap id = s.finished k ∧ SameFs (s.g.fs k) t := by
  obtain ⟨H, ch, hi, hs⟩ := finv_reach (base := fun k' => if k' = k then base else fs k') hn (dbPath_paths d) (fun k' => by
    split
    · rename_i e; rw [e]; exact hb
    · exact ⟨rfl, rfl, rfl, rfl⟩) h
  obtain ⟨hits, ids, he, hold⟩ := extends_some (fun k' => if k' = k then base else fs k') ch (fun _ => base.hit)
  obtain ⟨st, hr, hk⟩ := hs hits ids he
  obtain ⟨evs, h1, h2⟩ := C59_serial fsMachine_implements fsMachine_settled hr k (fun i o rest l => hq i o rest l)
  have h1 := serial_pair h1
  refine ⟨hits k, evs, _, ?_, ?_, h2, (hk k).1⟩
  · intro i hi
    refine hold k i ?_
    show i < (if k = k then base else fs k).clock
    rw [if_pos rfl]
    exact hi
  · have h1 : Serial DbCall.run mkdirEnv (startOf (if k = k then base else fs k) (hits k)) evs (st k).1 := h1
    rw [if_pos rfl] at h1
    exact h1

theorem fs_log_lt {path : Bytes → Int → Bytes} (h : FsSys.Reach dbCalls path n progs fs s) : ∀ e ∈ s.log, e.1 < progs.length := by
  induction h with
  | init => intro e he; cases he
  | @step s1 s2 hr1 hst ih =>
    have hl : s1.cl.length = progs.length := by
      clear hst ih
      induction hr1 with
      | init => show (progs.map _).length = _; rw [List.length_map]
      | step _ hs ih => cases hs <;> first | exact ih | (show (List.set _ _ _).length = _; rw [List.length_set]; exact ih)
    intro e he
    cases hst with
    | finish j m o rest r a a' q h1 h2 h3 =>
      rcases List.mem_append.mp he with he | he
      · exact ih e he
      · rw [List.mem_singleton.mp he, ← hl]
        exact (List.getElem?_eq_some_iff.mp h1).1
    | _ => exact ih e he

/-- **C96** (histories). If the files of a metric were left by a history of Model/Metric (a metric without files was), then after any number of calls by any number of goroutines on all metrics they are again, and the values
acknowledged since are in it, in the order in which the calls finished. So what holds after every history (C11 to C18, C20, C71, ...) holds in a process, and in one started after it. -/
theorem C96_history (hn : n < 2 ^ 63) (h : FsSys.Reach dbCalls (dbPath d) n progs fs s) (hok : ∀ p ∈ progs, ∀ c ∈ p, c.2.Ok) (k : Bytes) (acc : List Val) (h0 : AfterHistory (fs k) acc) (hq : s.quiet k) :
    AfterHistory (s.g.fs k) ((ackd (s.finished k)).reverse ++ acc) := by
  obtain ⟨t0, hsame, hr0⟩ := h0
  obtain ⟨hit, evs, t, e1, e2, e3, e4⟩ := C96_serial hn h k hq t0 hsame
  refine ⟨t, e4, ?_⟩
  rw [← e3]
  refine serial_reach (reach_restart (reach_oracle hr0 hit e1)) e2 ?_
  rw [e3]
  intro e he
  obtain ⟨H, ch, hi, hs⟩ := handles_reach hn h
  obtain ⟨hits, ids, hext, _⟩ := extends_some fs ch (fun _ _ => false)
  obtain ⟨st, hr, _⟩ := hs hits ids hext
  unfold FsSys.finished at he
  obtain ⟨⟨i, k', o, r⟩, hm, rfl⟩ := List.mem_map.mp he
  have hm := (List.mem_filter.mp hm).1
  have hlen : i < progs.length := fs_log_lt h _ hm
  obtain ⟨rest, e⟩ := C59_order fsMachine_implements fsMachine_settled hr i progs[i] (List.getElem?_eq_getElem hlen)
  have : (k', o) ∈ progs[i] := by
    rw [← e]
    refine List.mem_append_left _ (List.mem_map.mpr ⟨(i, k', o, r), List.mem_filter.mpr ⟨hm, by simp⟩, rfl⟩)
  exact hok _ (List.getElem_mem hlen) _ this

end

end Rothko
