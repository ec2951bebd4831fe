import Verif.Lemmas.DurableWrite
import Verif.Lemmas.Crash
/-! The invariant of histories with crashes. -/
namespace Rothko

theorem fresh_newMetricG (c : Bool) (P : Int64 → Prop) (s : Store) (hd : s.dir = []) (hc : ∀ i, s.cache i = none) (cfg : Cfg) (hg : GeoOk cfg.size cfg.cap)
    (ro : Bool) (hro : ro = false ∨ s.dirExists = true) :
    ∃ s' H, newMetric cfg ro s = (.ok (1, 1), s') ∧ CoreG c P s' 1 1 H (fun _ => 0) (fun _ => []) := by
  obtain ⟨f, ec, hs, hcp, hrep⟩ := create_g c P cfg.size cfg.cap hg
  let s0 : Store := { s with dirExists := true }
  let s1 : Store := { s0.evict 1 with clock := s.clock + 1 }
  have hlk : s1.lookup 1 = none := by
    show Option.map Prod.snd (s.dir.find? _) = none
    rw [hd]; rfl
  let h2 : Handle := { ino := s.next, size := f.size, cap := f.cap }
  let s2 : Store := { s1 with dir := [(1, s.next)], next := s.next + 1, disk := fun i => if i = s.next then f.data else s.disk i }
  have hacq : s0.acquire cfg 1 false = (.ok h2, s2) := by
    rw [acquire_miss cfg s0 1 (hc 1), createAt_new cfg _ 1 f ec hlk]
    simp only [s0, s2, s1, h2, Store.evict, hd]
  have hnm : newMetric cfg ro s = (.ok (1, 1), s2.release 1 h2) := by
    unfold newMetric
    rw [if_neg (by rcases hro with h | h <;> simp [h])]
    have hscan : ((s0.dir.map Prod.fst).foldl scanStep (0, 0, false)).2.2 = false := by
      show (((s.dir).map Prod.fst).foldl scanStep (0, 0, false)).2.2 = false
      rw [hd]; rfl
    simp only
    rw [show ({ s with dirExists := true } : Store) = s0 from rfl, hscan]
    simp only [Bool.false_eq_true, if_false, hacq]
  refine ⟨_, fun _ => h2, hnm, ⟨rfl, ⟨by omega, by omega⟩, ?_, ?_, ?_, rfl, ?_, ?_, ?_⟩⟩
  · intro idx
    show Option.map Prod.snd (List.find? (fun p => p.1 == idx) [(1, s.next)]) = _
    by_cases hi : idx = 1
    · subst hi; rw [if_pos (by omega)]; rfl
    · rw [if_neg (by omega), List.find?_cons_of_neg (by simp; omega)]; rfl
  · intro i a b
    have : (s2.release 1 h2).file h2 = f := by
      unfold Store.file
      have : (s2.release 1 h2).disk h2.ino = f.data := if_pos rfl
      rw [this]
    show FileG c P ((s2.release 1 h2).file h2) 0 []
    rw [this]; exact hrep
  · intro i x hx
    have hx' : (if i = 1 then some h2 else if i = 1 then none else s.cache i) = some x := hx
    by_cases hi : i = 1
    · rw [if_pos hi] at hx'; cases hx'; exact Or.inl ⟨by omega, by omega, rfl⟩
    · rw [if_neg hi, if_neg hi, hc i] at hx'; cases hx'
  · show List.Nodup [(1 : Int)]
    simp
  · intro i j a b c d _; omega
  · intro i a b; show s.next < s.next + 1; omega

/-- The ends given so far. -/
def Ends (given : List Val) (e : Int64) : Prop := ∃ w ∈ given, w.stop = e

/-- A directory with data files, in a history with crashes. -/
structure DurCore (c : Bool) (s : Store) (given : List Val) (first last : Int) (H : Int → Handle) (U : Int → Nat) (V : Int → List Val) : Prop where
  core : CoreG c (Ends given) s first last H U V
  ne : c = true → ∀ i, first < i → i ≤ last → 1 ≤ U i
  mem : ∀ w ∈ valuesOf V first last, w ∈ given

/-- The invariant. -/
def DurInv (c : Bool) (s : Store) (given : List Val) : Prop :=
  (s.dir = [] ∧ (∀ i, s.cache i = none)) ∨ ∃ first last H U V, DurCore c s given first last H U V

theorem DurCore.shows {c : Bool} {s : Store} {given : List Val} {first last : Int} {H : Int → Handle} {U : Int → Nat} {V : Int → List Val}
    (h : DurCore c s given first last H U V) : Shows s given (valuesOf V first last) := by
  intro cfg bound h0 hb
  exact h.core.query cfg bound h0 (fun e ⟨w, hw, he⟩ => he ▸ hb w hw)

/-- The files of a directory, newest first. -/
def filesOf (V : Int → List Val) (first last : Int) : List (List Val) := filesDown V (last - first + 1).toNat last

theorem filesOf_dropLast (V : Int → List Val) (first last : Int) (h : first ≤ last) :
    (filesOf V first last).dropLast.flatten = valuesOf V (first + 1) last := by
  unfold filesOf valuesOf
  rw [show (last - first + 1).toNat = (last - (first + 1) + 1).toNat + 1 by omega, filesDown_snoc, List.dropLast_concat]

/-- What one operation does to a directory with data files. -/
theorem DurCore.step {c : Bool} {s : Store} {given : List Val} {first last : Int} {H : Int → Handle} {U : Int → Nat} {V : Int → List Val}
    (h : DurCore c s given first last H U V) (o : DOp) (ho : o.Ok s) (hs : c = true → o.Small) :
    ∃ first' last' H' U' V' new kept, DurCore c (o.run s) (o.given ++ given) first' last' H' U' V' ∧ valuesOf V' first' last' = new ++ kept ∧
      (kept = (filesOf V first last).flatten ∨
        (kept = (filesOf V first last).dropLast.flatten ∧ ∃ m, o.limit = some m ∧ 0 < m ∧ m < (s.dir.length : Int))) ∧
      (new = [] ∨ new = o.given) ∧
      (c = true → ∀ cfg v, o = .op (.write cfg v) → (dbWrite cfg v s).1 = .written → new = [v]) := by
  have hr := h.core.rng
  have hcount := h.core.count
  have same : ∀ s', CoreG c (Ends given) s' first last H U V → o.given = [] → o.run s = s' → (∀ cfg v, o ≠ .op (.write cfg v)) →
      ∃ first' last' H' U' V' new kept, DurCore c (o.run s) (o.given ++ given) first' last' H' U' V' ∧ valuesOf V' first' last' = new ++ kept ∧
      (kept = (filesOf V first last).flatten ∨
        (kept = (filesOf V first last).dropLast.flatten ∧ ∃ m, o.limit = some m ∧ 0 < m ∧ m < (s.dir.length : Int))) ∧
      (new = [] ∨ new = o.given) ∧
      (c = true → ∀ cfg v, o = .op (.write cfg v) → (dbWrite cfg v s).1 = .written → new = [v]) := by
    intro s' core hgiv hrun hne
    refine ⟨first, last, H, U, V, [], _, ?_, rfl, Or.inl rfl, Or.inl rfl, fun _ cfg v he => absurd he (hne cfg v)⟩
    rw [hrun, hgiv]
    exact ⟨core, h.ne, h.mem⟩
  have stored : ∀ (cfg : Cfg) (v : Val) (s' : Store) (ok : Prop), o.given = [v] → o.run s = s' → o.limit = some cfg.max →
      Stored c (Ends (v :: given)) cfg v first last V s' ok →
      (∀ cfg v, o = .op (.write cfg v) → (dbWrite cfg v s).1 = .written → ok) →
      ∃ first' last' H' U' V' new kept, DurCore c (o.run s) (o.given ++ given) first' last' H' U' V' ∧ valuesOf V' first' last' = new ++ kept ∧
      (kept = (filesOf V first last).flatten ∨
        (kept = (filesOf V first last).dropLast.flatten ∧ ∃ m, o.limit = some m ∧ 0 < m ∧ m < (s.dir.length : Int))) ∧
      (new = [] ∨ new = o.given) ∧
      (c = true → ∀ cfg v, o = .op (.write cfg v) → (dbWrite cfg v s).1 = .written → new = [v]) := by
    intro cfg v s' ok hgiv hrun hlim hst hok
    obtain ⟨first', last', H', U', V', new, kept, core, ne, hval, hk, hnew, hack⟩ := hst.ex
    refine ⟨first', last', H', U', V', new, kept, ?_, hval, ?_, ?_, ?_⟩
    · rw [hrun, hgiv]
      refine ⟨core, ne, ?_⟩
      intro w hw
      rw [hval] at hw
      rcases List.mem_append.mp hw with hw | hw
      · rcases hnew with rfl | rfl
        · cases hw
        · exact List.mem_append_left _ hw
      · apply List.mem_append_right
        apply h.mem
        rcases hk with rfl | ⟨rfl, _⟩
        · exact hw
        · rw [valuesOf_drop V first last hr.2]; exact List.mem_append_left _ hw
    · rcases hk with hk | ⟨hk, h1, h2⟩
      · exact Or.inl hk
      · refine Or.inr ⟨?_, cfg.max, hlim, h1, by rw [hcount]; omega⟩
        rw [filesOf_dropLast _ _ _ hr.2]; exact hk
    · rw [hgiv]; exact hnew
    · intro hc cfg' v' he hw
      have := hack hc (hok cfg' v' he hw)
      rw [this]
      rw [he] at hgiv
      exact hgiv.symm
  have hmono : ∀ v : Val, ∀ e, Ends given e → Ends (v :: given) e := fun v e ⟨w, hw, he⟩ => ⟨w, List.mem_cons_of_mem _ hw, he⟩
  have hv : ∀ v : Val, Ends (v :: given) v.stop := fun v => ⟨v, List.mem_cons_self, rfl⟩
  cases o with
  | crash cfg v k j =>
    refine stored cfg v _ False rfl rfl rfl ?_ (fun cfg' v' he => by cases he)
    exact h.core.crash h.ne cfg v ho.1 (fun hc => (hs hc).1) (hmono v) (hv v) k j (fun hc => (hs hc).2) ho.2
  | op o =>
    cases o with
    | write cfg v =>
      refine stored cfg v _ ((dbWrite cfg v s).1 = .written) rfl ?_ rfl (h.core.write h.ne cfg v ho hs (hmono v) (hv v)) ?_
      · show (Op.run (s, []) (.write cfg v)).1 = (dbWrite cfg v s).2
        unfold Op.run
        dsimp only
        rcases dbWrite cfg v s with ⟨r, s'⟩
        cases r <;> rfl
      · intro cfg' v' he hw
        cases he; exact hw
    | query cfg bound cb => exact same _ (h.core.query_any cfg bound _ _).2 rfl rfl (fun _ _ hx => by cases hx)
    | latest cfg => exact same _ (h.core.query_any cfg _ _ _).2 rfl rfl (fun _ _ hx => by cases hx)
    | restart => exact same _ h.core.reopen rfl rfl (fun _ _ hx => by cases hx)

/-- The first access of a metric without data files. -/
theorem DurInv.first {c : Bool} {s : Store} {given : List Val} (hd : s.dir = []) (hc : ∀ i, s.cache i = none) (o : DOp) (ho : o.Ok s) :
    (s.dirExists = false ∧ o.given = [] ∧ (o.run s).dir = [] ∧ ∀ i, (o.run s).cache i = none) ∨ (o = .op .restart) ∨
    ∃ s0 H, o.run s = o.run s0 ∧ DurCore c s0 given 1 1 H (fun _ => 0) (fun _ => []) ∧ o.Ok s0 ∧
      (∀ cfg v, o = .op (.write cfg v) → dbWrite cfg v s = dbWrite cfg v s0) := by
  have mk : ∀ s0 H, CoreG c (Ends given) s0 1 1 H (fun _ => 0) (fun _ => []) → DurCore c s0 given 1 1 H (fun _ => 0) (fun _ => []) :=
    fun s0 H core => ⟨core, fun _ i a b => by omega, fun w hw => by cases hw⟩
  cases o with
  | crash cfg v k j =>
    right; right
    obtain ⟨s0, H, e, core⟩ := fresh_newMetricG c (Ends given) s hd hc cfg ho.1 false (Or.inl rfl)
    refine ⟨s0, H, ?_, mk s0 H core, ⟨ho.1, ?_⟩, fun _ _ hx => by cases hx⟩
    · show crashWrite cfg v k j s = crashWrite cfg v k j s0
      unfold crashWrite; rw [e, core.newMetric]
    · have h1 : tornSlot cfg v k j s = tornSlot cfg v k j s0 := by unfold tornSlot; rw [e, core.newMetric]
      have h2 : tornBefore cfg v k s = tornBefore cfg v k s0 := by unfold tornBefore; rw [e, core.newMetric]
      have := ho.2
      unfold TornOk at this
      rw [h1, h2] at this
      exact this
  | op o =>
    cases o with
    | restart => exact Or.inr (Or.inl rfl)
    | write cfg v =>
      right; right
      obtain ⟨s0, H, e, core⟩ := fresh_newMetricG c (Ends given) s hd hc cfg ho false (Or.inl rfl)
      have hw : dbWrite cfg v s = dbWrite cfg v s0 := by unfold dbWrite; rw [e, core.newMetric]
      refine ⟨s0, H, ?_, mk s0 H core, ho, ?_⟩
      · show (Op.run (s, []) (.write cfg v)).1 = (Op.run (s0, []) (.write cfg v)).1
        unfold Op.run; simp only [hw]
      · intro cfg' v' he; cases he; exact hw
    | query cfg bound cb =>
      by_cases hde : s.dirExists = true
      · right; right
        obtain ⟨s0, H, e, core⟩ := fresh_newMetricG c (Ends given) s hd hc cfg ho true (Or.inr hde)
        refine ⟨s0, H, ?_, mk s0 H core, ho, fun _ _ hx => by cases hx⟩
        show (queryList cfg bound cb s).2 = (queryList cfg bound cb s0).2
        unfold queryList dbQuery; rw [e, core.newMetric]
      · left
        refine ⟨by simpa using hde, rfl, ?_⟩
        have : (DOp.op (.query cfg bound cb)).run s = s := by
          show (queryList cfg bound cb s).2 = s
          unfold queryList dbQuery newMetric
          rw [if_pos (by simp [hde])]
        rw [this]; exact ⟨hd, hc⟩
    | latest cfg =>
      by_cases hde : s.dirExists = true
      · right; right
        obtain ⟨s0, H, e, core⟩ := fresh_newMetricG c (Ends given) s hd hc cfg ho true (Or.inr hde)
        refine ⟨s0, H, ?_, mk s0 H core, ho, fun _ _ hx => by cases hx⟩
        show (dbQueryLatest cfg s).2 = (dbQueryLatest cfg s0).2
        unfold dbQueryLatest dbQuery; rw [e, core.newMetric]
      · left
        refine ⟨by simpa using hde, rfl, ?_⟩
        have : (DOp.op (.latest cfg)).run s = s := by
          show (dbQueryLatest cfg s).2 = s
          unfold dbQueryLatest dbQuery newMetric
          rw [if_pos (by simp [hde])]
        rw [this]; exact ⟨hd, hc⟩

theorem DurInv.step {c : Bool} {s : Store} {given : List Val} (h : DurInv c s given) (o : DOp) (ho : o.Ok s) (hs : c = true → o.Small) :
    DurInv c (o.run s) (o.given ++ given) := by
  rcases h with ⟨hd, hc⟩ | ⟨first, last, H, U, V, h⟩
  · rcases DurInv.first (c := c) (given := given) hd hc o ho with ⟨_, _, h1, h2⟩ | rfl | ⟨s0, H, e, core, ho', _⟩
    · exact Or.inl ⟨h1, h2⟩
    · exact Or.inl ⟨hd, fun _ => rfl⟩
    · rw [e]
      obtain ⟨first', last', H', U', V', new, kept, h', _⟩ := core.step o ho' hs
      exact Or.inr ⟨_, _, _, _, _, h'⟩
  · obtain ⟨first', last', H', U', V', new, kept, h', _⟩ := h.step o ho hs
    exact Or.inr ⟨_, _, _, _, _, h'⟩

theorem DurInv.run {c : Bool} (ops : List DOp) : ∀ {s : Store} {given : List Val}, DurInv c s given → OkD ops s → (c = true → ∀ o ∈ ops, o.Small) →
    DurInv c (runD ops s) (givenD ops ++ given) := by
  induction ops with
  | nil => intro s given h _ _; exact h
  | cons o ops ih =>
    intro s given h ho hs
    have := ih (h.step o ho.1 (fun hc => hs hc o List.mem_cons_self)) ho.2 (fun hc x hx => hs hc x (List.mem_cons_of_mem _ hx))
    show DurInv c (runD ops (o.run s)) (givenD ops ++ o.given ++ given)
    rw [List.append_assoc]
    exact this

end Rothko
