import Verif.Lemmas.MetricWrite
/-! The invariant of a metric along histories. -/
namespace Rothko

/-- The values held by files `first..last`, newest first. -/
def valuesOf (V : Int → List Val) (first last : Int) : List Val := (filesDown V (last - first + 1).toNat last).flatten

/-- `acc`: acknowledged values, newest first; `dropped`: those removed by rotation. -/
structure MInv (s : Store) (acc : List Val) (first last : Int) (H : Int → Handle) (V : Int → List Val) (dropped : List Val) : Prop where
  core : Core s first last H V
  ne : ∀ i, first < i → i ≤ last → V i ≠ []
  eq : acc = valuesOf V first last ++ dropped
  one : first = 1 → dropped = []
  empty : V last = [] → acc = []
  sorted : acc.Pairwise (fun a b => b.stop < a.stop)

theorem valuesOf_push (V : Int → List Val) (first last : Int) (h : first ≤ last) (v : Val) :
    valuesOf (upd V last (v :: V last)) first last = v :: valuesOf V first last := by
  unfold valuesOf
  rw [show (last - first + 1).toNat = (last - first).toNat + 1 by omega]
  simp only [filesDown, upd_same, List.flatten_cons, List.cons_append]
  congr 3
  exact filesDown_congr (fun i h1 h2 => upd_ne _ _ (by omega))

theorem valuesOf_new (V : Int → List Val) (first last : Int) (h : first ≤ last + 1) (vs : List Val) :
    valuesOf (upd V (last + 1) vs) first (last + 1) = vs ++ valuesOf V first last := by
  unfold valuesOf
  rw [show (last + 1 - first + 1).toNat = (last - first + 1).toNat + 1 by omega]
  simp only [filesDown, upd_same, List.flatten_cons]
  congr 2
  rw [show last + 1 - 1 = last by omega]
  exact filesDown_congr (fun i h1 h2 => upd_ne _ _ (by omega))

theorem valuesOf_drop (V : Int → List Val) (first last : Int) (h : first ≤ last) :
    valuesOf V first last = valuesOf V (first + 1) last ++ V first := by
  unfold valuesOf
  rw [show (last - first + 1).toNat = (last - (first + 1) + 1).toNat + 1 by omega, filesDown_snoc]
  rw [List.flatten_append]
  simp only [List.flatten_cons, List.flatten_nil, List.append_nil]
  congr 2
  omega

theorem MInv.same {s s' : Store} {acc : List Val} {first last : Int} {H : Int → Handle} {V : Int → List Val} {d : List Val}
    (h : MInv s acc first last H V d) (hs : SameDisk s s') (hc : CacheOk s' first last H) : MInv s' acc first last H V d :=
  ⟨h.core.same hs hc, h.ne, h.eq, h.one, h.empty, h.sorted⟩

theorem MInv.newest {s : Store} {acc : List Val} {first last : Int} {H : Int → Handle} {V : Int → List Val} {d : List Val}
    (h : MInv s acc first last H V d) {w : Val} {ws : List Val} (hV : V last = w :: ws) : ∃ t, acc = w :: t := by
  have hr := h.core.rng
  rw [h.eq]
  unfold valuesOf
  rw [show (last - first + 1).toNat = (last - first).toNat + 1 by omega]
  simp only [filesDown, hV, List.flatten_cons, List.cons_append]
  exact ⟨_, rfl⟩

theorem MInv.later {s : Store} {acc : List Val} {first last : Int} {H : Int → Handle} {V : Int → List Val} {d : List Val}
    (h : MInv s acc first last H V d) (v : Val) (hl : ∀ w ws, V last = w :: ws → w.stop < v.stop) : ∀ w ∈ acc, w.stop < v.stop := by
  intro w hw
  cases hV : V last with
  | nil => rw [h.empty hV] at hw; cases hw
  | cons x xs =>
    have hx := hl x xs hV
    obtain ⟨t, ht⟩ := h.newest hV
    have hs := h.sorted
    rw [ht] at hs hw
    rcases List.mem_cons.mp hw with rfl | hw
    · exact hx
    · have := (List.pairwise_cons.mp hs).1 w hw
      rw [Int64.lt_iff_toInt_lt] at *
      omega

/-- The effect of one write on the invariant. -/
inductive WriteStep (cfg : Cfg) (v : Val) (s : Store) (acc : List Val) (first last : Int) (H : Int → Handle) (V : Int → List Val)
    (d : List Val) : WRes × Store → Prop
  | notLater (s' : Store) (w : Val) (t : List Val) (ha : acc = w :: t) (hw : v.stop ≤ w.stop) (sd : SameDisk s s')
      (inv : MInv s' acc first last H V d) : WriteStep cfg v s acc first last H V d (.notWritten, s')
  | offByOne (s' : Store) (w : Val) (ha : acc = [w]) (hw : w.stop < v.stop) (h1 : first = 1) (h2 : last = 1)
      (hfull : (H 1).cap < needs (H 1).size v.data.length + 1) (sd : SameDisk s s')
      (inv : MInv s' acc first last H V d) : WriteStep cfg v s acc first last H V d (.failed .valueTooLarge, s')
  | here (s' : Store) (hl : ∀ w ∈ acc, w.stop < v.stop) (inv : MInv s' (v :: acc) first last H (upd V last (v :: V last)) d) :
      WriteStep cfg v s acc first last H V d (.written, s')
  | rotate (s' : Store) (h2 : Handle) (hl : ∀ w ∈ acc, w.stop < v.stop) (first' : Int) (d' : List Val)
      (hf : (first' = first ∧ d' = d ∧ ¬ (last - first ≥ cfg.max ∧ cfg.max > 0)) ∨
        (first' = first + 1 ∧ d' = V first ++ d ∧ last - first ≥ cfg.max ∧ cfg.max > 0))
      (inv : MInv s' (v :: acc) first' (last + 1) (upd H (last + 1) h2) (upd V (last + 1) [v]) d')
      (hs : h2.size = cfg.size) (hc : h2.cap = cfg.cap) (hfull : (H last).cap < used (H last).size (v :: V last)) :
      WriteStep cfg v s acc first last H V d (.written, s')

theorem sorted_cons {v : Val} {acc : List Val} (h : acc.Pairwise (fun a b => b.stop < a.stop)) (hl : ∀ w ∈ acc, w.stop < v.stop) :
    (v :: acc).Pairwise (fun a b => b.stop < a.stop) := List.pairwise_cons.mpr ⟨fun w hw => hl w hw, h⟩

theorem MInv.write {s : Store} {acc : List Val} {first last : Int} {H : Int → Handle} {V : Int → List Val} {d : List Val}
    (h : MInv s acc first last H V d) (cfg : Cfg) (v : Val) (hg : GeoOk cfg.size cfg.cap) (hfit : needs cfg.size v.data.length ≤ cfg.cap) :
    WriteStep cfg v s acc first last H V d (dbWrite cfg v s) := by
  have hr := h.core.rng
  unfold dbWrite
  rw [h.core.dirInv.newMetric]
  simp only
  unfold metricWrite
  have hp := h.core.prep (fun hlt => h.ne last hlt (by omega)) cfg v hg
  have hgeo : GeoOk (H last).size (H last).cap := (h.core.rep last hr.2 (by omega)).geo
  have hgs := geo_size hgeo
  generalize writePrep cfg first last v s = p at hp
  cases hp with
  | notLater w ws s' hV hw sd c =>
    obtain ⟨t, ht⟩ := h.newest hV
    have hsd := sd.trans (sameDisk_release s' last (H last))
    exact .notLater _ w t ht hw hsd (h.same hsd (c.release hr.2 (by omega)))
  | tooLarge s' h2 hbig => omega
  | offByOne s' h1 h2 h3 hlater sd c =>
    have hl := h.later v hlater
    subst h1
    have hf1 : first = 1 := by omega
    subst hf1
    have hd := h.one rfl
    have hacc := h.eq
    have hval : valuesOf V 1 1 = V 1 := by simp [valuesOf, filesDown]
    rw [hval, hd, List.append_nil] at hacc
    cases hV : V 1 with
    | nil => rw [hV] at h2; simp [used, allChunks] at h2
    | cons w ws =>
      have hws : ws = [] := by
        rw [hV, used_cons] at h2
        have := (chunks_spec (H 1).size w hgs.1 hgs.2).2.2.2.1
        exact (used_zero hgs.1 hgs.2).mp (by omega)
      have hsd := sd.trans (sameDisk_release s' 1 (H 1))
      refine .offByOne _ w (by rw [hacc, hV, hws]) ?_ rfl rfl ?_ hsd (h.same hsd (c.release (by omega) (by omega)))
      · apply hl; rw [hacc, hV]; simp
      · rw [used_cons, h2, (chunks_spec (H 1).size v hgs.1 hgs.2).2.2.1] at h3; omega
  | here s' nr hfit' hlater sd c =>
    have hl := h.later v hlater
    obtain ⟨f', e, core'⟩ := (h.core.same sd c).write v hfit'
    simp only [e]
    have core2 := core'.same (sameDisk_release _ last (H last)) (core'.cache.release hr.2 (by omega))
    refine .here _ hl ⟨core2, ?_, ?_, h.one, ?_, sorted_cons h.sorted hl⟩
    · intro i a b
      by_cases hi : i = last
      · subst hi; rw [upd_same]; simp
      · rw [upd_ne _ _ hi]; exact h.ne i a b
    · rw [valuesOf_push _ _ _ hr.2, List.cons_append, ← h.eq]
    · rw [upd_same]; intro hx; cases hx
  | rotate s' nr h2 hs hc hfull hlater first' hf core' hh =>
    have hl := h.later v hlater
    have hgc := geo_size hg
    have hused : used cfg.size [v] ≤ cfg.cap := by
      rw [used_cons, (chunks_spec cfg.size v hgc.1 hgc.2).2.2.1]
      simpa [used, allChunks] using hfit
    obtain ⟨f', e, core2⟩ := core'.write v (by rw [upd_same, upd_same, hs, hc]; exact hused)
    rw [upd_same, upd_same] at e core2
    simp only [e]
    have hr' := core'.rng
    have hne1 : last ≠ last + 1 := by omega
    have hupd : upd (upd V (last + 1) []) (last + 1) [v] = upd V (last + 1) [v] := by
      funext i; unfold upd; split <;> rfl
    rw [hupd] at core2
    have hfle : first' ≤ last := by
      rw [hf]; split
      · rename_i hx; omega
      · exact hr.2
    have rel1 := core2.cache.release (idx := last + 1) hr'.2 (by omega)
    rw [upd_same] at rel1
    have rel2 := rel1.release (idx := last) hfle (by omega)
    rw [upd_ne _ _ hne1] at rel2
    have core3 := core2.same ((sameDisk_release _ _ _).trans (sameDisk_release _ _ _)) rel2
    have hne' : ∀ i, first' < i → i ≤ last + 1 → upd V (last + 1) [v] i ≠ [] := by
      intro i a b
      by_cases hi : i = last + 1
      · subst hi; rw [upd_same]; simp
      · rw [upd_ne _ _ hi]
        apply h.ne i _ (by omega)
        rw [hf] at a; split at a <;> omega
    have hemp : upd V (last + 1) [v] (last + 1) = [] → v :: acc = [] := by rw [upd_same]; intro hx; cases hx
    by_cases hd : last - first ≥ cfg.max ∧ cfg.max > 0
    · rw [if_pos hd] at hf
      refine .rotate _ h2 hl first' (V first ++ d) (Or.inr ⟨hf, rfl, hd⟩) ⟨core3, hne', ?_, ?_, hemp, sorted_cons h.sorted hl⟩ hs hc hfull
      · rw [valuesOf_new _ _ _ (by omega), hf, h.eq, valuesOf_drop V first last hr.2]
        simp
      · intro hx; omega
    · rw [if_neg hd] at hf
      refine .rotate _ h2 hl first' d (Or.inl ⟨hf, rfl, hd⟩) ⟨core3, hne', ?_, ?_, hemp, sorted_cons h.sorted hl⟩ hs hc hfull
      · rw [valuesOf_new _ _ _ (by omega), hf, h.eq]
        simp
      · rw [hf]; exact h.one

/-- The first access creates file 1, with the record size and count of the options. -/
theorem fresh_newMetric_geo (s : Store) (hd : s.dir = []) (hc : ∀ i, s.cache i = none) (cfg : Cfg) (hg : GeoOk cfg.size cfg.cap) (ro : Bool)
    (hro : ro = false ∨ s.dirExists = true) :
    ∃ s' H, newMetric cfg ro s = (.ok (1, 1), s') ∧ ((H 1).size = cfg.size ∧ (H 1).cap = cfg.cap) ∧ MInv s' [] 1 1 H (fun _ => []) [] := by
  obtain ⟨f, ec, hs, hcp, hrep⟩ := create_rep cfg.size cfg.cap hg
  let s0 : Store := { s with dirExists := true }
  let s1 : Store := { s0.evict 1 with clock := s.clock + 1 }
  have hlk : s1.lookup 1 = none := by
    show Option.map Prod.snd (s.dir.find? _) = none
    rw [hd]; rfl
  let h2 : Handle := { ino := s.next, size := f.size, cap := f.cap }
  let s2 : Store := { s1 with dir := [(1, s.next)], next := s.next + 1, disk := fun i => if i = s.next then f.data else s.disk i }
  have hacq : s0.acquire cfg 1 false = (.ok h2, s2) := by
    rw [acquire_miss cfg s0 1 (hc 1), createAt_new cfg _ 1 f ec hlk]
    simp only [s0, s2, s1, h2, Store.evict, hd]
  have hnm : newMetric cfg ro s = (.ok (1, 1), s2.release 1 h2) := by
    unfold newMetric
    rw [if_neg (by rcases hro with h | h <;> simp [h])]
    have hscan : ((s0.dir.map Prod.fst).foldl scanStep (0, 0, false)).2.2 = false := by
      show (((s.dir).map Prod.fst).foldl scanStep (0, 0, false)).2.2 = false
      rw [hd]; rfl
    simp only
    rw [show ({ s with dirExists := true } : Store) = s0 from rfl, hscan]
    simp only [Bool.false_eq_true, if_false, hacq]
  refine ⟨_, fun _ => h2, hnm, ⟨hs, hcp⟩, ⟨⟨rfl, ⟨by omega, by omega⟩, ?_, ?_, ?_, rfl, ?_, ?_, ?_⟩, ?_, ?_, fun _ => rfl, fun _ => rfl, List.Pairwise.nil⟩⟩
  · intro idx
    show Option.map Prod.snd (List.find? (fun p => p.1 == idx) [(1, s.next)]) = _
    by_cases hi : idx = 1
    · subst hi; rw [if_pos (by omega)]; rfl
    · rw [if_neg (by omega), List.find?_cons_of_neg (by simp; omega)]; rfl
  · intro i a b
    have : (s2.release 1 h2).file h2 = f := by
      unfold Store.file
      have : (s2.release 1 h2).disk h2.ino = f.data := if_pos rfl
      rw [this]
    show FileRep ((s2.release 1 h2).file h2) []
    rw [this]; exact hrep
  · intro i x hx
    have hx' : (if i = 1 then some h2 else if i = 1 then none else s.cache i) = some x := hx
    by_cases hi : i = 1
    · rw [if_pos hi] at hx'; cases hx'; exact ⟨by omega, rfl⟩
    · rw [if_neg hi, if_neg hi, hc i] at hx'; cases hx'
  · show List.Nodup [(1 : Int)]
    simp
  · intro i j a b c d _; omega
  · intro i a b; show s.next < s.next + 1; omega
  · intro i a b; omega
  · simp [valuesOf, filesDown]

/-- The first access creates file 1. -/
theorem fresh_newMetric (s : Store) (hd : s.dir = []) (hc : ∀ i, s.cache i = none) (cfg : Cfg) (hg : GeoOk cfg.size cfg.cap) (ro : Bool)
    (hro : ro = false ∨ s.dirExists = true) :
    ∃ s' H, newMetric cfg ro s = (.ok (1, 1), s') ∧ MInv s' [] 1 1 H (fun _ => []) [] := by
  obtain ⟨s', H, e, _, inv⟩ := fresh_newMetric_geo s hd hc cfg hg ro hro
  exact ⟨s', H, e, inv⟩

/-- No data yet, or the invariant; `P` collects facts about the range of file numbers. -/
def StInv (P : Int → Int → Prop) (s : Store) (acc : List Val) : Prop :=
  (s.dir = [] ∧ (∀ i, s.cache i = none) ∧ acc = []) ∨ ∃ first last H V d, MInv s acc first last H V d ∧ P first last

/-- `P` survives the writes of an operation. -/
def Keeps (P : Int → Int → Prop) : Op → Prop
  | .write cfg _ => ∀ first last, 1 ≤ first → first ≤ last → P first last →
      (last - first ≥ cfg.max ∧ cfg.max > 0 → P (first + 1) (last + 1)) ∧
      (¬ (last - first ≥ cfg.max ∧ cfg.max > 0) → P first (last + 1))
  | _ => True

theorem StInv.query {P : Int → Int → Prop} {s : Store} {acc : List Val} (h : StInv P s acc) (h11 : P 1 1) {σ : Type} (cfg : Cfg)
    (hg : GeoOk cfg.size cfg.cap) (bound : Int64) (cb : σ → Val → σ × Cb) (st : σ) : StInv P (dbQuery cfg bound cb st s).2 acc := by
  rcases h with ⟨hd, hc, ha⟩ | ⟨first, last, H, V, d, inv, hP⟩
  · by_cases hde : s.dirExists = true
    · obtain ⟨s', H, e, inv⟩ := fresh_newMetric s hd hc cfg hg true (Or.inr hde)
      unfold dbQuery
      rw [e]
      obtain ⟨s2, e2, sd, cok⟩ := inv.core.dirInv.read cfg bound cb 1 1 (by omega) (by omega) st
      have : ((1 : Int) - 1 + 1).toNat = 1 := rfl
      simp only [this, e2]
      rw [ha]
      exact Or.inr ⟨1, 1, H, _, [], inv.same sd cok, h11⟩
    · left
      unfold dbQuery newMetric
      rw [if_pos (by simp [hde])]
      exact ⟨hd, hc, ha⟩
  · obtain ⟨s2, e2, sd, cok⟩ := inv.core.dirInv.query cfg bound cb st
    rw [e2]
    exact Or.inr ⟨first, last, H, V, d, inv.same sd cok, hP⟩

theorem StInv.step {P : Int → Int → Prop} {s : Store} {acc : List Val} (h : StInv P s acc) (h11 : P 1 1) (o : Op) (ho : o.Ok) (hk : Keeps P o) :
    StInv P (o.run (s, acc)).1 (o.run (s, acc)).2 := by
  cases o with
  | query cfg bound cb => exact h.query h11 cfg ho bound _ _
  | latest cfg => exact h.query h11 cfg ho _ _ _
  | restart =>
    rcases h with ⟨hd, hc, ha⟩ | ⟨first, last, H, V, d, inv, hP⟩
    · exact Or.inl ⟨hd, fun _ => rfl, ha⟩
    · exact Or.inr ⟨first, last, H, V, d, inv.same ⟨rfl, rfl, rfl, rfl, rfl⟩ (fun i x hx => by cases hx), hP⟩
  | write cfg v =>
    have key : ∀ (s0 : Store) (acc0 : List Val) first last H V d, MInv s0 acc0 first last H V d → P first last →
        dbWrite cfg v s0 = dbWrite cfg v s → acc0 = acc → StInv P (Op.run (s, acc) (.write cfg v)).1 (Op.run (s, acc) (.write cfg v)).2 := by
      intro s0 acc0 first last H V d inv hP he hacc
      subst hacc
      have hr := inv.core.rng
      have hw := inv.write cfg v ho.1 ho.2
      rw [he] at hw
      have hkk := hk first last hr.1 hr.2 hP
      unfold Op.run
      simp only
      generalize dbWrite cfg v s = r at hw
      cases hw with
      | notLater s' w t ha hw sd inv' => exact Or.inr ⟨first, last, H, V, d, inv', hP⟩
      | offByOne s' w ha hw h1 h2 _ sd inv' => exact Or.inr ⟨first, last, H, V, d, inv', hP⟩
      | here s' hl inv' => exact Or.inr ⟨first, last, H, _, d, inv', hP⟩
      | rotate s' h2 hl first' d' hf inv' =>
        refine Or.inr ⟨first', last + 1, _, _, d', inv', ?_⟩
        rcases hf with ⟨rfl, _, hx⟩ | ⟨rfl, _, hx⟩
        · exact hkk.2 hx
        · exact hkk.1 hx
    rcases h with ⟨hd, hc, ha⟩ | ⟨first, last, H, V, d, inv, hP⟩
    · obtain ⟨s', H, e, inv⟩ := fresh_newMetric s hd hc cfg ho.1 false (Or.inl rfl)
      refine key s' [] 1 1 H _ [] inv h11 ?_ ha.symm
      unfold dbWrite
      rw [e, inv.core.dirInv.newMetric]
    · exact key s acc first last H V d inv hP rfl rfl

theorem StInv.run {P : Int → Int → Prop} (h11 : P 1 1) (ops : List Op) (hops : ∀ o ∈ ops, o.Ok ∧ Keeps P o) (s : Store) (acc : List Val)
    (h : StInv P s acc) : StInv P (runOps ops (s, acc)).1 (runOps ops (s, acc)).2 := by
  induction ops generalizing s acc with
  | nil => exact h
  | cons o ops ih =>
    have ho := hops o List.mem_cons_self
    exact ih (fun x hx => hops x (List.mem_cons_of_mem _ hx)) _ _ (h.step h11 o ho.1 ho.2)

/-- The invariant holds in every reachable state. -/
theorem Reach.inv {s : Store} {acc : List Val} (h : Reach s acc) : StInv (fun _ _ => True) s acc := by
  obtain ⟨de, hit, ops, hok, hrun⟩ := h
  have := StInv.run (P := fun _ _ => True) trivial ops (fun o ho => ⟨hok o ho, by cases o <;> simp [Keeps]⟩) (Store.fresh de hit) []
    (Or.inl ⟨rfl, fun _ => rfl, rfl⟩)
  rw [hrun] at this
  exact this

/-- With a fixed file limit, the range of file numbers is bounded, or nothing is ever dropped. -/
theorem ReachMax.inv {max : Int} {s : Store} {acc : List Val} (h : ReachMax max s acc) :
    StInv (fun first last => (max > 0 → last - first ≤ max) ∧ (max ≤ 0 → first = 1)) s acc := by
  obtain ⟨de, hit, ops, hok, hrun⟩ := h
  have := StInv.run (P := fun first last => (max > 0 → last - first ≤ max) ∧ (max ≤ 0 → first = 1)) (by constructor <;> omega) ops
    (fun o ho => ⟨(hok o ho).1, by
      cases o with
      | write cfg v =>
        have hm := (hok _ ho).2 cfg.max rfl
        intro first last h1 h2 hP
        rw [hm]
        constructor
        · intro hx; constructor <;> omega
        · intro hx; constructor <;> omega
      | _ => trivial⟩) (Store.fresh de hit) []
    (Or.inl ⟨rfl, fun _ => rfl, rfl⟩)
  rw [hrun] at this
  exact this

end Rothko
