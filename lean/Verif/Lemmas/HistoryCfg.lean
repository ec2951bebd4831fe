import Verif.Lemmas.History
import Verif.Props.SerialDb
/-!
# Histories with one configuration
-/
namespace Rothko

/-- The options of an operation, if it has any, are `cfg`. -/
def Op.Uses (cfg : Cfg) : Op → Prop
  | .write c _ => c = cfg
  | .query c _ _ => c = cfg
  | .latest c => c = cfg
  | .restart => True

/-- As `Reach`, with the same options in all operations. -/
def ReachCfg (cfg : Cfg) (s : Store) (acc : List Val) : Prop :=
  ∃ (de : Bool) (hit : Nat → Bool) (ops : List Op), (∀ o ∈ ops, o.Ok ∧ o.Uses cfg) ∧ runOps ops (Store.fresh de hit, []) = (s, acc)

theorem ReachCfg.reach {cfg : Cfg} {s : Store} {acc : List Val} (h : ReachCfg cfg s acc) : Reach s acc := by
  obtain ⟨de, hit, ops, hok, hr⟩ := h
  exact ⟨de, hit, ops, fun o ho => (hok o ho).1, hr⟩

theorem ReachCfg.reachMax {cfg : Cfg} {s : Store} {acc : List Val} (h : ReachCfg cfg s acc) : ReachMax cfg.max s acc := by
  obtain ⟨de, hit, ops, hok, hr⟩ := h
  refine ⟨de, hit, ops, fun o ho => ⟨(hok o ho).1, fun m hm => ?_⟩, hr⟩
  have := (hok o ho).2
  cases o with
  | write c v => cases hm; rw [show c = cfg from this]
  | _ => cases hm

/-- With one configuration: every file has its record size and count; a file but the newest is one that could not take the oldest value of the next one; values are dropped only when there are more files than the
limit, and there is never more than one more. -/
structure CfgInv (cfg : Cfg) (first last : Int) (H : Int → Handle) (V : Int → List Val) (d : List Val) : Prop where
  geo : ∀ i, first ≤ i → i ≤ last → (H i).size = cfg.size ∧ (H i).cap = cfg.cap
  full : ∀ i, first ≤ i → i < last → ∃ v ∈ V (i + 1), cfg.cap < used cfg.size (v :: V i)
  drop : d ≠ [] → 0 < cfg.max ∧ cfg.max ≤ last - first
  lim : 0 < cfg.max → last - first ≤ cfg.max

theorem cfgInv_first {cfg : Cfg} {H : Int → Handle} {V : Int → List Val} (h : (H 1).size = cfg.size ∧ (H 1).cap = cfg.cap) : CfgInv cfg 1 1 H V [] :=
  ⟨fun i a b => (show i = 1 by omega) ▸ h, fun i a b => by omega, fun h => absurd rfl h, fun h => by omega⟩

/-- As `StInv`, with `CfgInv`. -/
def StCfg (cfg : Cfg) (s : Store) (acc : List Val) : Prop :=
  (s.dir = [] ∧ (∀ i, s.cache i = none) ∧ acc = []) ∨ ∃ first last H V d, MInv s acc first last H V d ∧ CfgInv cfg first last H V d

theorem StCfg.query {s : Store} {acc : List Val} {cfg : Cfg} (h : StCfg cfg s acc) {σ : Type}
    (hg : GeoOk cfg.size cfg.cap) (bound : Int64) (cb : σ → Val → σ × Cb) (st : σ) : StCfg cfg (dbQuery cfg bound cb st s).2 acc := by
  rcases h with ⟨hd, hc, ha⟩ | ⟨first, last, H, V, d, inv, hP⟩
  · by_cases hde : s.dirExists = true
    · obtain ⟨s', H, e, hgeo, inv⟩ := fresh_newMetric_geo s hd hc cfg hg true (Or.inr hde)
      unfold dbQuery
      rw [e]
      obtain ⟨s2, e2, sd, cok⟩ := inv.core.dirInv.read cfg bound cb 1 1 (by omega) (by omega) st
      have : ((1 : Int) - 1 + 1).toNat = 1 := rfl
      simp only [this, e2]
      rw [ha]
      exact Or.inr ⟨1, 1, H, _, [], inv.same sd cok, cfgInv_first hgeo⟩
    · left
      unfold dbQuery newMetric
      rw [if_pos (by simp [hde])]
      exact ⟨hd, hc, ha⟩
  · obtain ⟨s2, e2, sd, cok⟩ := inv.core.dirInv.query cfg bound cb st
    rw [e2]
    exact Or.inr ⟨first, last, H, V, d, inv.same sd cok, hP⟩

theorem StCfg.step {s : Store} {acc : List Val} {cfg : Cfg} (h : StCfg cfg s acc) (o : Op) (ho : o.Ok) (hu : o.Uses cfg) :
    StCfg cfg (o.run (s, acc)).1 (o.run (s, acc)).2 := by
  cases o with
  | query c bound cb => cases (show c = cfg from hu); exact h.query ho bound _ _
  | latest c => cases (show c = cfg from hu); exact h.query ho _ _ _
  | restart =>
    rcases h with ⟨hd, hc, ha⟩ | ⟨first, last, H, V, d, inv, hP⟩
    · exact Or.inl ⟨hd, fun _ => rfl, ha⟩
    · exact Or.inr ⟨first, last, H, V, d, inv.same ⟨rfl, rfl, rfl, rfl, rfl⟩ (fun i x hx => by cases hx), hP⟩
  | write c v =>
    have hu : c = cfg := hu
    subst hu
    have key : ∀ (s0 : Store) (acc0 : List Val) (first last : Int) (H : Int → Handle) (V : Int → List Val) (d : List Val), MInv s0 acc0 first last H V d →
        CfgInv c first last H V d →
        dbWrite c v s0 = dbWrite c v s → acc0 = acc → StCfg c (Op.run (s, acc) (.write c v)).1 (Op.run (s, acc) (.write c v)).2 := by
      intro s0 acc0 first last H V d inv hP he hacc
      subst hacc
      have hr := inv.core.rng
      have hw := inv.write c v ho.1 ho.2
      rw [he] at hw
      unfold Op.run
      simp only
      generalize dbWrite c v s = r at hw
      cases hw with
      | notLater s' w t ha hw sd inv' => exact Or.inr ⟨first, last, H, V, d, inv', hP⟩
      | offByOne s' w ha hw h1 h2 _ sd inv' => exact Or.inr ⟨first, last, H, V, d, inv', hP⟩
      | here s' hl inv' =>
        refine Or.inr ⟨first, last, H, _, d, inv', hP.geo, fun i a b => ?_, hP.drop, hP.lim⟩
        obtain ⟨w, hw, hx⟩ := hP.full i a b
        refine ⟨w, ?_, by rw [upd_ne _ _ (by omega)]; exact hx⟩
        by_cases hi : i + 1 = last
        · rw [hi] at hw ⊢
          rw [upd_same]
          exact List.mem_cons_of_mem _ hw
        · rw [upd_ne _ _ hi]; exact hw
      | rotate s' h2 hl first' d' hf inv' hs hcp hfull =>
        have hfst : first ≤ first' := by omega
        refine Or.inr ⟨first', last + 1, _, _, d', inv', fun i a b => ?_, fun i a b => ?_, fun hd => ?_, fun hm => ?_⟩
        · by_cases hi : i = last + 1
          · rw [hi, upd_same]; exact ⟨hs, hcp⟩
          · rw [upd_ne _ _ hi]; exact hP.geo i (by omega) (by omega)
        · rw [upd_ne (i := i) _ _ (by omega)]
          by_cases hi : i = last
          · rw [hi, upd_same]
            obtain ⟨g1, g2⟩ := hP.geo last hr.2 (by omega)
            rw [g1, g2] at hfull
            exact ⟨v, by simp, hfull⟩
          · rw [upd_ne _ _ (by omega)]; exact hP.full i (by omega) (by omega)
        · rcases hf with ⟨h1, h2, h3⟩ | ⟨h1, h2, h3, h4⟩
          · have := hP.drop (by rw [← h2]; exact hd)
            omega
          · omega
        · have := hP.lim hm
          rcases hf with ⟨h1, h2, h3⟩ | ⟨h1, h2, h3, h4⟩ <;> omega
    rcases h with ⟨hd, hc, ha⟩ | ⟨first, last, H, V, d, inv, hP⟩
    · obtain ⟨s', H, e, hgeo, inv⟩ := fresh_newMetric_geo s hd hc c ho.1 false (Or.inl rfl)
      refine key s' [] 1 1 H _ [] inv (cfgInv_first hgeo) ?_ ha.symm
      unfold dbWrite
      rw [e, inv.core.dirInv.newMetric]
    · exact key s acc first last H V d inv hP rfl rfl

theorem ReachCfg.inv {cfg : Cfg} {s : Store} {acc : List Val} (h : ReachCfg cfg s acc) : StCfg cfg s acc := by
  obtain ⟨de, hit, ops, hok, hrun⟩ := h
  have key : ∀ (ops : List Op) (s : Store) (acc : List Val), (∀ o ∈ ops, o.Ok ∧ o.Uses cfg) → StCfg cfg s acc → StCfg cfg (runOps ops (s, acc)).1 (runOps ops (s, acc)).2 := by
    intro ops
    induction ops with
    | nil => intro s acc _ h; exact h
    | cons o ops ih =>
      intro s acc hok h
      have ho := hok o List.mem_cons_self
      exact ih _ _ (fun x hx => hok x (List.mem_cons_of_mem _ hx)) (h.step o ho.1 ho.2)
  have := key ops (Store.fresh de hit) [] hok (Or.inl ⟨rfl, fun _ => rfl, rfl⟩)
  rw [hrun] at this
  exact this

theorem ReachCfg.step {cfg : Cfg} {s : Store} {acc : List Val} (h : ReachCfg cfg s acc) (o : Op) (ho : o.Ok) (hu : o.Uses cfg) : ReachCfg cfg (o.run (s, acc)).1 (o.run (s, acc)).2 := by
  obtain ⟨de, hit, ops, hok, hrun⟩ := h
  refine ⟨de, hit, ops ++ [o], ?_, ?_⟩
  · intro x hx
    rcases List.mem_append.mp hx with hx | hx
    · exact hok x hx
    · rw [List.mem_singleton.mp hx]; exact ⟨ho, hu⟩
  · unfold runOps at hrun ⊢
    rw [List.foldl_append, hrun]
    rfl

/-- Making the directory leads from a state of a history to a state of a history. -/
theorem ReachCfg.mkdir {cfg : Cfg} {s : Store} {acc : List Val} (h : ReachCfg cfg s acc) : ReachCfg cfg (mkdirEnv s) acc := by
  cases hd : s.dirExists with
  | true =>
    have e : mkdirEnv s = s := by unfold mkdirEnv; rw [← hd]
    rw [e]; exact h
  | false =>
    obtain ⟨de, hit, ops, hok, he⟩ := h
    cases de with
    | true =>
      exfalso
      have back : ∀ (ops : List Op) (sa : Store × List Val), (runOps ops sa).1.dirExists = false → sa.1.dirExists = false := by
        intro ops
        induction ops with
        | nil => intro sa h; exact h
        | cons o ops ih => intro sa h; exact dir_stays o sa (ih _ h)
      have := back ops (Store.fresh true hit, []) (by rw [he]; exact hd)
      cases this
    | false =>
      have h1 := runOps_fresh ops hit (by rw [he]; exact hd)
      rw [he] at h1
      injection h1 with h1 h2
      subst h1
      subst h2
      exact ⟨true, hit, [], fun o ho => (by cases ho), rfl⟩

/-- **C20** (one configuration). As long as the options stay the same, a value that leaves a slot free in an empty file, and ends after everything acknowledged, is accepted; and so is one that needs the whole file,
unless exactly one value has been acknowledged so far. -/
theorem C20_one_config_partial {cfg : Cfg} {s : Store} {acc : List Val} (h : ReachCfg cfg s acc) (v : Val) (hg : GeoOk cfg.size cfg.cap) (hlater : ∀ w ∈ acc, w.stop < v.stop)
    (hfit : needs cfg.size v.data.length < cfg.cap ∨ needs cfg.size v.data.length = cfg.cap ∧ acc.length ≠ 1) : (dbWrite cfg v s).1 = .written := by
  have hle : needs cfg.size v.data.length ≤ cfg.cap := by omega
  have key : ∀ (s0 : Store) (first last : Int) (H : Int → Handle) (V : Int → List Val) (d : List Val), MInv s0 acc first last H V d →
      CfgInv cfg first last H V d → dbWrite cfg v s0 = dbWrite cfg v s → (dbWrite cfg v s).1 = .written := by
    intro s0 first last H V d inv hgeo he
    have hw := inv.write cfg v hg hle
    rw [he] at hw
    generalize dbWrite cfg v s = r at hw
    cases hw with
    | notLater s2 w t ha hle sd inv' =>
      have := hlater w (by rw [ha]; simp)
      rw [Int64.lt_iff_toInt_lt] at this
      rw [Int64.le_iff_toInt_le] at hle
      omega
    | offByOne s2 w ha _ _ h2 hfull _ _ =>
      obtain ⟨g1, g2⟩ := hgeo.geo 1 (by have := inv.core.rng; omega) (by omega)
      rw [g1, g2] at hfull
      rw [ha] at hfit
      simp at hfit
      omega
    | here s2 hl => rfl
    | rotate s2 h2 hl => rfl
  rcases h.inv with ⟨hd, hc, ha⟩ | ⟨first, last, H, V, d, inv, hgeo⟩
  · obtain ⟨s', H, e, hgeo, inv⟩ := fresh_newMetric_geo s hd hc cfg hg false (Or.inl rfl)
    refine key s' 1 1 H _ [] (by rw [ha]; exact inv) (cfgInv_first hgeo) ?_
    unfold dbWrite; rw [e, inv.core.dirInv.newMetric]
  · exact key s first last H V d inv hgeo rfl

end Rothko
