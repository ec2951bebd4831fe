import Verif.Spec.Pipe
import Verif.Lemmas.HistoryCfg
import Verif.Props.Writer
import Verif.Props.Proto
import Verif.Props.Crash
/-!
# C70: what is observed is what is stored
-/
namespace Rothko

/-! ## The files after a dump -/

/-- The acknowledged values of a metric after the records were written. -/
def accAfter (gs : List Captured) (acc : Bytes → List Val) (x : Bytes) : List Val :=
  match gs.find? (fun c => c.metric == x) with
  | some c => valOf c.rec_ :: acc x
  | none => acc x

theorem store_all (o : PipeCfg) (hg : GeoOk o.cfg.size o.cfg.cap) (gs : List Captured) (hnd : (gs.map (·.metric)).Nodup) (db : Bytes → Store) (acc : Bytes → List Val)
    (h : ∀ x, ReachCfg o.cfg (db x) (acc x)) (hfit : ∀ c ∈ gs, needs o.cfg.size c.rec_.encode.length < o.cfg.cap) (hlater : ∀ c ∈ gs, ∀ w ∈ acc c.metric, w.stop < c.rec_.endTime) :
    ∀ x, ReachCfg o.cfg (gs.foldl (Pipe.store o) db x) (accAfter gs acc x) := by
  induction gs generalizing db acc with
  | nil => exact h
  | cons c gs ih =>
    have hn := List.nodup_cons.mp hnd
    rw [List.foldl_cons]
    let acc' : Bytes → List Val := fun x => if x = c.metric then valOf c.rec_ :: acc x else acc x
    have hstep : ∀ x, ReachCfg o.cfg (Pipe.store o db c x) (acc' x) := by
      intro x
      show ReachCfg o.cfg (if x = c.metric then _ else _) (if x = c.metric then _ else _)
      by_cases hx : x = c.metric
      · rw [if_pos hx, if_pos hx]
        have hl : ∀ w ∈ acc x, w.stop < (valOf c.rec_).stop := by rw [hx]; exact hlater c List.mem_cons_self
        have hf : needs o.cfg.size (valOf c.rec_).data.length < o.cfg.cap := hfit c List.mem_cons_self
        have hw := C20_one_config_partial (h x) (valOf c.rec_) hg hl (.inl hf)
        have hs := (h x).step (.write o.cfg (valOf c.rec_)) ⟨hg, Nat.le_of_lt hf⟩ rfl
        unfold Op.run at hs
        dsimp only at hs
        generalize dbWrite o.cfg (valOf c.rec_) (db x) = r at hw hs
        obtain ⟨a, b⟩ := r
        dsimp only at hw
        subst hw
        exact hs
      · rw [if_neg hx, if_neg hx]
        split
        · exact (h x).mkdir
        · exact h x
    have hne : ∀ c' ∈ gs, c'.metric ≠ c.metric := fun c' hc' e => hn.1 (List.mem_map.mpr ⟨c', hc', e⟩)
    intro x
    have := ih hn.2 (Pipe.store o db c) acc' hstep (fun c' hc' => hfit c' (List.mem_cons_of_mem _ hc')) (by
      intro c' hc' w hw
      have : acc' c'.metric = acc c'.metric := if_neg (hne c' hc')
      rw [this] at hw
      exact hlater c' (List.mem_cons_of_mem _ hc') w hw) x
    have he : accAfter gs acc' x = accAfter (c :: gs) acc x := by
      unfold accAfter
      rw [List.find?_cons]
      by_cases hx : x = c.metric
      · subst hx
        have hnone : gs.find? (fun c' => c'.metric == c.metric) = none := by
          rw [List.find?_eq_none]
          intro c' hc'
          simpa using hne c' hc'
        rw [hnone]
        simp [acc']
      · have : (c.metric == x) = false := by simpa using fun e => hx e.symm
        rw [this]
        have ha : acc' x = acc x := if_neg hx
        simp only [ha]
    rw [← he]
    exact this

/-! ## The invariant -/

/-- The records stored for a metric. -/
def Right (d : DistParams) (m : Bytes) (r : DRec) (b : Batch) : Prop := RecordOf d b.start b.stop (obsOf m b.obs) r

structure PInv (o : PipeCfg) (K : Nat) (t : PSpec) (s : Pipe) : Prop where
  w : WInv o.d t.w s.w
  ids : ∀ e ∈ t.w.pend, e.2.id.length ≤ K
  db : ∀ m, ∃ recs : List DRec, EachOf (Right o.d m) recs (t.kept m) ∧ (∀ r ∈ recs, needs o.cfg.size r.encode.length < o.cfg.cap) ∧ ReachCfg o.cfg (s.db m) (recs.map valOf)

theorem eachOf_left {α β : Type} {R : α → β → Prop} {l : List α} {k : List β} (h : EachOf R l k) : ∀ a ∈ l, ∃ b ∈ k, R a b := by
  induction h with
  | nil => intro a ha; cases ha
  | cons hr _ ih =>
    intro a ha
    rcases List.mem_cons.mp ha with rfl | ha
    · exact ⟨_, List.mem_cons_self, hr⟩
    · obtain ⟨b, hb, hab⟩ := ih a ha
      exact ⟨b, List.mem_cons_of_mem _ hb, hab⟩

theorem obsOf_mem {m : Bytes} {l : List (Bytes × Obs)} {x : Obs} (h : x ∈ obsOf m l) : (m, x) ∈ l := by
  unfold obsOf at h
  obtain ⟨e, he, rfl⟩ := List.mem_map.mp h
  obtain ⟨h1, h2⟩ := List.mem_filter.mp he
  have : e.1 = m := by simpa using h2
  rw [← this]
  exact h1

theorem PInv.step {o : PipeCfg} {K : Nat} (hd : o.d.newOk = true) (hg : GeoOk o.cfg.size o.cfg.cap) (hfit : Fits o K) {t : PSpec} {s : Pipe} (h : PInv o K t s)
    (op : POp) (hop : op.Fair K) (hlen : t.w.pend.length < 9223372036854775808) (htime : ∀ now ∈ dumpTimes [op], ∀ m, ∀ b ∈ t.kept m, b.stop < now) :
    PInv o K (t.step op) (op.run o s) := by
  cases op with
  | add m ob now =>
    refine ⟨h.w.step hd hlen (.add m ob now) trivial, ?_, h.db⟩
    show ∀ e ∈ (t.w.step (.add m ob now)).pend, _
    unfold WSpec.step
    dsimp only
    split
    · intro e he
      rcases List.mem_append.mp he with he | he
      · exact h.ids e he
      · rw [List.mem_singleton.mp he]; exact hop
    · exact h.ids
  | query metric bound cb =>
    refine ⟨h.w, h.ids, fun m => ?_⟩
    obtain ⟨recs, h1, h3, h2⟩ := h.db m
    refine ⟨recs, h1, h3, ?_⟩
    show ReachCfg o.cfg (if m = metric then _ else _) _
    split
    · exact h2.step (.query o.cfg bound cb) hg rfl
    · exact h2
  | restart =>
    refine ⟨winv_init _, fun e he => (by cases he), fun m => ?_⟩
    obtain ⟨recs, h1, h3, h2⟩ := h.db m
    exact ⟨recs, h1, h3, h2.step .restart trivial trivial⟩
  | dump order now taken =>
    have hcap := h.w.step hd hlen (.capture order now) hop
    have hrun : (WOp.capture order now).run o.d s.w = s.w.capture o.d order now := by
      unfold WOp.run
      rw [if_neg (by rw [h.w.dead]; simp)]
    rw [hrun] at hcap
    show PInv o K (t.step (.dump order now taken)) (s.dump o order now taken)
    unfold Pipe.dump
    cases hpg : s.w.page with
    | none =>
      have hst := h.w.isNone.mp hpg
      have ht : t.step (.dump order now taken) = t := by
        unfold PSpec.step WSpec.step
        dsimp only
        rw [hst]
      rw [ht]
      exact h
    | some p =>
      obtain ⟨hst, hok⟩ := h.w.page p hpg
      obtain ⟨_, hgr⟩ := hok.group o.d now order (hop _)
      dsimp only
      generalize (captureLoop o.d now (order p.m)).1 = g at hgr
      have hpend : ∀ e ∈ (t.w.step (.capture order now)).pend, e.2.id.length ≤ K := by
        unfold WSpec.step
        dsimp only
        rw [hst]
        intro e he
        cases he
      refine ⟨hcap, hpend, fun m => ?_⟩
      have hnow : ∀ m, ∀ b ∈ t.kept m, b.stop < now := fun m b hb => htime now (by simp [dumpTimes]) m b hb
      have hrec := fun c hc => hgr.recs c hc
      have hids : ∀ c ∈ g, ∀ x ∈ c.vals, x.id.length ≤ K := by
        intro c hc x hx
        rw [hgr.vals c hc] at hx
        exact h.ids _ (obsOf_mem hx)
      have hrecs := fun m => Classical.choose_spec (h.db m)
      have hsub : (g.filter (fun c => taken c.metric)).map (·.metric) |>.Nodup := (List.filter_sublist.map _).nodup hgr.once
      have hall := store_all o hg (g.filter (fun c => taken c.metric)) hsub s.db (fun m => (Classical.choose (h.db m)).map valOf) (fun m => (hrecs m).2.2)
        (fun c hc => by
          have hc := (List.mem_filter.mp hc).1
          exact hfit _ _ _ _ (hids c hc) (hrec c hc))
        (fun c hc w hw => by
          have hc := (List.mem_filter.mp hc).1
          obtain ⟨r, hr, rfl⟩ := List.mem_map.mp hw
          obtain ⟨b, hb, hrb⟩ := eachOf_left (hrecs c.metric).1 r hr
          show r.endTime < c.rec_.endTime
          rw [hrb.stop, (hrec c hc).stop]
          exact hnow _ b hb) m
      dsimp only
      have hk : (t.step (.dump order now taken)).kept m = if taken m && (t.w.pend.map (·.1)).contains m then ⟨p.now, now, t.w.pend⟩ :: t.kept m else t.kept m := by
        show (match t.w.start with | none => _ | some t' => _) = _
        rw [hst]
      rw [hk]
      unfold accAfter at hall
      cases hf : (g.filter (fun c => taken c.metric)).find? (fun c => c.metric == m) with
      | none =>
        rw [hf] at hall
        rw [if_neg]
        · exact ⟨_, (hrecs m).1, (hrecs m).2.1, hall⟩
        · intro hcond
          rw [Bool.and_eq_true] at hcond
          obtain ⟨htk, hmem⟩ := hcond
          have hmem : m ∈ t.w.pend.map (·.1) := by simpa using hmem
          obtain ⟨c, hc, hcm⟩ := List.mem_map.mp ((hgr.metrics m).mpr hmem)
          have := (List.find?_eq_none.mp hf) c (List.mem_filter.mpr ⟨hc, by rw [hcm]; exact htk⟩)
          exact this (by simpa using hcm)
      | some c =>
        rw [hf] at hall
        have hcm : c.metric = m := by simpa using List.find?_some hf
        obtain ⟨hc, htk⟩ := List.mem_filter.mp (List.mem_of_find?_eq_some hf)
        have hmem : m ∈ t.w.pend.map (·.1) := (hgr.metrics m).mp (List.mem_map.mpr ⟨c, hc, hcm⟩)
        rw [if_pos (by rw [Bool.and_eq_true]; exact ⟨by rw [← hcm]; exact htk, by simpa using hmem⟩)]
        refine ⟨c.rec_ :: Classical.choose (h.db m), .cons ?_ (hrecs m).1, ?_, hall⟩
        rotate_left
        · intro r hr
          rcases List.mem_cons.mp hr with rfl | hr
          · exact hfit _ _ _ _ (hids c hc) (hrec c hc)
          · exact (hrecs m).2.1 r hr
        have := hrec c hc
        rw [hgr.vals c hc, hcm] at this
        exact this

theorem pinv_run {o : PipeCfg} {K : Nat} (hd : o.d.newOk = true) (hg : GeoOk o.cfg.size o.cfg.cap) (hfit : Fits o K) (ops : List POp) (hops : ∀ op ∈ ops, op.Fair K)
    {t : PSpec} {s : Pipe} (h : PInv o K t s) (hlen : t.w.pend.length + ops.length < 9223372036854775808) (hinc : (dumpTimes ops).Pairwise (· < ·))
    (htime : ∀ now ∈ dumpTimes ops, ∀ m, ∀ b ∈ t.kept m, b.stop < now) : PInv o K (ops.foldl PSpec.step t) (ops.foldl (POp.run o) s) := by
  induction ops generalizing t s with
  | nil => exact h
  | cons op ops ih =>
    rw [List.foldl_cons, List.foldl_cons]
    simp only [List.length_cons] at hlen
    have hsplit : dumpTimes (op :: ops) = dumpTimes [op] ++ dumpTimes ops := by
      unfold dumpTimes
      rw [← List.filterMap_append]
      rfl
    rw [hsplit] at hinc htime
    have hp := List.pairwise_append.mp hinc
    refine ih (fun x hx => hops x (List.mem_cons_of_mem _ hx)) (h.step hd hg hfit op (hops op List.mem_cons_self) (by omega)
      (fun now hn => htime now (List.mem_append_left _ hn))) ?_ hp.2.1 ?_
    · have : (t.step op).w.pend.length ≤ t.w.pend.length + 1 := by
        cases op with
        | add m ob now => exact WSpec.pend_length [.add m ob now] t.w
        | dump order now taken => exact WSpec.pend_length [.capture order now] t.w
        | query => exact Nat.le_succ _
        | restart => exact Nat.zero_le _
      omega
    · intro now hn m b hb
      have hold := htime now (List.mem_append_right _ hn) m
      cases op with
      | add m ob now => exact hold b hb
      | query => exact hold b hb
      | restart => exact hold b hb
      | dump order n taken =>
        have hb : b ∈ (match t.w.start with
          | none => t.kept m
          | some t' => if taken m && (t.w.pend.map Prod.fst).contains m then ⟨t', n, t.w.pend⟩ :: t.kept m else t.kept m) := hb
        split at hb
        · exact hold b hb
        · split at hb
          · rcases List.mem_cons.mp hb with rfl | hb
            · exact hp.2.2 n (by simp [dumpTimes]) now hn
            · exact hold b hb
          · exact hold b hb

/-! ## The theorems -/

/-- The metrics have no data yet; the directories of some may exist. -/
def Pipe.start (de : Bytes → Bool) (hit : Bytes → Nat → Bool) : Pipe := { db := fun m => Store.fresh (de m) (hit m) }

theorem pinv_start (o : PipeCfg) (K : Nat) (de : Bytes → Bool) (hit : Bytes → Nat → Bool) : PInv o K {} (Pipe.start de hit) :=
  ⟨winv_init _, fun e he => (by cases he), fun m => ⟨[], .nil, fun r hr => (by cases hr), ⟨de m, hit m, [], fun o ho => (by cases ho), rfl⟩⟩⟩

/-- Every kept interval ends at a dump. -/
theorem kept_stops (m : Bytes) : ∀ (ops : List POp) (t : PSpec) (T : List Int64), (∀ b ∈ t.kept m, b.stop ∈ T) → ∀ b ∈ (ops.foldl PSpec.step t).kept m, b.stop ∈ T ++ dumpTimes ops := by
  intro ops
  induction ops with
  | nil => intro t T h b hb; exact List.mem_append_left _ (h b hb)
  | cons op ops ih =>
    intro t T h b hb
    have hsplit : dumpTimes (op :: ops) = dumpTimes [op] ++ dumpTimes ops := by
      unfold dumpTimes
      rw [← List.filterMap_append]
      rfl
    rw [hsplit, ← List.append_assoc]
    refine ih (t.step op) (T ++ dumpTimes [op]) ?_ b hb
    intro b hb
    cases op with
    | add m ob now => exact List.mem_append_left _ (h b hb)
    | query => exact List.mem_append_left _ (h b hb)
    | restart => exact List.mem_append_left _ (h b hb)
    | dump order n taken =>
      have hb : b ∈ (match t.w.start with
        | none => t.kept m
        | some t' => if taken m && (t.w.pend.map Prod.fst).contains m then ⟨t', n, t.w.pend⟩ :: t.kept m else t.kept m) := hb
      split at hb
      · exact List.mem_append_left _ (h b hb)
      · split at hb
        · rcases List.mem_cons.mp hb with rfl | hb
          · exact List.mem_append_right _ (by simp [dumpTimes])
          · exact List.mem_append_left _ (h b hb)
        · exact List.mem_append_left _ (h b hb)

/-- Records that fit a file are not too long to be encoded. -/
theorem fits_small {o : PipeCfg} (hg : GeoOk o.cfg.size o.cfg.cap) {recs : List DRec} (h3 : ∀ r ∈ recs, needs o.cfg.size r.encode.length < o.cfg.cap) : ∀ r ∈ recs, r.encode.length < 2 ^ 63 := by
  intro r hr
  have := h3 r hr
  obtain ⟨g1, g2, g3, g4⟩ := hg
  unfold needs at this
  split at this
  · omega
  · have h5 : r.encode.length < (o.cfg.size - 24) * o.cfg.cap := by
      have h6 := Nat.lt_of_div_lt_div (a := r.encode.length) (b := (o.cfg.size - 24) * o.cfg.cap) (c := o.cfg.size - 24) (by
        rw [Nat.mul_div_cancel_left _ (by omega)]
        refine Nat.lt_of_le_of_lt (Nat.div_le_div_right ?_) this
        omega)
      exact h6
    have h6 : (o.cfg.size - 24) * o.cfg.cap ≤ o.cfg.size * o.cfg.cap := Nat.mul_le_mul_right _ (by omega)
    omega

/-- **C70.** Observations are added, dumps are made (at increasing times), metrics are queried and the program is restarted, in any order. Then a query of any metric for everything shows, newest first, one record for each
interval between dumps in which the metric was observed (and whose value the queue took), up to whole oldest files dropped by rotation; each has the start and end of its interval as its own, and decodes to
the exact count, minimum, maximum, ids and distribution of the metric's observations in that interval (a zero minimum or maximum has no sign). -/
theorem C70_stored (o : PipeCfg) (K : Nat) (hd : o.d.newOk = true) (hg : GeoOk o.cfg.size o.cfg.cap) (hfit : Fits o K) (de : Bytes → Bool) (hit : Bytes → Nat → Bool)
    (ops : List POp) (hops : ∀ op ∈ ops, op.Fair K) (hlen : ops.length < 9223372036854775808) (hinc : (dumpTimes ops).Pairwise (· < ·)) (m : Bytes) :
    ∃ recs : List DRec, EachOf (fun r b => RecordOf o.d b.start b.stop (obsOf m b.obs) r) recs ((ops.foldl PSpec.step {}).kept m) ∧
      (∀ r ∈ recs, DRec.decode (valOf r).data = .ok { r with min := normZero r.min, max := normZero r.max }) ∧
      ∃ stored dropped, recs.map valOf = stored ++ dropped ∧ (recs ≠ [] → stored ≠ []) ∧
        ∀ bound : Int64, (∀ now ∈ dumpTimes ops, now < bound) →
          (queryList o.cfg bound (fun _ _ => .more) ((ops.foldl (POp.run o) (Pipe.start de hit)).db m)).1.1 = stored ∧
          (recs ≠ [] → (queryList o.cfg bound (fun _ _ => .more) ((ops.foldl (POp.run o) (Pipe.start de hit)).db m)).1.2 = none) ∧ (o.cfg.max ≤ 0 → dropped = []) := by
  have inv := pinv_run hd hg hfit ops hops (pinv_start o K de hit) (by simpa using hlen) hinc (fun _ _ _ b hb => (by cases hb))
  obtain ⟨recs, h1, h3, h2⟩ := inv.db m
  have hend : ∀ v ∈ recs.map valOf, v.stop ∈ dumpTimes ops := by
    intro v hv
    obtain ⟨r, hr, rfl⟩ := List.mem_map.mp hv
    obtain ⟨b, hb, hrb⟩ := eachOf_left h1 r hr
    have := kept_stops m ops {} [] (fun _ h => (by cases h)) b hb
    show r.endTime ∈ _
    rw [hrb.stop]
    simpa using this
  have hsmall := fits_small hg h3
  obtain ⟨stored, dropped, ha, hne, hq⟩ := C13_acknowledged_stored h2.reach
  have hmap : ∀ (P : Prop), (recs ≠ [] → P) ↔ (recs.map valOf ≠ [] → P) := by
    intro P
    have : recs.map valOf = [] ↔ recs = [] := List.map_eq_nil_iff
    rw [Ne, Ne, this]
  refine ⟨recs, h1, fun r hr => (C06_record_round_trip r (hsmall r hr)).1, stored, dropped, ha, (hmap _).mpr hne, fun bound hb => ?_⟩
  obtain ⟨q1, q2⟩ := hq o.cfg bound hg (fun v hv => hb _ (hend v hv))
  refine ⟨q1, (hmap _).mpr q2, fun hmax => ?_⟩
  have hall := (C18_retention h2.reachMax).2 hmax o.cfg bound hg (fun v hv => hb _ (hend v hv))
  rw [q1, ha] at hall
  exact List.self_eq_append_right.mp hall

/-- The observations added, of one metric. -/
def addedTo (m : Bytes) (ops : List POp) : List Obs :=
  ops.filterMap (fun op => match op with | .add x o _ => if x = m ∧ fFinite o.val then some o else none | _ => none)

private theorem obsOf_append (m : Bytes) (a b : List (Bytes × Obs)) : obsOf m (a ++ b) = obsOf m a ++ obsOf m b := by
  unfold obsOf; rw [List.filter_append, List.map_append]

/-- **C70** (nothing lost). Without restarts, and if the queue takes every value of the metric: the observations of the kept intervals, oldest first, and of the interval in progress, are the metric's (finite) observations, in order. -/
theorem C70_conserved (m : Bytes) (ops : List POp) (hr : ∀ op ∈ ops, op ≠ .restart) (ht : ∀ order now taken, .dump order now taken ∈ ops → taken m = true) :
    (((ops.foldl PSpec.step {}).kept m).reverse.map (fun b => obsOf m b.obs)).flatten ++ obsOf m (ops.foldl PSpec.step {}).w.pend = addedTo m ops := by
  have key : ∀ (ops : List POp) (t : PSpec), (∀ op ∈ ops, op ≠ .restart) → (∀ order now taken, .dump order now taken ∈ ops → taken m = true) → (t.w.start = none → t.w.pend = []) →
      (((ops.foldl PSpec.step t).kept m).reverse.map (fun b => obsOf m b.obs)).flatten ++ obsOf m (ops.foldl PSpec.step t).w.pend =
        ((t.kept m).reverse.map (fun b => obsOf m b.obs)).flatten ++ obsOf m t.w.pend ++ addedTo m ops := by
    intro ops
    induction ops with
    | nil => intro t _ _ _; simp [addedTo]
    | cons op ops ih =>
      intro t h1 h2 h3
      rw [List.foldl_cons]
      have h1' := fun x hx => h1 x (List.mem_cons_of_mem _ hx)
      have h2' := fun a b c hx => h2 a b c (List.mem_cons_of_mem _ hx)
      cases op with
      | add x o now =>
        by_cases hf : fFinite o.val = true
        · rw [ih _ h1' h2' (by simp [PSpec.step, WSpec.step, hf])]
          have e1 : (t.step (.add x o now)).w.pend = t.w.pend ++ [(x, o)] := by simp [PSpec.step, WSpec.step, hf]
          have e2 : (t.step (.add x o now)).kept m = t.kept m := rfl
          rw [e1, e2, obsOf_append]
          by_cases hx : x = m
          · subst hx
            simp [addedTo, hf, obsOf]
          · simp [addedTo, hx, obsOf]
        · have e1 : t.step (.add x o now) = t := by simp [PSpec.step, WSpec.step, hf]
          rw [e1, ih _ h1' h2' h3]
          simp [addedTo, hf]
      | query x bound cb =>
        have e1 : t.step (.query x bound cb) = t := rfl
        rw [e1, ih t h1' h2' h3]
        simp [addedTo]
      | restart => exact absurd rfl (h1 _ List.mem_cons_self)
      | dump order now taken =>
        have htk := h2 order now taken List.mem_cons_self
        cases hs : t.w.start with
        | none =>
          have e1 : t.step (.dump order now taken) = t := by
            unfold PSpec.step WSpec.step
            dsimp only
            rw [hs]
          rw [e1, ih _ h1' h2' h3]
          simp [addedTo]
        | some a =>
          have e1 : (t.step (.dump order now taken)).w.pend = [] := by simp [PSpec.step, WSpec.step, hs]
          have e2 : (t.step (.dump order now taken)).w.start = some now := by simp [PSpec.step, WSpec.step, hs]
          rw [ih _ h1' h2' (by rw [e2]; simp), e1]
          have e3 : (t.step (.dump order now taken)).kept m = if (t.w.pend.map (·.1)).contains m then ⟨a, now, t.w.pend⟩ :: t.kept m else t.kept m := by
            show (match t.w.start with | none => _ | some t' => _) = _
            rw [hs]
            dsimp only
            rw [htk, Bool.true_and]
          rw [e3]
          have e4 : addedTo m (.dump order now taken :: ops) = addedTo m ops := by simp [addedTo]
          rw [e4]
          split
          · simp [obsOf]
          · rename_i hn
            have : obsOf m t.w.pend = [] := by
              refine Classical.byContradiction (fun hc => hn ?_)
              have := obsOf_ne_nil.mp hc
              simpa using this
            rw [this]
            simp [obsOf]
  have := key ops {} hr ht (by simp)
  rw [this]
  simp [obsOf]

private theorem sovLoop_le' (n : Nat) (x : BitVec 64) : sovLoop n x ≤ n + 1 := by
  induction n generalizing x with
  | zero => simp [sovLoop]
  | succ n ih =>
    unfold sovLoop
    split
    · omega
    · have := ih (x >>> 7); omega

private theorem sov_le (v : BitVec 64) : sov v ≤ 10 := sovLoop_le' 9 v

private theorem needs_mono (size : Nat) {a b : Nat} (hs : 25 ≤ size) (h : a ≤ b) : needs size a ≤ needs size b := by
  unfold needs
  by_cases ha : a = 0
  · rw [if_pos ha]
    split
    · exact Nat.le_refl _
    · exact (Nat.le_div_iff_mul_le (by omega)).mpr (by omega)
  · rw [if_neg ha, if_neg (by omega)]
    exact Nat.div_le_div_right (by omega)

/-- When records fit: the distribution takes at most `M` bytes, and a value of 106 bytes more, and those of the kind and two ids, leaves a slot free. -/
theorem C70_fits (o : PipeCfg) (K M : Nat) (hs : 25 ≤ o.cfg.size) (hm : ∀ vals, (o.d.marshal vals).length ≤ M) (h : needs o.cfg.size (106 + M + o.d.kind.length + 2 * K) < o.cfg.cap) : Fits o K := by
  intro start stop vals r hv hr
  refine Nat.lt_of_le_of_lt (needs_mono _ hs ?_) h
  have hb : ∀ (tag : UInt8) (b : Bytes), (putBytesField tag b).length ≤ 11 + b.length := by
    intro tag b
    unfold putBytesField
    split
    · simp only [List.length_cons, List.length_append, encodeVarint_length]
      have := sov_le (BitVec.ofNat 64 b.length)
      omega
    · simp
  have hi : ∀ (tag : UInt8) (v : Int64), (putVarintField tag v).length ≤ 11 := by
    intro tag v
    unfold putVarintField
    split
    · simp only [List.length_cons, encodeVarint_length]
      have := sov_le v.toBitVec
      omega
    · simp
  have hf : ∀ (tag : UInt8) (v : BitVec 64), (putFixedField tag v).length ≤ 9 := by
    intro tag v
    unfold putFixedField
    split
    · simp [leBytes_length]
    · simp
  obtain ⟨⟨x, hx, _, hx2⟩, _⟩ := hr.min
  obtain ⟨⟨y, hy, _, hy2⟩, _⟩ := hr.max
  have k1 : r.minId.length ≤ K := by rw [← hx2]; exact hv x hx
  have k2 : r.maxId.length ≤ K := by rw [← hy2]; exact hv y hy
  have k3 : r.distribution.length ≤ M := by rw [hr.dist]; exact hm vals
  have k4 : r.kind.length = o.d.kind.length := by rw [hr.kind]
  unfold DRec.encode
  simp only [List.length_append]
  have a1 := hi 0x08 r.startTime
  have a2 := hi 0x10 r.endTime
  have a3 := hi 0x18 r.observations
  have a4 := hb 0x22 r.distribution
  have a5 := hb 0x2a r.kind
  have a6 := hf 0x31 r.min
  have a7 := hf 0x39 r.max
  have a8 := hb 0x42 r.minId
  have a9 := hb 0x4a r.maxId
  have a10 := hi 0x50 r.merged
  omega

/-! ## A case -/

/-- Four chunks per file; a distribution of no bytes. -/
def exPipe : PipeCfg := { cfg := exCfg4, d := {} }

/-- Two metrics, two dumps, a restart. -/
def exPOps : List POp :=
  [.add [97] ⟨0x4000000000000000#64, [1], 0⟩ 10, .add [98] ⟨0x3ff0000000000000#64, [2], 1⟩ 11, .add [97] ⟨0x3ff0000000000000#64, [3], 2⟩ 12, .dump id 20 (fun _ => true),
    .add [97] ⟨0x4008000000000000#64, [], 3⟩ 25, .dump List.reverse 30 (fun _ => true), .add [97] ⟨0x4008000000000000#64, [], 4⟩ 31, .restart]

/-- The hypotheses of `C70_stored` are met. -/
theorem C70_example_hyps : Fits exPipe 1 ∧ (∀ op ∈ exPOps, op.Fair 1) ∧ (dumpTimes exPOps).Pairwise (· < ·) ∧ GeoOk exPipe.cfg.size exPipe.cfg.cap := by
  refine ⟨C70_fits exPipe 1 0 (by decide) (fun _ => Nat.le_refl _) (by decide), ?_, by decide, exCfg4_ok⟩
  intro op hop
  simp only [exPOps, List.mem_cons, List.not_mem_nil, or_false] at hop
  rcases hop with rfl | rfl | rfl | rfl | rfl | rfl | rfl | rfl
  · exact Nat.le_refl _
  · exact Nat.le_refl _
  · exact Nat.le_refl _
  · exact fun l => List.Perm.refl l
  · exact Nat.zero_le _
  · exact fun l => List.reverse_perm l
  · exact Nat.zero_le _
  · trivial

/-- A stored value and what it decodes to: start, end, count; minimum, its id, maximum. -/
def exView (v : Val) : (Int64 × Int64 × Int64) × (BitVec 64 × Bytes × BitVec 64) :=
  match DRec.decode v.data with
  | .ok r => ((v.start, v.stop, r.observations), (r.min, r.minId, r.max))
  | _ => ((0, 0, 0), (0#64, [], 0#64))

set_option maxRecDepth 100000 in
/-- Metric "a" has two records, of two and of one observation; the last observation was lost in the restart. -/
theorem C70_example : (queryList exCfg4 100 (fun _ _ => .more) ((exPOps.foldl (POp.run exPipe) (Pipe.start (fun _ => false) (fun _ _ => true))).db [97])).1.1.map
    exView = [((20, 30, 1), 0x4008000000000000#64, [], 0x4008000000000000#64), ((10, 20, 2), 0x3ff0000000000000#64, [3], 0x4000000000000000#64)] := by
  decide +kernel

end Rothko
