import Verif.Props.KillAgain
import Verif.Props.ProcDrawn
/-!
# C127: the picture after many kills, with a clock that goes forward
-/
namespace Rothko

theorem callsGiven_snoc (l : List (Nat × DbCall × DbRes)) (i : Nat) (o : DbCall) (r : DbRes) : callsGiven (l ++ [(i, o, r)]) = o.given ++ callsGiven l := by
  unfold callsGiven
  rw [List.reverse_append]
  rfl

/-- What was captured, is being written and was written is what the intervals say, one after the other, the newest first. -/
structure OrdInv (c : ProcCfg) (old : Bytes → List Batch) (t : PSpec) (s : Proc) : Prop where
  once : (s.coming.map (·.1)).Nodup
  sys : ∃ (progs : List (List (Bytes × DbCall))) (base : Bytes → Store) (given vs : Bytes → List Val), FsSys.Reach dbCalls (dbPath c.dir) c.handles progs base s.sys ∧ (∀ p ∈ progs, ∀ x ∈ p, LifeCall c x.2) ∧ (∀ m, DurV True (base m).reopen (given m) (vs m)) ∧
    (∀ m, ∀ w ∈ given m, ∃ b ∈ t.kept m ++ old m, w.stop = b.stop) ∧
    ∀ m, ∃ (recs : List DRec) (shown : List Batch), EachOf (Right c.pipe.d m) recs shown ∧ shown.Sublist (t.kept m ++ old m) ∧ (∀ r ∈ recs, needs c.pipe.cfg.size r.encode.length < c.pipe.cfg.cap) ∧
      recs.map valOf = forMetric m s.coming ++ callsGiven (s.sys.finished m) ++ vs m

/-- What the files are made of. -/
def OrdFs (c : ProcCfg) (old : Bytes → List Batch) (fs : Bytes → Store) : Prop :=
  ∀ m, ∃ given vs : List Val, DurV True (fs m).reopen given vs ∧ (∀ w ∈ given, ∃ b ∈ old m, w.stop = b.stop) ∧
    ∃ (recs : List DRec) (shown : List Batch), EachOf (Right c.pipe.d m) recs shown ∧ shown.Sublist (old m) ∧ (∀ r ∈ recs, needs c.pipe.cfg.size r.encode.length < c.pipe.cfg.cap) ∧ recs.map valOf = vs

section
variable {c : ProcCfg} {K : Nat} {fs : Bytes → Store} {old : Bytes → List Batch} {t : PSpec} {s : Proc}

theorem OrdInv.same (h : OrdInv c old t s) (s' : Proc) (hperm : s.coming.Perm s'.coming) (hfin : ∀ m, callsGiven (s'.sys.finished m) = callsGiven (s.sys.finished m))
    (hsys : ∀ progs base, FsSys.Reach dbCalls (dbPath c.dir) c.handles progs base s.sys → (∀ p ∈ progs, ∀ x ∈ p, LifeCall c x.2) →
      ∃ progs', FsSys.Reach dbCalls (dbPath c.dir) c.handles progs' base s'.sys ∧ ∀ p ∈ progs', ∀ x ∈ p, LifeCall c x.2) : OrdInv c old t s' := by
  refine ⟨(hperm.map _).nodup_iff.mp h.once, ?_⟩
  obtain ⟨progs, base, given, vs, h1, h2, h3, h4, h5⟩ := h.sys
  obtain ⟨progs', g1, g2⟩ := hsys progs base h1 h2
  refine ⟨progs', base, given, vs, g1, g2, h3, h4, fun m => ?_⟩
  obtain ⟨recs, shown, r1, r2, r3, r4⟩ := h5 m
  exact ⟨recs, shown, r1, r2, r3, by rw [r4, forMetric_perm hperm h.once, hfin m]⟩

theorem ordInv_init {fs1 : Bytes → Store} (hf : OrdFs c (fun m => t.kept m ++ old m) fs1) : OrdInv c old t (Proc.init c fs1) := by
  refine ⟨by rw [init_coming]; exact List.nodup_nil, List.replicate c.clients [], fs1, fun m => Classical.choose (hf m), fun m => Classical.choose (Classical.choose_spec (hf m)), .init, ?_, fun m => ?_, fun m => ?_, fun m => ?_⟩
  · intro p hp x hx
    rw [List.eq_of_mem_replicate hp] at hx
    cases hx
  · exact (Classical.choose_spec (Classical.choose_spec (hf m))).1
  · exact (Classical.choose_spec (Classical.choose_spec (hf m))).2.1
  · obtain ⟨recs, shown, r1, r2, r3, r4⟩ := (Classical.choose_spec (Classical.choose_spec (hf m))).2.2
    refine ⟨recs, shown, r1, r2, r3, ?_⟩
    rw [r4, init_coming]
    rfl

theorem hand_at {i : Nat} {m : Bytes} {v : Val} (hi : s.hands[i]? = some (.busy m v)) : (m, v) ∈ s.coming := by
  unfold Proc.coming
  refine List.mem_append_right _ (List.mem_filterMap.mpr ⟨_, List.mem_of_getElem? hi, rfl⟩)

/-- The program is killed. -/
theorem OrdInv.killed (h : OrdInv c old t s) (hn : c.handles < 2 ^ 63) (hin : ∀ m, (s.sys.inFlight m).Sublist (forMetric m s.coming)) (pt : Bytes → KillPoint) (hc : s.sys.CutsOk pt) : OrdFs c (fun m => t.kept m ++ old m) (s.sys.killed pt) := by
  obtain ⟨progs, base, given, vs, h1, h2, h3, h4, h5⟩ := h.sys
  intro m
  obtain ⟨recs, shown, r1, r2, r3, r4⟩ := h5 m
  obtain ⟨new, kept, k1, k2⟩ := killed_durV hn h1 (fun p hp x hx => (h2 p hp x hx).1) pt hc m (h3 m)
  have hsub : (s.sys.inFlight m ++ callsGiven (s.sys.finished m)).Sublist (forMetric m s.coming ++ callsGiven (s.sys.finished m)) := (hin m).append_right _
  have hall : (new ++ kept).Sublist (recs.map valOf) := by
    rw [r4]
    exact (k1.new.trans hsub).append k1.pre.sublist
  refine ⟨_, _, k2, fun w hw => ?_, ?_⟩
  · rcases List.mem_append.mp hw with hw | hw
    · have : w ∈ recs.map valOf := by
        rw [r4]
        exact List.mem_append_left _ (hsub.subset hw)
      obtain ⟨r, hr, rfl⟩ := List.mem_map.mp this
      obtain ⟨b, hb, hrb⟩ := eachOf_left r1 r hr
      exact ⟨b, r2.subset hb, hrb.stop⟩
    · exact h4 m w hw
  · obtain ⟨recs', q1, q2⟩ := List.sublist_map_iff.mp hall
    obtain ⟨shown', q3, q4⟩ := eachOf_sublist q1 r1
    exact ⟨recs', shown', q4, q3.trans r2, fun r hr => r3 r (q1.subset hr), q2.symm⟩

/-- The value being written is one that is coming. -/
theorem inFlight_coming (h : LivesInv c K fs t s) (m : Bytes) : (s.sys.inFlight m).Sublist (forMetric m s.coming) := by
  unfold FsSys.inFlight
  cases hx : s.sys.atWork m with
  | none => exact List.nil_sublist _
  | some x =>
    obtain ⟨o, p⟩ := x
    obtain ⟨i, rest, hi⟩ := atWork_some hx
    show o.given.Sublist _
    by_cases hw : i < c.workers
    · have hl : i < s.hands.length := by rw [h.len]; exact hw
      have hg := h.hand i _ (List.getElem?_eq_getElem hl)
      cases he : s.hands[i] with
      | busy m' v =>
        rw [he] at hg
        obtain ⟨w, hg⟩ := hg
        rw [hi] at hg
        injection hg with hg
        injection hg with hg _
        injection hg with hg _
        injection hg with hm ho
        subst hm ho
        have : (m, v) ∈ s.coming := hand_at (by rw [List.getElem?_eq_getElem hl, he])
        refine List.singleton_sublist.mpr ?_
        exact List.mem_map.mpr ⟨(m, v), List.mem_filter.mpr ⟨this, by simp⟩, rfl⟩
      | free =>
        rw [he] at hg
        have hg : s.sys.cl[i]? = some ⟨[], .out⟩ := hg
        rw [hi] at hg
        cases hg
      | wrote =>
        rw [he] at hg
        have hg : s.sys.cl[i]? = some ⟨[], .out⟩ := hg
        rw [hi] at hg
        cases hg
    · have := h.reader i _ (by omega) hi (m, o) List.mem_cons_self
      have : o.given = [] := DbCall.Reads.given this
      rw [this]
      exact List.nil_sublist _

theorem OrdInv.db (h : OrdInv c old t s) (hl : LivesInv c K fs t s) {sys : FsSys DbCall DbRes} (hst : s.sys.Step dbCalls (dbPath c.dir) sys) (hlog : ∀ e, sys.log = s.sys.log ++ [e] → c.workers ≤ e.1) : OrdInv c old t { s with sys } := by
  refine h.same _ (List.Perm.refl _) ?_ (fun progs base h1 h2 => ⟨progs, .step h1 hst, h2⟩)
  rcases step_shape hst with ⟨e1, _⟩ | ⟨i, m, o, rest, r, q, e1, e2⟩
  · intro m
    unfold FsSys.finished
    dsimp only
    rw [e1]
  · have hw : c.workers ≤ i := hlog (i, m, o, r) (by rw [e2])
    intro k
    dsimp only
    rw [e2, finished_snoc]
    split
    · rw [callsGiven_snoc]
      have : o.given = [] := DbCall.Reads.given (hl.reader i _ hw e1 (m, o) List.mem_cons_self)
      rw [this]
      rfl
    · rw [List.append_nil]

theorem OrdInv.wrote (h : OrdInv c old t s) (hl : LivesInv c K fs t s) {i : Nat} {sys : FsSys DbCall DbRes} {e : Bytes × DbCall × DbRes} {m : Bytes} {v : Val} (hst : s.sys.Step dbCalls (dbPath c.dir) sys) (hlog : sys.log = s.sys.log ++ [(i, e)])
    (hi : s.hands[i]? = some (.busy m v)) : OrdInv c old t { s with sys, hands := s.hands.set i .wrote } := by
  rcases step_shape hst with ⟨e1, _⟩ | ⟨j, m', o, rest, r, q, e1, e2⟩
  · rw [e1] at hlog
    have := congrArg List.length hlog
    simp at this
  have hlog2 : s.sys.log ++ [(j, m', o, r)] = s.sys.log ++ [(i, e)] := by rw [← hlog, e2]
  have hlog3 := List.append_cancel_left hlog2
  injection hlog3 with hlog3 _
  injection hlog3 with hj he
  subst hj
  obtain ⟨w, hw⟩ := hl.hand j _ hi
  rw [e1] at hw
  injection hw with hw
  injection hw with hw _
  injection hw with hw hr
  injection hw with hm ho
  subst hm ho hr
  have hperm : s.coming.Perm ((m', v) :: Proc.coming { s with sys, hands := s.hands.set j .wrote }) := by
    unfold Proc.coming
    dsimp only
    have p1 := filterMap_at Hand.item _ j _ hi
    have p2 := filterMap_set Hand.item _ j _ .wrote hi
    have q1 : (Hand.item Hand.wrote).toList = [] := rfl
    have q2 : (Hand.item (Hand.busy m' v)).toList = [(m', v)] := rfl
    rw [q1, List.nil_append] at p2
    rw [q2] at p1
    refine (List.Perm.append_left _ p1).trans ?_
    refine List.Perm.trans ?_ ((List.Perm.append_left _ p2.symm).cons _)
    exact List.perm_middle
  have honce := (hperm.map (·.1)).nodup_iff.mp h.once
  have hfin : ∀ k, sys.finished k = s.sys.finished k ++ (if m' = k then [(j, .write c.pipe.cfg v, r)] else []) := fun k => by rw [e2, finished_snoc]
  have hshort := forMetric_short (m := m') honce
  have hcons : forMetric m' ((m', v) :: Proc.coming { s with sys, hands := s.hands.set j .wrote }) = v :: forMetric m' (Proc.coming { s with sys, hands := s.hands.set j .wrote }) := by
    unfold forMetric
    rw [List.filter_cons, if_pos (by simp)]
    rfl
  have hnil : forMetric m' (Proc.coming { s with sys, hands := s.hands.set j .wrote }) = [] := by
    apply List.eq_nil_of_length_eq_zero
    rw [hcons, List.length_cons] at hshort
    omega
  refine ⟨(List.nodup_cons.mp honce).2, ?_⟩
  obtain ⟨progs, base, given, vs, h1, h2, h3, h4, h5⟩ := h.sys
  refine ⟨progs, base, given, vs, .step h1 hst, h2, h3, h4, fun k => ?_⟩
  obtain ⟨recs, shown, r1, r2, r3, r4⟩ := h5 k
  refine ⟨recs, shown, r1, r2, r3, ?_⟩
  rw [forMetric_perm hperm h.once] at r4
  have hfin := hfin k
  show recs.map valOf = _ ++ callsGiven (sys.finished k) ++ vs k
  by_cases hk : m' = k
  · subst hk
    rw [if_pos rfl] at hfin
    rw [hcons, hnil] at r4
    rw [hnil, hfin, callsGiven_snoc, r4]
    rfl
  · rw [if_neg hk, List.append_nil] at hfin
    rw [hfin, r4]
    unfold forMetric
    rw [List.filter_cons, if_neg (by simpa using hk)]

theorem LivesInv.idle (h : LivesInv c K fs t s) (hd : s.dumping = false) : s.coming = [] := by
  obtain ⟨h1, h2⟩ := h.rest hd
  have hwg := h.wg
  have hq : s.queue = [] := List.eq_nil_of_length_eq_zero (by omega)
  unfold Proc.coming
  rw [h1, hq, List.append_nil, List.filter_nil, List.nil_append, List.filterMap_eq_nil_iff]
  intro a ha
  have : s.hands.countP Hand.owes = 0 := by omega
  have := List.countP_eq_zero.mp this a ha
  cases a with
  | busy m v => exact absurd rfl this
  | _ => rfl

theorem OrdInv.dump (h : OrdInv c old t s) (hl : LivesInv c K fs t s) (hfit : Fits c.pipe K) {order : List (Bytes × Agg) → List (Bytes × Agg)} {now : Int64} {taken : Bytes → Bool} (hop : (POp.dump order now taken).Fair K)
    (hidle : s.dumping = false) : OrdInv c old (t.step (.dump order now taken)) { s with w := (WOp.capture order now).run c.pipe.d s.w, todo := capturedVals c.pipe.d s.w order now, taken, dumping := true } := by
  have hcoming := hl.idle hidle
  have hq := hl.idleQueue hidle
  have hhands : s.hands.filterMap Hand.item = [] := (List.append_eq_nil_iff.mp hcoming).2
  have hnew : Proc.coming { s with w := (WOp.capture order now).run c.pipe.d s.w, todo := capturedVals c.pipe.d s.w order now, taken, dumping := true } = (capturedVals c.pipe.d s.w order now).filter (fun x => taken x.1) := by
    unfold Proc.coming
    dsimp only
    rw [hhands, hq, List.append_nil, List.append_nil]
  obtain ⟨progs, base, given, vs, h1, h2, h3, h4, h5⟩ := h.sys
  have h4' : ∀ m, ∀ w ∈ given m, ∃ b ∈ (t.step (.dump order now taken)).kept m ++ old m, w.stop = b.stop := by
    intro m w hw
    obtain ⟨b, hb, e⟩ := h4 m w hw
    refine ⟨b, ?_, e⟩
    rcases List.mem_append.mp hb with hb | hb
    · exact List.mem_append_left _ (kept_grows t _ m b hb)
    · exact List.mem_append_right _ hb
  cases hpg : s.w.page with
  | none =>
    have hst := hl.w.isNone.mp hpg
    have ht : ∀ m, (t.step (.dump order now taken)).kept m = t.kept m := by
      intro m
      show (match t.w.start with | none => _ | some t' => _ : List Batch) = _
      rw [hst]
    have he : capturedVals c.pipe.d s.w order now = [] := by
      unfold capturedVals
      rw [hpg]
    rw [he] at hnew ⊢
    refine ⟨by rw [hnew]; exact List.nodup_nil, progs, base, given, vs, h1, h2, h3, h4', fun m => ?_⟩
    obtain ⟨recs, shown, r1, r2, r3, r4⟩ := h5 m
    refine ⟨recs, shown, r1, by rw [ht]; exact r2, r3, ?_⟩
    rw [r4, hcoming, hnew]
    rfl
  | some p =>
    obtain ⟨hst, hok⟩ := hl.w.page p hpg
    obtain ⟨_, hgr⟩ := hok.group c.pipe.d now order (hop _)
    have he : capturedVals c.pipe.d s.w order now = (captureLoop c.pipe.d now (order p.m)).1.map (fun c => (c.metric, valOf c.rec_)) := by
      unfold capturedVals
      rw [hpg]
    rw [he] at hnew ⊢
    generalize (captureLoop c.pipe.d now (order p.m)).1 = g at hgr hnew
    have honce : (((g.map (fun c => (c.metric, valOf c.rec_))).filter (fun x => taken x.1)).map (·.1)).Nodup := by
      refine (List.filter_sublist.map _).nodup ?_
      rw [List.map_map]
      exact hgr.once
    refine ⟨by rw [hnew]; exact honce, progs, base, given, vs, h1, h2, h3, h4', fun m => ?_⟩
    obtain ⟨recs, shown, r1, r2, r3, r4⟩ := h5 m
    rw [hcoming] at r4
    have r4 : recs.map valOf = callsGiven (s.sys.finished m) ++ vs m := r4
    have hk : (t.step (.dump order now taken)).kept m = if taken m && (t.w.pend.map (·.1)).contains m then ⟨p.now, now, t.w.pend⟩ :: t.kept m else t.kept m := by
      show (match t.w.start with | none => _ | some t' => _) = _
      rw [hst]
    rw [hk, hnew, forMetric_filter g taken m hgr.once]
    cases hf : (g.filter (fun c => taken c.metric)).find? (fun c => c.metric == m) with
    | none =>
      rw [if_neg]
      · exact ⟨recs, shown, r1, r2, r3, r4⟩
      · intro hcond
        rw [Bool.and_eq_true] at hcond
        obtain ⟨htk, hmem⟩ := hcond
        have hmem : m ∈ t.w.pend.map (·.1) := by simpa using hmem
        obtain ⟨c, hc, hcm⟩ := List.mem_map.mp ((hgr.metrics m).mpr hmem)
        have := (List.find?_eq_none.mp hf) c (List.mem_filter.mpr ⟨hc, by rw [hcm]; exact htk⟩)
        exact this (by simpa using hcm)
    | some x =>
      have hcm : x.metric = m := by simpa using List.find?_some hf
      obtain ⟨hc, htk⟩ := List.mem_filter.mp (List.mem_of_find?_eq_some hf)
      have hmem : m ∈ t.w.pend.map (·.1) := (hgr.metrics m).mp (List.mem_map.mpr ⟨x, hc, hcm⟩)
      rw [if_pos (by rw [Bool.and_eq_true]; exact ⟨by rw [← hcm]; exact htk, by simpa using hmem⟩)]
      have hrec := hgr.recs x hc
      have hid : ∀ y ∈ x.vals, y.id.length ≤ K := by
        intro y hy
        rw [hgr.vals x hc] at hy
        exact hl.ids _ (obsOf_mem hy)
      refine ⟨x.rec_ :: recs, ⟨p.now, now, t.w.pend⟩ :: shown, .cons ?_ r1, ?_, ?_, ?_⟩
      · rw [hgr.vals x hc, hcm] at hrec
        exact hrec
      · rw [List.cons_append]
        exact r2.cons_cons _
      · intro r hr
        rcases List.mem_cons.mp hr with rfl | hr
        · exact hfit _ _ _ _ hid hrec
        · exact r3 r hr
      · rw [List.map_cons, r4]
        rfl

theorem OrdInv.step (h : OrdInv c old t s) (hl : LivesInv c K fs t s) {l : Option POp} {s' : Proc} (hst : s.Step c l s') (hn : c.handles < 2 ^ 63) (hg : GeoOk c.pipe.cfg.size c.pipe.cfg.cap) (hfit : Fits c.pipe K)
    (hop : ∀ op, l = some op → op.Fair K) : OrdInv c old (l.toList.foldl PSpec.step t) s' := by
  cases hst with
  | add m ob now => exact ⟨h.once, h.sys⟩
  | dump order now taken hidle => exact h.dump hl hfit (hop _ rfl) hidle
  | offer x rest ht =>
    refine h.same _ ?_ (fun _ => rfl) (fun progs base h1 h2 => ⟨progs, h1, h2⟩)
    unfold Proc.coming
    dsimp only
    refine List.Perm.append_right _ (List.Perm.filter _ ?_)
    rw [ht, ← List.append_assoc]
    exact (List.perm_append_comm (l₁ := [x]))
  | refuse x rest ht hx =>
    refine h.same _ ?_ (fun _ => rfl) (fun progs base h1 h2 => ⟨progs, h1, h2⟩)
    unfold Proc.coming
    dsimp only
    rw [ht, List.cons_append, List.filter_cons, if_neg (by rw [hx]; decide)]
  | drain x rest ht hx =>
    refine h.same _ ?_ (fun _ => rfl) (fun progs base h1 h2 => ⟨progs, h1, h2⟩)
    unfold Proc.coming
    dsimp only
    rw [ht, List.filter_append, List.filter_append, List.filter_cons, if_neg (by rw [hx]; decide)]
  | recv i x rest hi hq hx =>
    have hcl : s.sys.cl[i]? = some ⟨[], .out⟩ := hl.hand i _ hi
    refine h.same _ ?_ (fun _ => rfl) ?_
    · unfold Proc.coming
      dsimp only
      have p1 := filterMap_at Hand.item _ i _ hi
      have p2 := filterMap_set Hand.item _ i _ (.busy x.1 x.2) hi
      have e1 : (Hand.item Hand.free).toList = [] := rfl
      have e2 : (Hand.item (Hand.busy x.1 x.2)).toList = [x] := rfl
      rw [e1, List.nil_append] at p1
      rw [e2] at p2
      rw [hq, List.filter_append, List.filter_append, List.filter_cons, if_pos hx]
      refine (List.Perm.append_left _ p1).trans (List.Perm.trans ?_ (List.Perm.append_left _ p2.symm))
      rw [List.append_assoc, List.append_assoc]
      refine List.Perm.append_left _ ?_
      rw [List.cons_append]
      exact List.perm_middle.symm
    · intro progs base h1 h2
      refine ⟨progs.modify i (fun p => p ++ [(x.1, .write c.pipe.cfg x.2)]), ?_, ?_⟩
      · have := reach_more h1 i (x.1, .write c.pipe.cfg x.2)
        rw [more_set hcl] at this
        exact this
      · intro p hp y hy
        rcases modify_mem hp hy with rfl | ⟨q, hq', hy⟩
        · exact ⟨hg, fun l hl => (Option.some.inj hl).symm⟩
        · exact h2 q hq' y hy
  | ask i m o hi hcl ho =>
    refine h.same _ (List.Perm.refl _) (fun _ => rfl) ?_
    intro progs base h1 h2
    refine ⟨progs.modify i (fun p => p ++ [(m, o)]), ?_, ?_⟩
    · have := reach_more h1 i (m, o)
      rw [more_set hcl] at this
      exact this
    · intro p hp y hy
      rcases modify_mem hp hy with rfl | ⟨q, hq', hy⟩
      · exact ho.life hg
      · exact h2 q hq' y hy
  | db sys h1 h2 => exact h.db hl h1 h2
  | wrote i sys e m v h1 h2 h3 => exact h.wrote hl h1 h2 h3
  | answer i hi _ =>
    refine h.same _ ?_ (fun _ => rfl) (fun progs base h1 h2 => ⟨progs, h1, h2⟩)
    unfold Proc.coming
    dsimp only
    refine List.Perm.append_left _ ?_
    have p1 := filterMap_at Hand.item _ i _ hi
    have p2 := filterMap_set Hand.item _ i _ .free hi
    have q1 : (Hand.item Hand.wrote).toList = [] := rfl
    have q2 : (Hand.item Hand.free).toList = [] := rfl
    rw [q1] at p1
    rw [q2] at p2
    exact p1.trans p2.symm
  | wait h1 h2 h3 => exact h.same _ (List.Perm.refl _) (fun _ => rfl) (fun progs base h1 h2 => ⟨progs, h1, h2⟩)
  | restart h1 h2 =>
    have hw : ∀ m, s.sys.atWork m = none := by
      intro m
      cases hx : s.sys.atWork m with
      | none => rfl
      | some x =>
        obtain ⟨o, p⟩ := x
        obtain ⟨i, rest, hi⟩ := atWork_some hx
        have := h2 _ (List.mem_of_getElem? hi)
        cases this
    have hk := h.killed hn (inFlight_coming hl) (fun _ => .between) (fun m o p hx => by rw [hw] at hx; cases hx)
    have e : s.sys.killed (fun _ => .between) = s.sys.g.fs := funext fun m => by
      unfold FsSys.killed
      rw [hw]
    rw [e] at hk
    exact ordInv_init hk

theorem ordInv_reach {ops : List POp} (hf : OrdFs c old fs) (h : Proc.Reach c fs ops s) : LifeOk c K ops → OrdInv c old (ops.foldl PSpec.step {}) s := by
  induction h with
  | start => exact fun hok => ordInv_init hf
  | @step ops s s' l hr hst ih =>
    intro hok
    have hok' : LifeOk c K ops := ⟨hok.handles, hok.clients, hok.dist, hok.geo, hok.fits, fun op ho => hok.fair op (List.mem_append_left _ ho), by have := hok.short; rw [List.length_append] at this; omega⟩
    rw [List.foldl_append]
    exact (ih hok').step (linv_reach hr hok') hst hok.handles hok.geo hok.fits (fun op e => hok.fair op (by rw [e]; simp))

end

/-- All intervals of a metric in these lives, the newest first. -/
def keptOf (lives : List (List POp)) (m : Bytes) : List Batch := lives.flatMap (fun ops => (ops.foldl PSpec.step {}).kept m)

/-- After any number of lives, what a metric shows is a part of its intervals, in their order. -/
theorem ordFs_lives {c : ProcCfg} {K : Nat} {fs fs' : Bytes → Store} {lives : List (List POp)} (h : PLives c K fs fs' lives) (hf : OrdFs c (fun _ => []) fs) : OrdFs c (keptOf lives) fs' := by
  induction h with
  | nil => exact hf
  | @kill fs1 lives ops s pt h1 hok hr hc ih =>
    have := (ordInv_reach ih hr hok).killed hok.handles (inFlight_coming (linv_reach hr hok)) pt hc
    have e : keptOf (ops :: lives) = fun m => (ops.foldl PSpec.step {}).kept m ++ keptOf lives m := rfl
    rw [e]
    exact this

theorem ordFs_fresh (c : ProcCfg) (de : Bytes → Bool) (hit : Bytes → Nat → Bool) : OrdFs c (fun _ => []) (freshFs de hit) := fun m =>
  ⟨[], [], Or.inl ⟨trivial, rfl, fun _ => rfl, rfl⟩, fun w hw => (by cases hw), [], [], .nil, List.Sublist.refl _, fun r hr => (by cases hr), rfl⟩

/-- The intervals end when dumps are made. -/
theorem kept_times (m : Bytes) (ops : List POp) : ∀ t : PSpec, (((ops.foldl PSpec.step t).kept m).map (·.stop)).Sublist ((dumpTimes ops).reverse ++ (t.kept m).map (·.stop)) := by
  induction ops with
  | nil => exact fun t => List.Sublist.refl _
  | cons op ops ih =>
    intro t
    rw [List.foldl_cons]
    refine (ih (t.step op)).trans ?_
    cases op with
    | dump order now taken =>
      have e : dumpTimes (.dump order now taken :: ops) = now :: dumpTimes ops := rfl
      rw [e, List.reverse_cons, List.append_assoc]
      refine (List.Sublist.refl _).append ?_
      show ((match t.w.start with | none => _ | some t' => _ : List Batch).map _).Sublist _
      split
      · exact List.sublist_cons_self _ _
      · split
        · exact List.Sublist.refl _
        · exact List.sublist_cons_self _ _
    | add m' ob now => exact List.Sublist.refl _
    | query => exact List.Sublist.refl _
    | restart => exact List.Sublist.refl _

theorem keptOf_times (m : Bytes) (lives : List (List POp)) : ((keptOf lives m).map (·.stop)).Sublist (lives.flatMap (fun ops => (dumpTimes ops).reverse)) := by
  induction lives with
  | nil => exact List.Sublist.refl _
  | cons ops lives ih =>
    have h := kept_times m ops {}
    rw [show (({} : PSpec).kept m).map (·.stop) = [] from rfl, List.append_nil] at h
    unfold keptOf at ih ⊢
    rw [List.flatMap_cons, List.flatMap_cons, List.map_append]
    exact h.append ih

/-- What many lives leave of a metric: records of some of its intervals, in their order. -/
theorem forward_shown {c : ProcCfg} {K : Nat} {de : Bytes → Bool} {hit : Bytes → Nat → Bool} {fs : Bytes → Store} {lives : List (List POp)} (h : PLives c K (freshFs de hit) fs lives)
    (hclock : (lives.flatMap (fun ops => (dumpTimes ops).reverse)).Pairwise (fun a b => b < a)) (m : Bytes) (hd : (fs m).dir ≠ []) :
    ∃ (recs : List DRec) (shown : List Batch), ShowsAll (fs m) (lives.flatMap dumpTimes) (recs.map valOf) ∧ EachOf (Right c.pipe.d m) recs shown ∧ shown.Sublist (keptOf lives m) ∧
      (∀ r ∈ recs, needs c.pipe.cfg.size r.encode.length < c.pipe.cfg.cap) ∧ (recs.map valOf).Pairwise (fun a b => b.stop < a.stop) ∧ (∀ v ∈ recs.map valOf, v.stop ∈ lives.flatMap dumpTimes) ∧
      EachOf (fun v (b : Batch) => v.start = b.start ∧ v.stop = b.stop) (recs.map valOf) shown := by
  obtain ⟨given, vs, hD, hgiven, recs, shown, e2, e3, e4, e1⟩ := ordFs_lives h (ordFs_fresh c de hit) m
  subst e1
  replace hD : DurV False (fs m).reopen given (recs.map valOf) := by
    rcases hD with ⟨_, hx, _⟩ | hD
    · exact absurd hx hd
    · exact Or.inr hD
  have hmem : ∀ a, a ∈ lives.flatMap (fun ops => (dumpTimes ops).reverse) → a ∈ lives.flatMap dumpTimes := by
    intro a ha
    obtain ⟨ops, ho, ha⟩ := List.mem_flatMap.mp ha
    exact List.mem_flatMap.mpr ⟨ops, ho, List.mem_reverse.mp ha⟩
  have hstops : ∀ w ∈ given, w.stop ∈ lives.flatMap dumpTimes := by
    intro w hw
    obtain ⟨b, hb, e⟩ := hgiven w hw
    rw [e]
    exact hmem _ ((keptOf_times m lives).subset (List.mem_map_of_mem hb))
  have hall : ShowsAll (fs m) (lives.flatMap dumpTimes) (recs.map valOf) := fun hit' cfg bound hpos hb => hD.shows (fun h => h) hit' cfg bound hpos (fun w hw => hb _ (hstops w hw))
  have hsort : (shown.map (·.stop)).Pairwise (fun a b => b < a) := hclock.sublist ((e3.map _).trans (keptOf_times m lives))
  have heach : EachOf (fun v (b : Batch) => v.start = b.start ∧ v.stop = b.stop) (recs.map valOf) shown := by
    clear e3 e4 hsort hall hD
    induction e2 with
    | nil => exact .nil
    | cons hr _ ih => exact .cons ⟨hr.start, hr.stop⟩ ih
  have hstop : recs.map ((fun v : Val => v.stop) ∘ valOf) = shown.map (·.stop) := by
    clear hsort heach e3 e4 hD hall
    induction e2 with
    | nil => rfl
    | cons hr _ ih =>
      rw [List.map_cons, List.map_cons, ih]
      congr 1
      exact hr.stop
  have hvsort : (recs.map valOf).Pairwise (fun a b => b.stop < a.stop) := by
    rw [← hstop, ← List.map_map] at hsort
    exact List.pairwise_map.mp hsort
  exact ⟨recs, shown, hall, e2, e3, e4, hvsort, fun v hv => hstops v (hD.mem v hv), heach⟩

/-- **C107** (in order). The program is started and killed any number of times, each time at any moment but the excluded ones, and each dump of its lives, in their order, is later than the one before; let a metric have a data file afterwards. A query for
everything then gives a part of the metric's intervals of these lives, in their order, the newest first and none twice; each of the values has the times of its interval and reads back as the exact count, minimum, maximum, ids and distribution of
the metric's observations in it. -/
theorem C107_order_partial {c : ProcCfg} {K : Nat} {de : Bytes → Bool} {hit : Bytes → Nat → Bool} {fs : Bytes → Store} {lives : List (List POp)} (hg : GeoOk c.pipe.cfg.size c.pipe.cfg.cap) (h : PLives c K (freshFs de hit) fs lives)
    (hclock : (lives.flatMap (fun ops => (dumpTimes ops).reverse)).Pairwise (fun a b => b < a)) (m : Bytes) (hd : (fs m).dir ≠ []) :
    ∃ (vs : List Val) (shown : List Batch), ShowsAll (fs m) (lives.flatMap dumpTimes) vs ∧ shown.Sublist (keptOf lives m) ∧ (shown.map (·.stop)).Pairwise (fun a b => b < a) ∧
      EachOf (fun v (b : Batch) => v.start = b.start ∧ v.stop = b.stop ∧ ∃ r, RecordOf c.pipe.d b.start b.stop (obsOf m b.obs) r ∧ v = valOf r ∧ DRec.decode v.data = .ok { r with min := normZero r.min, max := normZero r.max }) vs shown := by
  obtain ⟨recs, shown, hall, e2, e3, e4, x1, x2, x3⟩ := forward_shown h hclock m hd
  refine ⟨recs.map valOf, shown, hall, e3, hclock.sublist ((e3.map _).trans (keptOf_times m lives)), ?_⟩
  clear e3 hall x1 x2 x3
  induction e2 with
  | nil => exact .nil
  | @cons r b l k hr _ ih =>
    refine .cons ⟨hr.start, hr.stop, r, hr, rfl, ?_⟩ (ih fun r hr => e4 r (List.mem_cons_of_mem _ hr))
    exact (C06_record_round_trip r (fits_small hg (recs := [r]) (fun x hx => by rw [List.mem_singleton.mp hx]; exact e4 r List.mem_cons_self) r List.mem_cons_self)).1

/-- **C127** (a clock that goes forward). The program is started and killed any number of times, each time at any moment but the excluded ones, and each dump of its lives, in their order, is later than the one before; let a metric have a data file
afterwards. Then a query for everything shows some intervals of the metric of these lives, the newest first, and if there are any, a request for the graph up to a time after all dumps is answered with the picture of just these intervals. -/
theorem C127_forward {c : ProcCfg} {K : Nat} {de : Bytes → Bool} {hit : Bytes → Nat → Bool} {fs : Bytes → Store} {lives : List (List POp)} {e : Outside} (he : e.Ok) {n : ℕ} (h1 : 1 ≤ n) (hn : n < 2 ^ 50) {colors : List Color} (hc : 1 ≤ colors.length)
    (hN : colors.length ≤ 2 ^ 40) {state : List Obs → List F64} (lib : Library e c.pipe.d state) (hg : GeoOk c.pipe.cfg.size c.pipe.cfg.cap) (h : PLives c K (freshFs de hit) fs lives)
    (hclock : (lives.flatMap (fun ops => (dumpTimes ops).reverse)).Pairwise (fun a b => b < a)) (m : Bytes) (hd : (fs m).dir ≠ []) :
    ∃ (vs : List Val) (shown : List Batch), ShowsAll (fs m) (lives.flatMap dumpTimes) vs ∧ shown.Sublist (keptOf lives m) ∧ EachOf (fun v (b : Batch) => v.start = b.start ∧ v.stop = b.stop) vs shown ∧
      (vs ≠ [] → ∀ (hit' : Nat → Bool) (cfg : Cfg) (now dur : Int64) (width height padding : Int), (∀ t ∈ lives.flatMap dumpTimes, t < now) → SaneTimes width shown → now.toInt + dur.toInt < 9223372036854775808 → 0 ≤ padding →
        width ≤ dur.toInt → height ≤ 9007199254740992 →
        ∃ newest, shown.head? = some newest ∧ ShowsIntervals e n colors state m now dur width height padding newest shown (servePng (theScene e n colors) cfg now dur width height padding { (fs m).reopen with hit := hit' }).1) := by
  obtain ⟨recs, shown, hall, e2, e3, e4, hvsort, hst, heach⟩ := forward_shown h hclock m hd
  refine ⟨recs.map valOf, shown, hall, e3, heach, fun hne hit' cfg now dur width height padding hnow htimes hfar hpad hwd hht => ?_⟩
  have hsne : shown ≠ [] := fun e => hne (by rw [(eachOf_nil e2).mpr e]; rfl)
  have hbound : ∀ v ∈ recs.map valOf, v.stop < now := fun v hv => hnow _ (hst v hv)
  have hpos : 0 < now := by
    obtain ⟨b, hb⟩ := List.exists_mem_of_ne_nil _ hsne
    have a := Int64.lt_iff_toInt_lt.mp ((stops_before e2 now).mp hbound b hb)
    have b := (htimes b hb).2.2
    exact Int64.lt_iff_toInt_lt.mpr (by show (0 : Int) < _; omega)
  exact picture_of he h1 hn hc hN lib hg e2 e4 hsne hvsort hbound htimes hfar hpad hwd hht (hall hit' cfg now hpos hnow)

end Rothko
