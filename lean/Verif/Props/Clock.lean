import Verif.Spec.Clock
import Verif.Spec.KillProc
import Verif.Props.Process
/-!
# C108: the process under any clock

As in Props/Process, without a condition on the times of the dumps: `Writer.Add` and `Writer.Capture` take whatever time the clock gives, and a record that does not end after those stored is refused by `metric.Write` (metric.go:224-235).
-/
namespace Rothko

/-- Of the values on their way, those that will be stored when these are. -/
def fresh (stored : List Val) (l : List Val) : List Val := l.filter (fun v => stored.all (fun w => w.stop < v.stop))

theorem fresh_nil (stored : List Val) : fresh stored [] = [] := rfl

theorem fresh_one (stored : List Val) (v : Val) : fresh stored [v] = if ∀ w ∈ stored, w.stop < v.stop then [v] else [] := by
  unfold fresh
  rw [List.filter_cons]
  by_cases h : ∀ w ∈ stored, w.stop < v.stop
  · rw [if_pos h, if_pos (List.all_eq_true.mpr (fun w hw => by simpa using h w hw)), List.filter_nil]
  · rw [if_neg h, if_neg, List.filter_nil]
    intro hx
    exact h (fun w hw => by simpa using List.all_eq_true.mp hx w hw)

theorem forward_sublist : ∀ l : List Batch, (forward l).Sublist l
  | [] => List.Sublist.slnil
  | b :: l => by
    unfold forward
    split
    · exact (forward_sublist l).cons₂ b
    · exact (forward_sublist l).cons b

/-- The calls of the present process and its files, and the values in them. -/
structure ClkSys (c : ProcCfg) (t : PSpec) (s : Proc) (progs : List (List (Bytes × DbCall))) (base : Bytes → Store) (acc : Bytes → List Val) : Prop where
  reach : FsSys.Reach dbCalls (dbPath c.dir) c.handles progs base s.sys
  ok : ∀ p ∈ progs, ∀ x ∈ p, x.2.Ok ∧ x.2.Uses c.pipe.cfg
  after : ∀ m, AfterCfg c.pipe.cfg (base m) (acc m)
  db : ∀ m, ∃ recs : List DRec, EachOf (Right c.pipe.d m) recs (forward (t.kept m)) ∧ (∀ r ∈ recs, needs c.pipe.cfg.size r.encode.length < c.pipe.cfg.cap) ∧
    recs.map valOf = fresh ((ackd (s.sys.finished m)).reverse ++ acc m) (forMetric m s.coming) ++ ((ackd (s.sys.finished m)).reverse ++ acc m)

structure ClkInv (c : ProcCfg) (K : Nat) (t : PSpec) (s : Proc) : Prop where
  w : WInv c.pipe.d t.w s.w
  ids : ∀ e ∈ t.w.pend, e.2.id.length ≤ K
  len : s.hands.length = c.workers
  wg : s.wg = s.queue.length + s.hands.countP Hand.owes
  rest : s.dumping = false → s.todo = [] ∧ s.wg = 0
  hand : ∀ i h, s.hands[i]? = some h → HandOk c.pipe.cfg s.sys.cl i h
  reader : ∀ (i : Nat) (x : Client DbCall (FsProg DbRes)), c.workers ≤ i → s.sys.cl[i]? = some x → ∀ y ∈ x.todo, y.2.Reads c.pipe.cfg
  once : (s.coming.map (·.1)).Nodup
  coming_fits : ∀ x ∈ s.coming, needs c.pipe.cfg.size x.2.data.length < c.pipe.cfg.cap
  sys : ∃ progs base acc, ClkSys c t s progs base acc

/-- The records of the metric, newest first: one for each interval kept that ends later than all those stored before, with its times, that decodes to the exact count, minimum, maximum, ids and distribution of the metric's observations in it. -/
def ForwardOf (c : ProcCfg) (ops : List POp) (m : Bytes) (recs : List DRec) : Prop :=
  EachOf (fun r b => RecordOf c.pipe.d b.start b.stop (obsOf m b.obs) r) recs (forward ((ops.foldl PSpec.step {}).kept m)) ∧
  ∀ r ∈ recs, DRec.decode (valOf r).data = .ok { r with min := normZero r.min, max := normZero r.max }

theorem stops_before {d : DistParams} {m : Bytes} {recs : List DRec} {bs : List Batch} (h : EachOf (Right d m) recs bs) (now : Int64) : (∀ w ∈ recs.map valOf, w.stop < now) ↔ ∀ b ∈ bs, b.stop < now := by
  induction h with
  | nil => exact ⟨fun _ b hb => (by cases hb), fun _ w hw => (by cases hw)⟩
  | @cons r b l k h1 _ ih =>
    have e : (valOf r).stop = b.stop := h1.stop
    rw [List.map_cons, List.forall_mem_cons, List.forall_mem_cons, ih, e]

theorem LifeOk.left {c : ProcCfg} {K : Nat} {ops more : List POp} (h : LifeOk c K (ops ++ more)) : LifeOk c K ops := by
  refine ⟨h.handles, h.clients, h.dist, h.geo, h.fits, fun op ho => h.fair op (List.mem_append_left _ ho), ?_⟩
  have := h.short
  rw [List.length_append] at this
  omega

section
variable {c : ProcCfg} {K : Nat} {t : PSpec} {s : Proc}

theorem ClkInv.same {c : ProcCfg} {K : Nat} {t : PSpec} {s : Proc} (h : ClkInv c K t s) (s' : Proc) (hw : s'.w = s.w) (hlen : s'.hands.length = s.hands.length)
    (hwg : s'.wg = s'.queue.length + s'.hands.countP Hand.owes) (hrest : s'.dumping = false → s'.todo = [] ∧ s'.wg = 0)
    (hhand : ∀ i h, s'.hands[i]? = some h → HandOk c.pipe.cfg s'.sys.cl i h)
    (hread : ∀ (i : Nat) (x : Client DbCall (FsProg DbRes)), c.workers ≤ i → s'.sys.cl[i]? = some x → ∀ y ∈ x.todo, y.2.Reads c.pipe.cfg)
    (hperm : s.coming.Perm s'.coming) (hfin : ∀ m, ackd (s'.sys.finished m) = ackd (s.sys.finished m))
    (hsys : ∀ progs base acc, ClkSys c t s progs base acc → ∃ progs', FsSys.Reach dbCalls (dbPath c.dir) c.handles progs' base s'.sys ∧ ∀ p ∈ progs', ∀ x ∈ p, x.2.Ok ∧ x.2.Uses c.pipe.cfg) :
    ClkInv c K t s' := by
  refine ⟨by rw [hw]; exact h.w, h.ids, hlen.trans h.len, hwg, hrest, hhand, hread, (hperm.map _).nodup_iff.mp h.once, fun x hx => h.coming_fits x (hperm.mem_iff.mpr hx), ?_⟩
  obtain ⟨progs, base, acc, hs⟩ := h.sys
  obtain ⟨progs', h1, h2⟩ := hsys progs base acc hs
  refine ⟨progs', base, acc, h1, h2, hs.after, fun m => ?_⟩
  obtain ⟨recs, r1, r2, r3⟩ := hs.db m
  refine ⟨recs, r1, r2, ?_⟩
  rw [r3, forMetric_perm hperm h.once, hfin m]

theorem ClkInv.offer (h : ClkInv c K t s) {x : Bytes × Val} {rest : List (Bytes × Val)} (ht : s.todo = x :: rest) : ClkInv c K t { s with todo := rest, queue := s.queue ++ [x], wg := s.wg + 1 } := by
  refine h.same _ rfl rfl ?_ ?_ h.hand h.reader ?_ (fun _ => rfl) (fun progs base acc hs => ⟨progs, hs.reach, hs.ok⟩)
  · show s.wg + 1 = (s.queue ++ [x]).length + _
    rw [h.wg, List.length_append]
    simp only [List.length_singleton]
    omega
  · intro hd
    have := (h.rest hd).1
    rw [ht] at this
    cases this
  · unfold Proc.coming
    dsimp only
    refine List.Perm.append_right _ (List.Perm.filter _ ?_)
    rw [ht, ← List.append_assoc]
    exact (List.perm_append_comm (l₁ := [x]))

theorem ClkInv.refuse (h : ClkInv c K t s) {x : Bytes × Val} {rest : List (Bytes × Val)} (ht : s.todo = x :: rest) (hx : s.taken x.1 = false) : ClkInv c K t { s with todo := rest } := by
  refine h.same _ rfl rfl h.wg ?_ h.hand h.reader ?_ (fun _ => rfl) (fun progs base acc hs => ⟨progs, hs.reach, hs.ok⟩)
  · intro hd
    have := (h.rest hd).1
    rw [ht] at this
    cases this
  · unfold Proc.coming
    dsimp only
    rw [ht, List.cons_append, List.filter_cons, if_neg (by rw [hx]; decide)]

theorem ClkInv.drain (h : ClkInv c K t s) {x : Bytes × Val} {rest : List (Bytes × Val)} (ht : s.queue = x :: rest) (hx : s.taken x.1 = false) : ClkInv c K t { s with queue := rest, wg := s.wg - 1 } := by
  have hwg := h.wg
  rw [ht, List.length_cons] at hwg
  refine h.same _ rfl rfl ?_ ?_ h.hand h.reader ?_ (fun _ => rfl) (fun progs base acc hs => ⟨progs, hs.reach, hs.ok⟩)
  · show s.wg - 1 = rest.length + s.hands.countP Hand.owes
    omega
  · intro hd
    have := (h.rest hd).2
    omega
  · unfold Proc.coming
    dsimp only
    rw [ht, List.filter_append, List.filter_append, List.filter_cons, if_neg (by rw [hx]; decide)]

theorem clk_hand_lt (h : ClkInv c K t s) {i : Nat} {a : Hand} (hi : s.hands[i]? = some a) : i < c.workers := by
  have := (List.getElem?_eq_some_iff.mp hi).1
  rw [h.len] at this
  exact this

theorem ClkInv.recv (h : ClkInv c K t s) (hg : GeoOk c.pipe.cfg.size c.pipe.cfg.cap) {i : Nat} {x : Bytes × Val} {rest : List (Bytes × Val)} (hi : s.hands[i]? = some .free) (hq : s.queue = x :: rest) (hx : s.taken x.1 = true) :
    ClkInv c K t { s with queue := rest, hands := s.hands.set i (.busy x.1 x.2), sys := { s.sys with cl := s.sys.cl.set i ⟨[(x.1, .write c.pipe.cfg x.2)], .out⟩ } } := by
  have hwg := h.wg
  rw [hq, List.length_cons] at hwg
  have hcl : s.sys.cl[i]? = some ⟨[], .out⟩ := h.hand i _ hi
  have hfit : needs c.pipe.cfg.size x.2.data.length < c.pipe.cfg.cap := h.coming_fits x (by
    unfold Proc.coming
    refine List.mem_append_left _ (List.mem_filter.mpr ⟨List.mem_append_right _ ?_, hx⟩)
    rw [hq]
    exact List.mem_cons_self)
  refine h.same _ rfl (by simp) ?_ ?_ ?_ ?_ ?_ (fun _ => rfl) ?_
  · show s.wg = rest.length + (s.hands.set i (.busy x.1 x.2)).countP Hand.owes
    have := countP_set_of (p := Hand.owes) (Hand.busy x.1 x.2) hi
    simp only [Hand.owes, Bool.false_eq_true, if_false, if_true] at this
    omega
  · intro hd
    have := (h.rest hd).2
    omega
  · intro j a ha
    rcases hands_ne ha with ⟨rfl, rfl⟩ | ⟨hij, ha⟩
    · refine ⟨.out, ?_⟩
      exact List.getElem?_set_self (List.getElem?_eq_some_iff.mp hcl).1
    · exact handOk_ne hij (h.hand j a ha)
  · intro j y hj hy
    rcases client_set_cases hy with ⟨rfl, _⟩ | ⟨_, hy⟩
    · have := clk_hand_lt h hi
      omega
    · exact h.reader j y hj hy
  · unfold Proc.coming
    dsimp only
    have p1 := filterMap_at Hand.item _ i _ hi
    have p2 := filterMap_set Hand.item _ i _ (.busy x.1 x.2) hi
    have e1 : (Hand.item Hand.free).toList = [] := rfl
    have e2 : (Hand.item (Hand.busy x.1 x.2)).toList = [x] := rfl
    rw [e1, List.nil_append] at p1
    rw [e2] at p2
    rw [hq, List.filter_append, List.filter_append, List.filter_cons, if_pos hx]
    refine (List.Perm.append_left _ p1).trans (List.Perm.trans ?_ (List.Perm.append_left _ p2.symm))
    rw [List.append_assoc, List.append_assoc]
    refine List.Perm.append_left _ ?_
    rw [List.cons_append]
    exact List.perm_middle.symm
  · intro progs base acc hs
    refine ⟨progs.modify i (fun p => p ++ [(x.1, .write c.pipe.cfg x.2)]), ?_, modify_ok hs.ok i (x.1, .write c.pipe.cfg x.2) (show (DbCall.write c.pipe.cfg x.2).Ok ∧ _ from ⟨⟨hg, Nat.le_of_lt hfit⟩, rfl⟩)⟩
    have := reach_more hs.reach i (x.1, .write c.pipe.cfg x.2)
    rw [more_set hcl] at this
    exact this

theorem ClkInv.ask (h : ClkInv c K t s) (hg : GeoOk c.pipe.cfg.size c.pipe.cfg.cap) {i : Nat} {m : Bytes} {o : DbCall} (hi : c.workers ≤ i) (hcl : s.sys.cl[i]? = some ⟨[], .out⟩) (ho : o.Reads c.pipe.cfg) :
    ClkInv c K t { s with sys := { s.sys with cl := s.sys.cl.set i ⟨[(m, o)], .out⟩ } } := by
  refine h.same _ rfl rfl h.wg h.rest ?_ ?_ (List.Perm.refl _) (fun _ => rfl) ?_
  · intro j a ha
    have := clk_hand_lt h ha
    exact handOk_ne (by omega) (h.hand j a ha)
  · intro j y hj hy
    rcases client_set_cases hy with ⟨rfl, rfl⟩ | ⟨_, hy⟩
    · intro z hz
      rw [List.mem_singleton.mp hz]
      exact ho
    · exact h.reader j y hj hy
  · intro progs base acc hs
    refine ⟨progs.modify i (fun p => p ++ [(m, o)]), ?_, modify_ok hs.ok i _ ?_⟩
    · have := reach_more hs.reach i (m, o)
      rw [more_set hcl] at this
      exact this
    · cases o with
      | write cfg v => cases ho
      | query cfg b cb => cases ho; exact ⟨hg, rfl⟩
      | latest cfg => cases ho; exact ⟨hg, rfl⟩

theorem ClkInv.db (h : ClkInv c K t s) {sys : FsSys DbCall DbRes} (hst : s.sys.Step dbCalls (dbPath c.dir) sys) (hlog : ∀ e, sys.log = s.sys.log ++ [e] → c.workers ≤ e.1) : ClkInv c K t { s with sys } := by
  rcases step_shape hst with ⟨e1, e2⟩ | ⟨i, m, o, rest, r, q, e1, e2⟩
  · refine h.same _ rfl rfl h.wg h.rest (fun i a ha => handOk_step e2 (h.hand i a ha)) ?_ (List.Perm.refl _) ?_ ?_
    · intro j y hj hy
      have hl : j < s.sys.cl.length := by
        have : s.sys.cl.length = sys.cl.length := by cases hst <;> simp
        rw [this]
        exact (List.getElem?_eq_some_iff.mp hy).1
      have hx := List.getElem?_eq_getElem hl
      obtain ⟨w, h1, _⟩ := e2 j _ hx
      have hy : sys.cl[j]? = some y := hy
      rw [h1] at hy
      injection hy with hy
      rw [← hy]
      exact fun z hz => h.reader j s.sys.cl[j] hj hx z hz
    · intro m
      unfold FsSys.finished
      dsimp only
      rw [e1]
    · intro progs base acc hs
      exact ⟨progs, .step hs.reach hst, hs.ok⟩
  · have hw : c.workers ≤ i := hlog (i, m, o, r) (by rw [e2])
    have hread := h.reader i _ hw e1
    refine h.same _ rfl rfl h.wg h.rest ?_ ?_ (List.Perm.refl _) ?_ ?_
    · intro j a ha
      have := clk_hand_lt h ha
      rw [e2]
      exact handOk_ne (by omega) (h.hand j a ha)
    · intro j y hj hy
      rw [e2] at hy
      rcases client_set_cases hy with ⟨rfl, rfl⟩ | ⟨_, hy⟩
      · intro z hz
        exact hread z (List.mem_cons_of_mem _ hz)
      · exact h.reader j y hj hy
    · intro k
      dsimp only
      rw [e2, finished_snoc]
      split
      · rw [ackd_append]
        have := hread (m, o) List.mem_cons_self
        cases o with
        | write cfg v => cases this
        | query => simp [ackd]
        | latest => simp [ackd]
      · rw [List.append_nil]
    · intro progs base acc hs
      exact ⟨progs, .step hs.reach hst, hs.ok⟩

theorem ClkInv.wrote (h : ClkInv c K t s) (hn : c.handles < 2 ^ 63) (hg : GeoOk c.pipe.cfg.size c.pipe.cfg.cap) {i : Nat} {sys : FsSys DbCall DbRes} {e : Bytes × DbCall × DbRes} {m : Bytes} {v : Val}
    (hst : s.sys.Step dbCalls (dbPath c.dir) sys) (hlog : sys.log = s.sys.log ++ [(i, e)]) (hi : s.hands[i]? = some (.busy m v)) : ClkInv c K t { s with sys, hands := s.hands.set i .wrote } ∧ (e = (m, .write c.pipe.cfg v, .write .written) ∨ e = (m, .write c.pipe.cfg v, .write .notWritten)) := by
  rcases step_shape hst with ⟨e1, _⟩ | ⟨j, m', o, rest, r, q, e1, e2⟩
  · rw [e1] at hlog
    have := congrArg List.length hlog
    simp at this
  have hlog2 : s.sys.log ++ [(j, m', o, r)] = s.sys.log ++ [(i, e)] := by rw [← hlog, e2]
  have hlog3 := List.append_cancel_left hlog2
  injection hlog3 with hlog3 _
  injection hlog3 with hj he
  subst hj
  obtain ⟨w, hw⟩ := h.hand j _ hi
  rw [e1] at hw
  injection hw with hw
  injection hw with hw _
  injection hw with hw hr
  injection hw with hm ho
  subst hm ho hr
  have hperm : s.coming.Perm ((m', v) :: Proc.coming { s with sys, hands := s.hands.set j .wrote }) := by
    unfold Proc.coming
    dsimp only
    have p1 := filterMap_at Hand.item _ j _ hi
    have p2 := filterMap_set Hand.item _ j _ .wrote hi
    have q1 : (Hand.item Hand.wrote).toList = [] := rfl
    have q2 : (Hand.item (Hand.busy m' v)).toList = [(m', v)] := rfl
    rw [q1, List.nil_append] at p2
    rw [q2] at p1
    refine (List.Perm.append_left _ p1).trans ?_
    refine List.Perm.trans ?_ ((List.Perm.append_left _ p2.symm).cons _)
    exact List.perm_middle
  have honce := (hperm.map (·.1)).nodup_iff.mp h.once
  obtain ⟨progs, base, acc, hs⟩ := h.sys
  have hreach : FsSys.Reach dbCalls (dbPath c.dir) c.handles progs base sys := .step hs.reach hst
  have hfin : ∀ k, sys.finished k = s.sys.finished k ++ (if m' = k then [(j, .write c.pipe.cfg v, r)] else []) := fun k => by rw [e2, finished_snoc]
  have hshort := forMetric_short (m := m') honce
  have hcons : forMetric m' ((m', v) :: Proc.coming { s with sys, hands := s.hands.set j .wrote }) = v :: forMetric m' (Proc.coming { s with sys, hands := s.hands.set j .wrote }) := by
    unfold forMetric
    rw [List.filter_cons, if_pos (by simp)]
    rfl
  have hnil : forMetric m' (Proc.coming { s with sys, hands := s.hands.set j .wrote }) = [] := by
    apply List.eq_nil_of_length_eq_zero
    rw [hcons, List.length_cons] at hshort
    omega
  have hr : r = if ∀ x ∈ (ackd (s.sys.finished m')).reverse ++ acc m', x.stop < v.stop then DbRes.write .written else DbRes.write .notWritten := by
    have hq : sys.quiet m' := by rw [e2]; exact finish_quiet hn hs.reach e1
    have hfin := hfin m'
    rw [if_pos rfl] at hfin
    obtain ⟨t', t1, t2⟩ := result_cfg c.pipe.cfg hn hreach hs.ok m' (acc m') (hs.after m') hq _ j _ r hfin
    have hfit : needs c.pipe.cfg.size v.data.length < c.pipe.cfg.cap := h.coming_fits (m', v) (hperm.mem_iff.mpr List.mem_cons_self)
    rw [← t2]
    by_cases hl : ∀ x ∈ (ackd (s.sys.finished m')).reverse ++ acc m', x.stop < v.stop
    · have hok := C20_one_config_partial t1 v hg hl (.inl hfit)
      rw [if_pos hl, ← hok]
      rfl
    · have hex : ∃ x ∈ (ackd (s.sys.finished m')).reverse ++ acc m', v.stop ≤ x.stop := by
        refine Classical.byContradiction fun hx => hl fun y hy => ?_
        refine Classical.byContradiction fun hy2 => hx ⟨y, hy, ?_⟩
        rw [Int64.le_iff_toInt_le]
        rw [Int64.lt_iff_toInt_lt] at hy2
        omega
      have hok := (C14_only_forward t1.reach c.pipe.cfg v hg (Nat.le_of_lt hfit)).2.1 hex
      rw [if_neg hl, ← hok]
      rfl
  refine ⟨?_, by rw [← he, hr]; split <;> simp⟩
  refine ⟨h.w, h.ids, (by simpa using h.len), ?_, h.rest, ?_, ?_, (List.nodup_cons.mp honce).2, fun x hx => h.coming_fits x (hperm.mem_iff.mpr (List.mem_cons_of_mem _ hx)), ?_⟩
  · show s.wg = s.queue.length + (s.hands.set j .wrote).countP Hand.owes
    have := countP_set_of (p := Hand.owes) Hand.wrote hi
    simp only [Hand.owes, if_true] at this
    have := h.wg
    omega
  · intro k a ha
    rw [e2]
    rcases hands_ne ha with ⟨rfl, rfl⟩ | ⟨hne, ha⟩
    · exact List.getElem?_set_self (List.getElem?_eq_some_iff.mp e1).1
    · exact handOk_ne hne (h.hand k a ha)
  · intro k y hk hy
    rw [e2] at hy
    rcases client_set_cases hy with ⟨rfl, _⟩ | ⟨_, hy⟩
    · have := clk_hand_lt h hi
      omega
    · exact h.reader k y hk hy
  · refine ⟨progs, base, acc, hreach, hs.ok, hs.after, fun k => ?_⟩
    obtain ⟨recs, r1, r2, r3⟩ := hs.db k
    refine ⟨recs, r1, r2, ?_⟩
    rw [forMetric_perm hperm h.once] at r3
    have hfin := hfin k
    show recs.map valOf = fresh ((ackd (sys.finished k)).reverse ++ acc k) _ ++ ((ackd (sys.finished k)).reverse ++ acc k)
    by_cases hk : m' = k
    · subst hk
      rw [if_pos rfl] at hfin
      rw [hcons, hnil, fresh_one] at r3
      rw [hnil, fresh_nil, List.nil_append]
      by_cases hl : ∀ x ∈ (ackd (s.sys.finished m')).reverse ++ acc m', x.stop < v.stop
      · rw [if_pos hl] at r3 hr
        rw [hfin, hr, ackd_append, r3]
        simp [ackd]
      · rw [if_neg hl] at r3 hr
        rw [hfin, hr, ackd_append, r3]
        simp [ackd]
    · rw [if_neg hk, List.append_nil] at hfin
      rw [hfin, r3]
      congr 2
      unfold forMetric
      rw [List.filter_cons, if_neg (by simpa using hk)]

theorem ClkInv.answer (h : ClkInv c K t s) {i : Nat} (hi : s.hands[i]? = some .wrote) : ClkInv c K t { s with hands := s.hands.set i .free, wg := s.wg - 1 } := by
  have hc := countP_set_of (p := Hand.owes) Hand.free hi
  simp only [Hand.owes, if_true, Bool.false_eq_true, if_false] at hc
  have hwg := h.wg
  refine h.same _ rfl (by simp) ?_ ?_ ?_ h.reader ?_ (fun _ => rfl) (fun progs base acc hs => ⟨progs, hs.reach, hs.ok⟩)
  · show s.wg - 1 = s.queue.length + (s.hands.set i .free).countP Hand.owes
    omega
  · intro hd
    have := h.rest hd
    exact ⟨this.1, by show s.wg - 1 = 0; omega⟩
  · intro k a ha
    rcases hands_ne ha with ⟨rfl, rfl⟩ | ⟨hne, ha⟩
    · have hk : s.sys.cl[k]? = some ⟨[], .out⟩ := h.hand k _ hi
      exact hk
    · exact h.hand k a ha
  · unfold Proc.coming
    dsimp only
    refine List.Perm.append_left _ ?_
    have p1 := filterMap_at Hand.item _ i _ hi
    have p2 := filterMap_set Hand.item _ i _ .free hi
    have q1 : (Hand.item Hand.wrote).toList = [] := rfl
    have q2 : (Hand.item Hand.free).toList = [] := rfl
    rw [q1] at p1
    rw [q2] at p2
    exact p1.trans p2.symm

theorem ClkInv.wait (h : ClkInv c K t s) (ht : s.todo = []) (hw : s.wg = 0) : ClkInv c K t { s with dumping := false } :=
  h.same _ rfl rfl h.wg (fun _ => ⟨ht, hw⟩) h.hand h.reader (List.Perm.refl _) (fun _ => rfl) (fun progs _ _ hs => ⟨progs, hs.reach, hs.ok⟩)

theorem ClkInv.idle (h : ClkInv c K t s) (hd : s.dumping = false) : s.queue = [] ∧ s.coming = [] := by
  obtain ⟨h1, h2⟩ := h.rest hd
  have hwg := h.wg
  have hq : s.queue = [] := List.eq_nil_of_length_eq_zero (by omega)
  refine ⟨hq, ?_⟩
  unfold Proc.coming
  rw [h1, hq, List.append_nil, List.filter_nil, List.nil_append, List.filterMap_eq_nil_iff]
  intro a ha
  have : s.hands.countP Hand.owes = 0 := by omega
  have := List.countP_eq_zero.mp this a ha
  cases a with
  | busy m v => exact absurd rfl this
  | _ => rfl

theorem clkInv_init {fs : Bytes → Store} (hwc : c.workers ≤ c.clients) (hw : t.w = {})
    (hdb : ∀ m, ∃ recs : List DRec, EachOf (Right c.pipe.d m) recs (forward (t.kept m)) ∧ (∀ r ∈ recs, needs c.pipe.cfg.size r.encode.length < c.pipe.cfg.cap) ∧ AfterCfg c.pipe.cfg (fs m) (recs.map valOf)) :
    ClkInv c K t (Proc.init c fs) := by
  have hget : ∀ (i : Nat) (x : Client DbCall (FsProg DbRes)), (Proc.init c fs).sys.cl[i]? = some x → x = ⟨[], .out⟩ := by
    intro i x hx
    have hx : ((List.replicate c.clients ([] : List (Bytes × DbCall))).map (fun p => (⟨p, .out⟩ : Client DbCall (FsProg DbRes))))[i]? = some x := hx
    rw [List.map_replicate] at hx
    exact List.eq_of_mem_replicate (List.mem_of_getElem? hx)
  refine ⟨by rw [hw]; exact winv_init _, fun e he => (by rw [hw] at he; cases he), ?_, ?_, fun _ => ⟨rfl, rfl⟩, ?_, ?_, by rw [init_coming]; exact List.nodup_nil, fun x hx => (by rw [init_coming] at hx; cases hx), ?_⟩
  · exact List.length_replicate
  · show 0 = 0 + (List.replicate c.workers Hand.free).countP Hand.owes
    rw [List.countP_replicate]
    rfl
  · intro i a ha
    have hl := (List.getElem?_eq_some_iff.mp ha).1
    have ha : (List.replicate c.workers Hand.free)[i]? = some a := ha
    have := List.eq_of_mem_replicate (List.mem_of_getElem? ha)
    subst this
    show ((List.replicate c.clients ([] : List (Bytes × DbCall))).map (fun p => (⟨p, .out⟩ : Client DbCall (FsProg DbRes))))[i]? = _
    have hl : i < (List.replicate c.workers Hand.free).length := hl
    rw [List.length_replicate] at hl
    rw [List.map_replicate, List.getElem?_replicate_of_lt (by omega)]
  · intro i x _ hx y hy
    rw [hget i x hx] at hy
    cases hy
  · refine ⟨List.replicate c.clients [], fs, fun m => (Classical.choose (hdb m)).map valOf, .init, ?_, fun m => (Classical.choose_spec (hdb m)).2.2, fun m => ?_⟩
    · intro p hp x hx
      rw [List.eq_of_mem_replicate hp] at hx
      cases hx
    · refine ⟨Classical.choose (hdb m), (Classical.choose_spec (hdb m)).1, (Classical.choose_spec (hdb m)).2.1, ?_⟩
      rw [init_coming]
      rfl

theorem ClkInv.restart (h : ClkInv c K t s) (hn : c.handles < 2 ^ 63) (hd : s.dumping = false) (hcl : ∀ x ∈ s.sys.cl, x = ⟨[], .out⟩) (hwc : c.workers ≤ c.clients) : ClkInv c K (t.step .restart) (Proc.init c s.sys.g.fs) := by
  refine clkInv_init hwc rfl fun m => ?_
  obtain ⟨progs, base, acc, hs⟩ := h.sys
  obtain ⟨recs, r1, r2, r3⟩ := hs.db m
  refine ⟨recs, r1, r2, ?_⟩
  rw [r3, (h.idle hd).2]
  refine history_cfg c.pipe.cfg hn hs.reach hs.ok m (acc m) (hs.after m) ?_
  intro i o rest p hc
  have := hcl _ (List.mem_of_getElem? hc)
  cases this

theorem ClkInv.add (h : ClkInv c K t s) (hd : c.pipe.d.newOk = true) (hlen : t.w.pend.length < 9223372036854775808) {m : Bytes} {ob : Obs} {now : Int64} (hop : (POp.add m ob now).Fair K) :
    ClkInv c K (t.step (.add m ob now)) { s with w := (WOp.add m ob now).run c.pipe.d s.w } := by
  refine ⟨h.w.step hd hlen (.add m ob now) trivial, ?_, h.len, h.wg, h.rest, h.hand, h.reader, h.once, h.coming_fits, ?_⟩
  · show ∀ e ∈ (t.w.step (.add m ob now)).pend, _
    unfold WSpec.step
    dsimp only
    split
    · intro e he
      rcases List.mem_append.mp he with he | he
      · exact h.ids e he
      · rw [List.mem_singleton.mp he]; exact hop
    · exact h.ids
  · obtain ⟨progs, base, acc, hs⟩ := h.sys
    exact ⟨progs, base, acc, hs.reach, hs.ok, hs.after, hs.db⟩

theorem ClkInv.dump (h : ClkInv c K t s) (hd : c.pipe.d.newOk = true) (hfit : Fits c.pipe K) (hlen : t.w.pend.length < 9223372036854775808) {order : List (Bytes × Agg) → List (Bytes × Agg)} {now : Int64} {taken : Bytes → Bool}
    (hop : (POp.dump order now taken).Fair K) (hidle : s.dumping = false) :
    ClkInv c K (t.step (.dump order now taken)) { s with w := (WOp.capture order now).run c.pipe.d s.w, todo := capturedVals c.pipe.d s.w order now, taken, dumping := true } := by
  have hcap := h.w.step hd hlen (.capture order now) hop
  obtain ⟨hq, hcoming⟩ := h.idle hidle
  have hhands : s.hands.filterMap Hand.item = [] := (List.append_eq_nil_iff.mp hcoming).2
  have hnew : Proc.coming { s with w := (WOp.capture order now).run c.pipe.d s.w, todo := capturedVals c.pipe.d s.w order now, taken, dumping := true } = (capturedVals c.pipe.d s.w order now).filter (fun x => taken x.1) := by
    unfold Proc.coming
    dsimp only
    rw [hhands, hq, List.append_nil, List.append_nil]
  have hids : ∀ e ∈ (t.step (.dump order now taken)).w.pend, e.2.id.length ≤ K := by
    show ∀ e ∈ (t.w.step (.capture order now)).pend, e.2.id.length ≤ K
    unfold WSpec.step
    dsimp only
    split
    · exact h.ids
    · intro e he; cases he
  obtain ⟨progs, base, acc, hs⟩ := h.sys
  cases hpg : s.w.page with
  | none =>
    have hst := h.w.isNone.mp hpg
    have ht : ∀ m, (t.step (.dump order now taken)).kept m = t.kept m := by
      intro m
      show (match t.w.start with | none => _ | some t' => _ : List Batch) = _
      rw [hst]
    have he : capturedVals c.pipe.d s.w order now = [] := by
      unfold capturedVals
      rw [hpg]
    rw [he] at hnew ⊢
    refine ⟨hcap, hids, h.len, h.wg, fun hd => (by cases hd), h.hand, h.reader, by rw [hnew]; exact List.nodup_nil, fun x hx => (by rw [hnew] at hx; cases hx), progs, base, acc, hs.reach, hs.ok, hs.after, fun m => ?_⟩
    obtain ⟨recs, r1, r2, r3⟩ := hs.db m
    refine ⟨recs, by rw [ht]; exact r1, r2, ?_⟩
    rw [r3, hcoming, hnew]
    rfl
  | some p =>
    obtain ⟨hst, hok⟩ := h.w.page p hpg
    obtain ⟨_, hgr⟩ := hok.group c.pipe.d now order (hop _)
    have he : capturedVals c.pipe.d s.w order now = (captureLoop c.pipe.d now (order p.m)).1.map (fun c => (c.metric, valOf c.rec_)) := by
      unfold capturedVals
      rw [hpg]
    rw [he] at hnew ⊢
    generalize (captureLoop c.pipe.d now (order p.m)).1 = g at hgr hnew
    have honce : (((g.map (fun c => (c.metric, valOf c.rec_))).filter (fun x => taken x.1)).map (·.1)).Nodup := by
      refine (List.filter_sublist.map _).nodup ?_
      rw [List.map_map]
      exact hgr.once
    refine ⟨hcap, hids, h.len, h.wg, fun hd => (by cases hd), h.hand, h.reader, by rw [hnew]; exact honce, ?_, progs, base, acc, hs.reach, hs.ok, hs.after, fun m => ?_⟩
    · intro x hx
      rw [hnew] at hx
      obtain ⟨y, hy, rfl⟩ := List.mem_map.mp (List.mem_filter.mp hx).1
      refine hfit _ _ _ _ ?_ (hgr.recs y hy)
      intro z hz
      rw [hgr.vals y hy] at hz
      exact h.ids _ (obsOf_mem hz)
    obtain ⟨recs, r1, r2, r3⟩ := hs.db m
    rw [hcoming] at r3
    have r3 : recs.map valOf = (ackd (s.sys.finished m)).reverse ++ acc m := r3
    have hk : (t.step (.dump order now taken)).kept m = if taken m && (t.w.pend.map (·.1)).contains m then ⟨p.now, now, t.w.pend⟩ :: t.kept m else t.kept m := by
      show (match t.w.start with | none => _ | some t' => _) = _
      rw [hst]
    rw [hk, hnew, forMetric_filter g taken m hgr.once]
    cases hf : (g.filter (fun c => taken c.metric)).find? (fun c => c.metric == m) with
    | none =>
      rw [if_neg]
      · exact ⟨recs, r1, r2, r3⟩
      · intro hcond
        rw [Bool.and_eq_true] at hcond
        obtain ⟨htk, hmem⟩ := hcond
        have hmem : m ∈ t.w.pend.map (·.1) := by simpa using hmem
        obtain ⟨c, hc, hcm⟩ := List.mem_map.mp ((hgr.metrics m).mpr hmem)
        have := (List.find?_eq_none.mp hf) c (List.mem_filter.mpr ⟨hc, by rw [hcm]; exact htk⟩)
        exact this (by simpa using hcm)
    | some x =>
      have hcm : x.metric = m := by simpa using List.find?_some hf
      obtain ⟨hc, htk⟩ := List.mem_filter.mp (List.mem_of_find?_eq_some hf)
      have hmem : m ∈ t.w.pend.map (·.1) := (hgr.metrics m).mp (List.mem_map.mpr ⟨x, hc, hcm⟩)
      rw [if_pos (by rw [Bool.and_eq_true]; exact ⟨by rw [← hcm]; exact htk, by simpa using hmem⟩)]
      have hrec := hgr.recs x hc
      have hid : ∀ y ∈ x.vals, y.id.length ≤ K := by
        intro y hy
        rw [hgr.vals x hc] at hy
        exact h.ids _ (obsOf_mem hy)
      have hright : Right c.pipe.d m x.rec_ ⟨p.now, now, t.w.pend⟩ := by
        rw [hgr.vals x hc, hcm] at hrec
        exact hrec
      have hst : (valOf x.rec_).stop = now := hright.stop
      show ∃ recs : List DRec, EachOf (Right c.pipe.d m) recs (forward (_ :: t.kept m)) ∧ _ ∧ recs.map valOf = fresh ((ackd (s.sys.finished m)).reverse ++ acc m) [valOf x.rec_] ++ _
      rw [fresh_one, hst, ← r3]
      unfold forward
      have hiff := stops_before r1 now
      by_cases hl : ∀ w ∈ forward (t.kept m), w.stop < now
      · rw [if_pos hl, if_pos (hiff.mpr hl)]
        refine ⟨x.rec_ :: recs, .cons hright r1, ?_, rfl⟩
        intro r hr
        rcases List.mem_cons.mp hr with rfl | hr
        · exact hfit _ _ _ _ hid hrec
        · exact r2 r hr
      · rw [if_neg hl, if_neg (fun h => hl (hiff.mp h))]
        exact ⟨recs, r1, r2, rfl⟩

end

theorem clkInv_reach {c : ProcCfg} {K : Nat} {fs : Bytes → Store} (hfs : ∀ m, AfterCfg c.pipe.cfg (fs m) []) {ops : List POp} {s : Proc} (h : Proc.Reach c fs ops s) : LifeOk c K ops → ClkInv c K (ops.foldl PSpec.step {}) s := by
  induction h with
  | start => exact fun hok => clkInv_init hok.clients rfl (fun m => ⟨[], .nil, fun r hr => (by cases hr), hfs m⟩)
  | @step ops s s' l hr hst ih =>
    intro hok
    have inv := ih hok.left
    rw [List.foldl_append]
    have hlen : (ops.foldl PSpec.step {}).w.pend.length < 9223372036854775808 := by
      have := pend_le ops {}
      have := hok.left.short
      simp only [List.length_nil] at *
      omega
    cases hst with
    | add m ob now => exact inv.add hok.dist hlen (hok.fair _ (by simp))
    | dump order now taken hd => exact inv.dump hok.dist hok.fits hlen (hok.fair _ (by simp)) hd
    | offer x rest ht => exact inv.offer ht
    | refuse x rest ht hx => exact inv.refuse ht hx
    | drain x rest ht hx => exact inv.drain ht hx
    | recv i x rest hi hq hx => exact inv.recv hok.geo hi hq hx
    | ask i m o hi hcl ho => exact inv.ask hok.geo hi hcl ho
    | db sys h1 h2 => exact inv.db h1 h2
    | wrote i sys e m v h1 h2 h3 => exact (inv.wrote hok.handles hok.geo h1 h2 h3).1
    | answer i h1 h2 => exact inv.answer h1
    | wait h1 h2 h3 => exact inv.wait h2 h3
    | restart h1 h2 => exact inv.restart hok.handles h1 h2 hok.clients

theorem forward_end {c : ProcCfg} {ops : List POp} {m : Bytes} {recs : List DRec} (h1 : EachOf (Right c.pipe.d m) recs (forward ((ops.foldl PSpec.step {}).kept m))) : ∀ v ∈ recs.map valOf, v.stop ∈ dumpTimes ops := by
  intro v hv
  obtain ⟨r, hr, rfl⟩ := List.mem_map.mp hv
  obtain ⟨b, hb, hrb⟩ := eachOf_left h1 r hr
  have := kept_stops m ops {} [] (fun _ h => (by cases h)) b ((forward_sublist _).mem hb)
  show r.endTime ∈ _
  rw [hrb.stop]
  simpa using this

/-- What the acknowledged values are: all the records, or all but the newest one, while that is still to be written. -/
theorem ClkInv.acked {c : ProcCfg} {K : Nat} {t : PSpec} {s : Proc} (h : ClkInv c K t s) {acc : List Val} {recs : List DRec} {m : Bytes} (e : recs.map valOf = fresh acc (forMetric m s.coming) ++ acc) :
    ∃ done : List DRec, done.map valOf = acc ∧ (done = recs ∨ s.dumping = true ∧ ∃ r, recs = r :: done) := by
  cases hd : s.dumping with
  | false =>
    rw [(h.idle hd).2] at e
    exact ⟨recs, e, .inl rfl⟩
  | true =>
    have : (fresh acc (forMetric m s.coming)).length ≤ 1 := Nat.le_trans (List.length_filter_le _ _) (forMetric_short (m := m) h.once)
    match hf : fresh acc (forMetric m s.coming), this with
    | [], _ => rw [hf] at e; exact ⟨recs, e, .inl rfl⟩
    | [v], _ =>
      rw [hf] at e
      cases recs with
      | nil => cases e
      | cons r recs =>
        injection e with _ e
        exact ⟨recs, e, .inr ⟨rfl, r, rfl⟩⟩
    | _ :: _ :: _, hl => simp at hl

section
variable {c : ProcCfg} {K : Nat} {de : Bytes → Bool} {hit : Bytes → Nat → Bool} {ops : List POp} {s s' : Proc} {l : Option POp}

theorem clk_call (h : Proc.Reach c (freshFs de hit) ops s) (hok : LifeOk c K ops) (hst : s.Step c l s') {i : Nat} {m : Bytes} {o : DbCall} {r : DbRes} (hlog : s'.sys.log = s.sys.log ++ [(i, m, o, r)]) :
    ∃ recs, EachOf (Right c.pipe.d m) recs (forward ((ops.foldl PSpec.step {}).kept m)) ∧ (∀ r ∈ recs, needs c.pipe.cfg.size r.encode.length < c.pipe.cfg.cap) ∧
      ∃ done, (done = recs ∨ s.dumping = true ∧ ∃ r', recs = r' :: done) ∧ ∃ t, ReachCfg c.pipe.cfg t (done.map valOf) ∧ r = (o.run t).1 := by
  have inv := clkInv_reach (freshFs_after c.pipe.cfg de hit) h hok
  have hst := step_log hst hlog
  obtain ⟨progs, base, acc, hs⟩ := inv.sys
  obtain ⟨recs, r1, r2, r3⟩ := hs.db m
  refine ⟨recs, r1, r2, ?_⟩
  obtain ⟨done, e1, e2⟩ := inv.acked r3
  refine ⟨done, e2, ?_⟩
  rw [e1]
  rcases step_shape hst with ⟨e, _⟩ | ⟨j, m', o', rest, r', q, h1, h2⟩
  · rw [e] at hlog
    have := congrArg List.length hlog
    simp at this
  · have hlog2 : s.sys.log ++ [(j, m', o', r')] = s.sys.log ++ [(i, m, o, r)] := by rw [← hlog, h2]
    have hlog3 := List.append_cancel_left hlog2
    injection hlog3 with hlog3 _
    injection hlog3 with a1 a2
    injection a2 with a2 a3
    injection a3 with a3 a4
    subst a1 a2 a3 a4
    have hfin : s'.sys.finished m' = s.sys.finished m' ++ [(j, o', r')] := by rw [h2, finished_snoc, if_pos rfl]
    have hq : s'.sys.quiet m' := by rw [h2]; exact finish_quiet hok.handles hs.reach h1
    obtain ⟨t, t1, t2⟩ := result_cfg c.pipe.cfg hok.handles (.step hs.reach hst) hs.ok m' (acc m') (hs.after m') hq _ j o' r' hfin
    exact ⟨t, t1, t2.symm⟩

/-- **C108** (every call). The result of a call that returns is that of the same call, alone, after some history of calls, one after the other, in which the values acknowledged are those of the metric's records (without the newest one, if that is not yet written). -/
theorem C108_call (h : Proc.Reach c (freshFs de hit) ops s) (hok : LifeOk c K ops) (hst : s.Step c l s') {i : Nat} {m : Bytes} {o : DbCall} {r : DbRes} (hlog : s'.sys.log = s.sys.log ++ [(i, m, o, r)]) :
    ∃ recs, ForwardOf c ops m recs ∧ ∃ done, (done = recs ∨ s.dumping = true ∧ ∃ r', recs = r' :: done) ∧ ∃ t, ReachCfg c.pipe.cfg t (done.map valOf) ∧ r = (o.run t).1 := by
  obtain ⟨recs, r1, r2, h⟩ := clk_call h hok hst hlog
  exact ⟨recs, ⟨r1, fun r hr => (C06_record_round_trip r (fits_small hok.geo r2 r hr)).1⟩, h⟩

/-- **C108** (queries). Whatever the clock says at the dumps: a query for everything that returns during the process shows, newest first, the records of those intervals of the metric that end later than all stored before them, up to whole oldest files dropped by rotation; while a dump is in progress the newest record may still be missing. It reports no error, unless no record is written. -/
theorem C108_query (h : Proc.Reach c (freshFs de hit) ops s) (hok : LifeOk c K ops) (hst : s.Step c l s') {i : Nat} {m : Bytes} {bound : Int64} {r : DbRes}
    (hlog : s'.sys.log = s.sys.log ++ [(i, m, .query c.pipe.cfg bound (fun _ _ => .more), r)]) (hb : ∀ now ∈ dumpTimes ops, now < bound) :
    ∃ recs, ForwardOf c ops m recs ∧ ∃ done, (done = recs ∨ s.dumping = true ∧ ∃ r', recs = r' :: done) ∧
      ∃ stored dropped err, done.map valOf = stored ++ dropped ∧ (done ≠ [] → stored ≠ [] ∧ err = none) ∧ (c.pipe.cfg.max ≤ 0 → dropped = []) ∧ r = .query stored err := by
  obtain ⟨recs, h1, done, h2, t, h3, h4⟩ := C108_call h hok hst hlog
  refine ⟨recs, h1, done, h2, ?_⟩
  obtain ⟨stored, dropped, q1, q2, q3, q4⟩ := shown_all h3 hok.geo
  have hend : ∀ v ∈ done.map valOf, v.stop < bound := by
    intro v hv
    refine hb _ (forward_end h1.1 v ?_)
    rcases h2 with rfl | ⟨_, r', rfl⟩
    · exact hv
    · exact List.mem_cons_of_mem _ hv
  obtain ⟨q5, q6⟩ := q4 bound hend
  have hm : done ≠ [] → done.map valOf ≠ [] := fun hne e => hne (List.map_eq_nil_iff.mp e)
  exact ⟨stored, dropped, _, q1, fun hne => ⟨q2 (hm hne), q6 (hm hne)⟩, q3, by rw [h4, ← q5]; rfl⟩

/-- **C108** (the latest value). `QueryLatest` gives the newest record that is written: while a dump is in progress, possibly the one before. -/
theorem C108_latest (h : Proc.Reach c (freshFs de hit) ops s) (hok : LifeOk c K ops) (hst : s.Step c l s') {i : Nat} {m : Bytes} {r : DbRes} (hlog : s'.sys.log = s.sys.log ++ [(i, m, .latest c.pipe.cfg, r)])
    (hb : ∀ now ∈ dumpTimes ops, now < 9223372036854775807) :
    ∃ recs, ForwardOf c ops m recs ∧ ∃ done, (done = recs ∨ s.dumping = true ∧ ∃ r', recs = r' :: done) ∧ ∃ err, r = .latest (done.head?.map valOf) err ∧ (done ≠ [] → err = none) := by
  obtain ⟨recs, h1, done, h2, t, h3, h4⟩ := C108_call h hok hst hlog
  refine ⟨recs, h1, done, h2, ?_⟩
  obtain ⟨q1, q2⟩ := C17_latest h3.reach c.pipe.cfg hok.geo
  have hend : ∀ v ∈ done.map valOf, v.stop < 9223372036854775807 := by
    intro v hv
    refine hb _ (forward_end h1.1 v ?_)
    rcases h2 with rfl | ⟨_, r', rfl⟩
    · exact hv
    · exact List.mem_cons_of_mem _ hv
  cases hd : done with
  | nil =>
    rw [hd] at q2
    refine ⟨(dbQueryLatest c.pipe.cfg t).1.2, ?_, fun hne => absurd rfl hne⟩
    rw [h4]
    show DbRes.latest (dbQueryLatest c.pipe.cfg t).1.1 _ = _
    rw [q2 rfl]
    rfl
  | cons w rest =>
    rw [hd] at q1 hend
    refine ⟨none, ?_, fun _ => rfl⟩
    rw [h4]
    show DbRes.latest (dbQueryLatest c.pipe.cfg t).1.1 (dbQueryLatest c.pipe.cfg t).1.2 = _
    rw [q1 (valOf w) (rest.map valOf) rfl (hend _ List.mem_cons_self)]
    rfl

/-- **C108** (at rest). When no dump is in progress and nobody is at work on the metric, its files are those that some history of calls, one after the other, leaves, in which the values acknowledged are those of its records. -/
theorem C108_stored (h : Proc.Reach c (freshFs de hit) ops s) (hok : LifeOk c K ops) (hd : s.dumping = false) (m : Bytes) (hq : s.sys.quiet m) :
    ∃ recs, ForwardOf c ops m recs ∧ ∃ t, SameFs (s.sys.g.fs m) t ∧ ReachCfg c.pipe.cfg t (recs.map valOf) ∧
      ∃ stored dropped, recs.map valOf = stored ++ dropped ∧ (recs ≠ [] → stored ≠ []) ∧ (c.pipe.cfg.max ≤ 0 → dropped = []) ∧
        ∀ bound : Int64, (∀ now ∈ dumpTimes ops, now < bound) → (queryList c.pipe.cfg bound (fun _ _ => .more) t).1.1 = stored := by
  have inv := clkInv_reach (freshFs_after c.pipe.cfg de hit) h hok
  obtain ⟨progs, base, acc, hs⟩ := inv.sys
  obtain ⟨recs, r1, r2, r3⟩ := hs.db m
  rw [(inv.idle hd).2] at r3
  have r3 : recs.map valOf = (ackd (s.sys.finished m)).reverse ++ acc m := r3
  refine ⟨recs, ⟨r1, fun r hr => (C06_record_round_trip r (fits_small hok.geo r2 r hr)).1⟩, ?_⟩
  obtain ⟨t, t1, t2⟩ := history_cfg c.pipe.cfg hok.handles hs.reach hs.ok m (acc m) (hs.after m) hq
  rw [← r3] at t2
  obtain ⟨stored, dropped, q1, q2, q3, q4⟩ := shown_all t2 hok.geo
  exact ⟨t, t1, t2, stored, dropped, q1, fun hne => q2 (fun e => hne (List.map_eq_nil_iff.mp e)), q3, fun bound hb => (q4 bound (fun v hv => hb _ (forward_end r1 v hv))).1⟩

/-- **C108** (no write fails). Every call of a worker is a write, and it is acknowledged or reported as not written, but never fails; the others are queries. -/
theorem C108_written (h : Proc.Reach c (freshFs de hit) ops s) (hok : LifeOk c K ops) : ∀ e ∈ s.sys.log,
    if e.1 < c.workers then ∃ v, e.2.2 = (.write c.pipe.cfg v, .write .written) ∨ e.2.2 = (.write c.pipe.cfg v, .write .notWritten) else e.2.2.1.Reads c.pipe.cfg := by
  induction h with
  | start => intro e he; cases he
  | @step ops s s' l hr hst ih =>
    have inv := clkInv_reach (freshFs_after c.pipe.cfg de hit) hr hok.left
    have ih := ih hok.left
    cases hst with
    | restart h1 h2 => intro e he; cases he
    | wrote i sys e m v h1 h2 h3 =>
      have he := (inv.wrote hok.handles hok.geo h1 h2 h3).2
      intro x hx
      have hx : x ∈ sys.log := hx
      rw [h2] at hx
      rcases List.mem_append.mp hx with hx | hx
      · exact ih x hx
      · rw [List.mem_singleton.mp hx, if_pos (clk_hand_lt inv h3)]
        rcases he with he | he
        · rw [he]; exact ⟨v, .inl rfl⟩
        · rw [he]; exact ⟨v, .inr rfl⟩
    | db sys h1 h2 =>
      intro x hx
      have hx : x ∈ sys.log := hx
      rcases step_shape h1 with ⟨e, _⟩ | ⟨j, m', o', rest, r', q, g1, g2⟩
      · rw [e] at hx
        exact ih x hx
      · have hw : c.workers ≤ j := h2 (j, m', o', r') (by rw [g2])
        rw [g2] at hx
        rcases List.mem_append.mp hx with hx | hx
        · exact ih x hx
        · rw [List.mem_singleton.mp hx, if_neg (by omega)]
          exact inv.reader j _ hw g1 (m', o') List.mem_cons_self
    | _ => exact ih

end

/-! ## Which intervals are stored -/

theorem forward_sorted : ∀ l : List Batch, (forward l).Pairwise (fun a b => b.stop < a.stop)
  | [] => List.Pairwise.nil
  | b :: l => by
    unfold forward
    split
    · rename_i h
      exact List.pairwise_cons.mpr ⟨h, forward_sorted l⟩
    · exact forward_sorted l

/-- **C108** (which). The intervals stored are some of those kept, in order, each ending later than the ones before it. An interval is missing only if one that ends at the same time or later was stored before it: as soon as the clock is past
everything stored, intervals are stored again. With a clock that goes forward none is missing. -/
theorem C108_which (l : List Batch) : (forward l).Sublist l ∧ (forward l).Pairwise (fun a b => b.stop < a.stop) ∧
    (∀ newer b older, l = newer ++ b :: older → b ∈ forward l ∨ ∃ w ∈ forward older, b.stop ≤ w.stop) ∧
    (l.Pairwise (fun a b => b.stop < a.stop) → forward l = l) := by
  refine ⟨forward_sublist l, forward_sorted l, ?_, ?_⟩
  · intro newer
    induction newer generalizing l with
    | nil =>
      intro b older e
      subst e
      by_cases h : ∀ w ∈ forward older, w.stop < b.stop
      · refine .inl ?_
        rw [List.nil_append]
        unfold forward
        rw [if_pos h]
        exact List.mem_cons_self
      · refine .inr (Classical.byContradiction fun hx => h fun w hw => ?_)
        refine Classical.byContradiction fun hy => hx ⟨w, hw, ?_⟩
        rw [Int64.le_iff_toInt_le]
        rw [Int64.lt_iff_toInt_lt] at hy
        omega
    | cons a newer ih =>
      intro b older e
      subst e
      rcases ih _ b older rfl with h | h
      · refine .inl ?_
        rw [List.cons_append]
        unfold forward
        split
        · exact List.mem_cons_of_mem _ h
        · exact h
      · exact .inr h
  · intro h
    induction l with
    | nil => rfl
    | cons b l ih =>
      obtain ⟨h1, h2⟩ := List.pairwise_cons.mp h
      unfold forward
      rw [ih h2, if_pos h1]

end Rothko
