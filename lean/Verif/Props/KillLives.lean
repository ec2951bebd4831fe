import Verif.Props.KillProc
import Verif.Spec.KillProc
/-!
# The whole program is killed again and again (C107)

After a crash the files are not those of a history without one, and a write may be refused (C65): the invariant here says only where the values come from.
-/
namespace Rothko

/-- The value is a record of an interval kept. -/
def FromKept (c : ProcCfg) (t : PSpec) (m : Bytes) (w : Val) : Prop :=
  ∃ b ∈ t.kept m, ∃ r, RecordOf c.pipe.d b.start b.stop (obsOf m b.obs) r ∧ w = valOf r ∧ needs c.pipe.cfg.size r.encode.length < c.pipe.cfg.cap

/-- The calls of the program. -/
def LifeCall (c : ProcCfg) (o : DbCall) : Prop := o.Usable ∧ ∀ l, o.limit = some l → l = c.pipe.cfg.max

structure LivesInv (c : ProcCfg) (K : Nat) (fs : Bytes → Store) (t : PSpec) (s : Proc) : Prop where
  w : WInv c.pipe.d t.w s.w
  ids : ∀ e ∈ t.w.pend, e.2.id.length ≤ K
  len : s.hands.length = c.workers
  wg : s.wg = s.queue.length + s.hands.countP Hand.owes
  rest : s.dumping = false → s.todo = [] ∧ s.wg = 0
  hand : ∀ i h, s.hands[i]? = some h → HandOk c.pipe.cfg s.sys.cl i h
  reader : ∀ (i : Nat) (x : Client DbCall (FsProg DbRes)), c.workers ≤ i → s.sys.cl[i]? = some x → ∀ y ∈ x.todo, y.2.Reads c.pipe.cfg
  items : ∀ x ∈ s.todo ++ s.queue, s.taken x.1 = true → FromKept c t x.1 x.2
  sys : ∃ base given progs, Lives c.dir (LifeCall c) fs base given ∧ (∀ m, ∀ w ∈ given m, FromKept c t m w) ∧ FsSys.Reach dbCalls (dbPath c.dir) c.handles progs base s.sys ∧
    ∀ p ∈ progs, ∀ x ∈ p, LifeCall c x.2 ∧ ∀ w ∈ x.2.given, FromKept c t x.1 w

theorem Lives.trans {d : Bytes} {Q : DbCall → Prop} {fs fs1 fs2 : Bytes → Store} {g1 g2 : Bytes → List Val} (h1 : Lives d Q fs fs1 g1) (h2 : Lives d Q fs1 fs2 g2) : Lives d Q fs fs2 (fun m => g2 m ++ g1 m) := by
  induction h2 with
  | nil => exact h1
  | @kill f2 g n progs s pt _ hn hp hr hc ih =>
    have := Lives.kill pt ih hn hp hr hc
    have e : (fun m => progGiven m progs ++ (g m ++ g1 m)) = (fun m => (progGiven m progs ++ g m) ++ g1 m) := funext fun m => (List.append_assoc _ _ _).symm
    rw [e] at this
    exact this

theorem progGiven_mem {m : Bytes} {progs : List (List (Bytes × DbCall))} {w : Val} (h : w ∈ progGiven m progs) : ∃ p ∈ progs, ∃ x ∈ p, x.1 = m ∧ w ∈ x.2.given := by
  obtain ⟨x, hx, hw⟩ := List.mem_flatMap.mp h
  obtain ⟨hx, hm⟩ := List.mem_filter.mp hx
  obtain ⟨p, hp, hxp⟩ := List.mem_flatten.mp hx
  exact ⟨p, hp, x, hxp, by simpa using hm, hw⟩

theorem modify_mem {α : Type} {l : List (List α)} {i : Nat} {y : α} {p : List α} {x : α} (hp : p ∈ l.modify i (fun p => p ++ [y])) (hx : x ∈ p) : x = y ∨ ∃ q ∈ l, x ∈ q := by
  obtain ⟨k, hk⟩ := List.mem_iff_getElem?.mp hp
  rw [List.getElem?_modify] at hk
  cases hq : l[k]? with
  | none => rw [hq] at hk; cases hk
  | some q =>
    rw [hq] at hk
    have hq := List.mem_of_getElem? hq
    by_cases e : i = k
    · simp only [e, if_true, Option.map_eq_map, Option.map_some, Option.some.injEq] at hk
      rw [← hk] at hx
      rcases List.mem_append.mp hx with hx | hx
      · exact Or.inr ⟨q, hq, hx⟩
      · exact Or.inl (List.mem_singleton.mp hx)
    · simp only [e, if_false, Option.map_eq_map, Option.map_some, Option.some.injEq] at hk
      rw [← hk] at hx
      exact Or.inr ⟨q, hq, hx⟩

theorem DbCall.Reads.life {c : ProcCfg} {o : DbCall} (hg : GeoOk c.pipe.cfg.size c.pipe.cfg.cap) (h : o.Reads c.pipe.cfg) : LifeCall c o := by
  cases o with
  | write => exact h.elim
  | query cfg b cb => cases h; exact ⟨hg, fun l hl => by cases hl⟩
  | latest cfg => cases h; exact ⟨hg, fun l hl => by cases hl⟩

section
variable {c : ProcCfg} {K : Nat} {fs : Bytes → Store} {t t' : PSpec} {s : Proc}

theorem FromKept.mono (h : ∀ m, ∀ b ∈ t.kept m, b ∈ t'.kept m) {m : Bytes} {w : Val} : FromKept c t m w → FromKept c t' m w := fun ⟨b, hb, r, x⟩ => ⟨b, h m b hb, r, x⟩

theorem kept_grows (t : PSpec) (op : POp) : ∀ m, ∀ b ∈ t.kept m, b ∈ (t.step op).kept m := by
  intro m b hb
  cases op with
  | dump order now taken =>
    show b ∈ (match t.w.start with | none => _ | some t' => _ : List Batch)
    split
    · exact hb
    · split
      · exact List.mem_cons_of_mem _ hb
      · exact hb
  | _ => exact hb

theorem LivesInv.sysMono (h : LivesInv c K fs t s) (hk : ∀ m, ∀ b ∈ t.kept m, b ∈ t'.kept m) : ∃ base given progs, Lives c.dir (LifeCall c) fs base given ∧ (∀ m, ∀ w ∈ given m, FromKept c t' m w) ∧
    FsSys.Reach dbCalls (dbPath c.dir) c.handles progs base s.sys ∧ ∀ p ∈ progs, ∀ x ∈ p, LifeCall c x.2 ∧ ∀ w ∈ x.2.given, FromKept c t' x.1 w := by
  obtain ⟨base, given, progs, h1, h2, h3, h4⟩ := h.sys
  exact ⟨base, given, progs, h1, fun m w hw => (h2 m w hw).mono hk, h3, fun p hp x hx => ⟨(h4 p hp x hx).1, fun w hw => ((h4 p hp x hx).2 w hw).mono hk⟩⟩

/-- The program is killed: its files, and where everything in them comes from. -/
theorem LivesInv.killed (h : LivesInv c K fs t s) (hn : c.handles < 2 ^ 63) (pt : Bytes → KillPoint) (hc : s.sys.CutsOk pt) : ∃ given, Lives c.dir (LifeCall c) fs (s.sys.killed pt) given ∧ ∀ m, ∀ w ∈ given m, FromKept c t m w := by
  obtain ⟨base, given, progs, h1, h2, h3, h4⟩ := h.sys
  refine ⟨_, Lives.kill pt h1 hn (fun p hp x hx => (h4 p hp x hx).1) h3 hc, fun m w hw => ?_⟩
  rcases List.mem_append.mp hw with hw | hw
  · obtain ⟨p, hp, x, hx, e, hw⟩ := progGiven_mem hw
    rw [← e]
    exact (h4 p hp x hx).2 w hw
  · exact h2 m w hw

theorem linv_init {fs1 : Bytes → Store} {given : Bytes → List Val} (hwc : c.workers ≤ c.clients) (hw : t.w = {}) (hl : Lives c.dir (LifeCall c) fs fs1 given) (hg : ∀ m, ∀ w ∈ given m, FromKept c t m w) : LivesInv c K fs t (Proc.init c fs1) := by
  have hget : ∀ (i : Nat) (x : Client DbCall (FsProg DbRes)), (Proc.init c fs1).sys.cl[i]? = some x → x = ⟨[], .out⟩ := by
    intro i x hx
    have hx : ((List.replicate c.clients ([] : List (Bytes × DbCall))).map (fun p => (⟨p, .out⟩ : Client DbCall (FsProg DbRes))))[i]? = some x := hx
    rw [List.map_replicate] at hx
    exact List.eq_of_mem_replicate (List.mem_of_getElem? hx)
  refine ⟨by rw [hw]; exact winv_init _, fun e he => (by rw [hw] at he; cases he), List.length_replicate, ?_, fun _ => ⟨rfl, rfl⟩, ?_, ?_, fun x hx => (by cases hx), ?_⟩
  · show 0 = 0 + (List.replicate c.workers Hand.free).countP Hand.owes
    rw [List.countP_replicate]
    rfl
  · intro i a ha
    have hl := (List.getElem?_eq_some_iff.mp ha).1
    have ha : (List.replicate c.workers Hand.free)[i]? = some a := ha
    have := List.eq_of_mem_replicate (List.mem_of_getElem? ha)
    subst this
    show ((List.replicate c.clients ([] : List (Bytes × DbCall))).map (fun p => (⟨p, .out⟩ : Client DbCall (FsProg DbRes))))[i]? = _
    have hl : i < (List.replicate c.workers Hand.free).length := hl
    rw [List.length_replicate] at hl
    rw [List.map_replicate, List.getElem?_replicate_of_lt (by omega)]
  · intro i x _ hx y hy
    rw [hget i x hx] at hy
    cases hy
  · refine ⟨fs1, given, List.replicate c.clients [], hl, hg, .init, ?_⟩
    intro p hp x hx
    rw [List.eq_of_mem_replicate hp] at hx
    cases hx

theorem LivesInv.lt (h : LivesInv c K fs t s) {i : Nat} {a : Hand} (hi : s.hands[i]? = some a) : i < c.workers := by
  rw [← h.len]
  exact (List.getElem?_eq_some_iff.mp hi).1

theorem LivesInv.idleQueue (h : LivesInv c K fs t s) (hd : s.dumping = false) : s.queue = [] := by
  have h1 := (h.rest hd).2
  have h2 := h.wg
  exact List.eq_nil_of_length_eq_zero (by omega)

theorem LivesInv.restart (h : LivesInv c K fs t s) (hn : c.handles < 2 ^ 63) (hcl : ∀ x ∈ s.sys.cl, x = ⟨[], .out⟩) (hwc : c.workers ≤ c.clients) : LivesInv c K fs (t.step .restart) (Proc.init c s.sys.g.fs) := by
  have hw : ∀ m, s.sys.atWork m = none := by
    intro m
    cases hx : s.sys.atWork m with
    | none => rfl
    | some x =>
      obtain ⟨o, p⟩ := x
      obtain ⟨i, rest, hi⟩ := atWork_some hx
      have := hcl _ (List.mem_of_getElem? hi)
      cases this
  obtain ⟨given, h1, h2⟩ := h.killed hn (fun _ => .between) (fun m o p hx => by rw [hw] at hx; cases hx)
  have e : s.sys.killed (fun _ => .between) = s.sys.g.fs := funext fun m => by
    unfold FsSys.killed
    rw [hw]
  rw [e] at h1
  exact linv_init hwc rfl h1 h2

theorem LivesInv.step (h : LivesInv c K fs t s) {l : Option POp} {s' : Proc} (hst : s.Step c l s') (hn : c.handles < 2 ^ 63) (hwc : c.workers ≤ c.clients) (hd : c.pipe.d.newOk = true) (hg : GeoOk c.pipe.cfg.size c.pipe.cfg.cap) (hfit : Fits c.pipe K)
    (hlen : t.w.pend.length < 9223372036854775808) (hop : ∀ op, l = some op → op.Fair K) : LivesInv c K fs (l.toList.foldl PSpec.step t) s' := by
  cases hst with
  | add m ob now =>
    refine ⟨h.w.step hd hlen (.add m ob now) trivial, ?_, h.len, h.wg, h.rest, h.hand, h.reader, h.items, h.sysMono (fun m b hb => kept_grows t (.add _ _ _) m b hb)⟩
    show ∀ e ∈ (t.w.step (.add m ob now)).pend, _
    unfold WSpec.step
    dsimp only
    split
    · intro e he
      rcases List.mem_append.mp he with he | he
      · exact h.ids e he
      · rw [List.mem_singleton.mp he]; exact hop _ rfl
    · exact h.ids
  | dump order now taken hidle =>
    have hop : (POp.dump order now taken).Fair K := hop _ rfl
    refine ⟨h.w.step hd hlen (.capture order now) hop, ?_, h.len, h.wg, fun hd => (by cases hd), h.hand, h.reader, ?_, h.sysMono (fun m b hb => kept_grows t (.dump order now taken) m b hb)⟩
    · show ∀ e ∈ (t.w.step (.capture order now)).pend, e.2.id.length ≤ K
      unfold WSpec.step
      dsimp only
      split
      · exact h.ids
      · intro e he; cases he
    · intro x hx htk
      have hx : x ∈ capturedVals c.pipe.d s.w order now ++ s.queue := hx
      rw [h.idleQueue hidle, List.append_nil] at hx
      have htk : taken x.1 = true := htk
      unfold capturedVals at hx
      cases hpg : s.w.page with
      | none => rw [hpg] at hx; cases hx
      | some p =>
        rw [hpg] at hx
        obtain ⟨hstart, hok⟩ := h.w.page p hpg
        obtain ⟨_, hgr⟩ := hok.group c.pipe.d now order (hop _)
        obtain ⟨y, hy, rfl⟩ := List.mem_map.mp hx
        have hmem : y.metric ∈ t.w.pend.map (·.1) := (hgr.metrics y.metric).mp (List.mem_map.mpr ⟨y, hy, rfl⟩)
        have hid : ∀ z ∈ y.vals, z.id.length ≤ K := by
          intro z hz
          rw [hgr.vals y hy] at hz
          exact h.ids _ (obsOf_mem hz)
        have hrec := hgr.recs y hy
        refine ⟨⟨p.now, now, t.w.pend⟩, ?_, y.rec_, ?_, rfl, hfit _ _ _ _ hid hrec⟩
        · show _ ∈ (match t.w.start with | none => _ | some t' => _ : List Batch)
          rw [hstart]
          show _ ∈ (if taken y.metric && (t.w.pend.map (·.1)).contains y.metric then _ else _ : List Batch)
          rw [if_pos (by rw [Bool.and_eq_true]; exact ⟨htk, by simpa using hmem⟩)]
          exact List.mem_cons_self
        · rw [hgr.vals y hy] at hrec
          exact hrec
  | offer x rest ht =>
    have hwg := h.wg
    refine ⟨h.w, h.ids, h.len, ?_, fun hd => ?_, h.hand, h.reader, fun y hy hx => h.items y ?_ hx, h.sys⟩
    · show s.wg + 1 = (s.queue ++ [x]).length + _
      rw [List.length_append]
      simp only [List.length_cons, List.length_nil]
      omega
    · have := (h.rest hd).1
      rw [ht] at this; cases this
    · rw [ht]
      have hy : y ∈ rest ++ (s.queue ++ [x]) := hy
      simp only [List.mem_append, List.mem_cons, List.not_mem_nil, or_false] at hy ⊢
      rcases hy with hy | hy | hy
      · exact Or.inl (Or.inr hy)
      · exact Or.inr hy
      · exact Or.inl (Or.inl hy)
  | refuse x rest ht hx =>
    refine ⟨h.w, h.ids, h.len, h.wg, fun hd => ?_, h.hand, h.reader, fun y hy hx => h.items y ?_ hx, h.sys⟩
    · have := (h.rest hd).1
      rw [ht] at this; cases this
    · rw [ht]; exact List.mem_cons_of_mem _ hy
  | drain x rest ht hx =>
    have hwg := h.wg
    rw [ht, List.length_cons] at hwg
    refine ⟨h.w, h.ids, h.len, ?_, fun hd => ?_, h.hand, h.reader, fun y hy hx => h.items y ?_ hx, h.sys⟩
    · show s.wg - 1 = rest.length + s.hands.countP Hand.owes
      omega
    · have := (h.rest hd).2
      omega
    · rw [ht]
      rcases List.mem_append.mp hy with hy | hy
      · exact List.mem_append_left _ hy
      · exact List.mem_append_right _ (List.mem_cons_of_mem _ hy)
  | recv i x rest hi hq hx =>
    have hwg := h.wg
    rw [hq, List.length_cons] at hwg
    have hcl : s.sys.cl[i]? = some ⟨[], .out⟩ := h.hand i _ hi
    refine ⟨h.w, h.ids, by simp [h.len], ?_, ?_, ?_, ?_, fun y hy hx => h.items y ?_ hx, ?_⟩
    · show s.wg = rest.length + (s.hands.set i (.busy x.1 x.2)).countP Hand.owes
      have := countP_set_of (p := Hand.owes) (Hand.busy x.1 x.2) hi
      simp only [Hand.owes, Bool.false_eq_true, if_false, if_true] at this
      omega
    · intro hd
      have := (h.rest hd).2
      omega
    · intro j a ha
      rcases hands_ne ha with ⟨rfl, rfl⟩ | ⟨hij, ha⟩
      · refine ⟨.out, ?_⟩
        exact List.getElem?_set_self (List.getElem?_eq_some_iff.mp hcl).1
      · exact handOk_ne hij (h.hand j a ha)
    · intro j y hj hy
      rcases client_set_cases hy with ⟨rfl, _⟩ | ⟨_, hy⟩
      · have := h.lt hi
        omega
      · exact h.reader j y hj hy
    · rw [hq]
      rcases List.mem_append.mp hy with hy | hy
      · exact List.mem_append_left _ hy
      · exact List.mem_append_right _ (List.mem_cons_of_mem _ hy)
    · obtain ⟨base, given, progs, h1, h2, h3, h4⟩ := h.sys
      refine ⟨base, given, progs.modify i (fun p => p ++ [(x.1, .write c.pipe.cfg x.2)]), h1, h2, ?_, ?_⟩
      · have := reach_more h3 i (x.1, .write c.pipe.cfg x.2)
        rw [more_set hcl] at this
        exact this
      · intro p hp y hy
        rcases modify_mem hp hy with rfl | ⟨q, hq', hy⟩
        · refine ⟨⟨hg, fun l hl => (Option.some.inj hl).symm⟩, fun w hw => ?_⟩
          rw [List.mem_singleton.mp hw]
          exact h.items x (by rw [hq]; exact List.mem_append_right _ List.mem_cons_self) hx
        · exact h4 q hq' y hy
  | ask i m o hi hcl ho =>
    refine ⟨h.w, h.ids, h.len, h.wg, h.rest, ?_, ?_, h.items, ?_⟩
    · intro j a ha
      have := h.lt ha
      exact handOk_ne (by omega) (h.hand j a ha)
    · intro j y hj hy
      rcases client_set_cases hy with ⟨rfl, rfl⟩ | ⟨_, hy⟩
      · intro z hz
        rw [List.mem_singleton.mp hz]
        exact ho
      · exact h.reader j y hj hy
    · obtain ⟨base, given, progs, h1, h2, h3, h4⟩ := h.sys
      refine ⟨base, given, progs.modify i (fun p => p ++ [(m, o)]), h1, h2, ?_, ?_⟩
      · have := reach_more h3 i (m, o)
        rw [more_set hcl] at this
        exact this
      · intro p hp y hy
        rcases modify_mem hp hy with rfl | ⟨q, hq', hy⟩
        · exact ⟨ho.life hg, fun w hw => by rw [ho.given] at hw; cases hw⟩
        · exact h4 q hq' y hy
  | db sys hst hlog =>
    have hsys : ∃ base given progs, Lives c.dir (LifeCall c) fs base given ∧ (∀ m, ∀ w ∈ given m, FromKept c t m w) ∧ FsSys.Reach dbCalls (dbPath c.dir) c.handles progs base sys ∧
        ∀ p ∈ progs, ∀ x ∈ p, LifeCall c x.2 ∧ ∀ w ∈ x.2.given, FromKept c t x.1 w := by
      obtain ⟨base, given, progs, h1, h2, h3, h4⟩ := h.sys
      exact ⟨base, given, progs, h1, h2, .step h3 hst, h4⟩
    rcases step_shape hst with ⟨e1, e2⟩ | ⟨i, m, o, rest, r, q, e1, e2⟩
    · refine ⟨h.w, h.ids, h.len, h.wg, h.rest, fun i a ha => handOk_step e2 (h.hand i a ha), ?_, h.items, hsys⟩
      intro j y hj hy
      have hl : j < s.sys.cl.length := by
        have : s.sys.cl.length = sys.cl.length := by cases hst <;> simp
        rw [this]
        exact (List.getElem?_eq_some_iff.mp hy).1
      have hx := List.getElem?_eq_getElem hl
      obtain ⟨w, h1, _⟩ := e2 j _ hx
      have hy : sys.cl[j]? = some y := hy
      rw [h1] at hy
      injection hy with hy
      rw [← hy]
      exact fun z hz => h.reader j s.sys.cl[j] hj hx z hz
    · have hw : c.workers ≤ i := hlog (i, m, o, r) (by rw [e2])
      have hread := h.reader i _ hw e1
      refine ⟨h.w, h.ids, h.len, h.wg, h.rest, ?_, ?_, h.items, hsys⟩
      · intro j a ha
        have := h.lt ha
        rw [e2]
        exact handOk_ne (by omega) (h.hand j a ha)
      · intro j y hj hy
        rw [e2] at hy
        rcases client_set_cases hy with ⟨rfl, rfl⟩ | ⟨_, hy⟩
        · intro z hz
          exact hread z (List.mem_cons_of_mem _ hz)
        · exact h.reader j y hj hy
  | wrote i sys e m v hst hlog hi =>
    rcases step_shape hst with ⟨e1, _⟩ | ⟨j, m', o, rest, r, q, e1, e2⟩
    · rw [e1] at hlog
      have := congrArg List.length hlog
      simp at this
    have hlog2 : s.sys.log ++ [(j, m', o, r)] = s.sys.log ++ [(i, e)] := by rw [← hlog, e2]
    have hlog3 := List.append_cancel_left hlog2
    injection hlog3 with hlog3 _
    injection hlog3 with hj he
    subst hj
    obtain ⟨w, hw⟩ := h.hand j _ hi
    rw [e1] at hw
    injection hw with hw
    injection hw with hw _
    injection hw with hw hr
    injection hw with hm ho
    subst hm ho hr
    have hcl : sys.cl[j]? = some ⟨[], .out⟩ := by
      rw [e2]
      exact List.getElem?_set_self (List.getElem?_eq_some_iff.mp e1).1
    have hne : ∀ k, k ≠ j → sys.cl[k]? = s.sys.cl[k]? := by
      intro k hk
      rw [e2]
      exact List.getElem?_set_ne (fun x => hk x.symm)
    have hwg := h.wg
    refine ⟨h.w, h.ids, by simp [h.len], ?_, h.rest, ?_, ?_, h.items, ?_⟩
    · show s.wg = s.queue.length + (s.hands.set j .wrote).countP Hand.owes
      have := countP_set_of (p := Hand.owes) Hand.wrote hi
      simp only [Hand.owes, if_true] at this
      omega
    · intro k a ha
      rcases hands_ne ha with ⟨rfl, rfl⟩ | ⟨hk, ha⟩
      · exact hcl
      · have := h.hand k a ha
        cases a with
        | busy m v => obtain ⟨w, hw⟩ := this; exact ⟨w, (hne k hk).trans hw⟩
        | free => exact (hne k hk).trans this
        | wrote => exact (hne k hk).trans this
    · intro k y hk hy
      by_cases e : k = j
      · subst e
        have hy : sys.cl[k]? = some y := hy
        rw [hcl] at hy
        injection hy with hy
        rw [← hy]
        intro z hz; cases hz
      · exact h.reader k y hk (by rw [← hne k e]; exact hy)
    · obtain ⟨base, given, progs, h1, h2, h3, h4⟩ := h.sys
      exact ⟨base, given, progs, h1, h2, .step h3 hst, h4⟩
  | answer i hi _ =>
    have hc := countP_set_of (p := Hand.owes) Hand.free hi
    simp only [Hand.owes, if_true, Bool.false_eq_true, if_false] at hc
    have hwg := h.wg
    refine ⟨h.w, h.ids, by simp [h.len], ?_, ?_, ?_, h.reader, h.items, h.sys⟩
    · show s.wg - 1 = s.queue.length + (s.hands.set i .free).countP Hand.owes
      omega
    · intro hd
      have := h.rest hd
      exact ⟨this.1, by show s.wg - 1 = 0; omega⟩
    · intro k a ha
      rcases hands_ne ha with ⟨rfl, rfl⟩ | ⟨hne, ha⟩
      · have hk : s.sys.cl[k]? = some ⟨[], .out⟩ := h.hand k _ hi
        exact hk
      · exact h.hand k a ha
  | wait h1 h2 h3 => exact ⟨h.w, h.ids, h.len, h.wg, fun _ => ⟨h2, h3⟩, h.hand, h.reader, h.items, h.sys⟩
  | restart h1 h2 => exact h.restart hn h2 hwc

theorem linv_reach {ops : List POp} (h : Proc.Reach c fs ops s) : LifeOk c K ops → LivesInv c K fs (ops.foldl PSpec.step {}) s := by
  induction h with
  | start => exact fun hok => linv_init hok.clients rfl .nil (fun m w hw => by cases hw)
  | @step ops s s' l hr hst ih =>
    intro hok
    have hok' : LifeOk c K ops := ⟨hok.handles, hok.clients, hok.dist, hok.geo, hok.fits, fun op ho => hok.fair op (List.mem_append_left _ ho), by have := hok.short; rw [List.length_append] at this; omega⟩
    rw [List.foldl_append]
    refine (ih hok').step hst hok.handles hok.clients hok.dist hok.geo hok.fits ?_ (fun op e => hok.fair op (by rw [e]; simp))
    have := pend_le ops {}
    have := hok'.short
    simp only [List.length_nil] at *
    omega

end

theorem plives_lives {c : ProcCfg} {K : Nat} {fs fs' : Bytes → Store} {lives : List (List POp)} (h : PLives c K fs fs' lives) : ∃ given, Lives c.dir (LifeCall c) fs fs' given ∧ ∀ m, ∀ w ∈ given m, TrueRecord c lives m w := by
  induction h with
  | nil => exact ⟨_, .nil, fun m w hw => by cases hw⟩
  | @kill fs1 lives ops s pt h1 hok hr hc ih =>
    obtain ⟨g1, a1, a2⟩ := ih
    obtain ⟨g2, b1, b2⟩ := (linv_reach hr hok).killed hok.handles pt hc
    refine ⟨_, a1.trans b1, fun m w hw => ?_⟩
    rcases List.mem_append.mp hw with hw | hw
    · obtain ⟨b, hb, r, e1, e2, e3⟩ := b2 m w hw
      refine ⟨ops, List.mem_cons_self, b, hb, r, e1, e2, ?_⟩
      rw [e2]
      exact (C06_record_round_trip r (fits_small hok.geo (recs := [r]) (fun x hx => by rw [List.mem_singleton.mp hx]; exact e3) r List.mem_cons_self)).1
    · obtain ⟨o, ho, x⟩ := a2 m w hw
      exact ⟨o, List.mem_cons_of_mem _ ho, x⟩

theorem TrueRecord.stop {c : ProcCfg} {lives : List (List POp)} {m : Bytes} {w : Val} (h : TrueRecord c lives m w) : w.stop ∈ lives.flatMap dumpTimes := by
  obtain ⟨ops, ho, b, hb, r, e1, e2, _⟩ := h
  refine List.mem_flatMap.mpr ⟨ops, ho, ?_⟩
  have := kept_stops m ops {} [] (fun _ h => (by cases h)) b hb
  rw [e2]
  show r.endTime ∈ _
  rw [e1.stop]
  simpa using this

/-- **C107** (again and again). The program is started and killed any number of times, each time at any moment (but no write where C24 and C61 say that the metric is lost), and let a metric have a data file afterwards. Then a query for everything shows
only true records of the metric: each has the times of one interval of one of these lives and reads back as the exact summary of the metric's observations in it. And after further lives that end the same way it shows all these records again,
preceded by true records of the further lives (oldest ones may have been removed if there is a file limit). -/
theorem C107_lives_partial {c : ProcCfg} {K : Nat} {de : Bytes → Bool} {hit : Bytes → Nat → Bool} {fs fs' : Bytes → Store} {lives lives' : List (List POp)} (h1 : PLives c K (freshFs de hit) fs lives) (h2 : PLives c K fs fs' lives') (m : Bytes)
    (hd : (fs m).dir ≠ []) :
    ∃ vs new kept, ShowsAll (fs m) (lives.flatMap dumpTimes) vs ∧ (∀ w ∈ vs, TrueRecord c lives m w) ∧
      ShowsAll (fs' m) ((lives' ++ lives).flatMap dumpTimes) (new ++ kept) ∧ (∀ w ∈ new, TrueRecord c lives' m w) ∧ kept <+: vs ∧ (c.pipe.cfg.max ≤ 0 → kept = vs) := by
  obtain ⟨g1, a1, a2⟩ := plives_lives h1
  obtain ⟨g2, b1, b2⟩ := plives_lives h2
  have hu : ∀ o, LifeCall c o → o.Usable := fun o h => h.1
  have h0 : DurV True (freshFs de hit m).reopen [] [] := Or.inl ⟨trivial, rfl, fun _ => rfl, rfl⟩
  obtain ⟨nw, kp, k1, k2, _, hD⟩ := lives_durV hu a1 m h0
  rw [List.append_nil] at hD
  have hD : DurV False (fs m).reopen (g1 m) (nw ++ kp) := by
    rcases hD with ⟨_, hx, _⟩ | hD
    · exact absurd hx hd
    · exact Or.inr hD
  obtain ⟨new, kept, q1, q2, q3, q4⟩ := lives_durV hu b1 m hD
  refine ⟨nw ++ kp, new, kept, ?_, fun w hw => a2 m w (hD.mem w hw), ?_, fun w hw => b2 m w (q1 w hw), q2, fun hm => q3 (fun o ho => ⟨ho.1, fun l hl => by rw [ho.2 l hl]; exact hm⟩)⟩
  · intro hit' cfg bound hpos hb
    exact hD.shows (fun h => h) hit' cfg bound hpos (fun w hw => hb _ (a2 m w hw).stop)
  · intro hit' cfg bound hpos hb
    refine q4.shows (fun h => h) hit' cfg bound hpos (fun w hw => ?_)
    rw [List.flatMap_append] at hb
    rcases List.mem_append.mp hw with hw | hw
    · exact hb _ (List.mem_append_left _ (b2 m w hw).stop)
    · exact hb _ (List.mem_append_right _ (a2 m w hw).stop)

end Rothko
