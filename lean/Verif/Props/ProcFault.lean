import Verif.Spec.ProcFault
import Verif.Props.Clock
import Verif.Props.FaultSharedMore
/-!
# C118: an error while storing costs only the intervals it hits
-/
namespace Rothko

/-! ## Calls that may fail, one by one -/

/-- A step of a call: either none has finished, or one has. -/
theorem stepF_shape {path : Bytes → Int → Bytes} {may : Bytes → FileFault → Prop} {s s' : FsSys FltCall DbRes} (h : s.StepF dbCallsF may path s') :
    (s'.log = s.log ∧ ∀ (i : Nat) (x : Client FltCall (FsProg DbRes)), s.cl[i]? = some x → ∃ w, s'.cl[i]? = some ⟨x.todo, w⟩ ∧ (x.todo = [] → w = x.work)) ∨
    ∃ (i : Nat) (m : Bytes) (o : FltCall) (rest : List (Bytes × FltCall)) (r : DbRes) (q : LPool), s.cl[i]? = some ⟨(m, o) :: rest, .busy (.done r)⟩ ∧
      s' = { s with pool := q, cl := s.cl.set i ⟨rest, .out⟩, log := s.log ++ [(i, m, o, r)] } := by
  have key : ∀ (cl : List (Client FltCall (FsProg DbRes))) (j : Nat) (m : Bytes) (o : FltCall) (rest : List (Bytes × FltCall)) (a b : Work (FsProg DbRes)), cl[j]? = some ⟨(m, o) :: rest, a⟩ →
      ∀ (i : Nat) (x : Client FltCall (FsProg DbRes)), cl[i]? = some x → ∃ w, (cl.set j ⟨(m, o) :: rest, b⟩)[i]? = some ⟨x.todo, w⟩ ∧ (x.todo = [] → w = x.work) := by
    intro cl j m o rest a b h i x hx
    by_cases e : j = i
    · subst e
      rw [h] at hx
      injection hx with hx
      subst hx
      have hl := (List.getElem?_eq_some_iff.mp h).1
      exact ⟨b, List.getElem?_set_self hl, fun h => by cases h⟩
    · exact ⟨x.work, by rw [List.getElem?_set_ne e]; exact hx, fun _ => rfl⟩
  cases h with
  | mkdir m => exact Or.inl ⟨rfl, fun i x h => ⟨x.work, h, fun _ => rfl⟩⟩
  | close r w hw => exact Or.inl ⟨rfl, fun i x h => ⟨x.work, h, fun _ => rfl⟩⟩
  | call j m o rest h1 h2 => exact Or.inl ⟨rfl, fun i x h => ⟨x.work, h, fun _ => rfl⟩⟩
  | done j a h1 h2 => exact Or.inl ⟨rfl, fun i x h => ⟨x.work, h, fun _ => rfl⟩⟩
  | enter j m o rest a h1 h2 h3 => exact Or.inl ⟨rfl, key _ j m o rest _ _ h3⟩
  | first j m o rest h1 => exact Or.inl ⟨rfl, key _ j m o rest _ _ h1⟩
  | work j m o rest flt p p' g h1 hm h2 => exact Or.inl ⟨rfl, key _ j m o rest _ _ h1⟩
  | finish j m o rest r a a' p h1 h2 h3 => exact Or.inr ⟨j, m, o, rest, r, _, h1, rfl⟩

theorem reachF_more {Op Res : Type} {cs : FsCallsF Op Res} {may : Bytes → FileFault → Prop} {path : Bytes → Int → Bytes} {n : Nat} {progs : List (List (Bytes × Op))} {fs : Bytes → Store} {s : FsSys Op Res}
    (h : FsSys.ReachF cs may path n progs fs s) (i : Nat) (c : Bytes × Op) : FsSys.ReachF cs may path n (progs.modify i (fun p => p ++ [c])) fs (s.more i c) := by
  induction h with
  | init =>
    have : (FsSys.init (Res := Res) n progs fs).more i c = FsSys.init n (progs.modify i (fun p => p ++ [c])) fs := by
      unfold FsSys.more FsSys.init
      dsimp only
      rw [List.length_modify]
      congr 1
      apply List.ext_getElem?
      intro k
      rw [List.getElem?_modify, List.getElem?_map, List.getElem?_map, List.getElem?_modify]
      cases progs[k]? with
      | none => rfl
      | some p =>
        by_cases e : i = k <;> simp [e]
    rw [this]
    exact .init
  | @step s s' _ hs ih =>
    refine .step ih ?_
    cases hs with
    | mkdir m => exact .mkdir m
    | close r w hw => exact .close r w hw
    | call j m o rest h1 h2 => exact .call j m o _ h1 (modify_get h2)
    | enter j m o rest a h1 h2 h3 =>
      have := FsSys.StepF.enter (c := cs) (may := may) (path := path) (s := s.more i c) j m o _ a h1 h2 (modify_get h3)
      unfold FsSys.more at this ⊢
      dsimp only at this ⊢
      rw [modify_set]
      convert this using 3
      split <;> rfl
    | first j m o rest h1 =>
      have := FsSys.StepF.first (c := cs) (may := may) (path := path) (s := s.more i c) j m o _ (modify_get h1)
      unfold FsSys.more at this ⊢
      dsimp only at this ⊢
      rw [modify_set]
      convert this using 3
      split <;> rfl
    | work j m o rest flt p p' g h1 hm h2 =>
      have := FsSys.StepF.work (c := cs) (may := may) (path := path) (s := s.more i c) j m o _ flt p p' g (modify_get h1) hm h2
      unfold FsSys.more at this ⊢
      dsimp only at this ⊢
      rw [modify_set]
      convert this using 3
      split <;> rfl
    | finish j m o rest r a a' p h1 h2 h3 =>
      have := FsSys.StepF.finish (c := cs) (may := may) (path := path) (s := s.more i c) j m o _ r a a' p (modify_get h1) h2 h3
      unfold FsSys.more at this ⊢
      dsimp only at this ⊢
      rw [modify_set]
      convert this using 3
      split <;> rfl
    | done j a h1 h2 => exact .done j a h1 h2

theorem moreF_set {s : FsSys FltCall DbRes} {i : Nat} {y : Bytes × FltCall} (h : s.cl[i]? = some ⟨[], .out⟩) : s.more i y = { s with cl := s.cl.set i ⟨[y], .out⟩ } := by
  unfold FsSys.more
  congr 1
  apply List.ext_getElem?
  intro k
  rw [List.getElem?_modify, List.getElem?_set]
  by_cases e : i = k
  · subst e
    have hl := (List.getElem?_eq_some_iff.mp h).1
    rw [h]
    simp [hl]
  · simp [e]

theorem finishedF_snoc (s : FsSys FltCall DbRes) (q : LPool) (cl : List (Client FltCall (FsProg DbRes))) (i : Nat) (m : Bytes) (o : FltCall) (r : DbRes) (k : Bytes) :
    FsSys.finished { s with pool := q, cl, log := s.log ++ [(i, m, o, r)] } k = s.finished k ++ (if m = k then [(i, o, r)] else []) := by
  unfold FsSys.finished
  dsimp only
  rw [List.filter_append, List.map_append]
  by_cases e : m = k <;> simp [e]

theorem finishF_quiet {n : Nat} {d : Bytes} {progs : List (List (Bytes × FltCall))} {fs : Bytes → Store} {s : FsSys FltCall DbRes} {may : Bytes → FileFault → Prop} (hn : n < 2 ^ 63)
    (h : FsSys.ReachF dbCallsF may (dbPath d) n progs fs s) {j : Nat} {m : Bytes} {o : FltCall} {rest : List (Bytes × FltCall)} {p : FsProg DbRes} {pool : LPool} {log : List (Nat × Bytes × FltCall × DbRes)}
    (h1 : s.cl[j]? = some ⟨(m, o) :: rest, .busy p⟩) : FsSys.quiet { s with pool, cl := s.cl.set j ⟨rest, .out⟩, log } m := by
  intro i o' rest' p' hc
  obtain ⟨H, ch, _, hi, hs⟩ := handlesF_reach hn h
  rcases client_set_cases hc with ⟨rfl, hw⟩ | ⟨hne, hc⟩
  · cases hw
  · exact hne (hs.alone ⟨o', rest', hc⟩ ⟨o, rest, h1⟩)

/-! ## The process -/

/-- The values that were captured, will be given to a worker or are with one, and are not yet written. -/
def ProcF.coming (s : ProcF) : List (Bytes × Val) := (s.todo ++ s.queue).filter (fun x => s.taken x.1) ++ s.hands.filterMap Hand.item

/-- What the goroutine of a worker does. -/
def HandOkF (cfg : Cfg) (cl : List (Client FltCall (FsProg DbRes))) (i : Nat) : Hand → Prop
  | .busy m v => ∃ dir unlink w, cl[i]? = some ⟨[(m, ⟨.write cfg v, dir, unlink⟩)], w⟩
  | _ => cl[i]? = some ⟨[], .out⟩

theorem handOkF_ne {cfg : Cfg} {cl : List (Client FltCall (FsProg DbRes))} {i j : Nat} {x : Client FltCall (FsProg DbRes)} {a : Hand} (hij : j ≠ i) (h : HandOkF cfg cl j a) : HandOkF cfg (cl.set i x) j a := by
  have e : (cl.set i x)[j]? = cl[j]? := List.getElem?_set_ne (fun e => hij e.symm)
  cases a with
  | busy m v =>
    obtain ⟨dir, unlink, w, h⟩ := h
    exact ⟨dir, unlink, w, by rw [e]; exact h⟩
  | free =>
    show (cl.set i x)[j]? = _
    rw [e]; exact h
  | wrote =>
    show (cl.set i x)[j]? = _
    rw [e]; exact h

theorem handOkF_step {cfg : Cfg} {cl cl' : List (Client FltCall (FsProg DbRes))} (h : ∀ (i : Nat) (x : Client FltCall (FsProg DbRes)), cl[i]? = some x → ∃ w, cl'[i]? = some ⟨x.todo, w⟩ ∧ (x.todo = [] → w = x.work))
    {i : Nat} {a : Hand} (ha : HandOkF cfg cl i a) : HandOkF cfg cl' i a := by
  cases a with
  | busy m v =>
    obtain ⟨dir, unlink, w, ha⟩ := ha
    obtain ⟨w', h1, _⟩ := h i _ ha
    exact ⟨dir, unlink, w', h1⟩
  | free =>
    obtain ⟨w', h1, h2⟩ := h i _ ha
    rw [h2 rfl] at h1
    exact h1
  | wrote =>
    obtain ⟨w', h1, h2⟩ := h i _ ha
    rw [h2 rfl] at h1
    exact h1

theorem initF_coming (c : ProcCfg) (fs : Bytes → Store) : (ProcF.init c fs).coming = [] := by
  unfold ProcF.coming ProcF.init
  dsimp only
  rw [List.append_nil, List.filter_nil, List.nil_append, List.filterMap_eq_nil_iff]
  intro a ha
  rw [List.eq_of_mem_replicate ha]
  rfl

/-- The calls of the present process and its files, and the values in them. -/
structure FltSys (c : ProcCfg) (e : SysErrors) (t : PSpec) (s : ProcF) (progs : List (List (Bytes × FltCall))) (base : Bytes → Store) (acc : Bytes → List Val) : Prop where
  reach : FsSys.ReachF dbCallsF e.file (dbPath c.dir) c.handles progs base s.sys
  ok : ∀ p ∈ progs, ∀ x ∈ p, x.2.call.Ok ∧ x.2.call.Uses c.pipe.cfg ∧ e.call x.1 x.2.dir x.2.unlink
  after : ∀ m, (e.Whole m → ∃ kept, AfterFaults (base m) (acc m) c.pipe.cfg.max kept) ∧ (e.Spares m → AfterCfg c.pipe.cfg (base m) (acc m))
  db : ∀ m, ∃ recs : List DRec, EachOf (Right c.pipe.d m) recs (t.kept m) ∧ (∀ r ∈ recs, needs c.pipe.cfg.size r.encode.length < c.pipe.cfg.cap) ∧
    recs.map valOf = forMetric m s.coming ++ ((ackd ((s.sys.finished m).map plain)).reverse ++ acc m)

structure FltInv (c : ProcCfg) (e : SysErrors) (K : Nat) (t : PSpec) (s : ProcF) : Prop where
  w : WInv c.pipe.d t.w s.w
  ids : ∀ e ∈ t.w.pend, e.2.id.length ≤ K
  len : s.hands.length = c.workers
  wg : s.wg = s.queue.length + s.hands.countP Hand.owes
  rest : s.dumping = false → s.todo = [] ∧ s.wg = 0
  hand : ∀ i h, s.hands[i]? = some h → HandOkF c.pipe.cfg s.sys.cl i h
  reader : ∀ (i : Nat) (x : Client FltCall (FsProg DbRes)), c.workers ≤ i → s.sys.cl[i]? = some x → ∀ y ∈ x.todo, y.2.call.Reads c.pipe.cfg
  once : (s.coming.map (·.1)).Nodup
  coming_fits : ∀ x ∈ s.coming, needs c.pipe.cfg.size x.2.data.length < c.pipe.cfg.cap
  sys : ∃ progs base acc, FltSys c e t s progs base acc

theorem modifyF_ok {c : ProcCfg} {e : SysErrors} {progs : List (List (Bytes × FltCall))} (h : ∀ p ∈ progs, ∀ x ∈ p, x.2.call.Ok ∧ x.2.call.Uses c.pipe.cfg ∧ e.call x.1 x.2.dir x.2.unlink) (i : Nat) (y : Bytes × FltCall)
    (hy : y.2.call.Ok ∧ y.2.call.Uses c.pipe.cfg ∧ e.call y.1 y.2.dir y.2.unlink) :
    ∀ p ∈ progs.modify i (fun p => p ++ [y]), ∀ x ∈ p, x.2.call.Ok ∧ x.2.call.Uses c.pipe.cfg ∧ e.call x.1 x.2.dir x.2.unlink := by
  intro p hp x hx
  obtain ⟨k, hk⟩ := List.mem_iff_getElem?.mp hp
  rw [List.getElem?_modify] at hk
  cases hq : progs[k]? with
  | none => rw [hq] at hk; cases hk
  | some q =>
    rw [hq] at hk
    have hq := List.mem_of_getElem? hq
    by_cases e : i = k
    · simp only [e, if_true, Option.map_eq_map, Option.map_some, Option.some.injEq] at hk
      rw [← hk] at hx
      rcases List.mem_append.mp hx with hx | hx
      · exact h q hq x hx
      · rw [List.mem_singleton.mp hx]; exact hy
    · simp only [e, if_false, Option.map_eq_map, Option.map_some, Option.some.injEq] at hk
      rw [← hk] at hx
      exact h q hq x hx

theorem uses_limit {cfg : Cfg} {o : DbCall} (h : o.Uses cfg) : ∀ m, o.toOp.limit = some m → m = cfg.max := by
  intro m hm
  cases o with
  | write c v => cases h; exact (Option.some.inj hm).symm
  | query c b cb => cases h; first | exact (Option.some.inj hm).symm | cases hm
  | latest c => cases h; first | exact (Option.some.inj hm).symm | cases hm

/-- What is left of a metric's files, at a moment when no call is at work on it. -/
theorem FltSys.left {c : ProcCfg} {e : SysErrors} {t : PSpec} {s : ProcF} {progs : List (List (Bytes × FltCall))} {base : Bytes → Store} {acc : Bytes → List Val} (h : FltSys c e t s progs base acc) (hn : c.handles < 2 ^ 63) (m : Bytes)
    (hq : s.sys.quiet m) :
    (e.Whole m → ∃ kept, AfterFaults (s.sys.g.fs m) ((ackd ((s.sys.finished m).map plain)).reverse ++ acc m) c.pipe.cfg.max kept) ∧
    (e.Spares m → AfterCfg c.pipe.cfg (s.sys.g.fs m) ((ackd ((s.sys.finished m).map plain)).reverse ++ acc m)) := by
  constructor
  · intro hw
    obtain ⟨kept, hk⟩ := (h.after m).1 hw
    refine ⟨_, C112_history hn h.reach m hw c.pipe.cfg.max ?_ (acc m) kept hk hq⟩
    intro p hp x hx _
    obtain ⟨h1, h2, _⟩ := h.ok p hp x hx
    exact ⟨h1, uses_limit h2⟩
  · intro hsp
    obtain ⟨t0, hsame, hr0⟩ := (h.after m).2 hsp
    obtain ⟨hit, evs, t, e1, e2, e3, e4⟩ := C112_spared hn h.reach m hq hsp.1 (fun p hp x hx hm => hsp.2 _ _ (hm ▸ (h.ok p hp x hx).2.2)) t0 hsame
    refine ⟨t, e4, ?_⟩
    rw [← e3]
    refine serial_reachCfg (reachCfg_restart (reachCfg_oracle hr0 hit e1)) e2 ?_
    rw [e3]
    intro x hx
    obtain ⟨y, hy, rfl⟩ := List.mem_map.mp hx
    obtain ⟨p, hp, hc⟩ := finishedF_mem hn h.reach m y hy
    obtain ⟨h1, h2, _⟩ := h.ok p hp _ hc
    exact ⟨h1, h2⟩

section
variable {c : ProcCfg} {e : SysErrors} {K : Nat} {t : PSpec} {s : ProcF}

theorem FltInv.same {c : ProcCfg} {e : SysErrors} {K : Nat} {t : PSpec} {s : ProcF} (h : FltInv c e K t s) (s' : ProcF) (hw : s'.w = s.w) (hlen : s'.hands.length = s.hands.length)
    (hwg : s'.wg = s'.queue.length + s'.hands.countP Hand.owes) (hrest : s'.dumping = false → s'.todo = [] ∧ s'.wg = 0)
    (hhand : ∀ i h, s'.hands[i]? = some h → HandOkF c.pipe.cfg s'.sys.cl i h)
    (hread : ∀ (i : Nat) (x : Client FltCall (FsProg DbRes)), c.workers ≤ i → s'.sys.cl[i]? = some x → ∀ y ∈ x.todo, y.2.call.Reads c.pipe.cfg)
    (hperm : s.coming.Perm s'.coming) (hfin : ∀ m, ackd ((s'.sys.finished m).map plain) = ackd ((s.sys.finished m).map plain))
    (hsys : ∀ progs base acc, FltSys c e t s progs base acc → ∃ progs', FsSys.ReachF dbCallsF e.file (dbPath c.dir) c.handles progs' base s'.sys ∧ ∀ p ∈ progs', ∀ x ∈ p, x.2.call.Ok ∧ x.2.call.Uses c.pipe.cfg ∧ e.call x.1 x.2.dir x.2.unlink) :
    FltInv c e K t s' := by
  refine ⟨by rw [hw]; exact h.w, h.ids, hlen.trans h.len, hwg, hrest, hhand, hread, (hperm.map _).nodup_iff.mp h.once, fun x hx => h.coming_fits x (hperm.mem_iff.mpr hx), ?_⟩
  obtain ⟨progs, base, acc, hs⟩ := h.sys
  obtain ⟨progs', h1, h2⟩ := hsys progs base acc hs
  refine ⟨progs', base, acc, h1, h2, hs.after, fun m => ?_⟩
  obtain ⟨recs, r1, r2, r3⟩ := hs.db m
  refine ⟨recs, r1, r2, ?_⟩
  rw [r3, forMetric_perm hperm h.once, hfin m]

theorem FltInv.offer (h : FltInv c e K t s) {x : Bytes × Val} {rest : List (Bytes × Val)} (ht : s.todo = x :: rest) : FltInv c e K t { s with todo := rest, queue := s.queue ++ [x], wg := s.wg + 1 } := by
  refine h.same _ rfl rfl ?_ ?_ h.hand h.reader ?_ (fun _ => rfl) (fun progs base acc hs => ⟨progs, hs.reach, hs.ok⟩)
  · show s.wg + 1 = (s.queue ++ [x]).length + _
    rw [h.wg, List.length_append]
    simp only [List.length_singleton]
    omega
  · intro hd
    have := (h.rest hd).1
    rw [ht] at this
    cases this
  · unfold ProcF.coming
    dsimp only
    refine List.Perm.append_right _ (List.Perm.filter _ ?_)
    rw [ht, ← List.append_assoc]
    exact (List.perm_append_comm (l₁ := [x]))

theorem FltInv.refuse (h : FltInv c e K t s) {x : Bytes × Val} {rest : List (Bytes × Val)} (ht : s.todo = x :: rest) (hx : s.taken x.1 = false) : FltInv c e K t { s with todo := rest } := by
  refine h.same _ rfl rfl h.wg ?_ h.hand h.reader ?_ (fun _ => rfl) (fun progs base acc hs => ⟨progs, hs.reach, hs.ok⟩)
  · intro hd
    have := (h.rest hd).1
    rw [ht] at this
    cases this
  · unfold ProcF.coming
    dsimp only
    rw [ht, List.cons_append, List.filter_cons, if_neg (by rw [hx]; decide)]

theorem FltInv.drain (h : FltInv c e K t s) {x : Bytes × Val} {rest : List (Bytes × Val)} (ht : s.queue = x :: rest) (hx : s.taken x.1 = false) : FltInv c e K t { s with queue := rest, wg := s.wg - 1 } := by
  have hwg := h.wg
  rw [ht, List.length_cons] at hwg
  refine h.same _ rfl rfl ?_ ?_ h.hand h.reader ?_ (fun _ => rfl) (fun progs base acc hs => ⟨progs, hs.reach, hs.ok⟩)
  · show s.wg - 1 = rest.length + s.hands.countP Hand.owes
    omega
  · intro hd
    have := (h.rest hd).2
    omega
  · unfold ProcF.coming
    dsimp only
    rw [ht, List.filter_append, List.filter_append, List.filter_cons, if_neg (by rw [hx]; decide)]

theorem flt_hand_lt (h : FltInv c e K t s) {i : Nat} {a : Hand} (hi : s.hands[i]? = some a) : i < c.workers := by
  have := (List.getElem?_eq_some_iff.mp hi).1
  rw [h.len] at this
  exact this

theorem FltInv.recv (h : FltInv c e K t s) (hg : GeoOk c.pipe.cfg.size c.pipe.cfg.cap) {i : Nat} {x : Bytes × Val} {rest : List (Bytes × Val)} (hi : s.hands[i]? = some .free) (hq : s.queue = x :: rest) (hx : s.taken x.1 = true) {dir : Option DirFault} {unlink : Bool} (he : e.call x.1 dir unlink) :
    FltInv c e K t { s with queue := rest, hands := s.hands.set i (.busy x.1 x.2), sys := { s.sys with cl := s.sys.cl.set i ⟨[(x.1, ⟨.write c.pipe.cfg x.2, dir, unlink⟩)], .out⟩ } } := by
  have hwg := h.wg
  rw [hq, List.length_cons] at hwg
  have hcl : s.sys.cl[i]? = some ⟨[], .out⟩ := h.hand i _ hi
  have hfit : needs c.pipe.cfg.size x.2.data.length < c.pipe.cfg.cap := h.coming_fits x (by
    unfold ProcF.coming
    refine List.mem_append_left _ (List.mem_filter.mpr ⟨List.mem_append_right _ ?_, hx⟩)
    rw [hq]
    exact List.mem_cons_self)
  refine h.same _ rfl (by simp) ?_ ?_ ?_ ?_ ?_ (fun _ => rfl) ?_
  · show s.wg = rest.length + (s.hands.set i (.busy x.1 x.2)).countP Hand.owes
    have := countP_set_of (p := Hand.owes) (Hand.busy x.1 x.2) hi
    simp only [Hand.owes, Bool.false_eq_true, if_false, if_true] at this
    omega
  · intro hd
    have := (h.rest hd).2
    omega
  · intro j a ha
    rcases hands_ne ha with ⟨rfl, rfl⟩ | ⟨hij, ha⟩
    · refine ⟨dir, unlink, .out, ?_⟩
      exact List.getElem?_set_self (List.getElem?_eq_some_iff.mp hcl).1
    · exact handOkF_ne hij (h.hand j a ha)
  · intro j y hj hy
    rcases client_set_cases hy with ⟨rfl, _⟩ | ⟨_, hy⟩
    · have := flt_hand_lt h hi
      omega
    · exact h.reader j y hj hy
  · unfold ProcF.coming
    dsimp only
    have p1 := filterMap_at Hand.item _ i _ hi
    have p2 := filterMap_set Hand.item _ i _ (.busy x.1 x.2) hi
    have e1 : (Hand.item Hand.free).toList = [] := rfl
    have e2 : (Hand.item (Hand.busy x.1 x.2)).toList = [x] := rfl
    rw [e1, List.nil_append] at p1
    rw [e2] at p2
    rw [hq, List.filter_append, List.filter_append, List.filter_cons, if_pos hx]
    refine (List.Perm.append_left _ p1).trans (List.Perm.trans ?_ (List.Perm.append_left _ p2.symm))
    rw [List.append_assoc, List.append_assoc]
    refine List.Perm.append_left _ ?_
    rw [List.cons_append]
    exact List.perm_middle.symm
  · intro progs base acc hs
    refine ⟨progs.modify i (fun p => p ++ [(x.1, ⟨.write c.pipe.cfg x.2, dir, unlink⟩)]), ?_, modifyF_ok hs.ok i (x.1, ⟨.write c.pipe.cfg x.2, dir, unlink⟩) (show (DbCall.write c.pipe.cfg x.2).Ok ∧ _ ∧ _ from ⟨⟨hg, Nat.le_of_lt hfit⟩, rfl, he⟩)⟩
    have := reachF_more hs.reach i (x.1, ⟨.write c.pipe.cfg x.2, dir, unlink⟩)
    rw [moreF_set hcl] at this
    exact this

theorem FltInv.ask (h : FltInv c e K t s) (hg : GeoOk c.pipe.cfg.size c.pipe.cfg.cap) {i : Nat} {m : Bytes} {o : DbCall} (hi : c.workers ≤ i) (hcl : s.sys.cl[i]? = some ⟨[], .out⟩) (ho : o.Reads c.pipe.cfg) {dir : Option DirFault} {unlink : Bool} (he : e.call m dir unlink) :
    FltInv c e K t { s with sys := { s.sys with cl := s.sys.cl.set i ⟨[(m, ⟨o, dir, unlink⟩)], .out⟩ } } := by
  refine h.same _ rfl rfl h.wg h.rest ?_ ?_ (List.Perm.refl _) (fun _ => rfl) ?_
  · intro j a ha
    have := flt_hand_lt h ha
    exact handOkF_ne (by omega) (h.hand j a ha)
  · intro j y hj hy
    rcases client_set_cases hy with ⟨rfl, rfl⟩ | ⟨_, hy⟩
    · intro z hz
      rw [List.mem_singleton.mp hz]
      exact ho
    · exact h.reader j y hj hy
  · intro progs base acc hs
    refine ⟨progs.modify i (fun p => p ++ [(m, ⟨o, dir, unlink⟩)]), ?_, modifyF_ok hs.ok i _ ?_⟩
    · have := reachF_more hs.reach i (m, ⟨o, dir, unlink⟩)
      rw [moreF_set hcl] at this
      exact this
    · cases o with
      | write cfg v => cases ho
      | query cfg b cb => cases ho; exact ⟨hg, rfl, he⟩
      | latest cfg => cases ho; exact ⟨hg, rfl, he⟩

theorem FltInv.db (h : FltInv c e K t s) {sys : FsSys FltCall DbRes} (hst : s.sys.StepF dbCallsF e.file (dbPath c.dir) sys) (hlog : ∀ x, sys.log = s.sys.log ++ [x] → c.workers ≤ x.1) : FltInv c e K t { s with sys } := by
  rcases stepF_shape hst with ⟨e1, e2⟩ | ⟨i, m, o, rest, r, q, e1, e2⟩
  · refine h.same _ rfl rfl h.wg h.rest (fun i a ha => handOkF_step e2 (h.hand i a ha)) ?_ (List.Perm.refl _) ?_ ?_
    · intro j y hj hy
      have hl : j < s.sys.cl.length := by
        have : s.sys.cl.length = sys.cl.length := by cases hst <;> simp
        rw [this]
        exact (List.getElem?_eq_some_iff.mp hy).1
      have hx := List.getElem?_eq_getElem hl
      obtain ⟨w, h1, _⟩ := e2 j _ hx
      have hy : sys.cl[j]? = some y := hy
      rw [h1] at hy
      injection hy with hy
      rw [← hy]
      exact fun z hz => h.reader j s.sys.cl[j] hj hx z hz
    · intro m
      unfold FsSys.finished
      dsimp only
      rw [e1]
    · intro progs base acc hs
      exact ⟨progs, .step hs.reach hst, hs.ok⟩
  · have hw : c.workers ≤ i := hlog (i, m, o, r) (by rw [e2])
    have hread := h.reader i _ hw e1
    refine h.same _ rfl rfl h.wg h.rest ?_ ?_ (List.Perm.refl _) ?_ ?_
    · intro j a ha
      have := flt_hand_lt h ha
      rw [e2]
      exact handOkF_ne (by omega) (h.hand j a ha)
    · intro j y hj hy
      rw [e2] at hy
      rcases client_set_cases hy with ⟨rfl, rfl⟩ | ⟨_, hy⟩
      · intro z hz
        exact hread z (List.mem_cons_of_mem _ hz)
      · exact h.reader j y hj hy
    · intro k
      dsimp only
      rw [e2, finishedF_snoc]
      split
      · rw [List.map_append, ackd_append]
        have := hread (m, o) List.mem_cons_self
        obtain ⟨o, dir, unlink⟩ := o
        cases o with
        | write cfg v => cases this
        | query => simp [ackd, plain]
        | latest => simp [ackd, plain]
      · rw [List.append_nil]
    · intro progs base acc hs
      exact ⟨progs, .step hs.reach hst, hs.ok⟩

/-- A worker's call has finished. -/
theorem FltInv.finished (h : FltInv c e K t s) {i : Nat} {sys : FsSys FltCall DbRes} {m : Bytes} {o : FltCall} {r : DbRes} {v : Val}
    (hst : s.sys.StepF dbCallsF e.file (dbPath c.dir) sys) (hlog : sys.log = s.sys.log ++ [(i, m, o, r)]) (hi : s.hands[i]? = some (.busy m v)) :
    o.call = .write c.pipe.cfg v ∧ (∃ b l, t.kept m = b :: l ∧ ∃ rec_, Right c.pipe.d m rec_ b ∧ valOf rec_ = v ∧ ∃ recs, EachOf (Right c.pipe.d m) recs l ∧
      ∀ progs base acc, FltSys c e t s progs base acc → ∃ recs', EachOf (Right c.pipe.d m) recs' l ∧ recs'.map valOf = (ackd ((s.sys.finished m).map plain)).reverse ++ acc m) ∧
    (r = .write .written → FltInv c e K t { s with sys, hands := s.hands.set i .wrote }) ∧
    (r ≠ .write .written → FltInv c e K (t.stepF (.lost m)) { s with sys, hands := s.hands.set i .wrote }) := by
  rcases stepF_shape hst with ⟨e1, _⟩ | ⟨j, m', o', rest, r', q, e1, e2⟩
  · rw [e1] at hlog
    have := congrArg List.length hlog
    simp at this
  have hlog2 : s.sys.log ++ [(j, m', o', r')] = s.sys.log ++ [(i, m, o, r)] := by rw [← hlog, e2]
  have hlog3 := List.append_cancel_left hlog2
  injection hlog3 with hlog3 _
  injection hlog3 with a1 a2
  injection a2 with a2 a3
  injection a3 with a3 a4
  subst a1 a2 a3 a4
  obtain ⟨dir, unlink, w, hw⟩ := h.hand j _ hi
  rw [e1] at hw
  injection hw with hw
  injection hw with hw _
  injection hw with hw hr
  injection hw with _ ho
  subst ho hr
  have hperm : s.coming.Perm ((m', v) :: ProcF.coming { s with sys, hands := s.hands.set j .wrote }) := by
    unfold ProcF.coming
    dsimp only
    have p1 := filterMap_at Hand.item _ j _ hi
    have p2 := filterMap_set Hand.item _ j _ .wrote hi
    have q1 : (Hand.item Hand.wrote).toList = [] := rfl
    have q2 : (Hand.item (Hand.busy m' v)).toList = [(m', v)] := rfl
    rw [q1, List.nil_append] at p2
    rw [q2] at p1
    refine (List.Perm.append_left _ p1).trans ?_
    refine List.Perm.trans ?_ ((List.Perm.append_left _ p2.symm).cons _)
    exact List.perm_middle
  have honce := (hperm.map (·.1)).nodup_iff.mp h.once
  have hfin : ∀ k, sys.finished k = s.sys.finished k ++ (if m' = k then [(j, ⟨.write c.pipe.cfg v, dir, unlink⟩, r')] else []) := fun k => by rw [e2, finishedF_snoc]
  have hshort := forMetric_short (m := m') honce
  have hcons : forMetric m' ((m', v) :: ProcF.coming { s with sys, hands := s.hands.set j .wrote }) = v :: forMetric m' (ProcF.coming { s with sys, hands := s.hands.set j .wrote }) := by
    unfold forMetric
    rw [List.filter_cons, if_pos (by simp)]
    rfl
  have hother : ∀ k, m' ≠ k → forMetric k ((m', v) :: ProcF.coming { s with sys, hands := s.hands.set j .wrote }) = forMetric k (ProcF.coming { s with sys, hands := s.hands.set j .wrote }) := by
    intro k hk
    unfold forMetric
    rw [List.filter_cons, if_neg (by simpa using hk)]
  have hnil : forMetric m' (ProcF.coming { s with sys, hands := s.hands.set j .wrote }) = [] := by
    apply List.eq_nil_of_length_eq_zero
    rw [hcons, List.length_cons] at hshort
    omega
  have hcut : ∀ progs base acc, FltSys c e t s progs base acc → ∃ x recs, EachOf (Right c.pipe.d m') (x :: recs) (t.kept m') ∧ (∀ y ∈ x :: recs, needs c.pipe.cfg.size y.encode.length < c.pipe.cfg.cap) ∧ valOf x = v ∧
      recs.map valOf = (ackd ((s.sys.finished m').map plain)).reverse ++ acc m' := by
    intro progs base acc hs
    obtain ⟨recs, r1, r2, r3⟩ := hs.db m'
    rw [forMetric_perm hperm h.once, hcons, hnil] at r3
    cases recs with
    | nil => cases r3
    | cons x recs =>
      injection r3 with r3 r4
      exact ⟨x, recs, r1, r2, r3, r4⟩
  have hread : ∀ (k : Nat) (y : Client FltCall (FsProg DbRes)), c.workers ≤ k → sys.cl[k]? = some y → ∀ z ∈ y.todo, z.2.call.Reads c.pipe.cfg := by
    intro k y hk hy
    rw [e2] at hy
    rcases client_set_cases hy with ⟨rfl, _⟩ | ⟨_, hy⟩
    · have := flt_hand_lt h hi
      omega
    · exact h.reader k y hk hy
  have hhand : ∀ k a, (s.hands.set j .wrote)[k]? = some a → HandOkF c.pipe.cfg sys.cl k a := by
    intro k a ha
    rw [e2]
    rcases hands_ne ha with ⟨rfl, rfl⟩ | ⟨hne, ha⟩
    · exact List.getElem?_set_self (List.getElem?_eq_some_iff.mp e1).1
    · exact handOkF_ne hne (h.hand k a ha)
  have hwg : s.wg = s.queue.length + (s.hands.set j .wrote).countP Hand.owes := by
    have := countP_set_of (p := Hand.owes) Hand.wrote hi
    simp only [Hand.owes, if_true] at this
    have := h.wg
    omega
  refine ⟨rfl, ?_, ?_, ?_⟩
  · obtain ⟨progs, base, acc, hs⟩ := h.sys
    obtain ⟨x, recs, r1, _, r3, r4⟩ := hcut progs base acc hs
    generalize hk : t.kept m' = ks at r1
    cases r1 with
    | @cons _ b _ l h1 h2 =>
      refine ⟨b, l, rfl, x, h1, r3, recs, h2, fun progs base acc hs => ?_⟩
      obtain ⟨x', recs', q1, _, _, q4⟩ := hcut progs base acc hs
      rw [hk] at q1
      cases q1 with
      | cons g1 g2 => exact ⟨recs', g2, q4⟩
  · intro hr
    subst hr
    refine ⟨h.w, h.ids, (by simpa using h.len), hwg, h.rest, hhand, hread, (List.nodup_cons.mp honce).2, fun x hx => h.coming_fits x (hperm.mem_iff.mpr (List.mem_cons_of_mem _ hx)), ?_⟩
    obtain ⟨progs, base, acc, hs⟩ := h.sys
    refine ⟨progs, base, acc, .step hs.reach hst, hs.ok, hs.after, fun k => ?_⟩
    have hfin := hfin k
    show ∃ recs : List DRec, _ ∧ _ ∧ recs.map valOf = forMetric k (ProcF.coming { s with sys, hands := s.hands.set j .wrote }) ++ ((ackd ((sys.finished k).map plain)).reverse ++ acc k)
    by_cases hk : m' = k
    · subst hk
      obtain ⟨x, recs, r1, r2, r3, r4⟩ := hcut progs base acc hs
      refine ⟨x :: recs, r1, r2, ?_⟩
      rw [if_pos rfl] at hfin
      rw [hnil, hfin, List.map_append, ackd_append, List.map_cons, r3, r4]
      simp [ackd, plain]
    · obtain ⟨recs, r1, r2, r3⟩ := hs.db k
      refine ⟨recs, r1, r2, ?_⟩
      rw [if_neg hk, List.append_nil] at hfin
      rw [hfin, r3, forMetric_perm hperm h.once, hother k hk]
  · intro hr
    refine ⟨h.w, h.ids, (by simpa using h.len), hwg, h.rest, hhand, hread, (List.nodup_cons.mp honce).2, fun x hx => h.coming_fits x (hperm.mem_iff.mpr (List.mem_cons_of_mem _ hx)), ?_⟩
    obtain ⟨progs, base, acc, hs⟩ := h.sys
    refine ⟨progs, base, acc, .step hs.reach hst, hs.ok, hs.after, fun k => ?_⟩
    have hfin := hfin k
    show ∃ recs : List DRec, EachOf (Right c.pipe.d k) recs (if k = m' then (t.kept k).tail else t.kept k) ∧ _ ∧
      recs.map valOf = forMetric k (ProcF.coming { s with sys, hands := s.hands.set j .wrote }) ++ ((ackd ((sys.finished k).map plain)).reverse ++ acc k)
    by_cases hk : m' = k
    · subst hk
      obtain ⟨x, recs, r1, r2, r3, r4⟩ := hcut progs base acc hs
      rw [if_pos rfl] at hfin ⊢
      refine ⟨recs, ?_, fun y hy => r2 y (List.mem_cons_of_mem _ hy), ?_⟩
      · generalize t.kept m' = ks at r1
        cases r1 with
        | cons _ h2 => exact h2
      · have hz : ackd ([(j, (⟨.write c.pipe.cfg v, dir, unlink⟩ : FltCall), r')].map plain) = [] := by
          cases r' with
          | write w => cases w with
            | written => exact absurd rfl hr
            | _ => rfl
          | query => rfl
          | latest => rfl
        rw [hnil, hfin, List.map_append, ackd_append, hz, List.append_nil, r4]
        rfl
    · obtain ⟨recs, r1, r2, r3⟩ := hs.db k
      rw [if_neg (fun e => hk e.symm)]
      refine ⟨recs, r1, r2, ?_⟩
      rw [if_neg hk, List.append_nil] at hfin
      rw [hfin, r3, forMetric_perm hperm h.once, hother k hk]

theorem FltInv.answer (h : FltInv c e K t s) {i : Nat} (hi : s.hands[i]? = some .wrote) : FltInv c e K t { s with hands := s.hands.set i .free, wg := s.wg - 1 } := by
  have hc := countP_set_of (p := Hand.owes) Hand.free hi
  simp only [Hand.owes, if_true, Bool.false_eq_true, if_false] at hc
  have hwg := h.wg
  refine h.same _ rfl (by simp) ?_ ?_ ?_ h.reader ?_ (fun _ => rfl) (fun progs base acc hs => ⟨progs, hs.reach, hs.ok⟩)
  · show s.wg - 1 = s.queue.length + (s.hands.set i .free).countP Hand.owes
    omega
  · intro hd
    have := h.rest hd
    exact ⟨this.1, by show s.wg - 1 = 0; omega⟩
  · intro k a ha
    rcases hands_ne ha with ⟨rfl, rfl⟩ | ⟨hne, ha⟩
    · have hk : s.sys.cl[k]? = some ⟨[], .out⟩ := h.hand k _ hi
      exact hk
    · exact h.hand k a ha
  · unfold ProcF.coming
    dsimp only
    refine List.Perm.append_left _ ?_
    have p1 := filterMap_at Hand.item _ i _ hi
    have p2 := filterMap_set Hand.item _ i _ .free hi
    have q1 : (Hand.item Hand.wrote).toList = [] := rfl
    have q2 : (Hand.item Hand.free).toList = [] := rfl
    rw [q1] at p1
    rw [q2] at p2
    exact p1.trans p2.symm

theorem FltInv.wait (h : FltInv c e K t s) (ht : s.todo = []) (hw : s.wg = 0) : FltInv c e K t { s with dumping := false } :=
  h.same _ rfl rfl h.wg (fun _ => ⟨ht, hw⟩) h.hand h.reader (List.Perm.refl _) (fun _ => rfl) (fun progs _ _ hs => ⟨progs, hs.reach, hs.ok⟩)

theorem FltInv.idle (h : FltInv c e K t s) (hd : s.dumping = false) : s.queue = [] ∧ s.coming = [] := by
  obtain ⟨h1, h2⟩ := h.rest hd
  have hwg := h.wg
  have hq : s.queue = [] := List.eq_nil_of_length_eq_zero (by omega)
  refine ⟨hq, ?_⟩
  unfold ProcF.coming
  rw [h1, hq, List.append_nil, List.filter_nil, List.nil_append, List.filterMap_eq_nil_iff]
  intro a ha
  have : s.hands.countP Hand.owes = 0 := by omega
  have := List.countP_eq_zero.mp this a ha
  cases a with
  | busy m v => exact absurd rfl this
  | _ => rfl

theorem fltInv_init {fs : Bytes → Store} (hwc : c.workers ≤ c.clients) (hw : t.w = {})
    (hdb : ∀ m, ∃ recs : List DRec, EachOf (Right c.pipe.d m) recs (t.kept m) ∧ (∀ r ∈ recs, needs c.pipe.cfg.size r.encode.length < c.pipe.cfg.cap) ∧
      (e.Whole m → ∃ kept, AfterFaults (fs m) (recs.map valOf) c.pipe.cfg.max kept) ∧ (e.Spares m → AfterCfg c.pipe.cfg (fs m) (recs.map valOf))) :
    FltInv c e K t (ProcF.init c fs) := by
  have hget : ∀ (i : Nat) (x : Client FltCall (FsProg DbRes)), (ProcF.init c fs).sys.cl[i]? = some x → x = ⟨[], .out⟩ := by
    intro i x hx
    have hx : ((List.replicate c.clients ([] : List (Bytes × FltCall))).map (fun p => (⟨p, .out⟩ : Client FltCall (FsProg DbRes))))[i]? = some x := hx
    rw [List.map_replicate] at hx
    exact List.eq_of_mem_replicate (List.mem_of_getElem? hx)
  refine ⟨by rw [hw]; exact winv_init _, fun e he => (by rw [hw] at he; cases he), ?_, ?_, fun _ => ⟨rfl, rfl⟩, ?_, ?_, by rw [initF_coming]; exact List.nodup_nil, fun x hx => (by rw [initF_coming] at hx; cases hx), ?_⟩
  · exact List.length_replicate
  · show 0 = 0 + (List.replicate c.workers Hand.free).countP Hand.owes
    rw [List.countP_replicate]
    rfl
  · intro i a ha
    have hl := (List.getElem?_eq_some_iff.mp ha).1
    have ha : (List.replicate c.workers Hand.free)[i]? = some a := ha
    have := List.eq_of_mem_replicate (List.mem_of_getElem? ha)
    subst this
    show ((List.replicate c.clients ([] : List (Bytes × FltCall))).map (fun p => (⟨p, .out⟩ : Client FltCall (FsProg DbRes))))[i]? = _
    have hl : i < (List.replicate c.workers Hand.free).length := hl
    rw [List.length_replicate] at hl
    rw [List.map_replicate, List.getElem?_replicate_of_lt (by omega)]
  · intro i x _ hx y hy
    rw [hget i x hx] at hy
    cases hy
  · refine ⟨List.replicate c.clients [], fs, fun m => (Classical.choose (hdb m)).map valOf, .init, ?_, fun m => (Classical.choose_spec (hdb m)).2.2, fun m => ?_⟩
    · intro p hp x hx
      rw [List.eq_of_mem_replicate hp] at hx
      cases hx
    · refine ⟨Classical.choose (hdb m), (Classical.choose_spec (hdb m)).1, (Classical.choose_spec (hdb m)).2.1, ?_⟩
      rw [initF_coming]
      rfl

theorem FltInv.restart (h : FltInv c e K t s) (hn : c.handles < 2 ^ 63) (hd : s.dumping = false) (hcl : ∀ x ∈ s.sys.cl, x = ⟨[], .out⟩) (hwc : c.workers ≤ c.clients) : FltInv c e K (t.step .restart) (ProcF.init c s.sys.g.fs) := by
  refine fltInv_init hwc rfl fun m => ?_
  obtain ⟨progs, base, acc, hs⟩ := h.sys
  obtain ⟨recs, r1, r2, r3⟩ := hs.db m
  refine ⟨recs, r1, r2, ?_⟩
  rw [r3, (h.idle hd).2]
  refine hs.left hn m ?_
  intro i o rest p hc
  have := hcl _ (List.mem_of_getElem? hc)
  cases this

theorem FltInv.add (h : FltInv c e K t s) (hd : c.pipe.d.newOk = true) (hlen : t.w.pend.length < 9223372036854775808) {m : Bytes} {ob : Obs} {now : Int64} (hop : (POp.add m ob now).Fair K) :
    FltInv c e K (t.step (.add m ob now)) { s with w := (WOp.add m ob now).run c.pipe.d s.w } := by
  refine ⟨h.w.step hd hlen (.add m ob now) trivial, ?_, h.len, h.wg, h.rest, h.hand, h.reader, h.once, h.coming_fits, ?_⟩
  · show ∀ e ∈ (t.w.step (.add m ob now)).pend, _
    unfold WSpec.step
    dsimp only
    split
    · intro e he
      rcases List.mem_append.mp he with he | he
      · exact h.ids e he
      · rw [List.mem_singleton.mp he]; exact hop
    · exact h.ids
  · obtain ⟨progs, base, acc, hs⟩ := h.sys
    exact ⟨progs, base, acc, hs.reach, hs.ok, hs.after, hs.db⟩

theorem FltInv.dump (h : FltInv c e K t s) (hd : c.pipe.d.newOk = true) (hfit : Fits c.pipe K) (hlen : t.w.pend.length < 9223372036854775808) {order : List (Bytes × Agg) → List (Bytes × Agg)} {now : Int64} {taken : Bytes → Bool}
    (hop : (POp.dump order now taken).Fair K) (hidle : s.dumping = false) :
    FltInv c e K (t.step (.dump order now taken)) { s with w := (WOp.capture order now).run c.pipe.d s.w, todo := capturedVals c.pipe.d s.w order now, taken, dumping := true } := by
  have hcap := h.w.step hd hlen (.capture order now) hop
  obtain ⟨hq, hcoming⟩ := h.idle hidle
  have hhands : s.hands.filterMap Hand.item = [] := (List.append_eq_nil_iff.mp hcoming).2
  have hnew : ProcF.coming { s with w := (WOp.capture order now).run c.pipe.d s.w, todo := capturedVals c.pipe.d s.w order now, taken, dumping := true } = (capturedVals c.pipe.d s.w order now).filter (fun x => taken x.1) := by
    unfold ProcF.coming
    dsimp only
    rw [hhands, hq, List.append_nil, List.append_nil]
  have hids : ∀ e ∈ (t.step (.dump order now taken)).w.pend, e.2.id.length ≤ K := by
    show ∀ e ∈ (t.w.step (.capture order now)).pend, e.2.id.length ≤ K
    unfold WSpec.step
    dsimp only
    split
    · exact h.ids
    · intro e he; cases he
  obtain ⟨progs, base, acc, hs⟩ := h.sys
  cases hpg : s.w.page with
  | none =>
    have hst := h.w.isNone.mp hpg
    have ht : ∀ m, (t.step (.dump order now taken)).kept m = t.kept m := by
      intro m
      show (match t.w.start with | none => _ | some t' => _ : List Batch) = _
      rw [hst]
    have he : capturedVals c.pipe.d s.w order now = [] := by
      unfold capturedVals
      rw [hpg]
    rw [he] at hnew ⊢
    refine ⟨hcap, hids, h.len, h.wg, fun hd => (by cases hd), h.hand, h.reader, by rw [hnew]; exact List.nodup_nil, fun x hx => (by rw [hnew] at hx; cases hx), progs, base, acc, hs.reach, hs.ok, hs.after, fun m => ?_⟩
    obtain ⟨recs, r1, r2, r3⟩ := hs.db m
    refine ⟨recs, by rw [ht]; exact r1, r2, ?_⟩
    rw [r3, hcoming, hnew]
    rfl
  | some p =>
    obtain ⟨hst, hok⟩ := h.w.page p hpg
    obtain ⟨_, hgr⟩ := hok.group c.pipe.d now order (hop _)
    have he : capturedVals c.pipe.d s.w order now = (captureLoop c.pipe.d now (order p.m)).1.map (fun c => (c.metric, valOf c.rec_)) := by
      unfold capturedVals
      rw [hpg]
    rw [he] at hnew ⊢
    generalize (captureLoop c.pipe.d now (order p.m)).1 = g at hgr hnew
    have honce : (((g.map (fun c => (c.metric, valOf c.rec_))).filter (fun x => taken x.1)).map (·.1)).Nodup := by
      refine (List.filter_sublist.map _).nodup ?_
      rw [List.map_map]
      exact hgr.once
    refine ⟨hcap, hids, h.len, h.wg, fun hd => (by cases hd), h.hand, h.reader, by rw [hnew]; exact honce, ?_, progs, base, acc, hs.reach, hs.ok, hs.after, fun m => ?_⟩
    · intro x hx
      rw [hnew] at hx
      obtain ⟨y, hy, rfl⟩ := List.mem_map.mp (List.mem_filter.mp hx).1
      refine hfit _ _ _ _ ?_ (hgr.recs y hy)
      intro z hz
      rw [hgr.vals y hy] at hz
      exact h.ids _ (obsOf_mem hz)
    obtain ⟨recs, r1, r2, r3⟩ := hs.db m
    rw [hcoming] at r3
    have r3 : recs.map valOf = (ackd ((s.sys.finished m).map plain)).reverse ++ acc m := r3
    have hk : (t.step (.dump order now taken)).kept m = if taken m && (t.w.pend.map (·.1)).contains m then ⟨p.now, now, t.w.pend⟩ :: t.kept m else t.kept m := by
      show (match t.w.start with | none => _ | some t' => _) = _
      rw [hst]
    rw [hk, hnew, forMetric_filter g taken m hgr.once]
    cases hf : (g.filter (fun c => taken c.metric)).find? (fun c => c.metric == m) with
    | none =>
      rw [if_neg]
      · exact ⟨recs, r1, r2, r3⟩
      · intro hcond
        rw [Bool.and_eq_true] at hcond
        obtain ⟨htk, hmem⟩ := hcond
        have hmem : m ∈ t.w.pend.map (·.1) := by simpa using hmem
        obtain ⟨c, hc, hcm⟩ := List.mem_map.mp ((hgr.metrics m).mpr hmem)
        have := (List.find?_eq_none.mp hf) c (List.mem_filter.mpr ⟨hc, by rw [hcm]; exact htk⟩)
        exact this (by simpa using hcm)
    | some x =>
      have hcm : x.metric = m := by simpa using List.find?_some hf
      obtain ⟨hc, htk⟩ := List.mem_filter.mp (List.mem_of_find?_eq_some hf)
      have hmem : m ∈ t.w.pend.map (·.1) := (hgr.metrics m).mp (List.mem_map.mpr ⟨x, hc, hcm⟩)
      rw [if_pos (by rw [Bool.and_eq_true]; exact ⟨by rw [← hcm]; exact htk, by simpa using hmem⟩)]
      have hrec := hgr.recs x hc
      have hid : ∀ y ∈ x.vals, y.id.length ≤ K := by
        intro y hy
        rw [hgr.vals x hc] at hy
        exact h.ids _ (obsOf_mem hy)
      have hright : Right c.pipe.d m x.rec_ ⟨p.now, now, t.w.pend⟩ := by
        rw [hgr.vals x hc, hcm] at hrec
        exact hrec
      refine ⟨x.rec_ :: recs, .cons hright r1, ?_, by rw [List.map_cons, r3]; rfl⟩
      intro r hr
      rcases List.mem_cons.mp hr with rfl | hr
      · exact hfit _ _ _ _ hid hrec
      · exact r2 r hr

end

/-! ## All reachable states -/

theorem stepF_w (ops : List PFOp) : ∀ t u : PSpec, t.w = u.w → (ops.foldl PSpec.stepF t).w = ((plainOps ops).foldl PSpec.step u).w := by
  induction ops with
  | nil => intro t u h; exact h
  | cons op ops ih =>
    intro t u h
    cases op with
    | op o =>
      refine ih _ _ ?_
      cases o with
      | add m ob now => show t.w.step (.add m ob now) = u.w.step (.add m ob now); rw [h]
      | dump order now taken => show t.w.step (.capture order now) = u.w.step (.capture order now); rw [h]
      | query _ _ _ => exact h
      | restart => rfl
    | lost m => exact ih _ _ h

theorem plainOps_append (a b : List PFOp) : plainOps (a ++ b) = plainOps a ++ plainOps b := List.filterMap_append

/-- What is known of the files before the first process. -/
def GoodStart (c : ProcCfg) (e : SysErrors) (fs : Bytes → Store) : Prop :=
  ∀ m, (e.Whole m → ∃ kept, AfterFaults (fs m) [] c.pipe.cfg.max kept) ∧ (e.Spares m → AfterCfg c.pipe.cfg (fs m) [])

theorem goodStart_fresh (c : ProcCfg) (e : SysErrors) (de : Bytes → Bool) (hit : Bytes → Nat → Bool) : GoodStart c e (freshFs de hit) :=
  fun m => ⟨fun _ => ⟨0, [], _, ⟨rfl, rfl, rfl, rfl⟩, ⟨fun o ho => (by cases ho), de m, hit m, rfl⟩, fun o ho => (by cases ho), Nat.le_refl _⟩, fun _ => freshFs_after _ _ _ _⟩

theorem fltInv_reach {c : ProcCfg} {e : SysErrors} {K : Nat} {fs : Bytes → Store} (hfs : GoodStart c e fs) {ops : List PFOp} {s : ProcF} (h : ProcF.Reach c e fs ops s) : LifeOk c K (plainOps ops) → FltInv c e K (ops.foldl PSpec.stepF {}) s := by
  induction h with
  | start => exact fun hok => fltInv_init hok.clients rfl (fun m => ⟨[], .nil, fun r hr => (by cases hr), hfs m⟩)
  | @step ops s s' l hr hst ih =>
    intro hok
    rw [plainOps_append] at hok
    have inv := ih hok.left
    rw [List.foldl_append]
    have hlen : (ops.foldl PSpec.stepF {}).w.pend.length < 9223372036854775808 := by
      rw [stepF_w ops {} {} rfl]
      have := pend_le (plainOps ops) {}
      have := hok.left.short
      simp only [List.length_nil] at *
      omega
    cases hst with
    | add m ob now => exact inv.add hok.dist hlen (hok.fair _ (List.mem_append_right _ (by simp [plainOps])))
    | dump order now taken hd => exact inv.dump hok.dist hok.fits hlen (hok.fair _ (List.mem_append_right _ (by simp [plainOps]))) hd
    | offer x rest ht => exact inv.offer ht
    | refuse x rest ht hx => exact inv.refuse ht hx
    | drain x rest ht hx => exact inv.drain ht hx
    | recv i x rest dir unlink hi hq hx he => exact inv.recv hok.geo hi hq hx he
    | ask i m o dir unlink hi hcl ho he => exact inv.ask hok.geo hi hcl ho he
    | db sys h1 h2 => exact inv.db h1 h2
    | wrote i sys m o v h1 h2 h3 => exact (inv.finished h1 h2 h3).2.2.1 rfl
    | lost i sys m o r v h1 h2 h3 h4 => exact (inv.finished h1 h2 h4).2.2.2 h3
    | answer i h1 h2 => exact inv.answer h1
    | wait h1 h2 h3 => exact inv.wait h2 h3
    | restart h1 h2 => exact inv.restart hok.handles h1 h2 hok.clients

/-- The intervals kept ended at dumps. -/
theorem keptF_stops (m : Bytes) (ops : List PFOp) : ∀ (t : PSpec) (T : List Int64), (∀ b ∈ t.kept m, b.stop ∈ T) → ∀ b ∈ (ops.foldl PSpec.stepF t).kept m, b.stop ∈ T ++ dumpTimes (plainOps ops) := by
  induction ops with
  | nil => intro t T h b hb; exact List.mem_append_left _ (h b hb)
  | cons op ops ih =>
    intro t T h b hb
    cases op with
    | lost k =>
      refine ih (t.stepF (.lost k)) T ?_ b hb
      intro b hb
      have hb : b ∈ (if m = k then (t.kept m).tail else t.kept m) := hb
      split at hb
      · exact h b (List.mem_of_mem_tail hb)
      · exact h b hb
    | op o =>
      have := ih (t.step o) (T ++ dumpTimes [o]) (fun b hb => kept_stops m [o] t T h b hb) b hb
      rw [List.append_assoc] at this
      have e : dumpTimes [o] ++ dumpTimes (plainOps ops) = dumpTimes (plainOps (.op o :: ops)) := by
        show _ = dumpTimes ([o] ++ plainOps ops)
        unfold dumpTimes
        rw [List.filterMap_append]
      rw [e] at this
      exact this

theorem keptF_end {c : ProcCfg} {ops : List PFOp} {m : Bytes} {recs : List DRec} (h1 : EachOf (Right c.pipe.d m) recs ((ops.foldl PSpec.stepF {}).kept m)) : ∀ v ∈ recs.map valOf, v.stop ∈ dumpTimes (plainOps ops) := by
  intro v hv
  obtain ⟨r, hr, rfl⟩ := List.mem_map.mp hv
  obtain ⟨b, hb, hrb⟩ := eachOf_left h1 r hr
  have := keptF_stops m ops {} [] (fun _ h => (by cases h)) b hb
  show r.endTime ∈ _
  rw [hrb.stop]
  simpa using this

/-- What the acknowledged values are: all the records, or all but the newest one, while that is still to be written. -/
theorem FltInv.acked {c : ProcCfg} {e : SysErrors} {K : Nat} {t : PSpec} {s : ProcF} (h : FltInv c e K t s) {acc : List Val} {recs : List DRec} {m : Bytes} (he : recs.map valOf = forMetric m s.coming ++ acc) :
    ∃ done : List DRec, done.map valOf = acc ∧ (done = recs ∨ s.dumping = true ∧ ∃ r, recs = r :: done) := by
  cases hd : s.dumping with
  | false =>
    rw [(h.idle hd).2] at he
    exact ⟨recs, he, .inl rfl⟩
  | true =>
    have := forMetric_short (m := m) h.once
    match hf : forMetric m s.coming, this with
    | [], _ => rw [hf] at he; exact ⟨recs, he, .inl rfl⟩
    | [v], _ =>
      rw [hf] at he
      cases recs with
      | nil => cases he
      | cons r recs =>
        injection he with _ he
        exact ⟨recs, he, .inr ⟨rfl, r, rfl⟩⟩
    | _ :: _ :: _, hl => simp at hl

theorem stepF_log {c : ProcCfg} {e : SysErrors} {s s' : ProcF} {l : Option PFOp} (hst : s.Step c e l s') {x : Nat × Bytes × FltCall × DbRes} (hlog : s'.sys.log = s.sys.log ++ [x]) :
    s.sys.StepF dbCallsF e.file (dbPath c.dir) s'.sys := by
  have no : ∀ {k : List (Nat × Bytes × FltCall × DbRes)}, k = k ++ [x] → False := by
    intro k h
    have := congrArg List.length h
    simp at this
  cases hst with
  | add => exact absurd hlog no
  | dump => exact absurd hlog no
  | offer => exact absurd hlog no
  | refuse => exact absurd hlog no
  | drain => exact absurd hlog no
  | recv => exact absurd hlog no
  | ask => exact absurd hlog no
  | db sys h1 h2 => exact h1
  | wrote i sys m o v h1 h2 h3 => exact h1
  | lost i sys m o r v h1 h2 h3 h4 => exact h1
  | answer => exact absurd hlog no
  | wait => exact absurd hlog no
  | restart h1 h2 =>
    have hlog : [] = s.sys.log ++ [x] := hlog
    simp at hlog

/-- A call that has just finished: nobody is at work on its metric, and its result is that of the call alone. -/
theorem FltSys.result {c : ProcCfg} {e : SysErrors} {t : PSpec} {s : ProcF} {progs : List (List (Bytes × FltCall))} {base : Bytes → Store} {acc : Bytes → List Val} (h : FltSys c e t s progs base acc) (hn : c.handles < 2 ^ 63)
    {sys : FsSys FltCall DbRes} (hst : s.sys.StepF dbCallsF e.file (dbPath c.dir) sys) {i : Nat} {m : Bytes} {o : FltCall} {r : DbRes} (hlog : sys.log = s.sys.log ++ [(i, m, o, r)]) :
    (∃ file u, (o.run file u).1 = r) ∧
    (e.Whole m → ∃ (file : Nat → Option FileFault) (hist : List (Op × Faults)) (u : Store), ReachF hist u ((ackd ((s.sys.finished m).map plain)).reverse ++ acc m) ∧
      (∀ o ∈ hist, ∀ k, o.1.limit = some k → k = c.pipe.cfg.max) ∧ (o.run file u).1 = r) ∧
    (e.Spares m → ∃ u, ReachCfg c.pipe.cfg u ((ackd ((s.sys.finished m).map plain)).reverse ++ acc m) ∧ (o.call.run u).1 = r) := by
  rcases stepF_shape hst with ⟨e1, _⟩ | ⟨j, m', o', rest, r', q, h1, h2⟩
  · rw [e1] at hlog
    have := congrArg List.length hlog
    simp at this
  have hlog2 : s.sys.log ++ [(j, m', o', r')] = s.sys.log ++ [(i, m, o, r)] := by rw [← hlog, h2]
  have hlog3 := List.append_cancel_left hlog2
  injection hlog3 with hlog3 _
  injection hlog3 with a1 a2
  injection a2 with a2 a3
  injection a3 with a3 a4
  subst a1 a2 a3 a4
  have hfin : sys.finished m' = s.sys.finished m' ++ [(j, o', r')] := by rw [h2, finishedF_snoc, if_pos rfl]
  have hq : sys.quiet m' := by rw [h2]; exact finishF_quiet hn h.reach h1
  have hreach : FsSys.ReachF dbCallsF e.file (dbPath c.dir) c.handles progs base sys := .step h.reach hst
  refine ⟨?_, ?_, ?_⟩
  · obtain ⟨hit, file, evs, t, _, _, e2, e3, _⟩ := C112_serial hn hreach m' hq (base m') ⟨rfl, rfl, rfl, rfl⟩
    rw [hfin] at e3
    obtain ⟨_, t', _, _, f3⟩ := serial_last e2 _ j o' r' e3
    exact ⟨file, t', f3⟩
  · intro hw
    obtain ⟨kept, hist, t0, hsame, hr0, hlim, _⟩ := (h.after m').1 hw
    obtain ⟨hit, file, evs, t, e0, e1, e2, e3, _⟩ := C112_serial hn hreach m' hq t0 hsame
    rw [hfin] at e3
    obtain ⟨evs', t', f1, f2, f3⟩ := serial_last e2 _ j o' r' e3
    have hr1 : ReachF (hist ++ [(.restart, Faults.none)]) (t0.withHit hit).reopen (acc m') := (hr0.oracle hit e0).snoc .restart Faults.none trivial (fun _ _ e => by cases e) rfl
    obtain ⟨hist', g1, g2, _⟩ := serialF_reach (max := c.pipe.cfg.max) (fun i b x => hw b (e1 i _ x)) hr1 (by
      intro x hx k hk
      rcases List.mem_append.mp hx with hx | hx
      · exact hlim x hx k hk
      · rw [List.mem_singleton.mp hx] at hk; cases hk) f1 (by
      rw [f2]
      intro x hx
      obtain ⟨p, hp, hc⟩ := finishedF_mem hn hreach m' x (by rw [hfin]; exact List.mem_append_left _ hx)
      obtain ⟨k1, k2, _⟩ := h.ok p hp _ hc
      exact ⟨k1, uses_limit k2⟩)
    rw [f2] at g1
    exact ⟨file, hist', t', g1, g2, f3⟩
  · intro hsp
    obtain ⟨t0, hsame, hr0⟩ := (h.after m').2 hsp
    obtain ⟨hit, evs, t, e1, e2, e3, _⟩ := C112_spared hn hreach m' hq hsp.1 (fun p hp x hx hm => hsp.2 _ _ (hm ▸ (h.ok p hp x hx).2.2)) t0 hsame
    rw [hfin, List.map_append] at e3
    obtain ⟨evs', t', f1, f2, f3⟩ := serial_last e2 _ j o'.call r' e3
    refine ⟨t', ?_, f3⟩
    rw [← f2]
    refine serial_reachCfg (reachCfg_restart (reachCfg_oracle hr0 hit e1)) f1 ?_
    rw [f2]
    intro x hx
    obtain ⟨y, hy, rfl⟩ := List.mem_map.mp hx
    obtain ⟨p, hp, hc⟩ := finishedF_mem hn h.reach m' y hy
    obtain ⟨k1, k2, _⟩ := h.ok p hp _ hc
    exact ⟨k1, k2⟩

/-- What a query of everything shows, after a history with errors. -/
theorem reachF_shown {hist : List (Op × Faults)} {u : Store} {acc : List Val} {max : Int} (h : ReachF hist u acc) (hlim : ∀ o ∈ hist, ∀ k, o.1.limit = some k → k = max) :
    ∃ stored dropped, acc = stored ++ dropped ∧ (acc ≠ [] → stored ≠ []) ∧ (max ≤ 0 → dropped = []) ∧
      ∀ cfg (bound : Int64), (∀ v ∈ acc, v.stop < bound) → acc ≠ [] → (queryList cfg bound (fun _ _ => .more) u).1 = (stored, none) := by
  rcases h.inv_files max hlim with ⟨hd, hc, ha⟩ | ⟨first, last, H, V, dr, inv, hP⟩
  · exact ⟨[], [], by rw [ha]; rfl, fun h => absurd ha h, fun _ => rfl, fun _ _ _ h => absurd ha h⟩
  · refine ⟨valuesOf V first last, dr, inv.eq, ?_, fun hx => inv.one (hP.2 hx), fun cfg bound hb _ => inv.stored_query cfg bound hb⟩
    intro hne hst
    cases hV : V last with
    | nil => exact hne (inv.empty hV)
    | cons w ws =>
      have := mem_valuesOf (V := V) inv.core.rng.2 (Int.le_refl last) (v := w) (by rw [hV]; simp)
      rw [hst] at this; cases this

theorem reachF_dir {hist : List (Op × Faults)} {u : Store} {acc : List Val} (h : ReachF hist u acc) (hne : acc ≠ []) : u.dirExists = true := by
  rcases h.inv with ⟨_, _, ha⟩ | ⟨first, last, H, V, dr, inv, _⟩
  · exact absurd ha hne
  · exact inv.core.ex

/-! ## The theorems -/

section
variable {c : ProcCfg} {e : SysErrors} {K : Nat} {de : Bytes → Bool} {hit : Bytes → Nat → Bool} {ops : List PFOp} {s s' : ProcF} {l : Option PFOp}

/-- **C118** (at rest). Whatever system calls fail, in whatever schedule, as long as none leaves a new data file of this metric half made: when no dump is in progress and nobody is at work on the metric, a process that starts then answers a query
for everything with the records of exactly the metric's intervals whose value was not reported as lost, newest first, each with the exact contents of its interval, up to whole oldest files dropped by rotation, and without an error. -/
theorem C118_stored (h : ProcF.Reach c e (freshFs de hit) ops s) (hok : LifeOk c K (plainOps ops)) (hd : s.dumping = false) (m : Bytes) (hw : e.Whole m) (hq : s.sys.quiet m) :
    ∃ recs, KeptOf c ops m recs ∧ ∃ stored dropped, recs.map valOf = stored ++ dropped ∧ (recs ≠ [] → stored ≠ []) ∧ (c.pipe.cfg.max ≤ 0 → dropped = []) ∧
      ∀ u, SameFs u (s.sys.g.fs m) → (∀ i, u.cache i = none) → ∀ bound : Int64, (∀ now ∈ dumpTimes (plainOps ops), now < bound) →
        (queryList c.pipe.cfg bound (fun _ _ => .more) u).1.1 = stored ∧ (recs ≠ [] → (queryList c.pipe.cfg bound (fun _ _ => .more) u).1.2 = none) := by
  have inv := fltInv_reach (goodStart_fresh c e de hit) h hok
  obtain ⟨progs, base, acc, hs⟩ := inv.sys
  obtain ⟨recs, r1, r2, r3⟩ := hs.db m
  rw [(inv.idle hd).2] at r3
  have r3 : recs.map valOf = (ackd ((s.sys.finished m).map plain)).reverse ++ acc m := r3
  refine ⟨recs, ⟨r1, fun r hr => (C06_record_round_trip r (fits_small hok.geo r2 r hr)).1⟩, ?_⟩
  obtain ⟨kept, hk⟩ := (hs.left hok.handles m hq).1 hw
  rw [← r3] at hk
  obtain ⟨⟨stored, dropped, q1, q2, q3, q4⟩, _⟩ := afterFaults_kept hk
  have hm : recs ≠ [] → recs.map valOf ≠ [] := fun hne e => hne (List.map_eq_nil_iff.mp e)
  refine ⟨stored, dropped, q1, fun hne => q2 (hm hne), q3, fun u hu hc bound hb => ?_⟩
  obtain ⟨p1, p2⟩ := (q4 u hu hc).1 c.pipe.cfg bound hok.geo (fun v hv => hb _ (keptF_end r1 v hv))
  exact ⟨p1, fun hne => p2 (hm hne)⟩

/-- **C118** (what a loss is). A value is reported as lost only when a worker's write of the record of the metric's newest interval has returned with an error, or with the report that it was not written; that interval alone is then not kept. -/
theorem C118_lost (h : ProcF.Reach c e (freshFs de hit) ops s) (hok : LifeOk c K (plainOps ops)) {m : Bytes} (hst : s.Step c e (some (.lost m)) s') :
    ∃ b older, (ops.foldl PSpec.stepF {}).kept m = b :: older ∧ ∃ r, RecordOf c.pipe.d b.start b.stop (obsOf m b.obs) r ∧
      ∃ i, i < c.workers ∧ ∃ dir unlink, e.call m dir unlink ∧ ∃ res, s'.sys.log = s.sys.log ++ [(i, m, ⟨.write c.pipe.cfg (valOf r), dir, unlink⟩, .write res)] ∧ (res = .notWritten ∨ ∃ err, res = .failed err) := by
  have inv := fltInv_reach (goodStart_fresh c e de hit) h hok
  cases hst with
  | lost i sys m o r v h1 h2 h3 h4 =>
    obtain ⟨f1, ⟨b, older, f2, x, f3, f4, _⟩, _⟩ := inv.finished h1 h2 h4
    refine ⟨b, older, f2, x, f3, i, flt_hand_lt inv h4, ?_⟩
    obtain ⟨progs, base, acc, hs⟩ := inv.sys
    obtain ⟨⟨file, u, hr⟩, _⟩ := hs.result hok.handles h1 h2
    have hcall : e.call m o.dir o.unlink := by
      rcases stepF_shape h1 with ⟨e1, _⟩ | ⟨j, m', o', rest, r', q, g1, g2⟩
      · rw [e1] at h2
        have := congrArg List.length h2
        simp at this
      · have hreach : FsSys.ReachF dbCallsF e.file (dbPath c.dir) c.handles progs base sys := .step hs.reach h1
        have hm : (i, o, r) ∈ sys.finished m := by
          unfold FsSys.finished
          rw [h2]
          exact List.mem_map.mpr ⟨(i, m, o, r), List.mem_filter.mpr ⟨List.mem_append_right _ List.mem_cons_self, by simp⟩, rfl⟩
        obtain ⟨p, hp, hc⟩ := finishedF_mem hok.handles hreach m _ hm
        exact (hs.ok p hp _ hc).2.2
    obtain ⟨call, dir, unlink⟩ := o
    have f1 : call = .write c.pipe.cfg v := f1
    subst f1
    refine ⟨dir, unlink, hcall, (dbWriteF ⟨dir, file, unlink⟩ c.pipe.cfg v u).1, ?_, ?_⟩
    · show sys.log = _
      rw [h2, f4, ← hr]
      rfl
    · have hr : DbRes.write (dbWriteF ⟨dir, file, unlink⟩ c.pipe.cfg v u).1 = r := hr
      generalize (dbWriteF ⟨dir, file, unlink⟩ c.pipe.cfg v u).1 = w at hr ⊢
      cases w with
      | written => exact absurd hr.symm h3
      | notWritten => exact .inl rfl
      | failed x => exact .inr ⟨x, rfl⟩

/-- **C118** (other metrics). For a metric for whose calls no system call fails, whatever fails for the others, a value is lost only if the clock had gone back: an interval that ends at the same time or later is kept already. -/
theorem C118_spared (h : ProcF.Reach c e (freshFs de hit) ops s) (hok : LifeOk c K (plainOps ops)) {m : Bytes} (hsp : e.Spares m) (hst : s.Step c e (some (.lost m)) s') :
    ∃ b older, (ops.foldl PSpec.stepF {}).kept m = b :: older ∧ ∃ w ∈ older, b.stop ≤ w.stop := by
  have inv := fltInv_reach (goodStart_fresh c e de hit) h hok
  cases hst with
  | lost i sys m o r v h1 h2 h3 h4 =>
    obtain ⟨f1, ⟨b, older, f2, x, f3, f4, _, _, f5⟩, _⟩ := inv.finished h1 h2 h4
    refine ⟨b, older, f2, Classical.byContradiction fun hno => h3 ?_⟩
    obtain ⟨progs, base, acc, hs⟩ := inv.sys
    obtain ⟨recs', g1, g2⟩ := f5 progs base acc hs
    obtain ⟨_, _, hr⟩ := hs.result hok.handles h1 h2
    obtain ⟨u, hu, hr⟩ := hr hsp
    rw [f1] at hr
    rw [← g2] at hu
    have hfit : needs c.pipe.cfg.size v.data.length < c.pipe.cfg.cap := by
      refine inv.coming_fits (m, v) ?_
      unfold ProcF.coming
      exact List.mem_append_right _ (List.mem_filterMap.mpr ⟨_, List.mem_of_getElem? h4, rfl⟩)
    have hstop : v.stop = b.stop := by rw [← f4]; exact f3.stop
    have hl : ∀ w ∈ recs'.map valOf, w.stop < v.stop := by
      rw [stops_before g1, hstop]
      intro w hw
      refine Classical.byContradiction fun hx => hno ⟨w, hw, ?_⟩
      rw [Int64.le_iff_toInt_le]
      rw [Int64.lt_iff_toInt_lt] at hx
      omega
    have hwr := C20_one_config_partial hu v hok.geo hl (.inl hfit)
    rw [← hr]
    show DbRes.write (dbWrite c.pipe.cfg v u).1 = _
    rw [hwr]

/-- The intervals kept are in order if the clock goes forward. -/
theorem keptF_sorted (m : Bytes) : ∀ (ops : List PFOp), (dumpTimes (plainOps ops)).Pairwise (· < ·) → ((ops.foldl PSpec.stepF {}).kept m).Pairwise (fun a b => b.stop < a.stop) := by
  intro ops
  induction ops using List.reverseRecOn with
  | nil => intro _; exact List.Pairwise.nil
  | append_singleton ops op ih =>
    intro ht
    rw [plainOps_append] at ht
    unfold dumpTimes at ht
    rw [List.filterMap_append] at ht
    obtain ⟨t1, t2, t3⟩ := List.pairwise_append.mp ht
    have ih := ih t1
    rw [List.foldl_append]
    have hin := keptF_stops m ops {} [] (fun _ h => (by cases h))
    generalize ops.foldl PSpec.stepF {} = t at ih hin
    cases op with
    | lost k =>
      show (if m = k then (t.kept m).tail else t.kept m).Pairwise _
      split
      · exact ih.tail
      · exact ih
    | op o =>
      cases o with
      | dump order now taken =>
        show ((t.step (.dump order now taken)).kept m).Pairwise _
        unfold PSpec.step
        dsimp only
        split
        · exact ih
        · split
          · refine List.pairwise_cons.mpr ⟨fun b hb => ?_, ih⟩
            have := hin b hb
            exact t3 b.stop (by simpa [dumpTimes] using this) now (by simp [plainOps])
          · exact ih
      | _ => exact ih

/-- **C118** (other metrics, forward). If no system call fails for the metric and the clock goes forward, no value of the metric is lost, whatever happens to the others. -/
theorem C118_never (h : ProcF.Reach c e (freshFs de hit) ops s) (hok : LifeOk c K (plainOps ops)) {m : Bytes} (hsp : e.Spares m) (ht : (dumpTimes (plainOps ops)).Pairwise (· < ·)) : PFOp.lost m ∉ ops := by
  induction h with
  | start => intro hm; cases hm
  | @step ops s s' l hr hst ih =>
    rw [plainOps_append] at hok ht
    have ht1 : (dumpTimes (plainOps ops)).Pairwise (· < ·) := by
      unfold dumpTimes at ht ⊢
      rw [List.filterMap_append] at ht
      exact (List.pairwise_append.mp ht).1
    intro hm
    rcases List.mem_append.mp hm with hm | hm
    · exact ih hok.left ht1 hm
    · cases l with
      | none => cases hm
      | some op =>
        have e1 : PFOp.lost m = op := by simpa using hm
        subst e1
        obtain ⟨b, older, k1, w, hw, k2⟩ := C118_spared hr hok.left hsp hst
        have := keptF_sorted m ops ht1
        rw [k1] at this
        have := (List.pairwise_cons.mp this).1 w hw
        rw [Int64.le_iff_toInt_le] at k2
        rw [Int64.lt_iff_toInt_lt] at this
        omega

/-- **C118** (queries). A query for everything that returns during the process gives, newest first, the records of the metric's intervals that were not lost (while a dump is in progress the newest may be missing), up to whole oldest files dropped by
rotation; or, if a system call failed for it, the newest ones of these and an error: never anything else, and never a part without an error. -/
theorem C118_query (h : ProcF.Reach c e (freshFs de hit) ops s) (hok : LifeOk c K (plainOps ops)) (hst : s.Step c e l s') {i : Nat} {m : Bytes} {bound : Int64} {dir : Option DirFault} {unlink : Bool} {r : DbRes} (hw : e.Whole m)
    (hlog : s'.sys.log = s.sys.log ++ [(i, m, ⟨.query c.pipe.cfg bound (fun _ _ => .more), dir, unlink⟩, r)]) (hb : ∀ now ∈ dumpTimes (plainOps ops), now < bound) :
    ∃ recs, KeptOf c ops m recs ∧ ∃ done, (done = recs ∨ s.dumping = true ∧ ∃ r', recs = r' :: done) ∧
      ∃ stored dropped, done.map valOf = stored ++ dropped ∧ (done ≠ [] → stored ≠ []) ∧ (c.pipe.cfg.max ≤ 0 → dropped = []) ∧
        ∃ shown err, r = .query shown err ∧ (done ≠ [] → shown = stored ∧ err = none ∨ shown <+: stored ∧ err = some .os) := by
  have inv := fltInv_reach (goodStart_fresh c e de hit) h hok
  have hst := stepF_log hst hlog
  obtain ⟨progs, base, acc, hs⟩ := inv.sys
  obtain ⟨recs, r1, r2, r3⟩ := hs.db m
  refine ⟨recs, ⟨r1, fun r hr => (C06_record_round_trip r (fits_small hok.geo r2 r hr)).1⟩, ?_⟩
  obtain ⟨done, e1, e2⟩ := inv.acked r3
  refine ⟨done, e2, ?_⟩
  obtain ⟨_, hres, _⟩ := hs.result hok.handles hst hlog
  obtain ⟨file, hist, u, hu, hlim, hr⟩ := hres hw
  rw [← e1] at hu
  obtain ⟨stored, dropped, q1, q2, q3, q4⟩ := reachF_shown hu hlim
  have hm : done ≠ [] → done.map valOf ≠ [] := fun hne e => hne (List.map_eq_nil_iff.mp e)
  have hend : ∀ v ∈ done.map valOf, v.stop < bound := by
    intro v hv
    refine hb _ (keptF_end r1 v ?_)
    rcases e2 with rfl | ⟨_, r', rfl⟩
    · exact hv
    · exact List.mem_cons_of_mem _ hv
  refine ⟨stored, dropped, q1, fun hne => q2 (hm hne), q3, _, _, hr.symm, fun hne => ?_⟩
  have q5 := q4 c.pipe.cfg bound hend (hm hne)
  obtain ⟨L, l1, l2, l3, l4⟩ := C99_query_partial hu c.pipe.cfg hok.geo bound
  have l3 := l3 (reachF_dir hu (hm hne)) _ (fun (seen : List Val) v => (seen ++ [v], Cb.more)) []
  have hL : L = stored := by
    unfold queryList at q5
    rw [q5, visit_collect] at l3
    injection l3 with l3 _
    simpa using l3.symm
  rcases (l4 ⟨dir, file, unlink⟩ _ (fun (seen : List Val) v => (seen ++ [v], Cb.more)) []).1 with hx | ⟨L', p1, p2, hx⟩
  · refine .inl ?_
    unfold queryList at q5
    rw [q5] at hx
    exact ⟨congrArg Prod.fst hx, congrArg Prod.snd hx⟩
  · refine .inr ?_
    rw [visit_collect] at hx
    rw [← hL]
    refine ⟨?_, congrArg Prod.snd hx⟩
    have : (dbQueryF ⟨dir, file, unlink⟩ c.pipe.cfg bound (fun (seen : List Val) v => (seen ++ [v], Cb.more)) [] u).1.1 = L' := by rw [hx]; simp
    rw [this]
    exact p1

/-- **C118** (the latest value). `QueryLatest` gives the newest record that is written, or an error and nothing. -/
theorem C118_latest (h : ProcF.Reach c e (freshFs de hit) ops s) (hok : LifeOk c K (plainOps ops)) (hst : s.Step c e l s') {i : Nat} {m : Bytes} {dir : Option DirFault} {unlink : Bool} {r : DbRes} (hw : e.Whole m)
    (hlog : s'.sys.log = s.sys.log ++ [(i, m, ⟨.latest c.pipe.cfg, dir, unlink⟩, r)]) (hb : ∀ now ∈ dumpTimes (plainOps ops), now < 9223372036854775807) :
    ∃ recs, KeptOf c ops m recs ∧ ∃ done, (done = recs ∨ s.dumping = true ∧ ∃ r', recs = r' :: done) ∧
      ∀ newest older, done = newest :: older → r = .latest (some (valOf newest)) none ∨ r = .latest none (some .os) := by
  have inv := fltInv_reach (goodStart_fresh c e de hit) h hok
  have hst := stepF_log hst hlog
  obtain ⟨progs, base, acc, hs⟩ := inv.sys
  obtain ⟨recs, r1, r2, r3⟩ := hs.db m
  refine ⟨recs, ⟨r1, fun r hr => (C06_record_round_trip r (fits_small hok.geo r2 r hr)).1⟩, ?_⟩
  obtain ⟨done, e1, e2⟩ := inv.acked r3
  refine ⟨done, e2, ?_⟩
  intro newest older hd
  obtain ⟨_, hres, _⟩ := hs.result hok.handles hst hlog
  obtain ⟨file, hist, u, hu, hlim, hr⟩ := hres hw
  rw [← e1, hd, List.map_cons] at hu
  have hend : (valOf newest).stop < 9223372036854775807 := by
    refine hb _ (keptF_end r1 _ ?_)
    rcases e2 with rfl | ⟨_, r', rfl⟩
    · rw [hd]; exact List.mem_cons_self
    · rw [hd]; exact List.mem_cons_of_mem _ List.mem_cons_self
  have q5 := (latest_of_inv hu.inv c.pipe.cfg hok.geo).1 _ _ rfl hend
  obtain ⟨L, _, _, _, l4⟩ := C99_query_partial hu c.pipe.cfg hok.geo 0x7fffffffffffffff
  have hr : DbRes.latest (dbQueryF ⟨dir, file, unlink⟩ c.pipe.cfg 0x7fffffffffffffff (fun (_ : Option Val) v => (some v, Cb.stop)) none u).1.1
    (dbQueryF ⟨dir, file, unlink⟩ c.pipe.cfg 0x7fffffffffffffff (fun (_ : Option Val) v => (some v, Cb.stop)) none u).1.2 = r := hr
  rcases (l4 ⟨dir, file, unlink⟩ _ (fun (_ : Option Val) v => (some v, Cb.stop)) none).1 with hx | ⟨L', p1, p2, hx⟩
  · refine .inl ?_
    rw [← hr, hx]
    have q5 : (dbQuery c.pipe.cfg 0x7fffffffffffffff (fun (_ : Option Val) v => (some v, Cb.stop)) none u).1 = _ := q5
    rw [q5]
  · refine .inr ?_
    cases L' with
    | nil => rw [← hr, hx]; rfl
    | cons a L' => cases p2

/-- **C118** (no panic). Whatever system calls fail, a call that is under way in the process is finished or can go on, whatever the next system call reports. -/
theorem C118_goes_on (h : ProcF.Reach c e (freshFs de hit) ops s) (hok : LifeOk c K (plainOps ops)) (i : Nat) (m : Bytes) (o : FltCall) (rest : List (Bytes × FltCall)) (p : FsProg DbRes)
    (hb : s.sys.cl[i]? = some ⟨(m, o) :: rest, .busy p⟩) (flt : Option FileFault) : (∃ r, p = .done r) ∨ ∃ p' g, p.execF flt (dbPath c.dir) m s.sys.g = some (p', g) := by
  obtain ⟨progs, base, acc, hs⟩ := (fltInv_reach (goodStart_fresh c e de hit) h hok).sys
  exact C112_never_stuck hok.handles hs.reach i m o rest p hb flt

end

end Rothko
