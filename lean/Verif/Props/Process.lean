import Verif.Lemmas.Process
import Verif.Props.Pipe
/-!
# C97: what is observed is what is stored, whatever the schedule
-/
namespace Rothko

/-! ## Lists -/

theorem filterMap_at {α β : Type} (f : α → Option β) : ∀ (l : List α) (i : Nat) (a : α), l[i]? = some a → (l.filterMap f).Perm ((f a).toList ++ (l.eraseIdx i).filterMap f) := by
  intro l
  induction l with
  | nil => intro i a h; cases h
  | cons x l ih =>
    intro i a h
    cases i with
    | zero =>
      injection h with h
      subst h
      rw [List.filterMap_cons, List.eraseIdx_cons_zero]
      cases f x <;> exact List.Perm.refl _
    | succ i =>
      have h : l[i]? = some a := h
      have := ih i a h
      rw [List.filterMap_cons, List.eraseIdx_cons_succ, List.filterMap_cons]
      cases hx : f x with
      | none => exact this
      | some y =>
        dsimp only
        refine (this.cons y).trans ?_
        exact List.perm_middle.symm

theorem filterMap_set {α β : Type} (f : α → Option β) (l : List α) (i : Nat) (a b : α) (h : l[i]? = some a) : ((l.set i b).filterMap f).Perm ((f b).toList ++ (l.eraseIdx i).filterMap f) := by
  have hl := (List.getElem?_eq_some_iff.mp h).1
  have h1 : (l.set i b)[i]? = some b := List.getElem?_set_self hl
  have := filterMap_at f _ i b h1
  have e : (l.set i b).eraseIdx i = l.eraseIdx i := by
    clear h h1 this
    induction l generalizing i with
    | nil => rfl
    | cons x l ih =>
      cases i with
      | zero => rfl
      | succ i =>
        show x :: (l.set i b).eraseIdx i = x :: l.eraseIdx i
        rw [ih i (by simpa using hl)]
  rwa [e] at this

/-- The values given for a metric. -/
def forMetric (m : Bytes) (l : List (Bytes × Val)) : List Val := (l.filter (fun x => x.1 == m)).map (·.2)

theorem forMetric_short {m : Bytes} {l : List (Bytes × Val)} (h : (l.map (·.1)).Nodup) : (forMetric m l).length ≤ 1 := by
  induction l with
  | nil => exact Nat.zero_le _
  | cons x l ih =>
    have hn := List.nodup_cons.mp h
    unfold forMetric at ih ⊢
    rw [List.filter_cons]
    by_cases hx : x.1 == m
    · rw [if_pos hx]
      have : l.filter (fun x => x.1 == m) = [] := by
        rw [List.filter_eq_nil_iff]
        intro y hy e
        apply hn.1
        rw [List.mem_map]
        refine ⟨y, hy, ?_⟩
        have e1 : y.1 = m := by simpa using e
        have e2 : x.1 = m := by simpa using hx
        exact e1.trans e2.symm
      rw [this]
      exact Nat.le_refl _
    · rw [if_neg hx]
      exact ih hn.2

theorem forMetric_perm {m : Bytes} {l k : List (Bytes × Val)} (hp : l.Perm k) (h : (l.map (·.1)).Nodup) : forMetric m l = forMetric m k := by
  have h1 := forMetric_short (m := m) h
  have h2 : (forMetric m l).Perm (forMetric m k) := (hp.filter _).map _
  generalize forMetric m l = a at h1 h2
  match a, h1 with
  | [], _ => rw [List.nil_perm.mp h2]
  | [x], _ => rw [List.singleton_perm.mp h2]
  | _ :: _ :: _, h1 => simp at h1

/-! ## What is on its way -/

/-- The value a worker is about to write. -/
def Hand.item : Hand → Option (Bytes × Val)
  | .busy m v => some (m, v)
  | _ => none

/-- The worker owes an answer. -/
def Hand.owes : Hand → Bool
  | .free => false
  | _ => true

/-- The values that were captured, will be written and were not yet. -/
def Proc.coming (s : Proc) : List (Bytes × Val) := (s.todo ++ s.queue).filter (fun x => s.taken x.1) ++ s.hands.filterMap Hand.item

/-- What the goroutine of a worker does. -/
def HandOk (cfg : Cfg) (cl : List (Client DbCall (FsProg DbRes))) (i : Nat) : Hand → Prop
  | .busy m v => ∃ w, cl[i]? = some ⟨[(m, .write cfg v)], w⟩
  | _ => cl[i]? = some ⟨[], .out⟩

/-- The calls of the present process and its files, and the values in them. -/
structure SysInv (c : ProcCfg) (t : PSpec) (s : Proc) (progs : List (List (Bytes × DbCall))) (base : Bytes → Store) (acc : Bytes → List Val) : Prop where
  reach : FsSys.Reach dbCalls (dbPath c.dir) c.handles progs base s.sys
  ok : ∀ p ∈ progs, ∀ x ∈ p, x.2.Ok ∧ x.2.Uses c.pipe.cfg
  after : ∀ m, AfterCfg c.pipe.cfg (base m) (acc m)
  db : ∀ m, ∃ recs : List DRec, EachOf (Right c.pipe.d m) recs (t.kept m) ∧ (∀ r ∈ recs, needs c.pipe.cfg.size r.encode.length < c.pipe.cfg.cap) ∧
    recs.map valOf = forMetric m s.coming ++ (ackd (s.sys.finished m)).reverse ++ acc m

structure ProcInv (c : ProcCfg) (K : Nat) (t : PSpec) (s : Proc) : Prop where
  w : WInv c.pipe.d t.w s.w
  ids : ∀ e ∈ t.w.pend, e.2.id.length ≤ K
  sorted : ∀ m, (t.kept m).Pairwise (fun a b => b.stop < a.stop)
  len : s.hands.length = c.workers
  wg : s.wg = s.queue.length + s.hands.countP Hand.owes
  rest : s.dumping = false → s.todo = [] ∧ s.wg = 0
  hand : ∀ i h, s.hands[i]? = some h → HandOk c.pipe.cfg s.sys.cl i h
  reader : ∀ (i : Nat) (x : Client DbCall (FsProg DbRes)), c.workers ≤ i → s.sys.cl[i]? = some x → ∀ y ∈ x.todo, y.2.Reads c.pipe.cfg
  once : (s.coming.map (·.1)).Nodup
  sys : ∃ progs base acc, SysInv c t s progs base acc

/-- A step of a call: either none has finished, or one has. -/
theorem step_shape {path : Bytes → Int → Bytes} {s s' : FsSys DbCall DbRes} (h : s.Step dbCalls path s') :
    (s'.log = s.log ∧ ∀ (i : Nat) (x : Client DbCall (FsProg DbRes)), s.cl[i]? = some x → ∃ w, s'.cl[i]? = some ⟨x.todo, w⟩ ∧ (x.todo = [] → w = x.work)) ∨
    ∃ (i : Nat) (m : Bytes) (o : DbCall) (rest : List (Bytes × DbCall)) (r : DbRes) (q : LPool), s.cl[i]? = some ⟨(m, o) :: rest, .busy (.done r)⟩ ∧
      s' = { s with pool := q, cl := s.cl.set i ⟨rest, .out⟩, log := s.log ++ [(i, m, o, r)] } := by
  have key : ∀ (cl : List (Client DbCall (FsProg DbRes))) (j : Nat) (m : Bytes) (o : DbCall) (rest : List (Bytes × DbCall)) (a b : Work (FsProg DbRes)), cl[j]? = some ⟨(m, o) :: rest, a⟩ →
      ∀ (i : Nat) (x : Client DbCall (FsProg DbRes)), cl[i]? = some x → ∃ w, (cl.set j ⟨(m, o) :: rest, b⟩)[i]? = some ⟨x.todo, w⟩ ∧ (x.todo = [] → w = x.work) := by
    intro cl j m o rest a b h i x hx
    by_cases e : j = i
    · subst e
      rw [h] at hx
      injection hx with hx
      subst hx
      have hl := (List.getElem?_eq_some_iff.mp h).1
      exact ⟨b, List.getElem?_set_self hl, fun h => by cases h⟩
    · exact ⟨x.work, by rw [List.getElem?_set_ne e]; exact hx, fun _ => rfl⟩
  cases h with
  | mkdir m => exact Or.inl ⟨rfl, fun i x h => ⟨x.work, h, fun _ => rfl⟩⟩
  | close r w hw => exact Or.inl ⟨rfl, fun i x h => ⟨x.work, h, fun _ => rfl⟩⟩
  | call j m o rest h1 h2 => exact Or.inl ⟨rfl, fun i x h => ⟨x.work, h, fun _ => rfl⟩⟩
  | done j a h1 h2 => exact Or.inl ⟨rfl, fun i x h => ⟨x.work, h, fun _ => rfl⟩⟩
  | enter j m o rest a h1 h2 h3 => exact Or.inl ⟨rfl, key _ j m o rest _ _ h3⟩
  | first j m o rest h1 => exact Or.inl ⟨rfl, key _ j m o rest _ _ h1⟩
  | work j m o rest p p' g h1 h2 => exact Or.inl ⟨rfl, key _ j m o rest _ _ h1⟩
  | finish j m o rest r a a' p h1 h2 h3 => exact Or.inr ⟨j, m, o, rest, r, _, h1, rfl⟩

/-- What is coming for the metrics is the same, and nothing was acknowledged. -/
theorem ProcInv.same {c : ProcCfg} {K : Nat} {t : PSpec} {s : Proc} (h : ProcInv c K t s) (s' : Proc) (hw : s'.w = s.w) (hlen : s'.hands.length = s.hands.length)
    (hwg : s'.wg = s'.queue.length + s'.hands.countP Hand.owes) (hrest : s'.dumping = false → s'.todo = [] ∧ s'.wg = 0)
    (hhand : ∀ i h, s'.hands[i]? = some h → HandOk c.pipe.cfg s'.sys.cl i h)
    (hread : ∀ (i : Nat) (x : Client DbCall (FsProg DbRes)), c.workers ≤ i → s'.sys.cl[i]? = some x → ∀ y ∈ x.todo, y.2.Reads c.pipe.cfg)
    (hperm : s.coming.Perm s'.coming) (hfin : ∀ m, ackd (s'.sys.finished m) = ackd (s.sys.finished m))
    (hsys : ∀ progs base acc, SysInv c t s progs base acc → ∃ progs', FsSys.Reach dbCalls (dbPath c.dir) c.handles progs' base s'.sys ∧ ∀ p ∈ progs', ∀ x ∈ p, x.2.Ok ∧ x.2.Uses c.pipe.cfg) :
    ProcInv c K t s' := by
  refine ⟨by rw [hw]; exact h.w, h.ids, h.sorted, hlen.trans h.len, hwg, hrest, hhand, hread, (hperm.map _).nodup_iff.mp h.once, ?_⟩
  obtain ⟨progs, base, acc, hs⟩ := h.sys
  obtain ⟨progs', h1, h2⟩ := hsys progs base acc hs
  refine ⟨progs', base, acc, h1, h2, hs.after, fun m => ?_⟩
  obtain ⟨recs, r1, r2, r3⟩ := hs.db m
  refine ⟨recs, r1, r2, ?_⟩
  rw [r3, forMetric_perm hperm h.once, hfin m]

/-- A value that is coming leaves a slot free. -/
theorem ProcInv.coming_fits {c : ProcCfg} {K : Nat} {t : PSpec} {s : Proc} (h : ProcInv c K t s) (x : Bytes × Val) (hx : x ∈ s.coming) : needs c.pipe.cfg.size x.2.data.length < c.pipe.cfg.cap := by
  obtain ⟨progs, base, acc, hs⟩ := h.sys
  obtain ⟨recs, _, r2, r3⟩ := hs.db x.1
  have : x.2 ∈ recs.map valOf := by
    rw [r3]
    refine List.mem_append_left _ (List.mem_append_left _ ?_)
    exact List.mem_map.mpr ⟨x, List.mem_filter.mpr ⟨hx, by simp⟩, rfl⟩
  obtain ⟨r, hr, e⟩ := List.mem_map.mp this
  rw [← e]
  exact r2 r hr

theorem modify_ok {c : ProcCfg} {progs : List (List (Bytes × DbCall))} (h : ∀ p ∈ progs, ∀ x ∈ p, x.2.Ok ∧ x.2.Uses c.pipe.cfg) (i : Nat) (y : Bytes × DbCall) (hy : y.2.Ok ∧ y.2.Uses c.pipe.cfg) :
    ∀ p ∈ progs.modify i (fun p => p ++ [y]), ∀ x ∈ p, x.2.Ok ∧ x.2.Uses c.pipe.cfg := by
  intro p hp x hx
  obtain ⟨k, hk⟩ := List.mem_iff_getElem?.mp hp
  rw [List.getElem?_modify] at hk
  cases hq : progs[k]? with
  | none => rw [hq] at hk; cases hk
  | some q =>
    rw [hq] at hk
    have hq := List.mem_of_getElem? hq
    by_cases e : i = k
    · simp only [e, if_true, Option.map_eq_map, Option.map_some, Option.some.injEq] at hk
      rw [← hk] at hx
      rcases List.mem_append.mp hx with hx | hx
      · exact h q hq x hx
      · rw [List.mem_singleton.mp hx]; exact hy
    · simp only [e, if_false, Option.map_eq_map, Option.map_some, Option.some.injEq] at hk
      rw [← hk] at hx
      exact h q hq x hx

theorem more_set {s : FsSys DbCall DbRes} {i : Nat} {y : Bytes × DbCall} (h : s.cl[i]? = some ⟨[], .out⟩) : s.more i y = { s with cl := s.cl.set i ⟨[y], .out⟩ } := by
  unfold FsSys.more
  congr 1
  apply List.ext_getElem?
  intro k
  rw [List.getElem?_modify, List.getElem?_set]
  by_cases e : i = k
  · subst e
    have hl := (List.getElem?_eq_some_iff.mp h).1
    rw [h]
    simp [hl]
  · simp [e]

section
variable {c : ProcCfg} {K : Nat} {t : PSpec} {s : Proc}

theorem ProcInv.offer (h : ProcInv c K t s) {x : Bytes × Val} {rest : List (Bytes × Val)} (ht : s.todo = x :: rest) : ProcInv c K t { s with todo := rest, queue := s.queue ++ [x], wg := s.wg + 1 } := by
  refine h.same _ rfl rfl ?_ ?_ h.hand h.reader ?_ (fun _ => rfl) (fun progs base acc hs => ⟨progs, hs.reach, hs.ok⟩)
  · show s.wg + 1 = (s.queue ++ [x]).length + _
    rw [h.wg, List.length_append]
    simp only [List.length_singleton]
    omega
  · intro hd
    have := (h.rest hd).1
    rw [ht] at this
    cases this
  · unfold Proc.coming
    dsimp only
    refine List.Perm.append_right _ (List.Perm.filter _ ?_)
    rw [ht, ← List.append_assoc]
    exact (List.perm_append_comm (l₁ := [x]))

theorem ProcInv.refuse (h : ProcInv c K t s) {x : Bytes × Val} {rest : List (Bytes × Val)} (ht : s.todo = x :: rest) (hx : s.taken x.1 = false) : ProcInv c K t { s with todo := rest } := by
  refine h.same _ rfl rfl h.wg ?_ h.hand h.reader ?_ (fun _ => rfl) (fun progs base acc hs => ⟨progs, hs.reach, hs.ok⟩)
  · intro hd
    have := (h.rest hd).1
    rw [ht] at this
    cases this
  · unfold Proc.coming
    dsimp only
    rw [ht, List.cons_append, List.filter_cons, if_neg (by rw [hx]; decide)]

theorem ProcInv.drain (h : ProcInv c K t s) {x : Bytes × Val} {rest : List (Bytes × Val)} (ht : s.queue = x :: rest) (hx : s.taken x.1 = false) : ProcInv c K t { s with queue := rest, wg := s.wg - 1 } := by
  have hwg := h.wg
  rw [ht, List.length_cons] at hwg
  refine h.same _ rfl rfl ?_ ?_ h.hand h.reader ?_ (fun _ => rfl) (fun progs base acc hs => ⟨progs, hs.reach, hs.ok⟩)
  · show s.wg - 1 = rest.length + s.hands.countP Hand.owes
    omega
  · intro hd
    have := (h.rest hd).2
    omega
  · unfold Proc.coming
    dsimp only
    rw [ht, List.filter_append, List.filter_append, List.filter_cons, if_neg (by rw [hx]; decide)]

theorem hands_ne {l : List Hand} {i j : Nat} {a b : Hand} (h : (l.set i b)[j]? = some a) : (j = i ∧ a = b) ∨ (j ≠ i ∧ l[j]? = some a) := by
  by_cases e : i = j
  · subst e
    rw [List.getElem?_set] at h
    simp only [if_true] at h
    split at h
    · injection h with h; exact Or.inl ⟨rfl, h.symm⟩
    · cases h
  · rw [List.getElem?_set_ne e] at h
    exact Or.inr ⟨fun e' => e e'.symm, h⟩

/-- What a worker does is not changed by another goroutine. -/
theorem handOk_ne {cfg : Cfg} {cl : List (Client DbCall (FsProg DbRes))} {i j : Nat} {x : Client DbCall (FsProg DbRes)} {a : Hand} (hij : j ≠ i) (h : HandOk cfg cl j a) : HandOk cfg (cl.set i x) j a := by
  have e : (cl.set i x)[j]? = cl[j]? := List.getElem?_set_ne (fun e => hij e.symm)
  cases a with
  | busy m v =>
    obtain ⟨w, h⟩ := h
    exact ⟨w, by rw [e]; exact h⟩
  | free =>
    show (cl.set i x)[j]? = _
    rw [e]; exact h
  | wrote =>
    show (cl.set i x)[j]? = _
    rw [e]; exact h

theorem hand_lt (h : ProcInv c K t s) {i : Nat} {a : Hand} (hi : s.hands[i]? = some a) : i < c.workers := by
  have := (List.getElem?_eq_some_iff.mp hi).1
  rw [h.len] at this
  exact this

theorem ProcInv.recv (h : ProcInv c K t s) (hg : GeoOk c.pipe.cfg.size c.pipe.cfg.cap) {i : Nat} {x : Bytes × Val} {rest : List (Bytes × Val)} (hi : s.hands[i]? = some .free) (hq : s.queue = x :: rest) (hx : s.taken x.1 = true) :
    ProcInv c K t { s with queue := rest, hands := s.hands.set i (.busy x.1 x.2), sys := { s.sys with cl := s.sys.cl.set i ⟨[(x.1, .write c.pipe.cfg x.2)], .out⟩ } } := by
  have hwg := h.wg
  rw [hq, List.length_cons] at hwg
  have hcl : s.sys.cl[i]? = some ⟨[], .out⟩ := h.hand i _ hi
  have hfit : needs c.pipe.cfg.size x.2.data.length < c.pipe.cfg.cap := h.coming_fits x (by
    unfold Proc.coming
    refine List.mem_append_left _ (List.mem_filter.mpr ⟨List.mem_append_right _ ?_, hx⟩)
    rw [hq]
    exact List.mem_cons_self)
  refine h.same _ rfl (by simp) ?_ ?_ ?_ ?_ ?_ (fun _ => rfl) ?_
  · show s.wg = rest.length + (s.hands.set i (.busy x.1 x.2)).countP Hand.owes
    have := countP_set_of (p := Hand.owes) (Hand.busy x.1 x.2) hi
    simp only [Hand.owes, Bool.false_eq_true, if_false, if_true] at this
    omega
  · intro hd
    have := (h.rest hd).2
    omega
  · intro j a ha
    rcases hands_ne ha with ⟨rfl, rfl⟩ | ⟨hij, ha⟩
    · refine ⟨.out, ?_⟩
      exact List.getElem?_set_self (List.getElem?_eq_some_iff.mp hcl).1
    · exact handOk_ne hij (h.hand j a ha)
  · intro j y hj hy
    rcases client_set_cases hy with ⟨rfl, _⟩ | ⟨_, hy⟩
    · have := hand_lt h hi
      omega
    · exact h.reader j y hj hy
  · unfold Proc.coming
    dsimp only
    have p1 := filterMap_at Hand.item _ i _ hi
    have p2 := filterMap_set Hand.item _ i _ (.busy x.1 x.2) hi
    have e1 : (Hand.item Hand.free).toList = [] := rfl
    have e2 : (Hand.item (Hand.busy x.1 x.2)).toList = [x] := rfl
    rw [e1, List.nil_append] at p1
    rw [e2] at p2
    rw [hq, List.filter_append, List.filter_append, List.filter_cons, if_pos hx]
    refine (List.Perm.append_left _ p1).trans (List.Perm.trans ?_ (List.Perm.append_left _ p2.symm))
    rw [List.append_assoc, List.append_assoc]
    refine List.Perm.append_left _ ?_
    rw [List.cons_append]
    exact List.perm_middle.symm
  · intro progs base acc hs
    refine ⟨progs.modify i (fun p => p ++ [(x.1, .write c.pipe.cfg x.2)]), ?_, modify_ok hs.ok i (x.1, .write c.pipe.cfg x.2) (show (DbCall.write c.pipe.cfg x.2).Ok ∧ _ from ⟨⟨hg, Nat.le_of_lt hfit⟩, rfl⟩)⟩
    have := reach_more hs.reach i (x.1, .write c.pipe.cfg x.2)
    rw [more_set hcl] at this
    exact this

theorem ProcInv.ask (h : ProcInv c K t s) (hg : GeoOk c.pipe.cfg.size c.pipe.cfg.cap) {i : Nat} {m : Bytes} {o : DbCall} (hi : c.workers ≤ i) (hcl : s.sys.cl[i]? = some ⟨[], .out⟩) (ho : o.Reads c.pipe.cfg) :
    ProcInv c K t { s with sys := { s.sys with cl := s.sys.cl.set i ⟨[(m, o)], .out⟩ } } := by
  refine h.same _ rfl rfl h.wg h.rest ?_ ?_ (List.Perm.refl _) (fun _ => rfl) ?_
  · intro j a ha
    have := hand_lt h ha
    exact handOk_ne (by omega) (h.hand j a ha)
  · intro j y hj hy
    rcases client_set_cases hy with ⟨rfl, rfl⟩ | ⟨_, hy⟩
    · intro z hz
      rw [List.mem_singleton.mp hz]
      exact ho
    · exact h.reader j y hj hy
  · intro progs base acc hs
    refine ⟨progs.modify i (fun p => p ++ [(m, o)]), ?_, modify_ok hs.ok i _ ?_⟩
    · have := reach_more hs.reach i (m, o)
      rw [more_set hcl] at this
      exact this
    · cases o with
      | write cfg v => cases ho
      | query cfg b cb => cases ho; exact ⟨hg, rfl⟩
      | latest cfg => cases ho; exact ⟨hg, rfl⟩

/-- A goroutine with nothing to do or a given call keeps it while no call finishes. -/
theorem handOk_step {cfg : Cfg} {cl cl' : List (Client DbCall (FsProg DbRes))} (h : ∀ (i : Nat) (x : Client DbCall (FsProg DbRes)), cl[i]? = some x → ∃ w, cl'[i]? = some ⟨x.todo, w⟩ ∧ (x.todo = [] → w = x.work))
    {i : Nat} {a : Hand} (ha : HandOk cfg cl i a) : HandOk cfg cl' i a := by
  cases a with
  | busy m v =>
    obtain ⟨w, ha⟩ := ha
    obtain ⟨w', h1, _⟩ := h i _ ha
    exact ⟨w', h1⟩
  | free =>
    obtain ⟨w', h1, h2⟩ := h i _ ha
    rw [h2 rfl] at h1
    exact h1
  | wrote =>
    obtain ⟨w', h1, h2⟩ := h i _ ha
    rw [h2 rfl] at h1
    exact h1

theorem finished_snoc (s : FsSys DbCall DbRes) (q : LPool) (cl : List (Client DbCall (FsProg DbRes))) (i : Nat) (m : Bytes) (o : DbCall) (r : DbRes) (k : Bytes) :
    FsSys.finished { s with pool := q, cl, log := s.log ++ [(i, m, o, r)] } k = s.finished k ++ (if m = k then [(i, o, r)] else []) := by
  unfold FsSys.finished
  dsimp only
  rw [List.filter_append, List.map_append]
  by_cases e : m = k <;> simp [e]

theorem ProcInv.db (h : ProcInv c K t s) {sys : FsSys DbCall DbRes} (hst : s.sys.Step dbCalls (dbPath c.dir) sys) (hlog : ∀ e, sys.log = s.sys.log ++ [e] → c.workers ≤ e.1) : ProcInv c K t { s with sys } := by
  rcases step_shape hst with ⟨e1, e2⟩ | ⟨i, m, o, rest, r, q, e1, e2⟩
  · refine h.same _ rfl rfl h.wg h.rest (fun i a ha => handOk_step e2 (h.hand i a ha)) ?_ (List.Perm.refl _) ?_ ?_
    · intro j y hj hy
      have hl : j < s.sys.cl.length := by
        have : s.sys.cl.length = sys.cl.length := by cases hst <;> simp
        rw [this]
        exact (List.getElem?_eq_some_iff.mp hy).1
      have hx := List.getElem?_eq_getElem hl
      obtain ⟨w, h1, _⟩ := e2 j _ hx
      have hy : sys.cl[j]? = some y := hy
      rw [h1] at hy
      injection hy with hy
      rw [← hy]
      exact fun z hz => h.reader j s.sys.cl[j] hj hx z hz
    · intro m
      unfold FsSys.finished
      dsimp only
      rw [e1]
    · intro progs base acc hs
      exact ⟨progs, .step hs.reach hst, hs.ok⟩
  · have hw : c.workers ≤ i := hlog (i, m, o, r) (by rw [e2])
    have hread := h.reader i _ hw e1
    refine h.same _ rfl rfl h.wg h.rest ?_ ?_ (List.Perm.refl _) ?_ ?_
    · intro j a ha
      have := hand_lt h ha
      rw [e2]
      exact handOk_ne (by omega) (h.hand j a ha)
    · intro j y hj hy
      rw [e2] at hy
      rcases client_set_cases hy with ⟨rfl, rfl⟩ | ⟨_, hy⟩
      · intro z hz
        exact hread z (List.mem_cons_of_mem _ hz)
      · exact h.reader j y hj hy
    · intro k
      dsimp only
      rw [e2, finished_snoc]
      split
      · rw [ackd_append]
        have := hread (m, o) List.mem_cons_self
        cases o with
        | write cfg v => cases this
        | query => simp [ackd]
        | latest => simp [ackd]
      · rw [List.append_nil]
    · intro progs base acc hs
      exact ⟨progs, .step hs.reach hst, hs.ok⟩

/-- The newest record is later than the others. -/
theorem recs_later {d : DistParams} {m : Bytes} {recs : List DRec} {kept : List Batch} (h : EachOf (Right d m) recs kept) (hs : kept.Pairwise (fun a b => b.stop < a.stop)) {v : Val} {l : List Val} (e : recs.map valOf = v :: l) :
    ∀ w ∈ l, w.stop < v.stop := by
  cases h with
  | nil => cases e
  | @cons a b rs ks h1 h2 =>
    have e : valOf a :: rs.map valOf = v :: l := e
    injection e with e1 e2
    subst e1 e2
    intro w hw
    obtain ⟨r, hr, rfl⟩ := List.mem_map.mp hw
    obtain ⟨b', hb, hrb⟩ := eachOf_left h2 r hr
    show r.endTime < a.endTime
    rw [hrb.stop, h1.stop]
    exact (List.pairwise_cons.mp hs).1 b' hb

theorem ProcInv.wrote (h : ProcInv c K t s) (hn : c.handles < 2 ^ 63) (hg : GeoOk c.pipe.cfg.size c.pipe.cfg.cap) {i : Nat} {sys : FsSys DbCall DbRes} {e : Bytes × DbCall × DbRes} {m : Bytes} {v : Val}
    (hst : s.sys.Step dbCalls (dbPath c.dir) sys) (hlog : sys.log = s.sys.log ++ [(i, e)]) (hi : s.hands[i]? = some (.busy m v)) : ProcInv c K t { s with sys, hands := s.hands.set i .wrote } ∧ e = (m, .write c.pipe.cfg v, .write .written) := by
  rcases step_shape hst with ⟨e1, _⟩ | ⟨j, m', o, rest, r, q, e1, e2⟩
  · rw [e1] at hlog
    have := congrArg List.length hlog
    simp at this
  have hlog2 : s.sys.log ++ [(j, m', o, r)] = s.sys.log ++ [(i, e)] := by rw [← hlog, e2]
  have hlog3 := List.append_cancel_left hlog2
  injection hlog3 with hlog3 _
  injection hlog3 with hj he
  subst hj
  obtain ⟨w, hw⟩ := h.hand j _ hi
  rw [e1] at hw
  injection hw with hw
  injection hw with hw _
  injection hw with hw hr
  injection hw with hm ho
  subst hm ho hr
  have hperm : s.coming.Perm ((m', v) :: Proc.coming { s with sys, hands := s.hands.set j .wrote }) := by
    unfold Proc.coming
    dsimp only
    have p1 := filterMap_at Hand.item _ j _ hi
    have p2 := filterMap_set Hand.item _ j _ .wrote hi
    have q1 : (Hand.item Hand.wrote).toList = [] := rfl
    have q2 : (Hand.item (Hand.busy m' v)).toList = [(m', v)] := rfl
    rw [q1, List.nil_append] at p2
    rw [q2] at p1
    refine (List.Perm.append_left _ p1).trans ?_
    refine List.Perm.trans ?_ ((List.Perm.append_left _ p2.symm).cons _)
    exact List.perm_middle
  have honce := (hperm.map (·.1)).nodup_iff.mp h.once
  obtain ⟨progs, base, acc, hs⟩ := h.sys
  have hreach : FsSys.Reach dbCalls (dbPath c.dir) c.handles progs base sys := .step hs.reach hst
  have hfin : ∀ k, sys.finished k = s.sys.finished k ++ (if m' = k then [(j, .write c.pipe.cfg v, r)] else []) := fun k => by rw [e2, finished_snoc]
  have hshort := forMetric_short (m := m') honce
  have hcons : forMetric m' ((m', v) :: Proc.coming { s with sys, hands := s.hands.set j .wrote }) = v :: forMetric m' (Proc.coming { s with sys, hands := s.hands.set j .wrote }) := by
    unfold forMetric
    rw [List.filter_cons, if_pos (by simp)]
    rfl
  have hnil : forMetric m' (Proc.coming { s with sys, hands := s.hands.set j .wrote }) = [] := by
    apply List.eq_nil_of_length_eq_zero
    rw [hcons, List.length_cons] at hshort
    omega
  have hr : r = .write .written := by
    obtain ⟨recs, r1, r2, r3⟩ := hs.db m'
    rw [forMetric_perm hperm h.once, hcons, hnil] at r3
    have r3 : recs.map valOf = v :: ((ackd (s.sys.finished m')).reverse ++ acc m') := r3
    have hq : sys.quiet m' := by rw [e2]; exact finish_quiet hn hs.reach e1
    have hfin := hfin m'
    rw [if_pos rfl] at hfin
    obtain ⟨t', t1, t2⟩ := result_cfg c.pipe.cfg hn hreach hs.ok m' (acc m') (hs.after m') hq _ j _ r hfin
    have hfit : needs c.pipe.cfg.size v.data.length < c.pipe.cfg.cap := h.coming_fits (m', v) (hperm.mem_iff.mpr List.mem_cons_self)
    have hok := C20_one_config_partial t1 v hg (recs_later r1 (h.sorted m') r3) (.inl hfit)
    rw [← t2, ← hok]
    rfl
  refine ⟨?_, by rw [← he, hr]⟩
  refine ⟨h.w, h.ids, h.sorted, (by simpa using h.len), ?_, h.rest, ?_, ?_, (List.nodup_cons.mp honce).2, ?_⟩
  · show s.wg = s.queue.length + (s.hands.set j .wrote).countP Hand.owes
    have := countP_set_of (p := Hand.owes) Hand.wrote hi
    simp only [Hand.owes, if_true] at this
    have := h.wg
    omega
  · intro k a ha
    rw [e2]
    rcases hands_ne ha with ⟨rfl, rfl⟩ | ⟨hne, ha⟩
    · exact List.getElem?_set_self (List.getElem?_eq_some_iff.mp e1).1
    · exact handOk_ne hne (h.hand k a ha)
  · intro k y hk hy
    rw [e2] at hy
    rcases client_set_cases hy with ⟨rfl, _⟩ | ⟨_, hy⟩
    · have := hand_lt h hi
      omega
    · exact h.reader k y hk hy
  · refine ⟨progs, base, acc, hreach, hs.ok, hs.after, fun k => ?_⟩
    obtain ⟨recs, r1, r2, r3⟩ := hs.db k
    refine ⟨recs, r1, r2, ?_⟩
    rw [forMetric_perm hperm h.once] at r3
    have hfin := hfin k
    show recs.map valOf = _ ++ (ackd (sys.finished k)).reverse ++ acc k
    by_cases hk : m' = k
    · subst hk
      rw [if_pos rfl] at hfin
      rw [hcons, hnil] at r3
      rw [hnil]
      have r3 : recs.map valOf = v :: ((ackd (s.sys.finished m')).reverse ++ acc m') := r3
      rw [hfin, hr, ackd_append, r3]
      simp [ackd]
    · rw [if_neg hk, List.append_nil] at hfin
      rw [hfin, r3]
      unfold forMetric
      rw [List.filter_cons, if_neg (by simpa using hk)]

theorem ProcInv.answer (h : ProcInv c K t s) {i : Nat} (hi : s.hands[i]? = some .wrote) : ProcInv c K t { s with hands := s.hands.set i .free, wg := s.wg - 1 } := by
  have hc := countP_set_of (p := Hand.owes) Hand.free hi
  simp only [Hand.owes, if_true, Bool.false_eq_true, if_false] at hc
  have hwg := h.wg
  refine h.same _ rfl (by simp) ?_ ?_ ?_ h.reader ?_ (fun _ => rfl) (fun progs base acc hs => ⟨progs, hs.reach, hs.ok⟩)
  · show s.wg - 1 = s.queue.length + (s.hands.set i .free).countP Hand.owes
    omega
  · intro hd
    have := h.rest hd
    exact ⟨this.1, by show s.wg - 1 = 0; omega⟩
  · intro k a ha
    rcases hands_ne ha with ⟨rfl, rfl⟩ | ⟨hne, ha⟩
    · have hk : s.sys.cl[k]? = some ⟨[], .out⟩ := h.hand k _ hi
      exact hk
    · exact h.hand k a ha
  · unfold Proc.coming
    dsimp only
    refine List.Perm.append_left _ ?_
    have p1 := filterMap_at Hand.item _ i _ hi
    have p2 := filterMap_set Hand.item _ i _ .free hi
    have q1 : (Hand.item Hand.wrote).toList = [] := rfl
    have q2 : (Hand.item Hand.free).toList = [] := rfl
    rw [q1] at p1
    rw [q2] at p2
    exact p1.trans p2.symm

theorem ProcInv.wait (h : ProcInv c K t s) (ht : s.todo = []) (hw : s.wg = 0) : ProcInv c K t { s with dumping := false } :=
  h.same _ rfl rfl h.wg (fun _ => ⟨ht, hw⟩) h.hand h.reader (List.Perm.refl _) (fun _ => rfl) (fun progs _ _ hs => ⟨progs, hs.reach, hs.ok⟩)

/-- When the dump has finished, nothing is on its way. -/
theorem ProcInv.idle (h : ProcInv c K t s) (hd : s.dumping = false) : s.queue = [] ∧ s.coming = [] := by
  obtain ⟨h1, h2⟩ := h.rest hd
  have hwg := h.wg
  have hq : s.queue = [] := List.eq_nil_of_length_eq_zero (by omega)
  refine ⟨hq, ?_⟩
  unfold Proc.coming
  rw [h1, hq, List.append_nil, List.filter_nil, List.nil_append, List.filterMap_eq_nil_iff]
  intro a ha
  have : s.hands.countP Hand.owes = 0 := by omega
  have := List.countP_eq_zero.mp this a ha
  cases a with
  | busy m v => exact absurd rfl this
  | _ => rfl

theorem init_coming (c : ProcCfg) (fs : Bytes → Store) : (Proc.init c fs).coming = [] := by
  unfold Proc.coming Proc.init
  dsimp only
  rw [List.append_nil, List.filter_nil, List.nil_append, List.filterMap_eq_nil_iff]
  intro a ha
  rw [List.eq_of_mem_replicate ha]
  rfl

theorem procInv_init {fs : Bytes → Store} (hwc : c.workers ≤ c.clients) (hw : t.w = {}) (hsorted : ∀ m, (t.kept m).Pairwise (fun a b => b.stop < a.stop))
    (hdb : ∀ m, ∃ recs : List DRec, EachOf (Right c.pipe.d m) recs (t.kept m) ∧ (∀ r ∈ recs, needs c.pipe.cfg.size r.encode.length < c.pipe.cfg.cap) ∧ AfterCfg c.pipe.cfg (fs m) (recs.map valOf)) :
    ProcInv c K t (Proc.init c fs) := by
  have hget : ∀ (i : Nat) (x : Client DbCall (FsProg DbRes)), (Proc.init c fs).sys.cl[i]? = some x → x = ⟨[], .out⟩ := by
    intro i x hx
    have hx : ((List.replicate c.clients ([] : List (Bytes × DbCall))).map (fun p => (⟨p, .out⟩ : Client DbCall (FsProg DbRes))))[i]? = some x := hx
    rw [List.map_replicate] at hx
    exact List.eq_of_mem_replicate (List.mem_of_getElem? hx)
  refine ⟨by rw [hw]; exact winv_init _, fun e he => (by rw [hw] at he; cases he), hsorted, ?_, ?_, fun _ => ⟨rfl, rfl⟩, ?_, ?_, by rw [init_coming]; exact List.nodup_nil, ?_⟩
  · exact List.length_replicate
  · show 0 = 0 + (List.replicate c.workers Hand.free).countP Hand.owes
    rw [List.countP_replicate]
    rfl
  · intro i a ha
    have hl := (List.getElem?_eq_some_iff.mp ha).1
    have ha : (List.replicate c.workers Hand.free)[i]? = some a := ha
    have := List.eq_of_mem_replicate (List.mem_of_getElem? ha)
    subst this
    show ((List.replicate c.clients ([] : List (Bytes × DbCall))).map (fun p => (⟨p, .out⟩ : Client DbCall (FsProg DbRes))))[i]? = _
    have hl : i < (List.replicate c.workers Hand.free).length := hl
    rw [List.length_replicate] at hl
    rw [List.map_replicate, List.getElem?_replicate_of_lt (by omega)]
  · intro i x _ hx y hy
    rw [hget i x hx] at hy
    cases hy
  · refine ⟨List.replicate c.clients [], fs, fun m => (Classical.choose (hdb m)).map valOf, .init, ?_, fun m => (Classical.choose_spec (hdb m)).2.2, fun m => ?_⟩
    · intro p hp x hx
      rw [List.eq_of_mem_replicate hp] at hx
      cases hx
    · refine ⟨Classical.choose (hdb m), (Classical.choose_spec (hdb m)).1, (Classical.choose_spec (hdb m)).2.1, ?_⟩
      rw [init_coming]
      rfl

theorem ProcInv.restart (h : ProcInv c K t s) (hn : c.handles < 2 ^ 63) (hd : s.dumping = false) (hcl : ∀ x ∈ s.sys.cl, x = ⟨[], .out⟩) (hwc : c.workers ≤ c.clients) : ProcInv c K (t.step .restart) (Proc.init c s.sys.g.fs) := by
  refine procInv_init hwc rfl h.sorted fun m => ?_
  obtain ⟨progs, base, acc, hs⟩ := h.sys
  obtain ⟨recs, r1, r2, r3⟩ := hs.db m
  refine ⟨recs, r1, r2, ?_⟩
  rw [r3, (h.idle hd).2]
  refine history_cfg c.pipe.cfg hn hs.reach hs.ok m (acc m) (hs.after m) ?_
  intro i o rest p hc
  have := hcl _ (List.mem_of_getElem? hc)
  cases this

theorem ProcInv.add (h : ProcInv c K t s) (hd : c.pipe.d.newOk = true) (hlen : t.w.pend.length < 9223372036854775808) {m : Bytes} {ob : Obs} {now : Int64} (hop : (POp.add m ob now).Fair K) :
    ProcInv c K (t.step (.add m ob now)) { s with w := (WOp.add m ob now).run c.pipe.d s.w } := by
  refine ⟨h.w.step hd hlen (.add m ob now) trivial, ?_, h.sorted, h.len, h.wg, h.rest, h.hand, h.reader, h.once, ?_⟩
  · show ∀ e ∈ (t.w.step (.add m ob now)).pend, _
    unfold WSpec.step
    dsimp only
    split
    · intro e he
      rcases List.mem_append.mp he with he | he
      · exact h.ids e he
      · rw [List.mem_singleton.mp he]; exact hop
    · exact h.ids
  · obtain ⟨progs, base, acc, hs⟩ := h.sys
    exact ⟨progs, base, acc, hs.reach, hs.ok, hs.after, hs.db⟩

theorem forMetric_filter (g : List Captured) (taken : Bytes → Bool) (m : Bytes) (hn : (g.map (·.metric)).Nodup) :
    forMetric m ((g.map (fun c => (c.metric, valOf c.rec_))).filter (fun x => taken x.1)) = match (g.filter (fun c => taken c.metric)).find? (fun c => c.metric == m) with
      | some c => [valOf c.rec_]
      | none => [] := by
  induction g with
  | nil => rfl
  | cons c g ih =>
    have hn := List.nodup_cons.mp hn
    rw [List.map_cons, List.filter_cons, List.filter_cons]
    by_cases ht : taken c.metric = true
    · rw [if_pos ht, if_pos ht, List.find?_cons]
      by_cases e : c.metric == m
      · rw [e]
        unfold forMetric
        rw [List.filter_cons, if_pos e]
        have : ((g.map (fun c => (c.metric, valOf c.rec_))).filter (fun x => taken x.1)).filter (fun x => x.1 == m) = [] := by
          rw [List.filter_eq_nil_iff]
          intro x hx
          obtain ⟨c', hc', rfl⟩ := List.mem_map.mp (List.mem_filter.mp hx).1
          intro e'
          have e1 : c'.metric = m := by simpa using e'
          have e2 : c.metric = m := by simpa using e
          exact hn.1 (List.mem_map.mpr ⟨c', hc', e1.trans e2.symm⟩)
        rw [this]
        rfl
      · have e : (c.metric == m) = false := by simpa using e
        rw [e, ← ih hn.2]
        unfold forMetric
        rw [List.filter_cons, if_neg (by rw [e]; decide)]
    · rw [if_neg ht, if_neg ht]
      exact ih hn.2

theorem ProcInv.dump (h : ProcInv c K t s) (hd : c.pipe.d.newOk = true) (hfit : Fits c.pipe K) (hlen : t.w.pend.length < 9223372036854775808) {order : List (Bytes × Agg) → List (Bytes × Agg)} {now : Int64} {taken : Bytes → Bool}
    (hop : (POp.dump order now taken).Fair K) (htime : ∀ m, ∀ b ∈ t.kept m, b.stop < now) (hidle : s.dumping = false) :
    ProcInv c K (t.step (.dump order now taken)) { s with w := (WOp.capture order now).run c.pipe.d s.w, todo := capturedVals c.pipe.d s.w order now, taken, dumping := true } := by
  have hcap := h.w.step hd hlen (.capture order now) hop
  obtain ⟨hq, hcoming⟩ := h.idle hidle
  have hhands : s.hands.filterMap Hand.item = [] := (List.append_eq_nil_iff.mp hcoming).2
  have hnew : Proc.coming { s with w := (WOp.capture order now).run c.pipe.d s.w, todo := capturedVals c.pipe.d s.w order now, taken, dumping := true } = (capturedVals c.pipe.d s.w order now).filter (fun x => taken x.1) := by
    unfold Proc.coming
    dsimp only
    rw [hhands, hq, List.append_nil, List.append_nil]
  have hids : ∀ e ∈ (t.step (.dump order now taken)).w.pend, e.2.id.length ≤ K := by
    show ∀ e ∈ (t.w.step (.capture order now)).pend, e.2.id.length ≤ K
    unfold WSpec.step
    dsimp only
    split
    · exact h.ids
    · intro e he; cases he
  have hsorted : ∀ m, ((t.step (.dump order now taken)).kept m).Pairwise (fun a b => b.stop < a.stop) := by
    intro m
    show (match t.w.start with | none => _ | some t' => _ : List Batch).Pairwise _
    split
    · exact h.sorted m
    · split
      · exact List.pairwise_cons.mpr ⟨fun b hb => htime m b hb, h.sorted m⟩
      · exact h.sorted m
  obtain ⟨progs, base, acc, hs⟩ := h.sys
  cases hpg : s.w.page with
  | none =>
    have hst := h.w.isNone.mp hpg
    have ht : ∀ m, (t.step (.dump order now taken)).kept m = t.kept m := by
      intro m
      show (match t.w.start with | none => _ | some t' => _ : List Batch) = _
      rw [hst]
    have he : capturedVals c.pipe.d s.w order now = [] := by
      unfold capturedVals
      rw [hpg]
    rw [he] at hnew ⊢
    refine ⟨hcap, hids, hsorted, h.len, h.wg, fun hd => (by cases hd), h.hand, h.reader, by rw [hnew]; exact List.nodup_nil, progs, base, acc, hs.reach, hs.ok, hs.after, fun m => ?_⟩
    obtain ⟨recs, r1, r2, r3⟩ := hs.db m
    refine ⟨recs, by rw [ht]; exact r1, r2, ?_⟩
    rw [r3, hcoming, hnew]
    rfl
  | some p =>
    obtain ⟨hst, hok⟩ := h.w.page p hpg
    obtain ⟨_, hgr⟩ := hok.group c.pipe.d now order (hop _)
    have he : capturedVals c.pipe.d s.w order now = (captureLoop c.pipe.d now (order p.m)).1.map (fun c => (c.metric, valOf c.rec_)) := by
      unfold capturedVals
      rw [hpg]
    rw [he] at hnew ⊢
    generalize (captureLoop c.pipe.d now (order p.m)).1 = g at hgr hnew
    have honce : (((g.map (fun c => (c.metric, valOf c.rec_))).filter (fun x => taken x.1)).map (·.1)).Nodup := by
      refine (List.filter_sublist.map _).nodup ?_
      rw [List.map_map]
      exact hgr.once
    refine ⟨hcap, hids, hsorted, h.len, h.wg, fun hd => (by cases hd), h.hand, h.reader, by rw [hnew]; exact honce, progs, base, acc, hs.reach, hs.ok, hs.after, fun m => ?_⟩
    obtain ⟨recs, r1, r2, r3⟩ := hs.db m
    rw [hcoming] at r3
    have r3 : recs.map valOf = (ackd (s.sys.finished m)).reverse ++ acc m := r3
    have hk : (t.step (.dump order now taken)).kept m = if taken m && (t.w.pend.map (·.1)).contains m then ⟨p.now, now, t.w.pend⟩ :: t.kept m else t.kept m := by
      show (match t.w.start with | none => _ | some t' => _) = _
      rw [hst]
    rw [hk, hnew, forMetric_filter g taken m hgr.once]
    cases hf : (g.filter (fun c => taken c.metric)).find? (fun c => c.metric == m) with
    | none =>
      rw [if_neg]
      · exact ⟨recs, r1, r2, r3⟩
      · intro hcond
        rw [Bool.and_eq_true] at hcond
        obtain ⟨htk, hmem⟩ := hcond
        have hmem : m ∈ t.w.pend.map (·.1) := by simpa using hmem
        obtain ⟨c, hc, hcm⟩ := List.mem_map.mp ((hgr.metrics m).mpr hmem)
        have := (List.find?_eq_none.mp hf) c (List.mem_filter.mpr ⟨hc, by rw [hcm]; exact htk⟩)
        exact this (by simpa using hcm)
    | some x =>
      have hcm : x.metric = m := by simpa using List.find?_some hf
      obtain ⟨hc, htk⟩ := List.mem_filter.mp (List.mem_of_find?_eq_some hf)
      have hmem : m ∈ t.w.pend.map (·.1) := (hgr.metrics m).mp (List.mem_map.mpr ⟨x, hc, hcm⟩)
      rw [if_pos (by rw [Bool.and_eq_true]; exact ⟨by rw [← hcm]; exact htk, by simpa using hmem⟩)]
      have hrec := hgr.recs x hc
      have hid : ∀ y ∈ x.vals, y.id.length ≤ K := by
        intro y hy
        rw [hgr.vals x hc] at hy
        exact h.ids _ (obsOf_mem hy)
      refine ⟨x.rec_ :: recs, .cons ?_ r1, ?_, ?_⟩
      · rw [hgr.vals x hc, hcm] at hrec
        exact hrec
      · intro r hr
        rcases List.mem_cons.mp hr with rfl | hr
        · exact hfit _ _ _ _ hid hrec
        · exact r2 r hr
      · rw [List.map_cons, r3]
        rfl

end

/-! ## All schedules -/

theorem pend_le (ops : List POp) : ∀ t : PSpec, (ops.foldl PSpec.step t).w.pend.length ≤ t.w.pend.length + ops.length := by
  induction ops with
  | nil => intro t; exact Nat.le_refl _
  | cons op ops ih =>
    intro t
    have h1 := ih (t.step op)
    have : (t.step op).w.pend.length ≤ t.w.pend.length + 1 := by
      cases op with
      | add m ob now => exact WSpec.pend_length [.add m ob now] t.w
      | dump order now taken => exact WSpec.pend_length [.capture order now] t.w
      | query => exact Nat.le_succ _
      | restart => exact Nat.zero_le _
    rw [List.foldl_cons, List.length_cons]
    omega

/-- What is asked of the options and of what happens (as for C70). -/
structure ProcOk (c : ProcCfg) (K : Nat) (ops : List POp) : Prop where
  handles : c.handles < 9223372036854775808
  clients : c.workers ≤ c.clients
  dist : c.pipe.d.newOk = true
  geo : GeoOk c.pipe.cfg.size c.pipe.cfg.cap
  fits : Fits c.pipe K
  fair : ∀ op ∈ ops, op.Fair K
  short : ops.length < 9223372036854775808
  times : (dumpTimes ops).Pairwise (· < ·)

theorem ProcOk.left {c : ProcCfg} {K : Nat} {ops more : List POp} (h : ProcOk c K (ops ++ more)) : ProcOk c K ops := by
  refine ⟨h.handles, h.clients, h.dist, h.geo, h.fits, fun op ho => h.fair op (List.mem_append_left _ ho), ?_, ?_⟩
  · have := h.short
    rw [List.length_append] at this
    omega
  · have := h.times
    unfold dumpTimes at this ⊢
    rw [List.filterMap_append] at this
    exact (List.pairwise_append.mp this).1

theorem procInv_reach {c : ProcCfg} {K : Nat} {fs : Bytes → Store} (hfs : ∀ m, AfterCfg c.pipe.cfg (fs m) []) {ops : List POp} {s : Proc} (h : Proc.Reach c fs ops s) : ProcOk c K ops → ProcInv c K (ops.foldl PSpec.step {}) s := by
  induction h with
  | start => exact fun hok => procInv_init hok.clients rfl (fun _ => List.Pairwise.nil) (fun m => ⟨[], .nil, fun r hr => (by cases hr), hfs m⟩)
  | @step ops s s' l hr hst ih =>
    intro hok
    have inv := ih hok.left
    rw [List.foldl_append]
    have hlen : (ops.foldl PSpec.step {}).w.pend.length < 9223372036854775808 := by
      have := pend_le ops {}
      have := hok.left.short
      simp only [List.length_nil] at *
      omega
    cases hst with
    | add m ob now => exact inv.add hok.dist hlen (hok.fair _ (by simp))
    | dump order now taken hd =>
      refine inv.dump hok.dist hok.fits hlen (hok.fair _ (by simp)) ?_ hd
      intro m b hb
      have hin := kept_stops m ops {} [] (fun _ h => (by cases h)) b hb
      have := hok.times
      unfold dumpTimes at this hin
      rw [List.filterMap_append] at this
      exact (List.pairwise_append.mp this).2.2 b.stop (by simpa using hin) now (by simp)
    | offer x rest ht => exact inv.offer ht
    | refuse x rest ht hx => exact inv.refuse ht hx
    | drain x rest ht hx => exact inv.drain ht hx
    | recv i x rest hi hq hx => exact inv.recv hok.geo hi hq hx
    | ask i m o hi hcl ho => exact inv.ask hok.geo hi hcl ho
    | db sys h1 h2 => exact inv.db h1 h2
    | wrote i sys e m v h1 h2 h3 => exact (inv.wrote hok.handles hok.geo h1 h2 h3).1
    | answer i h1 h2 => exact inv.answer h1
    | wait h1 h2 h3 => exact inv.wait h2 h3
    | restart h1 h2 => exact inv.restart hok.handles h1 h2 hok.clients

/-- Nothing stored yet; the directories of some metrics may exist. -/
def freshFs (de : Bytes → Bool) (hit : Bytes → Nat → Bool) : Bytes → Store := fun m => Store.fresh (de m) (hit m)

theorem freshFs_after (cfg : Cfg) (de : Bytes → Bool) (hit : Bytes → Nat → Bool) (m : Bytes) : AfterCfg cfg (freshFs de hit m) [] :=
  ⟨_, ⟨rfl, rfl, rfl, rfl⟩, de m, hit m, [], fun o ho => (by cases ho), rfl⟩

/-! ## The theorems -/

/-- The records of the metric, newest first: one for each interval kept, with its times, that decodes to the exact count, minimum, maximum, ids and distribution of the metric's observations in it. -/
def RecordsOf (c : ProcCfg) (ops : List POp) (m : Bytes) (recs : List DRec) : Prop :=
  EachOf (fun r b => RecordOf c.pipe.d b.start b.stop (obsOf m b.obs) r) recs ((ops.foldl PSpec.step {}).kept m) ∧
  ∀ r ∈ recs, DRec.decode (valOf r).data = .ok { r with min := normZero r.min, max := normZero r.max }

theorem recs_end {c : ProcCfg} {ops : List POp} {m : Bytes} {recs : List DRec} (h1 : EachOf (Right c.pipe.d m) recs ((ops.foldl PSpec.step {}).kept m)) : ∀ v ∈ recs.map valOf, v.stop ∈ dumpTimes ops := by
  intro v hv
  obtain ⟨r, hr, rfl⟩ := List.mem_map.mp hv
  obtain ⟨b, hb, hrb⟩ := eachOf_left h1 r hr
  have := kept_stops m ops {} [] (fun _ h => (by cases h)) b hb
  show r.endTime ∈ _
  rw [hrb.stop]
  simpa using this

/-- What the acknowledged values are: all the records, or all but the newest one, while that is still to be written. -/
theorem ProcInv.acked {c : ProcCfg} {K : Nat} {t : PSpec} {s : Proc} (h : ProcInv c K t s) {acc : List Val} {recs : List DRec} {m : Bytes} (e : recs.map valOf = forMetric m s.coming ++ acc) :
    ∃ done : List DRec, done.map valOf = acc ∧ (done = recs ∨ s.dumping = true ∧ ∃ r, recs = r :: done) := by
  cases hd : s.dumping with
  | false =>
    rw [(h.idle hd).2] at e
    exact ⟨recs, e, .inl rfl⟩
  | true =>
    have := forMetric_short (m := m) h.once
    match hf : forMetric m s.coming, this with
    | [], _ => rw [hf] at e; exact ⟨recs, e, .inl rfl⟩
    | [v], _ =>
      rw [hf] at e
      cases recs with
      | nil => cases e
      | cons r recs =>
        injection e with _ e
        exact ⟨recs, e, .inr ⟨rfl, r, rfl⟩⟩
    | _ :: _ :: _, hl => simp at hl

/-- What a query of everything shows. -/
theorem shown_all {cfg : Cfg} {t : Store} {acc : List Val} (h : ReachCfg cfg t acc) (hg : GeoOk cfg.size cfg.cap) : ∃ stored dropped, acc = stored ++ dropped ∧ (acc ≠ [] → stored ≠ []) ∧ (cfg.max ≤ 0 → dropped = []) ∧
    ∀ bound : Int64, (∀ v ∈ acc, v.stop < bound) → (queryList cfg bound (fun _ _ => .more) t).1.1 = stored ∧ (acc ≠ [] → (queryList cfg bound (fun _ _ => .more) t).1.2 = none) := by
  obtain ⟨stored, dropped, ha, hne, hq⟩ := C13_acknowledged_stored h.reach
  by_cases hb : ∃ bound : Int64, ∀ v ∈ acc, v.stop < bound
  · obtain ⟨bound, hb⟩ := hb
    refine ⟨stored, dropped, ha, hne, fun hmax => ?_, fun bound hb => hq cfg bound hg hb⟩
    have hall := (C18_retention h.reachMax).2 hmax cfg bound hg hb
    rw [(hq cfg bound hg hb).1] at hall
    rw [ha] at hall
    exact List.self_eq_append_right.mp hall
  · exact ⟨acc, [], by simp, fun h => h, fun _ => rfl, fun bound h => absurd ⟨bound, h⟩ hb⟩

section
variable {c : ProcCfg} {K : Nat} {de : Bytes → Bool} {hit : Bytes → Nat → Bool} {ops : List POp} {s s' : Proc} {l : Option POp}

theorem step_log (hst : s.Step c l s') {e : Nat × Bytes × DbCall × DbRes} (hlog : s'.sys.log = s.sys.log ++ [e]) : s.sys.Step dbCalls (dbPath c.dir) s'.sys := by
  have no : ∀ {k : List (Nat × Bytes × DbCall × DbRes)}, k = k ++ [e] → False := by
    intro k h
    have := congrArg List.length h
    simp at this
  cases hst with
  | add => exact absurd hlog no
  | dump => exact absurd hlog no
  | offer => exact absurd hlog no
  | refuse => exact absurd hlog no
  | drain => exact absurd hlog no
  | recv => exact absurd hlog no
  | ask => exact absurd hlog no
  | db sys h1 h2 => exact h1
  | wrote i sys e m v h1 h2 h3 => exact h1
  | answer => exact absurd hlog no
  | wait => exact absurd hlog no
  | restart h1 h2 =>
    have hlog : [] = s.sys.log ++ [e] := hlog
    simp at hlog

theorem call_records (h : Proc.Reach c (freshFs de hit) ops s) (hok : ProcOk c K ops) (hst : s.Step c l s') {i : Nat} {m : Bytes} {o : DbCall} {r : DbRes} (hlog : s'.sys.log = s.sys.log ++ [(i, m, o, r)]) :
    ∃ recs, EachOf (Right c.pipe.d m) recs ((ops.foldl PSpec.step {}).kept m) ∧ (∀ r ∈ recs, needs c.pipe.cfg.size r.encode.length < c.pipe.cfg.cap) ∧
      ∃ done, (done = recs ∨ s.dumping = true ∧ ∃ r', recs = r' :: done) ∧ ∃ t, ReachCfg c.pipe.cfg t (done.map valOf) ∧ r = (o.run t).1 := by
  have inv := procInv_reach (freshFs_after c.pipe.cfg de hit) h hok
  have hst := step_log hst hlog
  obtain ⟨progs, base, acc, hs⟩ := inv.sys
  obtain ⟨recs, r1, r2, r3⟩ := hs.db m
  rw [List.append_assoc] at r3
  refine ⟨recs, r1, r2, ?_⟩
  obtain ⟨done, e1, e2⟩ := inv.acked r3
  refine ⟨done, e2, ?_⟩
  rw [e1]
  rcases step_shape hst with ⟨e, _⟩ | ⟨j, m', o', rest, r', q, h1, h2⟩
  · rw [e] at hlog
    have := congrArg List.length hlog
    simp at this
  · have hlog2 : s.sys.log ++ [(j, m', o', r')] = s.sys.log ++ [(i, m, o, r)] := by rw [← hlog, h2]
    have hlog3 := List.append_cancel_left hlog2
    injection hlog3 with hlog3 _
    injection hlog3 with a1 a2
    injection a2 with a2 a3
    injection a3 with a3 a4
    subst a1 a2 a3 a4
    have hfin : s'.sys.finished m' = s.sys.finished m' ++ [(j, o', r')] := by rw [h2, finished_snoc, if_pos rfl]
    have hq : s'.sys.quiet m' := by rw [h2]; exact finish_quiet hok.handles hs.reach h1
    obtain ⟨t, t1, t2⟩ := result_cfg c.pipe.cfg hok.handles (.step hs.reach hst) hs.ok m' (acc m') (hs.after m') hq _ j o' r' hfin
    exact ⟨t, t1, t2.symm⟩

/-- **C97** (every call). The result of a call that returns is that of the same call, alone, after some history of calls, one after the other, in which the values acknowledged are those of the metric's records (without the
newest one, if that is not yet written). -/
theorem C97_call (h : Proc.Reach c (freshFs de hit) ops s) (hok : ProcOk c K ops) (hst : s.Step c l s') {i : Nat} {m : Bytes} {o : DbCall} {r : DbRes} (hlog : s'.sys.log = s.sys.log ++ [(i, m, o, r)]) :
    ∃ recs, RecordsOf c ops m recs ∧ ∃ done, (done = recs ∨ s.dumping = true ∧ ∃ r', recs = r' :: done) ∧ ∃ t, ReachCfg c.pipe.cfg t (done.map valOf) ∧ r = (o.run t).1 := by
  obtain ⟨recs, r1, r2, h⟩ := call_records h hok hst hlog
  exact ⟨recs, ⟨r1, fun r hr => (C06_record_round_trip r (fits_small hok.geo r2 r hr)).1⟩, h⟩

/-- **C97** (queries). A query for everything that returns during the process shows, newest first, the records of the metric up to whole oldest files dropped by rotation; while a dump is in progress the newest record may still be
missing. It reports no error, unless no record is written. -/
theorem C97_query (h : Proc.Reach c (freshFs de hit) ops s) (hok : ProcOk c K ops) (hst : s.Step c l s') {i : Nat} {m : Bytes} {bound : Int64} {r : DbRes}
    (hlog : s'.sys.log = s.sys.log ++ [(i, m, .query c.pipe.cfg bound (fun _ _ => .more), r)]) (hb : ∀ now ∈ dumpTimes ops, now < bound) :
    ∃ recs, RecordsOf c ops m recs ∧ ∃ done, (done = recs ∨ s.dumping = true ∧ ∃ r', recs = r' :: done) ∧
      ∃ stored dropped err, done.map valOf = stored ++ dropped ∧ (done ≠ [] → stored ≠ [] ∧ err = none) ∧ (c.pipe.cfg.max ≤ 0 → dropped = []) ∧ r = .query stored err := by
  obtain ⟨recs, h1, done, h2, t, h3, h4⟩ := C97_call h hok hst hlog
  refine ⟨recs, h1, done, h2, ?_⟩
  obtain ⟨stored, dropped, q1, q2, q3, q4⟩ := shown_all h3 hok.geo
  have hend : ∀ v ∈ done.map valOf, v.stop < bound := by
    intro v hv
    refine hb _ (recs_end h1.1 v ?_)
    rcases h2 with rfl | ⟨_, r', rfl⟩
    · exact hv
    · exact List.mem_cons_of_mem _ hv
  obtain ⟨q5, q6⟩ := q4 bound hend
  have hm : done ≠ [] → done.map valOf ≠ [] := fun hne e => hne (List.map_eq_nil_iff.mp e)
  exact ⟨stored, dropped, _, q1, fun hne => ⟨q2 (hm hne), q6 (hm hne)⟩, q3, by rw [h4, ← q5]; rfl⟩

/-- **C97** (the latest value). `QueryLatest` gives the newest record that is written: while a dump is in progress, possibly the one before. -/
theorem C97_latest (h : Proc.Reach c (freshFs de hit) ops s) (hok : ProcOk c K ops) (hst : s.Step c l s') {i : Nat} {m : Bytes} {r : DbRes} (hlog : s'.sys.log = s.sys.log ++ [(i, m, .latest c.pipe.cfg, r)])
    (hb : ∀ now ∈ dumpTimes ops, now < 9223372036854775807) :
    ∃ recs, RecordsOf c ops m recs ∧ ∃ done, (done = recs ∨ s.dumping = true ∧ ∃ r', recs = r' :: done) ∧ ∃ err, r = .latest (done.head?.map valOf) err ∧ (done ≠ [] → err = none) := by
  obtain ⟨recs, h1, done, h2, t, h3, h4⟩ := C97_call h hok hst hlog
  refine ⟨recs, h1, done, h2, ?_⟩
  obtain ⟨q1, q2⟩ := C17_latest h3.reach c.pipe.cfg hok.geo
  have hend : ∀ v ∈ done.map valOf, v.stop < 9223372036854775807 := by
    intro v hv
    refine hb _ (recs_end h1.1 v ?_)
    rcases h2 with rfl | ⟨_, r', rfl⟩
    · exact hv
    · exact List.mem_cons_of_mem _ hv
  cases hd : done with
  | nil =>
    rw [hd] at q2
    refine ⟨(dbQueryLatest c.pipe.cfg t).1.2, ?_, fun hne => absurd rfl hne⟩
    rw [h4]
    show DbRes.latest (dbQueryLatest c.pipe.cfg t).1.1 _ = _
    rw [q2 rfl]
    rfl
  | cons w rest =>
    rw [hd] at q1 hend
    refine ⟨none, ?_, fun _ => rfl⟩
    rw [h4]
    show DbRes.latest (dbQueryLatest c.pipe.cfg t).1.1 (dbQueryLatest c.pipe.cfg t).1.2 = _
    rw [q1 (valOf w) (rest.map valOf) rfl (hend _ List.mem_cons_self)]
    rfl

/-- **C97** (at rest). When no dump is in progress and nobody is at work on the metric, its files are those that some history of calls, one after the other, leaves, in which the values acknowledged are those of its records. -/
theorem C97_stored (h : Proc.Reach c (freshFs de hit) ops s) (hok : ProcOk c K ops) (hd : s.dumping = false) (m : Bytes) (hq : s.sys.quiet m) :
    ∃ recs, RecordsOf c ops m recs ∧ ∃ t, SameFs (s.sys.g.fs m) t ∧ ReachCfg c.pipe.cfg t (recs.map valOf) ∧
      ∃ stored dropped, recs.map valOf = stored ++ dropped ∧ (recs ≠ [] → stored ≠ []) ∧ (c.pipe.cfg.max ≤ 0 → dropped = []) ∧
        ∀ bound : Int64, (∀ now ∈ dumpTimes ops, now < bound) → (queryList c.pipe.cfg bound (fun _ _ => .more) t).1.1 = stored := by
  have inv := procInv_reach (freshFs_after c.pipe.cfg de hit) h hok
  obtain ⟨progs, base, acc, hs⟩ := inv.sys
  obtain ⟨recs, r1, r2, r3⟩ := hs.db m
  rw [(inv.idle hd).2] at r3
  have r3 : recs.map valOf = (ackd (s.sys.finished m)).reverse ++ acc m := r3
  refine ⟨recs, ⟨r1, fun r hr => (C06_record_round_trip r (fits_small hok.geo r2 r hr)).1⟩, ?_⟩
  obtain ⟨t, t1, t2⟩ := history_cfg c.pipe.cfg hok.handles hs.reach hs.ok m (acc m) (hs.after m) hq
  rw [← r3] at t2
  obtain ⟨stored, dropped, q1, q2, q3, q4⟩ := shown_all t2 hok.geo
  exact ⟨t, t1, t2, stored, dropped, q1, fun hne => q2 (fun e => hne (List.map_eq_nil_iff.mp e)), q3, fun bound hb => (q4 bound (fun v hv => hb _ (recs_end r1 v hv))).1⟩

/-- **C97** (no write fails). Every call of a worker is a write and is acknowledged; the others are queries. -/
theorem C97_written (h : Proc.Reach c (freshFs de hit) ops s) (hok : ProcOk c K ops) : ∀ e ∈ s.sys.log, if e.1 < c.workers then ∃ v, e.2.2 = (.write c.pipe.cfg v, .write .written) else e.2.2.1.Reads c.pipe.cfg := by
  induction h with
  | start => intro e he; cases he
  | @step ops s s' l hr hst ih =>
    have inv := procInv_reach (freshFs_after c.pipe.cfg de hit) hr hok.left
    have ih := ih hok.left
    cases hst with
    | restart h1 h2 => intro e he; cases he
    | wrote i sys e m v h1 h2 h3 =>
      have he := (inv.wrote hok.handles hok.geo h1 h2 h3).2
      intro x hx
      have hx : x ∈ sys.log := hx
      rw [h2] at hx
      rcases List.mem_append.mp hx with hx | hx
      · exact ih x hx
      · rw [List.mem_singleton.mp hx, he, if_pos (hand_lt inv h3)]
        exact ⟨v, rfl⟩
    | db sys h1 h2 =>
      intro x hx
      have hx : x ∈ sys.log := hx
      rcases step_shape h1 with ⟨e, _⟩ | ⟨j, m', o', rest, r', q, g1, g2⟩
      · rw [e] at hx
        exact ih x hx
      · have hw : c.workers ≤ j := h2 (j, m', o', r') (by rw [g2])
        rw [g2] at hx
        rcases List.mem_append.mp hx with hx | hx
        · exact ih x hx
        · rw [List.mem_singleton.mp hx, if_neg (by omega)]
          exact inv.reader j _ hw g1 (m', o') List.mem_cons_self
    | _ => exact ih

end

end Rothko
