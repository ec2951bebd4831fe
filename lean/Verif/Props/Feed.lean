import Verif.Model.Feed
import Verif.Props.Graphite
import Verif.Props.Process
/-!
# What is sent is what is stored (C105)
-/
namespace Rothko

/-! ## Specification -/

/-- The bytes that the connection delivered are lines, none of 64 KiB or more, and `as` are the metrics and the values of those that are well formed, in order. -/
def Sends (parse : Bytes → Option F64) (reads : List Bytes) (as : List (Bytes × F64)) : Prop :=
  ∃ ls, StreamLines reads.flatten ls ∧ (∀ l ∈ ls, l.length < 65536) ∧ LineAdds parse ls as

/-- The finite values for the metric. -/
def sentValues (m : Bytes) (as : List (Bytes × F64)) : List F64 := (as.filter (fun a => decide (a.1 = m) && fFinite a.2)).map (·.2)

/-- The observations made so far: metrics and values. -/
def observedAll (ops : List POp) : List (Bytes × F64) := ops.filterMap (fun op => match op with | .add m o _ => some (m, o.val) | _ => none)

/-- The values of the metric that an interval has. -/
def Batch.values (m : Bytes) (b : Batch) : List F64 := (obsOf m b.obs).map (·.val)

/-! ## Proofs -/

theorem fed_proc {c : ProcCfg} {parse : Bytes → Option F64} {fs : Bytes → Store} {streams : List (List Bytes)} {ops : List POp} {s : Fed} (h : Fed.Reach c parse fs streams ops s) :
    Proc.Reach c fs ops s.proc := by
  induction h with
  | start => exact .start
  | conn _ hs ih => cases hs; exact ih
  | op _ hs ih =>
    cases hs with
    | line i m x rest tag now p hi hp => exact .step ih hp
    | proc l p hp => exact .step ih hp
    | restart p hp => exact .step ih hp

private theorem flatten_set_perm {α : Type} (a : α) (rest : List α) : ∀ (ls : List (List α)) (i : Nat), ls[i]? = some (a :: rest) → ls.flatten.Perm (a :: (ls.set i rest).flatten)
  | [], i, h => by simp at h
  | l :: ls, 0, h => by
    simp at h
    subst h
    simp
  | l :: ls, i + 1, h => by
    simp only [List.getElem?_cons_succ] at h
    simp only [List.flatten_cons, List.set_cons_succ]
    exact ((flatten_set_perm a rest ls i h).append_left l).trans List.perm_middle

/-- Every call that a connection is to make has been made, is still to be made, or was lost because the process ended. -/
theorem fed_conserved {c : ProcCfg} {parse : Bytes → Option F64} {fs : Bytes → Store} {streams : List (List Bytes)} {ops : List POp} {s : Fed} (h : Fed.Reach c parse fs streams ops s) :
    ∃ lost, (observedAll ops ++ s.conns.flatten ++ lost).Perm (streams.map (fun r => (handleConn parse [] r).1)).flatten ∧ ((∀ op ∈ ops, op ≠ .restart) → lost = []) := by
  induction h with
  | start => exact ⟨[], by simp [observedAll, Fed.init], fun _ => rfl⟩
  | @conn streams ops s s' reads _ hs ih =>
    obtain ⟨lost, h1, h2⟩ := ih
    cases hs
    refine ⟨lost, ?_, h2⟩
    simp only [List.flatten_append, List.map_append, List.map_cons, List.map_nil, List.flatten_cons, List.flatten_nil, List.append_nil]
    refine List.Perm.trans ?_ (h1.append_right _)
    simp only [List.append_assoc]
    exact (List.perm_append_comm.append_left _).append_left _
  | @op streams ops s s' l _ hs ih =>
    obtain ⟨lost, h1, h2⟩ := ih
    cases hs with
    | line i m x rest tag now p hi hp =>
      refine ⟨lost, List.Perm.trans ?_ h1, fun hr => h2 (fun op ho => hr op (List.mem_append_left _ ho))⟩
      have e : observedAll (ops ++ (some (POp.add m ⟨x, [], tag⟩ now)).toList) = observedAll ops ++ [(m, x)] := by simp [observedAll]
      rw [e]
      simp only [List.append_assoc]
      refine List.Perm.append_left _ ?_
      rw [← List.append_assoc]
      exact (flatten_set_perm (m, x) rest _ _ hi).symm.append_right _
    | proc l p hp hl hr =>
      have e : observedAll (ops ++ l.toList) = observedAll ops := by
        cases l with
        | none => simp
        | some o =>
          cases o with
          | add m o now => exact absurd rfl (hl m o now)
          | _ => simp [observedAll]
      refine ⟨lost, by rw [e]; exact h1, fun hr => h2 (fun op ho => hr op (List.mem_append_left _ ho))⟩
    | restart p hp =>
      refine ⟨s.conns.flatten ++ lost, ?_, fun hr => absurd rfl (hr .restart (by simp))⟩
      have e : observedAll (ops ++ (some POp.restart).toList) = observedAll ops := by simp [observedAll]
      rw [e]
      simpa using h1

private theorem sublist_snoc {α : Type} {a b : List α} (x : α) (h : a.Sublist b) : (a ++ [x]).Sublist (b ++ [x]) := h.append (List.Sublist.refl _)

/-- Without a restart, what each connection has made of its calls is made in order. -/
theorem fed_order {c : ProcCfg} {parse : Bytes → Option F64} {fs : Bytes → Store} {streams : List (List Bytes)} {ops : List POp} {s : Fed} (h : Fed.Reach c parse fs streams ops s) (hr : ∀ op ∈ ops, op ≠ .restart) :
    s.conns.length = streams.length ∧ ∀ (i : Nat) (reads : List Bytes), streams[i]? = some reads → ∃ made rest, s.conns[i]? = some rest ∧ (handleConn parse [] reads).1 = made ++ rest ∧ made.Sublist (observedAll ops) := by
  induction h with
  | start => exact ⟨rfl, fun i reads (h : ([] : List (List Bytes))[i]? = some reads) => by simp at h⟩
  | @conn streams ops s s' reads _ hs ih =>
    obtain ⟨h1, h2⟩ := ih hr
    cases hs
    refine ⟨by simp [h1], ?_⟩
    intro i rd hi
    rcases Nat.lt_or_ge i streams.length with hlt | hge
    · rw [List.getElem?_append_left hlt] at hi
      obtain ⟨made, rest, q1, q2, q3⟩ := h2 i rd hi
      exact ⟨made, rest, by show (s.conns ++ _)[i]? = _; rw [List.getElem?_append_left (by omega)]; exact q1, q2, q3⟩
    · rw [List.getElem?_append_right hge] at hi
      have hlt := (List.getElem?_eq_some_iff.mp hi).1
      simp at hlt
      have he : i = streams.length := by omega
      subst he
      simp at hi
      subst hi
      refine ⟨[], (handleConn parse [] reads).1, ?_, by simp, List.nil_sublist _⟩
      show (s.conns ++ _)[streams.length]? = _
      rw [← h1]
      simp
  | @op streams ops s s' l _ hs ih =>
    obtain ⟨h1, h2⟩ := ih (fun op ho => hr op (List.mem_append_left _ ho))
    have mono : (observedAll ops).Sublist (observedAll (ops ++ l.toList)) := (List.sublist_append_left _ _).filterMap _
    cases hs with
    | line j m x rest tag now p hj hp =>
      refine ⟨by simp [h1], ?_⟩
      intro i rd hi
      obtain ⟨made, rest', q1, q2, q3⟩ := h2 i rd hi
      by_cases hij : j = i
      · subst hij
        rw [hj] at q1
        injection q1 with q1
        subst q1
        refine ⟨made ++ [(m, x)], rest, ?_, by rw [q2]; simp, ?_⟩
        · show (s.conns.set j rest)[j]? = _
          rw [List.getElem?_set_self ((List.getElem?_eq_some_iff.mp hj).1)]
        · have e : observedAll (ops ++ (some (POp.add m ⟨x, [], tag⟩ now)).toList) = observedAll ops ++ [(m, x)] := by simp [observedAll]
          rw [e]
          exact sublist_snoc _ q3
      · refine ⟨made, rest', ?_, q2, q3.trans mono⟩
        show (s.conns.set j rest)[i]? = _
        rw [List.getElem?_set_ne hij]
        exact q1
    | proc l p hp hl hr' =>
      refine ⟨h1, fun i rd hi => ?_⟩
      obtain ⟨made, rest', q1, q2, q3⟩ := h2 i rd hi
      exact ⟨made, rest', q1, q2, q3.trans mono⟩
    | restart p hp => exact absurd rfl (hr .restart (by simp))

/-- What the lines are owed is what the connections call. -/
theorem sends_calls {parse : Bytes → Option F64} {streams : List (List Bytes)} {sent : List (List (Bytes × F64))} (h : EachOf (Sends parse) streams sent) :
    streams.map (fun r => (handleConn parse [] r).1) = sent := by
  induction h with
  | nil => rfl
  | @cons reads as _ _ h1 _ ih =>
    obtain ⟨ls, l1, l2, l3⟩ := h1
    obtain ⟨as', e, l4⟩ := C56_conn parse reads ls l1 l2
    rw [List.map_cons, ih, e, lineAdds_unique parse l3 l4]

theorem observed_to (m : Bytes) (ops : List POp) : (addedTo m ops).map (·.val) = sentValues m (observedAll ops) := by
  induction ops with
  | nil => rfl
  | cons op ops ih =>
    have e : addedTo m (op :: ops) = addedTo m [op] ++ addedTo m ops := by
      show List.filterMap _ (op :: ops) = _
      rw [show op :: ops = [op] ++ ops from rfl, List.filterMap_append]; rfl
    have e' : observedAll (op :: ops) = observedAll [op] ++ observedAll ops := by
      show List.filterMap _ (op :: ops) = _
      rw [show op :: ops = [op] ++ ops from rfl, List.filterMap_append]; rfl
    rw [e, e', List.map_append, ih]
    have e2 : sentValues m (observedAll [op] ++ observedAll ops) = sentValues m (observedAll [op]) ++ sentValues m (observedAll ops) := by simp [sentValues]
    rw [e2]
    congr 1
    cases op with
    | add x o now =>
      by_cases h1 : x = m <;> by_cases h2 : fFinite o.val = true <;> simp [addedTo, observedAll, sentValues, h1, h2]
    | _ => rfl

theorem sentValues_perm (m : Bytes) {a b : List (Bytes × F64)} (h : a.Perm b) : (sentValues m a).Perm (sentValues m b) := (h.filter _).map _

theorem sentValues_append (m : Bytes) (a b : List (Bytes × F64)) : sentValues m (a ++ b) = sentValues m a ++ sentValues m b := by simp [sentValues]

/-- The observations of the intervals, oldest first, and of the one in progress are among those made, in order. -/
theorem kept_sublist (m : Bytes) (ops : List POp) :
    ((((ops.foldl PSpec.step {}).kept m).reverse.map (fun b => obsOf m b.obs)).flatten ++ obsOf m (ops.foldl PSpec.step {}).w.pend).Sublist (addedTo m ops) := by
  have happ : ∀ (a b : List (Bytes × Obs)), obsOf m (a ++ b) = obsOf m a ++ obsOf m b := by intro a b; simp [obsOf]
  have key : ∀ (ops : List POp) (t : PSpec),
      ((((ops.foldl PSpec.step t).kept m).reverse.map (fun b => obsOf m b.obs)).flatten ++ obsOf m (ops.foldl PSpec.step t).w.pend).Sublist
        (((t.kept m).reverse.map (fun b => obsOf m b.obs)).flatten ++ obsOf m t.w.pend ++ addedTo m ops) := by
    intro ops
    induction ops with
    | nil => intro t; simp [addedTo]
    | cons op ops ih =>
      intro t
      rw [List.foldl_cons]
      refine (ih (t.step op)).trans ?_
      cases op with
      | add x o now =>
        by_cases hf : fFinite o.val = true
        · have e1 : (t.step (.add x o now)).w.pend = t.w.pend ++ [(x, o)] := by simp [PSpec.step, WSpec.step, hf]
          have e2 : (t.step (.add x o now)).kept m = t.kept m := rfl
          rw [e1, e2, happ]
          by_cases hx : x = m
          · subst hx
            simp [addedTo, hf, obsOf]
          · simp [addedTo, hx, obsOf]
        · have e1 : t.step (.add x o now) = t := by simp [PSpec.step, WSpec.step, hf]
          rw [e1]
          simp [addedTo, hf]
      | query x bound cb => exact List.Sublist.refl _
      | restart =>
        show List.Sublist (_ ++ obsOf m [] ++ addedTo m ops) (_ ++ _ ++ addedTo m ops)
        refine List.Sublist.append_right ?_ _
        exact List.Sublist.append (List.Sublist.refl _) (List.nil_sublist _)
      | dump order now taken =>
        refine List.Sublist.append_right ?_ _
        cases hs : t.w.start with
        | none =>
          have e1 : t.step (.dump order now taken) = t := by
            unfold PSpec.step WSpec.step
            dsimp only
            rw [hs]
          rw [e1]
        | some a =>
          have e1 : (t.step (.dump order now taken)).w.pend = [] := by simp [PSpec.step, WSpec.step, hs]
          rw [e1]
          have e3 : (t.step (.dump order now taken)).kept m = if taken m && (t.w.pend.map (·.1)).contains m then ⟨a, now, t.w.pend⟩ :: t.kept m else t.kept m := by
            show (match t.w.start with | none => _ | some t' => _) = _
            rw [hs]
          rw [e3]
          rw [show obsOf m ([] : List (Bytes × Obs)) = [] from rfl, List.append_nil]
          split
          · simp [obsOf]
          · exact List.sublist_append_left _ _
  have := key ops {}
  simpa [obsOf] using this

theorem values_flatten (m : Bytes) (l : List Batch) : ((l.map (fun b => obsOf m b.obs)).flatten).map (·.val) = (l.map (Batch.values m)).flatten := by
  induction l with
  | nil => rfl
  | cons b l ih => simp only [List.map_cons, List.flatten_cons, List.map_append, ih]; rfl

/-- Of a list: how much is in all its parts. -/
private theorem flatten_reverse_perm {α : Type} : ∀ (l : List (List α)), l.reverse.flatten.Perm l.flatten
  | [] => .refl _
  | a :: l => by
    rw [List.reverse_cons, List.flatten_append, List.flatten_cons]
    simp only [List.flatten_cons, List.flatten_nil, List.append_nil]
    exact ((flatten_reverse_perm l).append_right a).trans List.perm_append_comm

section
variable {c : ProcCfg} {parse : Bytes → Option F64} {fs : Bytes → Store} {streams : List (List Bytes)} {sent : List (List (Bytes × F64))} {ops : List POp} {s : Fed}

/-- **C105** (conservation). Any number of connections, their lines cut into packets in any way, handled in any order, while dumps, writes and queries go on: as long as the process runs and its queue takes the values of the metric, the
finite values of the metric in the well-formed lines sent are those of the intervals kept, those of the interval in progress and those of lines that are not handled yet, each as often. -/
theorem C105_conserved (h : Fed.Reach c parse fs streams ops s) (hs : EachOf (Sends parse) streams sent) (m : Bytes) (hr : ∀ op ∈ ops, op ≠ .restart)
    (ht : ∀ order now taken, .dump order now taken ∈ ops → taken m = true) :
    (sentValues m sent.flatten).Perm ((((ops.foldl PSpec.step {}).kept m).map (Batch.values m)).flatten ++ (obsOf m (ops.foldl PSpec.step {}).w.pend).map (·.val) ++ sentValues m s.conns.flatten) := by
  obtain ⟨lost, h1, h2⟩ := fed_conserved h
  rw [h2 hr, List.append_nil, sends_calls hs] at h1
  have h3 := C70_conserved m ops hr ht
  refine (sentValues_perm m h1).symm.trans ?_
  rw [sentValues_append, ← observed_to, ← h3, List.map_append, values_flatten, List.map_reverse]
  exact ((flatten_reverse_perm _).append_right _).append_right _

/-- **C105** (order). The values of the intervals kept, oldest first, followed by those of the interval in progress are, for each connection alone, in the order of its lines: what has been handled of a connection is a beginning of its lines, and is found, in order,
among what was observed, of which the intervals are the division. -/
theorem C105_order (h : Fed.Reach c parse fs streams ops s) (hs : EachOf (Sends parse) streams sent) (m : Bytes) (hr : ∀ op ∈ ops, op ≠ .restart)
    (ht : ∀ order now taken, .dump order now taken ∈ ops → taken m = true) (i : Nat) (as : List (Bytes × F64)) (hi : sent[i]? = some as) :
    ∃ made rest, as = made ++ rest ∧ s.conns[i]? = some rest ∧
      (sentValues m made).Sublist ((((ops.foldl PSpec.step {}).kept m).reverse.map (Batch.values m)).flatten ++ (obsOf m (ops.foldl PSpec.step {}).w.pend).map (·.val)) := by
  have he := sends_calls hs
  rw [← he, List.getElem?_map] at hi
  cases hst : streams[i]? with
  | none => rw [hst] at hi; simp at hi
  | some reads =>
    rw [hst] at hi
    simp only [Option.map_some, Option.some.injEq] at hi
    obtain ⟨made, rest, q1, q2, q3⟩ := (fed_order h hr).2 i reads hst
    refine ⟨made, rest, by rw [← hi, q2], q1, ?_⟩
    have h3 := C70_conserved m ops hr ht
    rw [← values_flatten, ← List.map_append, h3, observed_to]
    exact (q3.filter _).map _

/-- **C105** (nothing is invented). With restarts, and whatever the queue refuses: the values kept and those of the interval in progress are, each as often, among the finite values of the metric in the well-formed lines sent. -/
theorem C105_sent (h : Fed.Reach c parse fs streams ops s) (hs : EachOf (Sends parse) streams sent) (m : Bytes) :
    ∃ others, (sentValues m sent.flatten).Perm ((((ops.foldl PSpec.step {}).kept m).map (Batch.values m)).flatten ++ (obsOf m (ops.foldl PSpec.step {}).w.pend).map (·.val) ++ others) := by
  obtain ⟨lost, h1, _⟩ := fed_conserved h
  rw [sends_calls hs] at h1
  obtain ⟨others, h3⟩ : ∃ others, (addedTo m ops).Perm ((((ops.foldl PSpec.step {}).kept m).reverse.map (fun b => obsOf m b.obs)).flatten ++ obsOf m (ops.foldl PSpec.step {}).w.pend ++ others) :=
    (kept_sublist m ops).exists_perm_append
  refine ⟨others.map (·.val) ++ (sentValues m s.conns.flatten ++ sentValues m lost), (sentValues_perm m h1).symm.trans ?_⟩
  rw [sentValues_append, sentValues_append, ← observed_to]
  have h4 := h3.map (·.val)
  rw [List.map_append, List.map_append, values_flatten, List.map_reverse] at h4
  have h5 := h4.trans (((flatten_reverse_perm _).append_right _).append_right _)
  rw [List.append_assoc, ← List.append_assoc _ (others.map _) _]
  exact h5.append_right _

/-- A dump leaves nothing in progress but what was added after it. -/
theorem pend_after (m : Bytes) (before after : List POp) (order : List (Bytes × Agg) → List (Bytes × Agg)) (now : Int64) (taken : Bytes → Bool) (hn : sentValues m (observedAll after) = []) :
    obsOf m ((before ++ .dump order now taken :: after).foldl PSpec.step {}).w.pend = [] := by
  have key : ∀ (l : List POp) (t : PSpec), (obsOf m (l.foldl PSpec.step t).w.pend).Sublist (obsOf m t.w.pend ++ addedTo m l) := by
    intro l
    induction l with
    | nil => intro t; simp [addedTo]
    | cons op l ih =>
      intro t
      rw [List.foldl_cons]
      refine (ih _).trans ?_
      cases op with
      | add x o now =>
        by_cases hf : fFinite o.val = true
        · by_cases hx : x = m <;> simp [PSpec.step, WSpec.step, addedTo, obsOf, hf, hx]
        · simp [PSpec.step, WSpec.step, addedTo, hf]
      | query x bound cb => exact List.Sublist.refl _
      | restart => exact List.Sublist.append (List.nil_sublist _) (List.Sublist.refl _)
      | dump order now taken =>
        refine List.Sublist.append ?_ (List.Sublist.refl _)
        cases hs : t.w.start <;> simp [PSpec.step, WSpec.step, hs, obsOf]
  have start : ∀ (l : List POp) (t : PSpec), (t.w.start = none → t.w.pend = []) → (l.foldl PSpec.step t).w.start = none → (l.foldl PSpec.step t).w.pend = [] := by
    intro l
    induction l with
    | nil => intro t h; exact h
    | cons op l ih =>
      intro t h
      rw [List.foldl_cons]
      refine ih _ ?_
      cases op with
      | add x o now =>
        by_cases hf : fFinite o.val = true
        · simp [PSpec.step, WSpec.step, hf]
        · simpa [PSpec.step, WSpec.step, hf] using h
      | query x bound cb => exact h
      | restart => intro _; rfl
      | dump order now taken =>
        cases hs : t.w.start with
        | none => simpa [PSpec.step, WSpec.step, hs] using h hs
        | some a => simp [PSpec.step, WSpec.step, hs]
  rw [List.foldl_append, List.foldl_cons]
  have h1 := key after ((before.foldl PSpec.step {}).step (.dump order now taken))
  have h2 : ((before.foldl PSpec.step {}).step (.dump order now taken)).w.pend = [] := by
    have h0 := start before {} (by simp)
    cases hs : (before.foldl PSpec.step {}).w.start with
    | none => simpa [PSpec.step, WSpec.step, hs] using h0 hs
    | some a => simp [PSpec.step, WSpec.step, hs]
  have h3 : addedTo m after = [] := List.map_eq_nil_iff.mp ((observed_to m after).trans hn)
  rw [h2, h3] at h1
  exact List.eq_nil_of_sublist_nil h1

private theorem eachOf_sum {d : DistParams} {m : Bytes} {recs : List DRec} {bs : List Batch} (h : EachOf (fun r b => RecordOf d b.start b.stop (obsOf m b.obs) r) recs bs)
    (hl : (bs.map (Batch.values m)).flatten.length < 9223372036854775808) : (recs.map (fun r => r.observations.toInt)).sum = ((bs.map (Batch.values m)).flatten.length : Int) := by
  induction h with
  | nil => rfl
  | @cons r b recs bs h1 h2 ih =>
    simp only [List.map_cons, List.flatten_cons, List.length_append, List.sum_cons] at hl ⊢
    rw [ih (by omega), h1.count]
    have e : (obsOf m b.obs).length = (Batch.values m b).length := by simp [Batch.values]
    rw [e, Int64.toInt_ofNat_of_lt (by omega)]
    omega

theorem eachOf_parts {d : DistParams} {m : Bytes} {recs : List DRec} {bs : List Batch} (h : EachOf (fun r b => RecordOf d b.start b.stop (obsOf m b.obs) r) recs bs) :
    EachOf (fun r p => ∃ start stop, RecordOf d start stop p r) recs (bs.map (fun b => obsOf m b.obs)) := by
  induction h with
  | nil => exact .nil
  | cons h1 _ ih => exact .cons ⟨_, _, h1⟩ ih

theorem observed_length (ops : List POp) : (observedAll ops).length ≤ ops.length := List.length_filterMap_le _ _

/-- **C105** (what is sent is what is stored). Every line has been handled, a dump was begun after the last one and is over, nobody is at work on the metric, the process was not restarted and its queue took the values of the metric.
Then the metric's records divide the finite values of its well-formed lines among them: each record has the exact count, minimum, maximum and distribution of its part and reads back as itself, the counts add up to the number of those lines,
and a query shows the records, newest first, up to whole oldest files dropped by rotation. -/
theorem C105_stored {K : Nat} {de : Bytes → Bool} {hit : Bytes → Nat → Bool} (h : Fed.Reach c parse (freshFs de hit) streams ops s) (hok : ProcOk c K ops) (hs : EachOf (Sends parse) streams sent) (m : Bytes) (hr : ∀ op ∈ ops, op ≠ .restart)
    (ht : ∀ order now taken, .dump order now taken ∈ ops → taken m = true) (hall : ∀ rest ∈ s.conns, rest = []) {before after : List POp} {order : List (Bytes × Agg) → List (Bytes × Agg)} {now : Int64} {taken : Bytes → Bool}
    (hops : ops = before ++ .dump order now taken :: after) (hafter : observedAll after = []) (hd : s.proc.dumping = false) (hq : s.proc.sys.quiet m) :
    ∃ recs parts, EachOf (fun r p => ∃ start stop, RecordOf c.pipe.d start stop p r) recs parts ∧ (parts.flatten.map (·.val)).Perm (sentValues m sent.flatten) ∧
      (recs.map (fun r => r.observations.toInt)).sum = ((sentValues m sent.flatten).length : Int) ∧
      (∀ r ∈ recs, DRec.decode (valOf r).data = .ok { r with min := normZero r.min, max := normZero r.max }) ∧
      ∃ t, SameFs (s.proc.sys.g.fs m) t ∧ ∃ stored dropped, recs.map valOf = stored ++ dropped ∧ (recs ≠ [] → stored ≠ []) ∧ (c.pipe.cfg.max ≤ 0 → dropped = []) ∧
        ∀ bound : Int64, (∀ now ∈ dumpTimes ops, now < bound) → (queryList c.pipe.cfg bound (fun _ _ => .more) t).1.1 = stored := by
  obtain ⟨recs, ⟨r1, r2⟩, t, t1, _, stored, dropped, q1, q2, q3, q4⟩ := C97_stored (fed_proc h) hok hd m hq
  have hp := C105_conserved h hs m hr ht
  have hpend : obsOf m (ops.foldl PSpec.step {}).w.pend = [] := by
    rw [hops]
    exact pend_after m before after order now taken (by rw [hafter]; rfl)
  have hconns : s.conns.flatten = [] := List.flatten_eq_nil_iff.mpr hall
  rw [hpend, hconns] at hp
  have hp : (sentValues m sent.flatten).Perm (((ops.foldl PSpec.step {}).kept m).map (Batch.values m)).flatten := by simpa [sentValues] using hp
  have hlen : (sentValues m sent.flatten).length < 9223372036854775808 := by
    obtain ⟨lost, h1, h2⟩ := fed_conserved h
    rw [h2 hr, List.append_nil, sends_calls hs, hconns, List.append_nil] at h1
    have e1 := (sentValues_perm m h1).length_eq
    have e2 : (sentValues m (observedAll ops)).length ≤ (observedAll ops).length := by
      unfold sentValues
      rw [List.length_map]
      exact List.length_filter_le _ _
    have e3 := observed_length ops
    have e4 := hok.short
    omega
  refine ⟨recs, _, eachOf_parts r1, ?_, ?_, r2, t, t1, stored, dropped, q1, q2, q3, q4⟩
  · rw [values_flatten]
    exact hp.symm
  · rw [hp.length_eq] at hlen ⊢
    exact eachOf_sum r1 hlen

/-- **C105** (nothing for others). A metric for which no finite value was sent has no records, whatever else happened. -/
theorem C105_never (h : Fed.Reach c parse fs streams ops s) (hs : EachOf (Sends parse) streams sent) (m : Bytes) (hn : sentValues m sent.flatten = []) (recs : List DRec) (hrecs : RecordsOf c ops m recs) : recs = [] := by
  obtain ⟨others, hp⟩ := C105_sent h hs m
  rw [hn] at hp
  have e := List.nil_perm.mp hp
  rw [List.append_eq_nil_iff, List.append_eq_nil_iff] at e
  have e1 := e.1.1
  generalize hk : (ops.foldl PSpec.step {}).kept m = bs at e1
  have h1 := hrecs.1
  rw [hk] at h1
  cases h1 with
  | nil => rfl
  | @cons r b recs bs h2 _ =>
    simp only [List.map_cons, List.flatten_cons, List.append_eq_nil_iff] at e1
    have e2 : obsOf m b.obs = [] := List.map_eq_nil_iff.mp e1.1
    obtain ⟨o, ho, _⟩ := h2.min.1
    rw [e2] at ho
    cases ho

end

end Rothko
