import Verif.Model.Process
import Verif.Props.SharedNone
import Verif.Lemmas.HistoryCfg
/-!
# Histories with one configuration in a running process
-/
namespace Rothko

/-! ## One configuration -/

/-- The call has these options. -/
def DbCall.Uses (cfg : Cfg) : DbCall → Prop
  | .write c _ => c = cfg
  | .query c _ _ => c = cfg
  | .latest c => c = cfg

/-- The directory and files of a metric are those that some history with these options left. -/
def AfterCfg (cfg : Cfg) (s : Store) (acc : List Val) : Prop := ∃ t, SameFs s t ∧ ReachCfg cfg t acc

theorem AfterCfg.history {cfg : Cfg} {s : Store} {acc : List Val} (h : AfterCfg cfg s acc) : AfterHistory s acc := by
  obtain ⟨t, h1, h2⟩ := h
  exact ⟨t, h1, h2.reach⟩

theorem reachCfg_oracle {cfg : Cfg} {s : Store} {acc : List Val} (h : ReachCfg cfg s acc) (h' : Nat → Bool) (hh : ∀ i, i < s.clock → h' i = s.hit i) : ReachCfg cfg (s.withHit h') acc := by
  obtain ⟨de, hit, ops, hok, e⟩ := h
  obtain ⟨o1, o2, o3⟩ := ops_oracle h' ops (Store.fresh de hit) []
  rw [e] at o1 o2 o3
  refine ⟨de, h', ops, hok, ?_⟩
  have := o3 (fun i _ hi => by rw [← o1]; exact hh i hi)
  exact this

theorem reachCfg_restart {cfg : Cfg} {s : Store} {acc : List Val} (h : ReachCfg cfg s acc) : ReachCfg cfg s.reopen acc := h.step .restart trivial trivial

theorem reachCfg_call {cfg : Cfg} {s : Store} {acc : List Val} (h : ReachCfg cfg s acc) (o : DbCall) (ho : o.Ok) (hu : o.Uses cfg) (i : Nat) : ReachCfg cfg (o.run s).2 (ackd [(i, o, (o.run s).1)] ++ acc) := by
  have := h.step o.toOp (by cases o <;> exact ho) (by cases o <;> exact hu)
  rw [run_toOp o s acc i] at this
  exact this

theorem serial_reachCfg {cfg : Cfg} {s0 t : Store} {acc : List Val} (h0 : ReachCfg cfg s0 acc) {evs : List (Option (Nat × DbCall × DbRes))} (h : Serial DbCall.run mkdirEnv s0 evs t)
    (hok : ∀ e ∈ evs.filterMap id, e.2.1.Ok ∧ e.2.1.Uses cfg) : ReachCfg cfg t ((ackd (evs.filterMap id)).reverse ++ acc) := by
  induction h with
  | nil => exact h0
  | op i o r h1 hf ih =>
    rw [List.filterMap_append] at hok ⊢
    have ho := hok (i, o, r) (by simp)
    have := reachCfg_call (ih (fun e he => hok e (List.mem_append_left _ he))) o ho.1 ho.2 i
    rw [hf] at this
    rw [ackd_append, List.reverse_append, List.append_assoc]
    have e2 : (ackd ([some (i, o, r)].filterMap id)).reverse = ackd [(i, o, r)] := by
      show (ackd [(i, o, r)]).reverse = _
      cases o with
      | write cfg v => cases r with
        | write w => cases w <;> rfl
        | query => rfl
        | latest => rfl
      | query => rfl
      | latest => rfl
    rw [e2]
    exact this
  | env h1 ih =>
    rw [List.filterMap_append] at hok ⊢
    have := (ih (fun e he => hok e (List.mem_append_left _ he))).mkdir
    have e2 : ([none] : List (Option (Nat × DbCall × DbRes))).filterMap id = [] := rfl
    rw [e2, List.append_nil]
    exact this

/-- The last call of a serial history. -/
theorem serial_last {Op Res σ : Type} {f : Op → σ → Res × σ} {env : σ → σ} {s0 t : σ} {evs : List (Option (Nat × Op × Res))} (h : Serial f env s0 evs t) :
    ∀ (L : List (Nat × Op × Res)) (i : Nat) (o : Op) (r : Res), evs.filterMap id = L ++ [(i, o, r)] → ∃ evs' t', Serial f env s0 evs' t' ∧ evs'.filterMap id = L ∧ (f o t').1 = r := by
  induction h with
  | nil => intro L i o r e; simp at e
  | op j o' r' h1 hf ih =>
    intro L i o r e
    rw [List.filterMap_append] at e
    have e : _ ++ [(j, o', r')] = L ++ [(i, o, r)] := e
    have := List.append_inj' e rfl
    injection this.2 with e2 _
    injection e2 with _ e2
    injection e2 with e2 e3
    subst e2 e3
    exact ⟨_, _, h1, this.1, by rw [hf]⟩
  | env h1 ih =>
    intro L i o r e
    rw [List.filterMap_append] at e
    have e2 : ([none] : List (Option (Nat × Op × Res))).filterMap id = [] := rfl
    rw [e2, List.append_nil] at e
    exact ih L i o r e

section
variable {n : Nat} {d : Bytes} {progs : List (List (Bytes × DbCall))} {fs : Bytes → Store} {s : FsSys DbCall DbRes}

theorem log_asked (hn : n < 2 ^ 63) (h : FsSys.Reach dbCalls (dbPath d) n progs fs s) (P : DbCall → Prop) (hok : ∀ p ∈ progs, ∀ c ∈ p, P c.2) : ∀ e ∈ s.log, P e.2.2.1 := by
  intro ⟨i, k', o, r⟩ hm
  obtain ⟨H, ch, hi, hs⟩ := handles_reach hn h
  obtain ⟨hits, ids, hext, _⟩ := extends_some fs ch (fun _ _ => false)
  obtain ⟨st, hr, _⟩ := hs hits ids hext
  have hlen : i < progs.length := fs_log_lt h _ hm
  obtain ⟨rest, e⟩ := C59_order fsMachine_implements fsMachine_settled hr i progs[i] (List.getElem?_eq_getElem hlen)
  have : (k', o) ∈ progs[i] := by
    rw [← e]
    refine List.mem_append_left _ (List.mem_map.mpr ⟨(i, k', o, r), List.mem_filter.mpr ⟨hm, by simp⟩, rfl⟩)
  exact hok _ (List.getElem_mem hlen) _ this

theorem finished_asked (hn : n < 2 ^ 63) (h : FsSys.Reach dbCalls (dbPath d) n progs fs s) (P : DbCall → Prop) (hok : ∀ p ∈ progs, ∀ c ∈ p, P c.2) (k : Bytes) : ∀ e ∈ s.finished k, P e.2.1 := by
  intro e he
  unfold FsSys.finished at he
  obtain ⟨e', hm, rfl⟩ := List.mem_map.mp he
  exact log_asked hn h P hok e' (List.mem_filter.mp hm).1

/-- With one configuration: the files of a metric at rest. -/
theorem history_cfg (cfg : Cfg) (hn : n < 2 ^ 63) (h : FsSys.Reach dbCalls (dbPath d) n progs fs s) (hok : ∀ p ∈ progs, ∀ c ∈ p, c.2.Ok ∧ c.2.Uses cfg) (k : Bytes) (acc : List Val) (h0 : AfterCfg cfg (fs k) acc)
    (hq : s.quiet k) : AfterCfg cfg (s.g.fs k) ((ackd (s.finished k)).reverse ++ acc) := by
  obtain ⟨t0, hsame, hr0⟩ := h0
  obtain ⟨hit, evs, t, e1, e2, e3, e4⟩ := C96_serial hn h k hq t0 hsame
  refine ⟨t, e4, ?_⟩
  rw [← e3]
  refine serial_reachCfg (reachCfg_restart (reachCfg_oracle hr0 hit e1)) e2 ?_
  rw [e3]
  exact finished_asked hn h (fun c => c.Ok ∧ c.Uses cfg) hok k

/-- The result of a call that has just finished is that of the call after the finished ones. -/
theorem result_cfg (cfg : Cfg) (hn : n < 2 ^ 63) (h : FsSys.Reach dbCalls (dbPath d) n progs fs s) (hok : ∀ p ∈ progs, ∀ c ∈ p, c.2.Ok ∧ c.2.Uses cfg) (k : Bytes) (acc : List Val) (h0 : AfterCfg cfg (fs k) acc)
    (hq : s.quiet k) (L : List (Nat × DbCall × DbRes)) (i : Nat) (o : DbCall) (r : DbRes) (he : s.finished k = L ++ [(i, o, r)]) :
    ∃ t, ReachCfg cfg t ((ackd L).reverse ++ acc) ∧ (o.run t).1 = r := by
  obtain ⟨t0, hsame, hr0⟩ := h0
  obtain ⟨hit, evs, t, e1, e2, e3, e4⟩ := C96_serial hn h k hq t0 hsame
  rw [he] at e3
  obtain ⟨evs', t', f1, f2, f3⟩ := serial_last e2 L i o r e3
  refine ⟨t', ?_, f3⟩
  rw [← f2]
  refine serial_reachCfg (reachCfg_restart (reachCfg_oracle hr0 hit e1)) f1 ?_
  rw [f2]
  intro e hm
  exact finished_asked hn h (fun c => c.Ok ∧ c.Uses cfg) hok k e (by rw [he]; exact List.mem_append_left _ hm)

end

/-! ## Further calls of a goroutine -/

/-- Another call is appended to what a goroutine will do. -/
def FsSys.more {Op Res : Type} (s : FsSys Op Res) (i : Nat) (c : Bytes × Op) : FsSys Op Res := { s with cl := s.cl.modify i (fun x => ⟨x.todo ++ [c], x.work⟩) }

theorem modify_set {α : Type} (l : List α) (i j : Nat) (f : α → α) (x : α) : (l.set j x).modify i f = (l.modify i f).set j (if i = j then f x else x) := by
  apply List.ext_getElem?
  intro k
  rw [List.getElem?_modify, List.getElem?_set, List.getElem?_set, List.getElem?_modify, List.length_modify]
  by_cases h1 : j = k
  · subst h1
    simp only [if_true]
    by_cases h2 : j < l.length
    · simp only [h2, if_true]
      by_cases h3 : i = j <;> simp [h3]
    · simp only [h2, if_false]
      simp
  · simp only [h1, if_false]

theorem modify_get {Op L : Type} {cl : List (Client Op L)} {i j : Nat} {c : Bytes × Op} {m : Bytes} {o : Op} {rest : List (Bytes × Op)} {w : Work L} (h : cl[j]? = some ⟨(m, o) :: rest, w⟩) :
    (cl.modify i (fun x => ⟨x.todo ++ [c], x.work⟩))[j]? = some ⟨(m, o) :: (if i = j then rest ++ [c] else rest), w⟩ := by
  rw [List.getElem?_modify, h]
  by_cases e : i = j
  · simp [e]
  · simp [e]

theorem reach_more {Op Res : Type} {cs : FsCalls Op Res} {path : Bytes → Int → Bytes} {n : Nat} {progs : List (List (Bytes × Op))} {fs : Bytes → Store} {s : FsSys Op Res} (h : FsSys.Reach cs path n progs fs s)
    (i : Nat) (c : Bytes × Op) : FsSys.Reach cs path n (progs.modify i (fun p => p ++ [c])) fs (s.more i c) := by
  induction h with
  | init =>
    have : (FsSys.init (Res := Res) n progs fs).more i c = FsSys.init n (progs.modify i (fun p => p ++ [c])) fs := by
      unfold FsSys.more FsSys.init
      dsimp only
      rw [List.length_modify]
      congr 1
      apply List.ext_getElem?
      intro k
      rw [List.getElem?_modify, List.getElem?_map, List.getElem?_map, List.getElem?_modify]
      cases progs[k]? with
      | none => rfl
      | some p =>
        by_cases e : i = k <;> simp [e]
    rw [this]
    exact .init
  | @step s s' _ hs ih =>
    refine .step ih ?_
    cases hs with
    | mkdir m => exact .mkdir m
    | close r w hw => exact .close r w hw
    | call j m o rest h1 h2 => exact .call j m o _ h1 (modify_get h2)
    | enter j m o rest a h1 h2 h3 =>
      have := FsSys.Step.enter (c := cs) (path := path) (s := s.more i c) j m o _ a h1 h2 (modify_get h3)
      unfold FsSys.more at this ⊢
      dsimp only at this ⊢
      rw [modify_set]
      convert this using 3
      split <;> rfl
    | first j m o rest h1 =>
      have := FsSys.Step.first (c := cs) (path := path) (s := s.more i c) j m o _ (modify_get h1)
      unfold FsSys.more at this ⊢
      dsimp only at this ⊢
      rw [modify_set]
      convert this using 3
      split <;> rfl
    | work j m o rest p p' g h1 h2 =>
      have := FsSys.Step.work (c := cs) (path := path) (s := s.more i c) j m o _ p p' g (modify_get h1) h2
      unfold FsSys.more at this ⊢
      dsimp only at this ⊢
      rw [modify_set]
      convert this using 3
      split <;> rfl
    | finish j m o rest r a a' p h1 h2 h3 =>
      have := FsSys.Step.finish (c := cs) (path := path) (s := s.more i c) j m o _ r a a' p (modify_get h1) h2 h3
      unfold FsSys.more at this ⊢
      dsimp only at this ⊢
      rw [modify_set]
      convert this using 3
      split <;> rfl
    | done j a h1 h2 => exact .done j a h1 h2

end Rothko
