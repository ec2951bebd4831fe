import Verif.Model.External
/-! # C130: every log line and observation goes to the resource in force, and a missing one is no panic -/
namespace Rothko

/-! ## Specification -/

/-- The logger in force after a history: the one set last, if any. -/
def loggerAfter {L M X V : Type} (ops : List (ExtOp L M X V)) : Option L :=
  (ops.filterMap fun | .set r => some r.logger | .setLogger l => some l | _ => none).getLast?.join

/-- The monitor in force after a history: the one set last, if any. -/
def monitorAfter {L M X V : Type} (ops : List (ExtOp L M X V)) : Option M :=
  (ops.filterMap fun | .set r => some r.monitor | .setMonitor m => some m | _ => none).getLast?.join

/-- What the `i`th thing of a history makes some resource see. -/
def seenAt {L M X V : Type} (ops : List (ExtOp L M X V)) (i : Nat) : Option (ExtCall L M X V) :=
  match ops[i]? with
  | some (.infow msg kv) => (loggerAfter (ops.take i)).map fun l => .infow l msg kv
  | some (.errorw msg kv) => (loggerAfter (ops.take i)).map fun l => .errorw l msg kv
  | some (.observe name v) => (monitorAfter (ops.take i)).map fun m => .observe m name v
  | _ => none

/-- What a logger and a monitor see of one thing done, if they are in force. -/
def seenBy {L M X V : Type} (l : L) (m : M) : ExtOp L M X V → Option (ExtCall L M X V)
  | .infow msg kv => some (.infow l msg kv)
  | .errorw msg kv => some (.errorw l msg kv)
  | .observe name v => some (.observe m name v)
  | _ => none

/-! ## Proofs -/

theorem ext_run_snoc {L M X V : Type} (s : ExtState L M X V) (ops : List (ExtOp L M X V)) (op : ExtOp L M X V) :
    s.run (ops ++ [op]) = (s.run ops).bind fun s' => s'.op op := by
  induction ops generalizing s with
  | nil => simp only [List.nil_append, ExtState.run, Option.bind]; cases s.op op <;> rfl
  | cons o ops ih =>
    simp only [List.cons_append, ExtState.run]
    cases s.op o with
    | none => rfl
    | some s' => exact ih s'

theorem ext_op {L M X V : Type} (ops : List (ExtOp L M X V)) (op : ExtOp L M X V) (log : List (ExtCall L M X V)) :
    ∃ s', (⟨⟨loggerAfter ops, monitorAfter ops⟩, log⟩ : ExtState L M X V).op op = some s' ∧
      s'.dflt = ⟨loggerAfter (ops ++ [op]), monitorAfter (ops ++ [op])⟩ ∧
      s'.log = log ++ (seenAt (ops ++ [op]) ops.length).toList := by
  cases op with
  | set r => exact ⟨_, rfl, by simp [loggerAfter, monitorAfter], by simp [seenAt]⟩
  | setLogger r => exact ⟨_, rfl, by simp [loggerAfter, monitorAfter], by simp [seenAt]⟩
  | setMonitor r => exact ⟨_, rfl, by simp [loggerAfter, monitorAfter], by simp [seenAt]⟩
  | infow msg kv =>
    have e1 : loggerAfter (ops ++ [.infow msg kv]) = loggerAfter ops := by simp [loggerAfter]
    have e2 : monitorAfter (ops ++ [.infow msg kv]) = monitorAfter ops := by simp [monitorAfter]
    rw [e1, e2]
    cases h : loggerAfter ops with
    | none => exact ⟨_, rfl, rfl, by simp [seenAt, h]⟩
    | some l => exact ⟨_, rfl, rfl, by simp [seenAt, h]⟩
  | errorw msg kv =>
    have e1 : loggerAfter (ops ++ [.errorw msg kv]) = loggerAfter ops := by simp [loggerAfter]
    have e2 : monitorAfter (ops ++ [.errorw msg kv]) = monitorAfter ops := by simp [monitorAfter]
    rw [e1, e2]
    cases h : loggerAfter ops with
    | none => exact ⟨_, rfl, rfl, by simp [seenAt, h]⟩
    | some l => exact ⟨_, rfl, rfl, by simp [seenAt, h]⟩
  | observe n v =>
    have e1 : loggerAfter (ops ++ [.observe n v]) = loggerAfter ops := by simp [loggerAfter]
    have e2 : monitorAfter (ops ++ [.observe n v]) = monitorAfter ops := by simp [monitorAfter]
    rw [e1, e2]
    cases h : monitorAfter ops with
    | none => exact ⟨_, rfl, rfl, by simp [seenAt, h]⟩
    | some l => exact ⟨_, rfl, rfl, by simp [seenAt, h]⟩

theorem fm_congr {α β : Type} {f g : α → Option β} (l : List α) (h : ∀ x ∈ l, f x = g x) : l.filterMap f = l.filterMap g := by
  induction l with
  | nil => rfl
  | cons a l ih => rw [List.filterMap_cons, List.filterMap_cons, h a (by simp), ih fun x hx => h x (by simp [hx])]

theorem ext_all {L M X V : Type} (n : Nat) : ∀ ops : List (ExtOp L M X V), ops.length = n →
    ∃ s, ExtState.init.run ops = some s ∧ s.dflt = ⟨loggerAfter ops, monitorAfter ops⟩ ∧
      s.log = (List.range ops.length).filterMap (seenAt ops) := by
  induction n with
  | zero =>
    intro ops h
    obtain rfl := List.length_eq_zero_iff.mp h
    exact ⟨_, rfl, rfl, rfl⟩
  | succ n ih =>
    intro ops h
    obtain ⟨init, op, rfl⟩ : ∃ init op, ops = init ++ [op] :=
      by
      rcases List.eq_nil_or_concat ops with rfl | ⟨i, o, rfl⟩
      · simp at h
      · exact ⟨i, o, by simp⟩
    have hl : init.length = n := by simpa using h
    obtain ⟨⟨d, log⟩, h1, rfl, h3⟩ := ih init hl
    obtain ⟨s', h4, h5, h6⟩ := ext_op init op log
    refine ⟨s', by rw [ext_run_snoc, h1]; exact h4, h5, ?_⟩
    dsimp only at h3
    rw [h6, h3]
    rw [List.length_append, List.length_singleton, List.range_succ, List.filterMap_append]
    congr 1
    · refine fm_congr _ fun i hi => ?_
      have hi : i < init.length := List.mem_range.mp hi
      have hg : (init ++ [op])[i]? = init[i]? := List.getElem?_append_left hi
      have ht : (init ++ [op]).take i = init.take i := by rw [List.take_append_of_le_length (Nat.le_of_lt hi)]
      simp only [seenAt, hg, ht]

/-- **C130.** However often the resources are replaced: no call panics, and what the loggers and monitors got is exactly, in order, every call made while one was in force, given to the one in force. -/
theorem C130_delivered {L M X V : Type} (ops : List (ExtOp L M X V)) :
    ∃ s, ExtState.init.run ops = some s ∧ s.log = (List.range ops.length).filterMap (seenAt ops) := by
  obtain ⟨s, h1, -, h3⟩ := ext_all ops.length ops rfl
  exact ⟨s, h1, h3⟩

/-- With one logger and one monitor set before everything else, every call is seen, once, in order. -/
theorem C130_all {L M X V : Type} (l : L) (m : M) (ops : List (ExtOp L M X V))
    (h : ∀ op ∈ ops, ∀ r, op ≠ .set r) (hl : ∀ op ∈ ops, ∀ r, op ≠ .setLogger r) (hm : ∀ op ∈ ops, ∀ r, op ≠ .setMonitor r) :
    ∃ s, ExtState.init.run (.set ⟨some l, some m⟩ :: ops) = some s ∧
      s.log = ops.filterMap (seenBy l m) := by
  have key : ∀ (log : List (ExtCall L M X V)), ∃ s, (⟨⟨some l, some m⟩, log⟩ : ExtState L M X V).run ops = some s ∧
      s.log = log ++ ops.filterMap (seenBy l m) := by
    induction ops with
    | nil => intro log; exact ⟨_, rfl, by simp⟩
    | cons op ops ih =>
      intro log
      have ih := ih (fun o ho => h o (List.mem_cons_of_mem _ ho)) (fun o ho => hl o (List.mem_cons_of_mem _ ho)) (fun o ho => hm o (List.mem_cons_of_mem _ ho))
      cases op with
      | set r => exact absurd rfl (h _ List.mem_cons_self r)
      | setLogger r => exact absurd rfl (hl _ List.mem_cons_self r)
      | setMonitor r => exact absurd rfl (hm _ List.mem_cons_self r)
      | infow msg kv => obtain ⟨s, h1, h2⟩ := ih (log ++ [.infow l msg kv]); exact ⟨s, h1, by rw [h2]; simp [seenBy]⟩
      | errorw msg kv => obtain ⟨s, h1, h2⟩ := ih (log ++ [.errorw l msg kv]); exact ⟨s, h1, by rw [h2]; simp [seenBy]⟩
      | observe n v => obtain ⟨s, h1, h2⟩ := ih (log ++ [.observe m n v]); exact ⟨s, h1, by rw [h2]; simp [seenBy]⟩
  obtain ⟨s, h1, h2⟩ := key []
  exact ⟨s, h1, by simpa using h2⟩

/-! ## A case -/

/-- A line before there is a logger, one to the first, one to the second, an observation with no monitor, and one with. -/
theorem C130_example :
    (ExtState.init.run [.infow [97] 0, .setLogger (some 1), .infow [98] 1, .set ⟨some 2, none⟩, .errorw [99] 2, .observe [100] 7, .setMonitor (some 3), .observe [101] 8, .setLogger none, .infow [102] 3]
      : Option (ExtState Nat Nat Nat Nat)).map (·.log) = some [.infow 1 [98] 1, .errorw 2 [99] 2, .observe 3 [101] 8] := rfl

end Rothko
