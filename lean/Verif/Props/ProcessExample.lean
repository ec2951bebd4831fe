import Verif.Props.ProcessEnds
import Verif.Props.SharedExample
/-!
# C97: a schedule
-/
namespace Rothko

/-- What is done next. -/
inductive PChoice
  | op (o : POp)
  | offer
  | recv (i : Nat)
  | ask (i : Nat) (m : Bytes) (q : Option (Int64 × (List Val → Val → Cb)) := none)   -- a query, or the latest value
  | go (i : Nat)
  | answer (i : Nat)
  | wait

/-- What is asked. -/
def askOf (cfg : Cfg) : Option (Int64 × (List Val → Val → Cb)) → DbCall
  | none => .latest cfg
  | some (bound, cb) => .query cfg bound cb

theorem askOf_reads (cfg : Cfg) (q : Option (Int64 × (List Val → Val → Cb))) : (askOf cfg q).Reads cfg := by
  cases q <;> exact rfl

/-- The step chosen, if it is possible. -/
def Proc.next (c : ProcCfg) (s : Proc) : PChoice → Option Proc
  | .op (.add m ob now) => some { s with w := (WOp.add m ob now).run c.pipe.d s.w }
  | .op (.dump order now taken) => if s.dumping then none else some { s with w := (WOp.capture order now).run c.pipe.d s.w, todo := capturedVals c.pipe.d s.w order now, taken, dumping := true }
  | .op .restart => if s.dumping = false ∧ s.sys.cl.all (fun x => match x with | ⟨[], .out⟩ => true | _ => false) = true then some (Proc.init c s.sys.g.fs) else none
  | .op (.query _ _ _) => none
  | .offer => match s.todo with
    | [] => none
    | x :: rest => some { s with todo := rest, queue := s.queue ++ [x], wg := s.wg + 1 }
  | .recv i => match s.hands[i]?, s.queue with
    | some .free, x :: rest => if s.taken x.1 then some { s with queue := rest, hands := s.hands.set i (.busy x.1 x.2), sys := { s.sys with cl := s.sys.cl.set i ⟨[(x.1, .write c.pipe.cfg x.2)], .out⟩ } } else none
    | _, _ => none
  | .ask i m q => match s.sys.cl[i]? with
    | some ⟨[], .out⟩ => if c.workers ≤ i then some { s with sys := { s.sys with cl := s.sys.cl.set i ⟨[(m, askOf c.pipe.cfg q)], .out⟩ } } else none
    | _ => none
  | .go i => match s.sys.next (dbPath c.dir) i with
    | none => none
    | some sys => if c.workers ≤ i ∨ sys.log.length = s.sys.log.length then some { s with sys } else match s.hands[i]? with
      | some (.busy _ _) => some { s with sys, hands := s.hands.set i .wrote }
      | _ => none
  | .answer i => match s.hands[i]?, s.sys.pool.pcs[i]? with
    | some .wrote, some .idle => some { s with hands := s.hands.set i .free, wg := s.wg - 1 }
    | _, _ => none
  | .wait => if s.dumping = true ∧ s.todo = [] ∧ s.wg = 0 then some { s with dumping := false } else none

/-- The operation of Model/Pipe that it is. -/
def PChoice.label : PChoice → Option POp
  | .op o => some o
  | _ => none

theorem next_log {path : Bytes → Int → Bytes} {s s' : FsSys DbCall DbRes} {i : Nat} (h : s.next path i = some s') : s'.log = s.log ∨ ∃ e, s'.log = s.log ++ [(i, e)] := by
  unfold FsSys.next at h
  split at h
  · cases h; exact .inl rfl
  · split at h
    · cases h; exact .inl rfl
    · cases h
  · cases h; exact .inl rfl
  · split at h
    · cases h
    · split at h
      · cases h; exact .inr ⟨_, rfl⟩
      · cases h
  · split at h
    · cases h
    · cases h; exact .inl rfl
  · split at h
    · cases h; exact .inl rfl
    · cases h
  · cases h

theorem next_proc {c : ProcCfg} {s s' : Proc} {x : PChoice} (h : s.next c x = some s') : s.Step c x.label s' := by
  cases x with
  | op o =>
    cases o with
    | add m ob now => cases h; exact .add m ob now
    | dump order now taken =>
      unfold Proc.next at h
      dsimp only at h
      split at h
      · cases h
      · rename_i hd; cases h; exact .dump order now taken (by simpa using hd)
    | query => cases h
    | restart =>
      unfold Proc.next at h
      dsimp only at h
      split at h
      · rename_i hd
        cases h
        refine .restart hd.1 (fun x hx => ?_)
        have := List.all_eq_true.mp hd.2 x hx
        split at this
        · rfl
        · cases this
      · cases h
  | offer =>
    unfold Proc.next at h
    dsimp only at h
    split at h
    · cases h
    · rename_i e; cases h; exact .offer _ _ e
  | recv i =>
    unfold Proc.next at h
    dsimp only at h
    split at h
    · rename_i e1 e2
      split at h
      · rename_i ht; cases h; exact .recv i _ _ e1 e2 ht
      · cases h
    · cases h
  | ask i m q =>
    unfold Proc.next at h
    dsimp only at h
    split at h
    · rename_i e
      split at h
      · rename_i hw; cases h; exact .ask i m _ hw e (askOf_reads _ _)
      · cases h
    · cases h
  | go i =>
    unfold Proc.next at h
    dsimp only at h
    split at h
    · cases h
    · rename_i sys e
      have hl := next_log e
      split at h
      · rename_i hc
        cases h
        refine .db _ (next_step e) (fun x hx => ?_)
        rcases hl with hl | ⟨y, hl⟩
        · rw [hl] at hx
          have := congrArg List.length hx
          simp at this
        · rcases hc with hc | hc
          · rw [hl] at hx
            have := List.append_cancel_left hx
            injection this with this _
            rw [← this]
            exact hc
          · rw [hl, List.length_append, List.length_singleton] at hc
            omega
      · rename_i hc
        split at h
        · rename_i m v eh
          cases h
          rcases hl with hl | ⟨y, hl⟩
          · exact absurd (Or.inr (by rw [hl])) hc
          · exact .wrote i _ y m v (next_step e) hl eh
        · cases h
  | answer i =>
    unfold Proc.next at h
    dsimp only at h
    split at h
    · rename_i e1 e2; cases h; exact .answer i e1 e2
    · cases h
  | wait =>
    unfold Proc.next at h
    dsimp only at h
    split at h
    · rename_i e; cases h; exact .wait e.1 e.2.1 e.2.2
    · cases h

/-- The steps of a schedule; those that are not possible are left out. -/
def Proc.follow (c : ProcCfg) (s : Proc) : List PChoice → Option Proc
  | [] => some s
  | x :: l => match s.next c x with
    | none => if x.label.isNone then s.follow c l else none
    | some s' => s'.follow c l

theorem follow_proc {c : ProcCfg} {fs : Bytes → Store} (l : List PChoice) : ∀ {ops : List POp} {s s' : Proc}, Proc.Reach c fs ops s → s.follow c l = some s' → Proc.Reach c fs (ops ++ l.filterMap PChoice.label) s' := by
  induction l with
  | nil => intro ops s s' h e; cases e; simpa using h
  | cons x l ih =>
    intro ops s s' h e
    unfold Proc.follow at e
    rw [List.filterMap_cons]
    split at e
    · split at e
      · rename_i hx
        have := ih h e
        rw [Option.isNone_iff_eq_none.mp hx]
        exact this
      · cases e
    · rename_i s1 e1
      have := ih (.step h (next_proc e1)) e
      rw [List.append_assoc] at this
      cases hx : x.label with
      | none => rw [hx] at this; exact this
      | some o => rw [hx] at this; exact this

/-- Two workers, room for one handle in the cache, one request. -/
def exProc : ProcCfg := { pipe := exPipe, dir := [47, 100], handles := 1, workers := 2, clients := 3 }

/-- All goroutines take turns, for as long as they can. -/
def exTurns (k : Nat) : List PChoice := (List.replicate k [.go 0, .go 1, .go 2, .answer 0, .answer 1]).flatten

/-- Two metrics are observed and dumped; while the two workers write them, the latest value of the first is asked for twice and another observation is added. Another dump; another process is started, and the latest value asked for. -/
def exChoices : List PChoice :=
  [.op (.add [97] ⟨0x4000000000000000#64, [1], 0⟩ 10), .op (.add [98] ⟨0x3ff0000000000000#64, [2], 1⟩ 11), .op (.dump id 20 (fun _ => true)), .offer, .recv 1, .offer, .recv 0, .go 2, .ask 2 [97]] ++ exTurns 6 ++
  [.op (.add [97] ⟨0x4008000000000000#64, [], 2⟩ 25)] ++ exTurns 14 ++ [.wait, .op (.dump List.reverse 30 (fun _ => true)), .ask 2 [97]] ++ exTurns 10 ++ [.offer, .recv 0] ++ exTurns 12 ++
  [.wait, .op .restart, .ask 2 [97]] ++ exTurns 10

/-- What was observed, dumped and restarted. -/
def exProcOps : List POp :=
  [.add [97] ⟨0x4000000000000000#64, [1], 0⟩ 10, .add [98] ⟨0x3ff0000000000000#64, [2], 1⟩ 11, .dump id 20 (fun _ => true), .add [97] ⟨0x4008000000000000#64, [], 2⟩ 25, .dump List.reverse 30 (fun _ => true), .restart]

/-- Who returned, for which metric, and the latest value given back. -/
def exSeen (s : Proc) : List (Nat × Bytes × Option ((Int64 × Int64 × Int64) × (BitVec 64 × Bytes × BitVec 64))) :=
  s.sys.log.map (fun e => (e.1, e.2.1, match e.2.2.2 with | .latest (some v) _ => some (exView v) | _ => none))

set_option maxRecDepth 100000 in
set_option synthInstance.maxSize 2000 in
set_option synthInstance.maxHeartbeats 200000 in
theorem exProc_middle : ((Proc.init exProc (freshFs (fun _ => false) (fun _ _ => false))).follow exProc (exChoices.take 216)).map (fun s => (exSeen s, s.dumping, s.wg)) =
    some ([(0, [98], none), (1, [97], none), (2, [97], some ((10, 20, 1), 0x4000000000000000#64, [1], 0x4000000000000000#64)), (2, [97], some ((10, 20, 1), 0x4000000000000000#64, [1], 0x4000000000000000#64)), (0, [97], none)], true, 1) := by
  decide +kernel

set_option maxRecDepth 100000 in
set_option synthInstance.maxSize 2000 in
set_option synthInstance.maxHeartbeats 200000 in
theorem exProc_end : ((Proc.init exProc (freshFs (fun _ => false) (fun _ _ => false))).follow exProc exChoices).map (fun s => (exSeen s, s.dumping, s.wg)) =
    some ([(2, [97], some ((20, 30, 1), 0x4008000000000000#64, [], 0x4008000000000000#64))], false, 0) := by
  decide +kernel

theorem exProc_ok : ProcOk exProc 1 exProcOps := by
  obtain ⟨f1, _, _, f4⟩ := C70_example_hyps
  refine ⟨by decide, by decide, rfl, f4, f1, ?_, by decide, by decide⟩
  intro op hop
  simp only [exProcOps, List.mem_cons, List.not_mem_nil, or_false] at hop
  rcases hop with rfl | rfl | rfl | rfl | rfl | rfl
  · exact Nat.le_refl _
  · exact Nat.le_refl _
  · exact fun l => List.Perm.refl l
  · exact Nat.zero_le _
  · exact fun l => List.reverse_perm l
  · trivial

set_option maxRecDepth 100000 in
/-- The hypotheses of C97 are met by a process with two workers and a request. In the middle of its second dump the value of the first dump was given back twice, once while the new value was captured and not yet written; after
another start the new value is given back. -/
theorem C97_example : ProcOk exProc 1 exProcOps ∧
    (∃ s, Proc.Reach exProc (freshFs (fun _ => false) (fun _ _ => false)) exProcOps.dropLast s ∧ s.dumping = true ∧ exSeen s =
      [(0, [98], none), (1, [97], none), (2, [97], some ((10, 20, 1), 0x4000000000000000#64, [1], 0x4000000000000000#64)), (2, [97], some ((10, 20, 1), 0x4000000000000000#64, [1], 0x4000000000000000#64)), (0, [97], none)]) ∧
    ∃ s, Proc.Reach exProc (freshFs (fun _ => false) (fun _ _ => false)) exProcOps s ∧ s.dumping = false ∧ exSeen s = [(2, [97], some ((20, 30, 1), 0x4008000000000000#64, [], 0x4008000000000000#64))] := by
  refine ⟨exProc_ok, ?_, ?_⟩
  · have h := exProc_middle
    cases e : (Proc.init exProc (freshFs (fun _ => false) (fun _ _ => false))).follow exProc (exChoices.take 216) with
    | none => rw [e] at h; cases h
    | some s =>
      rw [e] at h
      injection h with h
      injection h with h1 h2
      injection h2 with h2 _
      have hr := follow_proc _ .start e
      rw [List.nil_append] at hr
      exact ⟨s, hr, h2, h1⟩
  · have h := exProc_end
    cases e : (Proc.init exProc (freshFs (fun _ => false) (fun _ _ => false))).follow exProc exChoices with
    | none => rw [e] at h; cases h
    | some s =>
      rw [e] at h
      injection h with h
      injection h with h1 h2
      injection h2 with h2 _
      have hr := follow_proc _ .start e
      rw [List.nil_append] at hr
      exact ⟨s, hr, h2, h1⟩

end Rothko
