import Verif.Props.Whole
import Verif.Props.ProcessExample
/-!
# C110: a schedule
-/
namespace Rothko

/-- Nobody lists or scans, as a test. -/
def NSys.isQuiet (s : NSys) : Bool := s.mets.all (fun pc => !pc.busy) && s.pops.all (fun pc => !pc.busy)

theorem isQuiet_quiet {s : NSys} (h : s.isQuiet = true) : s.quiet := by
  unfold NSys.isQuiet at h
  rw [Bool.and_eq_true] at h
  exact namesQuiet_of h.1 h.2

/-- The next step of a write. -/
def NSys.goW (s : NSys) (k : Nat) : Option NSys :=
  match s.writers[k]? with
  | some (.wrote i x) => if s.published x = true then some ((s.ack x).setW k (.acked x)) else some (s.setW k (.adding i x))
  | some (.adding i x) => match s.namesW[i]? with
    | some p => some (((s.put p ((s.heap p).add x)).ack x).setW k (.acked x))
    | none => none
  | _ => none

theorem goW_step {s s' : NSys} {k : Nat} (h : s.goW k = some s') : s.Step true s' ∧ s'.disk = s.disk := by
  unfold NSys.goW at h
  split at h
  · rename_i i x e
    split at h
    · rename_i hp; cases h; exact ⟨.known k i x e hp, rfl⟩
    · rename_i hp; cases h; exact ⟨.unknown k i x e (by simpa using hp), rfl⟩
  · rename_i i x e
    split at h
    · rename_i p e2; cases h; exact ⟨.add k i p x e e2, rfl⟩
    · cases h
  · cases h

/-- The next step of a `Metrics` call. -/
def NSys.goM (s : NSys) (k : Nat) : Option NSys :=
  match s.mets[k]? with
  | some .start => if s.isQuiet then match s.names with
    | some q => some (s.setM k (.loop s.acked 0 q false))
    | none => some (({ s.put s.next .new with next := s.next + 1 } : NSys).setM k (.loop s.acked 0 s.next false))
    else none
  | some (.loop a0 i ptr copied) => match s.namesW[i]? with
    | some p => some (s.setM k (.have_ a0 i ptr copied p))
    | none => if s.namesW.length ≤ i then (if copied then some (({ s with names := some ptr, mu := false } : NSys).setM k (.done a0 (s.heap ptr).order)) else some (s.setM k (.done a0 (s.heap ptr).order))) else none
  | some (.have_ a0 i ptr copied p) => if (s.heap p).len = 0 then some (s.setM k (.loop a0 (i + 1) ptr copied)) else if copied then some (s.setM k (.wantW a0 i ptr true p)) else some (s.setM k (.wantMu a0 i ptr p))
  | some (.wantMu a0 i ptr p) => if s.mu = false then some (({ s with mu := true } : NSys).setM k (.wantW a0 i ptr false p)) else none
  | some (.wantW a0 i ptr copied p) =>
    some (({ ((s.target ptr copied).1.put (s.target ptr copied).2 (((s.target ptr copied).1.heap (s.target ptr copied).2).merge ((s.target ptr copied).1.heap p))).put (s.target ptr copied).1.next .new with
      next := (s.target ptr copied).1.next + 1, namesW := (s.target ptr copied).1.namesW.set i (s.target ptr copied).1.next } : NSys).setM k (.loop a0 (i + 1) (s.target ptr copied).2 true))
  | _ => none

theorem goM_step {s s' : NSys} {k : Nat} (h : s.goM k = some s') : s.Step true s' ∧ s'.disk = s.disk := by
  unfold NSys.goM at h
  split at h
  · rename_i e
    split at h
    · rename_i hq
      have hq := isQuiet_quiet hq
      split at h
      · rename_i q e2; cases h; exact ⟨.begin k q (fun _ => hq) e e2, rfl⟩
      · rename_i e2; cases h; exact ⟨.beginNew k (fun _ => hq) e e2, rfl⟩
    · cases h
  · rename_i a0 i ptr copied e
    split at h
    · rename_i p e2; cases h; exact ⟨.range k i ptr p a0 copied e e2, rfl⟩
    · split at h
      · rename_i hl
        split at h
        · rename_i hc; subst hc; cases h; exact ⟨.finish k ptr i a0 e hl, rfl⟩
        · rename_i hc
          have hc : copied = false := by simpa using hc
          subst hc; cases h; exact ⟨.finishClean k ptr i a0 e hl, rfl⟩
      · cases h
  · rename_i a0 i ptr copied p e
    split at h
    · rename_i hl; cases h; exact ⟨.skip k i ptr p a0 copied e hl, rfl⟩
    · rename_i hl
      split at h
      · rename_i hc; subst hc; cases h; exact ⟨.needLocked k i ptr p a0 e hl, rfl⟩
      · rename_i hc
        have hc : copied = false := by simpa using hc
        subst hc; cases h; exact ⟨.need k i ptr p a0 e hl, rfl⟩
  · rename_i a0 i ptr p e
    split at h
    · rename_i hm; cases h; exact ⟨.lock k i ptr p a0 e hm, rfl⟩
    · cases h
  · rename_i a0 i ptr copied p e
    have h := Option.some.inj h
    subst h
    refine ⟨.merge k i ptr p a0 copied _ _ e rfl, ?_⟩
    show (s.target ptr copied).1.disk = s.disk
    unfold NSys.target
    split
    · rfl
    · split
      · split <;> rfl
      · rfl
  · cases h

/-- The next step of a scan. -/
def NSys.goP (s : NSys) (k : Nat) : Option NSys :=
  match s.pops[k]? with
  | some .start => if s.isQuiet then some (s.setP k (.scan s.disk)) else none
  | some (.scan base) => if s.mu = false ∧ ∀ x ∈ base, x ∈ s.disk then
      some (({ s.put s.next (s.disk.foldl SSet.add .new) with next := s.next + 1, names := some s.next, acked := s.disk ++ s.acked } : NSys).setP k (.done true)) else none
  | _ => none

theorem goP_step {s s' : NSys} {k : Nat} (h : s.goP k = some s') : s.Step true s' ∧ s'.disk = s.disk := by
  unfold NSys.goP at h
  split at h
  · rename_i e
    split at h
    · rename_i hq; cases h; exact ⟨.scan k (fun _ => isQuiet_quiet hq) e, rfl⟩
    · cases h
  · rename_i base e
    split at h
    · rename_i hc; cases h; exact ⟨.publish k base s.disk e hc.1 hc.2 (fun x hx => hx), rfl⟩
    · cases h
  · cases h

/-- What is done next. -/
inductive WChoice
  | p (x : PChoice)
  | create (i : Nat)
  | w (k : Nat)
  | m (k : Nat)
  | s (k : Nat)

/-- The operation of Model/Pipe that it is. -/
def WChoice.label : WChoice → Option POp
  | .p x => x.label
  | _ => none

def Hand.isWrote : Hand → Bool
  | .wrote => true
  | _ => false

def NwPc.isIdle : NwPc → Bool
  | .idle => true
  | _ => false

def NwPc.isAcked : NwPc → Bool
  | .acked _ => true
  | _ => false

/-- The worker may answer. -/
def Whole.hasAck (w : Whole) (i : Nat) : Bool :=
  match w.slot i with
  | none => true
  | some k => ((w.n.writers[k]?).map NwPc.isAcked).getD false

/-- The step chosen, if it is possible. -/
def Whole.next (c : ProcCfg) (w : Whole) : WChoice → Option Whole
  | .create i => match w.p.hands[i]? with
    | some (.busy m _) => some { w with n := { w.n with disk := m :: w.n.disk } }
    | _ => none
  | .w k => (w.n.goW k).map (fun n => { w with n })
  | .m k => (w.n.goM k).map (fun n => { w with n })
  | .s k => (w.n.goP k).map (fun n => { w with n })
  | .p x => match w.p.next c x with
    | none => none
    | some p' => match x with
      | .op .restart => some { p := p', n := NSys.init c.workers w.n.disk 3 2 1, slot := fun _ => none, base := w.n.disk }
      | .answer i =>
        if w.p.hands[i]? = some .wrote ∧ p'.hands[i]? = some .free ∧ w.hasAck i = true then some { w with p := p' } else none
      | x => if w.p.hands.map Hand.isWrote = p'.hands.map Hand.isWrote then some { w with p := p' } else match x with
        | .go i => match w.p.hands[i]?, w.n.writers.findIdx? NwPc.isIdle with
          | some (.busy m _), some k => if p'.hands[i]? = some .wrote then
              some { w with p := p', n := ({ w.n with disk := m :: w.n.disk } : NSys).setW k (.wrote i m), slot := fun j => if j = i then some k else w.slot j } else none
          | _, _ => none
        | _ => none

theorem isWrote_iff {l l' : List Hand} (h : l.map Hand.isWrote = l'.map Hand.isWrote) (i : Nat) : l[i]? = some Hand.wrote ↔ l'[i]? = some Hand.wrote := by
  have e : (l[i]?).map Hand.isWrote = (l'[i]?).map Hand.isWrote := by rw [← List.getElem?_map, ← List.getElem?_map, h]
  have key : ∀ o : Option Hand, o = some Hand.wrote ↔ o.map Hand.isWrote = some true := by
    intro o
    cases o with
    | none => simp
    | some a => cases a <;> simp [Hand.isWrote]
  rw [key, key, e]

theorem findIdle {l : List NwPc} {k : Nat} (h : l.findIdx? NwPc.isIdle = some k) : l[k]? = some .idle := by
  obtain ⟨hk, h1, _⟩ := List.findIdx?_eq_some_iff_getElem.mp h
  rw [List.getElem?_eq_getElem hk]
  cases e : l[k] with
  | idle => rfl
  | _ => rw [e] at h1; cases h1

theorem next_whole {c : ProcCfg} {K : Nat} {ops : List POp} {t : PSpec} {w w' : Whole} {x : WChoice} (inv : ProcInv c K t w.p) (hok : ProcOk c K ops) (h : w.next c x = some w') : w.Step c true x.label w' := by
  cases x with
  | create i =>
    unfold Whole.next at h
    dsimp only at h
    split at h
    · rename_i m v e; cases h; exact .create i m v e
    · cases h
  | w k =>
    obtain ⟨n, e, rfl⟩ := Option.map_eq_some_iff.mp h
    exact .names n (goW_step e).1 (goW_step e).2
  | m k =>
    obtain ⟨n, e, rfl⟩ := Option.map_eq_some_iff.mp h
    exact .names n (goM_step e).1 (goM_step e).2
  | s k =>
    obtain ⟨n, e, rfl⟩ := Option.map_eq_some_iff.mp h
    exact .names n (goP_step e).1 (goP_step e).2
  | p x =>
    unfold Whole.next at h
    dsimp only at h
    split at h
    · cases h
    rename_i p' e
    have hs := next_proc e
    split at h
    · cases h
      exact .restart p' 3 2 1 hs
    · rename_i i
      split at h
      · rename_i hc
        cases h
        refine .answer i p' hs hc.1 hc.2.1 (fun k hk => ?_)
        have h3 := hc.2.2
        unfold Whole.hasAck at h3
        rw [hk] at h3
        dsimp only at h3
        cases hw : w.n.writers[k]? with
        | none => rw [hw] at h3; cases h3
        | some pc =>
          rw [hw] at h3
          cases pc with
          | acked m => exact ⟨m, rfl⟩
          | _ => cases h3
      · cases h
    · rename_i hx1 hx2
      split at h
      · rename_i hc
        cases h
        refine .run _ p' hs ?_ (isWrote_iff hc)
        intro hl
        cases x with
        | op o => cases hl; exact hx1 rfl
        | _ => cases hl
      · split at h
        · rename_i i
          split at h
          · rename_i m v k e1 e2
            split at h
            · rename_i e3
              cases h
              exact .wrote i k m v p' hs e1 e3 (lastOk_of inv hok hs e1 e3) (findIdle e2)
            · cases h
          · cases h
        · cases h

/-- The steps of a schedule; those that are not possible are left out. -/
def Whole.follow (c : ProcCfg) (w : Whole) : List WChoice → Option Whole
  | [] => some w
  | x :: l => match w.next c x with
    | none => if x.label.isNone then w.follow c l else none
    | some w' => w'.follow c l

theorem follow_whole {c : ProcCfg} {K : Nat} {de : Bytes → Bool} {hit : Bytes → Nat → Bool} {nw nm np : Nat} (l : List WChoice) : ∀ {ops : List POp} {w w' : Whole},
    Whole.Goes c true (Whole.init c (freshFs de hit) nw nm np) ops w → ProcOk c K (ops ++ l.filterMap WChoice.label) → w.follow c l = some w' → Whole.Goes c true w (l.filterMap WChoice.label) w' := by
  have pre : ∀ {w0 w1 w2 : Whole} {l : Option POp} {more : List POp}, w0.Step c true l w1 → Whole.Goes c true w1 more w2 → Whole.Goes c true w0 (l.toList ++ more) w2 := by
    intro w0 w1 w2 l more h1 h2
    have := (Whole.Goes.here.step h1).trans h2
    simpa using this
  induction l with
  | nil => intro ops w w' h _ e; cases e; exact .here
  | cons x l ih =>
    intro ops w w' h hok e
    unfold Whole.follow at e
    rw [List.filterMap_cons] at hok ⊢
    split at e
    · split at e
      · rename_i hx
        rw [Option.isNone_iff_eq_none.mp hx] at hok ⊢
        exact ih h hok e
      · cases e
    · rename_i w1 e1
      have hok' : ProcOk c K (ops ++ x.label.toList ++ l.filterMap WChoice.label) := by
        cases hx : x.label <;> simp [hx] at hok ⊢ <;> exact hok
      have inv := procInv_reach (freshFs_after c.pipe.cfg de hit) (whole_reach h) hok'.left.left
      have hst := next_whole inv hok'.left.left e1
      have h3 := ih (h.step hst) hok' e
      have h4 := pre hst h3
      cases hx : x.label with
      | none => rw [hx] at h4; exact h4
      | some o => rw [hx] at h4; exact h4

/-- All goroutines take turns, for as long as they can. -/
def exAll (k : Nat) : List WChoice := (List.replicate k [.p (.go 0), .p (.go 1), .w 0, .w 1, .w 2, .p (.answer 0), .p (.answer 1)]).flatten

/-- A call of `Metrics` goes on as far as it can. -/
def exList (k : Nat) : List WChoice := List.replicate 9 (.m k)

/-- Two metrics are observed and dumped; while they are written a `Metrics` call begins. Then another process starts, scans the database (`exWholeA`), a third metric is observed, and a `Metrics` call is made (`exWholeB`). -/
def exWholeA : List WChoice :=
  [.p (.op (.add [98] ⟨0x4000000000000000#64, [1], 0⟩ 10)), .p (.op (.add [97] ⟨0x3ff0000000000000#64, [2], 1⟩ 11)), .p (.op (.dump id 20 (fun _ => true))), .p .offer, .p (.recv 1), .create 1, .p .offer, .p (.recv 0)] ++ exAll 8 ++
  [.m 0, .m 0] ++ exAll 12 ++ exList 0 ++ [.p .wait, .p (.op .restart), .s 0, .s 0]

def exWholeB : List WChoice := [.p (.op (.add [99] ⟨0x4008000000000000#64, [], 2⟩ 25))] ++ exList 1

/-- What was observed, dumped and restarted. -/
def exWholeOps : List POp := [.add [98] ⟨0x4000000000000000#64, [1], 0⟩ 10, .add [97] ⟨0x3ff0000000000000#64, [2], 1⟩ 11, .dump id 20 (fun _ => true), .restart]
def exWholeMore : List POp := [.add [99] ⟨0x4008000000000000#64, [], 2⟩ 25]

def MtPc.isStart : MtPc → Bool
  | .start => true
  | _ => false

def MtPc.out : MtPc → Option (List Bytes)
  | .done _ out => some out
  | _ => none

def PpPc.isFound : PpPc → Bool
  | .done true => true
  | _ => false

def exWholeSeen (w : Whole) : Bool × Bool × Bool :=
  (w.p.dumping, ((w.n.mets[1]?).map MtPc.isStart).getD false, ((w.n.pops[0]?).map PpPc.isFound).getD false)

def exWhole0 : Whole := Whole.init exProc (freshFs (fun _ => false) (fun _ _ => false)) 3 2 1

set_option maxRecDepth 100000 in
set_option synthInstance.maxSize 2000 in
set_option synthInstance.maxHeartbeats 200000 in
theorem exWhole_runs : (exWhole0.follow exProc exWholeA).map exWholeSeen = some (false, true, true) := by
  decide +kernel

set_option maxRecDepth 100000 in
set_option synthInstance.maxSize 2000 in
set_option synthInstance.maxHeartbeats 200000 in
theorem exWhole_ends : ((exWhole0.follow exProc exWholeA).bind (fun w => w.follow exProc exWholeB)).map (fun w => (w.n.mets[1]?).bind MtPc.out) = some (some [[97], [98]]) := by
  decide +kernel

theorem exWhole_ok : ProcOk exProc 1 (exWholeOps ++ exWholeMore) := by
  obtain ⟨f1, _, _, f4⟩ := C70_example_hyps
  refine ⟨by decide, by decide, rfl, f4, f1, ?_, by decide, by decide⟩
  intro op hop
  simp only [exWholeOps, exWholeMore, List.cons_append, List.nil_append, List.mem_cons, List.not_mem_nil, or_false] at hop
  rcases hop with rfl | rfl | rfl | rfl | rfl
  · exact Nat.le_refl _
  · exact Nat.le_refl _
  · exact fun l => List.Perm.refl l
  · trivial
  · exact Nat.zero_le _

/-- The hypotheses of C110 are met by a process that was restarted and has scanned the database: its `Metrics` call lists both metrics that the first process has dumped, and not the one observed since. -/
theorem C110_example : ProcOk exProc 1 (exWholeOps ++ exWholeMore) ∧ POp.restart ∈ exWholeOps ∧ POp.restart ∉ exWholeMore ∧ (∀ order now taken, POp.dump order now taken ∉ exWholeMore) ∧
    ∃ w1 w a0, Whole.Goes exProc true (Whole.init exProc (freshFs (fun _ => false) (fun _ _ => false)) 3 2 1) exWholeOps w1 ∧ w1.p.dumping = false ∧ w1.n.pops[0]? = some (.done true) ∧ w1.n.mets[1]? = some .start ∧
      Whole.Goes exProc true w1 exWholeMore w ∧ w.n.mets[1]? = some (.done a0 [[97], [98]]) := by
  refine ⟨exWhole_ok, by simp [exWholeOps], by simp [exWholeMore], by simp [exWholeMore], ?_⟩
  have h1 := exWhole_runs
  have h2 := exWhole_ends
  cases e1 : exWhole0.follow exProc exWholeA with
  | none => rw [e1] at h1; cases h1
  | some w1 =>
    rw [e1] at h1 h2
    have h1 := Option.some.inj h1
    have h2 : (w1.follow exProc exWholeB).map (fun w => (w.n.mets[1]?).bind MtPc.out) = some (some [[97], [98]]) := h2
    cases e2 : w1.follow exProc exWholeB with
    | none => rw [e2] at h2; cases h2
    | some w =>
      rw [e2] at h2
      have h2 := Option.some.inj h2
      have g1 := follow_whole (K := 1) exWholeA (w := exWhole0) Whole.Goes.here exWhole_ok.left e1
      have g2 := follow_whole (K := 1) exWholeB g1 exWhole_ok e2
      unfold exWholeSeen at h1
      obtain ⟨a1, a2⟩ := Prod.mk.inj h1
      obtain ⟨a2, a3⟩ := Prod.mk.inj a2
      obtain ⟨pc, p1, p2⟩ := Option.bind_eq_some_iff.mp h2
      cases pc with
      | done a0 out =>
        cases p2
        refine ⟨w1, w, a0, g1, a1, ?_, ?_, g2, p1⟩
        · cases hp : w1.n.pops[0]? with
          | none => rw [hp] at a3; cases a3
          | some pc =>
            rw [hp] at a3
            cases pc with
            | done b => cases b with
              | true => rfl
              | false => cases a3
            | _ => cases a3
        · cases hp : w1.n.mets[1]? with
          | none => rw [hp] at a2; cases a2
          | some pc =>
            rw [hp] at a2
            cases pc with
            | start => rfl
            | _ => cases a2
      | _ => cases p2

end Rothko
