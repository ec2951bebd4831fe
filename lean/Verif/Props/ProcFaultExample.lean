import Verif.Props.ProcFault
import Verif.Props.FaultSharedExample
import Verif.Props.ProcessExample
/-!
# C118: a process in which storing fails, and what a half-made file does
-/
namespace Rothko

/-- What is done next. -/
inductive PFChoice
  | op (o : POp)
  | offer
  | recv (i : Nat) (dir : Option DirFault := none) (unlink : Bool := false)
  | ask (i : Nat) (m : Bytes) (q : Option (Int64 × (List Val → Val → Cb)) := none) (dir : Option DirFault := none)
  | go (i : Nat) (flt : Option FileFault := none)
  | answer (i : Nat)
  | wait

/-- Which errors there may be. -/
structure ErrTable where
  file : Bytes → FileFault → Bool
  call : Bytes → Option DirFault → Bool → Bool

/-- The same, as in the model. -/
def ErrTable.errors (t : ErrTable) : SysErrors := ⟨fun m f => t.file m f = true, fun m d u => t.call m d u = true⟩

/-- The step chosen, if it is possible, and what is seen of it. -/
def ProcF.next (c : ProcCfg) (t : ErrTable) (s : ProcF) : PFChoice → Option (ProcF × Option PFOp)
  | .op (.add m ob now) => some ({ s with w := (WOp.add m ob now).run c.pipe.d s.w }, some (.op (.add m ob now)))
  | .op (.dump order now taken) =>
    if s.dumping then none else some ({ s with w := (WOp.capture order now).run c.pipe.d s.w, todo := capturedVals c.pipe.d s.w order now, taken, dumping := true }, some (.op (.dump order now taken)))
  | .op .restart => if s.dumping = false ∧ s.sys.cl.all (fun x => match x with | ⟨[], .out⟩ => true | _ => false) = true then some (ProcF.init c s.sys.g.fs, some (.op .restart)) else none
  | .op (.query _ _ _) => none
  | .offer => match s.todo with
    | [] => none
    | x :: rest => some ({ s with todo := rest, queue := s.queue ++ [x], wg := s.wg + 1 }, none)
  | .recv i dir unlink => match s.hands[i]?, s.queue with
    | some .free, x :: rest => if s.taken x.1 = true ∧ t.call x.1 dir unlink = true then
        some ({ s with queue := rest, hands := s.hands.set i (.busy x.1 x.2), sys := { s.sys with cl := s.sys.cl.set i ⟨[(x.1, ⟨.write c.pipe.cfg x.2, dir, unlink⟩)], .out⟩ } }, none) else none
    | _, _ => none
  | .ask i m q dir => match s.sys.cl[i]? with
    | some ⟨[], .out⟩ => if c.workers ≤ i ∧ t.call m dir false = true then some ({ s with sys := { s.sys with cl := s.sys.cl.set i ⟨[(m, ⟨askOf c.pipe.cfg q, dir, false⟩)], .out⟩ } }, none) else none
    | _ => none
  | .go i flt => match s.sys.nextF (dbPath c.dir) t.file i flt with
    | none => none
    | some sys => if c.workers ≤ i ∨ sys.log.length = s.sys.log.length then some ({ s with sys }, none) else match s.hands[i]?, sys.log.getLast? with
      | some (.busy m _), some (_, m', _, r) => if m' ≠ m then none else
        match r with
        | .write .written => some ({ s with sys, hands := s.hands.set i .wrote }, none)
        | _ => some ({ s with sys, hands := s.hands.set i .wrote }, some (.lost m))
      | _, _ => none
  | .answer i => match s.hands[i]?, s.sys.pool.pcs[i]? with
    | some .wrote, some .idle => some ({ s with hands := s.hands.set i .free, wg := s.wg - 1 }, none)
    | _, _ => none
  | .wait => if s.dumping = true ∧ s.todo = [] ∧ s.wg = 0 then some ({ s with dumping := false }, none) else none

theorem nextF_log {path : Bytes → Int → Bytes} {s s' : FsSys FltCall DbRes} {may : Bytes → FileFault → Bool} {i : Nat} {flt : Option FileFault} (h : s.nextF path may i flt = some s') : s'.log = s.log ∨ ∃ e, s'.log = s.log ++ [(i, e)] := by
  unfold FsSys.nextF at h
  split at h
  · cases h; exact .inl rfl
  · split at h
    · cases h; exact .inl rfl
    · cases h
  · cases h; exact .inl rfl
  · split at h
    · cases h
    · split at h
      · cases h; exact .inr ⟨_, rfl⟩
      · cases h
  · split at h
    · cases h
    · split at h
      · cases h; exact .inl rfl
      · cases h
  · split at h
    · cases h; exact .inl rfl
    · cases h
  · cases h

theorem nextF_proc {c : ProcCfg} {t : ErrTable} {s s' : ProcF} {x : PFChoice} {l : Option PFOp} (h : s.next c t x = some (s', l)) : s.Step c t.errors l s' := by
  cases x with
  | op o =>
    cases o with
    | add m ob now => cases h; exact .add m ob now
    | dump order now taken =>
      unfold ProcF.next at h
      dsimp only at h
      split at h
      · cases h
      · rename_i hd; cases h; exact .dump order now taken (by simpa using hd)
    | query => cases h
    | restart =>
      unfold ProcF.next at h
      dsimp only at h
      split at h
      · rename_i hd
        cases h
        refine .restart hd.1 (fun x hx => ?_)
        have := List.all_eq_true.mp hd.2 x hx
        split at this
        · rfl
        · cases this
      · cases h
  | offer =>
    unfold ProcF.next at h
    dsimp only at h
    split at h
    · cases h
    · rename_i e; cases h; exact .offer _ _ e
  | recv i dir unlink =>
    unfold ProcF.next at h
    dsimp only at h
    split at h
    · rename_i e1 e2
      split at h
      · rename_i ht; cases h; exact .recv i _ _ dir unlink e1 e2 ht.1 ht.2
      · cases h
    · cases h
  | ask i m q dir =>
    unfold ProcF.next at h
    dsimp only at h
    split at h
    · rename_i e
      split at h
      · rename_i hw; cases h; exact .ask i m _ dir false hw.1 e (askOf_reads _ _) hw.2
      · cases h
    · cases h
  | go i flt =>
    unfold ProcF.next at h
    dsimp only at h
    split at h
    · cases h
    · rename_i sys e
      have hl := nextF_log e
      split at h
      · rename_i hc
        cases h
        refine .db _ (nextF_step e) (fun x hx => ?_)
        rcases hl with hl | ⟨y, hl⟩
        · rw [hl] at hx
          have := congrArg List.length hx
          simp at this
        · rcases hc with hc | hc
          · rw [hl] at hx
            have := List.append_cancel_left hx
            injection this with this _
            rw [← this]
            exact hc
          · rw [hl, List.length_append, List.length_singleton] at hc
            omega
      · rename_i hc
        rcases hl with hl | ⟨y, hl⟩
        · exact absurd (Or.inr (by rw [hl])) hc
        · split at h
          · rename_i m v i' m' o r eh el
            rw [hl, List.getLast?_append] at el
            have el : some (i, y) = some (i', m', o, r) := el
            injection el with el
            injection el with el1 el2
            subst el1 el2
            split at h
            · cases h
            · rename_i hm
              have hm : m' = m := Classical.byContradiction hm
              subst hm
              split at h
              · cases h; exact .wrote i _ m' o v (nextF_step e) hl eh
              · rename_i hr
                cases h
                exact .lost i _ m' o r v (nextF_step e) hl (fun hx => hr hx) eh
          · cases h
  | answer i =>
    unfold ProcF.next at h
    dsimp only at h
    split at h
    · rename_i e1 e2; cases h; exact .answer i e1 e2
    · cases h
  | wait =>
    unfold ProcF.next at h
    dsimp only at h
    split at h
    · rename_i e; cases h; exact .wait e.1 e.2.1 e.2.2
    · cases h

/-- The steps of a schedule; those that are not possible are left out. -/
def ProcF.follow (c : ProcCfg) (t : ErrTable) : List PFChoice → ProcF × List PFOp → ProcF × List PFOp
  | [], s => s
  | x :: l, s => match s.1.next c t x with
    | none => ProcF.follow c t l s
    | some (s', o) => ProcF.follow c t l (s', s.2 ++ o.toList)

theorem followF_proc {c : ProcCfg} {t : ErrTable} {fs : Bytes → Store} (l : List PFChoice) : ∀ {s : ProcF × List PFOp}, ProcF.Reach c t.errors fs s.2 s.1 → ProcF.Reach c t.errors fs (ProcF.follow c t l s).2 (ProcF.follow c t l s).1 := by
  induction l with
  | nil => intro s h; exact h
  | cons x l ih =>
    intro s h
    unfold ProcF.follow
    split
    · exact ih h
    · rename_i e; exact ih (.step h (nextF_proc e))

/-- Creating a file of the first metric may fail without a trace, and so may opening its directory. -/
def exErrTable : ErrTable := ⟨exFltMay, fun m d u => m == [97] || (d.isNone && !u)⟩

/-- All goroutines take turns. -/
def exTurnsF (k : Nat) : List PFChoice := (List.replicate k [.go 0, .go 1, .go 2, .answer 0, .answer 1]).flatten

/-- Two metrics are observed and dumped three times. In the second dump the first metric's directory cannot be opened. Then the latest values are asked for, the first metric's once with an error. -/
def exChoicesF : List PFChoice :=
  [.op (.add [97] ⟨0x4000000000000000#64, [1], 0⟩ 10), .op (.add [98] ⟨0x3ff0000000000000#64, [2], 1⟩ 11), .op (.dump id 20 (fun _ => true)), .offer, .recv 1, .offer, .recv 0] ++ exTurnsF 16 ++
  [.wait, .op (.add [97] ⟨0x4008000000000000#64, [], 2⟩ 25), .op (.add [98] ⟨0x3ff0000000000000#64, [2], 1⟩ 26), .op (.dump id 30 (fun _ => true)), .offer, .recv 1 (some .before), .offer, .recv 0] ++ exTurnsF 16 ++
  [.wait, .op (.add [97] ⟨0x4010000000000000#64, [], 3⟩ 35), .op (.dump id 40 (fun _ => true)), .offer, .recv 1, .ask 2 [97] none (some .before)] ++ exTurnsF 16 ++ [.wait, .ask 2 [97]] ++ exTurnsF 10 ++ [.ask 2 [98]] ++ exTurnsF 10

/-- The end of it. -/
def exRunF : ProcF × List PFOp := ProcF.follow exProc exErrTable exChoicesF (ProcF.init exProc (freshFs (fun _ => false) (fun _ _ => false)), [])

/-- What a step is, for looking at. -/
def PFOp.view : PFOp → Nat × Bytes
  | .op (.add m _ _) => (0, m)
  | .op (.dump _ _ _) => (1, [])
  | .op .restart => (2, [])
  | .op (.query _ _ _) => (3, [])
  | .lost m => (4, m)

/-- The latest value given back, and whether the call failed. -/
def exSeenF (s : ProcF) : List (Nat × Bytes × Option (Int64 × Int64) × Bool) :=
  s.sys.log.map (fun e => (e.1, e.2.1, match e.2.2.2 with | .latest v r => (v.map (fun v => (v.start, v.stop)), r.isSome) | .write (.failed _) => (none, true) | _ => (none, false)))

set_option maxRecDepth 100000 in
set_option synthInstance.maxSize 2000 in
set_option synthInstance.maxHeartbeats 200000 in
theorem exRunF_result : (exRunF.2.map PFOp.view, exSeenF exRunF.1, exRunF.1.dumping, exRunF.1.sys.active) =
    ([(0, [97]), (0, [98]), (1, []), (0, [97]), (0, [98]), (1, []), (4, [97]), (0, [97]), (1, [])],
     [(0, [98], none, false), (1, [97], none, false), (1, [97], none, true), (0, [98], none, false), (1, [97], none, false), (2, [97], none, true), (2, [97], some (30, 40), false), (2, [98], some (20, 30), false)], false, 0) := by
  decide +kernel

theorem next_chosen {c : ProcCfg} {t : ErrTable} {s s' : ProcF} {x : PFChoice} {o : POp} (h : s.next c t x = some (s', some (.op o))) : x = .op o := by
  cases x with
  | op o' =>
    cases o' with
    | add m ob now => cases h; rfl
    | dump order now taken =>
      unfold ProcF.next at h
      dsimp only at h
      split at h <;> cases h
      rfl
    | query => cases h
    | restart =>
      unfold ProcF.next at h
      dsimp only at h
      split at h <;> cases h
      rfl
  | offer => unfold ProcF.next at h; dsimp only at h; split at h <;> cases h
  | recv i dir unlink =>
    unfold ProcF.next at h
    dsimp only at h
    split at h
    · split at h <;> cases h
    · cases h
  | ask i m q dir =>
    unfold ProcF.next at h
    dsimp only at h
    split at h
    · split at h <;> cases h
    · cases h
  | go i flt =>
    unfold ProcF.next at h
    dsimp only at h
    split at h
    · cases h
    · split at h
      · cases h
      · split at h
        · split at h
          · cases h
          · split at h <;> cases h
        · cases h
  | answer i => unfold ProcF.next at h; dsimp only at h; split at h <;> cases h
  | wait => unfold ProcF.next at h; dsimp only at h; split at h <;> cases h

theorem follow_chosen {c : ProcCfg} {t : ErrTable} {o : POp} (l : List PFChoice) : ∀ {s : ProcF × List PFOp}, PFOp.op o ∈ (ProcF.follow c t l s).2 → PFOp.op o ∈ s.2 ∨ PFChoice.op o ∈ l := by
  induction l with
  | nil => intro s h; exact .inl h
  | cons x l ih =>
    intro s h
    unfold ProcF.follow at h
    split at h
    · rcases ih h with h | h
      · exact .inl h
      · exact .inr (List.mem_cons_of_mem _ h)
    · rename_i s' o' e
      rcases ih h with h | h
      · rcases List.mem_append.mp h with h | h
        · exact .inl h
        · cases o' with
          | none => cases h
          | some o' =>
            have h : PFOp.op o = o' := by simpa using h
            subst h
            rw [next_chosen e]
            exact .inr List.mem_cons_self
      · exact .inr (List.mem_cons_of_mem _ h)

set_option maxRecDepth 100000 in
theorem exRunF_times : (plainOps exRunF.2).length = 8 ∧ dumpTimes (plainOps exRunF.2) = [20, 30, 40] := by
  decide +kernel

theorem exTurnsF_op (k : Nat) (o : POp) : PFChoice.op o ∉ exTurnsF k := by
  intro h
  unfold exTurnsF at h
  obtain ⟨l, h1, h2⟩ := List.mem_flatten.mp h
  rw [List.eq_of_mem_replicate h1] at h2
  simp at h2

theorem exRunF_ok : LifeOk exProc 1 (plainOps exRunF.2) := by
  obtain ⟨f1, _, _, f4⟩ := C70_example_hyps
  refine ⟨by decide, by decide, rfl, f4, f1, ?_, by rw [exRunF_times.1]; decide⟩
  intro op hop
  have hop : PFOp.op op ∈ exRunF.2 := by
    unfold plainOps at hop
    obtain ⟨x, hx, e⟩ := List.mem_filterMap.mp hop
    cases x with
    | op o => cases e; exact hx
    | lost m => cases e
  rcases follow_chosen _ hop with h | h
  · cases h
  · have ht := fun k => exTurnsF_op k op
    simp only [exChoicesF, List.mem_append, List.mem_cons, List.not_mem_nil, or_false, ht, PFChoice.op.injEq, reduceCtorEq, false_or] at h
    rcases h with ((h | h | h) | h | h | h) | h | h
    all_goals first | (rw [h]; exact fun l => List.Perm.refl l) | (rw [h]; show _ ≤ 1; decide)

/-- The hypotheses of C118 are met by a process with two workers and a request in which the second dump cannot store the value of the first metric, because its directory cannot be opened: that value is lost and no other, although the
second metric's is stored at the same time; a query of the first metric fails in the same way, and the next one gives the value of the third dump. No system call fails for the second metric; for neither is a file left half made. -/
theorem C118_example : ∃ ops s, ProcF.Reach exProc exErrTable.errors (freshFs (fun _ => false) (fun _ _ => false)) ops s ∧ LifeOk exProc 1 (plainOps ops) ∧ (dumpTimes (plainOps ops)).Pairwise (· < ·) ∧
    ops.map PFOp.view = [(0, [97]), (0, [98]), (1, []), (0, [97]), (0, [98]), (1, []), (4, [97]), (0, [97]), (1, [])] ∧
    exSeenF s = [(0, [98], none, false), (1, [97], none, false), (1, [97], none, true), (0, [98], none, false), (1, [97], none, false), (2, [97], none, true), (2, [97], some (30, 40), false), (2, [98], some (20, 30), false)] ∧
    s.dumping = false ∧ (∀ m, s.sys.quiet m) ∧ (∀ m, exErrTable.errors.Whole m) ∧ exErrTable.errors.Spares [98] ∧ ¬ exErrTable.errors.Spares [97] := by
  have r := exRunF_result
  injection r with r1 r
  injection r with r2 r
  injection r with r3 r4
  refine ⟨exRunF.2, exRunF.1, followF_proc _ .start, exRunF_ok, (by rw [exRunF_times.2]; decide), r1, r2, r3, quiet_of_active r4, ?_, ⟨?_, ?_⟩, fun h => ?_⟩
  · intro m k h
    have h : (m == [97] && FileFault.partly k == .clean) = true := h
    simp at h
  · intro f h
    cases h
  · intro dir unlink h
    have h : (([98] : Bytes) == [97] || (dir.isNone && !unlink)) = true := h
    have e : (([98] : Bytes) == [97]) = false := by decide
    rw [e, Bool.false_or, Bool.and_eq_true] at h
    exact ⟨Option.isNone_iff_eq_none.mp h.1, by simpa using h.2⟩
  · exact h.1 .clean (by show exFltMay [97] .clean = true; decide)

/-! ## A half-made file -/

/-- Where the newest data file cannot be opened, every call of a sequence fails with the error of opening it, and it stays like that. -/
theorem Bricked.serial {e : FErr} {first last : Int} {s0 t : Store} {evs : List (Option (Nat × DbCall × DbRes))} (h : Serial DbCall.run mkdirEnv s0 evs t) (hb : Bricked e s0 first last) :
    Bricked e t first last ∧ ∀ x ∈ evs.filterMap id, x.2.2 = (match x.2.1 with | .write _ _ => .write (.failed (.file e)) | .query _ _ _ => .query [] (some (.file e)) | .latest _ => .latest none (some (.file e))) := by
  induction h with
  | nil => exact ⟨hb, fun x hx => (by cases hx)⟩
  | env h1 ih =>
    refine ⟨⟨rfl, ih.1.rng, ih.1.hasFirst, ih.1.within, ih.1.cache, ih.1.bad⟩, fun x hx => ?_⟩
    rw [List.filterMap_append] at hx
    rcases List.mem_append.mp hx with hx | hx
    · exact ih.2 x hx
    · cases hx
  | @op _ tt _ i o r h1 hf ih =>
    have hop : Bricked e ((DbCall.run o tt).2) first last ∧ (DbCall.run o tt).1 = (match o with | .write _ _ => .write (.failed (.file e)) | .query _ _ _ => .query [] (some (.file e)) | .latest _ => .latest none (some (.file e))) := by
      cases o with
      | write cfg v =>
        obtain ⟨s', e1, e2⟩ := ih.1.write cfg v
        exact ⟨by show Bricked e (dbWrite cfg v _).2 first last; rw [e1]; exact e2, by show DbRes.write (dbWrite cfg v _).1 = DbRes.write (.failed (.file e)); rw [e1]⟩
      | query cfg b cb =>
        obtain ⟨s', e1, e2⟩ := ih.1.read cfg b (fun (seen : List Val) v => (seen ++ [v], cb seen v)) []
        exact ⟨by show Bricked e (dbQuery cfg b _ [] _).2 first last; rw [e1]; exact e2, by show DbRes.query (dbQuery cfg b _ [] _).1.1 (dbQuery cfg b _ [] _).1.2 = DbRes.query [] (some (.file e)); rw [e1]⟩
      | latest cfg =>
        obtain ⟨s', e1, e2⟩ := ih.1.read cfg 0x7fffffffffffffff (fun (_ : Option Val) v => (some v, Cb.stop)) none
        exact ⟨by show Bricked e (dbQuery cfg _ _ none _).2 first last; rw [e1]; exact e2, by show DbRes.latest (dbQuery cfg _ _ none _).1.1 (dbQuery cfg _ _ none _).1.2 = DbRes.latest none (some (.file e)); rw [e1]⟩
    rw [hf] at hop
    refine ⟨hop.1, fun x hx => ?_⟩
    rw [List.filterMap_append] at hx
    rcases List.mem_append.mp hx with hx | hx
    · exact ih.2 x hx
    · rw [List.mem_singleton.mp hx]
      cases o <;> exact hop.2

/-- The error that a call gives when no data can be reached. -/
def DbCall.failed (e : MErr) : DbCall → DbRes
  | .write _ _ => .write (.failed e)
  | .query _ _ _ => .query [] (some e)
  | .latest _ => .latest none (some e)

/-- Without `Whole` the records of a metric can be lost for good: a write that made its data file but could not finish it leaves a file that cannot be opened, and from then on, in every process, however its workers and requests interleave and although nothing fails any more, each write of the metric fails and each query gives an error and nothing else. -/
theorem C118_whole_refuted {before : List (Op × Faults)} {u : Store} {acc : List Val} (h0 : ReachF before u acc) (hne : acc ≠ []) (flt : Faults) (cfg : Cfg) (v : Val) (hg : GeoOk cfg.size cfg.cap)
    (hfit : needs cfg.size v.data.length ≤ cfg.cap) (hfail : (dbWriteF flt cfg v u).1 = .failed .os) (hnew : (dbWriteF flt cfg v u).2.next ≠ u.next)
    {n : Nat} {may : Bytes → FileFault → Prop} {d : Bytes} {progs : List (List (Bytes × FltCall))} {fs : Bytes → Store} {s : FsSys FltCall DbRes} (k : Bytes) (hk : SameFs (fs k) (dbWriteF flt cfg v u).2)
    (hn : n < 2 ^ 63) (h : FsSys.ReachF dbCallsF may (dbPath d) n progs fs s) (hq : s.quiet k) (hmay : ∀ f, ¬ may k f) (hfine : ∀ p ∈ progs, ∀ c ∈ p, c.1 = k → c.2.Fine) :
    ∃ e : FErr, ∀ x ∈ s.finished k, x.2.2 = x.2.1.call.failed (.file e) := by
  have hbr : ∃ (e : FErr) (first last : Int), Bricked e (dbWriteF flt cfg v u).2 first last := by
    rcases h0.inv with ⟨_, _, ha⟩ | ⟨first, last, H, V, dd, inv, _⟩
    · exact absurd ha hne
    · have hrun := inv.dbWriteF flt cfg v
      rcases hrun with hrun | hrun
      · rw [hrun] at hnew; exact absurd rfl hnew
      · have hw := inv.writeF flt cfg v hg hfit
        rw [← hrun] at hw
        generalize dbWriteF flt cfg v u = r at hw hfail hnew
        cases hw with
        | plain r w hr => cases w <;> cases hfail
        | failed s' hn => exact absurd hn hnew
        | rotated => cases hfail
        | stuck s' e first' hb => exact ⟨e, _, _, hb⟩
  obtain ⟨e, first, last, hb⟩ := hbr
  obtain ⟨hit, evs, t, _, h2, h3, _⟩ := C112_spared hn h k hq hmay hfine _ hk
  have hb' : Bricked e ({ (dbWriteF flt cfg v u).2.reopen with hit }) first last :=
    ⟨hb.reopen.ex, hb.reopen.rng, hb.reopen.hasFirst, hb.reopen.within, hb.reopen.cache, hb.reopen.bad⟩
  refine ⟨e, fun x hx => ?_⟩
  have := (hb'.serial h2).2 (plain x) (by rw [h3]; exact List.mem_map_of_mem hx)
  obtain ⟨i, ⟨o, dd, ul⟩, r⟩ := x
  have this : r = _ := this
  rw [this]
  cases o <;> rfl

end Rothko
