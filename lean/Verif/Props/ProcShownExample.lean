import Verif.Props.ProcShown
import Verif.Props.ProcFaultExample
import Verif.Props.RequestExample
/-!
# C120: a picture with a gap
-/
namespace Rothko

/-- As `Asked`, with the errors that the calls meet. -/
def AskedF (Q : Nat → Bytes → FltCall → Prop) (s : FsSys FltCall DbRes) : Prop := (∀ (i : Nat) (x : Client FltCall (FsProg DbRes)), s.cl[i]? = some x → ∀ c ∈ x.todo, Q i c.1 c.2) ∧ ∀ e ∈ s.log, Q e.1 e.2.1 e.2.2.1

theorem AskedF.set {Q : Nat → Bytes → FltCall → Prop} {s : FsSys FltCall DbRes} (h : AskedF Q s) (j : Nat) (y : Client FltCall (FsProg DbRes)) (hy : ∀ c ∈ y.todo, Q j c.1 c.2) :
    ∀ (i : Nat) (x : Client FltCall (FsProg DbRes)), (s.cl.set j y)[i]? = some x → ∀ c ∈ x.todo, Q i c.1 c.2 := by
  intro i x hx
  rcases client_set_cases hx with ⟨rfl, rfl⟩ | ⟨_, hx⟩
  · exact hy
  · exact h.1 i x hx

theorem AskedF.step {Q : Nat → Bytes → FltCall → Prop} {may : Bytes → FileFault → Prop} {path : Bytes → Int → Bytes} {s s' : FsSys FltCall DbRes} (h : AskedF Q s) (hst : s.StepF dbCallsF may path s') : AskedF Q s' := by
  cases hst with
  | enter i m o rest a h1 h2 h3 => exact ⟨h.set i _ (fun c hc => h.1 i _ h3 c hc), h.2⟩
  | first i m o rest h1 => exact ⟨h.set i _ (fun c hc => h.1 i _ h1 c hc), h.2⟩
  | work i m o rest p p' g flt h1 h2 => exact ⟨h.set i _ (fun c hc => h.1 i _ h1 c hc), h.2⟩
  | finish i m o rest r a a' p h1 h2 h3 =>
    refine ⟨h.set i _ (fun c hc => h.1 i _ h1 c (List.mem_cons_of_mem _ hc)), fun e he => ?_⟩
    rcases List.mem_append.mp he with he | he
    · exact h.2 e he
    · rw [List.mem_singleton.mp he]
      exact h.1 i _ h1 _ List.mem_cons_self
  | _ => exact h

/-- A request never asks anything but this. -/
def OnlyAsksF (c : ProcCfg) (m : Bytes) (q : Option (Int64 × (List Val → Val → Cb))) (s : ProcF) : Prop := AskedF (fun i m' o => c.workers ≤ i → m' = m ∧ o.call = askOf c.pipe.cfg q) s.sys

theorem onlyF_next {c : ProcCfg} {t : ErrTable} {m : Bytes} {q : Option (Int64 × (List Val → Val → Cb))} {s s' : ProcF} {x : PFChoice} {l : Option PFOp} (hw : s.hands.length ≤ c.workers) (h : OnlyAsksF c m q s)
    (hx : ∀ i m' q' d, x = .ask i m' q' d → m' = m ∧ q' = q) (hr : x ≠ .op .restart) (hn : s.next c t x = some (s', l)) : OnlyAsksF c m q s' ∧ s'.hands.length ≤ c.workers := by
  have go : ∀ {i : Nat} {flt : Option FileFault} {sys : FsSys FltCall DbRes}, s.sys.nextF (dbPath c.dir) t.file i flt = some sys → AskedF (fun i m' o => c.workers ≤ i → m' = m ∧ o.call = askOf c.pipe.cfg q) sys := fun e => AskedF.step h (nextF_step e)
  unfold ProcF.next at hn
  split at hn
  · cases hn; exact ⟨h, hw⟩
  · split at hn
    · cases hn
    · cases hn; exact ⟨h, hw⟩
  · exact absurd rfl hr
  · cases hn
  · split at hn
    · cases hn
    · cases hn; exact ⟨h, hw⟩
  · rename_i i dir unlink
    split at hn
    · rename_i hfree hq
      split at hn
      · cases hn
        refine ⟨⟨AskedF.set h _ _ (fun c hc hge => ?_), h.2⟩, by simpa using hw⟩
        have := (List.getElem?_eq_some_iff.mp hfree).1
        omega
      · cases hn
    · cases hn
  · rename_i i m' q' d
    obtain ⟨rfl, rfl⟩ := hx _ _ _ _ rfl
    split at hn
    · split at hn
      · cases hn
        refine ⟨⟨AskedF.set h _ _ (fun c hc _ => ?_), h.2⟩, hw⟩
        rw [List.mem_singleton.mp hc]
        exact ⟨rfl, rfl⟩
      · cases hn
    · cases hn
  · split at hn
    · cases hn
    · rename_i e
      split at hn
      · cases hn; exact ⟨go e, hw⟩
      · split at hn
        · split at hn
          · cases hn
          · split at hn
            · cases hn; exact ⟨go e, by simpa using hw⟩
            · cases hn; exact ⟨go e, by simpa using hw⟩
        · cases hn
  · split at hn
    · cases hn; exact ⟨h, by simpa using hw⟩
    · cases hn
  · split at hn
    · cases hn; exact ⟨h, hw⟩
    · cases hn

theorem onlyF_follow {c : ProcCfg} {t : ErrTable} {m : Bytes} {q : Option (Int64 × (List Val → Val → Cb))} (l : List PFChoice) : ∀ {s : ProcF × List PFOp}, s.1.hands.length ≤ c.workers → OnlyAsksF c m q s.1 →
    (∀ i m' q' d, .ask i m' q' d ∈ l → m' = m ∧ q' = q) → .op .restart ∉ l → OnlyAsksF c m q (ProcF.follow c t l s).1 := by
  induction l with
  | nil => intro s _ h _ _; exact h
  | cons x l ih =>
    intro s hw h hx hr
    have hx' := fun i m' q' d hm => hx i m' q' d (List.mem_cons_of_mem _ hm)
    have hr' := fun hm => hr (List.mem_cons_of_mem _ hm)
    unfold ProcF.follow
    split
    · exact ih hw h hx' hr'
    · rename_i s1 o e1
      obtain ⟨h1, h2⟩ := onlyF_next hw h (fun i m' q' d hm => hx i m' q' d (by rw [hm]; exact List.mem_cons_self)) (fun hm => hr (by rw [hm]; exact List.mem_cons_self)) e1
      exact ih (s := (s1, s.2 ++ o.toList)) h2 h1 hx' hr'

theorem onlyF_init (c : ProcCfg) (m : Bytes) (q : Option (Int64 × (List Val → Val → Cb))) (fs : Bytes → Store) : OnlyAsksF c m q (ProcF.init c fs) := by
  refine ⟨fun i x hi c hc => ?_, fun e he => (by cases he)⟩
  have hm : x ∈ (ProcF.init _ _).sys.cl := List.mem_of_getElem? hi
  obtain ⟨p, hp, rfl⟩ := List.mem_map.mp hm
  rw [List.eq_of_mem_replicate hp] at hc
  cases hc

theorem followF_append {c : ProcCfg} {t : ErrTable} (a b : List PFChoice) : ∀ s : ProcF × List PFOp, ProcF.follow c t (a ++ b) s = ProcF.follow c t b (ProcF.follow c t a s) := by
  induction a with
  | nil => intro s; rfl
  | cons x a ih =>
    intro s
    rw [List.cons_append, ProcF.follow.eq_2, ProcF.follow.eq_2]
    split
    · exact ih s
    · exact ih _

/-- Opening the metric's directory may fail. -/
def exGapTable : ErrTable := ⟨fun _ _ => false, fun _ d u => (d == none || d == some .before) && !u⟩

/-- An observation at `t` and a dump at `t + 1`, which a worker writes; the directory may fail to open. -/
def exRoundF (t : Int64) (dir : Option DirFault) : List PFChoice := [.op (.add [97] ⟨0x4008000000000000#64, [1], 0⟩ t), .op (.dump id (t + 1) (fun _ => true)), .offer, .recv 0 dir] ++ (List.replicate 14 [.go 0, .answer 0]).flatten ++ [.wait]

/-- Four rounds, the second and third of which fail. -/
def exGapRounds : List PFChoice := exRoundF 10 none ++ (exRoundF 20 (some .before) ++ (exRoundF 30 (some .before) ++ exRoundF 40 none))

/-- Then a request is made for which the directory cannot be opened. -/
def exGapErr : List PFChoice := exGapRounds ++ (.ask 2 [97] (some exAsk) (some .before) :: List.replicate 3 (.go 2))

/-- Then a request is made. -/
def exGapAsk : List PFChoice := exGapErr ++ (.go 2 :: .go 2 :: .ask 2 [97] (some exAsk) :: List.replicate 6 (.go 2))

/-- The run. -/
def exGapRun (l : List PFChoice) : ProcF × List PFOp := ProcF.follow exProcT exGapTable l (ProcF.init exProcT (freshFs (fun _ => false) (fun _ _ => false)), [])

/-- What is seen of the calls: who returned, the ends of the values a query gave back, and whether it failed. -/
def exEndsF (s : ProcF) : List (Nat × Option (List Int64 × Bool)) := s.sys.log.map (fun e => (e.1, match e.2.2.2 with | .query seen err => some (seen.map (·.stop), err.isSome) | _ => none))

/-- At the end of a schedule a request returns. -/
theorem requestF_returns {c : ProcCfg} {t : ErrTable} {fs : Bytes → Store} {m : Bytes} {q : Option (Int64 × (List Val → Val → Cb))} {l : List PFChoice} {i : Nat} {before : List (Nat × Option (List Int64 × Bool))} {stops : List Int64} {failed : Bool}
    (hi : c.workers ≤ i) (hx : ∀ i m' q' d, .ask i m' q' d ∈ l → m' = m ∧ q' = q) (hre : .op .restart ∉ l) (h1 : exEndsF (ProcF.follow c t l (ProcF.init c fs, [])).1 = before)
    (h2 : exEndsF (ProcF.follow c t (l ++ [.go i]) (ProcF.init c fs, [])).1 = before ++ [(i, some (stops, failed))]) :
    ∃ s' dir unlink seen err, ProcF.Reach c t.errors fs (ProcF.follow c t l (ProcF.init c fs, [])).2 (ProcF.follow c t l (ProcF.init c fs, [])).1 ∧ (ProcF.follow c t l (ProcF.init c fs, [])).1.Step c t.errors none s' ∧
      s'.sys.log = (ProcF.follow c t l (ProcF.init c fs, [])).1.sys.log ++ [(i, m, ⟨askOf c.pipe.cfg q, dir, unlink⟩, .query seen err)] ∧ seen.map (·.stop) = stops ∧ err.isSome = failed := by
  have hr := followF_proc (t := t) l (s := (ProcF.init c fs, [])) .start
  have hw0 : (ProcF.init c fs).hands.length ≤ c.workers := by simp [ProcF.init]
  have honly := onlyF_follow (t := t) (q := q) (m := m) (l ++ [.go i]) (s := (ProcF.init c fs, [])) hw0 (onlyF_init c m q fs) (fun i m' q' d hm => by
    rcases List.mem_append.mp hm with hm | hm
    · exact hx i m' q' d hm
    · cases List.mem_singleton.mp hm) (fun hm => by
    rcases List.mem_append.mp hm with hm | hm
    · exact hre hm
    · cases List.mem_singleton.mp hm)
  rw [followF_append] at h2 honly
  generalize ProcF.follow c t l (ProcF.init c fs, []) = run at *
  obtain ⟨s, ops⟩ := run
  dsimp only at *
  cases e1 : s.next c t (.go i) with
  | none =>
    rw [show ProcF.follow c t [.go i] (s, ops) = (s, ops) by unfold ProcF.follow; rw [e1]; rfl] at h2
    have h2 : exEndsF s = _ := h2
    rw [h1] at h2
    have := congrArg List.length h2
    simp at this
  | some x =>
    obtain ⟨s', o⟩ := x
    rw [show ProcF.follow c t [.go i] (s, ops) = (s', ops ++ o.toList) by unfold ProcF.follow; rw [e1]; rfl] at h2 honly
    have h2 : exEndsF s' = _ := h2
    have honly : OnlyAsksF c m q s' := honly
    have ho : o = none ∧ (s'.sys.log = s.sys.log ∨ ∃ e, s'.sys.log = s.sys.log ++ [(i, e)]) := by
      have e1' := e1
      unfold ProcF.next at e1'
      dsimp only at e1'
      split at e1'
      · cases e1'
      · rename_i sys en
        rw [if_pos (.inl hi)] at e1'
        cases e1'
        exact ⟨rfl, nextF_log en⟩
    obtain ⟨rfl, hlog⟩ := ho
    have hst := nextF_proc e1
    rcases hlog with hlog | ⟨⟨m', o, r⟩, hlog⟩
    · unfold exEndsF at h1 h2
      rw [hlog, h1] at h2
      have := congrArg List.length h2
      simp at this
    · unfold exEndsF at h1 h2
      rw [hlog, List.map_append, h1] at h2
      have h2 := List.append_cancel_left h2
      injection h2 with h2 _
      injection h2 with _ h2
      obtain ⟨rfl, ho⟩ := honly.2 (i, m', o, r) (by rw [hlog]; exact List.mem_append_right _ (List.mem_singleton.mpr rfl)) hi
      obtain ⟨call, dir, unlink⟩ := o
      have ho : call = _ := ho
      subst ho
      cases r with
      | query seen err =>
        have h2 : some (seen.map (·.stop), err.isSome) = some (stops, failed) := h2
        injection h2 with h2
        injection h2 with h2 h3
        exact ⟨s', dir, unlink, seen, err, hr, hst, hlog, h2, h3⟩
      | _ => cases h2

theorem exRoundF_asks (t : Int64) (dir : Option DirFault) : ∀ i m' q' d, PFChoice.ask i m' q' d ∉ exRoundF t dir := by
  intro i m' q' d hm
  unfold exRoundF at hm
  simp at hm

theorem exRoundF_ops (t : Int64) (dir : Option DirFault) : ∀ o, PFChoice.op o ∈ exRoundF t dir → o = .add [97] ⟨0x4008000000000000#64, [1], 0⟩ t ∨ o = .dump id (t + 1) (fun _ => true) := by
  intro o hm
  unfold exRoundF at hm
  simp at hm
  exact hm

theorem exGapAsk_asks : ∀ i m' q' d, PFChoice.ask i m' q' d ∈ exGapAsk → m' = [97] ∧ q' = some exAsk := by
  intro i m' q' d hm
  unfold exGapAsk exGapErr exGapRounds at hm
  simp only [List.mem_append, exRoundF_asks, false_or, List.mem_cons, reduceCtorEq, List.mem_replicate, and_false, or_false, PFChoice.ask.injEq] at hm
  rcases hm with hm | hm <;> exact ⟨hm.2.1, hm.2.2.1⟩

theorem exGapAsk_ops : ∀ o, PFChoice.op o ∈ exGapAsk → ∃ t : Int64, o = .add [97] ⟨0x4008000000000000#64, [1], 0⟩ t ∨ o = .dump id (t + 1) (fun _ => true) := by
  intro o hm
  unfold exGapAsk exGapErr exGapRounds at hm
  simp only [List.mem_append, List.mem_cons, reduceCtorEq, List.mem_replicate, and_false, or_false] at hm
  rcases hm with hm | hm | hm | hm <;> exact ⟨_, exRoundF_ops _ _ o hm⟩

theorem exGapErr_sub  {x : PFChoice} (hx : x ∈ exGapErr) : x ∈ exGapAsk := List.mem_append_left _ hx

set_option maxRecDepth 100000 in
set_option synthInstance.maxSize 2000 in
set_option synthInstance.maxHeartbeats 200000 in
theorem exGap_seen : exEndsF (exGapRun exGapErr).1 = [(0, none), (0, none), (0, none), (0, none)] ∧ exEndsF (exGapRun (exGapErr ++ [.go 2])).1 = [(0, none), (0, none), (0, none), (0, none)] ++ [(2, some ([], true))] ∧
    exEndsF (exGapRun exGapAsk).1 = [(0, none), (0, none), (0, none), (0, none), (2, some ([], true))] ∧
    exEndsF (exGapRun (exGapAsk ++ [.go 2])).1 = [(0, none), (0, none), (0, none), (0, none), (2, some ([], true))] ++ [(2, some ([41, 11], false))] := by decide +kernel

deriving instance DecidableEq for Batch

/-- The two intervals that are stored: the second and third of four are missing. -/
def exGapKept : List Batch := [⟨31, 41, [([97], ⟨0x4008000000000000#64, [1], 0⟩)]⟩, ⟨10, 11, [([97], ⟨0x4008000000000000#64, [1], 0⟩)]⟩]

set_option maxRecDepth 100000 in
theorem exGap_kept : ((exGapRun exGapAsk).2.foldl PSpec.stepF {}).kept [97] = exGapKept ∧ ((exGapRun exGapErr).2.foldl PSpec.stepF {}).kept [97] = exGapKept := by decide +kernel

theorem exGap_life (l : List PFChoice) (hl : ∀ x ∈ l, x ∈ exGapAsk) (hn : (plainOps (exGapRun l).2).length < 9223372036854775808) : LifeOk exProcT 1 (plainOps (exGapRun l).2) := by
  have h0 := exProcT_ok [] (fun op h => by cases h) (by decide) List.Pairwise.nil
  refine ⟨h0.handles, h0.clients, h0.dist, h0.geo, h0.fits, ?_, hn⟩
  intro op hop
  have hop : PFOp.op op ∈ (exGapRun l).2 := by
    unfold plainOps at hop
    obtain ⟨x, hx, e⟩ := List.mem_filterMap.mp hop
    cases x with
    | op o => cases e; exact hx
    | lost m => cases e
  rcases follow_chosen _ hop with h | h
  · cases h
  · obtain ⟨t, rfl | rfl⟩ := exGapAsk_ops op (hl _ h)
    · exact Nat.le_refl _
    · exact fun l => List.Perm.refl l

set_option maxRecDepth 100000 in
theorem exGap_lens : (plainOps (exGapRun exGapAsk).2).length = 8 ∧ (plainOps (exGapRun exGapErr).2).length = 8 ∧ (exGapRun exGapAsk).1.dumping = false := by decide +kernel

theorem exGap_whole : exGapTable.errors.Whole [97] := fun k h => by
  have h : false = true := h
  cases h

/-- **C120 example.** The hypotheses of C120 are met by a program that made four dumps, the second and third of which could not be stored, and then is asked twice for the picture of the 110 nanoseconds before 50. The first time the metric's directory cannot be opened:
the answer is an error. The second time it is the picture, whose middle row shows, from right to left: two pixels that are not white, a white one, where the lost intervals would be, one that is not white, nothing. -/
theorem C120_example : LifeOk exProcT 1 (plainOps (exGapRun exGapAsk).2) ∧ exGapTable.errors.Whole [97] ∧ ¬ exGapTable.errors.Spares [97] ∧
    (∃ s' dir unlink r, (exGapRun exGapErr).1.Step exProcT exGapTable.errors none s' ∧ s'.sys.log = (exGapRun exGapErr).1.sys.log ++ [(2, [97], ⟨pngCall (theScene exOut (2 : ℕ) viridis) exProcT.pipe.cfg 50 110 100 53 1, dir, unlink⟩, r)] ∧
      pngAnswer (theScene exOut (2 : ℕ) viridis) 50 110 100 53 1 r = .failed) ∧
    ProcF.Reach exProcT exGapTable.errors (freshFs (fun _ => false) (fun _ _ => false)) (exGapRun exGapAsk).2 (exGapRun exGapAsk).1 ∧
    ∃ s' dir unlink r, (exGapRun exGapAsk).1.Step exProcT exGapTable.errors none s' ∧ s'.sys.log = (exGapRun exGapAsk).1.sys.log ++ [(2, [97], ⟨pngCall (theScene exOut (2 : ℕ) viridis) exProcT.pipe.cfg 50 110 100 53 1, dir, unlink⟩, r)] ∧
      ∃ c pix, pngAnswer (theScene exOut (2 : ℕ) viridis) 50 110 100 53 1 r = .png c pix ∧ c.width.toNat = 102 ∧
        (∀ x ∈ [45, 47, 48], ∃ k, pixel pix 102 x 23 = some (k, 255) ∧ k ≠ white) ∧ pixel pix 102 46 23 = some (white, 255) ∧ pixel pix 102 43 23 = some (white, 255) := by
  have hok : LifeOk exProcT 1 (plainOps (exGapRun exGapAsk).2) := exGap_life _ (fun x hx => hx) (by rw [exGap_lens.1]; decide)
  have hre : PFChoice.op .restart ∉ exGapAsk := fun h => by
    obtain ⟨t, e | e⟩ := exGapAsk_ops _ h <;> cases e
  refine ⟨hok, exGap_whole, fun h => ?_, ?_, ?_⟩
  · have := (h.2 (some .before) false (by show exGapTable.call [97] (some .before) false = true; decide)).1
    cases this
  · obtain ⟨s', dir, unlink, seen, err, hr, hst, hlog, h1, h2⟩ := requestF_returns (c := exProcT) (t := exGapTable) (fs := freshFs (fun _ => false) (fun _ _ => false)) (m := [97]) (q := some exAsk) (l := exGapErr) (i := 2) (by decide)
      (fun i m' q' d hm => exGapAsk_asks i m' q' d (exGapErr_sub hm)) (fun h => hre (exGapErr_sub h)) exGap_seen.1 exGap_seen.2.1
    have hs : seen = [] := List.map_eq_nil_iff.mp h1
    subst hs
    cases err with
    | none => cases h2
    | some er => exact ⟨s', dir, unlink, _, hst, hlog, rfl⟩
  · obtain ⟨s', dir, unlink, seen, err, hr, hst, hlog, h1, h2⟩ := requestF_returns (c := exProcT) (t := exGapTable) (fs := freshFs (fun _ => false) (fun _ _ => false)) (m := [97]) (q := some exAsk) (l := exGapAsk) (i := 2) (by decide)
      exGapAsk_asks hre exGap_seen.2.2.1 exGap_seen.2.2.2
    refine ⟨hr, s', dir, unlink, _, hst, hlog, ?_⟩
    cases err with
    | some er => cases h2
    | none =>
      obtain ⟨kept, hkept, _, key⟩ := C120_shown exOut_ok (n := 2) (by norm_num) (by norm_num) (colors := viridis) (by rw [viridis_length]; norm_num) (by rw [viridis_length]; norm_num) exLibrary hr hok hst exGap_whole hlog
      have hkept : kept = exGapKept := by
        rcases hkept with e | ⟨e, _⟩
        · exact e.symm.trans exGap_kept.1
        · rw [show (ProcF.follow _ _ _ _).1.dumping = (exGapRun exGapAsk).1.dumping from rfl, exGap_lens.2.2] at e
          cases e
      subst hkept
      rcases key (by unfold exGapKept; simp) (by decide) (by decide) (by decide) (by decide) (by decide) with ⟨_, _, seen', hx⟩ | ⟨newest, stored, dropped, hk, hnew, hdrop, key⟩
      · cases hx
      have hd0 : dropped = [] := hdrop (by decide)
      rw [hd0, List.append_nil] at hk
      subst hk
      injection hnew with hnew
      subst hnew
      have hm := exMeasuredR
      have hobs : firstFour (obsOf [97] [([97], (⟨0x4008000000000000#64, [1], 0⟩ : Obs))]) = [0x4008000000000000#64] := by decide +kernel
      unfold ShowsIntervals at key
      dsimp only at key
      rw [hobs] at key
      cases h : graphMeasure (sceneStyle exOut { obs := [0x4008000000000000#64] }) (pngOpts 50 110 100 53 1) with
      | panic => rw [h] at hm; cases hm
      | small => rw [h] at hm; cases hm
      | ok m =>
        rw [h] at hm
        have h1 : some (m.x, m.y, m.width, m.height) = some (38, 22, 11, 3) := hm
        obtain ⟨mx, my, mw, mh⟩ : m.x = 38 ∧ m.y = 22 ∧ m.width = 11 ∧ m.height = 3 := by
          injection h1 with h1; injection h1 with a h1; injection h1 with b h1; injection h1 with c d; exact ⟨a, b, c, d⟩
        obtain ⟨c, pix, hp, hw, _, _, hpix, _, _⟩ := key m h (by omega) (by omega) (by rw [mh]; decide) (by rw [mh, viridis_length]; decide)
        have hw : c.width = 102 := hw
        have e : c.width.toNat = 102 := by rw [hw]; rfl
        refine ⟨c, pix, hp, e, ?_⟩
        rw [e, mx, my, mw, mh] at hpix
        have none_ : ∀ x : ℕ, x < 11 → batchesAt 50 110 11 exGapKept x = [] → pixel pix 102 (38 + x) 23 = some (white, 255) := by
          intro x hx hb
          obtain ⟨k, hk, hc⟩ := hpix x 1 (by omega) (by omega)
          rw [if_pos hb] at hc
          rw [← hc]
          exact hk
        have some_ : ∀ x : ℕ, x < 11 → batchesAt 50 110 11 exGapKept x ≠ [] → ∃ k, pixel pix 102 (38 + x) 23 = some (k, 255) ∧ k ≠ white := by
          intro x hx hb
          obtain ⟨k, hk, hc⟩ := hpix x 1 (by omega) (by omega)
          rw [if_neg hb] at hc
          exact ⟨k, hk, (C87_white hc).1⟩
        refine ⟨fun x hx => ?_, none_ 8 (by decide) (by decide +kernel), none_ 5 (by decide) (by decide +kernel)⟩
        simp only [List.mem_cons, List.not_mem_nil, or_false] at hx
        rcases hx with rfl | rfl | rfl
        · exact some_ 7 (by decide) (by decide +kernel)
        · exact some_ 9 (by decide) (by decide +kernel)
        · exact some_ 10 (by decide) (by decide +kernel)

end Rothko
