import Verif.Props.ProcessExample
import Verif.Props.SceneMore
import Verif.Props.Request
/-!
# C98: schedules
-/
namespace Rothko

/-- Everything that was or is to be called. -/
def Asked (Q : Nat → Bytes → DbCall → Prop) (s : FsSys DbCall DbRes) : Prop := (∀ (i : Nat) (x : Client DbCall (FsProg DbRes)), s.cl[i]? = some x → ∀ c ∈ x.todo, Q i c.1 c.2) ∧ ∀ e ∈ s.log, Q e.1 e.2.1 e.2.2.1

theorem Asked.set {Q : Nat → Bytes → DbCall → Prop} {s : FsSys DbCall DbRes} (h : Asked Q s) (j : Nat) (y : Client DbCall (FsProg DbRes)) (hy : ∀ c ∈ y.todo, Q j c.1 c.2) :
    ∀ (i : Nat) (x : Client DbCall (FsProg DbRes)), (s.cl.set j y)[i]? = some x → ∀ c ∈ x.todo, Q i c.1 c.2 := by
  intro i x hx
  rcases client_set_cases hx with ⟨rfl, rfl⟩ | ⟨_, hx⟩
  · exact hy
  · exact h.1 i x hx

theorem Asked.step {Q : Nat → Bytes → DbCall → Prop} {path : Bytes → Int → Bytes} {s s' : FsSys DbCall DbRes} (h : Asked Q s) (hst : s.Step dbCalls path s') : Asked Q s' := by
  cases hst with
  | enter i m o rest a h1 h2 h3 => exact ⟨h.set i _ (fun c hc => h.1 i _ h3 c hc), h.2⟩
  | first i m o rest h1 => exact ⟨h.set i _ (fun c hc => h.1 i _ h1 c hc), h.2⟩
  | work i m o rest p p' g h1 h2 => exact ⟨h.set i _ (fun c hc => h.1 i _ h1 c hc), h.2⟩
  | finish i m o rest r a a' p h1 h2 h3 =>
    refine ⟨h.set i _ (fun c hc => h.1 i _ h1 c (List.mem_cons_of_mem _ hc)), fun e he => ?_⟩
    rcases List.mem_append.mp he with he | he
    · exact h.2 e he
    · rw [List.mem_singleton.mp he]
      exact h.1 i _ h1 _ List.mem_cons_self
  | _ => exact h

/-- A request never asks anything but this. -/
def OnlyAsks (c : ProcCfg) (m : Bytes) (q : Option (Int64 × (List Val → Val → Cb))) (s : Proc) : Prop := Asked (fun i m' o => c.workers ≤ i → m' = m ∧ o = askOf c.pipe.cfg q) s.sys

theorem only_next {c : ProcCfg} {m : Bytes} {q : Option (Int64 × (List Val → Val → Cb))} {s s' : Proc} {x : PChoice} (hw : s.hands.length ≤ c.workers) (h : OnlyAsks c m q s)
    (hx : ∀ i m' q', x = .ask i m' q' → m' = m ∧ q' = q) (hn : s.next c x = some s') : OnlyAsks c m q s' ∧ s'.hands.length ≤ c.workers := by
  have go : ∀ {i : Nat} {sys : FsSys DbCall DbRes}, s.sys.next (dbPath c.dir) i = some sys → Asked (fun i m' o => c.workers ≤ i → m' = m ∧ o = askOf c.pipe.cfg q) sys := fun e => Asked.step h (next_step e)
  unfold Proc.next at hn
  split at hn
  · cases hn; exact ⟨h, hw⟩
  · split at hn
    · cases hn
    · cases hn; exact ⟨h, hw⟩
  · split at hn
    · cases hn
      refine ⟨⟨fun i x hi c hc => ?_, fun e he => (by cases he)⟩, by simp [Proc.init]⟩
      have hm : x ∈ (Proc.init _ _).sys.cl := List.mem_of_getElem? hi
      obtain ⟨p, hp, rfl⟩ := List.mem_map.mp hm
      rw [List.eq_of_mem_replicate hp] at hc
      cases hc
    · cases hn
  · cases hn
  · split at hn
    · cases hn
    · cases hn; exact ⟨h, hw⟩
  · rename_i i
    split at hn
    · rename_i hfree hq
      split at hn
      · cases hn
        refine ⟨⟨Asked.set h _ _ (fun c hc hge => ?_), h.2⟩, by simpa using hw⟩
        have := (List.getElem?_eq_some_iff.mp hfree).1
        omega
      · cases hn
    · cases hn
  · rename_i i m' q'
    obtain ⟨rfl, rfl⟩ := hx _ _ _ rfl
    split at hn
    · split at hn
      · cases hn
        refine ⟨⟨Asked.set h _ _ (fun c hc _ => ?_), h.2⟩, hw⟩
        rw [List.mem_singleton.mp hc]
        exact ⟨rfl, rfl⟩
      · cases hn
    · cases hn
  · split at hn
    · cases hn
    · rename_i e
      split at hn
      · cases hn; exact ⟨go e, hw⟩
      · split at hn
        · cases hn; exact ⟨go e, by simpa using hw⟩
        · cases hn
  · split at hn
    · cases hn; exact ⟨h, by simpa using hw⟩
    · cases hn
  · split at hn
    · cases hn; exact ⟨h, hw⟩
    · cases hn

theorem only_follow {c : ProcCfg} {m : Bytes} {q : Option (Int64 × (List Val → Val → Cb))} (l : List PChoice) : ∀ {s s' : Proc}, s.hands.length ≤ c.workers → OnlyAsks c m q s → (∀ i m' q', .ask i m' q' ∈ l → m' = m ∧ q' = q) →
    s.follow c l = some s' → OnlyAsks c m q s' := by
  induction l with
  | nil => intro s s' _ h _ e; cases e; exact h
  | cons x l ih =>
    intro s s' hw h hx e
    have hx' := fun i m' q' hm => hx i m' q' (List.mem_cons_of_mem _ hm)
    unfold Proc.follow at e
    split at e
    · split at e
      · exact ih hw h hx' e
      · cases e
    · rename_i s1 e1
      obtain ⟨h1, h2⟩ := only_next hw h (fun i m' q' hm => hx i m' q' (by rw [hm]; exact List.mem_cons_self)) e1
      exact ih h2 h1 hx' e

theorem only_init (c : ProcCfg) (m : Bytes) (q : Option (Int64 × (List Val → Val → Cb))) (fs : Bytes → Store) : OnlyAsks c m q (Proc.init c fs) := by
  refine ⟨fun i x hi c hc => ?_, fun e he => (by cases he)⟩
  have hm : x ∈ (Proc.init _ _).sys.cl := List.mem_of_getElem? hi
  obtain ⟨p, hp, rfl⟩ := List.mem_map.mp hm
  rw [List.eq_of_mem_replicate hp] at hc
  cases hc

theorem follow_snoc {c : ProcCfg} (x : PChoice) (l : List PChoice) : ∀ (s : Proc), s.follow c (l ++ [x]) = (s.follow c l).bind (fun s' => match s'.next c x with | none => if x.label.isNone then some s' else none | some s'' => some s'') := by
  induction l with
  | nil =>
    intro s
    show s.follow c [x] = (some s).bind _
    rw [Option.bind_some]
    unfold Proc.follow
    cases s.next c x <;> rfl
  | cons y l ih =>
    intro s
    rw [List.cons_append]
    unfold Proc.follow
    cases s.next c y with
    | none =>
      dsimp only
      split
      · exact ih s
      · rfl
    | some s1 => exact ih s1

/-- The values a query gave back, as their ends. -/
def stopsOf : DbRes → Option (List Int64)
  | .query seen none => some (seen.map (·.stop))
  | _ => none

/-- Who returned, and what a query gave back. -/
def exEnds (s : Proc) : List (Nat × Option (List Int64)) := s.sys.log.map (fun e => (e.1, stopsOf e.2.2.2))

/-- At the end of a schedule a request returns. -/
theorem request_returns {c : ProcCfg} {fs : Bytes → Store} {m : Bytes} {q : Option (Int64 × (List Val → Val → Cb))} {l : List PChoice} {i : Nat} {before : List (Nat × Option (List Int64))} {stops : List Int64} (hi : c.workers ≤ i)
    (hx : ∀ i m' q', .ask i m' q' ∈ l → m' = m ∧ q' = q) (h1 : ((Proc.init c fs).follow c l).map exEnds = some before) {dm : Bool}
    (h2 : ((Proc.init c fs).follow c (l ++ [.go i])).map (fun s => (exEnds s, s.dumping)) = some (before ++ [(i, some stops)], dm)) :
    ∃ s s' seen, Proc.Reach c fs (l.filterMap PChoice.label) s ∧ s.Step c none s' ∧ s'.dumping = dm ∧ s'.sys.log = s.sys.log ++ [(i, m, askOf c.pipe.cfg q, .query seen none)] ∧ seen.map (·.stop) = stops := by
  cases e : (Proc.init c fs).follow c l with
  | none => rw [e] at h1; cases h1
  | some s =>
    rw [e] at h1
    injection h1 with h1
    rw [follow_snoc, e] at h2
    dsimp only [Option.bind_some] at h2
    have hr := follow_proc l .start e
    rw [List.nil_append] at hr
    have hw0 : (Proc.init c fs).hands.length ≤ c.workers := by simp [Proc.init]
    cases e1 : s.next c (.go i) with
    | none =>
      rw [e1] at h2
      have h2 : some (exEnds s, s.dumping) = _ := h2
      injection h2 with h2
      injection h2 with h2 _
      rw [h1] at h2
      have := congrArg List.length h2
      simp at this
    | some s' =>
      rw [e1] at h2
      have h2 : some (exEnds s', s'.dumping) = _ := h2
      injection h2 with h2
      injection h2 with h2 h3
      have hst : s.Step c none s' := next_proc e1
      have honly := only_follow (l ++ [.go i]) (s' := s') hw0 (only_init c m q fs) (fun i m' q' hm => by
        rcases List.mem_append.mp hm with hm | hm
        · exact hx i m' q' hm
        · cases List.mem_singleton.mp hm) (by rw [follow_snoc, e]; dsimp only [Option.bind_some]; rw [e1])
      have hlog : s'.sys.log = s.sys.log ∨ ∃ e, s'.sys.log = s.sys.log ++ [(i, e)] := by
        unfold Proc.next at e1
        dsimp only at e1
        split at e1
        · cases e1
        · rename_i sys en
          split at e1
          · cases e1; exact next_log en
          · split at e1
            · cases e1; exact next_log en
            · cases e1
      rcases hlog with hlog | ⟨⟨m', o, r⟩, hlog⟩
      · have h2 : (s'.sys.log.map (fun e => (e.1, stopsOf e.2.2.2))) = _ := h2
        rw [hlog] at h2
        have h1 : (s.sys.log.map (fun e => (e.1, stopsOf e.2.2.2))) = _ := h1
        rw [h1] at h2
        have := congrArg List.length h2
        simp at this
      · have h2 : (s'.sys.log.map (fun e => (e.1, stopsOf e.2.2.2))) = _ := h2
        rw [hlog, List.map_append] at h2
        have h1 : (s.sys.log.map (fun e => (e.1, stopsOf e.2.2.2))) = _ := h1
        rw [h1] at h2
        have h2 := List.append_cancel_left h2
        injection h2 with h2 _
        injection h2 with _ h2
        have h2 : stopsOf r = some stops := h2
        obtain ⟨rfl, rfl⟩ := honly.2 (i, m', o, r) (by rw [hlog]; exact List.mem_append_right _ (List.mem_singleton.mpr rfl)) hi
        cases r with
        | query seen err =>
          cases err with
          | none =>
            have h2 : some (seen.map (·.stop)) = some stops := h2
            injection h2 with h2
            exact ⟨s, s', seen, hr, hst, h3, hlog, h2⟩
          | some _ => cases h2
        | _ => cases h2

/-- Two workers, room for one handle, one request; the digests of `exOut`. -/
def exProcT : ProcCfg := { pipe := exPipeT, dir := [47, 100], handles := 1, workers := 2, clients := 3 }

/-- An observation at `t` and a dump at `t + 1`, which a worker writes. -/
def exRound (t : Int64) : List PChoice := [.op (.add [97] ⟨0x4008000000000000#64, [1], 0⟩ t), .op (.dump id (t + 1) (fun _ => true)), .offer, .recv 0] ++ (List.replicate 14 [.go 0, .answer 0]).flatten ++ [.wait]

/-- What was observed and dumped in a round. -/
def exRoundOps (t : Int64) : List POp := [.add [97] ⟨0x4008000000000000#64, [1], 0⟩ t, .dump id (t + 1) (fun _ => true)]

/-- The query of the request for the picture of the 110 nanoseconds before 50. -/
def exAsk : Int64 × (List Val → Val → Cb) := (50, fun seen v =>
  (renderCb ((theScene exOut (2 : ℕ) viridis).params (pngOpts 50 110 100 53 1)) 50 110 (50 - 110) (renderAfter ((theScene exOut (2 : ℕ) viridis).params (pngOpts 50 110 100 53 1)) 50 110 seen) v).2)

theorem exAsk_call : askOf exCfg4 (some exAsk) = pngCall (theScene exOut (2 : ℕ) viridis) exCfg4 50 110 100 53 1 := rfl

/-- Four rounds; then the request is made. -/
def exFour : List PChoice := exRound 10 ++ (exRound 20 ++ (exRound 30 ++ (exRound 40 ++ [.ask 2 [97] (some exAsk)])))

/-- It is answered at once. -/
def exEarly : List PChoice := exFour ++ List.replicate 6 (.go 2)

/-- It is answered after a fifth round. -/
def exLate : List PChoice := exFour ++ (exRound 50 ++ List.replicate 6 (.go 2))

/-- The first four rounds. -/
def exFourOps : List POp := exRoundOps 10 ++ exRoundOps 20 ++ exRoundOps 30 ++ exRoundOps 40

theorem exRound_asks (t : Int64) : ∀ i m' q', PChoice.ask i m' q' ∉ exRound t := by
  intro i m' q' hm
  unfold exRound at hm
  simp at hm

theorem exFour_asks : ∀ i m' q', PChoice.ask i m' q' ∈ exFour → m' = [97] ∧ q' = some exAsk := by
  intro i m' q' hm
  unfold exFour at hm
  simp only [List.mem_append, exRound_asks, false_or] at hm
  cases List.mem_singleton.mp hm
  exact ⟨rfl, rfl⟩

set_option maxRecDepth 100000 in
theorem exEarly_before : ((Proc.init exProcT (freshFs (fun _ => false) (fun _ _ => false))).follow exProcT exEarly).map exEnds = some [(0, none), (0, none), (0, none), (0, none)] := by decide +kernel

set_option maxRecDepth 100000 in
set_option synthInstance.maxSize 2000 in
set_option synthInstance.maxHeartbeats 200000 in
theorem exEarly_after : ((Proc.init exProcT (freshFs (fun _ => false) (fun _ _ => false))).follow exProcT (exEarly ++ [.go 2])).map (fun s => (exEnds s, s.dumping)) =
    some ([(0, none), (0, none), (0, none), (0, none)] ++ [(2, some [41, 31, 21, 11])], false) := by decide +kernel

set_option maxRecDepth 100000 in
theorem exLate_before : ((Proc.init exProcT (freshFs (fun _ => false) (fun _ _ => false))).follow exProcT exLate).map exEnds = some [(0, none), (0, none), (0, none), (0, none), (0, none)] := by decide +kernel

set_option maxRecDepth 100000 in
set_option synthInstance.maxSize 2000 in
set_option synthInstance.maxHeartbeats 200000 in
theorem exLate_after : ((Proc.init exProcT (freshFs (fun _ => false) (fun _ _ => false))).follow exProcT (exLate ++ [.go 2])).map (fun s => (exEnds s, s.dumping)) =
    some ([(0, none), (0, none), (0, none), (0, none), (0, none)] ++ [(2, some [])], false) := by decide +kernel

theorem exProcT_ok (ops : List POp) (h1 : ∀ op ∈ ops, op.Fair 1) (h2 : ops.length < 9223372036854775808) (h3 : (dumpTimes ops).Pairwise (· < ·)) : ProcOk exProcT 1 ops := by
  obtain ⟨_, _, _, f4⟩ := C70_example_hyps
  refine ⟨by decide, by decide, rfl, f4, (C70_fits exPipeT 1 32 (by decide) (fun vals => by
      show (packF (firstFour vals)).length ≤ 32
      unfold packF firstFour
      rw [List.length_flatten, List.map_map]
      have : (List.length ∘ fun v : F64 => leBytes 8 v.toNat) = fun _ => 8 := by funext v; exact leBytes_length 8 _
      rw [this, List.map_const', List.sum_replicate, List.length_map, List.length_take]
      show min 4 vals.length * 8 ≤ 32
      omega) (by decide)), h1, h2, h3⟩

theorem exRound_fair (t : Int64) : ∀ op ∈ exRoundOps t, op.Fair 1 := by
  intro op hop
  simp only [exRoundOps, List.mem_cons, List.not_mem_nil, or_false] at hop
  rcases hop with rfl | rfl
  · exact Nat.le_refl _
  · exact fun l => List.Perm.refl l

theorem exFour_fair : ∀ op ∈ exFourOps, op.Fair 1 := by
  intro op hop
  unfold exFourOps at hop
  rcases List.mem_append.mp hop with hop | hop
  · rcases List.mem_append.mp hop with hop | hop
    · rcases List.mem_append.mp hop with hop | hop
      · exact exRound_fair _ op hop
      · exact exRound_fair _ op hop
    · exact exRound_fair _ op hop
  · exact exRound_fair _ op hop

theorem exFour_kept : (exFourOps.foldl PSpec.step {}).kept [97] =
    [⟨31, 41, [([97], ⟨0x4008000000000000#64, [1], 0⟩)]⟩, ⟨21, 31, [([97], ⟨0x4008000000000000#64, [1], 0⟩)]⟩, ⟨11, 21, [([97], ⟨0x4008000000000000#64, [1], 0⟩)]⟩, ⟨10, 11, [([97], ⟨0x4008000000000000#64, [1], 0⟩)]⟩] := by
  rfl

set_option maxRecDepth 100000 in
theorem exMeasuredR : triedSizes (graphMeasure (sceneStyle exOut { obs := [0x4008000000000000#64] }) (pngOpts 50 110 100 53 1)) = some (38, 22, 11, 3) := by decide +kernel

theorem exEarly_ops : exEarly.filterMap PChoice.label = exFourOps := rfl

theorem exLate_ops : exLate.filterMap PChoice.label = exFourOps ++ exRoundOps 50 := rfl

/-- **C98 example.** The hypotheses of C98 are met by a program that made four dumps and then is asked for the picture of the 110 nanoseconds before 50. Its middle row shows, from right to left: four pixels that are not white, nothing. -/
theorem C98_example : ProcOk exProcT 1 exFourOps ∧ ∃ s s' r, Proc.Reach exProcT (freshFs (fun _ => false) (fun _ _ => false)) exFourOps s ∧ s.Step exProcT none s' ∧
    s'.sys.log = s.sys.log ++ [(2, [97], pngCall (theScene exOut (2 : ℕ) viridis) exProcT.pipe.cfg 50 110 100 53 1, r)] ∧
    ∃ c pix, pngAnswer (theScene exOut (2 : ℕ) viridis) 50 110 100 53 1 r = .png c pix ∧ c.width.toNat = 102 ∧
      (∀ x ∈ [45, 46, 47, 48], ∃ k, pixel pix 102 x 23 = some (k, 255) ∧ k ≠ white) ∧ pixel pix 102 43 23 = some (white, 255) := by
  have hok : ProcOk exProcT 1 exFourOps := exProcT_ok exFourOps exFour_fair (by decide) (by decide)
  obtain ⟨s, s', seen, hr, hst, hdm, hlog, _⟩ := request_returns (m := [97]) (q := some exAsk) (l := exEarly) (i := 2) (by decide) (fun i m' q' hm => by
    unfold exEarly at hm
    rcases List.mem_append.mp hm with hm | hm
    · exact exFour_asks i m' q' hm
    · cases List.eq_of_mem_replicate hm) exEarly_before exEarly_after
  rw [exEarly_ops] at hr
  have hlog : s'.sys.log = s.sys.log ++ [(2, [97], pngCall (theScene exOut (2 : ℕ) viridis) exProcT.pipe.cfg 50 110 100 53 1, .query seen none)] := hlog
  refine ⟨hok, s, s', .query seen none, hr, hst, hlog, ?_⟩
  obtain ⟨kept, hkept, _, key⟩ := C98_shown exOut_ok (n := 2) (by norm_num) (by norm_num) (colors := viridis) (by rw [viridis_length]; norm_num) (by rw [viridis_length]; norm_num) exLibrary hr hok hst hlog
  have hkept : kept = (exFourOps.foldl PSpec.step {}).kept [97] := by
    rcases hkept with e | ⟨e, _⟩
    · exact e.symm
    · have hd : s.dumping = s'.dumping := by
        cases hst with
        | wait => simp_all
        | _ => rfl
      rw [hd, hdm] at e
      cases e
  rw [exFour_kept] at hkept
  subst hkept
  obtain ⟨newest, stored, dropped, hk, hnew, hdrop, key⟩ := key (by simp) (by decide) (by decide) (by decide) (by decide) (by decide)
  have hd0 : dropped = [] := hdrop (by decide)
  rw [hd0, List.append_nil] at hk
  subst hk
  injection hnew with hnew
  subst hnew
  have hm := exMeasuredR
  have hobs : firstFour (obsOf [97] [([97], (⟨0x4008000000000000#64, [1], 0⟩ : Obs))]) = [0x4008000000000000#64] := by decide +kernel
  dsimp only at key
  rw [hobs] at key
  cases h : graphMeasure (sceneStyle exOut { obs := [0x4008000000000000#64] }) (pngOpts 50 110 100 53 1) with
  | panic => rw [h] at hm; cases hm
  | small => rw [h] at hm; cases hm
  | ok m =>
    rw [h] at hm
    have h1 : some (m.x, m.y, m.width, m.height) = some (38, 22, 11, 3) := hm
    obtain ⟨mx, my, mw, mh⟩ : m.x = 38 ∧ m.y = 22 ∧ m.width = 11 ∧ m.height = 3 := by
      injection h1 with h1; injection h1 with a h1; injection h1 with b h1; injection h1 with c d; exact ⟨a, b, c, d⟩
    obtain ⟨c, pix, hp, hw, _, _, hpix, _, _⟩ := key m h (by omega) (by omega) (by rw [mh]; decide) (by rw [mh, viridis_length]; decide)
    have hw : c.width = 102 := hw
    have e : c.width.toNat = 102 := by rw [hw]; rfl
    refine ⟨c, pix, hp, e, ?_⟩
    rw [e, mx, my, mw, mh] at hpix
    rw [← exFour_kept] at hpix
    have none_ : ∀ x : ℕ, x < 11 → batchesAt 50 110 11 ((exFourOps.foldl PSpec.step {}).kept [97]) x = [] → pixel pix 102 (38 + x) 23 = some (white, 255) := by
      intro x hx hb
      obtain ⟨k, hk, hc⟩ := hpix x 1 (by omega) (by omega)
      rw [if_pos hb] at hc
      rw [← hc]
      exact hk
    have some_ : ∀ x : ℕ, x < 11 → batchesAt 50 110 11 ((exFourOps.foldl PSpec.step {}).kept [97]) x ≠ [] → ∃ k, pixel pix 102 (38 + x) 23 = some (k, 255) ∧ k ≠ white := by
      intro x hx hb
      obtain ⟨k, hk, hc⟩ := hpix x 1 (by omega) (by omega)
      rw [if_neg hb] at hc
      exact ⟨k, hk, (C87_white hc).1⟩
    refine ⟨fun x hx => ?_, none_ 5 (by decide) (by decide +kernel)⟩
    simp only [List.mem_cons, List.not_mem_nil, or_false] at hx
    rcases hx with rfl | rfl | rfl | rfl
    · exact some_ 7 (by decide) (by decide +kernel)
    · exact some_ 8 (by decide) (by decide +kernel)
    · exact some_ 9 (by decide) (by decide +kernel)
    · exact some_ 10 (by decide) (by decide +kernel)

/-- **C98** is false without the condition that all intervals end before the time asked for. A request that comes after four dumps, all of them before the time it asks for, and whose query is carried out after a fifth dump, gets the
error "too small": the fifth record is the only one in a new file, it ends too late, and the query looks no further. (Answered before the fifth dump it gets its picture: `C98_example`.) -/
theorem C98_late_refuted : ProcOk exProcT 1 (exFourOps ++ exRoundOps 50) ∧ ∃ s s' r, Proc.Reach exProcT (freshFs (fun _ => false) (fun _ _ => false)) (exFourOps ++ exRoundOps 50) s ∧ s.Step exProcT none s' ∧ s'.dumping = false ∧
    s'.sys.log = s.sys.log ++ [(2, [97], pngCall (theScene exOut (2 : ℕ) viridis) exProcT.pipe.cfg 50 110 100 53 1, r)] ∧
    ((exFourOps ++ exRoundOps 50).foldl PSpec.step {}).kept [97] = ⟨41, 51, [([97], ⟨0x4008000000000000#64, [1], 0⟩)]⟩ :: (exFourOps.foldl PSpec.step {}).kept [97] ∧
    pngAnswer (theScene exOut (2 : ℕ) viridis) 50 110 100 53 1 r = .tooSmall := by
  refine ⟨exProcT_ok _ (fun op hop => ?_) (by decide) (by decide), ?_⟩
  · rcases List.mem_append.mp hop with hop | hop
    · exact exFour_fair op hop
    · exact exRound_fair _ op hop
  · obtain ⟨s, s', seen, hr, hst, hdm, hlog, hseen⟩ := request_returns (m := [97]) (q := some exAsk) (l := exLate) (i := 2) (by decide) (fun i m' q' hm => by
      unfold exLate at hm
      rcases List.mem_append.mp hm with hm | hm
      · exact exFour_asks i m' q' hm
      · rcases List.mem_append.mp hm with hm | hm
        · exact absurd hm (exRound_asks _ i m' q')
        · cases List.eq_of_mem_replicate hm) exLate_before exLate_after
    rw [exLate_ops] at hr
    have hnil : seen = [] := List.map_eq_nil_iff.mp hseen
    subst hnil
    exact ⟨s, s', _, hr, hst, hdm, hlog, rfl, rfl⟩

end Rothko
