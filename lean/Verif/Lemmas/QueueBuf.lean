import Verif.Lemmas.Queue
/-!
# Buffers of the write queue
-/
set_option linter.unusedSimpArgs false
namespace Rothko

/-- What a step does to the ownership of buffers. -/
inductive QSys.Eff (p : QParams) (s s' : QSys) : Prop
  | same : (∀ w, s'.hold w = s.hold w) → s'.pool = s.pool → s'.bufData = s.bufData → s'.nextBuf = s.nextBuf → s'.written = s.written → Eff p s s'
  | getOld (c b : Nat) : b ∈ s.pool → (∀ w, s'.hold w = s.hold w + w ⟨c, b⟩) → s'.pool = s.pool.erase b →
      s'.bufData = (fun x => if x = b then p.data c else s.bufData x) → s'.nextBuf = s.nextBuf → s'.written = s.written → Eff p s s'
  | getNew (c : Nat) : (∀ w, s'.hold w = s.hold w + w ⟨c, s.nextBuf⟩) → s'.pool = s.pool →
      s'.bufData = (fun x => if x = s.nextBuf then p.data c else s.bufData x) → s'.nextBuf = s.nextBuf + 1 → s'.written = s.written → Eff p s s'
  | lose (b : Nat) : b ∈ s.pool → (∀ w, s'.hold w = s.hold w) → s'.pool = s.pool.erase b → s'.bufData = s.bufData → s'.nextBuf = s.nextBuf → s'.written = s.written → Eff p s s'
  | put (v : QVal) : (∀ w, s'.hold w + w v = s.hold w) → s'.pool = v.buf :: s.pool → s'.bufData = s.bufData → s'.nextBuf = s.nextBuf → s'.written = s.written → Eff p s s'
  | write (v : QVal) : (∀ w, s'.hold w = s.hold w) → (∀ w, w v ≤ s.hold w) → s'.pool = s.pool → s'.bufData = s.bufData → s'.nextBuf = s.nextBuf →
      s'.written = (v.call, s.bufData v.buf) :: s.written → Eff p s s'

abbrev cw (w : QVal → Nat) : Nat → CPc → Nat := fun c (pc : CPc) => (pc.buf?.map (fun b => w ⟨c, b⟩)).getD 0
abbrev hw (w : QVal → Nat) : Nat → QChan → Nat := fun _ ch => lsum w ch.items
abbrev rw' (w : QVal → Nat) : Nat → RPc → Nat := fun _ pc => lsum w pc.bufs

theorem QSys.hold_eq (s : QSys) (w : QVal → Nat) : s.hold w = isum (cw w) 0 s.calls + isum (hw w) 0 s.chans + isum (rw' w) 0 s.runs := rfl

theorem QSys.Step.eff {p : QParams} {s s' : QSys} (h : s.Step p s') : QSys.Eff p s s' := by
  cases h with
  | getOld c b hc hb =>
    refine .getOld c b hb (fun w => ?_) rfl rfl rfl rfl
    have := isum_set (cw w) (.copied b) 0 hc
    simp only [QSys.hold_eq, cw, hw, rw', QSys.setCall, QSys.fill, CPc.buf?, Option.map_some, Option.map_none, Option.getD_some, Option.getD_none, Nat.zero_add] at this ⊢; omega
  | getNew c hc =>
    refine .getNew c (fun w => ?_) rfl rfl rfl rfl
    have := isum_set (cw w) (.copied s.nextBuf) 0 hc
    simp only [QSys.hold_eq, cw, hw, rw', QSys.setCall, QSys.fill, CPc.buf?, Option.map_some, Option.map_none, Option.getD_some, Option.getD_none, Nat.zero_add] at this ⊢; omega
  | lose b hb => exact .lose b hb (fun w => rfl) rfl rfl rfl rfl
  | load c b hc =>
    refine .same (fun w => ?_) rfl rfl rfl rfl
    have := isum_set (cw w) (.loaded b s.current) 0 hc
    simp only [QSys.hold_eq, cw, hw, rw', QSys.setCall, CPc.buf?, Option.map_some, Option.getD_some] at this ⊢; omega
  | send c b q ch hc hq ho hl =>
    refine .same (fun w => ?_) rfl rfl rfl rfl
    have := isum_set (cw w) (.sent q) 0 hc
    have h2 := isum_set (hw w) { ch with items := ch.items ++ [⟨c, b⟩] } 0 hq
    simp only [QSys.hold_eq, cw, hw, rw', QSys.setCall, QSys.setChan, CPc.buf?, Option.map_some, Option.map_none, Option.getD_some, Option.getD_none, lsum_append, lsum_cons, lsum_nil, Nat.zero_add] at this h2 ⊢; omega
  | handoff c b q r i ws ch hc hq ho he hr hwi =>
    refine .same (fun w => ?_) rfl rfl rfl rfl
    have := isum_set (cw w) (.sent q) 0 hc
    have h2 := isum_set (rw' w) (.running q (ws.set i (.got ⟨c, b⟩))) 0 hr
    have h3 := lsum_flatMap_set w WPc.bufs (.got ⟨c, b⟩) hwi
    simp only [QSys.hold_eq, cw, hw, rw', QSys.setCall, QSys.setRun, CPc.buf?, Option.map_some, Option.map_none, Option.getD_some, Option.getD_none, RPc.bufs, WPc.bufs, lsum_cons, lsum_nil, Nat.zero_add] at this h2 h3 ⊢; omega
  | sendClosed c b q ch hc _ _ =>
    refine .same (fun w => ?_) rfl rfl rfl rfl
    have := isum_set (cw w) (.failing b) 0 hc
    simp only [QSys.hold_eq, cw, hw, rw', QSys.setCall, CPc.buf?, Option.map_some, Option.getD_some] at this ⊢; omega
  | cancel c b q hc =>
    refine .same (fun w => ?_) rfl rfl rfl rfl
    have := isum_set (cw w) (.failing b) 0 hc
    simp only [QSys.hold_eq, cw, hw, rw', QSys.setCall, CPc.buf?, Option.map_some, Option.getD_some] at this ⊢; omega
  | dropped c b q _ hc =>
    refine .same (fun w => ?_) rfl rfl rfl rfl
    have := isum_set (cw w) (.failing b) 0 hc
    simp only [QSys.hold_eq, cw, hw, rw', QSys.setCall, CPc.buf?, Option.map_some, Option.getD_some] at this ⊢; omega
  | failPut c b hc =>
    refine .put ⟨c, b⟩ (fun w => ?_) rfl rfl rfl rfl
    have := isum_set (cw w) .failed 0 hc
    simp only [QSys.hold_eq, cw, hw, rw', QSys.setCall, QSys.putBuf, CPc.buf?, Option.map_some, Option.map_none, Option.getD_some, Option.getD_none, Nat.zero_add] at this ⊢; omega
  | failDone c hc =>
    refine .same (fun w => ?_) rfl rfl rfl rfl
    have := isum_set (cw w) .finished 0 hc
    simp only [QSys.hold_eq, cw, hw, rw', QSys.setCall, QSys.callback, CPc.buf?, Option.map_none, Option.getD_none] at this ⊢; omega
  | runStart r hr _ =>
    refine .same (fun w => ?_) rfl rfl rfl rfl
    have h2 := isum_set (rw' w) .started 0 hr
    simp only [QSys.hold_eq, cw, hw, rw', QSys.setRun, RPc.bufs] at h2 ⊢; omega
  | runRefused r hr _ =>
    refine .same (fun w => ?_) rfl rfl rfl rfl
    have h2 := isum_set (rw' w) .refused 0 hr
    simp only [QSys.hold_eq, cw, hw, rw', QSys.setRun, RPc.bufs] at h2 ⊢; omega
  | runLoad r hr =>
    refine .same (fun w => ?_) rfl rfl rfl rfl
    have h2 := isum_set (rw' w) (.running s.current (List.replicate p.workers .ready)) 0 hr
    have h3 : (List.replicate p.workers WPc.ready).flatMap WPc.bufs = [] := by
      rw [List.flatMap_eq_nil_iff]; intro x hx; rw [(List.mem_replicate.mp hx).2]; rfl
    simp only [QSys.hold_eq, cw, hw, rw', QSys.setRun, RPc.bufs, h3, lsum_nil] at h2 ⊢; omega
  | recv r q i ws v rest closed hr hwi hq =>
    refine .same (fun w => ?_) rfl rfl rfl rfl
    have h2 := isum_set (rw' w) (.running q (ws.set i (.got v))) 0 hr
    have h3 := lsum_flatMap_set w WPc.bufs (.got v) hwi
    have h4 := isum_set (hw w) ⟨rest, closed⟩ 0 hq
    simp only [QSys.hold_eq, cw, hw, rw', QSys.setChan, QSys.setRun, RPc.bufs, WPc.bufs, lsum_cons, lsum_nil] at h2 h3 h4 ⊢; omega
  | recvClosed => exact .same (fun w => rfl) rfl rfl rfl rfl
  | write r q i ws v hr hwi =>
    refine .write v (fun w => ?_) (fun w => ?_) rfl rfl rfl rfl
    · have h2 := isum_set (rw' w) (.running q (ws.set i (.wrote v))) 0 hr
      have h3 := lsum_flatMap_set w WPc.bufs (.wrote v) hwi
      simp only [QSys.hold_eq, cw, hw, rw', QSys.setRun, RPc.bufs, WPc.bufs, lsum_cons, lsum_nil] at h2 h3 ⊢; omega
    · have h2 := isum_le (f := rw' w) 0 hr
      have h3 : w v ≤ lsum w (ws.flatMap WPc.bufs) :=
        lsum_le (List.mem_flatMap.mpr ⟨_, List.mem_of_getElem? hwi, by simp [WPc.bufs]⟩)
      simp only [QSys.hold_eq, cw, hw, rw', RPc.bufs] at h2 ⊢; omega
  | workerPut r q i ws v hr hwi =>
    refine .put v (fun w => ?_) rfl rfl rfl rfl
    have h2 := isum_set (rw' w) (.running q (ws.set i (.put v))) 0 hr
    have h3 := lsum_flatMap_set w WPc.bufs (.put v) hwi
    simp only [QSys.hold_eq, cw, hw, rw', QSys.setRun, QSys.putBuf, RPc.bufs, WPc.bufs, lsum_cons, lsum_nil] at h2 h3 ⊢; omega
  | workerDone r q i ws v hr hwi =>
    refine .same (fun w => ?_) rfl rfl rfl rfl
    have h2 := isum_set (rw' w) (.running q (ws.set i .ready)) 0 hr
    have h3 := lsum_flatMap_set w WPc.bufs .ready hwi
    simp only [QSys.hold_eq, cw, hw, rw', QSys.setRun, QSys.callback, RPc.bufs, WPc.bufs, lsum_nil] at h2 h3 ⊢; omega
  | workerExit r q i ws hr hwi =>
    refine .same (fun w => ?_) rfl rfl rfl rfl
    have h2 := isum_set (rw' w) (.running q (ws.set i .exited)) 0 hr
    have h3 := lsum_flatMap_set w WPc.bufs .exited hwi
    simp only [QSys.hold_eq, cw, hw, rw', QSys.setRun, RPc.bufs, WPc.bufs, lsum_nil] at h2 h3 ⊢; omega
  | launched r q ws hr he =>
    refine .same (fun w => ?_) rfl rfl rfl rfl
    have h2 := isum_set (rw' w) (.closing q) 0 hr
    have h3 : ws.flatMap WPc.bufs = [] := by
      rw [List.flatMap_eq_nil_iff]; intro x hx; rw [he x hx]; rfl
    simp only [QSys.hold_eq, cw, hw, rw', QSys.setRun, RPc.bufs, h3, lsum_nil] at h2 ⊢; omega
  | store r q hr =>
    refine .same (fun w => ?_) rfl rfl rfl rfl
    have h2 := isum_set (rw' w) (.stored q) 0 hr
    simp only [QSys.hold_eq, cw, hw, rw', QSys.setRun, RPc.bufs, isum_append, isum, lsum_nil] at h2 ⊢; omega
  | close r q ch hr hq ho =>
    refine .same (fun w => ?_) rfl rfl rfl rfl
    have h2 := isum_set (rw' w) (.draining q none) 0 hr
    have h4 := isum_set (hw w) { ch with closed := true } 0 hq
    simp only [QSys.hold_eq, cw, hw, rw', QSys.setRun, QSys.setChan, RPc.bufs] at h2 h4 ⊢; omega
  | closeClosed => exact .same (fun w => rfl) rfl rfl rfl rfl
  | drainRecv r q v rest closed hr hq =>
    refine .same (fun w => ?_) rfl rfl rfl rfl
    have h2 := isum_set (rw' w) (.draining q (some (v, false))) 0 hr
    have h4 := isum_set (hw w) ⟨rest, closed⟩ 0 hq
    simp only [QSys.hold_eq, cw, hw, rw', QSys.setRun, QSys.setChan, RPc.bufs, lsum_cons, lsum_nil] at h2 h4 ⊢; omega
  | drainPut r q v hr =>
    refine .put v (fun w => ?_) rfl rfl rfl rfl
    have h2 := isum_set (rw' w) (.draining q (some (v, true))) 0 hr
    simp only [QSys.hold_eq, cw, hw, rw', QSys.setRun, QSys.putBuf, RPc.bufs, lsum_cons, lsum_nil] at h2 ⊢; omega
  | drainDone r q v hr =>
    refine .same (fun w => ?_) rfl rfl rfl rfl
    have h2 := isum_set (rw' w) (.draining q none) 0 hr
    simp only [QSys.hold_eq, cw, hw, rw', QSys.setRun, QSys.callback, RPc.bufs, lsum_nil] at h2 ⊢; omega
  | drainEnd r q hr hq =>
    refine .same (fun w => ?_) rfl rfl rfl rfl
    have h2 := isum_set (rw' w) (.stopping q) 0 hr
    simp only [QSys.hold_eq, cw, hw, rw', QSys.setRun, RPc.bufs] at h2 ⊢; omega
  | stop r q hr =>
    refine .same (fun w => ?_) rfl rfl rfl rfl
    have h2 := isum_set (rw' w) (.returned q) 0 hr
    simp only [QSys.hold_eq, cw, hw, rw', QSys.setRun, RPc.bufs] at h2 ⊢; omega

theorem QSys.hold_mono {s : QSys} {w w' : QVal → Nat} (h : ∀ v, w v ≤ w' v) : s.hold w ≤ s.hold w' := by
  have h1 : isum (cw w) 0 s.calls ≤ isum (cw w') 0 s.calls :=
    isum_mono (fun i a _ => by cases hb : a.buf? <;> simp [cw, hb, h])
  have h2 : isum (hw w) 0 s.chans ≤ isum (hw w') 0 s.chans := isum_mono (fun i a _ => lsum_mono (fun v _ => h v))
  have h3 : isum (rw' w) 0 s.runs ≤ isum (rw' w') 0 s.runs := isum_mono (fun i a _ => lsum_mono (fun v _ => h v))
  simp only [QSys.hold_eq]; omega

theorem QSys.hold_add (s : QSys) (w w' : QVal → Nat) : s.hold (fun v => w v + w' v) = s.hold w + s.hold w' := by
  have h1 : isum (cw (fun v => w v + w' v)) 0 s.calls = isum (cw w) 0 s.calls + isum (cw w') 0 s.calls := by
    rw [← isum_add]; congr 1; funext i a; cases hb : a.buf? <;> simp [cw, hb]
  have h2 : isum (hw (fun v => w v + w' v)) 0 s.chans = isum (hw w) 0 s.chans + isum (hw w') 0 s.chans := by
    rw [← isum_add]; congr 1; funext i a; exact lsum_add _ _ _
  have h3 : isum (rw' (fun v => w v + w' v)) 0 s.runs = isum (rw' w) 0 s.runs + isum (rw' w') 0 s.runs := by
    rw [← isum_add]; congr 1; funext i a; exact lsum_add _ _ _
  simp only [QSys.hold_eq]; omega

/-- Counts the users of buffer `b`. -/
def isBuf (b : Nat) (v : QVal) : Nat := if v.buf = b then 1 else 0

/-- Counts the values whose buffer does not have the bytes passed to `Queue`. -/
def wrong (p : QParams) (s : QSys) (v : QVal) : Nat := if s.bufData v.buf = p.data v.call then 0 else 1

structure QSys.BufOk (p : QParams) (s : QSys) : Prop where
  once : ∀ b, s.pool.count b + s.hold (isBuf b) ≤ 1
  fresh : ∀ b, s.nextBuf ≤ b → s.pool.count b + s.hold (isBuf b) = 0
  right : s.hold (wrong p s) = 0
  wrote : ∀ x ∈ s.written, x.2 = p.data x.1

theorem count_erase_of_mem {l : List Nat} {b : Nat} (h : b ∈ l) (x : Nat) : (l.erase b).count x + (if b = x then 1 else 0) = l.count x := by
  by_cases hx : b = x
  · subst hx; rw [List.count_erase_self, if_pos rfl]
    have := List.count_pos_iff.mpr h; omega
  · rw [List.count_erase_of_ne (fun hh => hx hh.symm), if_neg hx]; rfl

theorem QSys.BufOk.step {p : QParams} {s s' : QSys} (h : s.BufOk p) (hs : s.Step p s') : s'.BufOk p := by
  obtain ⟨h1, h2, h3, h4⟩ := h
  cases hs.eff with
  | same e ep eb en ew =>
    refine ⟨fun b => ?_, fun b hb => ?_, ?_, ?_⟩
    · rw [e, ep]; exact h1 b
    · rw [e, ep]; exact h2 b (by rw [← en]; exact hb)
    · rw [e]; show s.hold (fun v => _) = 0; simp only [wrong, eb]; exact h3
    · rw [ew]; exact h4
  | lose b0 hb0 e ep eb en ew =>
    have hc := count_erase_of_mem hb0
    refine ⟨fun b => ?_, fun b hb => ?_, ?_, ?_⟩
    · rw [e, ep]; have := h1 b; have := hc b; omega
    · rw [e, ep]; have := h2 b (by rw [← en]; exact hb); have := hc b; omega
    · rw [e]; show s.hold (fun v => _) = 0; simp only [wrong, eb]; exact h3
    · rw [ew]; exact h4
  | put v e ep eb en ew =>
    refine ⟨fun b => ?_, fun b hb => ?_, ?_, ?_⟩
    · have := e (isBuf b); have := h1 b
      rw [ep, List.count_cons]
      have h5 : isBuf b v = if v.buf == b then 1 else 0 := by simp [isBuf]
      omega
    · have := e (isBuf b); have := h2 b (by rw [← en]; exact hb)
      rw [ep, List.count_cons]
      have h5 : isBuf b v = if v.buf == b then 1 else 0 := by simp [isBuf]
      omega
    · have := e (wrong p s)
      have h6 : wrong p s' = wrong p s := by funext v; simp only [wrong, eb]
      rw [h6]; omega
    · rw [ew]; exact h4
  | write v e hle ep eb en ew =>
    refine ⟨fun b => ?_, fun b hb => ?_, ?_, ?_⟩
    · rw [e, ep]; exact h1 b
    · rw [e, ep]; exact h2 b (by rw [← en]; exact hb)
    · rw [e]; show s.hold (fun v => _) = 0; simp only [wrong, eb]; exact h3
    · rw [ew]
      intro x hx
      rcases List.mem_cons.mp hx with hx | hx
      · subst hx
        have := hle (wrong p s)
        have h6 : wrong p s v = 0 := by omega
        simp only [wrong] at h6
        split at h6
        · assumption
        · cases h6
      · exact h4 x hx
  | getOld c b0 hb0 e ep eb en ew =>
    have hc := count_erase_of_mem hb0
    have hp0 := List.count_pos_iff.mpr hb0
    refine ⟨fun b => ?_, fun b hb => ?_, ?_, ?_⟩
    · rw [e, ep]; have := h1 b; have := hc b
      simp only [isBuf]; omega
    · rw [e, ep]; have := h2 b (by rw [← en]; exact hb); have := hc b
      simp only [isBuf]; omega
    · have hle : s.hold (wrong p s') ≤ s.hold (fun v => wrong p s v + isBuf b0 v) := by
        refine QSys.hold_mono (fun v => ?_)
        simp only [wrong, isBuf, eb]
        by_cases hv : v.buf = b0
        · simp only [hv, if_true]; split <;> omega
        · simp only [hv, if_false]; omega
      rw [QSys.hold_add, h3] at hle
      have := h1 b0
      rw [e]
      have h7 : wrong p s' ⟨c, b0⟩ = 0 := by simp [wrong, eb]
      omega
    · rw [ew]; exact h4
  | getNew c e ep eb en ew =>
    refine ⟨fun b => ?_, fun b hb => ?_, ?_, ?_⟩
    · rw [e, ep]; have := h1 b
      have h5 : isBuf b ⟨c, s.nextBuf⟩ = if s.nextBuf = b then 1 else 0 := rfl
      split at h5
      · have := h2 b (by omega); omega
      · omega
    · rw [e, ep]; have := h2 b (by omega)
      have h5 : isBuf b ⟨c, s.nextBuf⟩ = if s.nextBuf = b then 1 else 0 := rfl
      rw [if_neg (by omega)] at h5; omega
    · have hle : s.hold (wrong p s') ≤ s.hold (fun v => wrong p s v + isBuf s.nextBuf v) := by
        refine QSys.hold_mono (fun v => ?_)
        simp only [wrong, isBuf, eb]
        by_cases hv : v.buf = s.nextBuf
        · simp only [hv, if_true]; split <;> omega
        · simp only [hv, if_false]; omega
      rw [QSys.hold_add, h3] at hle
      have := h2 s.nextBuf (Nat.le_refl _)
      rw [e]
      have h7 : wrong p s' ⟨c, s.nextBuf⟩ = 0 := by simp [wrong, eb]
      omega
    · rw [ew]; exact h4

theorem QSys.BufOk.init (p : QParams) (n m : Nat) : (QSys.init n m).BufOk p := by
  have h0 : ∀ w, (QSys.init n m).hold w = 0 := by
    intro w
    have h1 : isum (cw w) 0 (List.replicate n .start) = 0 := isum_zero (fun i a h => by
      have := List.mem_of_getElem? h; rw [(List.mem_replicate.mp this).2]; rfl)
    have h3 : isum (rw' w) 0 (List.replicate m .idle) = 0 := isum_zero (fun i a h => by
      have := List.mem_of_getElem? h; rw [(List.mem_replicate.mp this).2]; rfl)
    rw [QSys.hold_eq]; simp only [QSys.init]; rw [h1, h3]; rfl
  refine ⟨fun b => ?_, fun b _ => ?_, ?_, ?_⟩
  · rw [h0]; simp [QSys.init]
  · rw [h0]; simp [QSys.init]
  · exact h0 _
  · simp [QSys.init]

theorem QSys.Reach.bufOk {p : QParams} {n m : Nat} {s : QSys} (h : QSys.Reach p n m s) : s.BufOk p := by
  induction h with
  | init => exact .init p n m
  | step _ hs ih => exact ih.step hs

end Rothko
