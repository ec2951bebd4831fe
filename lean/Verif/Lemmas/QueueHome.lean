import Verif.Lemmas.QueueRun
import Verif.Lemmas.QueueBuf
/-!
# Where queued values are, and which were written
-/
set_option linter.unusedSimpArgs false
namespace Rothko

/-- Values in or from channel `q` are from calls that returned after sending to `q`. -/
structure QSys.Home (s : QSys) : Prop where
  chan : ∀ (q : Nat) (ch : QChan) (v : QVal), s.chans[q]? = some ch → v ∈ ch.items → s.calls[v.call]? = some (.sent q)
  run : ∀ (r : Nat) (pc : RPc) (v : QVal), s.runs[r]? = some pc → v ∈ pc.vals → ∃ q, pc.queue = some q ∧ s.calls[v.call]? = some (.sent q)

/-- Calls only move on from a state that is not `sent`. -/
def CallsLe (l l' : List CPc) : Prop := ∀ (c q : Nat), l[c]? = some (.sent q) → l'[c]? = some (.sent q)

theorem CallsLe.refl (l : List CPc) : CallsLe l l := fun _ _ h => h

theorem CallsLe.set {l : List CPc} {c : Nat} {pc pc' : CPc} (h : l[c]? = some pc) (hn : ∀ q, pc ≠ .sent q) : CallsLe l (l.set c pc') := by
  intro c' q h'
  by_cases hc : c = c'
  · subst hc; rw [h] at h'; cases h'; exact absurd rfl (hn q)
  · rw [List.getElem?_set_ne hc]; exact h'

theorem QSys.Home.calls {s s' : QSys} (h : s.Home) (hc : CallsLe s.calls s'.calls) (h1 : s'.chans = s.chans) (h2 : s'.runs = s.runs) : s'.Home := by
  refine ⟨fun q ch v hq hv => hc _ _ (h.chan q ch v (h1 ▸ hq) hv), fun r pc v hr hv => ?_⟩
  obtain ⟨q, g1, g2⟩ := h.run r pc v (h2 ▸ hr) hv
  exact ⟨q, g1, hc _ _ g2⟩

/-- A step of run `r`, possibly with a change to its channel. -/
theorem QSys.Home.upd {s s' : QSys} (h : s.Home) (hc : CallsLe s.calls s'.calls)
    (h1 : ∀ (q : Nat) (ch : QChan) (v : QVal), s'.chans[q]? = some ch → v ∈ ch.items → s'.calls[v.call]? = some (.sent q))
    {r : Nat} {pc pc' : RPc} (hr : s.runs[r]? = some pc) (h2 : s'.runs = s.runs.set r pc')
    (h3 : ∀ v ∈ pc'.vals, ∃ q, pc'.queue = some q ∧ s'.calls[v.call]? = some (.sent q)) : s'.Home := by
  refine ⟨h1, fun r' x v hx hv => ?_⟩
  rw [h2] at hx
  rcases getElem?_set_cases hr hx with ⟨_, rfl⟩ | ⟨_, hx⟩
  · exact h3 v hv
  · obtain ⟨q, g1, g2⟩ := h.run r' x v hx hv
    exact ⟨q, g1, hc _ _ g2⟩

theorem mem_flatMap_set {ws : List WPc} {i : Nat} {a : WPc} {v : QVal} (h : v ∈ (ws.set i a).flatMap WPc.vals) : v ∈ a.vals ∨ v ∈ ws.flatMap WPc.vals := by
  obtain ⟨x, hx, hv⟩ := List.mem_flatMap.mp h
  rcases List.mem_or_eq_of_mem_set hx with hx | hx
  · exact Or.inr (List.mem_flatMap.mpr ⟨x, hx, hv⟩)
  · exact Or.inl (hx ▸ hv)

theorem QSys.Home.step {p : QParams} {s s' : QSys} (h : s.Home) (hs : s.Step p s') : s'.Home := by
  have same : ∀ {r : Nat} {pc pc' : RPc}, s.runs[r]? = some pc → (∀ v ∈ pc'.vals, v ∈ pc.vals) → pc'.queue = pc.queue →
      ∀ v ∈ pc'.vals, ∃ q, pc'.queue = some q ∧ s.calls[v.call]? = some (.sent q) := by
    intro r pc pc' hr hv hq v hv'
    rw [hq]; exact h.run r pc v hr (hv v hv')
  cases hs with
  | getOld c b hc hb => exact h.calls (.set hc (by simp)) rfl rfl
  | getNew c hc => exact h.calls (.set hc (by simp)) rfl rfl
  | lose b hb => exact h.calls (.refl _) rfl rfl
  | load c b hc => exact h.calls (.set hc (by simp)) rfl rfl
  | sendClosed c b q ch hc _ _ => exact h.calls (.set hc (by simp)) rfl rfl
  | cancel c b q hc => exact h.calls (.set hc (by simp)) rfl rfl
  | dropped c b q _ hc => exact h.calls (.set hc (by simp)) rfl rfl
  | failPut c b hc => exact h.calls (.set hc (by simp)) rfl rfl
  | failDone c hc => exact h.calls (.set hc (by simp)) rfl rfl
  | send c b q ch hc hq ho hl =>
    have hle : CallsLe s.calls (s.calls.set c (.sent q)) := .set hc (by simp)
    refine ⟨fun q' x v hx hv => ?_, fun r pc v hr hv => ?_⟩
    · rcases getElem?_set_cases hq hx with ⟨e1, e2⟩ | ⟨_, hx⟩
      · subst e1; subst e2
        rcases List.mem_append.mp hv with hv | hv
        · exact hle _ _ (h.chan _ _ v hq hv)
        · rw [List.mem_singleton.mp hv]
          show (s.calls.set c (.sent _))[c]? = _
          rw [List.getElem?_set_self (List.getElem?_eq_some_iff.mp hc).1]
      · exact hle _ _ (h.chan q' x v hx hv)
    · obtain ⟨q', g1, g2⟩ := h.run r pc v hr hv
      exact ⟨q', g1, hle _ _ g2⟩
  | handoff c b q r i ws ch hc hq ho he hr hwi =>
    have hle : CallsLe s.calls (s.calls.set c (.sent q)) := .set hc (by simp)
    refine h.upd (s' := QSys.setCall _ _ _) hle (fun q' x v hx hv => hle _ _ (h.chan q' x v hx hv)) hr rfl (fun v hv => ⟨q, rfl, ?_⟩)
    rcases mem_flatMap_set hv with hv | hv
    · rw [List.mem_singleton.mp hv]
      show (s.calls.set c (.sent _))[c]? = _
      rw [List.getElem?_set_self (List.getElem?_eq_some_iff.mp hc).1]
    · obtain ⟨q', g1, g2⟩ := h.run r _ v hr hv
      cases g1
      exact hle _ _ g2
  | runStart r hr hoff => exact h.upd (.refl _) h.chan hr rfl (by simp [RPc.vals])
  | runRefused r hr hon => exact h.upd (.refl _) h.chan hr rfl (by simp [RPc.vals])
  | runLoad r hr =>
    refine h.upd (.refl _) h.chan hr rfl ?_
    intro v hv
    obtain ⟨x, hx, hv⟩ := List.mem_flatMap.mp hv
    rw [(List.mem_replicate.mp hx).2] at hv; cases hv
  | recv r q i ws v rest closed hr hwi hq =>
    refine h.upd (.refl _) (fun q' x u hx hu => ?_) hr rfl ?_
    · rcases getElem?_set_cases hq hx with ⟨e1, e2⟩ | ⟨_, hx⟩
      · subst e1; subst e2; exact h.chan _ _ u hq (List.mem_cons_of_mem _ hu)
      · exact h.chan q' x u hx hu
    · intro u hu
      rcases mem_flatMap_set hu with hu | hu
      · rw [List.mem_singleton.mp hu]; exact ⟨q, rfl, h.chan q _ v hq (by simp)⟩
      · obtain ⟨q', g1, g2⟩ := h.run r _ u hr hu; cases g1; exact ⟨q, rfl, g2⟩
  | recvClosed => exact h.calls (.refl _) rfl rfl
  | write r q i ws v hr hwi =>
    refine h.upd (.refl _) h.chan hr rfl (same hr (fun u hu => ?_) rfl)
    rcases mem_flatMap_set hu with hu | hu
    · exact List.mem_flatMap.mpr ⟨_, List.mem_of_getElem? hwi, hu⟩
    · exact hu
  | workerPut r q i ws v hr hwi =>
    refine h.upd (.refl _) h.chan hr rfl (same hr (fun u hu => ?_) rfl)
    rcases mem_flatMap_set hu with hu | hu
    · exact List.mem_flatMap.mpr ⟨_, List.mem_of_getElem? hwi, hu⟩
    · exact hu
  | workerDone r q i ws v hr hwi =>
    refine h.upd (.refl _) h.chan hr rfl (same hr (fun u hu => ?_) rfl)
    rcases mem_flatMap_set hu with hu | hu
    · cases hu
    · exact hu
  | workerExit r q i ws hr hwi =>
    refine h.upd (.refl _) h.chan hr rfl (same hr (fun u hu => ?_) rfl)
    rcases mem_flatMap_set hu with hu | hu
    · cases hu
    · exact hu
  | launched r q ws hr he => exact h.upd (.refl _) h.chan hr rfl (by simp [RPc.vals])
  | store r q hr =>
    refine h.upd (.refl _) (fun q' x u hx hu => ?_) hr rfl (by simp [RPc.vals])
    simp only [QSys.setRun] at hx
    by_cases hlt : q' < s.chans.length
    · rw [List.getElem?_append_left hlt] at hx; exact h.chan q' x u hx hu
    · rw [List.getElem?_append_right (by omega)] at hx
      obtain ⟨_, hx⟩ := List.getElem?_eq_some_iff.mp hx
      simp at hx; subst hx; cases hu
  | close r q ch hr hq ho =>
    refine h.upd (.refl _) (fun q' x u hx hu => ?_) hr rfl (by simp [RPc.vals])
    rcases getElem?_set_cases hq hx with ⟨e1, e2⟩ | ⟨_, hx⟩
    · subst e1; subst e2; exact h.chan _ _ u hq hu
    · exact h.chan q' x u hx hu
  | closeClosed => exact h.calls (.refl _) rfl rfl
  | drainRecv r q v rest closed hr hq =>
    refine h.upd (.refl _) (fun q' x u hx hu => ?_) hr rfl ?_
    · rcases getElem?_set_cases hq hx with ⟨e1, e2⟩ | ⟨_, hx⟩
      · subst e1; subst e2; exact h.chan _ _ u hq (List.mem_cons_of_mem _ hu)
      · exact h.chan q' x u hx hu
    · intro u hu
      rw [List.mem_singleton.mp hu]; exact ⟨q, rfl, h.chan q _ v hq (by simp)⟩
  | drainPut r q v hr => exact h.upd (.refl _) h.chan hr rfl (same hr (fun u hu => hu) rfl)
  | drainDone r q v hr => exact h.upd (.refl _) h.chan hr rfl (by simp [RPc.vals])
  | drainEnd r q hr hq => exact h.upd (.refl _) h.chan hr rfl (by simp [RPc.vals])
  | stop r q hr => exact h.upd (.refl _) h.chan hr rfl (by simp [RPc.vals])

theorem QSys.Reach.home {p : QParams} {n m : Nat} {s : QSys} (h : QSys.Reach p n m s) : s.Home := by
  induction h with
  | init =>
    refine ⟨fun q ch v hq hv => ?_, fun r pc v hr hv => ?_⟩
    · have := List.mem_of_getElem? hq
      rw [List.mem_singleton.mp this] at hv; cases hv
    · have := List.mem_of_getElem? hr
      rw [(List.mem_replicate.mp this).2] at hv; cases hv
  | step _ hs ih => exact ih.step hs

/-! ## Written values -/

/-- Values a worker has written but not yet answered. -/
def WPc.done : WPc → List QVal
  | .wrote v => [v]
  | .put v => [v]
  | _ => []

def RPc.done : RPc → List QVal
  | .running _ ws => ws.flatMap WPc.done
  | _ => []

theorem RPc.done_running (q : Nat) (ws : List WPc) : (RPc.running q ws).done = ws.flatMap WPc.done := rfl
theorem RPc.done_draining (q : Nat) (o : Option (QVal × Bool)) : (RPc.draining q o).done = [] := rfl

/-- Every value written is being answered, or has been answered, with the result of the write. -/
def QSys.WrittenOk (s : QSys) : Prop := ∀ w : Nat → Nat, (s.written.map (fun e => w e.1)).sum =
  isum (fun _ (pc : RPc) => lsum (fun v => w v.call) pc.done) 0 s.runs + ((s.log.filter (·.2)).map (fun e => w e.1)).sum

theorem QSys.WrittenOk.step {p : QParams} {s s' : QSys} (h : s.WrittenOk) (hs : s.Step p s') : s'.WrittenOk := by
  intro w
  have hw := h w
  have calls : s'.runs = s.runs → s'.written = s.written → s'.log = s.log → (s'.written.map (fun e => w e.1)).sum =
      isum (fun _ (pc : RPc) => lsum (fun v => w v.call) pc.done) 0 s'.runs + ((s'.log.filter (·.2)).map (fun e => w e.1)).sum := by
    intro h1 h2 h3; rw [h1, h2, h3]; exact hw
  have runs : ∀ {r : Nat} {pc pc' : RPc}, s.runs[r]? = some pc → s'.runs = s.runs.set r pc' → s'.written = s.written → s'.log = s.log →
      lsum (fun v => w v.call) pc'.done = lsum (fun v => w v.call) pc.done → (s'.written.map (fun e => w e.1)).sum =
      isum (fun _ (pc : RPc) => lsum (fun v => w v.call) pc.done) 0 s'.runs + ((s'.log.filter (·.2)).map (fun e => w e.1)).sum := by
    intro r pc pc' hr h1 h2 h3 h4
    rw [h1, h2, h3]
    have := isum_set (fun _ (pc : RPc) => lsum (fun v => w v.call) pc.done) pc' 0 hr
    omega
  cases hs with
  | getOld c b hc hb => exact calls rfl rfl rfl
  | getNew c hc => exact calls rfl rfl rfl
  | lose b hb => exact calls rfl rfl rfl
  | load c b hc => exact calls rfl rfl rfl
  | sendClosed c b q ch hc _ _ => exact calls rfl rfl rfl
  | cancel c b q hc => exact calls rfl rfl rfl
  | dropped c b q _ hc => exact calls rfl rfl rfl
  | failPut c b hc => exact calls rfl rfl rfl
  | failDone c hc => simpa [QSys.callback, QSys.setCall] using hw
  | send c b q ch hc hq ho hl => exact calls rfl rfl rfl
  | handoff c b q r i ws ch hc hq ho he hr hwi =>
    refine runs hr rfl rfl rfl ?_
    have := lsum_flatMap_set (fun v => w v.call) WPc.done (.got ⟨c, b⟩) hwi
    simp only [WPc.done, lsum_nil] at this; exact this
  | runStart r hr hoff => exact runs hr rfl rfl rfl rfl
  | runRefused r hr hon => exact runs hr rfl rfl rfl rfl
  | runLoad r hr =>
    refine runs hr rfl rfl rfl ?_
    have h3 : (List.replicate p.workers WPc.ready).flatMap WPc.done = [] := by
      rw [List.flatMap_eq_nil_iff]; intro x hx; rw [(List.mem_replicate.mp hx).2]; rfl
    simp only [RPc.done_running, h3]; rfl
  | recv r q i ws v rest closed hr hwi hq =>
    refine runs hr rfl rfl rfl ?_
    have := lsum_flatMap_set (fun v => w v.call) WPc.done (.got v) hwi
    simp only [WPc.done, lsum_nil] at this; exact this
  | recvClosed => exact calls rfl rfl rfl
  | write r q i ws v hr hwi =>
    have h2 := isum_set (fun _ (pc : RPc) => lsum (fun v => w v.call) pc.done) (.running q (ws.set i (.wrote v))) 0 hr
    have h3 := lsum_flatMap_set (fun v => w v.call) WPc.done (.wrote v) hwi
    simp only [QSys.setRun, RPc.done_running, RPc.done_draining, WPc.done, lsum_cons, lsum_nil, List.map_cons, List.sum_cons] at h2 h3 ⊢; omega
  | workerPut r q i ws v hr hwi =>
    refine runs hr rfl rfl rfl ?_
    have := lsum_flatMap_set (fun v => w v.call) WPc.done (.put v) hwi
    simp only [WPc.done, lsum_cons, lsum_nil] at this
    simp only [RPc.done_running]; omega
  | workerDone r q i ws v hr hwi =>
    have h2 := isum_set (fun _ (pc : RPc) => lsum (fun v => w v.call) pc.done) (.running q (ws.set i .ready)) 0 hr
    have h3 := lsum_flatMap_set (fun v => w v.call) WPc.done .ready hwi
    simp only [QSys.setRun, QSys.callback, RPc.done_running, RPc.done_draining, WPc.done, lsum_cons, lsum_nil, List.filter_cons_of_pos, List.map_cons, List.sum_cons] at h2 h3 ⊢; omega
  | workerExit r q i ws hr hwi =>
    refine runs hr rfl rfl rfl ?_
    have := lsum_flatMap_set (fun v => w v.call) WPc.done .exited hwi
    simp only [WPc.done, lsum_nil] at this; exact this
  | launched r q ws hr he =>
    refine runs hr rfl rfl rfl ?_
    have h3 : ws.flatMap WPc.done = [] := by
      rw [List.flatMap_eq_nil_iff]; intro x hx; rw [he x hx]; rfl
    simp only [RPc.done_running, h3]; rfl
  | store r q hr => exact runs hr rfl rfl rfl rfl
  | close r q ch hr hq ho => exact runs hr rfl rfl rfl rfl
  | closeClosed => exact calls rfl rfl rfl
  | drainRecv r q v rest closed hr hq => exact runs hr rfl rfl rfl rfl
  | drainPut r q v hr => exact runs hr rfl rfl rfl rfl
  | drainDone r q v hr =>
    have h2 := isum_set (fun _ (pc : RPc) => lsum (fun v => w v.call) pc.done) (.draining q none) 0 hr
    have h3 : ((v.call, false) :: s.log).filter (·.2) = s.log.filter (·.2) := by simp
    simp only [QSys.setRun, QSys.callback, RPc.done_running, RPc.done_draining, lsum_nil] at h2 ⊢
    rw [h3]; omega
  | drainEnd r q hr hq => exact runs hr rfl rfl rfl rfl
  | stop r q hr => exact runs hr rfl rfl rfl rfl

theorem QSys.Reach.writtenOk {p : QParams} {n m : Nat} {s : QSys} (h : QSys.Reach p n m s) : s.WrittenOk := by
  induction h with
  | init =>
    intro w
    have : isum (fun _ (pc : RPc) => lsum (fun v => w v.call) pc.done) 0 (List.replicate m .idle) = 0 := isum_zero (fun i a h => by
      have := List.mem_of_getElem? h; rw [(List.mem_replicate.mp this).2]; rfl)
    simp only [QSys.init]; rw [this]; rfl
  | step _ hs ih => exact ih.step hs

/-- Each call is answered, or still to be answered, exactly once. -/
theorem QSys.Reach.tok {p : QParams} {n m : Nat} {s : QSys} (h : QSys.Reach p n m s) (w : Nat → Nat) : s.tok w = (QSys.init n m).tok w := by
  induction h with
  | init => rfl
  | step _ hs ih => rw [hs.tok, ih]

theorem isum_replicate_start (n k c : Nat) : isum (fun i pc => CPc.own pc * (if i = c then 1 else 0)) k (List.replicate n CPc.start) = if k ≤ c ∧ c < k + n then 1 else 0 := by
  induction n generalizing k with
  | zero => simp [isum]
  | succ n ih =>
    rw [List.replicate_succ, isum, ih]
    simp only [CPc.own, Nat.one_mul]
    repeat' split
    all_goals omega

theorem QSys.init_tok (n m c : Nat) : (QSys.init n m).tok (fun i => if i = c then 1 else 0) = if c < n then 1 else 0 := by
  have h3 : isum (fun _ (pc : RPc) => lsum (fun v => if v.call = c then 1 else 0) pc.vals) 0 (List.replicate m .idle) = 0 := isum_zero (fun i a h => by
    have := List.mem_of_getElem? h; rw [(List.mem_replicate.mp this).2]; rfl)
  have h1 := isum_replicate_start n 0 c
  simp only [QSys.tok, QSys.init]
  rw [h3, h1]
  simp [isum]

theorem QSys.Step.calls_length {p : QParams} {s s' : QSys} (h : s.Step p s') : s'.calls.length = s.calls.length := by
  cases h <;> simp [QSys.setCall, QSys.setRun, QSys.setChan, QSys.putBuf, QSys.callback, QSys.fill]

theorem QSys.Reach.calls_length {p : QParams} {n m : Nat} {s : QSys} (h : QSys.Reach p n m s) : s.calls.length = n := by
  induction h with
  | init => simp [QSys.init]
  | step _ hs ih => rw [hs.calls_length, ih]

theorem sum_ind (l : List (Nat × Bool)) (c : Nat) : (l.map (fun e => if e.1 = c then 1 else 0)).sum = (l.map (·.1)).count c := by
  induction l with
  | nil => rfl
  | cons x l ih => simp only [List.map_cons, List.sum_cons, ih, List.count_cons, beq_iff_eq]; omega

end Rothko
