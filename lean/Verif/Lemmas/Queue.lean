import Verif.Model.Queue
/-!
# Accounting for the write queue: where values, buffers and answers are
-/
namespace Rothko

/-- Sum over a list with positions. -/
def isum {α : Type} (f : Nat → α → Nat) : Nat → List α → Nat
  | _, [] => 0
  | k, a :: l => f k a + isum f (k + 1) l

theorem isum_set {α : Type} (f : Nat → α → Nat) {l : List α} {i : Nat} {a : α} (b : α) (k : Nat) (h : l[i]? = some a) :
    isum f k (l.set i b) + f (k + i) a = isum f k l + f (k + i) b := by
  induction l generalizing i k with
  | nil => simp at h
  | cons x l ih =>
    cases i with
    | zero => simp at h; subst h; simp only [List.set_cons_zero, isum, Nat.add_zero]; omega
    | succ i =>
      simp only [List.getElem?_cons_succ] at h
      have := ih (k + 1) h
      simp only [List.set_cons_succ, isum]
      rw [show k + 1 + i = k + (i + 1) by omega] at this
      omega

theorem isum_append {α : Type} (f : Nat → α → Nat) (l m : List α) (k : Nat) : isum f k (l ++ m) = isum f k l + isum f (k + l.length) m := by
  induction l generalizing k with
  | nil => simp [isum]
  | cons x l ih =>
    simp only [List.cons_append, isum, ih, List.length_cons]
    rw [show k + 1 + l.length = k + (l.length + 1) by omega]; omega

theorem isum_le {α : Type} {f : Nat → α → Nat} {l : List α} {i : Nat} {a : α} (k : Nat) (h : l[i]? = some a) : f (k + i) a ≤ isum f k l := by
  induction l generalizing i k with
  | nil => simp at h
  | cons x l ih =>
    cases i with
    | zero => simp at h; subst h; simp only [isum, Nat.add_zero]; omega
    | succ i =>
      simp only [List.getElem?_cons_succ] at h
      have := ih (k + 1) h
      rw [show k + 1 + i = k + (i + 1) by omega] at this
      simp only [isum]; omega

theorem isum_zero {α : Type} {f : Nat → α → Nat} {l : List α} {k : Nat} (h : ∀ i a, l[i]? = some a → f (k + i) a = 0) : isum f k l = 0 := by
  induction l generalizing k with
  | nil => rfl
  | cons x l ih =>
    simp only [isum]
    rw [ih (fun i a hi => by have := h (i + 1) a (by simpa using hi); rwa [show k + (i + 1) = k + 1 + i by omega] at this)]
    have := h 0 x (by simp); simpa using this

theorem isum_mono {α : Type} {f g : Nat → α → Nat} {l : List α} {k : Nat} (h : ∀ i a, l[i]? = some a → f (k + i) a ≤ g (k + i) a) : isum f k l ≤ isum g k l := by
  induction l generalizing k with
  | nil => exact Nat.le_refl _
  | cons x l ih =>
    simp only [isum]
    have h1 := ih (fun i a hi => by have := h (i + 1) a (by simpa using hi); rwa [show k + (i + 1) = k + 1 + i by omega] at this)
    have h2 := h 0 x (by simp)
    rw [Nat.add_zero] at h2; omega

theorem isum_add {α : Type} (f g : Nat → α → Nat) (l : List α) (k : Nat) : isum (fun i a => f i a + g i a) k l = isum f k l + isum g k l := by
  induction l generalizing k with
  | nil => rfl
  | cons x l ih => simp only [isum, ih]; omega

theorem isum_two {α : Type} {f : Nat → α → Nat} {l : List α} {i j : Nat} {a b : α} (k : Nat) (hij : i ≠ j) (hi : l[i]? = some a) (hj : l[j]? = some b) :
    f (k + i) a + f (k + j) b ≤ isum f k l := by
  have hs := isum_set (fun n x => if n = k + i then 0 else f n x) (l := l) (i := i) a k hi
  have h1 : isum (fun n x => (if n = k + i then f n x else 0) + (if n = k + i then 0 else f n x)) k l = isum f k l := by
    congr 1; funext n x; split <;> omega
  rw [isum_add] at h1
  have h2 := isum_le (f := fun n x => if n = k + i then f n x else 0) k hi
  have h3 := isum_le (f := fun n x => if n = k + i then 0 else f n x) k hj
  have h4 : ¬ (k + j = k + i) := by omega
  simp only [h4, if_true, if_false] at h2 h3
  omega

/-! ## What each place holds -/

/-- The values a goroutine is still to answer. -/
def WPc.vals : WPc → List QVal
  | .got v => [v]
  | .wrote v => [v]
  | .put v => [v]
  | _ => []

/-- The values whose buffer the goroutine owns. -/
def WPc.bufs : WPc → List QVal
  | .got v => [v]
  | .wrote v => [v]
  | _ => []

def RPc.vals : RPc → List QVal
  | .running _ ws => ws.flatMap WPc.vals
  | .draining _ (some (v, _)) => [v]
  | _ => []

def RPc.bufs : RPc → List QVal
  | .running _ ws => ws.flatMap WPc.bufs
  | .draining _ (some (v, false)) => [v]
  | _ => []

/-- The call will itself issue its callback. -/
def CPc.own : CPc → Nat
  | .sent _ => 0
  | .finished => 0
  | _ => 1

def CPc.buf? : CPc → Option Nat
  | .copied b => some b
  | .loaded b _ => some b
  | .failing b => some b
  | _ => none

def lsum (w : QVal → Nat) (l : List QVal) : Nat := (l.map w).sum

@[simp] theorem lsum_nil (w : QVal → Nat) : lsum w [] = 0 := rfl
@[simp] theorem lsum_cons (w : QVal → Nat) (v : QVal) (l : List QVal) : lsum w (v :: l) = w v + lsum w l := by simp [lsum]
@[simp] theorem lsum_append (w : QVal → Nat) (l m : List QVal) : lsum w (l ++ m) = lsum w l + lsum w m := by simp [lsum]

theorem lsum_flatMap_set (w : QVal → Nat) (f : WPc → List QVal) {ws : List WPc} {i : Nat} {a : WPc} (b : WPc) (h : ws[i]? = some a) :
    lsum w ((ws.set i b).flatMap f) + lsum w (f a) = lsum w (ws.flatMap f) + lsum w (f b) := by
  induction ws generalizing i with
  | nil => simp at h
  | cons x l ih =>
    cases i with
    | zero => simp at h; subst h; simp; omega
    | succ i =>
      simp only [List.getElem?_cons_succ] at h
      have := ih h
      simp; omega

theorem lsum_le {w : QVal → Nat} {l : List QVal} {v : QVal} (h : v ∈ l) : w v ≤ lsum w l := by
  induction l with
  | nil => cases h
  | cons x l ih =>
    rcases List.mem_cons.mp h with h | h
    · subst h; simp
    · have := ih h; simp; omega

theorem lsum_zero {w : QVal → Nat} {l : List QVal} (h : ∀ v ∈ l, w v = 0) : lsum w l = 0 := by
  induction l with
  | nil => rfl
  | cons x l ih =>
    simp [h x (by simp), ih (fun v hv => h v (List.mem_cons_of_mem _ hv))]

theorem lsum_mono {w w' : QVal → Nat} {l : List QVal} (h : ∀ v ∈ l, w v ≤ w' v) : lsum w l ≤ lsum w' l := by
  induction l with
  | nil => simp
  | cons x l ih =>
    have := h x (by simp); have := ih (fun v hv => h v (List.mem_cons_of_mem _ hv))
    simp; omega

theorem lsum_add (w w' : QVal → Nat) (l : List QVal) : lsum (fun v => w v + w' v) l = lsum w l + lsum w' l := by
  induction l with
  | nil => rfl
  | cons x l ih => simp [ih]; omega

/-- Answers still due or given, weighted by call. -/
def QSys.tok (s : QSys) (w : Nat → Nat) : Nat :=
  isum (fun c pc => CPc.own pc * w c) 0 s.calls + isum (fun _ (ch : QChan) => lsum (fun v => w v.call) ch.items) 0 s.chans
    + isum (fun _ (pc : RPc) => lsum (fun v => w v.call) pc.vals) 0 s.runs + (s.log.map (fun e => w e.1)).sum

/-- Buffers owned, with the call for whose value they are, weighted. -/
def QSys.hold (s : QSys) (w : QVal → Nat) : Nat :=
  isum (fun c (pc : CPc) => (pc.buf?.map (fun b => w ⟨c, b⟩)).getD 0) 0 s.calls + isum (fun _ (ch : QChan) => lsum w ch.items) 0 s.chans
    + isum (fun _ (pc : RPc) => lsum w pc.bufs) 0 s.runs

/-- Every call is answered once or is to be answered once. -/
theorem QSys.Step.tok {p : QParams} {s s' : QSys} (h : s.Step p s') (w : Nat → Nat) : s'.tok w = s.tok w := by
  cases h with
  | getOld c b hc hb =>
    have := isum_set (fun c pc => CPc.own pc * w c) (.copied b) 0 hc
    simp only [QSys.tok, QSys.setCall, QSys.fill, CPc.own] at this ⊢; omega
  | getNew c hc =>
    have := isum_set (fun c pc => CPc.own pc * w c) (.copied s.nextBuf) 0 hc
    simp only [QSys.tok, QSys.setCall, QSys.fill, CPc.own] at this ⊢; omega
  | lose b hb => rfl
  | load c b hc =>
    have := isum_set (fun c pc => CPc.own pc * w c) (.loaded b s.current) 0 hc
    simp only [QSys.tok, QSys.setCall, CPc.own] at this ⊢; omega
  | send c b q ch hc hq ho hl =>
    have := isum_set (fun c pc => CPc.own pc * w c) (.sent q) 0 hc
    have h2 := isum_set (fun _ (ch : QChan) => lsum (fun v => w v.call) ch.items) { ch with items := ch.items ++ [⟨c, b⟩] } 0 hq
    simp only [QSys.tok, QSys.setCall, QSys.setChan, CPc.own, lsum_append, lsum_cons, lsum_nil, Nat.zero_add] at this h2 ⊢; omega
  | handoff c b q r i ws ch hc hq ho he hr hw =>
    have := isum_set (fun c pc => CPc.own pc * w c) (.sent q) 0 hc
    have h2 := isum_set (fun _ (pc : RPc) => lsum (fun v => w v.call) pc.vals) (.running q (ws.set i (.got ⟨c, b⟩))) 0 hr
    have h3 := lsum_flatMap_set (fun v => w v.call) WPc.vals (.got ⟨c, b⟩) hw
    simp only [QSys.tok, QSys.setCall, QSys.setRun, CPc.own, RPc.vals, WPc.vals, lsum_cons, lsum_nil, Nat.zero_add] at this h2 h3 ⊢; omega
  | sendClosed c b q ch hc _ _ =>
    have := isum_set (fun c pc => CPc.own pc * w c) (.failing b) 0 hc
    simp only [QSys.tok, QSys.setCall, CPc.own] at this ⊢; omega
  | cancel c b q hc =>
    have := isum_set (fun c pc => CPc.own pc * w c) (.failing b) 0 hc
    simp only [QSys.tok, QSys.setCall, CPc.own] at this ⊢; omega
  | dropped c b q _ hc =>
    have := isum_set (fun c pc => CPc.own pc * w c) (.failing b) 0 hc
    simp only [QSys.tok, QSys.setCall, CPc.own] at this ⊢; omega
  | failPut c b hc =>
    have := isum_set (fun c pc => CPc.own pc * w c) .failed 0 hc
    simp only [QSys.tok, QSys.setCall, QSys.putBuf, CPc.own] at this ⊢; omega
  | failDone c hc =>
    have := isum_set (fun c pc => CPc.own pc * w c) .finished 0 hc
    simp only [QSys.tok, QSys.setCall, QSys.callback, CPc.own, List.map_cons, List.sum_cons, Nat.zero_add] at this ⊢; omega
  | runStart r hr _ =>
    have h2 := isum_set (fun _ (pc : RPc) => lsum (fun v => w v.call) pc.vals) .started 0 hr
    simp only [QSys.tok, QSys.setRun, RPc.vals] at h2 ⊢; omega
  | runRefused r hr _ =>
    have h2 := isum_set (fun _ (pc : RPc) => lsum (fun v => w v.call) pc.vals) .refused 0 hr
    simp only [QSys.tok, QSys.setRun, RPc.vals] at h2 ⊢; omega
  | runLoad r hr =>
    have h2 := isum_set (fun _ (pc : RPc) => lsum (fun v => w v.call) pc.vals) (.running s.current (List.replicate p.workers .ready)) 0 hr
    have h3 : (List.replicate p.workers WPc.ready).flatMap WPc.vals = [] := by
      rw [List.flatMap_eq_nil_iff]; intro x hx; rw [(List.mem_replicate.mp hx).2]; rfl
    simp only [QSys.tok, QSys.setRun, RPc.vals, h3, lsum_nil] at h2 ⊢; omega
  | recv r q i ws v rest closed hr hw hq =>
    have h2 := isum_set (fun _ (pc : RPc) => lsum (fun v => w v.call) pc.vals) (.running q (ws.set i (.got v))) 0 hr
    have h3 := lsum_flatMap_set (fun v => w v.call) WPc.vals (.got v) hw
    have h4 := isum_set (fun _ (ch : QChan) => lsum (fun v => w v.call) ch.items) ⟨rest, closed⟩ 0 hq
    simp only [QSys.tok, QSys.setChan, QSys.setRun, RPc.vals, WPc.vals, lsum_cons, lsum_nil] at h2 h3 h4 ⊢; omega
  | recvClosed => rfl
  | write r q i ws v hr hw =>
    have h2 := isum_set (fun _ (pc : RPc) => lsum (fun v => w v.call) pc.vals) (.running q (ws.set i (.wrote v))) 0 hr
    have h3 := lsum_flatMap_set (fun v => w v.call) WPc.vals (.wrote v) hw
    simp only [QSys.tok, QSys.setRun, RPc.vals, WPc.vals, lsum_cons, lsum_nil] at h2 h3 ⊢; omega
  | workerPut r q i ws v hr hw =>
    have h2 := isum_set (fun _ (pc : RPc) => lsum (fun v => w v.call) pc.vals) (.running q (ws.set i (.put v))) 0 hr
    have h3 := lsum_flatMap_set (fun v => w v.call) WPc.vals (.put v) hw
    simp only [QSys.tok, QSys.setRun, QSys.putBuf, RPc.vals, WPc.vals, lsum_cons, lsum_nil] at h2 h3 ⊢; omega
  | workerDone r q i ws v hr hw =>
    have h2 := isum_set (fun _ (pc : RPc) => lsum (fun v => w v.call) pc.vals) (.running q (ws.set i .ready)) 0 hr
    have h3 := lsum_flatMap_set (fun v => w v.call) WPc.vals .ready hw
    simp only [QSys.tok, QSys.setRun, QSys.callback, RPc.vals, WPc.vals, lsum_cons, lsum_nil, List.map_cons, List.sum_cons] at h2 h3 ⊢; omega
  | workerExit r q i ws hr hw =>
    have h2 := isum_set (fun _ (pc : RPc) => lsum (fun v => w v.call) pc.vals) (.running q (ws.set i .exited)) 0 hr
    have h3 := lsum_flatMap_set (fun v => w v.call) WPc.vals .exited hw
    simp only [QSys.tok, QSys.setRun, RPc.vals, WPc.vals, lsum_nil] at h2 h3 ⊢; omega
  | launched r q ws hr he =>
    have h2 := isum_set (fun _ (pc : RPc) => lsum (fun v => w v.call) pc.vals) (.closing q) 0 hr
    have h3 : ws.flatMap WPc.vals = [] := by
      rw [List.flatMap_eq_nil_iff]; intro x hx; rw [he x hx]; rfl
    simp only [QSys.tok, QSys.setRun, RPc.vals, h3, lsum_nil] at h2 ⊢; omega
  | store r q hr =>
    have h2 := isum_set (fun _ (pc : RPc) => lsum (fun v => w v.call) pc.vals) (.stored q) 0 hr
    simp only [QSys.tok, QSys.setRun, RPc.vals, isum_append, isum, lsum_nil] at h2 ⊢; omega
  | close r q ch hr hq ho =>
    have h2 := isum_set (fun _ (pc : RPc) => lsum (fun v => w v.call) pc.vals) (.draining q none) 0 hr
    have h4 := isum_set (fun _ (ch : QChan) => lsum (fun v => w v.call) ch.items) { ch with closed := true } 0 hq
    simp only [QSys.tok, QSys.setRun, QSys.setChan, RPc.vals] at h2 h4 ⊢; omega
  | closeClosed => rfl
  | drainRecv r q v rest closed hr hq =>
    have h2 := isum_set (fun _ (pc : RPc) => lsum (fun v => w v.call) pc.vals) (.draining q (some (v, false))) 0 hr
    have h4 := isum_set (fun _ (ch : QChan) => lsum (fun v => w v.call) ch.items) ⟨rest, closed⟩ 0 hq
    simp only [QSys.tok, QSys.setRun, QSys.setChan, RPc.vals, lsum_cons, lsum_nil] at h2 h4 ⊢; omega
  | drainPut r q v hr =>
    have h2 := isum_set (fun _ (pc : RPc) => lsum (fun v => w v.call) pc.vals) (.draining q (some (v, true))) 0 hr
    simp only [QSys.tok, QSys.setRun, QSys.putBuf, RPc.vals] at h2 ⊢; omega
  | drainDone r q v hr =>
    have h2 := isum_set (fun _ (pc : RPc) => lsum (fun v => w v.call) pc.vals) (.draining q none) 0 hr
    simp only [QSys.tok, QSys.setRun, QSys.callback, RPc.vals, lsum_cons, lsum_nil, List.map_cons, List.sum_cons] at h2 ⊢; omega
  | drainEnd r q hr hq =>
    have h2 := isum_set (fun _ (pc : RPc) => lsum (fun v => w v.call) pc.vals) (.stopping q) 0 hr
    simp only [QSys.tok, QSys.setRun, RPc.vals] at h2 ⊢; omega
  | stop r q hr =>
    have h2 := isum_set (fun _ (pc : RPc) => lsum (fun v => w v.call) pc.vals) (.returned q) 0 hr
    simp only [QSys.tok, QSys.setRun, RPc.vals] at h2 ⊢; omega

end Rothko
