import Verif.Lemmas.QueueHome
/-!
# C31, C32, C33: the write queue
-/
set_option linter.unusedSimpArgs false
namespace Rothko

/-! ## C31 -/

theorem QSys.Reach.tok_one {p : QParams} {n m : Nat} {s : QSys} (h : QSys.Reach p n m s) {c : Nat} (hc : c < n) : s.tok (fun i => if i = c then 1 else 0) = 1 := by
  rw [h.tok, QSys.init_tok, if_pos hc]

theorem QSys.Reach.tok_le {p : QParams} {n m : Nat} {s : QSys} (h : QSys.Reach p n m s) (c : Nat) : s.tok (fun i => if i = c then 1 else 0) ≤ 1 := by
  rw [h.tok, QSys.init_tok]; split <;> omega

/-- How often the callback of call `c` was invoked. -/
def QSys.answers (s : QSys) (c : Nat) : Nat := (s.log.map (·.1)).count c

/-- How often the value of call `c` was given to `db.write`. -/
def QSys.writes (s : QSys) (c : Nat) : Nat := (s.written.map (·.1)).count c

/-- **C31**: for every number of `Queue` and `Run` calls, every buffer size and drop setting, and every interleaving of calls, workers, cancellation and shutdown:
each callback is invoked at most once, and no channel is misused. -/
theorem C31_at_most_once {p : QParams} {n m : Nat} {s : QSys} (h : QSys.Reach p n m s) (c : Nat) : s.answers c ≤ 1 ∧ s.bad = false := by
  refine ⟨?_, h.runOk.good⟩
  have := h.tok_le c
  simp only [QSys.tok, sum_ind] at this
  simp only [QSys.answers]; omega

/-- **C31**: when `Run` has returned, every call that put its value on the queue it served has had its callback invoked exactly once. -/
theorem C31_answered {p : QParams} {n m : Nat} {s : QSys} (h : QSys.Reach p n m s) {r c q : Nat}
    (hr : s.runs[r]? = some (.returned q)) (hc : s.calls[c]? = some (.sent q)) : s.answers c = 1 := by
  have hlt : c < n := by rw [← h.calls_length]; exact (List.getElem?_eq_some_iff.mp hc).1
  have h1 := h.tok_one hlt
  have hch : isum (fun _ (ch : QChan) => lsum (fun v => if v.call = c then 1 else 0) ch.items) 0 s.chans = 0 := by
    refine isum_zero (fun q' ch hq' => lsum_zero (fun v hv => ?_))
    rw [if_neg]
    intro hvc
    have h2 := h.home.chan q' ch v hq' hv
    rw [hvc, hc] at h2
    cases h2
    have h3 := (h.runOk.fine r _ hr)
    obtain ⟨_, h3⟩ := h3
    rw [hq'] at h3; cases h3; cases hv
  have hrn : isum (fun _ (pc : RPc) => lsum (fun v => if v.call = c then 1 else 0) pc.vals) 0 s.runs = 0 := by
    refine isum_zero (fun r' pc hr' => lsum_zero (fun v hv => ?_))
    rw [if_neg]
    intro hvc
    obtain ⟨q', g1, g2⟩ := h.home.run r' pc v hr' hv
    rw [hvc, hc] at g2
    cases g2
    have h3 := h.runOk.uniq r r' _ pc q hr hr' rfl g1
    subst h3
    rw [hr] at hr'; cases hr'; cases hv
  have hca : isum (fun i pc => CPc.own pc * (if i = c then 1 else 0)) 0 s.calls = 0 := by
    refine isum_zero (fun i pc hi => ?_)
    by_cases hic : i = c
    · subst hic; rw [hc] at hi; cases hi; simp [CPc.own]
    · simp [hic]
  simp only [QSys.tok, sum_ind] at h1
  simp only [QSys.answers]; omega

/-- **C31**: a call that could not put its value on a queue has had its callback invoked exactly once when it returns. -/
theorem C31_rejected {p : QParams} {n m : Nat} {s : QSys} (h : QSys.Reach p n m s) {c : Nat}
    (hc : s.calls[c]? = some .finished) : s.answers c = 1 := by
  have hlt : c < n := by rw [← h.calls_length]; exact (List.getElem?_eq_some_iff.mp hc).1
  have h1 := h.tok_one hlt
  have hch : isum (fun _ (ch : QChan) => lsum (fun v => if v.call = c then 1 else 0) ch.items) 0 s.chans = 0 := by
    refine isum_zero (fun q' ch hq' => lsum_zero (fun v hv => ?_))
    rw [if_neg]
    intro hvc
    have h2 := h.home.chan q' ch v hq' hv
    rw [hvc, hc] at h2; cases h2
  have hrn : isum (fun _ (pc : RPc) => lsum (fun v => if v.call = c then 1 else 0) pc.vals) 0 s.runs = 0 := by
    refine isum_zero (fun r' pc hr' => lsum_zero (fun v hv => ?_))
    rw [if_neg]
    intro hvc
    obtain ⟨q', g1, g2⟩ := h.home.run r' pc v hr' hv
    rw [hvc, hc] at g2; cases g2
  have hca : isum (fun i pc => CPc.own pc * (if i = c then 1 else 0)) 0 s.calls = 0 := by
    refine isum_zero (fun i pc hi => ?_)
    by_cases hic : i = c
    · subst hic; rw [hc] at hi; cases hi; simp [CPc.own]
    · simp [hic]
  simp only [QSys.tok, sum_ind] at h1
  simp only [QSys.answers]; omega

theorem lsum_done_le (w : QVal → Nat) (pc : RPc) : lsum w pc.done ≤ lsum w pc.vals := by
  cases pc with
  | running q ws =>
    simp only [RPc.done, RPc.vals]
    induction ws with
    | nil => simp
    | cons x l ih =>
      have : lsum w x.done ≤ lsum w x.vals := by cases x <;> simp [WPc.done, WPc.vals]
      simp only [List.flatMap_cons, lsum_append]; omega
  | _ => simp [RPc.done]

theorem sum_filter_le (l : List (Nat × Bool)) (c : Nat) : (l.filter (·.2)).map (fun e => if e.1 = c then 1 else 0) |>.sum |> (· ≤ (l.map (·.1)).count c) := by
  induction l with
  | nil => simp
  | cons x l ih =>
    obtain ⟨a, b⟩ := x
    cases b <;> simp [List.count_cons] at ih ⊢ <;> omega

theorem sum_ind' (l : List (Nat × Bytes)) (c : Nat) : (l.map (fun e => if e.1 = c then 1 else 0)).sum = (l.map (·.1)).count c := by
  induction l with
  | nil => rfl
  | cons x l ih => simp only [List.map_cons, List.sum_cons, ih, List.count_cons, beq_iff_eq]; omega

/-- **C31**: a value is written at most once; a callback that got the result of a write belongs to a value written exactly once, and
a callback that got `(false, nil)` (cancelled, dropped or shut down) to one that was never written and never will be. -/
theorem C31_written {p : QParams} {n m : Nat} {s : QSys} (h : QSys.Reach p n m s) (c : Nat) :
    s.writes c ≤ 1 ∧ ((c, true) ∈ s.log → s.writes c = 1) ∧ ((c, false) ∈ s.log → s.writes c = 0) := by
  have h1 := h.tok_le c
  have h2 := h.writtenOk (fun i => if i = c then 1 else 0)
  have h3 : isum (fun _ (pc : RPc) => lsum (fun v => if v.call = c then 1 else 0) pc.done) 0 s.runs ≤
      isum (fun _ (pc : RPc) => lsum (fun v => if v.call = c then 1 else 0) pc.vals) 0 s.runs :=
    isum_mono (fun i a _ => lsum_done_le _ a)
  have h4 := sum_filter_le s.log c
  simp only [QSys.tok, sum_ind] at h1
  rw [sum_ind'] at h2
  change _ ≤ _ at h4
  refine ⟨by simp only [QSys.writes]; omega, fun hl => ?_, fun hl => ?_⟩
  · have h5 : 1 ≤ ((s.log.filter (·.2)).map (fun e => if e.1 = c then 1 else 0)).sum := by
      rw [sum_ind, Nat.one_le_iff_ne_zero, Ne, List.count_eq_zero]
      intro hn; exact hn (List.mem_map.mpr ⟨(c, true), List.mem_filter.mpr ⟨hl, rfl⟩, rfl⟩)
    simp only [QSys.writes]; omega
  · have h5 : ((s.log.filter (·.2)).map (fun e => if e.1 = c then 1 else 0)).sum + 1 ≤ (s.log.map (·.1)).count c := by
      clear h1 h2 h3 h4
      generalize s.log = l at hl
      induction l with
      | nil => cases hl
      | cons x l ih =>
        rcases List.mem_cons.mp hl with hl | hl
        · subst hl
          have := sum_filter_le l c
          simp [List.count_cons] at this ⊢; omega
        · have := ih hl
          obtain ⟨a, b⟩ := x
          cases b <;> simp [List.count_cons] at this ⊢ <;> omega
    simp only [QSys.writes]; omega

/-! ## C32 -/

/-- Every place that may use a buffer: the pool, calls that have copied their data, channels, and workers or `Run` with a value in hand. -/
def QSys.owners (s : QSys) : List Nat :=
  s.pool ++ s.calls.filterMap CPc.buf? ++ s.chans.flatMap (fun ch => ch.items.map QVal.buf) ++ s.runs.flatMap (fun pc => pc.bufs.map QVal.buf)

theorem count_calls (l : List CPc) (b k : Nat) : (l.filterMap CPc.buf?).count b = isum (cw (isBuf b)) k l := by
  induction l generalizing k with
  | nil => rfl
  | cons x l ih =>
    rw [isum, ← ih (k + 1), List.filterMap_cons]
    cases hb : x.buf? with
    | none => simp [cw, hb]
    | some b' => simp only [cw, hb, isBuf, List.count_cons, beq_iff_eq, Option.map_some, Option.getD_some]; omega

theorem count_map_buf (l : List QVal) (b : Nat) : (l.map QVal.buf).count b = lsum (isBuf b) l := by
  induction l with
  | nil => rfl
  | cons x l ih => simp only [List.map_cons, List.count_cons, ih, lsum_cons, isBuf, beq_iff_eq]; omega

theorem count_flat {α : Type} (g : α → List QVal) (l : List α) (b k : Nat) :
    (l.flatMap (fun a => (g a).map QVal.buf)).count b = isum (fun _ a => lsum (isBuf b) (g a)) k l := by
  induction l generalizing k with
  | nil => rfl
  | cons x l ih => rw [isum, ← ih (k + 1), List.flatMap_cons, List.count_append, count_map_buf]

theorem count_owners (s : QSys) (b : Nat) : s.owners.count b = s.pool.count b + s.hold (isBuf b) := by
  simp only [QSys.owners, List.count_append]
  rw [count_calls s.calls b 0, count_flat QChan.items s.chans b 0, count_flat RPc.bufs s.runs b 0, QSys.hold_eq]
  show _ + isum (hw (isBuf b)) 0 s.chans + isum (rw' (isBuf b)) 0 s.runs = _; omega

/-- **C32**: no buffer is ever in two places. -/
theorem C32_exclusive {p : QParams} {n m : Nat} {s : QSys} (h : QSys.Reach p n m s) : s.owners.Nodup := by
  rw [List.nodup_iff_count]
  intro b
  rw [count_owners]; exact h.bufOk.once b

/-- **C32**: the bytes given to `db.write` for a call are the bytes passed to that call of `Queue`. -/
theorem C32_data {p : QParams} {n m : Nat} {s : QSys} (h : QSys.Reach p n m s) {c : Nat} {d : Bytes} (hw : (c, d) ∈ s.written) : d = p.data c :=
  h.bufOk.wrote _ hw

/-! ## C33 -/

/-- **C33**: at most one call of `Run` is past its start check and not yet returned. -/
theorem C33_single {p : QParams} {n m : Nat} {s : QSys} (h : QSys.Reach p n m s) {r r' : Nat} {pc pc' : RPc}
    (hr : s.runs[r]? = some pc) (hr' : s.runs[r']? = some pc') (ha : pc.active = 1) (ha' : pc'.active = 1) : r = r' := by
  apply Decidable.byContradiction
  intro hne
  have := h.runOk.only hr ha hr' (fun hh => hne hh.symm)
  omega

/-- **C33**: while one is active, another call can only return the error, and this changes nothing else. -/
theorem C33_refused {p : QParams} {n m : Nat} {s s' : QSys} (h : QSys.Reach p n m s) {r r' : Nat} {pc : RPc}
    (hr : s.runs[r]? = some pc) (ha : pc.active = 1) (hi : s.runs[r']? = some .idle) (hs : s.Step p s') (hm : s'.runs[r']? ≠ s.runs[r']?) :
    s' = s.setRun r' .refused := by
  have hon : s.on = true := by
    cases ho : s.on with
    | true => rfl
    | false => have := h.runOk.off ho hr; omega
  have key : ∀ {r0 : Nat} {x y : RPc}, s.runs[r0]? = some x → x ≠ .idle → (s.runs.set r0 y)[r']? = s.runs[r']? := by
    intro r0 x y hx hne
    by_cases e : r0 = r'
    · subst e; rw [hi] at hx; cases hx; exact absurd rfl hne
    · rw [List.getElem?_set_ne e]
  cases hs with
  | runStart r0 hr0 ho => rw [hon] at ho; cases ho
  | runRefused r0 hr0 _ =>
    by_cases e : r0 = r'
    · subst e; rfl
    · exact absurd (List.getElem?_set_ne e) hm
  | handoff c b q r0 i ws ch hc hq ho he hr0 hwi => exact absurd (key hr0 (by simp)) hm
  | runLoad r0 hr0 => exact absurd (key hr0 (by simp)) hm
  | recv r0 q i ws v rest closed hr0 hwi hq => exact absurd (key hr0 (by simp)) hm
  | write r0 q i ws v hr0 hwi => exact absurd (key hr0 (by simp)) hm
  | workerPut r0 q i ws v hr0 hwi => exact absurd (key hr0 (by simp)) hm
  | workerDone r0 q i ws v hr0 hwi => exact absurd (key hr0 (by simp)) hm
  | workerExit r0 q i ws hr0 hwi => exact absurd (key hr0 (by simp)) hm
  | launched r0 q ws hr0 he => exact absurd (key hr0 (by simp)) hm
  | store r0 q hr0 => exact absurd (key hr0 (by simp)) hm
  | close r0 q ch hr0 hq ho => exact absurd (key hr0 (by simp)) hm
  | drainRecv r0 q v rest closed hr0 hq => exact absurd (key hr0 (by simp)) hm
  | drainPut r0 q v hr0 => exact absurd (key hr0 (by simp)) hm
  | drainDone r0 q v hr0 => exact absurd (key hr0 (by simp)) hm
  | drainEnd r0 q hr0 hq => exact absurd (key hr0 (by simp)) hm
  | stop r0 q hr0 => exact absurd (key hr0 (by simp)) hm
  | _ => exact absurd rfl hm

/-- **C33**: when no call is active, `Run` can be started (again). -/
theorem C33_again {p : QParams} {n m : Nat} {s : QSys} (h : QSys.Reach p n m s) {r : Nat} (hi : s.runs[r]? = some .idle)
    (hn : ∀ (r' : Nat) (pc : RPc), s.runs[r']? = some pc → pc.active = 0) : s.Step p (QSys.setRun { s with on := true } r .started) := by
  refine .runStart r hi ?_
  have h1 := h.runOk.act
  rw [isum_zero (fun i a ha => hn i a ha)] at h1
  cases ho : s.on with
  | false => rfl
  | true => rw [ho] at h1; simp at h1

/-- **C33**: an active call can always take a step towards returning; it never waits for anything but its own workers. -/
theorem C33_never_stuck {p : QParams} {n m : Nat} {s : QSys} (h : QSys.Reach p n m s) {r : Nat} {pc : RPc} (hr : s.runs[r]? = some pc) (ha : pc.active = 1) :
    ∃ s' pc', s.Step p s' ∧ s'.runs = s.runs.set r pc' ∧ pc' ≠ pc := by
  have hf := h.runOk.fine r pc hr
  cases pc with
  | idle => simp [RPc.active] at ha
  | refused => simp [RPc.active] at ha
  | returned q => simp [RPc.active] at ha
  | started => exact ⟨_, _, .runLoad r hr, rfl, by simp⟩
  | closing q => exact ⟨_, _, .store r q hr, rfl, by simp⟩
  | stored q => obtain ⟨_, ch, h1, h2⟩ := hf; exact ⟨_, _, .close r q ch hr h1 h2, rfl, by simp⟩
  | stopping q => exact ⟨_, _, .stop r q hr, rfl, by simp⟩
  | draining q cur =>
    obtain ⟨_, ch, h1, h2⟩ := hf
    obtain ⟨items, closed⟩ := ch
    simp only at h2; subst h2
    rcases cur with _ | ⟨v, _ | _⟩
    · cases items with
      | nil => exact ⟨_, _, .drainEnd r q hr h1, rfl, by simp⟩
      | cons v rest => exact ⟨_, _, .drainRecv r q v rest _ hr h1, rfl, by simp⟩
    · exact ⟨_, _, .drainPut r q v hr, rfl, by simp⟩
    · exact ⟨_, _, .drainDone r q v hr, rfl, by simp⟩
  | running q ws =>
    by_cases hall : ∀ w ∈ ws, w = .exited
    · exact ⟨_, _, .launched r q ws hr hall, rfl, by simp⟩
    · have hex : ∃ (i : Nat) (w : WPc), ws[i]? = some w ∧ w ≠ .exited := by
        apply Classical.byContradiction
        intro hn
        apply hall
        intro w hw
        apply Decidable.byContradiction
        intro hne
        obtain ⟨i, hi⟩ := List.mem_iff_getElem?.mp hw
        exact hn ⟨i, w, hi, hne⟩
      obtain ⟨i, w, hi, hne⟩ := hex
      have hset : ∀ w', w' ≠ w → RPc.running q (ws.set i w') ≠ RPc.running q ws := by
        intro w' hw' he
        simp only [RPc.running.injEq, true_and] at he
        have : (ws.set i w')[i]? = some w' := List.getElem?_set_self (List.getElem?_eq_some_iff.mp hi).1
        rw [he, hi] at this; cases this; exact hw' rfl
      cases w with
      | ready => exact ⟨_, _, .workerExit r q i ws hr hi, rfl, hset _ (by simp)⟩
      | got v => exact ⟨_, _, .write r q i ws v hr hi, rfl, hset _ (by simp)⟩
      | wrote v => exact ⟨_, _, .workerPut r q i ws v hr hi, rfl, hset _ (by simp)⟩
      | put v => exact ⟨_, _, .workerDone r q i ws v hr hi, rfl, hset _ (by simp)⟩
      | exited => exact absurd rfl hne

/-! ## The hypotheses can be met -/

def qex : QParams := { cap := 1, drop := false, workers := 1, data := fun _ => [1, 2] }

/-- One value is queued and written by a worker, a second is left in the queue and drained, and `Run` returns. -/
theorem C31_example : ∃ s, QSys.Reach qex 2 1 s ∧ s.runs[0]? = some (.returned 0) ∧ s.calls[0]? = some (.sent 0) ∧ s.calls[1]? = some (.sent 0) ∧
    s.log = [(1, false), (0, true)] ∧ s.written = [(0, [1, 2])] := by
  have s0 := QSys.Reach.init (p := qex) (n := 2) (m := 1)
  have s1 := s0.step (.getNew 0 rfl)
  have s2 := s1.step (.load 0 0 rfl)
  have s3 := s2.step (.send 0 0 0 _ rfl rfl rfl (by decide))
  have s4 := s3.step (.runStart 0 rfl rfl)
  have s5 := s4.step (.runLoad 0 rfl)
  have s6 := s5.step (.recv 0 0 0 _ ⟨0, 0⟩ [] false rfl rfl rfl)
  have s7 := s6.step (.write 0 0 0 _ ⟨0, 0⟩ rfl rfl)
  have s8 := s7.step (.workerPut 0 0 0 _ ⟨0, 0⟩ rfl rfl)
  have s9 := s8.step (.getOld 1 0 rfl (by decide))
  have s10 := s9.step (.load 1 0 rfl)
  have s11 := s10.step (.send 1 0 0 _ rfl rfl rfl (by decide))
  have s12 := s11.step (.workerDone 0 0 0 _ ⟨0, 0⟩ rfl rfl)
  have s13 := s12.step (.workerExit 0 0 0 _ rfl rfl)
  have s14 := s13.step (.launched 0 0 _ rfl (by decide))
  have s15 := s14.step (.store 0 0 rfl)
  have s16 := s15.step (.close 0 0 _ rfl rfl rfl)
  have s17 := s16.step (.drainRecv 0 0 ⟨1, 0⟩ [] true rfl rfl)
  have s18 := s17.step (.drainPut 0 0 ⟨1, 0⟩ rfl)
  have s19 := s18.step (.drainDone 0 0 ⟨1, 0⟩ rfl)
  have s20 := s19.step (.drainEnd 0 0 rfl rfl)
  have s21 := s20.step (.stop 0 0 rfl)
  exact ⟨_, s21, rfl, rfl, rfl, rfl, rfl⟩

end Rothko
