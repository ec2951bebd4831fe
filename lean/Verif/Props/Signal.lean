import Verif.Model.Signal
import Verif.Props.Run
/-! C100: interrupting the program. -/
namespace Rothko

theorem LStep.cancelled {E : Type} {s t : LSys E} (h : LStep s t) : s.cancelled = true → t.cancelled = true := by
  cases h <;> intro hc <;> first | exact hc | rfl

theorem RStep.cancelled {E : Type} {files : Bool} {s t : RSys E} (h : RStep files s t) : s.outer.cancelled = true → t.outer.cancelled = true := by
  cases h with
  | outer t h => exact h.1.cancelled
  | ctx => intro _; rfl
  | inner => exact id
  | add => exact id
  | periodic => exact id
  | fail => exact id
  | lastDump => exact id
  | deadline => exact id
  | dumpDone => exact id
  | db => exact id

/-- A launcher with tasks that is not told to stop stops only after a task returned. -/
structure Quiet {E : Type} (s : LSys E) : Prop where
  main : s.main ≠ .recv → ∃ t ∈ s.tasks, t ≠ .run
  recvd : 0 < s.recvd → ∃ t ∈ s.tasks, t ≠ .run

theorem quiet_of {E : Type} {n : Nat} {s : LSys E} (h : LReach n s) (hn : 0 < n) : Quiet s := by
  have inv := linv h
  have key : 0 < s.recvd → ∃ t ∈ s.tasks, t ≠ .run := by
    intro hr
    have hs : 0 < s.sends.length := Nat.lt_of_lt_of_le hr inv.recvd
    obtain ⟨i, t, h1, h2⟩ := inv.src s.sends[0] (List.getElem_mem hs)
    exact ⟨t, List.mem_of_getElem? h1, fun ht => by rw [ht] at h2; cases h2⟩
  refine ⟨fun hm => ?_, key⟩
  induction h with
  | start => exact absurd rfl hm
  | step h hs ih =>
    rename_i s0 s1
    have inv0 := linv h
    by_cases hm0 : s0.main = .recv
    · cases hs with
      | taskReturns i r h => exact absurd hm0 hm
      | send i r h room => exact absurd hm0 hm
      | wgDone i r h => exact absurd hm0 hm
      | parent => exact absurd hm0 hm
      | recvErr e _ hl h => exact key (Nat.succ_pos _)
      | recvNil _ hl h => exact key (Nat.succ_pos _)
      | cancel h => exact absurd rfl hm
      | loopEnd _ hl => exact key (by show 0 < s0.recvd; rw [hl, inv0.len]; exact hn)
      | deferCancel r h => rw [hm0] at h; cases h
      | waited r h => rw [hm0] at h; cases h
    · have := ih inv0 (by
        intro hr
        have hs : 0 < s0.sends.length := Nat.lt_of_lt_of_le hr inv0.recvd
        obtain ⟨i, t, h1, h2⟩ := inv0.src s0.sends[0] (List.getElem_mem hs)
        exact ⟨t, List.mem_of_getElem? h1, fun ht => by rw [ht] at h2; cases h2⟩) hm0
      obtain ⟨t, ht, hne⟩ := this
      have upd : ∀ (i : Nat) (a b : LTask E), s0.tasks[i]? = some a → b ≠ .run → ∃ t ∈ s0.tasks.set i b, t ≠ .run := by
        intro i a b ha hb
        exact ⟨b, List.mem_of_getElem? (List.getElem?_set_self (List.getElem?_eq_some_iff.mp ha).1), hb⟩
      cases hs with
      | taskReturns i r h => exact upd i _ _ h (fun h => by cases h)
      | send i r h room => exact upd i _ _ h (fun h => by cases h)
      | wgDone i r h => exact upd i _ _ h (fun h => by cases h)
      | parent => exact ⟨t, ht, hne⟩
      | recvErr e _ hl h => exact ⟨t, ht, hne⟩
      | recvNil _ hl h => exact ⟨t, ht, hne⟩
      | cancel h => exact ⟨t, ht, hne⟩
      | loopEnd _ hl => exact ⟨t, ht, hne⟩
      | deferCancel r h => exact ⟨t, ht, hne⟩
      | waited r h => exact ⟨t, ht, hne⟩

/-- What is kept by every step. -/
structure IInv {E : Type} (files : Bool) (n : Nat) (s : ISys E) : Prop where
  run : RReach files n s.run
  before : s.notified = false → s.watch = .select ∧ s.sent = 0 ∧ s.buf = 0 ∧ s.stopped = false ∧ s.ended = false ∧ s.run.phase = .serving ∧ s.run.inner = LSys.start E n
  buf : s.buf ≤ s.sent
  dead : s.killed = true → 1 ≤ s.early ∨ (2 ≤ s.sent ∧ s.ended = true)
  early : 1 ≤ s.early → s.killed = true
  cancel : s.watch = .cancel → s.buf + 1 ≤ s.sent
  stop : s.watch = .stop → s.buf + 1 ≤ s.sent ∧ s.ended = true
  stopped : s.stopped = true → 1 ≤ s.sent ∧ s.ended = true ∧ s.watch = .gone
  gone : s.watch = .gone → s.over = true
  seen : 1 ≤ s.sent → s.watch = .select → 1 ≤ s.buf
  ended : s.ended = true → 1 ≤ s.sent ∨ s.run.phase = .over
  told : 0 < n → s.run.inner.cancelled = true → (∃ t ∈ s.run.inner.tasks, t ≠ .run) ∨ 1 ≤ s.sent ∨ s.run.outer.cancelled = true

theorem iinv {E : Type} {files : Bool} {n : Nat} {s : ISys E} (h : IReach files n s) : IInv files n s := by
  induction h with
  | start => exact ⟨.start, fun _ => ⟨rfl, rfl, rfl, rfl, rfl, rfl, rfl⟩, Nat.le_refl _, (by intro h; cases h), (by intro h; exact absurd h (by show ¬ 1 ≤ 0; omega)), (by intro h; cases h), (by intro h; cases h),
      (by intro h; cases h), (by intro h; cases h), (by intro h; exact absurd h (by show ¬ 1 ≤ 0; omega)), (by intro h; cases h), (by intro _ h; cases h)⟩
  | step h hk hs inv =>
    rename_i s t
    cases hs with
    | signal =>
      unfold ISys.sigint
      split
      · rename_i hn
        have hb := inv.before hn
        exact { inv with dead := fun _ => Or.inl (by show 1 ≤ s.early + 1; omega), early := fun _ => rfl }
      · rename_i hn
        have hn : s.notified = true := by simpa using hn
        have nb : s.notified = false → ∀ {P : Prop}, P := fun h => by rw [hn] at h; cases h
        split
        · rename_i hst
          obtain ⟨h1, h2, h3⟩ := inv.stopped hst
          exact { inv with
            before := fun h => nb h
            buf := (by have := inv.buf; show s.buf ≤ s.sent + 1; omega)
            dead := fun _ => Or.inr ⟨(by show 2 ≤ s.sent + 1; omega), h2⟩
            early := fun _ => rfl
            cancel := fun h => (by have := inv.cancel h; show s.buf + 1 ≤ s.sent + 1; omega)
            stop := fun h => ⟨(by have := (inv.stop h).1; show s.buf + 1 ≤ s.sent + 1; omega), (inv.stop h).2⟩
            stopped := fun h => ⟨(by show 1 ≤ s.sent + 1; omega), h2, h3⟩
            seen := fun _ h => (by rw [h3] at h; cases h)
            ended := fun h => Or.inl (by show 1 ≤ s.sent + 1; omega)
            told := fun _ _ => Or.inr (Or.inl (by show 1 ≤ s.sent + 1; omega)) }
        · rename_i hst
          have hst : s.stopped = false := by simpa using hst
          have nk : s.killed = true → ∀ {P : Prop}, P := fun h => by rw [hk] at h; cases h
          have ne : ∀ {P : Prop}, 1 ≤ s.early → P := fun h => nk (inv.early h)
          split
          · rename_i hb
            exact { inv with
              before := fun h => nb h
              buf := (by have := inv.buf; show s.buf + 1 ≤ s.sent + 1; omega)
              dead := fun h => nk h
              cancel := fun h => (by have := inv.cancel h; show s.buf + 1 + 1 ≤ s.sent + 1; omega)
              stop := fun h => ⟨(by have := (inv.stop h).1; show s.buf + 1 + 1 ≤ s.sent + 1; omega), (inv.stop h).2⟩
              stopped := fun h => (by have h : s.stopped = true := h; rw [hst] at h; cases h)
              seen := fun _ _ => (by show 1 ≤ s.buf + 1; omega)
              ended := fun h => Or.inl (by show 1 ≤ s.sent + 1; omega)
              told := fun _ _ => Or.inr (Or.inl (by show 1 ≤ s.sent + 1; omega)) }
          · rename_i hb
            exact { inv with
              before := fun h => nb h
              buf := (by have := inv.buf; show s.buf ≤ s.sent + 1; omega)
              dead := fun h => nk h
              cancel := fun h => (by have := inv.cancel h; show s.buf + 1 ≤ s.sent + 1; omega)
              stop := fun h => ⟨(by have := (inv.stop h).1; show s.buf + 1 ≤ s.sent + 1; omega), (inv.stop h).2⟩
              stopped := fun h => (by have h : s.stopped = true := h; rw [hst] at h; cases h)
              seen := fun _ _ => (by show 1 ≤ s.buf; omega)
              ended := fun h => Or.inl (by show 1 ≤ s.sent + 1; omega)
              told := fun _ _ => Or.inr (Or.inl (by show 1 ≤ s.sent + 1; omega)) }
    | notify hn => exact { inv with before := fun h => (by cases h) }
    | watch t h =>
      cases h with
      | done hw hn hd =>
        exact { inv with
          before := fun h => (by have h : s.notified = false := h; rw [hn] at h; cases h)
          cancel := fun h => (by cases h), stop := fun h => (by cases h)
          stopped := fun h => (by have := (inv.stopped h).2.2; rw [hw] at this; cases this)
          gone := fun _ => hd, seen := fun _ h => (by cases h) }
      | take hw hn hb =>
        exact { inv with
          before := fun h => (by have h : s.notified = false := h; rw [hn] at h; cases h)
          buf := (by have := inv.buf; show s.buf - 1 ≤ s.sent; omega)
          cancel := fun _ => (by have := inv.buf; show s.buf - 1 + 1 ≤ s.sent; omega)
          stop := fun h => (by cases h)
          stopped := fun h => (by have := (inv.stopped h).2.2; rw [hw] at this; cases this)
          gone := fun h => (by cases h), seen := fun _ h => (by cases h) }
      | cancel hw =>
        have hc := inv.cancel hw
        exact { inv with
          before := fun h => (by have := (inv.before h).1; rw [hw] at this; cases this)
          dead := fun h => (by have h : s.killed = true := h; rw [hk] at h; cases h)
          cancel := fun h => (by cases h), stop := fun _ => ⟨hc, rfl⟩
          stopped := fun h => (by have := (inv.stopped h).2.2; rw [hw] at this; cases this)
          gone := fun h => (by cases h), seen := fun _ h => (by cases h)
          ended := fun _ => Or.inl (by show 1 ≤ s.sent; omega) }
      | stop hw =>
        obtain ⟨h1, h2⟩ := inv.stop hw
        exact { inv with
          before := fun h => (by have := (inv.before h).1; rw [hw] at this; cases this)
          cancel := fun h => (by cases h), stop := fun h => (by cases h)
          stopped := fun _ => ⟨(by show 1 ≤ s.sent; omega), h2, rfl⟩
          gone := fun _ => (by show (s.ended || _) = true; rw [h2]; rfl), seen := fun _ h => (by cases h) }
    | outside o b hr =>
      have hoc := hr.cancelled
      refine { inv with run := inv.run.step hr, gone := fun h => ?_, told := fun hn hc => ?_ }
      · have := inv.gone h
        unfold ISys.over at this ⊢
        rw [Bool.or_eq_true] at this ⊢
        exact this.imp id hoc
      · rcases inv.told hn hc with h | h | h
        · exact Or.inl h
        · exact Or.inr (Or.inl h)
        · exact Or.inr (Or.inr (hoc h))
    | service r hr hn hc =>
      have hoc := hr.cancelled
      have hphase : s.run.phase = .over → r.phase = .over := by
        intro hp
        cases hr with
        | inner t h => rw [hp] at h; cases h
        | outer => exact hp
        | ctx => exact hp
        | add i h => rw [hp] at h; cases h
        | periodic i h => rw [hp] at h; cases h
        | fail e h => rfl
        | lastDump h => rw [hp] at h; cases h
        | deadline h => exact hp
        | dumpDone => rfl
        | db => exact hp
      refine { inv with run := inv.run.step hr, before := fun h => (by have h : s.notified = false := h; rw [hn] at h; cases h), gone := fun h => ?_, ended := fun h => ?_, told := fun hpos hcan => ?_ }
      · have := inv.gone h
        unfold ISys.over at this ⊢
        rw [Bool.or_eq_true] at this ⊢
        exact this.imp id hoc
      · exact (inv.ended h).imp id hphase
      · have q := quiet_of (rinv (inv.run.step hr)).inner hpos
        have hq0 := quiet_of (rinv inv.run).inner hpos
        show (∃ t ∈ r.inner.tasks, t ≠ .run) ∨ 1 ≤ s.sent ∨ r.outer.cancelled = true
        have hcan : r.inner.cancelled = true := hcan
        by_cases hser : s.run.phase = .serving
        · by_cases hq : ∃ t ∈ r.inner.tasks, t ≠ .run
          · exact Or.inl hq
          right
          rcases hc with hc | hc | hc
          · rw [hcan] at hc
            rcases inv.told hpos hc.symm with h | h | h
            · exfalso
              apply hq
              obtain ⟨t, ht, hne⟩ := h
              cases hr with
              | inner t' hp hl =>
                have upd : ∀ (i : Nat) (a b : LTask E), s.run.inner.tasks[i]? = some a → b ≠ .run → ∃ t ∈ s.run.inner.tasks.set i b, t ≠ .run := by
                  intro i a b ha hb
                  exact ⟨b, List.mem_of_getElem? (List.getElem?_set_self (List.getElem?_eq_some_iff.mp ha).1), hb⟩
                cases hl with
                | taskReturns i r h => exact upd i _ _ h (fun h => by cases h)
                | send i r h room => exact upd i _ _ h (fun h => by cases h)
                | wgDone i r h => exact upd i _ _ h (fun h => by cases h)
                | parent => exact ⟨t, ht, hne⟩
                | recvErr e _ hl h => exact ⟨t, ht, hne⟩
                | recvNil _ hl h => exact ⟨t, ht, hne⟩
                | cancel h => exact ⟨t, ht, hne⟩
                | loopEnd _ hl => exact ⟨t, ht, hne⟩
                | deferCancel r h => exact ⟨t, ht, hne⟩
                | waited r h => exact ⟨t, ht, hne⟩
              | outer => exact ⟨t, ht, hne⟩
              | ctx => exact ⟨t, ht, hne⟩
              | add => exact ⟨t, ht, hne⟩
              | periodic => exact ⟨t, ht, hne⟩
              | fail => exact ⟨t, ht, hne⟩
              | lastDump => exact ⟨t, ht, hne⟩
              | deadline => exact ⟨t, ht, hne⟩
              | dumpDone => exact ⟨t, ht, hne⟩
              | db => exact ⟨t, ht, hne⟩
            · exact Or.inl h
            · exact Or.inr (hoc h)
          · exfalso
            apply hq
            cases hr with
            | inner t' hp hl =>
              by_cases hm : t'.main = .recv
              · -- the launcher's own cancel: it has received a result
                have h0 : s.run.inner.main ≠ .recv := fun h => hc (hm.trans h.symm)
                obtain ⟨t, ht, hne⟩ := hq0.main h0
                cases hl with
                | cancel h => exact ⟨t, ht, hne⟩
                | taskReturns i r h => exact absurd rfl hc
                | send i r h room => exact absurd rfl hc
                | wgDone i r h => exact absurd rfl hc
                | parent => exact absurd rfl hc
                | recvErr e _ hl h => cases hm
                | recvNil _ hl h => cases hm
                | loopEnd _ hl => cases hm
                | deferCancel r h => cases hm
                | waited r h => cases hm
              · exact q.main hm
            | outer => exact absurd rfl hc
            | ctx => exact absurd rfl hc
            | add => exact absurd rfl hc
            | periodic => exact absurd rfl hc
            | fail => exact absurd rfl hc
            | lastDump => exact absurd rfl hc
            | deadline => exact absurd rfl hc
            | dumpDone => exact absurd rfl hc
            | db => exact absurd rfl hc
          · unfold ISys.over at hc
            rw [Bool.or_eq_true] at hc
            rcases hc with hc | hc
            · rcases inv.ended hc with h | h
              · exact Or.inl h
              · rw [hser] at h; cases h
            · exact Or.inr (hoc hc)
        · have hin : r.inner = s.run.inner := by
            cases hr with
            | inner t h => exact absurd h hser
            | outer => rfl
            | ctx => rfl
            | add => rfl
            | periodic => rfl
            | fail => rfl
            | lastDump => rfl
            | deadline => rfl
            | dumpDone => rfl
            | db => rfl
          rw [hin] at hcan ⊢
          rcases inv.told hpos hcan with h | h | h
          · exact Or.inl h
          · exact Or.inr (Or.inl h)
          · exact Or.inr (Or.inr (hoc h))
    | defer hp hn =>
      exact { inv with
        before := fun h => (by have h : s.notified = false := h; rw [hn] at h; cases h)
        dead := fun h => (by have h : s.killed = true := h; rw [hk] at h; cases h)
        stop := fun h => ⟨(inv.stop h).1, rfl⟩
        stopped := fun h => ⟨(inv.stopped h).1, rfl, (inv.stopped h).2.2⟩
        gone := fun _ => rfl
        ended := fun _ => Or.inr hp }

/-! ## The statements -/

/-- **C100** (one is harmless). The process is ended by a SIGINT only if it came before the program listened for it, or it was at least the second one and the services had already been told to stop. -/
theorem C100_one {E : Type} {files : Bool} {n : Nat} {s : ISys E} (h : IReach files n s) (hk : s.killed = true) : 1 ≤ s.early ∨ (2 ≤ s.sent ∧ s.ended = true) := (iinv h).dead hk

/-- **C100** (it stops the services). Once a SIGINT came (and did not end the process) the services' context has ended, or at most two steps of the goroutine that waits for it end it, which no other step prevents: they can be taken at once. And while the services
run they can be told. -/
theorem C100_stops {E : Type} {files : Bool} {n : Nat} {s : ISys E} (h : IReach files n s) (h1 : 1 ≤ s.sent) :
    (s.over = true ∨ ∃ t, WatchStep s t ∧ (t.over = true ∨ ∃ u, WatchStep t u ∧ u.over = true)) ∧
    (s.over = true → s.run.phase = .serving → IStep files s { s with run := { s.run with inner := { s.run.inner with cancelled := true } } }) := by
  have inv := iinv h
  have hn : s.notified = true := by
    cases hx : s.notified with
    | true => rfl
    | false => have := (inv.before hx).2.1; omega
  refine ⟨?_, fun ho hp => .service _ (.inner _ hp (.parent _)) hn (Or.inr (Or.inr ho))⟩
  match hw : s.watch with
  | .gone => exact Or.inl (inv.gone hw)
  | .stop => left; unfold ISys.over; rw [(inv.stop hw).2]; rfl
  | .cancel => exact Or.inr ⟨_, .cancel hw, Or.inl rfl⟩
  | .select => exact Or.inr ⟨_, .take hw hn (inv.seen h1 hw), Or.inr ⟨_, .cancel rfl, rfl⟩⟩

/-- **C100** (nothing else does). With the database of database/files, and while the context given to `run` is not cancelled (run.go:58: it never is), the services are not told to stop before a SIGINT came or one of them returned. -/
theorem C100_undisturbed {E : Type} {n : Nat} {s : ISys E} (h : IReach true n s) (hn : 0 < n) (hc : s.run.ctxDone = false) (hp : s.run.phase ≠ .over) (h0 : s.sent = 0) (hcan : s.run.inner.cancelled = true) :
    ∃ t ∈ s.run.inner.tasks, t ≠ .run := by
  rcases (iinv h).told hn hcan with h' | h' | h'
  · exact h'
  · omega
  · rw [(C67_before_database (iinv h).run hc hp).2] at h'; cases h'

/-- **C100** (nothing is lost). If only one SIGINT came, and not before the program listened, it does not end the process; and when `run` returns without an error and the last dump took less than its 60 seconds, every observation is in a record that was handed to the database. -/
theorem C100_flushed {E : Type} {n : Nat} {s : ISys E} (h : IReach true n s) (he : s.early = 0) (h1 : s.sent ≤ 1) :
    s.killed = false ∧ (s.run.outer.main = .fin none → s.run.ctxDone = false → s.run.late = false → s.run.given = s.run.added ∧ s.run.held = 0) := by
  refine ⟨?_, fun hm hc hl => ?_⟩
  · cases hk : s.killed with
    | false => rfl
    | true =>
      rcases C100_one h hk with h' | h'
      · omega
      · omega
  · have := C67_flushed (iinv h).run hm
    exact ⟨this.2.2.2.2.2 rfl hc hl, this.2.1⟩

/-- **C100 is false as "an interrupted program loses nothing", in every state**: once the goroutine has handled a SIGINT, the next one ends the process at once, whatever is in the writer, also during the last dump. -/
theorem C100_second_refuted {E : Type} {files : Bool} {n : Nat} {s : ISys E} (h : IReach files n s) (hs : s.stopped = true) :
    IStep files s s.sigint ∧ s.sigint.killed = true ∧ s.sigint.run = s.run := by
  have hn : s.notified = true := by
    cases hx : s.notified with
    | true => rfl
    | false => have := ((iinv h).before hx).2.2.2.1; rw [hs] at this; cases this
  refine ⟨.signal, ?_, ?_⟩ <;> simp [ISys.sigint, hn, hs]

/-- **C100 is false as "a second SIGINT ends the program"**: once the goroutine has ended because the services' context was over (a service returned by itself and the last dump is done, or the database returned), no SIGINT does
anything any more, however many come, until the program returns by itself. -/
theorem C100_deaf_refuted {E : Type} {files : Bool} {s t : ISys E} (hn : s.notified = true) (hw : s.watch = .gone) (hs : s.stopped = false) (hk : s.killed = false) (h : ILater files s t) :
    t.killed = false ∧ t.sigint.killed = false ∧ t.sigint.run = t.run := by
  have key : t.notified = true ∧ t.watch = .gone ∧ t.stopped = false ∧ t.killed = false := by
    induction h with
    | refl => exact ⟨hn, hw, hs, hk⟩
    | step h hk' hstep ih =>
      obtain ⟨h1, h2, h3, h4⟩ := ih
      cases hstep with
      | signal =>
        unfold ISys.sigint
        rw [h1, h3]
        simp only [Bool.true_eq_false, Bool.false_eq_true, if_false]
        split
        · exact ⟨rfl, h2, rfl, h4⟩
        · exact ⟨rfl, h2, rfl, h4⟩
      | notify => exact ⟨rfl, h2, h3, h4⟩
      | watch _ h =>
        cases h with
        | done h => rw [h2] at h; cases h
        | take h => rw [h2] at h; cases h
        | cancel h => rw [h2] at h; cases h
        | stop h => rw [h2] at h; cases h
      | outside => exact ⟨h1, h2, h3, h4⟩
      | service => exact ⟨h1, h2, h3, h4⟩
      | defer => exact ⟨h1, h2, h3, h4⟩
  obtain ⟨h1, h2, h3, h4⟩ := key
  refine ⟨h4, ?_⟩
  unfold ISys.sigint
  rw [h1, h3]
  simp only [Bool.true_eq_false, Bool.false_eq_true, if_false]
  split
  · exact ⟨h4, rfl⟩
  · exact ⟨h4, rfl⟩

/-! ## Examples -/

/-- A run of steps that no signal has ended so far. -/
theorem IReach.go {E : Type} {files : Bool} {n : Nat} {s t : ISys E} (h : IReach files n s) (hs : IStep files s t) (hk : s.killed = false := by rfl) : IReach files n t := .step h hk hs

/-- A step of the services' launcher that needs no end of the context. -/
theorem IReach.svc {E : Type} {files : Bool} {n : Nat} {s : ISys E} {t : LSys E} (h : IReach files n s) (hs : LStep s.run.inner t) (hp : s.run.phase = .serving := by rfl) (hn : s.notified = true := by rfl)
    (hk : s.killed = false := by rfl)
    (hc : t.cancelled = s.run.inner.cancelled ∨ t.main ≠ s.run.inner.main ∨ s.over = true := by first | exact Or.inl rfl | exact Or.inr (Or.inr rfl) | exact Or.inr (Or.inl (fun h => by cases h))) :
    IReach files n { s with run := { s.run with inner := t } } :=
  .step h hk (.service _ (.inner t hp hs) hn hc)

/-- An execution: the program listens, a service adds an observation, SIGINT comes, and the services return; the last dump begins with the observation still in the writer. -/
theorem C100_example_dumping : ∃ s : ISys Nat, IReach true 1 s ∧ s.run.phase = .dumping ∧ s.stopped = true ∧ s.sent = 1 ∧ s.early = 0 ∧ s.run.added = 1 ∧ s.run.held = 1 ∧ s.killed = false ∧ s.run.ctxDone = false := by
  have s0 : IReach true 1 (ISys.start Nat 1) := .start
  have s1 := s0.go (.notify rfl)
  have s2 := s1.go (.service _ (.add 0 rfl rfl) rfl (Or.inl rfl))
  have s3 := s2.go .signal
  have s4 := s3.go (.watch _ (.take rfl rfl (by decide)))
  have s5 := s4.go (.watch _ (.cancel rfl))
  have s6 := s5.go (.watch _ (.stop rfl))
  have s7 := s6.svc (.parent _)
  have s8 := s7.svc (.taskReturns _ 0 none rfl)
  have s9 := s8.svc (.send _ 0 none rfl (by decide))
  have s10 := s9.svc (.wgDone _ 0 none rfl)
  have s11 := s10.svc (.recvNil _ rfl (by decide) rfl)
  have s12 := s11.svc (.cancel _ rfl)
  have s13 := s12.svc (.loopEnd _ rfl rfl)
  have s14 := s13.svc (.deferCancel _ none rfl)
  have s15 := s14.svc (.waited _ none rfl (show ∀ t ∈ [LTask.done (none : Option Nat)], t.isDone = true from fun t ht => by rw [List.mem_singleton.mp ht]; rfl))
  have s16 := s15.go (.service _ (.lastDump rfl rfl) rfl (Or.inl rfl))
  exact ⟨_, s16, rfl, rfl, rfl, rfl, rfl, rfl, rfl, rfl⟩

/-- **C100 is false as "an interrupted program loses nothing"**: a second SIGINT during the last dump ends the process with an observation in the writer. -/
theorem C100_lost_refuted : ∃ s : ISys Nat, IReach true 1 s ∧ s.killed = true ∧ s.early = 0 ∧ s.sent = 2 ∧ s.run.added = 1 ∧ s.run.given = 0 ∧ s.run.held = 1 := by
  obtain ⟨s, h, hp, hst, h1, h0, ha, hh, hk, hc⟩ := C100_example_dumping
  obtain ⟨hstep, hkill, hrun⟩ := C100_second_refuted h hst
  refine ⟨s.sigint, h.step hk hstep, hkill, ?_, ?_, ?_, ?_, ?_⟩
  · have hn : s.notified = true := by
      cases hx : s.notified with
      | true => rfl
      | false => have := ((iinv h).before hx).2.1; omega
    simp [ISys.sigint, hn, hst, h0]
  · have hn : s.notified = true := by
      cases hx : s.notified with
      | true => rfl
      | false => have := ((iinv h).before hx).2.1; omega
    simp [ISys.sigint, hn, hst, h1]
  · rw [hrun]; exact ha
  · rw [hrun]
    have := (rinv (iinv h).run).sum
    omega
  · rw [hrun]; exact hh

/-- The hypotheses of `C100_flushed` are met: after one SIGINT the last dump hands everything over and `run` returns. -/
theorem C100_example : ∃ s : ISys Nat, IReach true 1 s ∧ s.early = 0 ∧ s.sent = 1 ∧ s.run.outer.main = .fin none ∧ s.run.ctxDone = false ∧ s.run.late = false ∧ s.run.added = 1 ∧ s.run.given = 1 := by
  have own : ∀ {s t : LSys Nat}, LStep s t → (∀ i : Nat, s.tasks[i]? = some .run → t.tasks[i]? = some .run) → (t.cancelled = s.cancelled ∨ t.main ≠ s.main) → LOwn s t := fun a b c => ⟨a, b, c⟩
  have two : ∀ {a b c d : LTask Nat}, (a = .run → c = .run) → (b = .run → d = .run) → ∀ i : Nat, [a, b][i]? = some .run → [c, d][i]? = some .run := by
    intro a b c d h1 h2 i hi
    match i with
    | 0 => simp at hi ⊢; exact h1 hi
    | 1 => simp at hi ⊢; exact h2 hi
    | (k + 2) => simp at hi
  have s0 : IReach true 1 (ISys.start Nat 1) := .start
  have s1 := s0.go (.notify rfl)
  have s2 := s1.go (.service _ (.add 0 rfl rfl) rfl (Or.inl rfl))
  have s3 := s2.go .signal
  have s4 := s3.go (.watch _ (.take rfl rfl (by decide)))
  have s5 := s4.go (.watch _ (.cancel rfl))
  have s6 := s5.go (.watch _ (.stop rfl))
  have s7 := s6.svc (.parent _)
  have s8 := s7.svc (.taskReturns _ 0 none rfl)
  have s9 := s8.svc (.send _ 0 none rfl (by decide))
  have s10 := s9.svc (.wgDone _ 0 none rfl)
  have s11 := s10.svc (.recvNil _ rfl (by decide) rfl)
  have s12 := s11.svc (.cancel _ rfl)
  have s13 := s12.svc (.loopEnd _ rfl rfl)
  have s14 := s13.svc (.deferCancel _ none rfl)
  have s15 := s14.svc (.waited _ none rfl (show ∀ t ∈ [LTask.done (none : Option Nat)], t.isDone = true from fun t ht => by rw [List.mem_singleton.mp ht]; rfl))
  have s16 := s15.go (.service _ (.lastDump rfl rfl) rfl (Or.inl rfl))
  have s17 := s16.go (.service _ (.dumpDone 1 0 rfl rfl (Or.inl rfl)) rfl (Or.inl rfl))
  have s18 := s17.go (.service _ (.outer _ (own (.send _ 0 none rfl (by decide)) (two (by intro h; cases h) id) (Or.inl rfl))) rfl (Or.inl rfl))
  have s19 := s18.go (.service _ (.outer _ (own (.recvNil _ rfl (by decide) rfl) (two id id) (Or.inl rfl))) rfl (Or.inl rfl))
  have s20 := s19.go (.service _ (.outer _ (own (.cancel _ rfl) (two id id) (Or.inr (by intro h; cases h)))) rfl (Or.inl rfl))
  have s21 := s20.go (.outside _ false (.db none rfl (fun _ => rfl)))
  have s22 := s21.go (.outside _ false (.outer _ (own (.send _ 1 none rfl (by decide)) (two id (by intro h; cases h)) (Or.inl rfl))))
  have s23 := s22.go (.outside _ false (.outer _ (own (.recvNil _ rfl (by decide) rfl) (two id id) (Or.inl rfl))))
  have s24 := s23.go (.outside _ false (.outer _ (own (.cancel _ rfl) (two id id) (Or.inl rfl))))
  have s25 := s24.go (.outside _ false (.outer _ (own (.loopEnd _ rfl rfl) (two id id) (Or.inl rfl))))
  have s26 := s25.go (.outside _ false (.outer _ (own (.deferCancel _ none rfl) (two id id) (Or.inl rfl))))
  have s27 := s26.go (.outside _ false (.outer _ (own (.wgDone _ 0 none rfl) (two (by intro h; cases h) id) (Or.inl rfl))))
  have s28 := s27.go (.outside _ false (.outer _ (own (.wgDone _ 1 none rfl) (two id (by intro h; cases h)) (Or.inl rfl))))
  have s29 := s28.go (.outside _ false (.outer _ (own (.waited _ none rfl (show ∀ t ∈ [LTask.done (none : Option Nat), LTask.done none], t.isDone = true from fun t ht => by simp at ht; rw [ht]; rfl)) (two id id) (Or.inl rfl))))
  exact ⟨_, s29, rfl, rfl, rfl, rfl, rfl, rfl, rfl⟩

/-- The hypotheses of `C100_deaf_refuted` are met: a service returned by itself, the last dump was made, and the database has not returned yet. -/
theorem C100_deaf_example : ∃ s : ISys Nat, IReach true 1 s ∧ s.notified = true ∧ s.watch = .gone ∧ s.stopped = false ∧ s.killed = false ∧ s.run.outer.main = .recv ∧ s.run.outer.tasks[1]? = some .run := by
  have s0 : IReach true 1 (ISys.start Nat 1) := .start
  have s1 := s0.go (.notify rfl)
  have s8 := s1.svc (.taskReturns _ 0 none rfl)
  have s9 := s8.svc (.send _ 0 none rfl (by decide))
  have s10 := s9.svc (.wgDone _ 0 none rfl)
  have s11 := s10.svc (.recvNil _ rfl (by decide) rfl)
  have s12 := s11.svc (.cancel _ rfl)
  have s13 := s12.svc (.loopEnd _ rfl rfl)
  have s14 := s13.svc (.deferCancel _ none rfl)
  have s15 := s14.svc (.waited _ none rfl (show ∀ t ∈ [LTask.done (none : Option Nat)], t.isDone = true from fun t ht => by rw [List.mem_singleton.mp ht]; rfl))
  have s16 := s15.go (.service _ (.lastDump rfl rfl) rfl (Or.inl rfl))
  have s17 := s16.go (.service _ (.dumpDone 0 0 rfl rfl (Or.inl rfl)) rfl (Or.inl rfl))
  have s18 := s17.go (.defer rfl rfl)
  have s19 := s18.go (.watch _ (.done rfl rfl rfl))
  exact ⟨_, s19, rfl, rfl, rfl, rfl, rfl, rfl⟩

end Rothko
