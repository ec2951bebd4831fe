import Verif.Model.Periodic
import Verif.Props.Dump
/-!
# C82: periodic dumps
-/
namespace Rothko

/-- What holds in every state of `Run`. -/
structure PdInv (T : Int) (s : PdSys) : Prop where
  period : s.period = T
  pool : s.pool.Nodup
  old : ∀ b ∈ s.pool, b < s.nbuf
  past : ∀ p ∈ s.past, p.2.map DReq.arg = p.1 ∧ ∀ r ∈ p.2, r.ans ≠ .waiting
  dumping : ∀ caps d, s.pc = .dumping caps d → DSys.Reach caps s.pool s.heap s.cap s.nbuf d ∧ d.cancelled = false
  returned : s.pc = .returned → s.cancelled = true
  panicked : s.pc = .panicked → T ≤ 0
  going : s.pc ≠ .begin → s.pc ≠ .panicked → 0 < T
  fresh : s.pc = .begin ∨ s.pc = .panicked → s.past = []

theorem PdSys.Reach.inv {period : Int} {s : PdSys} (h : PdSys.Reach period s) : PdInv period s := by
  induction h with
  | init =>
    exact { period := rfl, pool := List.nodup_nil, old := fun b h => (by cases h), past := fun p h => (by cases h), dumping := fun _ _ h => (by cases h), returned := fun h => (by cases h),
            panicked := fun h => (by cases h), going := fun h => absurd rfl h, fresh := fun _ => rfl }
  | @step s s' _ st ih =>
    cases st with
    | bad hp hb =>
      exact { ih with dumping := fun _ _ h => (by cases h), returned := fun h => (by cases h), panicked := fun _ => ih.period ▸ hb, going := fun _ h => absurd rfl h, fresh := fun _ => ih.fresh (.inl hp) }
    | start hp hb =>
      exact { ih with dumping := fun _ _ h => (by cases h), returned := fun h => (by cases h), panicked := fun h => (by cases h), going := fun _ _ => ih.period ▸ hb, fresh := fun h => (by rcases h with h | h <;> cases h) }
    | cancel => exact { ih with returned := fun _ => rfl }
    | fire _ _ => exact { ih with }
    | stop hp hc =>
      exact { ih with dumping := fun _ _ h => (by cases h), returned := fun _ => hc, panicked := fun h => (by cases h), going := fun _ _ => ih.going (by rw [hp]; nofun) (by rw [hp]; nofun), fresh := fun h => (by rcases h with h | h <;> cases h) }
    | dump caps hp ht =>
      refine { ih with dumping := fun caps' d h => ?_, returned := fun h => (by cases h), panicked := fun h => (by cases h), going := fun _ _ => ih.going (by rw [hp]; nofun) (by rw [hp]; nofun), fresh := fun h => (by rcases h with h | h <;> cases h) }
      injection h with h1 h2
      subst h1 h2
      exact ⟨.init, rfl⟩
    | inner caps d d' hp st hc =>
      refine { ih with dumping := fun caps' e h => ?_, returned := fun h => (by cases h), panicked := fun h => (by cases h), going := fun _ _ => ih.going (by rw [hp]; nofun) (by rw [hp]; nofun), fresh := fun h => (by rcases h with h | h <;> cases h) }
      injection h with h1 h2
      subst h1 h2
      exact ⟨(ih.dumping _ _ hp).1.step st, hc⟩
    | over caps d hp hr =>
      obtain ⟨hd, hc⟩ := ih.dumping _ _ hp
      have again := C57_again ih.pool ih.old hd
      refine { period := ih.period, pool := again.1, old := again.2, past := fun p hp' => ?_, dumping := fun _ _ h => (by cases h), returned := fun h => (by cases h), panicked := fun h => (by cases h),
               going := fun _ _ => ih.going (by rw [hp]; nofun) (by rw [hp]; nofun), fresh := fun h => (by rcases h with h | h <;> cases h) }
      rcases List.mem_append.mp hp' with h | h
      · exact ih.past p h
      · rw [List.mem_singleton.mp h]
        exact ⟨(C57_once ih.pool ih.old hd).2.2 hr hc, C57_waits ih.pool ih.old hd hr⟩

/-- **C82** (complete). Every periodic dump that is over has handed every record it captured to the database, in order and once each, and each was answered, whether or not `Run` was cancelled meanwhile. -/
theorem C82_complete {period : Int} {s : PdSys} (h : PdSys.Reach period s) (caps : List DRecd) (calls : List DReq) (hm : (caps, calls) ∈ s.past) :
    calls.map DReq.arg = caps ∧ ∀ r ∈ calls, r.ans ≠ .waiting := h.inv.past _ hm

/-- **C82** (returns). `Run` returns only after it was cancelled. A dump that has begun is over by then: `Run` does not return while one is in progress, and a dump in progress goes on until it has returned itself. After `Run` has returned nothing more is dumped. -/
theorem C82_returns {period : Int} {s : PdSys} (h : PdSys.Reach period s) : (s.pc = .returned → s.cancelled = true) ∧
    (∀ s' caps d, s.Step s' → s.pc = .dumping caps d → (∃ d', s'.pc = .dumping caps d') ∨ (d.pc = .returned ∧ s'.pc = .select ∧ s'.past = s.past ++ [(caps, d.calls)])) ∧
    ∀ s', s.Step s' → s.pc = .returned → s'.pc = .returned ∧ s'.past = s.past := by
  refine ⟨h.inv.returned, fun s' caps d st hd => ?_, fun s' st hr => ?_⟩
  · cases st with
    | bad hp => rw [hd] at hp; cases hp
    | start hp => rw [hd] at hp; cases hp
    | cancel => exact .inl ⟨d, hd⟩
    | fire _ _ => exact .inl ⟨d, hd⟩
    | stop hp => rw [hd] at hp; cases hp
    | dump _ hp => rw [hd] at hp; cases hp
    | inner caps' e e' hp _ _ =>
      rw [hd] at hp
      injection hp with h1 h2
      subst h1 h2
      exact .inl ⟨e', rfl⟩
    | over caps' e hp hr =>
      rw [hd] at hp
      injection hp with h1 h2
      subst h1 h2
      exact .inr ⟨hr, rfl, rfl⟩
  cases st with
  | bad hp => rw [hr] at hp; cases hp
  | start hp => rw [hr] at hp; cases hp
  | cancel => exact ⟨hr, rfl⟩
  | fire _ _ => exact ⟨hr, rfl⟩
  | stop hp => exact ⟨rfl, rfl⟩
  | dump _ hp => rw [hr] at hp; cases hp
  | inner _ _ _ hp => rw [hr] at hp; cases hp
  | over _ _ hp => rw [hr] at hp; cases hp

/-- **C82** (progress). With a positive period `Run` never panics, and in every state it can go on by itself once there is a tick or a cancellation, unless a dump waits for the database to answer. -/
theorem C82_progress {period : Int} {s : PdSys} (h : PdSys.Reach period s) (hp : 0 < period) :
    s.pc ≠ .panicked ∧ (s.pc = .returned ∨ (s.pc = .select ∧ s.cancelled = false ∧ s.tick = false) ∨ (∃ caps d, s.pc = .dumping caps d ∧ ∃ r ∈ d.calls, r.ans = .waiting) ∨
      ∃ s', s.Step s' ∧ s'.cancelled = s.cancelled ∧ s'.pc ≠ s.pc) := by
  refine ⟨fun hq => by have := h.inv.panicked hq; omega, ?_⟩
  cases hpc : s.pc with
  | begin => exact .inr (.inr (.inr ⟨_, .start hpc (by rw [h.inv.period]; exact hp), rfl, by nofun⟩))
  | select =>
    cases hc : s.cancelled with
    | true => exact .inr (.inr (.inr ⟨_, .stop hpc hc, hc, by nofun⟩))
    | false =>
      cases ht : s.tick with
      | false => exact .inr (.inl ⟨rfl, rfl, rfl⟩)
      | true => exact .inr (.inr (.inr ⟨_, .dump [] hpc ht, hc, by nofun⟩))
  | dumping caps d =>
    obtain ⟨hd, hc⟩ := h.inv.dumping _ _ hpc
    by_cases hr : d.pc = .returned
    · exact .inr (.inr (.inr ⟨_, .over caps d hpc hr, rfl, by nofun⟩))
    · rcases C57_progress h.inv.pool h.inv.old hd hr with hw | ⟨d', st, hne⟩
      · exact .inr (.inr (.inl ⟨caps, d, rfl, hw⟩))
      · refine .inr (.inr (.inr ⟨_, .inner caps d d' hpc st ?_, rfl, ?_⟩))
        · cases st with
          | cancel _ => exact absurd rfl hne
          | stop _ _ _ _ h => rw [hc] at h; cases h
          | finish _ _ => exact hc
          | reuse => exact hc
          | grow => exact hc
          | fresh => exact hc
          | lose => exact hc
          | report => exact hc
          | queued => exact hc
          | refuse => exact hc
          | wait => exact hc
        · intro e
          injection e with _ e
          exact hne (by rw [e])
  | returned => exact .inl rfl
  | panicked => have := h.inv.panicked hpc; omega

/-- **C82**, refuted in one point: a configuration without a duration is accepted, and then `Run` panics instead of dumping: nothing is ever stored but by the last dump of an orderly end, which a panic is not. -/
theorem C82_period_refuted : ∃ t : TomlConf Unit, ∃ conf, loadConf t t.listeners = .ok conf ∧ ∀ s, PdSys.Reach conf.duration s → s.pc ≠ .begin → s.pc = .panicked ∧ s.past = [] := by
  refine ⟨⟨0, [], [], [([102], ())], [([116], ())], ⟨[], [], [], [], [], []⟩⟩, _, rfl, fun s h hb => ?_⟩
  have hp : s.pc = .panicked := by
    refine Classical.byContradiction (fun hp => ?_)
    have := h.inv.going hb hp
    exact absurd this (by decide)
  exact ⟨hp, h.inv.fresh (.inr hp)⟩

/-- A tick, a dump of one record during which `Run` is cancelled, and the end. -/
theorem C82_example : ∃ s, PdSys.Reach 600 s ∧ s.pc = .returned ∧ s.past = [([⟨[97], 0, 1, [1, 2]⟩], [⟨⟨[97], 0, 1, [1, 2]⟩, 0, .reported true false⟩])] := by
  let r1 : DRecd := ⟨[97], 0, 1, [1, 2]⟩
  have s0 := PdSys.Reach.init (period := 600)
  have s1 := s0.step (.start rfl (by decide))
  have s2 := s1.step (.fire (by nofun) (by nofun))
  have s3 := s2.step (.dump [r1] rfl rfl)
  have s4 := s3.step (.inner _ _ _ rfl (.fresh r1 [] 1024 rfl rfl rfl (by decide)) rfl)
  have s5 := s4.step .cancel
  have s6 := s5.step (.inner _ _ _ rfl (.report 0 ⟨r1, 0, .waiting⟩ true false rfl rfl) rfl)
  have s7 := s6.step (.inner _ _ _ rfl (.queued 0 rfl) rfl)
  have s8 := s7.step (.inner _ _ _ rfl (.finish rfl rfl) rfl)
  have s9 := s8.step (.inner _ _ _ rfl (.wait rfl rfl) rfl)
  have s10 := s9.step (.over _ _ rfl rfl)
  have s11 := s10.step (.stop rfl rfl)
  exact ⟨_, s11, rfl, rfl⟩

end Rothko
