import Verif.Model.Demo
/-!
# C83: the demo data
-/
namespace Rothko

/-! ## The records -/

theorem demoLoop_eq (now delta : Int) (hd : 0 < delta) (n fuel : Nat) (hf : n < fuel) :
    demoLoop fuel now delta (now - n * delta) = (List.range n).map (fun i : Nat => (now - n * delta + i * delta, now - n * delta + (i + 1 : Nat) * delta)) := by
  induction n generalizing fuel with
  | zero =>
    obtain ⟨f, rfl⟩ : ∃ f, fuel = f + 1 := ⟨fuel - 1, by omega⟩
    rw [demoLoop, if_neg (by simp)]
    rfl
  | succ n ih =>
    obtain ⟨f, rfl⟩ : ∃ f, fuel = f + 1 := ⟨fuel - 1, by omega⟩
    have hp : 0 < ((n + 1 : Nat) : Int) * delta := Int.mul_pos (by omega) hd
    have e : now - ((n + 1 : Nat) : Int) * delta + delta = now - n * delta := by
      rw [Int.natCast_succ, Int.add_mul, Int.one_mul]
      omega
    rw [demoLoop, if_pos (by omega), e, ih f (by omega), List.range_succ_eq_map, List.map_cons, List.map_map]
    refine List.cons_eq_cons.mpr ⟨?_, List.map_congr_left (fun i _ => ?_)⟩
    · rw [show ((0 : Nat) : Int) * delta = 0 by omega, show ((0 + 1 : Nat) : Int) * delta = delta by omega, e, Int.add_zero]
    · show _ = (now - ((n + 1 : Nat) : Int) * delta + (i + 1 : Nat) * delta, now - ((n + 1 : Nat) : Int) * delta + (i + 1 + 1 : Nat) * delta)
      have a1 : ((i + 1 : Nat) : Int) * delta = i * delta + delta := by rw [Int.natCast_succ, Int.add_mul, Int.one_mul]
      have a2 : ((i + 1 + 1 : Nat) : Int) * delta = i * delta + delta + delta := by rw [Int.natCast_succ, Int.add_mul, Int.one_mul, a1]
      rw [a1, a2]
      refine Prod.ext ?_ ?_ <;> dsimp only <;> omega

/-- **C83** (records). For each metric there are a hundred records, each beginning where the one before it ends: the first a day before now, the last ending now. (Any bound on the number of iterations beyond a hundred gives the same: the loop ends by itself.) -/
theorem C83_records (fuel : Nat) (hf : 100 < fuel) (now : Int) : (demoTimes fuel now).length = 100 ∧ (demoTimes fuel now)[0]?.map (·.1) = some (now - 86400000000000) ∧ (demoTimes fuel now)[99]?.map (·.2) = some now ∧
    (∀ (i : Nat) (a b : Int × Int), (demoTimes fuel now)[i]? = some a → (demoTimes fuel now)[i + 1]? = some b → b.1 = a.2) ∧ ∀ a ∈ demoTimes fuel now, a.1 < a.2 := by
  have e : demoTimes fuel now = (List.range 100).map (fun i : Nat => (now - (100 : Nat) * 864000000000 + i * 864000000000, now - (100 : Nat) * 864000000000 + (i + 1 : Nat) * 864000000000)) := by
    unfold demoTimes
    rw [show now - (now - 24 * 3600000000000) = 86400000000000 by omega, show Int.tdiv 86400000000000 100 = 864000000000 by decide]
    exact demoLoop_eq now 864000000000 (by decide) 100 fuel hf
  rw [e]
  refine ⟨by simp, ?_, ?_, fun i a b ha hb => ?_, fun a ha => ?_⟩
  · rw [List.getElem?_map, List.getElem?_range (by decide)]
    simp
  · rw [List.getElem?_map, List.getElem?_range (by decide)]
    simp
  · rw [List.getElem?_map] at ha hb
    obtain ⟨x, hx, rfl⟩ := Option.map_eq_some_iff.mp ha
    obtain ⟨y, hy, rfl⟩ := Option.map_eq_some_iff.mp hb
    obtain ⟨_, rfl⟩ := List.getElem?_eq_some_iff.mp hx
    obtain ⟨_, rfl⟩ := List.getElem?_eq_some_iff.mp hy
    simp
  · obtain ⟨i, _, rfl⟩ := List.mem_map.mp ha
    dsimp only
    omega

/-! ## Queueing them -/

/-- The record in the goroutine's hands. -/
def DemoPc.hand : DemoPc → List DemoJob
  | .queueing j => [j]
  | .calling j => [j]
  | .receiving j => [j]
  | _ => []

structure DemoInv (jobs : List DemoJob) (dr : Bool) (s : DemoSys) : Prop where
  all : (∀ e, s.pc ≠ .returned e) → s.log.map (·.1) ++ s.pc.hand ++ s.todo = jobs
  fin : s.pc = .returned false → s.log.map (·.1) = jobs
  slot : s.slot ≠ .empty ↔ ∃ j, s.pc = .receiving j
  drop : s.drop = dr
  calling : ∀ j, s.pc = .calling j → s.drop = true ∨ s.cancelled = true

theorem DemoSys.Reach.inv {dr : Bool} {jobs : List DemoJob} {s : DemoSys} (h : DemoSys.Reach dr jobs s) : DemoInv jobs dr s := by
  induction h with
  | init => exact ⟨fun _ => rfl, fun h => (by cases h), ⟨fun h => absurd rfl h, fun ⟨_, h⟩ => (by cases h)⟩, rfl, fun _ h => (by cases h)⟩
  | @step s s' _ st ih =>
    have noslot : (∀ j, s.pc ≠ .receiving j) → s.slot = .empty := fun h => Classical.byContradiction (fun hn => by obtain ⟨j, e⟩ := ih.slot.mp hn; exact h j e)
    cases st with
    | cancel => exact { ih with calling := fun j hj => .inr rfl }
    | make j rest hp ht =>
      have := ih.all (by rw [hp]; nofun)
      have hs := noslot (by rw [hp]; nofun)
      rw [hp, ht] at this
      exact ⟨fun _ => by simpa [DemoPc.hand] using this, fun h => (by cases h), ⟨fun h => absurd hs h, fun ⟨_, h⟩ => (by cases h)⟩, ih.drop, fun _ h => (by cases h)⟩
    | fail j rest hp ht =>
      have hs := noslot (by rw [hp]; nofun)
      exact ⟨fun h => absurd rfl (h true), fun h => (by cases h), ⟨fun h => absurd hs h, fun ⟨_, h⟩ => (by cases h)⟩, ih.drop, fun _ h => (by cases h)⟩
    | finish hp ht =>
      have := ih.all (by rw [hp]; nofun)
      have hs := noslot (by rw [hp]; nofun)
      rw [hp, ht] at this
      exact ⟨fun h => absurd rfl (h false), fun _ => by simpa [DemoPc.hand] using this, ⟨fun h => absurd hs h, fun ⟨_, h⟩ => (by cases h)⟩, ih.drop, fun _ h => (by cases h)⟩
    | send j hp =>
      have := ih.all (by rw [hp]; nofun)
      rw [hp] at this
      exact ⟨fun _ => this, fun h => (by cases h), ⟨fun _ => ⟨j, rfl⟩, fun _ => nofun⟩, ih.drop, fun _ h => (by cases h)⟩
    | giveUp j hp hd =>
      have := ih.all (by rw [hp]; nofun)
      have hs := noslot (by rw [hp]; nofun)
      rw [hp] at this
      exact ⟨fun _ => this, fun h => (by cases h), ⟨fun h => absurd hs h, fun ⟨_, h⟩ => (by cases h)⟩, ih.drop, fun _ _ => hd⟩
    | answer w e hs =>
      exact { ih with slot := ⟨fun _ => ih.slot.mp (by rw [hs]; nofun), fun _ => nofun⟩ }
    | receive j w hp hs =>
      have := ih.all (by rw [hp]; nofun)
      rw [hp] at this
      exact ⟨fun _ => by simpa [DemoPc.hand] using this, fun h => (by cases h), ⟨fun h => absurd rfl h, fun ⟨_, h⟩ => (by cases h)⟩, ih.drop, fun _ h => (by cases h)⟩
    | receiveErr j w hp hs =>
      exact ⟨fun h => absurd rfl (h true), fun h => (by cases h), ⟨fun h => absurd rfl h, fun ⟨_, h⟩ => (by cases h)⟩, ih.drop, fun _ h => (by cases h)⟩

/-- **C83** (done). The records are queued in order, each after the one before it was answered; when the demo returns without an error every one of them was queued and answered. -/
theorem C83_done {dr : Bool} {jobs : List DemoJob} {s : DemoSys} (h : DemoSys.Reach dr jobs s) :
    (∀ j, s.pc = .receiving j → ∃ rest, jobs = s.log.map (·.1) ++ j :: rest) ∧ (s.pc = .returned false → s.log.map (·.1) = jobs) := by
  refine ⟨fun j hj => ?_, h.inv.fin⟩
  have := h.inv.all (by rw [hj]; nofun)
  rw [hj] at this
  exact ⟨s.todo, by simpa [DemoPc.hand] using this.symm⟩

/-- **C83** (progress). With a database that does not drop, and without cancellation, the demo goes on until it returns: it can take a step by itself, or it waits for the database's answer. -/
theorem C83_progress {jobs : List DemoJob} {s : DemoSys} (h : DemoSys.Reach false jobs s) (hc : s.cancelled = false) :
    (∃ e, s.pc = .returned e) ∨ (s.slot = .queued ∧ ∃ j, s.pc = .receiving j) ∨ ∃ s', s.Step s' ∧ s'.pc ≠ s.pc ∧ s'.cancelled = false := by
  cases hp : s.pc with
  | making =>
    cases ht : s.todo with
    | nil => exact .inr (.inr ⟨_, .finish hp ht, by nofun, hc⟩)
    | cons j rest => exact .inr (.inr ⟨_, .make j rest hp ht, by nofun, hc⟩)
  | queueing j => exact .inr (.inr ⟨_, .send j hp, by nofun, hc⟩)
  | calling j =>
    rcases h.inv.calling j hp with hd | hd
    · rw [h.inv.drop] at hd; cases hd
    · rw [hc] at hd; cases hd
  | receiving j =>
    have hs := h.inv.slot.mpr ⟨j, hp⟩
    cases hq : s.slot with
    | empty => exact absurd hq hs
    | queued => exact .inr (.inl ⟨rfl, j, rfl⟩)
    | sending w e =>
      cases e with
      | false => exact .inr (.inr ⟨_, .receive j w hp hq, by nofun, hc⟩)
      | true => exact .inr (.inr ⟨_, .receiveErr j w hp hq, by nofun, hc⟩)
  | returned e => exact .inl ⟨e, rfl⟩

/-- Steps from a state on. -/
inductive DemoSys.Later (s : DemoSys) : DemoSys → Prop
  | here : Later s s
  | step {t u : DemoSys} : Later s t → t.Step u → Later s u

theorem calling_stays {s t : DemoSys} {j : DemoJob} (h : s.Later t) (hp : s.pc = .calling j) : t.pc = .calling j := by
  induction h with
  | here => exact hp
  | step _ st ih =>
    cases st with
    | cancel => exact ih
    | make _ _ h => rw [ih] at h; cases h
    | fail _ _ h => rw [ih] at h; cases h
    | finish h => rw [ih] at h; cases h
    | send _ h => rw [ih] at h; cases h
    | giveUp _ h => rw [ih] at h; cases h
    | answer => exact ih
    | receive _ _ h => rw [ih] at h; cases h
    | receiveErr _ _ h => rw [ih] at h; cases h

/-- **C83**, refuted where the database drops values it has no room for: the first value that is dropped blocks the demo for ever, in a send that only it could receive. -/
theorem C83_drop_refuted (jobs : List DemoJob) (hj : jobs ≠ []) : ∃ s, DemoSys.Reach true jobs s ∧ s.cancelled = false ∧ ∀ t, s.Later t → ∀ e, t.pc ≠ .returned e := by
  obtain ⟨j, rest, rfl⟩ : ∃ j rest, jobs = j :: rest := by cases jobs with | nil => exact absurd rfl hj | cons j rest => exact ⟨j, rest, rfl⟩
  have s0 := DemoSys.Reach.init (drop := true) (jobs := j :: rest)
  have s1 := s0.step (.make j rest rfl rfl)
  have s2 := s1.step (.giveUp j rfl (.inl rfl))
  exact ⟨_, s2, rfl, fun t ht e he => by rw [calling_stays (j := j) ht rfl] at he; cases he⟩

/-- Two records of one metric, the second refused as old without an error: the demo returns no error. -/
theorem C83_example : ∃ s, DemoSys.Reach false [⟨[97], 0, 1⟩, ⟨[97], 1, 2⟩] s ∧ s.pc = .returned false ∧ s.log = [(⟨[97], 0, 1⟩, true), (⟨[97], 1, 2⟩, false)] := by
  have s0 := DemoSys.Reach.init (drop := false) (jobs := [⟨[97], 0, 1⟩, ⟨[97], 1, 2⟩])
  have s1 := s0.step (.make _ _ rfl rfl)
  have s2 := s1.step (.send _ rfl)
  have s3 := s2.step (.answer true false rfl)
  have s4 := s3.step (.receive _ _ rfl rfl)
  have s5 := s4.step (.make _ _ rfl rfl)
  have s6 := s5.step (.send _ rfl)
  have s7 := s6.step (.answer false false rfl)
  have s8 := s7.step (.receive _ _ rfl rfl)
  have s9 := s8.step (.finish rfl rfl)
  exact ⟨_, s9, rfl, rfl⟩

/-- There are six metrics, with a hundred records each. -/
theorem C83_six (fuel : Nat) (hf : 100 < fuel) (now : Int) : demoNames.Nodup ∧ demoNames.length = 6 ∧ (demoJobs fuel now demoNames).length = 600 := by
  have hl := (C83_records fuel hf now).1
  have hn : demoNames.Nodup ∧ demoNames.length = 6 := by decide +kernel
  refine ⟨hn.1, hn.2, ?_⟩
  unfold demoJobs
  rw [List.length_flatMap]
  rw [show (fun m => (List.map (fun t : Int × Int => DemoJob.mk m t.1 t.2) (demoTimes fuel now)).length) = fun _ => 100 from funext (fun m => by rw [List.length_map, hl])]
  have := hn.2
  generalize demoNames = l at this
  rw [List.map_const', this]
  decide

end Rothko
