import Verif.Props.SharedMore
/-!
# C96: examples, and what is lost when opening fails
-/
namespace Rothko

/-- A metric whose only data file holds 40 zero bytes (a crash while it was created can leave this, C61). -/
def exBroken : Store := { dirExists := true, dir := [(1, 0)], disk := fun _ => List.replicate 40 0, next := 1, cache := fun _ => none, hit := fun _ => false, clock := 0 }

theorem exBroken_opens : isOk ((exBroken).openNew ⟨256, 4, 2⟩ 1 true).1 = false ∧ mapsAt ⟨256, 4, 2⟩ exBroken 1 true = true ∧ ∃ e, exBroken.openNew ⟨256, 4, 2⟩ 1 true = (.error e, exBroken) := by
  refine ⟨by decide +kernel, by decide +kernel, ?_⟩
  unfold Store.openNew
  rw [if_pos rfl]
  unfold Store.openAt
  have h : exBroken.lookup 1 = some 0 := by decide +kernel
  rw [h]
  dsimp only
  cases ho : openFile (exBroken.disk 0) with
  | error e => exact ⟨_, rfl⟩
  | ok f =>
    exfalso
    have : (openFile (exBroken.disk 0)).isOk = false := by decide +kernel
    rw [ho] at this
    cases this

/-- A resting process with one goroutine, whose cache is empty. -/
structure Lone (n : Nat) (k : Nat) (rest : List (Bytes × DbCall)) (s : FsSys DbCall DbRes) : Prop where
  pcs : s.pool.pcs = [.idle]
  locks : s.pool.locks [97] = none
  cl : s.cl = [⟨rest, .out⟩]
  fs : s.g.fs [97] = exBroken
  w : s.g.w = ⟨.new n, [], [], []⟩
  leaked : s.g.leaked = k

theorem unlock_last (s : LPool) (key : Bytes) (a : Nat) (h : s.locks key = some a) (hr : (s.heap a).ref = 1) :
    s.unlockFirst key = some (a, { s.setHeap a { s.heap a with ref := 0 } with locks := fun k => if k = key then none else s.locks k }) := by
  unfold LPool.unlockFirst
  rw [h]
  dsimp only
  rw [hr]
  rfl

theorem lone_call {n k : Nat} {d : Bytes} {progs : List (List (Bytes × DbCall))} {fs : Bytes → Store} {rest : List (Bytes × DbCall)} {s : FsSys DbCall DbRes}
    (h : FsSys.Reach dbCalls (dbPath d) n progs fs s) (hl : Lone n k (([97], .latest ⟨256, 4, 2⟩) :: rest) s) : ∃ s', FsSys.Reach dbCalls (dbPath d) n progs fs s' ∧ Lone n (k + 1) rest s' := by
  obtain ⟨b1, b2, e, b3⟩ := exBroken_opens
  obtain ⟨⟨locks, heap, next, pcs, crashed⟩, ⟨fs1, w, table, leaked⟩, cl, log⟩ := s
  obtain ⟨l1, l2, l3, l4, l5, l6⟩ := hl
  dsimp only at l1 l2 l3 l4 l5 l6
  subst l1; subst l3; subst l5; subst l6
  -- Lock
  have s1 := h.step (.call 0 [97] (.latest ⟨256, 4, 2⟩) rest rfl rfl)
  have e1 : LPool.lockFirst ⟨locks, heap, next, [LPc.idle], crashed⟩ [97] =
      (next, ⟨fun q => if q = [97] then some next else locks q, fun a => if a = next then ⟨false, 1⟩ else heap a, next + 1, [LPc.idle], crashed⟩) := by
    unfold LPool.lockFirst
    dsimp only
    rw [l2]
    rfl
  dsimp only at s1
  rw [e1] at s1
  have s2 := s1.step (.enter 0 [97] (.latest ⟨256, 4, 2⟩) rest next rfl (by show (if next = next then _ else _ : LPState).held = false; rw [if_pos rfl]) rfl)
  have s3 := s2.step (.first 0 [97] (.latest ⟨256, 4, 2⟩) rest rfl)
  -- the file is there
  have e3 : dirNames true (fs1 [97]) = (some [1], exBroken) := by rw [l4]; rfl
  dsimp only [dbCalls, LPool.setPc, LPool.setHeap, List.set, if_true] at s3
  rw [e3] at s3
  generalize hp : dbQueryP (α := DbRes) ⟨256, 4, 2⟩ 0x7fffffffffffffff (fun _ v => (some v, Cb.stop)) none (some [1]) (fun r => FsProg.done (.latest r.1 r.2)) = p at s3
  have hp : ∃ k, p = .acquire ⟨256, 4, 2⟩ 1 true k ∧ ∀ e, k (.error e) = FsProg.done (.latest none (some e)) := by
    rw [← hp]
    exact ⟨_, rfl, fun e => rfl⟩
  obtain ⟨k, rfl, hk⟩ := hp
  have e4 : ((⟨fs1, ⟨.new n, [], [], []⟩, table, leaked⟩ : FsState).setFs [97] exBroken).fs [97] = exBroken := by show (if ([97] : Bytes) = [97] then exBroken else fs1 [97]) = exBroken; rw [if_pos rfl]
  generalize hg : (⟨fs1, ⟨.new n, [], [], []⟩, table, leaked⟩ : FsState).setFs [97] exBroken = g at s3 e4
  have ew : g.w = ⟨.new n, [], [], []⟩ := by rw [← hg]; rfl
  have el : g.leaked = leaked := by rw [← hg]; rfl
  have ex : (FsProg.acquire ⟨256, 4, 2⟩ 1 true k).exec (dbPath d) [97] g =
      some (FsProg.done (.latest none (some e)), { g.setFs [97] exBroken with w := ⟨.new n, [], [], []⟩, leaked := leaked + 1 }) := by
    rw [FsProg.exec, e4, b1]
    have : g.w.step (.acquire (dbPath d [97] 1) false) = some (none, ⟨.new n, [], [], []⟩) := by rw [ew]; rfl
    rw [this]
    dsimp only
    rw [b3]
    dsimp only
    rw [b2, el, hk]
    rfl
  have s4 := s3.step (.work 0 [97] (.latest ⟨256, 4, 2⟩) rest _ _ _ rfl ex)
  have s5 := s4.step (.finish 0 [97] (.latest ⟨256, 4, 2⟩) rest (.latest none (some e)) next next _ rfl rfl (unlock_last _ [97] next
    (by simp)
    (by simp)))
  have s6 := s5.step (.done 0 next rfl (by simp [LPool.setPc, LPool.setHeap]))
  refine ⟨_, s6, rfl, ?_, rfl, ?_, rfl, rfl⟩
  · simp [LPool.setPc, LPool.setHeap]
  · simp [FsState.setFs]

/-- **C96** (bounded): false without the lost mappings. Whatever the configured number of handles, `k` queries of a metric with a broken data file leave a process that is at rest with `k` mappings that it cannot get rid of. -/
theorem C96_bounded_refuted (n k : Nat) (d : Bytes) : ∃ (progs : List (List (Bytes × DbCall))) (fs : Bytes → Store) (s : FsSys DbCall DbRes),
    FsSys.Reach dbCalls (dbPath d) n progs fs s ∧ s.active = 0 ∧ s.g.w.opened = [] ∧ s.g.mappings = k := by
  refine ⟨[List.replicate k ([97], .latest ⟨256, 4, 2⟩)], fun _ => exBroken, ?_⟩
  have key : ∀ j, j ≤ k → ∃ s, FsSys.Reach dbCalls (dbPath d) n [List.replicate k ([97], .latest ⟨256, 4, 2⟩)] (fun _ => exBroken) s ∧ Lone n j (List.replicate (k - j) ([97], .latest ⟨256, 4, 2⟩)) s := by
    intro j
    induction j with
    | zero => intro _; exact ⟨_, .init, rfl, rfl, rfl, rfl, rfl, rfl⟩
    | succ j ih =>
      intro hj
      obtain ⟨s, h, hl⟩ := ih (by omega)
      rw [show k - j = (k - (j + 1)) + 1 by omega, List.replicate_succ] at hl
      exact lone_call h hl
  obtain ⟨s, h, hl⟩ := key k (Nat.le_refl _)
  refine ⟨s, h, ?_, ?_, ?_⟩
  · unfold FsSys.active
    rw [hl.cl]
    rfl
  · rw [hl.w]
  · unfold FsState.mappings
    rw [hl.w, hl.leaked]
    simp

/-! ## A schedule -/

/-- The next step of goroutine `i`, if there is one. -/
def FsSys.next (path : Bytes → Int → Bytes) (s : FsSys DbCall DbRes) (i : Nat) : Option (FsSys DbCall DbRes) :=
  match s.pool.pcs[i]?, s.cl[i]? with
  | some .idle, some ⟨(m, _) :: _, .out⟩ => some { s with pool := (s.pool.lockFirst m).2.setPc i (.waiting m (s.pool.lockFirst m).1) }
  | some (.waiting m' a), some ⟨(m, o) :: rest, .out⟩ =>
    if m' = m ∧ (s.pool.heap a).held = false then some { s with pool := (s.pool.setHeap a { s.pool.heap a with held := true }).setPc i (.holding m a), cl := s.cl.set i ⟨(m, o) :: rest, .begin⟩ }
    else none
  | some (.holding _ _), some ⟨(m, o) :: rest, .begin⟩ =>
    some { s with g := s.g.setFs m (dirNames (dbCalls.ro o) (s.g.fs m)).2, cl := s.cl.set i ⟨(m, o) :: rest, .busy (dbCalls.body o (dirNames (dbCalls.ro o) (s.g.fs m)).1)⟩ }
  | some (.holding m' _), some ⟨(m, o) :: rest, .busy (.done r)⟩ =>
    match s.pool.unlockFirst m with
    | none => none
    | some (a', p) => if m' = m then some { s with pool := p.setPc i (.unlocking a'), cl := s.cl.set i ⟨rest, .out⟩, log := s.log ++ [(i, m, o, r)] } else none
  | some (.holding _ _), some ⟨(m, o) :: rest, .busy p⟩ =>
    match p.exec path m s.g with
    | none => none
    | some (p', g) => some { s with g, cl := s.cl.set i ⟨(m, o) :: rest, .busy p'⟩ }
  | some (.unlocking a), _ => if (s.pool.heap a).held = true then some { s with pool := (s.pool.setHeap a { s.pool.heap a with held := false }).setPc i .idle } else none
  | _, _ => none

theorem next_step {path : Bytes → Int → Bytes} {s s' : FsSys DbCall DbRes} {i : Nat} (h : s.next path i = some s') : s.Step dbCalls path s' := by
  unfold FsSys.next at h
  split at h
  · rename_i h1 h2; cases h; exact .call i _ _ _ h1 h2
  · rename_i h1 h2
    split at h
    · rename_i hc; cases h; obtain ⟨rfl, hc⟩ := hc; exact .enter i _ _ _ _ h1 hc h2
    · cases h
  · rename_i h1 h2; cases h; exact .first i _ _ _ h2
  · rename_i h1 h2
    split at h
    · cases h
    · rename_i h3
      split at h
      · rename_i e; cases h; subst e; exact .finish i _ _ _ _ _ _ _ h2 h1 h3
      · cases h
  · rename_i h1 h2
    split at h
    · cases h
    · rename_i h3; cases h; exact .work i _ _ _ _ _ _ h2 h3
  · rename_i h1
    split at h
    · rename_i hc; cases h; exact .done i _ h1 hc
    · cases h
  · cases h

/-- The steps of a schedule. -/
def FsSys.follow (path : Bytes → Int → Bytes) : List Nat → FsSys DbCall DbRes → Option (FsSys DbCall DbRes)
  | [], s => some s
  | i :: is, s => match s.next path i with | none => none | some s' => s'.follow path is

theorem follow_reach {n : Nat} {path : Bytes → Int → Bytes} {progs : List (List (Bytes × DbCall))} {fs : Bytes → Store} (is : List Nat) : ∀ {s s' : FsSys DbCall DbRes}, FsSys.Reach dbCalls path n progs fs s →
    s.follow path is = some s' → FsSys.Reach dbCalls path n progs fs s' := by
  induction is with
  | nil => intro s s' h e; cases e; exact h
  | cons i is ih =>
    intro s s' h e
    unfold FsSys.follow at e
    split at e
    · cases e
    · rename_i h1; exact ih (.step h (next_step h1)) e

/-- Two goroutines and two metrics; each writes a value and reads it back. -/
def exTwoCalls : List (List (Bytes × DbCall)) := [[([97], .write ⟨256, 4, 2⟩ ⟨1, 2, [7]⟩), ([97], .latest ⟨256, 4, 2⟩)], [([98], .write ⟨256, 4, 2⟩ ⟨1, 2, [8]⟩), ([98], .latest ⟨256, 4, 2⟩)]]

/-- They take turns at every step, with room for one handle in the cache. -/
def exSched (k : Nat) : Option (FsSys DbCall DbRes) :=
  (FsSys.init 1 exTwoCalls (fun _ => Store.fresh false (fun _ => false))).follow (dbPath [47, 100]) ((List.replicate 40 [0, 1]).flatten.take k)

theorem exSched_reach (k : Nat) (h : (exSched k).isSome = true) : ∃ s, exSched k = some s ∧ FsSys.Reach dbCalls (dbPath [47, 100]) 1 exTwoCalls (fun _ => Store.fresh false (fun _ => false)) s := by
  obtain ⟨s, e⟩ := Option.isSome_iff_exists.mp h
  exact ⟨s, e, follow_reach _ .init e⟩

/-- The handle whose mapping the goroutine is about to use. -/
def touching (c : Client DbCall (FsProg DbRes)) : Option Nat :=
  match c.work with
  | .busy (.load h _) => some h.id
  | .busy (.store h _ _ _ _) => some h.id
  | _ => none

set_option maxRecDepth 100000 in
theorem exSched_result : (exSched 42).map (fun s => (s.log.map (fun e => (e.1, e.2.1, e.2.2.2)), s.g.mappings, s.g.w.closed.length, s.active)) =
    some ([(0, [97], .write .written), (1, [98], .write .written), (0, [97], .latest (some ⟨1, 2, [7]⟩) none), (1, [98], .latest (some ⟨1, 2, [8]⟩) none)], 1, 3, 0) := by decide +kernel

set_option maxRecDepth 100000 in
theorem exSched_middle : (exSched 16).map (fun s => (s.cl.map touching, s.active, s.g.mappings)) = some ([some 2, some 1], 2, 2) := by decide +kernel

/-- The hypotheses of C96 are met by a process in which both goroutines are about to use mapped bytes, and by the same process when its four calls, each with its result, are finished and three of the four mappings it made were closed. -/
theorem C96_example : ∃ s s', FsSys.Reach dbCalls (dbPath [47, 100]) 1 exTwoCalls (fun _ => Store.fresh false (fun _ => false)) s ∧ s.active = 2 ∧ s.cl.map touching = [some 2, some 1] ∧
    FsSys.Reach dbCalls (dbPath [47, 100]) 1 exTwoCalls (fun _ => Store.fresh false (fun _ => false)) s' ∧ s'.active = 0 ∧ s'.log.map (fun e => (e.1, e.2.1, e.2.2.2)) =
      [(0, [97], .write .written), (1, [98], .write .written), (0, [97], .latest (some ⟨1, 2, [7]⟩) none), (1, [98], .latest (some ⟨1, 2, [8]⟩) none)] ∧
    s'.g.mappings = 1 ∧ s'.g.w.closed.length = 3 ∧ (∀ p ∈ exTwoCalls, ∀ c ∈ p, c.2.Ok) ∧ AfterHistory (Store.fresh false (fun _ => false)) [] := by
  have m := exSched_middle
  have r := exSched_result
  obtain ⟨s, e, h⟩ := exSched_reach 16 (by
    cases hs : exSched 16 with
    | none => rw [hs] at m; cases m
    | some s => rfl)
  obtain ⟨s', e', h'⟩ := exSched_reach 42 (by
    cases hs : exSched 42 with
    | none => rw [hs] at r; cases r
    | some s => rfl)
  rw [e] at m
  rw [e'] at r
  injection m with m
  injection m with m1 m
  injection m with m2 m3
  injection r with r
  injection r with r1 r
  injection r with r2 r
  injection r with r3 r4
  refine ⟨s, s', h, m2, m1, h', r4, r1, r2, r3, ?_, ⟨_, ⟨rfl, rfl, rfl, rfl⟩, false, fun _ => false, [], fun o ho => (by cases ho), rfl⟩⟩
  intro p hp c hc
  have g : GeoOk 256 4 := by unfold GeoOk; omega
  rcases List.mem_cons.mp hp with rfl | hp
  · rcases List.mem_cons.mp hc with rfl | hc
    · exact ⟨g, by decide +kernel⟩
    · rw [List.mem_singleton.mp hc]; exact g
  · rw [List.mem_singleton.mp hp] at hc
    rcases List.mem_cons.mp hc with rfl | hc
    · exact ⟨g, by decide +kernel⟩
    · rw [List.mem_singleton.mp hc]; exact g

end Rothko
