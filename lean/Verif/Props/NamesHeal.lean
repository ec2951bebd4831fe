import Verif.Lemmas.Names
/-!
# C109: names that overlapping calls lost come back

`C35` is false of the code: calls of `Metrics` and `PopulateMetrics` that overlap can lose names. Here is what remains true whatever happened before.
-/
set_option linter.unusedSimpArgs false
namespace Rothko

/-! ## What holds in every schedule -/

/-- The pointers a call of `Metrics` holds. -/
def MtPc.Safe (s : NSys) : MtPc → Prop
  | .start => True
  | .loop _ _ ptr _ => ptr < s.next ∧ ptr ∉ s.namesW
  | .have_ _ _ ptr _ _ => ptr < s.next ∧ ptr ∉ s.namesW
  | .wantMu _ _ ptr _ => ptr < s.next ∧ ptr ∉ s.namesW
  | .wantW _ _ ptr _ _ => ptr < s.next ∧ ptr ∉ s.namesW
  | .done _ out => Sorted out ∧ ∀ x ∈ out, x ∈ s.disk

/-- What no overlap of calls can break. -/
structure NSys.Safe (s : NSys) : Prop where
  good : ∀ p, (s.heap p).Good
  onDisk : ∀ p x, s.at p x → x ∈ s.disk
  wlt : ∀ p ∈ s.namesW, p < s.next
  wnd : s.namesW.Nodup
  nlt : ∀ q, s.names = some q → q < s.next ∧ q ∉ s.namesW
  wr : ∀ pc ∈ s.writers, ∀ i x, (pc = .wrote i x ∨ pc = .adding i x) → x ∈ s.disk
  acks : ∀ x ∈ s.acked, x ∈ s.disk
  met : ∀ pc ∈ s.mets, pc.Safe s

theorem MtPc.Safe.mono {s s' : NSys} {pc : MtPc} (h : pc.Safe s) (hn : s.next ≤ s'.next) (hw : ∀ p, p < s.next → p ∉ s.namesW → p ∉ s'.namesW) (hd : ∀ x ∈ s.disk, x ∈ s'.disk) : pc.Safe s' := by
  cases pc with
  | start => trivial
  | done a0 out => exact ⟨h.1, fun x hx => hd x (h.2 x hx)⟩
  | loop a0 i ptr c => exact ⟨Nat.lt_of_lt_of_le h.1 hn, hw _ h.1 h.2⟩
  | have_ a0 i ptr c p => exact ⟨Nat.lt_of_lt_of_le h.1 hn, hw _ h.1 h.2⟩
  | wantMu a0 i ptr p => exact ⟨Nat.lt_of_lt_of_le h.1 hn, hw _ h.1 h.2⟩
  | wantW a0 i ptr c p => exact ⟨Nat.lt_of_lt_of_le h.1 hn, hw _ h.1 h.2⟩

theorem NSys.Safe.init (workers : Nat) (disk : List Bytes) (nw nm np : Nat) : (NSys.init workers disk nw nm np).Safe := by
  refine ⟨fun p => .new, ?_, ?_, List.nodup_range, ?_, ?_, ?_, ?_⟩
  · intro p x hx; simp [NSys.at, NSys.init, SSet.new_has] at hx
  · intro p hp; exact List.mem_range.mp hp
  · intro q hq; cases hq
  · intro pc hpc i x hx; rw [(List.mem_replicate.mp hpc).2] at hx; rcases hx with hx | hx <;> cases hx
  · intro x hx; cases hx
  · intro pc h; rw [(List.mem_replicate.mp h).2]; trivial

theorem NSys.Safe.put {s : NSys} (h : s.Safe) (p : Nat) (v : SSet) (hv : v.Good) (hd : ∀ x, v.has x = true → x ∈ s.disk) : (s.put p v).Safe := by
  refine ⟨?_, ?_, h.wlt, h.wnd, h.nlt, h.wr, h.acks, h.met⟩
  · intro q
    by_cases hq : q = p
    · subst hq; rw [NSys.heap_put_self]; exact hv
    · rw [NSys.heap_put_ne hq]; exact h.good q
  · intro q x hx
    by_cases hq : q = p
    · subst hq; simp only [NSys.at, NSys.heap_put_self] at hx; exact hd x hx
    · exact h.onDisk q x ((NSys.at_put_ne hq).mp hx)

theorem NSys.Safe.setM {s : NSys} (h : s.Safe) (k : Nat) {pc : MtPc} (hpc : pc.Safe s) : (s.setM k pc).Safe := by
  refine ⟨h.good, h.onDisk, h.wlt, h.wnd, h.nlt, h.wr, h.acks, ?_⟩
  intro b hb
  have hb : b.Safe s := by
    rcases List.mem_or_eq_of_mem_set hb with hb | hb
    · exact h.met b hb
    · rw [hb]; exact hpc
  exact hb.mono (Nat.le_refl _) (fun _ _ h => h) (fun _ h => h)

theorem NSys.Safe.setP {s : NSys} (h : s.Safe) (k : Nat) (pc : PpPc) : (s.setP k pc).Safe :=
  ⟨h.good, h.onDisk, h.wlt, h.wnd, h.nlt, h.wr, h.acks, fun b hb => (h.met b hb).mono (Nat.le_refl _) (fun _ _ h => h) (fun _ h => h)⟩

theorem NSys.Safe.setW {s : NSys} (h : s.Safe) (k : Nat) {pc : NwPc} (hpc : ∀ i x, (pc = .wrote i x ∨ pc = .adding i x) → x ∈ s.disk) : (s.setW k pc).Safe := by
  refine ⟨h.good, h.onDisk, h.wlt, h.wnd, h.nlt, ?_, h.acks, fun b hb => (h.met b hb).mono (Nat.le_refl _) (fun _ _ h => h) (fun _ h => h)⟩
  intro b hb
  rcases List.mem_or_eq_of_mem_set hb with hb | hb
  · exact h.wr b hb
  · rw [hb]; exact hpc

theorem NSys.Safe.ack {s : NSys} (h : s.Safe) {x : Bytes} (hx : x ∈ s.disk) : (s.ack x).Safe := by
  refine ⟨h.good, h.onDisk, h.wlt, h.wnd, h.nlt, h.wr, ?_, fun b hb => (h.met b hb).mono (Nat.le_refl _) (fun _ _ h => h) (fun _ h => h)⟩
  intro y hy
  rcases List.mem_cons.mp hy with rfl | hy
  · exact hx
  · exact h.acks y hy

/-- A new address is taken for a set that is written before anything else can see it. -/
theorem NSys.Safe.alloc {s : NSys} (h : s.Safe) : ({ s with next := s.next + 1 } : NSys).Safe :=
  ⟨h.good, h.onDisk, fun p hp => Nat.lt_succ_of_lt (h.wlt p hp), h.wnd, fun q hq => ⟨Nat.lt_succ_of_lt (h.nlt q hq).1, (h.nlt q hq).2⟩, h.wr, h.acks,
    fun b hb => (h.met b hb).mono (Nat.le_succ _) (fun _ _ h => h) (fun _ h => h)⟩

theorem NSys.Safe.publish {s : NSys} (h : s.Safe) {q : Nat} (h1 : q < s.next) (h2 : q ∉ s.namesW) (m : Bool) : ({ s with names := some q, mu := m } : NSys).Safe :=
  ⟨h.good, h.onDisk, h.wlt, h.wnd, fun q' hq => by cases hq; exact ⟨h1, h2⟩, h.wr, h.acks, fun b hb => (h.met b hb).mono (Nat.le_refl _) (fun _ _ h => h) (fun _ h => h)⟩

theorem NSys.Safe.swap {s : NSys} (h : s.Safe) (i : Nat) : ({ s with next := s.next + 1, namesW := s.namesW.set i s.next } : NSys).Safe := by
  have hfresh : s.next ∉ s.namesW := fun hm => Nat.lt_irrefl _ (h.wlt _ hm)
  have hset : ∀ p, p < s.next → p ∉ s.namesW → p ∉ s.namesW.set i s.next := by
    intro p hp hn hm
    rcases List.mem_or_eq_of_mem_set hm with hm | hm
    · exact hn hm
    · rw [hm] at hp; exact Nat.lt_irrefl _ hp
  refine ⟨h.good, h.onDisk, ?_, nodup_set_fresh h.wnd hfresh, ?_, h.wr, h.acks, fun b hb => (h.met b hb).mono (Nat.le_succ _) hset (fun _ h => h)⟩
  · intro p hp
    rcases List.mem_or_eq_of_mem_set hp with hp | hp
    · exact Nat.lt_succ_of_lt (h.wlt p hp)
    · rw [hp]; exact Nat.lt_succ_self _
  · intro q hq; exact ⟨Nat.lt_succ_of_lt (h.nlt q hq).1, hset q (h.nlt q hq).1 (h.nlt q hq).2⟩

theorem foldl_add_good (els : List Bytes) : ∀ {v : SSet}, v.Good → (els.foldl SSet.add v).Good ∧ ∀ x, (els.foldl SSet.add v).has x = true ↔ x ∈ els ∨ v.has x = true := by
  induction els with
  | nil => intro v h; exact ⟨h, fun x => by simp⟩
  | cons e els ih =>
    intro v h
    obtain ⟨h1, h2⟩ := ih (h.add e)
    refine ⟨h1, fun x => ?_⟩
    rw [List.foldl_cons, h2, h.has_add]
    simp only [List.mem_cons]
    constructor
    · rintro (h | h | h)
      · exact Or.inl (Or.inr h)
      · exact Or.inl (Or.inl h)
      · exact Or.inr h
    · rintro ((h | h) | h)
      · exact Or.inr (Or.inl h)
      · exact Or.inl h
      · exact Or.inr (Or.inr h)

theorem NSys.Safe.target {s : NSys} (h : s.Safe) {ptr : Nat} {copied : Bool} {s1 : NSys} {t : Nat} (hptr : ptr < s.next ∧ ptr ∉ s.namesW) (ht : s.target ptr copied = (s1, t)) :
    s1.Safe ∧ t < s1.next ∧ t ∉ s1.namesW := by
  have hfresh : s.next ∉ s.namesW := fun hm => Nat.lt_irrefl _ (h.wlt _ hm)
  have hself : s1 = s → t = ptr → s1.Safe ∧ t < s1.next ∧ t ∉ s1.namesW := by rintro rfl rfl; exact ⟨h, hptr⟩
  unfold NSys.target at ht
  split at ht
  · cases ht; exact hself rfl rfl
  · cases hq : s.names with
    | none => rw [hq] at ht; cases ht; exact hself rfl rfl
    | some q =>
      rw [hq] at ht
      simp only at ht
      split at ht
      · have h1 : s1 = { s.put s.next (s.heap q).copy with next := s.next + 1 } := (congrArg Prod.fst ht).symm
        have h2 : t = s.next := (congrArg Prod.snd ht).symm
        subst h1 h2
        refine ⟨?_, Nat.lt_succ_self _, hfresh⟩
        exact (h.put s.next (s.heap q).copy (h.good q).copy (fun x hx => h.onDisk q x (((h.good q).has_copy x).mp hx))).alloc
      · cases ht; exact hself rfl rfl

theorem NSys.Safe.create {s : NSys} (h : s.Safe) (x : Bytes) : ({ s with disk := x :: s.disk } : NSys).Safe :=
  ⟨h.good, fun p y hy => List.mem_cons_of_mem _ (h.onDisk p y hy), h.wlt, h.wnd, h.nlt, fun pc hpc i y hy => List.mem_cons_of_mem _ (h.wr pc hpc i y hy),
    fun y hy => List.mem_cons_of_mem _ (h.acks y hy), fun b hb => (h.met b hb).mono (Nat.le_refl _) (fun _ _ h => h) (fun _ h => List.mem_cons_of_mem _ h)⟩

theorem NSys.Safe.ackAll {s : NSys} (h : s.Safe) {els : List Bytes} (he : ∀ x ∈ els, x ∈ s.disk) : ({ s with acked := els ++ s.acked } : NSys).Safe := by
  refine ⟨h.good, h.onDisk, h.wlt, h.wnd, h.nlt, h.wr, ?_, fun b hb => (h.met b hb).mono (Nat.le_refl _) (fun _ _ h => h) (fun _ h => h)⟩
  intro y hy
  rcases List.mem_append.mp hy with hy | hy
  · exact he y hy
  · exact h.acks y hy

/-- One step of any schedule. -/
theorem NSys.Safe.step {s s' : NSys} {excl : Bool} (h : s.Safe) (hs : s.Step excl s') : s'.Safe := by
  have hmem : ∀ {k : Nat} {pc : MtPc}, s.mets[k]? = some pc → pc.Safe s := fun hk => h.met _ (List.mem_of_getElem? hk)
  have hfresh : s.next ∉ s.namesW := fun hm => Nat.lt_irrefl _ (h.wlt _ hm)
  cases hs with
  | create x => exact h.create x
  | write k i x hk hi =>
    have h1 : ({ s with disk := x :: s.disk } : NSys).Safe :=
      ⟨h.good, fun p y hy => List.mem_cons_of_mem _ (h.onDisk p y hy), h.wlt, h.wnd, h.nlt, fun pc hpc i y hy => List.mem_cons_of_mem _ (h.wr pc hpc i y hy),
        fun y hy => List.mem_cons_of_mem _ (h.acks y hy), fun b hb => (h.met b hb).mono (Nat.le_refl _) (fun _ _ h => h) (fun _ h => List.mem_cons_of_mem _ h)⟩
    refine h1.setW k ?_
    intro j y hy; rcases hy with hy | hy <;> cases hy; exact List.mem_cons_self
  | known k i x hk hpub =>
    refine (h.ack (h.wr _ (List.mem_of_getElem? hk) i x (Or.inl rfl))).setW k ?_
    intro j y hy; rcases hy with hy | hy <;> cases hy
  | unknown k i x hk hpub =>
    refine h.setW k ?_
    intro j y hy; rcases hy with hy | hy <;> cases hy
    exact h.wr _ (List.mem_of_getElem? hk) i x (Or.inl rfl)
  | add k i p x hk hp =>
    have hxd := h.wr _ (List.mem_of_getElem? hk) i x (Or.inr rfl)
    have h1 : (s.put p ((s.heap p).add x)).Safe := by
      refine h.put p _ ((h.good p).add x) ?_
      intro y hy
      rcases ((h.good p).has_add x y).mp hy with rfl | hy
      · exact hxd
      · exact h.onDisk p y hy
    refine NSys.Safe.setW (h1.ack hxd) k ?_
    intro j y hy; rcases hy with hy | hy <;> cases hy
  | begin k q hq hk hn => exact h.setM k (h.nlt q hn)
  | beginNew k hq hk hn =>
    have h1 := (h.put s.next .new .new (fun x hx => by rw [SSet.new_has] at hx; cases hx)).alloc
    exact h1.setM k ⟨Nat.lt_succ_self _, hfresh⟩
  | range k i ptr p a0 c hk hp => exact h.setM k (hmem hk : _ ∧ _)
  | skip k i ptr p a0 c hk hp => exact h.setM k (hmem hk : _ ∧ _)
  | need k i ptr p a0 hk hp => exact h.setM k (hmem hk : _ ∧ _)
  | needLocked k i ptr p a0 hk hp => exact h.setM k (hmem hk : _ ∧ _)
  | lock k i ptr p a0 hk hmu =>
    have h1 : ({ s with mu := true } : NSys).Safe :=
      ⟨h.good, h.onDisk, h.wlt, h.wnd, h.nlt, h.wr, h.acks, fun b hb => (h.met b hb).mono (Nat.le_refl _) (fun _ _ h => h) (fun _ h => h)⟩
    exact h1.setM k (hmem hk : _ ∧ _)
  | merge k i ptr p a0 c s1 t hk ht =>
    obtain ⟨h1, h2, h3⟩ := h.target (hmem hk) ht
    have h4 := h1.put t ((s1.heap t).merge (s1.heap p)) ((h1.good t).merge (h1.good p)) (fun x hx => by
      rcases ((h1.good t).has_merge (h1.good p) x).mp hx with hx | hx
      · exact h1.onDisk t x hx
      · exact h1.onDisk p x hx)
    have h5 := (h4.put s1.next .new .new (fun x hx => by rw [SSet.new_has] at hx; cases hx)).swap i
    refine NSys.Safe.setM h5 k ⟨Nat.lt_succ_of_lt h2, ?_⟩
    intro hm
    rcases List.mem_or_eq_of_mem_set hm with hm | hm
    · exact h3 hm
    · exact Nat.lt_irrefl _ (Nat.lt_of_lt_of_le h2 (Nat.le_of_eq hm.symm))
  | finish k ptr i a0 hk hi =>
    exact (h.publish (hmem hk).1 (hmem hk).2 false).setM k ⟨(h.good ptr).sorted, fun x hx => h.onDisk ptr x (((h.good ptr).mem x).mp hx)⟩
  | finishClean k ptr i a0 hk hi =>
    exact h.setM k ⟨(h.good ptr).sorted, fun x hx => h.onDisk ptr x (((h.good ptr).mem x).mp hx)⟩
  | scan k hq hk => exact h.setP k _
  | giveUp k base hk => exact h.setP k _
  | publish k base els hk hmu hb he =>
    obtain ⟨g1, g2⟩ := foldl_add_good els SSet.Good.new
    have h1 := (h.put s.next (els.foldl SSet.add .new) g1 (fun x hx => by
      rcases (g2 x).mp hx with hx | hx
      · exact he x hx
      · rw [SSet.new_has] at hx; cases hx)).alloc
    exact ((h1.publish (q := s.next) (Nat.lt_succ_self _) hfresh s.mu).ackAll he).setP k _

theorem NSys.Reach.safe {excl : Bool} {workers : Nat} {disk : List Bytes} {nw nm np : Nat} {s : NSys} (h : NSys.Reach excl workers disk nw nm np s) : s.Safe := by
  induction h with
  | init => exact NSys.Safe.init ..
  | step _ hs ih => exact ih.step hs

/-! ## Forgetting what was acknowledged before -/

/-- The names at the front of `l`, without its last `n`, followed by those of `v`. -/
def sinceThen (n : Nat) (v l : List Bytes) : List Bytes := l.take (l.length - n) ++ v

theorem sinceThen_cons {n : Nat} {v l : List Bytes} (h : n ≤ l.length) (x : Bytes) : sinceThen n v (x :: l) = x :: sinceThen n v l := by
  unfold sinceThen
  rw [List.length_cons, show l.length + 1 - n = (l.length - n) + 1 by omega, List.take_succ_cons, List.cons_append]

theorem sinceThen_append {n : Nat} {v l : List Bytes} (h : n ≤ l.length) (els : List Bytes) : sinceThen n v (els ++ l) = els ++ sinceThen n v l := by
  induction els with
  | nil => rfl
  | cons e els ih => rw [List.cons_append, sinceThen_cons (by rw [List.length_append]; omega), ih, List.cons_append]

/-- The same position of a call, that owes only what was acknowledged since then and `v`. -/
def MtPc.since (n : Nat) (v : List Bytes) : MtPc → MtPc
  | .start => .start
  | .loop a0 i ptr c => .loop (sinceThen n v a0) i ptr c
  | .have_ a0 i ptr c p => .have_ (sinceThen n v a0) i ptr c p
  | .wantMu a0 i ptr p => .wantMu (sinceThen n v a0) i ptr p
  | .wantW a0 i ptr c p => .wantW (sinceThen n v a0) i ptr c p
  | .done a0 out => .done (sinceThen n v a0) out

/-- A call that was done then owes nothing. -/
def MtPc.settled : MtPc → MtPc
  | .done _ out => .done [] out
  | pc => pc

/-- The call is done. -/
def MtPc.isDone : MtPc → Bool
  | .done _ _ => true
  | _ => false

/-- The position of call `k`, seen since then. -/
def MtPc.seen (n : Nat) (v : List Bytes) (old : Nat → Bool) (k : Nat) (pc : MtPc) : MtPc := if old k then pc.settled else pc.since n v

/-- The same state, that owes only what was acknowledged since then and `v`. `old` are the calls that were done then. -/
def NSys.since (n : Nat) (v : List Bytes) (old : Nat → Bool) (s : NSys) : NSys :=
  { s with acked := sinceThen n v s.acked, mets := s.mets.mapIdx (MtPc.seen n v old) }

theorem MtPc.seen_busy (n : Nat) (v : List Bytes) (old : Nat → Bool) (k : Nat) (pc : MtPc) : (pc.seen n v old k).busy = pc.busy := by
  unfold MtPc.seen
  split <;> cases pc <;> rfl

theorem NSys.since_quiet {n : Nat} {v : List Bytes} {old : Nat → Bool} {s : NSys} (h : s.quiet) : (s.since n v old).quiet := by
  refine ⟨?_, h.2⟩
  intro pc hpc
  obtain ⟨i, hi, rfl⟩ := List.mem_mapIdx.mp hpc
  rw [MtPc.seen_busy]; exact h.1 _ (List.getElem_mem hi)

/-- The calls that were done then are done. -/
def NSys.OldDone (old : Nat → Bool) (s : NSys) : Prop := ∀ k pc, s.mets[k]? = some pc → old k = true → pc.isDone = true

theorem since_at {n : Nat} {v : List Bytes} {old : Nat → Bool} {s : NSys} (ho : s.OldDone old) {k : Nat} {pc : MtPc} (h : s.mets[k]? = some pc) (hd : pc.isDone = false) :
    (s.since n v old).mets[k]? = some (pc.since n v) := by
  have hk : old k = false := by
    cases hk : old k with
    | false => rfl
    | true => rw [ho k pc h hk] at hd; cases hd
  simp [NSys.since, List.getElem?_mapIdx, h, MtPc.seen, hk]

theorem mapIdx_set {α β : Type} (f : Nat → α → β) (l : List α) (k : Nat) (a : α) : (l.set k a).mapIdx f = (l.mapIdx f).set k (f k a) := by
  apply List.ext_getElem?
  intro i
  simp only [List.getElem?_mapIdx, List.getElem?_set, List.length_mapIdx]
  split
  · next h =>
    subst h
    split <;> rfl
  · rfl

theorem since_setM {n : Nat} {v : List Bytes} {old : Nat → Bool} {s : NSys} {k : Nat} (pc : MtPc) (hk : old k = false) :
    (s.setM k pc).since n v old = (s.since n v old).setM k (pc.since n v) := by
  simp [NSys.since, NSys.setM, mapIdx_set, MtPc.seen, hk]

theorem since_target (n : Nat) (v : List Bytes) (old : Nat → Bool) (s : NSys) (ptr : Nat) (c : Bool) :
    (s.since n v old).target ptr c = ((s.target ptr c).1.since n v old, (s.target ptr c).2) := by
  unfold NSys.target
  split
  · rfl
  · show (match s.names with
      | some q => if (s.heap q).len > 0 then ({ (s.since n v old).put s.next (s.heap q).copy with next := s.next + 1 }, s.next) else (s.since n v old, ptr)
      | none => (s.since n v old, ptr)) = _
    cases s.names with
    | none => rfl
    | some q => dsimp only; split <;> rfl

theorem target_same {s s1 : NSys} {ptr t : Nat} {c : Bool} (ht : s.target ptr c = (s1, t)) : s1.acked = s.acked ∧ s1.mets = s.mets := by
  unfold NSys.target at ht
  split at ht
  · cases ht; exact ⟨rfl, rfl⟩
  · cases hq : s.names with
    | none => rw [hq] at ht; cases ht; exact ⟨rfl, rfl⟩
    | some q =>
      rw [hq] at ht; dsimp only at ht
      split at ht <;> cases ht <;> exact ⟨rfl, rfl⟩

/-- What is kept along the way. -/
structure NSys.Since (n : Nat) (old : Nat → Bool) (s : NSys) : Prop where
  len : n ≤ s.acked.length
  done : s.OldDone old

theorem NSys.Since.young {n : Nat} {old : Nat → Bool} {s : NSys} (h : s.Since n old) {k : Nat} {pc : MtPc} (hk : s.mets[k]? = some pc) (hd : pc.isDone = false) : old k = false := by
  cases ho : old k with
  | false => rfl
  | true => rw [h.done k pc hk ho] at hd; cases hd

theorem NSys.Since.setM {n : Nat} {old : Nat → Bool} {s : NSys} (h : s.Since n old) {k : Nat} (pc : MtPc) (hk : old k = false) : (s.setM k pc).Since n old := by
  refine ⟨h.len, ?_⟩
  intro j b hb hj
  have hne : k ≠ j := by intro e; subst e; rw [hk] at hj; cases hj
  rw [NSys.setM, List.getElem?_set_ne hne] at hb
  exact h.done j b hb hj

/-- The step is also one of the state that owes less. -/
theorem NSys.Step.since {n : Nat} {v : List Bytes} {old : Nat → Bool} {s s' : NSys} (hn : s.Since n old) (h : s.Step true s') :
    (s.since n v old).Step true (s'.since n v old) ∧ s'.Since n old := by
  have hat : ∀ {k : Nat} {pc : MtPc}, s.mets[k]? = some pc → pc.isDone = false → (s.since n v old).mets[k]? = some (pc.since n v) := fun h1 h2 => since_at hn.done h1 h2
  cases h with
  | create x => exact ⟨.create x, hn.len, hn.done⟩
  | write k i x hk hi => exact ⟨.write k i x hk hi, hn.len, hn.done⟩
  | known k i x hk hp =>
    refine ⟨?_, Nat.le_succ_of_le hn.len, hn.done⟩
    have := NSys.Step.known (excl := true) (s := s.since n v old) k i x hk hp
    simp only [NSys.since, NSys.ack, NSys.setW, sinceThen_cons hn.len] at this ⊢
    exact this
  | unknown k i x hk hp => exact ⟨.unknown k i x hk hp, hn.len, hn.done⟩
  | add k i p x hk hp =>
    refine ⟨?_, Nat.le_succ_of_le hn.len, hn.done⟩
    have := NSys.Step.add (excl := true) (s := s.since n v old) k i p x hk hp
    simp only [NSys.since, NSys.ack, NSys.setW, NSys.put, sinceThen_cons hn.len] at this ⊢
    exact this
  | begin k q hq hk hnm =>
    have hy := hn.young hk rfl
    refine ⟨?_, hn.setM _ hy⟩
    rw [since_setM _ hy]
    exact NSys.Step.begin (s := s.since n v old) k q (fun h => NSys.since_quiet (hq h)) (hat hk rfl) hnm
  | beginNew k hq hk hnm =>
    have hy := hn.young hk rfl
    refine ⟨?_, NSys.Since.setM (s := { s.put s.next .new with next := s.next + 1 }) ⟨hn.len, hn.done⟩ _ hy⟩
    rw [since_setM _ hy]
    exact NSys.Step.beginNew (s := s.since n v old) k (fun h => NSys.since_quiet (hq h)) (hat hk rfl) hnm
  | range k i ptr p a0 c hk hp =>
    have hy := hn.young hk rfl
    refine ⟨?_, hn.setM _ hy⟩
    rw [since_setM _ hy]
    exact NSys.Step.range (s := s.since n v old) k i ptr p _ c (hat hk rfl) hp
  | skip k i ptr p a0 c hk hp =>
    have hy := hn.young hk rfl
    refine ⟨?_, hn.setM _ hy⟩
    rw [since_setM _ hy]
    exact NSys.Step.skip (s := s.since n v old) k i ptr p _ c (hat hk rfl) hp
  | need k i ptr p a0 hk hp =>
    have hy := hn.young hk rfl
    refine ⟨?_, hn.setM _ hy⟩
    rw [since_setM _ hy]
    exact NSys.Step.need (s := s.since n v old) k i ptr p _ (hat hk rfl) hp
  | needLocked k i ptr p a0 hk hp =>
    have hy := hn.young hk rfl
    refine ⟨?_, hn.setM _ hy⟩
    rw [since_setM _ hy]
    exact NSys.Step.needLocked (s := s.since n v old) k i ptr p _ (hat hk rfl) hp
  | lock k i ptr p a0 hk hmu =>
    have hy := hn.young hk rfl
    refine ⟨?_, NSys.Since.setM (s := { s with mu := true }) ⟨hn.len, hn.done⟩ _ hy⟩
    rw [since_setM _ hy]
    exact NSys.Step.lock (s := s.since n v old) k i ptr p _ (hat hk rfl) hmu
  | merge k i ptr p a0 c s1 t hk ht =>
    have hy := hn.young hk rfl
    have ht' : (s.since n v old).target ptr c = (s1.since n v old, t) := by rw [since_target, ht]
    obtain ⟨e1, e2⟩ := target_same ht
    refine ⟨?_, NSys.Since.setM ⟨by show n ≤ s1.acked.length; rw [e1]; exact hn.len, by intro k pc h; exact hn.done k pc (by rw [← e2]; exact h)⟩ _ hy⟩
    rw [since_setM _ hy]
    exact NSys.Step.merge (s := s.since n v old) k i ptr p _ c _ t (hat hk rfl) ht'
  | finish k ptr i a0 hk hi =>
    have hy := hn.young hk rfl
    refine ⟨?_, NSys.Since.setM (s := { s with names := some ptr, mu := false }) ⟨hn.len, hn.done⟩ _ hy⟩
    rw [since_setM _ hy]
    exact NSys.Step.finish (s := s.since n v old) k ptr i _ (hat hk rfl) hi
  | finishClean k ptr i a0 hk hi =>
    have hy := hn.young hk rfl
    refine ⟨?_, hn.setM _ hy⟩
    rw [since_setM _ hy]
    exact NSys.Step.finishClean (s := s.since n v old) k ptr i _ (hat hk rfl) hi
  | scan k hq hk => exact ⟨NSys.Step.scan (s := s.since n v old) k (fun h => NSys.since_quiet (hq h)) hk, hn.len, hn.done⟩
  | giveUp k base hk => exact ⟨NSys.Step.giveUp (s := s.since n v old) k base hk, hn.len, hn.done⟩
  | publish k base els hk hmu hb he =>
    refine ⟨?_, Nat.le_trans hn.len (List.length_append ▸ Nat.le_add_left _ _), hn.done⟩
    have := NSys.Step.publish (excl := true) (s := s.since n v old) k base els hk hmu hb he
    simp only [NSys.since, NSys.setP, NSys.put, sinceThen_append hn.len] at this ⊢
    exact this

/-! ## The property -/

/-- Steps from the state `s0` on in which calls of `Metrics` and `PopulateMetrics` do not overlap. -/
inductive NSys.From (s0 : NSys) : NSys → Prop
  | here : From s0 s0
  | step {s s' : NSys} : From s0 s → s.Step true s' → From s0 s'

/-- The names a call of `Metrics` would find in the state: those published and those the workers have added since. -/
def NSys.Visible (s : NSys) (x : Bytes) : Prop := s.published x = true ∨ ∃ p ∈ s.namesW, (s.heap p).has x = true

/-- A quiet state with nothing owed but names that are visible. -/
theorem NSys.Safe.ok {s : NSys} (h : s.Safe) (hq : s.quiet) (v : List Bytes) (hv : ∀ x ∈ v, s.Visible x) :
    (s.since s.acked.length v (fun k => ((s.mets[k]?).map MtPc.isDone).getD false)).Ok := by
  have hacked : (s.since s.acked.length v (fun k => ((s.mets[k]?).map MtPc.isDone).getD false)).acked = v := by
    simp [NSys.since, sinceThen]
  have hvd : ∀ x ∈ v, x ∈ s.disk := by
    intro x hx
    rcases hv x hx with h1 | ⟨p, _, h1⟩
    · unfold NSys.published at h1
      cases hn : s.names with
      | none => rw [hn] at h1; cases h1
      | some q => rw [hn] at h1; exact h.onDisk q x h1
    · exact h.onDisk p x h1
  have hq' := NSys.since_quiet (n := s.acked.length) (v := v) (old := fun k => ((s.mets[k]?).map MtPc.isDone).getD false) hq
  have hbm : ∀ {k : Nat} {pc : MtPc}, (s.since s.acked.length v (fun k => ((s.mets[k]?).map MtPc.isDone).getD false)).mets[k]? = some pc → pc.busy = false :=
    fun h => hq'.1 _ (List.mem_of_getElem? h)
  have hbp : ∀ {k : Nat} {pc : PpPc}, s.pops[k]? = some pc → pc.busy = false := fun h => hq'.2 _ (List.mem_of_getElem? h)
  refine ⟨h.good, h.onDisk, h.wlt, h.wnd, h.nlt, by rw [hacked]; exact hvd, h.wr, ?_, ?_, ?_, ?_, ?_, ?_⟩
  · rw [hacked]
    intro x hx
    rcases hv x hx with h1 | h1
    · exact Or.inl h1
    · exact Or.inr (Or.inl h1)
  · intro k k' a b ha _ hb _; rw [hbm ha] at hb; cases hb
  · intro k k' a b ha _ hb _; rw [hbp ha] at hb; cases hb
  · intro k k' a b ha _ hb _; rw [hbm ha] at hb; cases hb
  · intro k pc hk
    have hb := hbm hk
    simp only [NSys.since, List.getElem?_mapIdx] at hk
    cases hm : s.mets[k]? with
    | none => rw [hm] at hk; cases hk
    | some pc0 =>
      rw [hm] at hk
      simp only [Option.map_some, Option.some.injEq] at hk
      subst hk
      have hs := h.met pc0 (List.mem_of_getElem? hm)
      rw [MtPc.seen_busy] at hb
      cases pc0 with
      | start => simp [MtPc.seen, hm, MtPc.isDone, MtPc.since, MtPc.Ok]
      | done a0 out =>
        simp only [MtPc.seen, hm, MtPc.isDone, Option.map_some, Option.getD_some, if_true, MtPc.settled]
        exact ⟨fun x hx => (by cases hx), hs.1, hs.2⟩
      | _ => cases hb
  · intro k pc hk
    have hb := hbp hk
    cases pc with
    | scan base => cases hb
    | _ => trivial

theorem NSys.From.since {s0 s : NSys} (h : NSys.From s0 s) {n : Nat} (v : List Bytes) {old : Nat → Bool} (hn : s0.Since n old) (hok : (s0.since n v old).Ok) :
    (s.since n v old).Ok ∧ s.Since n old := by
  induction h with
  | here => exact ⟨hok, hn⟩
  | step _ hs ih =>
    have h1 := hs.since (v := v) ih.2
    exact ⟨ih.1.step h1.1, h1.2⟩

theorem NSys.From.trans {s0 s1 s : NSys} (h : NSys.From s0 s1) (h' : NSys.From s1 s) : NSys.From s0 s := by
  induction h' with
  | here => exact h
  | step _ hs ih => exact ih.step hs

/-- The names acknowledged when the call began. -/
def MtPc.owed : MtPc → Option (List Bytes)
  | .start => none
  | .loop a0 _ _ _ => some a0
  | .have_ a0 _ _ _ _ => some a0
  | .wantMu a0 _ _ _ => some a0
  | .wantW a0 _ _ _ _ => some a0
  | .done a0 _ => some a0

/-- A step adds to the list of acknowledged names, and what a call owes is set when it begins. -/
theorem NSys.Step.suffix {excl : Bool} {s s' : NSys} (h : s.Step excl s') : s.acked <:+ s'.acked ∧ s'.mets.length = s.mets.length ∧
    ∀ (k : Nat) (pc' : MtPc), s'.mets[k]? = some pc' → ∃ pc, s.mets[k]? = some pc ∧ (pc'.owed = pc.owed ∨ pc'.owed = some s.acked) := by
  have same : ∀ (k : Nat) (pc' : MtPc), s.mets[k]? = some pc' → ∃ pc, s.mets[k]? = some pc ∧ (pc'.owed = pc.owed ∨ pc'.owed = some s.acked) := fun k pc' h => ⟨pc', h, Or.inl rfl⟩
  have one : ∀ {k : Nat} {pc pc1 : MtPc}, s.mets[k]? = some pc → (pc1.owed = pc.owed ∨ pc1.owed = some s.acked) →
      (s.mets.set k pc1).length = s.mets.length ∧ ∀ (j : Nat) (pc' : MtPc), (s.mets.set k pc1)[j]? = some pc' → ∃ pc, s.mets[j]? = some pc ∧ (pc'.owed = pc.owed ∨ pc'.owed = some s.acked) := by
    intro k pc pc1 hk ho
    refine ⟨List.length_set, ?_⟩
    intro j pc' hj
    rcases setGet hk hj with ⟨rfl, rfl⟩ | ⟨_, hj⟩
    · exact ⟨pc, hk, ho⟩
    · exact ⟨pc', hj, Or.inl rfl⟩
  cases h with
  | create x => exact ⟨List.suffix_refl _, rfl, same⟩
  | write k i x hk hi => exact ⟨List.suffix_refl _, rfl, same⟩
  | known k i x hk hp => exact ⟨List.suffix_cons _ _, rfl, same⟩
  | unknown k i x hk hp => exact ⟨List.suffix_refl _, rfl, same⟩
  | add k i p x hk hp => exact ⟨List.suffix_cons _ _, rfl, same⟩
  | begin k q hq hk hnm => exact ⟨List.suffix_refl _, one hk (Or.inr rfl)⟩
  | beginNew k hq hk hnm => exact ⟨List.suffix_refl _, one hk (Or.inr rfl)⟩
  | range k i ptr p a0 c hk hp => exact ⟨List.suffix_refl _, one hk (Or.inl rfl)⟩
  | skip k i ptr p a0 c hk hp => exact ⟨List.suffix_refl _, one hk (Or.inl rfl)⟩
  | need k i ptr p a0 hk hp => exact ⟨List.suffix_refl _, one hk (Or.inl rfl)⟩
  | needLocked k i ptr p a0 hk hp => exact ⟨List.suffix_refl _, one hk (Or.inl rfl)⟩
  | lock k i ptr p a0 hk hmu => exact ⟨List.suffix_refl _, one hk (Or.inl rfl)⟩
  | merge k i ptr p a0 c s1 t hk ht =>
    obtain ⟨e1, e2⟩ := target_same ht
    refine ⟨by show s.acked <:+ s1.acked; rw [e1]; exact List.suffix_refl _, ?_⟩
    show (s1.mets.set k _).length = _ ∧ ∀ (j : Nat) (pc' : MtPc), (s1.mets.set k _)[j]? = _ → _
    rw [e2]
    exact one hk (Or.inl rfl)
  | finish k ptr i a0 hk hi => exact ⟨List.suffix_refl _, one hk (Or.inl rfl)⟩
  | finishClean k ptr i a0 hk hi => exact ⟨List.suffix_refl _, one hk (Or.inl rfl)⟩
  | scan k hq hk => exact ⟨List.suffix_refl _, rfl, same⟩
  | giveUp k base hk => exact ⟨List.suffix_refl _, rfl, same⟩
  | publish k base els hk hmu hb he => exact ⟨List.suffix_append _ _, rfl, same⟩

/-- A call that begins from `s1` on owes all that was acknowledged in `s1`. -/
theorem NSys.From.owed {s1 s : NSys} (h : NSys.From s1 s) {k : Nat} (hk : s1.mets[k]? = some .start) :
    s1.acked <:+ s.acked ∧ ∀ pc a0, s.mets[k]? = some pc → pc.owed = some a0 → s1.acked <:+ a0 := by
  induction h with
  | here =>
    refine ⟨List.suffix_refl _, ?_⟩
    intro pc a0 hpc ho
    rw [hk] at hpc; cases hpc; cases ho
  | step _ hs ih =>
    obtain ⟨h1, _, h3⟩ := hs.suffix
    refine ⟨ih.1.trans h1, ?_⟩
    intro pc' a0 hpc ho
    obtain ⟨pc, hpc, h4 | h4⟩ := h3 k pc' hpc
    · exact ih.2 pc a0 hpc (by rw [← h4]; exact ho)
    · rw [ho] at h4; cases h4; exact ih.1

/-- **C109.** After any number of writes, `Metrics` calls and `PopulateMetrics` calls that overlapped in any way and may have lost names (`Reach false`), let no `Metrics` or
`PopulateMetrics` call be in progress (`s0`). If from then on such calls do not overlap each other (writes may overlap anything), then a call of `Metrics` that begins later (in `s1` it has
not begun) lists the name of every metric acknowledged between `s0` and its begin, and every name that could be found in `s0`: names lost earlier come back with the next acknowledged write,
and no more are lost. -/
theorem C109_again {workers : Nat} {disk : List Bytes} {nw nm np : Nat} {s0 s1 s : NSys} (h0 : NSys.Reach false workers disk nw nm np s0) (hq : s0.quiet)
    (h1 : NSys.From s0 s1) {k : Nat} (hk : s1.mets[k]? = some .start) (h2 : NSys.From s1 s) {a0 out : List Bytes} (hd : s.mets[k]? = some (.done a0 out)) :
    (∀ new, s1.acked = new ++ s0.acked → ∀ x ∈ new, x ∈ out) ∧ ∀ x, s0.Visible x → x ∈ out := by
  obtain ⟨old, hold⟩ : ∃ old : Nat → Bool, old = fun k => ((s0.mets[k]?).map MtPc.isDone).getD false := ⟨_, rfl⟩
  have hS : s0.Since s0.acked.length old := by
    refine ⟨Nat.le_refl _, ?_⟩
    intro j pc hj ho
    rw [hold] at ho; simp only [hj, Option.map_some, Option.getD_some] at ho
    exact ho
  have key : ∀ v : List Bytes, (∀ x ∈ v, s0.Visible x) → ∀ x ∈ sinceThen s0.acked.length v a0, x ∈ out := by
    intro v hv
    have hok := h0.safe.ok hq v hv
    rw [← hold] at hok
    have hS1 := (h1.since v hS hok).2
    obtain ⟨g1, _⟩ := (h1.trans h2).since v hS hok
    have hy := hS1.young hk rfl
    have hm : (s.since s0.acked.length v old).mets[k]? = some (.done (sinceThen s0.acked.length v a0) out) := by
      simp [NSys.since, List.getElem?_mapIdx, hd, MtPc.seen, hy, MtPc.since]
    exact (g1.met k _ hm).1
  obtain ⟨m, hm⟩ := (h2.owed hk).2 _ a0 hd rfl
  refine ⟨?_, ?_⟩
  · intro new hnew x hx
    refine key [] (fun x hx => by cases hx) x ?_
    rw [← hm, hnew, ← List.append_assoc]
    unfold sinceThen
    rw [List.append_nil, List.length_append, Nat.add_sub_cancel, List.take_left']
    · exact List.mem_append_right _ hx
    · rfl
  · intro x hx
    refine key [x] (fun y hy => by rw [List.mem_singleton] at hy; rw [hy]; exact hx) x ?_
    exact List.mem_append_right _ List.mem_cons_self

/-- **C109.** However calls overlap, a call of `Metrics` lists only metrics that have data, sorted and each once, and nothing acknowledged is missing from the disk. -/
theorem C109_true {workers : Nat} {disk : List Bytes} {nw nm np : Nat} {s : NSys} (h : NSys.Reach false workers disk nw nm np s) :
    (∀ (k : Nat) (a0 out : List Bytes), s.mets[k]? = some (.done a0 out) → Sorted out ∧ ∀ x ∈ out, x ∈ s.disk) ∧ ∀ x ∈ s.acked, x ∈ s.disk :=
  ⟨fun _ _ _ hk => h.safe.met _ (List.mem_of_getElem? hk), h.safe.acks⟩

theorem namesQuiet_of {s : NSys} (h1 : s.mets.all (fun pc => !pc.busy) = true) (h2 : s.pops.all (fun pc => !pc.busy) = true) : s.quiet :=
  ⟨fun pc hpc => by simpa using List.all_eq_true.mp h1 pc hpc, fun pc hpc => by simpa using List.all_eq_true.mp h2 pc hpc⟩

/-- The hypotheses of `C109_again` can be met when a name was lost: two calls of `Metrics` that overlap lose the acknowledged name `b` (as in `C35_overlap_refuted`), a third call does not list it.
One more write of `b`, and the call after it lists `a` and `b`. -/
theorem C109_example : ∃ s0 s1 s out2 a0 out, NSys.Reach false 1 [] 3 4 0 s0 ∧ s0.quiet ∧ s0.acked = [[98], [97]] ∧ s0.mets[2]? = some (.done [[98], [97]] out2) ∧ [98] ∉ out2 ∧
    s0.Visible [97] ∧ ¬ s0.Visible [98] ∧ NSys.From s0 s1 ∧ s1.mets[3]? = some .start ∧ s1.acked = [[98]] ++ s0.acked ∧ NSys.From s1 s ∧
    s.mets[3]? = some (.done a0 out) ∧ out = [[97], [98]] := by
  have s0 := NSys.Reach.init (excl := false) (workers := 1) (disk := []) (nw := 3) (nm := 4) (np := 0)
  have s1 := s0.step (.write 0 0 [97] rfl (by decide))
  have s2 := s1.step (.unknown 0 0 [97] rfl rfl)
  have s3 := s2.step (.add 0 0 0 [97] rfl rfl)
  have s4 := s3.step (.beginNew 0 (by simp) rfl rfl)
  have s5 := s4.step (.range 0 0 1 0 _ false rfl rfl)
  have s6 := s5.step (.beginNew 1 (by simp) rfl rfl)
  have s7 := s6.step (.range 1 0 2 0 _ false rfl rfl)
  have s8 := s7.step (.need 1 0 2 0 _ rfl (by decide +kernel))
  have s9 := s8.step (.need 0 0 1 0 _ rfl (by decide +kernel))
  have s10 := s9.step (.lock 0 0 1 0 _ rfl rfl)
  have s11 := s10.step (.merge 0 0 1 0 _ false _ 1 rfl rfl)
  have s12 := s11.step (.finish 0 1 1 _ rfl (by decide))
  have s13 := s12.step (.write 1 0 [98] rfl (by decide))
  have s14 := s13.step (.unknown 1 0 [98] rfl (by decide +kernel))
  have s15 := s14.step (.add 1 0 3 [98] rfl rfl)
  have s16 := s15.step (.lock 1 0 2 0 _ rfl rfl)
  have s17 := s16.step (.merge 1 0 2 0 _ false _ 4 rfl (by unfold NSys.target; rw [if_neg (by simp)]; exact if_pos (by decide +kernel)))
  have s18 := s17.step (.finish 1 4 1 _ rfl (by decide))
  have s19 := s18.step (.begin 2 4 (by simp) rfl rfl)
  have s20 := s19.step (.range 2 0 4 5 _ false rfl rfl)
  have s21 := s20.step (.skip 2 0 4 5 _ false rfl (by decide +kernel))
  have s22 := s21.step (.finishClean 2 4 1 _ rfl (by decide))
  refine ⟨_, _, _, _, _, _, s22, namesQuiet_of rfl rfl, rfl, rfl, by decide +kernel, Or.inl (by decide +kernel), ?_,
    ((NSys.From.here.step (.write 2 0 [98] rfl (by decide))).step (.unknown 2 0 [98] rfl (by decide +kernel))).step (.add 2 0 5 [98] rfl rfl), rfl, rfl,
    ((((((NSys.From.here.step (.begin 3 4 (fun _ => namesQuiet_of rfl rfl) rfl rfl)).step (.range 3 0 4 5 _ false rfl rfl)).step (.need 3 0 4 5 _ rfl (by decide +kernel))).step
      (.lock 3 0 4 5 _ rfl rfl)).step (.merge 3 0 4 5 _ false _ 6 rfl (by unfold NSys.target; rw [if_neg (by simp)]; exact if_pos (by decide +kernel))))).step
      (.finish 3 6 1 _ rfl (by decide)), rfl, by decide +kernel⟩
  rintro (h | ⟨p, hp, h⟩)
  · revert h; decide +kernel
  · have hp : p = 5 := List.mem_singleton.mp hp
    subst hp
    revert h; decide +kernel

end Rothko
