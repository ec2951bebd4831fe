import Verif.Model.Names
import Verif.Props.SSet
/-!
# Invariants of the names cache when `Metrics` and `PopulateMetrics` do not overlap
-/
set_option linter.unusedSimpArgs false
namespace Rothko

/-- The set at `p` contains `x`. -/
def NSys.at (s : NSys) (p : Nat) (x : Bytes) : Prop := (s.heap p).has x = true

/-- A sound set object. -/
def SSet.Good (s : SSet) : Prop := ∃ els, s.Is els

theorem SSet.Good.has_add {s : SSet} (h : s.Good) (x y : Bytes) : (s.add x).has y = true ↔ y = x ∨ s.has y = true := by
  obtain ⟨els, h⟩ := h
  rw [SSet.has, (h.add x).has, SSet.has, h.has, List.mem_cons]

theorem SSet.Good.has_merge {s o : SSet} (h : s.Good) (ho : o.Good) (y : Bytes) : (s.merge o).has y = true ↔ s.has y = true ∨ o.has y = true := by
  obtain ⟨els, h⟩ := h
  obtain ⟨els', ho⟩ := ho
  rw [SSet.has, (h.merge ho).has, SSet.has, h.has, SSet.has, ho.has, List.mem_append]

theorem SSet.Good.has_copy {s : SSet} (h : s.Good) (y : Bytes) : s.copy.has y = true ↔ s.has y = true := by
  obtain ⟨els, h⟩ := h
  rw [SSet.has, h.copy.has, SSet.has, h.has]

theorem SSet.Good.add {s : SSet} (h : s.Good) (x : Bytes) : (s.add x).Good := by obtain ⟨els, h⟩ := h; exact ⟨_, h.add x⟩
theorem SSet.Good.merge {s o : SSet} (h : s.Good) (ho : o.Good) : (s.merge o).Good := by
  obtain ⟨els, h⟩ := h; obtain ⟨els', ho⟩ := ho; exact ⟨_, h.merge ho⟩
theorem SSet.Good.copy {s : SSet} (h : s.Good) : s.copy.Good := by obtain ⟨els, h⟩ := h; exact ⟨_, h.copy⟩
theorem SSet.Good.new : SSet.new.Good := ⟨_, SSet.Is.new⟩
theorem SSet.Good.mem {s : SSet} (h : s.Good) (y : Bytes) : y ∈ s.order ↔ s.has y = true := by
  obtain ⟨els, h⟩ := h; rw [h.mem, SSet.has, h.has]
theorem SSet.Good.sorted {s : SSet} (h : s.Good) : Sorted s.order := by obtain ⟨els, h⟩ := h; exact h.sorted
theorem SSet.Good.len_zero {s : SSet} (h : s.Good) (h0 : s.len = 0) (y : Bytes) : s.has y = false := by
  cases hy : s.has y with
  | false => rfl
  | true =>
    have := (h.mem y).mpr hy
    rw [List.eq_nil_of_length_eq_zero h0] at this; cases this
theorem SSet.new_has (x : Bytes) : SSet.new.has x = false := rfl

/-- The local pointer of `Metrics` is sound. -/
structure NSys.Loc (s : NSys) (ptr : Nat) (copied : Bool) : Prop where
  lt : ptr < s.next
  notW : ptr ∉ s.namesW
  clean : copied = false → s.names = some ptr ∨ (s.names = none ∧ ∀ x, ¬ s.at ptr x)
  dirty : copied = true → ∀ x, s.published x = true → s.at ptr x

/-- The names owed to a call of `Metrics`. -/
def NSys.Owes (s : NSys) (a0 : List Bytes) (i ptr : Nat) : Prop :=
  ∀ x ∈ a0, s.at ptr x ∨ ∃ j p, i ≤ j ∧ s.namesW[j]? = some p ∧ s.at p x

def MtPc.Ok (s : NSys) : MtPc → Prop
  | .start => True
  | .loop a0 i ptr copied => s.Loc ptr copied ∧ s.Owes a0 i ptr
  | .have_ a0 i ptr copied p => s.Loc ptr copied ∧ s.Owes a0 i ptr ∧ s.namesW[i]? = some p
  | .wantMu a0 i ptr p => s.Loc ptr false ∧ s.Owes a0 i ptr ∧ s.namesW[i]? = some p
  | .wantW a0 i ptr copied p => s.Loc ptr copied ∧ s.Owes a0 i ptr ∧ s.namesW[i]? = some p
  | .done a0 out => (∀ x ∈ a0, x ∈ out) ∧ Sorted out ∧ ∀ x ∈ out, x ∈ s.disk

/-- The set being built by a call that has already taken over some names. -/
def MtPc.built : MtPc → Option Nat
  | .loop _ _ ptr true => some ptr
  | .have_ _ _ ptr true _ => some ptr
  | .wantW _ _ ptr true _ => some ptr
  | _ => none

def PpPc.Ok (s : NSys) : PpPc → Prop
  | .scan base => ∀ x, s.published x = true → x ∈ base
  | _ => True

structure NSys.Ok (s : NSys) : Prop where
  good : ∀ p, (s.heap p).Good
  onDisk : ∀ p x, s.at p x → x ∈ s.disk
  wlt : ∀ p ∈ s.namesW, p < s.next
  wnd : s.namesW.Nodup
  nlt : ∀ q, s.names = some q → q < s.next ∧ q ∉ s.namesW
  acks : ∀ x ∈ s.acked, x ∈ s.disk
  wr : ∀ pc ∈ s.writers, ∀ i x, (pc = .wrote i x ∨ pc = .adding i x) → x ∈ s.disk
  vis : ∀ x ∈ s.acked, s.published x = true ∨ (∃ p ∈ s.namesW, s.at p x) ∨ ∃ pc ∈ s.mets, ∃ q, pc.built = some q ∧ s.at q x
  one : ∀ (k k' : Nat) (a b : MtPc), s.mets[k]? = some a → s.mets[k']? = some b → a.busy = true → b.busy = true → k = k'
  onep : ∀ (k k' : Nat) (a b : PpPc), s.pops[k]? = some a → s.pops[k']? = some b → a.busy = true → b.busy = true → k = k'
  mix : ∀ (k k' : Nat) (a : MtPc) (b : PpPc), s.mets[k]? = some a → s.pops[k']? = some b → a.busy = true → b.busy = true → False
  met : ∀ (k : Nat) (pc : MtPc), s.mets[k]? = some pc → pc.Ok s
  pop : ∀ (k : Nat) (pc : PpPc), s.pops[k]? = some pc → pc.Ok s

theorem setGet {α : Type} {l : List α} {i j : Nat} {a b x : α} (h : l[i]? = some a) (hx : (l.set i b)[j]? = some x) :
    (j = i ∧ x = b) ∨ (j ≠ i ∧ l[j]? = some x) := by
  by_cases hj : i = j
  · subst hj
    rw [List.getElem?_set_self (List.getElem?_eq_some_iff.mp h).1] at hx
    cases hx; exact Or.inl ⟨rfl, rfl⟩
  · rw [List.getElem?_set_ne hj] at hx; exact Or.inr ⟨fun h => hj h.symm, hx⟩

/-- A step by call `k` of `Metrics` while it is the only busy call (before or after). -/
theorem NSys.Ok.metStep {s s' : NSys} (h : s.Ok) {k : Nat} {pc pc' : MtPc} (hk : s.mets[k]? = some pc) (hm : s'.mets = s.mets.set k pc')
    (hp : s'.pops = s.pops) (hw : s'.writers = s.writers) (ha : s'.acked = s.acked) (hd : s'.disk = s.disk)
    (hq : pc.busy = true ∨ s.quiet)
    (good : ∀ p, (s'.heap p).Good) (onDisk : ∀ p x, s'.at p x → x ∈ s.disk) (wlt : ∀ p ∈ s'.namesW, p < s'.next) (wnd : s'.namesW.Nodup)
    (nlt : ∀ q, s'.names = some q → q < s'.next ∧ q ∉ s'.namesW)
    (vis : ∀ x, (s.published x = true ∨ (∃ p ∈ s.namesW, s.at p x) ∨ ∃ q, pc.built = some q ∧ s.at q x) →
      (s'.published x = true ∨ (∃ p ∈ s'.namesW, s'.at p x) ∨ ∃ q, pc'.built = some q ∧ s'.at q x))
    (hok : pc'.Ok s') : s'.Ok := by
  have hmem : pc' ∈ s'.mets := by
    rw [hm]; exact List.mem_of_getElem? (List.getElem?_set_self (List.getElem?_eq_some_iff.mp hk).1)
  have quietOther : ∀ (k2 : Nat) (b : MtPc), k2 ≠ k → s.mets[k2]? = some b → b.busy = false := by
    intro k2 b hne hb
    cases hbb : b.busy with
    | false => rfl
    | true =>
      rcases hq with hq | hq
      · exact absurd (h.one k k2 pc b hk hb hq hbb).symm hne
      · rw [hq.1 b (List.mem_of_getElem? hb)] at hbb; cases hbb
  have quietPop : ∀ (k2 : Nat) (b : PpPc), s.pops[k2]? = some b → b.busy = false := by
    intro k2 b hb
    cases hbb : b.busy with
    | false => rfl
    | true =>
      rcases hq with hq | hq
      · exact (h.mix k k2 pc b hk hb hq hbb).elim
      · rw [hq.2 b (List.mem_of_getElem? hb)] at hbb; cases hbb
  refine ⟨good, by rw [hd]; exact onDisk, wlt, wnd, nlt, by rw [ha, hd]; exact h.acks, by rw [hw, hd]; exact h.wr, ?_, ?_, ?_, ?_, ?_, ?_⟩
  · rw [ha]
    intro x hx
    have hv : s.published x = true ∨ (∃ p ∈ s.namesW, s.at p x) ∨ ∃ q, pc.built = some q ∧ s.at q x := by
      rcases h.vis x hx with h1 | h1 | ⟨b, hb, q, hq1, hq2⟩
      · exact Or.inl h1
      · exact Or.inr (Or.inl h1)
      · obtain ⟨k2, hk2⟩ := List.mem_iff_getElem?.mp hb
        by_cases hkk : k2 = k
        · subst hkk; rw [hk] at hk2; cases hk2; exact Or.inr (Or.inr ⟨q, hq1, hq2⟩)
        · have := quietOther k2 b hkk hk2
          cases b <;> simp [MtPc.busy, MtPc.built] at this hq1
    rcases vis x hv with h1 | h1 | ⟨q, hq1, hq2⟩
    · exact Or.inl h1
    · exact Or.inr (Or.inl h1)
    · exact Or.inr (Or.inr ⟨pc', hmem, q, hq1, hq2⟩)
  · rw [hm]
    intro k1 k2 a b h1 h2 hb1 hb2
    rcases setGet hk h1 with ⟨e1, _⟩ | ⟨n1, g1⟩ <;> rcases setGet hk h2 with ⟨e2, _⟩ | ⟨n2, g2⟩
    · rw [e1, e2]
    · rw [quietOther k2 b n2 g2] at hb2; cases hb2
    · rw [quietOther k1 a n1 g1] at hb1; cases hb1
    · rw [quietOther k1 a n1 g1] at hb1; cases hb1
  · rw [hp]; exact h.onep
  · intro k1 k2 a b _ h2 _ hb2
    rw [hp] at h2
    rw [quietPop k2 b h2] at hb2; cases hb2
  · rw [hm]
    intro k1 a h1
    rcases setGet hk h1 with ⟨_, rfl⟩ | ⟨n1, g1⟩
    · exact hok
    · have hb := quietOther k1 a n1 g1
      have := h.met k1 a g1
      cases a with
      | start => trivial
      | done a0 out => obtain ⟨c1, c2, c3⟩ := this; exact ⟨c1, c2, by rw [hd]; exact c3⟩
      | _ => simp [MtPc.busy] at hb
  · rw [hp]
    intro k1 b h1
    have hb := quietPop k1 b h1
    cases b with
    | scan base => simp [PpPc.busy] at hb
    | _ => trivial

theorem MtPc.Ok.congr {s s' : NSys} {pc : MtPc} (h : pc.Ok s) (h1 : s'.heap = s.heap) (h2 : s'.next = s.next) (h3 : s'.names = s.names) (h4 : s'.namesW = s.namesW)
    (h5 : s'.disk = s.disk) : pc.Ok s' := by
  obtain ⟨a1, a2, a3, a4, a5, a6, a7, a8, a9, a10⟩ := s
  obtain ⟨b1, b2, b3, b4, b5, b6, b7, b8, b9, b10⟩ := s'
  simp only at h1 h2 h3 h4 h5
  subst h1 h2 h3 h4 h5
  have hloc : ∀ {ptr : Nat} {c : Bool}, NSys.Loc ⟨b1, b2, b3, b4, a5, b6, a7, a8, a9, a10⟩ ptr c → NSys.Loc ⟨b1, b2, b3, b4, b5, b6, b7, b8, b9, b10⟩ ptr c :=
    fun hl => ⟨hl.lt, hl.notW, hl.clean, hl.dirty⟩
  cases pc with
  | start => trivial
  | done a0 out => exact h
  | loop a0 i ptr c => exact ⟨hloc h.1, h.2⟩
  | have_ a0 i ptr c p => exact ⟨hloc h.1, h.2⟩
  | wantMu a0 i ptr p => exact ⟨hloc h.1, h.2⟩
  | wantW a0 i ptr c p => exact ⟨hloc h.1, h.2⟩

/-- Only the call's own position changes. -/
theorem NSys.Ok.metPc {s : NSys} (h : s.Ok) {k : Nat} {pc pc' : MtPc} (hk : s.mets[k]? = some pc) (hq : pc.busy = true ∨ s.quiet)
    (hb : ∀ q, pc.built = some q → pc'.built = some q ∨ ∀ x, s.at q x → s.published x = true) (hok : pc'.Ok s) : (s.setM k pc').Ok := by
  refine h.metStep hk rfl rfl rfl rfl rfl hq h.good h.onDisk h.wlt h.wnd h.nlt ?_ ?_
  · rintro x (h1 | h1 | ⟨q, h1, h2⟩)
    · exact Or.inl h1
    · exact Or.inr (Or.inl h1)
    · rcases hb q h1 with h3 | h3
      · exact Or.inr (Or.inr ⟨q, h3, h2⟩)
      · exact Or.inl (h3 x h2)
  · exact hok.congr rfl rfl rfl rfl rfl

theorem NSys.Ok.init (workers : Nat) (disk : List Bytes) (nw nm np : Nat) : (NSys.init workers disk nw nm np).Ok := by
  have hm : ∀ {k : Nat} {pc : MtPc}, (NSys.init workers disk nw nm np).mets[k]? = some pc → pc = .start := fun h => (List.mem_replicate.mp (List.mem_of_getElem? h)).2
  have hp : ∀ {k : Nat} {pc : PpPc}, (NSys.init workers disk nw nm np).pops[k]? = some pc → pc = .start := fun h => (List.mem_replicate.mp (List.mem_of_getElem? h)).2
  refine ⟨fun p => .new, ?_, ?_, List.nodup_range, ?_, ?_, ?_, ?_, ?_, ?_, ?_, ?_, ?_⟩
  · intro p x hx; simp [NSys.at, NSys.init, SSet.new_has] at hx
  · intro p hp; exact List.mem_range.mp hp
  · intro q hq; cases hq
  · intro x hx; cases hx
  · intro pc hpc i x hx; rw [(List.mem_replicate.mp hpc).2] at hx; rcases hx with hx | hx <;> cases hx
  · intro x hx; cases hx
  · intro k k' a b ha _ hb _; rw [hm ha] at hb; cases hb
  · intro k k' a b ha _ hb _; rw [hp ha] at hb; cases hb
  · intro k k' a b ha _ hb _; rw [hm ha] at hb; cases hb
  · intro k pc h; rw [hm h]; trivial
  · intro k pc h; rw [hp h]; trivial

/-- Steps of writers: sets of workers only grow. -/
theorem NSys.Ok.writer {s s' : NSys} (h : s.Ok) (hm : s'.mets = s.mets) (hp : s'.pops = s.pops) (hn : s'.names = s.names) (hnw : s'.namesW = s.namesW) (hnx : s'.next = s.next)
    (hd : ∀ x ∈ s.disk, x ∈ s'.disk) (hgrow : ∀ p x, s.at p x → s'.at p x) (hsame : ∀ p, p ∉ s.namesW → s'.heap p = s.heap p)
    (good : ∀ p, (s'.heap p).Good) (onDisk : ∀ p x, s'.at p x → x ∈ s'.disk) (acks : ∀ x ∈ s'.acked, x ∈ s'.disk)
    (wr : ∀ pc ∈ s'.writers, ∀ i x, (pc = .wrote i x ∨ pc = .adding i x) → x ∈ s'.disk)
    (hack : ∀ x ∈ s'.acked, x ∈ s.acked ∨ s.published x = true ∨ ∃ p ∈ s.namesW, s'.at p x) : s'.Ok := by
  have hpub : ∀ x, s'.published x = s.published x := by
    intro x
    simp only [NSys.published, hn]
    cases hq : s.names with
    | none => rfl
    | some q => simp only; rw [hsame q (h.nlt q hq).2]
  have hloc : ∀ ptr c, s.Loc ptr c → s'.Loc ptr c := by
    intro ptr c hl
    refine ⟨by rw [hnx]; exact hl.lt, by rw [hnw]; exact hl.notW, ?_, ?_⟩
    · intro hc
      rcases hl.clean hc with h1 | ⟨h1, h2⟩
      · exact Or.inl (by rw [hn]; exact h1)
      · refine Or.inr ⟨by rw [hn]; exact h1, fun x hx => h2 x ?_⟩
        simp only [NSys.at] at hx ⊢; rw [hsame ptr hl.notW] at hx; exact hx
    · intro hc x hx
      exact hgrow ptr x (hl.dirty hc x (by rw [← hpub]; exact hx))
  have howes : ∀ a0 i ptr, s.Owes a0 i ptr → s'.Owes a0 i ptr := by
    intro a0 i ptr ho x hx
    rcases ho x hx with h1 | ⟨j, p, h1, h2, h3⟩
    · exact Or.inl (hgrow _ _ h1)
    · exact Or.inr ⟨j, p, h1, by rw [hnw]; exact h2, hgrow _ _ h3⟩
  refine ⟨good, onDisk, by rw [hnw, hnx]; exact h.wlt, by rw [hnw]; exact h.wnd, by rw [hn, hnw, hnx]; exact h.nlt, acks, wr, ?_, by rw [hm]; exact h.one, by rw [hp]; exact h.onep,
    by rw [hm, hp]; exact h.mix, ?_, ?_⟩
  · intro x hx
    have hold : ∀ x ∈ s.acked, s'.published x = true ∨ (∃ p ∈ s'.namesW, s'.at p x) ∨ ∃ pc ∈ s'.mets, ∃ q, pc.built = some q ∧ s'.at q x := by
      intro x hx
      rcases h.vis x hx with h1 | ⟨p, h1, h2⟩ | ⟨pc, h1, q, h2, h3⟩
      · exact Or.inl (by rw [hpub]; exact h1)
      · exact Or.inr (Or.inl ⟨p, by rw [hnw]; exact h1, hgrow _ _ h2⟩)
      · exact Or.inr (Or.inr ⟨pc, by rw [hm]; exact h1, q, h2, hgrow _ _ h3⟩)
    rcases hack x hx with h1 | h1 | ⟨p, h1, h2⟩
    · exact hold x h1
    · exact Or.inl (by rw [hpub]; exact h1)
    · exact Or.inr (Or.inl ⟨p, by rw [hnw]; exact h1, h2⟩)
  · rw [hm]
    intro k pc hpc
    have := h.met k pc hpc
    cases pc with
    | start => trivial
    | done a0 out => obtain ⟨c1, c2, c3⟩ := this; exact ⟨c1, c2, fun x hx => hd x (c3 x hx)⟩
    | loop a0 i ptr c => exact ⟨hloc _ _ this.1, howes _ _ _ this.2⟩
    | have_ a0 i ptr c p => exact ⟨hloc _ _ this.1, howes _ _ _ this.2.1, by rw [hnw]; exact this.2.2⟩
    | wantMu a0 i ptr p => exact ⟨hloc _ _ this.1, howes _ _ _ this.2.1, by rw [hnw]; exact this.2.2⟩
    | wantW a0 i ptr c p => exact ⟨hloc _ _ this.1, howes _ _ _ this.2.1, by rw [hnw]; exact this.2.2⟩
  · rw [hp]
    intro k pc hpc
    have := h.pop k pc hpc
    cases pc with
    | scan base => intro x hx; exact this x (by rw [← hpub]; exact hx)
    | _ => trivial

/-- Steps of `PopulateMetrics`. -/
theorem NSys.Ok.popStep {s s' : NSys} (h : s.Ok) {k : Nat} {pc pc' : PpPc} (hk : s.pops[k]? = some pc) (hp : s'.pops = s.pops.set k pc')
    (hm : s'.mets = s.mets) (hw : s'.writers = s.writers) (ha : s'.acked = s.acked) (hd : s'.disk = s.disk) (hnw : s'.namesW = s.namesW)
    (hq : pc.busy = true ∨ s.quiet) (hnx : s.next ≤ s'.next)
    (good : ∀ p, (s'.heap p).Good) (onDisk : ∀ p x, s'.at p x → x ∈ s.disk) (nlt : ∀ q, s'.names = some q → q < s'.next ∧ q ∉ s.namesW)
    (hpub : ∀ x, s.published x = true → s'.published x = true) (hsame : ∀ p ∈ s.namesW, s'.heap p = s.heap p) (hok : pc'.Ok s') : s'.Ok := by
  have quietOther : ∀ (k2 : Nat) (b : PpPc), k2 ≠ k → s.pops[k2]? = some b → b.busy = false := by
    intro k2 b hne hb
    cases hbb : b.busy with
    | false => rfl
    | true =>
      rcases hq with hq | hq
      · exact absurd (h.onep k k2 pc b hk hb hq hbb).symm hne
      · rw [hq.2 b (List.mem_of_getElem? hb)] at hbb; cases hbb
  have quietMet : ∀ (k2 : Nat) (b : MtPc), s.mets[k2]? = some b → b.busy = false := by
    intro k2 b hb
    cases hbb : b.busy with
    | false => rfl
    | true =>
      rcases hq with hq | hq
      · exact (h.mix k2 k b pc hb hk hbb hq).elim
      · rw [hq.1 b (List.mem_of_getElem? hb)] at hbb; cases hbb
  refine ⟨good, by rw [hd]; exact onDisk, by rw [hnw]; exact fun p hp => Nat.lt_of_lt_of_le (h.wlt p hp) hnx, by rw [hnw]; exact h.wnd, by rw [hnw]; exact nlt,
    by rw [ha, hd]; exact h.acks, by rw [hw, hd]; exact h.wr, ?_, by rw [hm]; exact h.one, ?_, ?_, ?_, ?_⟩
  · rw [ha]
    intro x hx
    rcases h.vis x hx with h1 | ⟨p, h1, h2⟩ | ⟨b, hb, q, hq1, hq2⟩
    · exact Or.inl (hpub x h1)
    · refine Or.inr (Or.inl ⟨p, by rw [hnw]; exact h1, ?_⟩)
      simp only [NSys.at] at h2 ⊢; rw [hsame p h1]; exact h2
    · obtain ⟨k2, hk2⟩ := List.mem_iff_getElem?.mp hb
      have := quietMet k2 b hk2
      cases b <;> simp [MtPc.busy, MtPc.built] at this hq1
  · rw [hp]
    intro k1 k2 a b h1 h2 hb1 hb2
    rcases setGet hk h1 with ⟨e1, _⟩ | ⟨n1, g1⟩ <;> rcases setGet hk h2 with ⟨e2, _⟩ | ⟨n2, g2⟩
    · rw [e1, e2]
    · rw [quietOther k2 b n2 g2] at hb2; cases hb2
    · rw [quietOther k1 a n1 g1] at hb1; cases hb1
    · rw [quietOther k1 a n1 g1] at hb1; cases hb1
  · intro k1 k2 a b h1 _ hb1 _
    rw [hm] at h1
    rw [quietMet k1 a h1] at hb1; cases hb1
  · rw [hm]
    intro k1 a h1
    have hb := quietMet k1 a h1
    have := h.met k1 a h1
    cases a with
    | start => trivial
    | done a0 out => obtain ⟨c1, c2, c3⟩ := this; exact ⟨c1, c2, by rw [hd]; exact c3⟩
    | _ => simp [MtPc.busy] at hb
  · rw [hp]
    intro k1 b h1
    rcases setGet hk h1 with ⟨_, rfl⟩ | ⟨n1, g1⟩
    · exact hok
    · have hb := quietOther k1 b n1 g1
      cases b with
      | scan base => simp [PpPc.busy] at hb
      | _ => trivial

theorem NSys.at_put_ne {s : NSys} {p q : Nat} {v : SSet} {x : Bytes} (h : q ≠ p) : (s.put p v).at q x ↔ s.at q x := by
  simp [NSys.at, NSys.put, h]

theorem NSys.heap_put_self (s : NSys) (p : Nat) (v : SSet) : (s.put p v).heap p = v := by simp [NSys.put]
theorem NSys.heap_put_ne {s : NSys} {p q : Nat} {v : SSet} (h : q ≠ p) : (s.put p v).heap q = s.heap q := by simp [NSys.put, h]

theorem NSys.Ok.pub_ne_next {s : NSys} (h : s.Ok) {s' : NSys} (hn : s'.names = s.names) (hh : ∀ p, p < s.next → s'.heap p = s.heap p) (x : Bytes) :
    s'.published x = s.published x := by
  simp only [NSys.published, hn]
  cases hq : s.names with
  | none => rfl
  | some q => simp only; rw [hh q (h.nlt q hq).1]

theorem mem_set_ne {l : List Nat} {i a : Nat} (b : Nat) (hnd : l.Nodup) (h : l[i]? = some a) {p : Nat} (hp : p ∈ l) (hne : p ≠ a) : p ∈ l.set i b := by
  obtain ⟨j, hj⟩ := List.mem_iff_getElem?.mp hp
  have hij : i ≠ j := by intro e; subst e; rw [h] at hj; cases hj; exact hne rfl
  exact List.mem_of_getElem? (by rw [List.getElem?_set_ne hij]; exact hj)

theorem nodup_set_fresh {l : List Nat} {i b : Nat} (hnd : l.Nodup) (hb : b ∉ l) : (l.set i b).Nodup := by
  induction l generalizing i with
  | nil => exact hnd
  | cons x l ih =>
    have h1 := List.nodup_cons.mp hnd
    have h2 : b ≠ x ∧ b ∉ l := by simpa using hb
    cases i with
    | zero => exact List.nodup_cons.mpr ⟨h2.2, h1.2⟩
    | succ i =>
      refine List.nodup_cons.mpr ⟨fun hm => ?_, ih h1.2 h2.2⟩
      rcases List.mem_or_eq_of_mem_set hm with hm | hm
      · exact h1.1 hm
      · exact h2.1 hm.symm

theorem NSys.Ok.step {s s' : NSys} (h : s.Ok) (hs : s.Step true s') : s'.Ok := by
  cases hs with
  | create x =>
    exact h.writer rfl rfl rfl rfl rfl (fun y hy => List.mem_cons_of_mem _ hy) (fun _ _ h => h) (fun _ _ => rfl) h.good
      (fun p y hy => List.mem_cons_of_mem _ (h.onDisk p y hy)) (fun y hy => List.mem_cons_of_mem _ (h.acks y hy)) (fun pc hpc j y hy => List.mem_cons_of_mem _ (h.wr pc hpc j y hy)) (fun y hy => Or.inl hy)
  | write k i x hk hi =>
    refine h.writer rfl rfl rfl rfl rfl (fun y hy => List.mem_cons_of_mem _ hy) (fun _ _ h => h) (fun _ _ => rfl) h.good
      (fun p y hy => List.mem_cons_of_mem _ (h.onDisk p y hy)) (fun y hy => List.mem_cons_of_mem _ (h.acks y hy)) ?_ (fun y hy => Or.inl hy)
    intro pc hpc j y hy
    rcases List.mem_or_eq_of_mem_set hpc with hpc | hpc
    · exact List.mem_cons_of_mem _ (h.wr pc hpc j y hy)
    · rw [hpc] at hy; rcases hy with hy | hy <;> cases hy; exact List.mem_cons_self
  | known k i x hk hpub =>
    refine h.writer rfl rfl rfl rfl rfl (fun y hy => hy) (fun _ _ h => h) (fun _ _ => rfl) h.good h.onDisk ?_ ?_ ?_
    · intro y hy
      rcases List.mem_cons.mp hy with rfl | hy
      · exact h.wr _ (List.mem_of_getElem? hk) i y (Or.inl rfl)
      · exact h.acks y hy
    · intro pc hpc j y hy
      rcases List.mem_or_eq_of_mem_set hpc with hpc | hpc
      · exact h.wr pc hpc j y hy
      · rw [hpc] at hy; rcases hy with hy | hy <;> cases hy
    · intro y hy
      rcases List.mem_cons.mp hy with rfl | hy
      · exact Or.inr (Or.inl hpub)
      · exact Or.inl hy
  | unknown k i x hk hpub =>
    refine h.writer rfl rfl rfl rfl rfl (fun y hy => hy) (fun _ _ h => h) (fun _ _ => rfl) h.good h.onDisk h.acks ?_ (fun y hy => Or.inl hy)
    intro pc hpc j y hy
    rcases List.mem_or_eq_of_mem_set hpc with hpc | hpc
    · exact h.wr pc hpc j y hy
    · rw [hpc] at hy; rcases hy with hy | hy <;> cases hy
      exact h.wr _ (List.mem_of_getElem? hk) i x (Or.inl rfl)
  | add k i p x hk hp =>
    have hxd := h.wr _ (List.mem_of_getElem? hk) i x (Or.inr rfl)
    have hpm := List.mem_of_getElem? hp
    have hat : ∀ q y, (s.put p ((s.heap p).add x)).at q y ↔ (q = p ∧ y = x) ∨ s.at q y := by
      intro q y
      by_cases hq : q = p
      · subst hq
        simp only [NSys.at, NSys.heap_put_self, (h.good q).has_add, true_and]
      · rw [NSys.at_put_ne hq]; simp [hq]
    refine h.writer rfl rfl rfl rfl rfl (fun y hy => hy) (fun q y hy => (hat q y).mpr (Or.inr hy))
      (fun q hq => NSys.heap_put_ne (fun e => hq (e ▸ hpm))) ?_ ?_ ?_ ?_ ?_
    · intro q
      by_cases hq : q = p
      · subst hq
        show (NSys.heap (s.put q _) q).Good
        rw [NSys.heap_put_self]; exact (h.good q).add x
      · show (NSys.heap (s.put p _) q).Good
        rw [NSys.heap_put_ne hq]; exact h.good q
    · intro q y hy
      rcases (hat q y).mp hy with ⟨_, rfl⟩ | hy
      · exact hxd
      · exact h.onDisk q y hy
    · intro y hy
      rcases List.mem_cons.mp hy with rfl | hy
      · exact hxd
      · exact h.acks y hy
    · intro pc hpc j y hy
      rcases List.mem_or_eq_of_mem_set hpc with hpc | hpc
      · exact h.wr pc hpc j y hy
      · rw [hpc] at hy; rcases hy with hy | hy <;> cases hy
    · intro y hy
      rcases List.mem_cons.mp hy with rfl | hy
      · exact Or.inr (Or.inr ⟨p, hpm, (hat p y).mpr (Or.inl ⟨rfl, rfl⟩)⟩)
      · exact Or.inl hy
  | begin k q hq hk hn =>
    refine h.metPc hk (Or.inr (hq rfl)) (fun q' hq' => by cases hq') ⟨⟨(h.nlt q hn).1, (h.nlt q hn).2, fun _ => Or.inl hn, fun hc => by cases hc⟩, ?_⟩
    intro x hx
    rcases h.vis x hx with h1 | ⟨p, h1, h2⟩ | ⟨b, hb, q', hq1, hq2⟩
    · left; simp only [NSys.published, hn] at h1; exact h1
    · obtain ⟨j, hj⟩ := List.mem_iff_getElem?.mp h1
      exact Or.inr ⟨j, p, Nat.zero_le _, hj, h2⟩
    · have := (hq rfl).1 b hb
      cases b <;> simp [MtPc.busy, MtPc.built] at this hq1
  | beginNew k hq hk hn =>
    have hne : ∀ p ∈ s.namesW, p ≠ s.next := fun p hp e => by have := h.wlt p hp; omega
    have hat : ∀ p x, (s.put s.next .new).at p x → s.at p x := by
      intro p x hx
      by_cases hp : p = s.next
      · subst hp; simp [NSys.at, NSys.heap_put_self, SSet.new_has] at hx
      · exact (NSys.at_put_ne hp).mp hx
    refine h.metStep hk rfl rfl rfl rfl rfl (Or.inr (hq rfl)) ?_ (fun p x hx => h.onDisk p x (hat p x hx)) (fun p hp => by have := h.wlt p hp; show p < s.next + 1; omega) h.wnd
      (fun q hq' => by have hq2 : s.names = some q := hq'; rw [hn] at hq2; cases hq2) ?_ ⟨⟨?_, ?_, ?_, ?_⟩, ?_⟩
    · intro p
      by_cases hp : p = s.next
      · subst hp; show (NSys.heap (s.put s.next _) s.next).Good; rw [NSys.heap_put_self]; exact .new
      · show (NSys.heap (s.put s.next _) p).Good; rw [NSys.heap_put_ne hp]; exact h.good p
    · rintro x (h1 | ⟨p, h1, h2⟩ | ⟨q, h1, _⟩)
      · simp [NSys.published, hn] at h1
      · exact Or.inr (Or.inl ⟨p, h1, (NSys.at_put_ne (hne p h1)).mpr h2⟩)
      · cases h1
    · show s.next < s.next + 1; omega
    · intro hm; exact hne _ hm rfl
    · intro _
      refine Or.inr ⟨hn, fun x hx => ?_⟩
      have hx' : (NSys.heap (s.put s.next _) s.next).has x = true := hx
      rw [NSys.heap_put_self] at hx'; cases hx'
    · intro hc; cases hc
    · intro x hx
      rcases h.vis x hx with h1 | ⟨p, h1, h2⟩ | ⟨b, hb, q', hq1, hq2⟩
      · simp [NSys.published, hn] at h1
      · obtain ⟨j, hj⟩ := List.mem_iff_getElem?.mp h1
        exact Or.inr ⟨j, p, Nat.zero_le _, hj, (NSys.at_put_ne (hne p h1)).mpr h2⟩
      · have := (hq rfl).1 b hb
        cases b <;> simp [MtPc.busy, MtPc.built] at this hq1
  | range k i ptr p a0 c hk hp =>
    have ho := h.met k _ hk
    exact h.metPc hk (Or.inl rfl) (fun q hq => Or.inl (by cases c <;> simpa [MtPc.built] using hq)) ⟨ho.1, ho.2, hp⟩
  | skip k i ptr p a0 c hk h0 =>
    have ho := h.met k _ hk
    refine h.metPc hk (Or.inl rfl) (fun q hq => Or.inl (by cases c <;> simpa [MtPc.built] using hq)) ⟨ho.1, ?_⟩
    intro x hx
    rcases ho.2.1 x hx with h1 | ⟨j, p', h1, h2, h3⟩
    · exact Or.inl h1
    · refine Or.inr ⟨j, p', ?_, h2, h3⟩
      rcases Nat.eq_or_lt_of_le h1 with e | e
      · subst e
        rw [ho.2.2] at h2; cases h2
        have := (h.good p).len_zero h0 x
        simp [NSys.at, this] at h3
      · exact e
  | need k i ptr p a0 hk h0 =>
    have ho := h.met k _ hk
    exact h.metPc hk (Or.inl rfl) (fun q hq => by cases hq) ho
  | needLocked k i ptr p a0 hk h0 =>
    have ho := h.met k _ hk
    exact h.metPc hk (Or.inl rfl) (fun q hq => Or.inl (by simpa [MtPc.built] using hq)) ho
  | lock k i ptr p a0 hk hmu =>
    have ho := h.met k _ hk
    refine h.metStep hk rfl rfl rfl rfl rfl (Or.inl rfl) h.good h.onDisk h.wlt h.wnd h.nlt ?_ ?_
    · rintro x (h1 | h1 | ⟨q, h1, _⟩)
      · exact Or.inl h1
      · exact Or.inr (Or.inl h1)
      · cases h1
    · have ho' : (MtPc.wantW a0 i ptr false p).Ok s := ho
      exact ho'.congr rfl rfl rfl rfl rfl
  | merge k i ptr p a0 c s1 t hk ht =>
    have ho := h.met k _ hk
    obtain ⟨hloc, howes, hpi⟩ := ho
    have hpm := List.mem_of_getElem? hpi
    -- the set to merge into
    obtain ⟨e1, e2, e3, e4, e5, e6, e7, e8, hnx, htlt, htw, hoth, htgood, htdisk, htpub, htptr⟩ :
        s1.namesW = s.namesW ∧ s1.names = s.names ∧ s1.mets = s.mets ∧ s1.pops = s.pops ∧ s1.writers = s.writers ∧ s1.acked = s.acked ∧ s1.disk = s.disk ∧ s1.mu = s.mu ∧
        s.next ≤ s1.next ∧ t < s1.next ∧ t ∉ s.namesW ∧ (∀ q, q ≠ t → s1.heap q = s.heap q) ∧ (s1.heap t).Good ∧ (∀ x, s1.at t x → x ∈ s.disk) ∧
        (∀ x, s.published x = true → s1.at t x) ∧ (∀ x, s.at ptr x → s1.at t x) := by
      unfold NSys.target at ht
      cases c with
      | true =>
        rw [if_pos rfl] at ht; cases ht
        exact ⟨rfl, rfl, rfl, rfl, rfl, rfl, rfl, rfl, Nat.le_refl _, hloc.lt, hloc.notW, fun _ _ => rfl, h.good _, h.onDisk _, hloc.dirty rfl, fun _ hx => hx⟩
      | false =>
        rw [if_neg (by simp)] at ht
        have hcl := hloc.clean rfl
        cases hnm : s.names with
        | none =>
          rw [hnm] at ht; simp only at ht; cases ht
          refine ⟨rfl, hnm, rfl, rfl, rfl, rfl, rfl, rfl, Nat.le_refl _, hloc.lt, hloc.notW, fun _ _ => rfl, h.good _, h.onDisk _, ?_, fun _ hx => hx⟩
          intro x hx; simp [NSys.published, hnm] at hx
        | some q =>
          rw [hnm] at ht hcl; simp only at ht
          rcases hcl with hcl | ⟨hcl, _⟩
          · cases hcl
            split at ht
            · cases ht
              have hne : ∀ p ∈ s.namesW, p ≠ s.next := fun p hp e => by have := h.wlt p hp; omega
              have hts : NSys.heap (s.put s.next (s.heap ptr).copy) s.next = (s.heap ptr).copy := NSys.heap_put_self _ _ _
              refine ⟨rfl, hnm, rfl, rfl, rfl, rfl, rfl, rfl, Nat.le_succ _, Nat.lt_succ_self _, fun hm => hne _ hm rfl, fun q' hq' => NSys.heap_put_ne hq', ?_, ?_, ?_, ?_⟩
              · show (NSys.heap (s.put s.next _) s.next).Good; rw [hts]; exact (h.good _).copy
              · intro x hx
                have hx' : (NSys.heap (s.put s.next _) s.next).has x = true := hx
                rw [hts, (h.good _).has_copy] at hx'; exact h.onDisk _ x hx'
              · intro x hx
                show (NSys.heap (s.put s.next _) s.next).has x = true
                rw [hts, (h.good _).has_copy]; simpa [NSys.published, hnm] using hx
              · intro x hx
                show (NSys.heap (s.put s.next _) s.next).has x = true
                rw [hts, (h.good _).has_copy]; exact hx
            · cases ht
              refine ⟨rfl, hnm, rfl, rfl, rfl, rfl, rfl, rfl, Nat.le_refl _, hloc.lt, hloc.notW, fun _ _ => rfl, h.good _, h.onDisk _, ?_, fun _ hx => hx⟩
              intro x hx; simpa [NSys.published, hnm, NSys.at] using hx
          · cases hcl
    have hpt : p ≠ t := fun e => htw (e ▸ hpm)
    have hpx : s1.heap p = s.heap p := hoth p hpt
    have htn : t ≠ s1.next := by omega
    have hwn : ∀ q ∈ s.namesW, q ≠ s1.next := fun q hq e => by have := h.wlt q hq; omega
    generalize hs2 : (({ (s1.put t ((s1.heap t).merge (s1.heap p))).put s1.next .new with next := s1.next + 1, namesW := s1.namesW.set i s1.next } : NSys).setM k (.loop a0 (i + 1) t true)) = s2
    have g1 : s2.namesW = s.namesW.set i s1.next := by rw [← hs2, ← e1]; rfl
    have g2 : s2.names = s.names := by rw [← hs2, ← e2]; rfl
    have g3 : s2.next = s1.next + 1 := by rw [← hs2]; rfl
    have g4 : s2.heap t = (s1.heap t).merge (s.heap p) := by
      rw [← hs2]
      show NSys.heap ((s1.put t _).put s1.next .new) t = _
      rw [NSys.heap_put_ne htn, NSys.heap_put_self, hpx]
    have g5 : s2.heap s1.next = .new := by
      rw [← hs2]; show NSys.heap ((s1.put t _).put s1.next .new) s1.next = _; rw [NSys.heap_put_self]
    have g6 : ∀ q, q ≠ t → q ≠ s1.next → s2.heap q = s.heap q := by
      intro q h1 h2
      rw [← hs2]; show NSys.heap ((s1.put t _).put s1.next .new) q = _
      rw [NSys.heap_put_ne h2, NSys.heap_put_ne h1, hoth q h1]
    have hatt : ∀ x, s2.at t x ↔ s1.at t x ∨ s.at p x := by
      intro x; simp only [NSys.at, g4, htgood.has_merge (h.good p)]
    have hatw : ∀ q ∈ s.namesW, ∀ x, s2.at q x ↔ s.at q x := by
      intro q hq x
      simp only [NSys.at]; rw [g6 q (fun e => htw (e ▸ hq)) (hwn q hq)]
    have hpub : ∀ x, s.published x = true → s2.at t x := fun x hx => (hatt x).mpr (Or.inl (htpub x hx))
    have hpub2 : ∀ x, s2.published x = true → s2.at t x := by
      intro x hx
      simp only [NSys.published, g2] at hx
      cases hnm : s.names with
      | none => rw [hnm] at hx; cases hx
      | some q =>
        rw [hnm] at hx; simp only at hx
        by_cases hqt : q = t
        · subst hqt; exact hx
        · refine hpub x ?_
          simp only [NSys.published, hnm]
          rw [g6 q hqt (by have := (h.nlt q hnm).1; omega)] at hx; exact hx
    have hqkeep : ∀ q x, q = ptr → s.at q x → s2.at t x := fun q x e hx => (hatt x).mpr (Or.inl (htptr x (e ▸ hx)))
    refine h.metStep (s' := s2) (pc' := .loop a0 (i + 1) t true) hk (by rw [← hs2, ← e3]; rfl) (by rw [← hs2, ← e4]; rfl) (by rw [← hs2, ← e5]; rfl) (by rw [← hs2, ← e6]; rfl) (by rw [← hs2, ← e7]; rfl)
      (Or.inl rfl) ?_ ?_ ?_ ?_ ?_ ?_ ⟨⟨?_, ?_, ?_, ?_⟩, ?_⟩
    · intro q
      by_cases h1 : q = t
      · rw [h1, g4]; exact htgood.merge (h.good p)
      · by_cases h2 : q = s1.next
        · rw [h2, g5]; exact .new
        · rw [g6 q h1 h2]; exact h.good q
    · intro q x hx
      by_cases h1 : q = t
      · rw [h1, hatt] at hx
        rcases hx with hx | hx
        · exact htdisk x hx
        · exact h.onDisk p x hx
      · by_cases h2 : q = s1.next
        · simp [NSys.at, h2, g5, SSet.new_has] at hx
        · simp only [NSys.at] at hx; rw [g6 q h1 h2] at hx; exact h.onDisk q x hx
    · rw [g1, g3]
      intro q hq
      rcases List.mem_or_eq_of_mem_set hq with hq | hq
      · have := h.wlt q hq; omega
      · omega
    · rw [g1]; exact nodup_set_fresh h.wnd (fun hm => hwn _ hm rfl)
    · rw [g1, g2, g3]
      intro q hq
      obtain ⟨h1, h2⟩ := h.nlt q hq
      refine ⟨by omega, fun hm => ?_⟩
      rcases List.mem_or_eq_of_mem_set hm with hm | hm
      · exact h2 hm
      · omega
    · rintro x (h1 | ⟨q, h1, h2⟩ | ⟨q, h1, h2⟩)
      · exact Or.inr (Or.inr ⟨t, rfl, hpub x h1⟩)
      · by_cases hqp : q = p
        · subst hqp; exact Or.inr (Or.inr ⟨t, rfl, (hatt x).mpr (Or.inr h2)⟩)
        · exact Or.inr (Or.inl ⟨q, by rw [g1]; exact mem_set_ne _ h.wnd hpi h1 hqp, (hatw q h1 x).mpr h2⟩)
      · refine Or.inr (Or.inr ⟨t, rfl, hqkeep q x ?_ h2⟩)
        cases c <;> simp [MtPc.built] at h1
        exact h1.symm
    · rw [g3]; omega
    · rw [g1]
      intro hm
      rcases List.mem_or_eq_of_mem_set hm with hm | hm
      · exact htw hm
      · exact htn hm
    · intro hc; cases hc
    · intro _; exact hpub2
    · intro x hx
      rcases howes x hx with h1 | ⟨j, q, h1, h2, h3⟩
      · exact Or.inl (hqkeep ptr x rfl h1)
      · rcases Nat.eq_or_lt_of_le h1 with e | e
        · subst e
          rw [hpi] at h2; cases h2
          exact Or.inl ((hatt x).mpr (Or.inr h3))
        · exact Or.inr ⟨j, q, e, by rw [g1, List.getElem?_set_ne (by omega)]; exact h2, (hatw q (List.mem_of_getElem? h2) x).mpr h3⟩
  | finish k ptr i a0 hk hi =>
    obtain ⟨hloc, howes⟩ := h.met k _ hk
    refine h.metStep hk rfl rfl rfl rfl rfl (Or.inl rfl) h.good h.onDisk h.wlt h.wnd ?_ ?_ ⟨?_, (h.good ptr).sorted, ?_⟩
    · intro q hq; cases hq; exact ⟨hloc.lt, hloc.notW⟩
    · rintro x (h1 | h1 | ⟨q, h1, h2⟩)
      · exact Or.inl (hloc.dirty rfl x h1)
      · exact Or.inr (Or.inl h1)
      · simp [MtPc.built] at h1; subst h1; exact Or.inl h2
    · intro x hx
      rw [(h.good ptr).mem]
      rcases howes x hx with h1 | ⟨j, q, h1, h2, _⟩
      · exact h1
      · have := (List.getElem?_eq_some_iff.mp h2).1; omega
    · intro x hx
      exact h.onDisk ptr x ((h.good ptr).mem x |>.mp hx)
  | finishClean k ptr i a0 hk hi =>
    obtain ⟨hloc, howes⟩ := h.met k _ hk
    refine h.metPc hk (Or.inl rfl) (fun q hq => by cases hq) ⟨?_, (h.good ptr).sorted, ?_⟩
    · intro x hx
      rw [(h.good ptr).mem]
      rcases howes x hx with h1 | ⟨j, q, h1, h2, _⟩
      · exact h1
      · have := (List.getElem?_eq_some_iff.mp h2).1; omega
    · intro x hx
      exact h.onDisk ptr x ((h.good ptr).mem x |>.mp hx)
  | scan k hq hk =>
    refine h.popStep hk rfl rfl rfl rfl rfl rfl (Or.inr (hq rfl)) (Nat.le_refl _) h.good h.onDisk h.nlt (fun _ h => h) (fun _ _ => rfl) ?_
    intro x hx
    have hx' : s.published x = true := hx
    unfold NSys.published at hx'
    split at hx'
    · cases hx'
    · exact h.onDisk _ x hx'
  | giveUp k base hk =>
    exact h.popStep hk rfl rfl rfl rfl rfl rfl (Or.inl rfl) (Nat.le_refl _) h.good h.onDisk h.nlt (fun _ h => h) (fun _ _ => rfl) trivial
  | publish k base els hk hmu h1 h2 =>
    have hne : ∀ p ∈ s.namesW, p ≠ s.next := fun p hp e => by have := h.wlt p hp; omega
    have his := (SSet.Is.new).addAll els
    have hhas : ∀ x, (els.foldl SSet.add SSet.new).has x = true ↔ x ∈ els := by
      intro x; rw [SSet.has, his.has]; simp
    have h3 : (({ s.put s.next (els.foldl SSet.add .new) with next := s.next + 1, names := some s.next } : NSys).setP k (.done true)).Ok := by
      refine h.popStep hk rfl rfl rfl rfl rfl rfl (Or.inl rfl) (Nat.le_succ _) ?_ ?_ ?_ ?_ ?_ trivial
      · intro p
        by_cases hp : p = s.next
        · subst hp; show (NSys.heap (s.put s.next _) s.next).Good; rw [NSys.heap_put_self]; exact ⟨_, his⟩
        · show (NSys.heap (s.put s.next _) p).Good; rw [NSys.heap_put_ne hp]; exact h.good p
      · intro p x hx
        by_cases hp : p = s.next
        · subst hp
          have hx' : (NSys.heap (s.put s.next _) s.next).has x = true := hx
          rw [NSys.heap_put_self, hhas] at hx'; exact h2 x hx'
        · have hx' : (NSys.heap (s.put s.next _) p).has x = true := hx
          rw [NSys.heap_put_ne hp] at hx'; exact h.onDisk p x hx'
      · intro q hq; cases hq; exact ⟨Nat.lt_succ_self _, fun hm => hne _ hm rfl⟩
      · intro x hx
        show (NSys.heap (s.put s.next _) s.next).has x = true
        rw [NSys.heap_put_self, hhas]
        exact h1 x (h.pop k _ hk x hx)
      · intro p hp; exact NSys.heap_put_ne (hne p hp)
    refine h3.writer rfl rfl rfl rfl rfl (fun y hy => hy) (fun _ _ h => h) (fun _ _ => rfl) h3.good h3.onDisk ?_ h3.wr ?_
    · intro y hy
      rcases List.mem_append.mp hy with hy | hy
      · exact h2 y hy
      · exact h.acks y hy
    · intro y hy
      rcases List.mem_append.mp hy with hy | hy
      · refine Or.inr (Or.inl ?_)
        show (NSys.heap (s.put s.next _) s.next).has y = true
        rw [NSys.heap_put_self, hhas]; exact hy
      · exact Or.inl hy

theorem NSys.Reach.ok {workers : Nat} {disk : List Bytes} {nw nm np : Nat} {s : NSys} (h : NSys.Reach true workers disk nw nm np s) : s.Ok := by
  induction h with
  | init => exact .init ..
  | step _ hs ih => exact ih.step hs

end Rothko
