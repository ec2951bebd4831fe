import Verif.Model.Whole
import Verif.Props.Process
import Verif.Props.NamesHeal
import Verif.Props.Params
import Verif.Props.Typed
/-!
# C110: what is observed and dumped can be found
-/
namespace Rothko

section
variable {c : ProcCfg} {K : Nat} {s s' : Proc} {l : Option POp}

/-! ## What a step does to the values on their way -/

theorem mem_coming {m : Bytes} : m ∈ s.coming.map (·.1) ↔ (s.taken m = true ∧ m ∈ (s.todo ++ s.queue).map (·.1)) ∨ ∃ (i : Nat) (v : Val), s.hands[i]? = some (.busy m v) := by
  unfold Proc.coming
  rw [List.map_append, List.mem_append]
  refine or_congr ?_ ?_
  · constructor
    · intro h
      obtain ⟨x, hx, rfl⟩ := List.mem_map.mp h
      obtain ⟨h1, h2⟩ := List.mem_filter.mp hx
      exact ⟨h2, List.mem_map.mpr ⟨x, h1, rfl⟩⟩
    · rintro ⟨h1, h2⟩
      obtain ⟨x, hx, rfl⟩ := List.mem_map.mp h2
      exact List.mem_map.mpr ⟨x, List.mem_filter.mpr ⟨hx, h1⟩, rfl⟩
  · constructor
    · intro h
      obtain ⟨x, hx, rfl⟩ := List.mem_map.mp h
      obtain ⟨a, ha, he⟩ := List.mem_filterMap.mp hx
      obtain ⟨i, hi⟩ := List.mem_iff_getElem?.mp ha
      cases a with
      | busy m v => cases he; exact ⟨i, v, hi⟩
      | free => cases he
      | wrote => cases he
    · rintro ⟨i, v, hi⟩
      exact List.mem_map.mpr ⟨(m, v), List.mem_filterMap.mpr ⟨_, List.mem_of_getElem? hi, rfl⟩, rfl⟩

/-- What a step does to the workers: nothing, or one takes a value, has written one, or answers. -/
theorem step_hands (h : s.Step c l s') (hl : l ≠ some .restart) :
    s'.hands = s.hands ∨ (∃ i m v, s.hands[i]? = some .free ∧ s'.hands = s.hands.set i (.busy m v)) ∨ (∃ i m v, s.hands[i]? = some (.busy m v) ∧ s'.hands = s.hands.set i .wrote) ∨
      ∃ i, s.hands[i]? = some .wrote ∧ s'.hands = s.hands.set i .free := by
  cases h with
  | recv i x rest h1 h2 h3 => exact .inr (.inl ⟨i, _, _, h1, rfl⟩)
  | wrote i sys e m v h1 h2 h3 => exact .inr (.inr (.inl ⟨i, m, v, h3, rfl⟩))
  | answer i h1 h2 => exact .inr (.inr (.inr ⟨i, h1, rfl⟩))
  | restart => exact absurd rfl hl
  | _ => exact .inl rfl

theorem set_self {α : Type} {l : List α} {i : Nat} {a b : α} (h : l[i]? = some a) : (l.set i b)[i]? = some b := List.getElem?_set_self (List.getElem?_eq_some_iff.mp h).1

/-- A worker that has written is made by that step only. -/
theorem step_wrote (h : s.Step c l s') (hl : l ≠ some .restart) {i : Nat} {m : Bytes} {v : Val} (h1 : s.hands[i]? = some (.busy m v)) (h2 : s'.hands[i]? = some .wrote) : s'.hands = s.hands.set i .wrote := by
  rcases step_hands h hl with e | ⟨j, m', v', g1, e⟩ | ⟨j, m', v', g1, e⟩ | ⟨j, g1, e⟩
  · rw [e, h1] at h2; cases h2
  · rw [e] at h2
    rcases hands_ne h2 with ⟨_, h⟩ | ⟨_, h⟩
    · cases h
    · rw [h1] at h; cases h
  · rw [e] at h2
    rcases hands_ne h2 with ⟨rfl, _⟩ | ⟨_, h⟩
    · exact e
    · rw [h1] at h; cases h
  · rw [e] at h2
    rcases hands_ne h2 with ⟨_, h⟩ | ⟨_, h⟩
    · cases h
    · rw [h1] at h; cases h

/-- A worker that has answered is made by that step only. -/
theorem step_answer (h : s.Step c l s') (hl : l ≠ some .restart) {i : Nat} (h1 : s.hands[i]? = some .wrote) (h2 : s'.hands[i]? = some .free) : s'.hands = s.hands.set i .free := by
  rcases step_hands h hl with e | ⟨j, m', v', g1, e⟩ | ⟨j, m', v', g1, e⟩ | ⟨j, g1, e⟩
  · rw [e, h1] at h2; cases h2
  · rw [e] at h2
    rcases hands_ne h2 with ⟨_, h⟩ | ⟨_, h⟩
    · cases h
    · rw [h1] at h; cases h
  · rw [e] at h2
    rcases hands_ne h2 with ⟨_, h⟩ | ⟨_, h⟩
    · cases h
    · rw [h1] at h; cases h
  · rw [e] at h2
    rcases hands_ne h2 with ⟨rfl, _⟩ | ⟨_, h⟩
    · exact e
    · rw [h1] at h; cases h

/-- A value on its way stays so, unless it is written. -/
theorem coming_stays (inv : ProcInv c K t s) (h : s.Step c l s') (hl : l ≠ some .restart) {m : Bytes} (hm : m ∈ s.coming.map (·.1)) :
    m ∈ s'.coming.map (·.1) ∨ ∃ (i : Nat) (v : Val), s.hands[i]? = some (.busy m v) ∧ s'.hands[i]? = some .wrote := by
  have idle : s.dumping = false → False := by
    intro hd
    rw [(inv.idle hd).2] at hm
    cases hm
  cases h with
  | add => exact .inl hm
  | dump order now taken hd => exact (idle hd).elim
  | offer x rest ht =>
    refine .inl (mem_coming.mpr ?_)
    rcases mem_coming.mp hm with ⟨h1, h2⟩ | h1
    · refine .inl ⟨h1, ?_⟩
      rw [ht] at h2
      simp only [List.cons_append, List.map_cons, List.map_append, List.mem_cons, List.mem_append, List.map_nil, List.not_mem_nil, or_false] at h2 ⊢
      rcases h2 with h2 | h2 | h2
      · exact .inr (.inr h2)
      · exact .inl h2
      · exact .inr (.inl h2)
    · exact .inr h1
  | refuse x rest ht hx =>
    refine .inl (mem_coming.mpr ?_)
    rcases mem_coming.mp hm with ⟨h1, h2⟩ | h1
    · refine .inl ⟨h1, ?_⟩
      rw [ht] at h2
      rcases List.mem_cons.mp h2 with h2 | h2
      · rw [h2, hx] at h1; cases h1
      · exact h2
    · exact .inr h1
  | drain x rest ht hx =>
    refine .inl (mem_coming.mpr ?_)
    rcases mem_coming.mp hm with ⟨h1, h2⟩ | h1
    · refine .inl ⟨h1, ?_⟩
      rw [ht, List.map_append, List.mem_append, List.map_cons, List.mem_cons] at h2
      rw [List.map_append, List.mem_append]
      rcases h2 with h2 | h2 | h2
      · exact .inl h2
      · rw [h2, hx] at h1; cases h1
      · exact .inr h2
    · exact .inr h1
  | recv i x rest h1 h2 h3 =>
    refine .inl (mem_coming.mpr ?_)
    rcases mem_coming.mp hm with ⟨g1, g2⟩ | ⟨j, v, g1⟩
    · rw [h2, List.map_append, List.mem_append, List.map_cons, List.mem_cons] at g2
      rcases g2 with g2 | g2 | g2
      · exact .inl ⟨g1, by rw [List.map_append, List.mem_append]; exact .inl g2⟩
      · refine .inr ⟨i, x.2, ?_⟩
        show (s.hands.set i _)[i]? = _
        rw [set_self h1, g2]
      · exact .inl ⟨g1, by rw [List.map_append, List.mem_append]; exact .inr g2⟩
    · refine .inr ⟨j, v, ?_⟩
      have : i ≠ j := by rintro rfl; rw [h1] at g1; cases g1
      show (s.hands.set i _)[j]? = _
      rw [List.getElem?_set_ne this]; exact g1
  | ask => exact .inl hm
  | db sys h1 h2 => exact .inl hm
  | wrote i sys e m' v' h1 h2 h3 =>
    rcases mem_coming.mp hm with g | ⟨j, v, g⟩
    · exact .inl (mem_coming.mpr (.inl g))
    · by_cases e : i = j
      · subst e
        exact .inr ⟨i, v, g, set_self h3⟩
      · refine .inl (mem_coming.mpr (.inr ⟨j, v, ?_⟩))
        show (s.hands.set i _)[j]? = _
        rw [List.getElem?_set_ne e]; exact g
  | answer i h1 h2 =>
    refine .inl (mem_coming.mpr ?_)
    rcases mem_coming.mp hm with g | ⟨j, v, g⟩
    · exact .inl g
    · refine .inr ⟨j, v, ?_⟩
      have : i ≠ j := by rintro rfl; rw [h1] at g; cases g
      show (s.hands.set i _)[j]? = _
      rw [List.getElem?_set_ne this]; exact g
  | wait => exact .inl hm
  | restart => exact absurd rfl hl


/-- What is on its way is to be kept. -/
theorem coming_kept {t : PSpec} (inv : ProcInv c K t s) {m : Bytes} (hm : m ∈ s.coming.map (·.1)) : t.kept m ≠ [] := by
  obtain ⟨progs, base, acc, hs⟩ := inv.sys
  obtain ⟨recs, r1, _, r3⟩ := hs.db m
  obtain ⟨x, hx, rfl⟩ := List.mem_map.mp hm
  have : x.2 ∈ recs.map valOf := by
    rw [r3]
    refine List.mem_append_left _ (List.mem_append_left _ ?_)
    exact List.mem_map.mpr ⟨x, List.mem_filter.mpr ⟨hx, by simp⟩, rfl⟩
  intro e
  rw [e] at r1
  cases r1
  cases this

theorem kept_stays (t : PSpec) (op : POp) {m : Bytes} (h : t.kept m ≠ []) : (t.step op).kept m ≠ [] := by
  cases op with
  | dump order now taken =>
    show (match t.w.start with | none => _ | some t' => _ : List Batch) ≠ []
    split
    · exact h
    · split
      · exact List.cons_ne_nil _ _
      · exact h
  | _ => exact h

/-- What a dump adds is on its way. -/
theorem dump_kept {t : PSpec} (inv : ProcInv c K t s) {order : List (Bytes × Agg) → List (Bytes × Agg)} {now : Int64} {taken : Bytes → Bool}
    (hop : (POp.dump order now taken).Fair K) {m : Bytes} (h : (t.step (.dump order now taken)).kept m ≠ []) (h0 : t.kept m = []) :
    m ∈ (Proc.coming { s with w := (WOp.capture order now).run c.pipe.d s.w, todo := capturedVals c.pipe.d s.w order now, taken, dumping := true }).map (·.1) := by
  have h : (match t.w.start with | none => t.kept m | some t' => if taken m && (t.w.pend.map (·.1)).contains m then ⟨t', now, t.w.pend⟩ :: t.kept m else t.kept m : List Batch) ≠ [] := h
  rw [mem_coming]
  cases hpg : s.w.page with
  | none =>
    rw [inv.w.isNone.mp hpg] at h
    exact (h h0).elim
  | some p =>
    obtain ⟨hst, hok⟩ := inv.w.page p hpg
    obtain ⟨_, hgr⟩ := hok.group c.pipe.d now order (hop _)
    have he : capturedVals c.pipe.d s.w order now = (captureLoop c.pipe.d now (order p.m)).1.map (fun c => (c.metric, valOf c.rec_)) := by
      unfold capturedVals
      rw [hpg]
    rw [hst] at h
    dsimp only at h
    split at h
    case isFalse => exact (h h0).elim
    case isTrue hc =>
      rw [Bool.and_eq_true] at hc
      have hmem : m ∈ t.w.pend.map (·.1) := by simpa using hc.2
      obtain ⟨x, hx, hxm⟩ := List.mem_map.mp ((hgr.metrics m).mpr hmem)
      refine .inl ⟨hc.1, ?_⟩
      show m ∈ List.map (·.1) (capturedVals c.pipe.d s.w order now ++ s.queue)
      rw [List.map_append, List.mem_append, he]
      refine .inl (List.mem_map.mpr ⟨(x.metric, valOf x.rec_), List.mem_map.mpr ⟨x, hx, rfl⟩, hxm⟩)

end

/-! ## The process and its names -/

/-- The names of the metrics with something kept are on disk, listed, or about to be. -/
structure WholeInv (c : ProcCfg) (kept : Bytes → List Batch) (w : Whole) : Prop where
  names : ∃ nw nm np, NSys.Reach true c.workers w.base nw nm np w.n
  len : w.n.namesW.length = c.workers
  only : ∀ x ∈ w.n.disk, kept x ≠ []
  sub : ∀ x ∈ w.base, x ∈ w.n.disk
  scan : ∀ (j : Nat) (b : List Bytes), w.n.pops[j]? = some (.scan b) → ∀ x ∈ w.base, x ∈ b
  found : ∀ j : Nat, w.n.pops[j]? = some (.done true) → ∀ x ∈ w.base, x ∈ w.n.acked
  all : ∀ m, kept m ≠ [] → m ∈ w.base ∨ m ∈ w.p.coming.map (·.1) ∨ m ∈ w.n.acked ∨
    ∃ i k : Nat, w.p.hands[i]? = some .wrote ∧ w.slot i = some k ∧ (w.n.writers[k]? = some (.wrote i m) ∨ w.n.writers[k]? = some (.adding i m))

theorem step_len {s s' : NSys} {excl : Bool} (h : s.Step excl s') : s'.namesW.length = s.namesW.length := by
  cases h with
  | merge k i ptr p a0 copied s1 t hk ht =>
    show (s1.namesW.set i s1.next).length = _
    rw [List.length_set]
    unfold NSys.target at ht
    split at ht
    · cases ht; rfl
    · split at ht
      · split at ht <;> (cases ht; rfl)
      · cases ht; rfl
  | _ => rfl

/-- What a step does to the writers. -/
theorem step_writers {s s' : NSys} {excl : Bool} (h : s.Step excl s') (hd : s'.disk = s.disk) {k i : Nat} {m : Bytes} (hk : s.writers[k]? = some (.wrote i m) ∨ s.writers[k]? = some (.adding i m)) :
    (s'.writers[k]? = some (.wrote i m) ∨ s'.writers[k]? = some (.adding i m)) ∨ m ∈ s'.acked := by
  have ne : ∀ (l : List NwPc) (j : Nat) (x : NwPc), j ≠ k → (l[k]? = some (.wrote i m) ∨ l[k]? = some (.adding i m)) → ((l.set j x)[k]? = some (.wrote i m) ∨ (l.set j x)[k]? = some (.adding i m)) := by
    intro l j x hj h
    rw [List.getElem?_set_ne hj]; exact h
  cases h with
  | create x => exact absurd (congrArg List.length hd) (by simp)
  | write j i' x h1 h2 => exact absurd (congrArg List.length hd) (by simp [NSys.setW])
  | known j i' x h1 h2 =>
    by_cases e : j = k
    · subst e
      refine .inr ?_
      rcases hk with hk | hk <;> rw [h1] at hk <;> cases hk
      exact List.mem_cons_self
    · exact .inl (ne _ _ _ e hk)
  | unknown j i' x h1 h2 =>
    by_cases e : j = k
    · subst e
      rcases hk with hk | hk <;> rw [h1] at hk <;> cases hk
      exact .inl (.inr (set_self h1))
    · exact .inl (ne _ _ _ e hk)
  | add j i' p x h1 h2 =>
    by_cases e : j = k
    · subst e
      refine .inr ?_
      rcases hk with hk | hk <;> rw [h1] at hk <;> cases hk
      exact List.mem_cons_self
    · exact .inl (ne _ _ _ e hk)
  | merge j i' ptr p a0 copied s1 t h1 ht =>
    have : s1.writers = s.writers := by
      unfold NSys.target at ht
      split at ht
      · cases ht; rfl
      · split at ht
        · split at ht <;> (cases ht; rfl)
        · cases ht; rfl
    refine .inl ?_
    show (s1.writers[k]? = _ ∨ s1.writers[k]? = _)
    rw [this]; exact hk
  | _ => exact .inl hk

/-- What a step does to the scans: a new one covers what is on disk, and one that ends acknowledges what it has covered. -/
theorem step_pops {s s' : NSys} {excl : Bool} (h : s.Step excl s') {j : Nat} {pc : PpPc} (hj : s'.pops[j]? = some pc) :
    s.pops[j]? = some pc ∨ pc = .scan s.disk ∨ pc = .done false ∨ pc = .done true ∧ ∃ b, s.pops[j]? = some (.scan b) ∧ ∀ x ∈ b, x ∈ s'.acked := by
  cases h with
  | scan k hq hk =>
    rcases setGet hk hj with ⟨rfl, rfl⟩ | ⟨_, h⟩
    · exact .inr (.inl rfl)
    · exact .inl h
  | giveUp k base hk =>
    rcases setGet hk hj with ⟨rfl, rfl⟩ | ⟨_, h⟩
    · exact .inr (.inr (.inl rfl))
    · exact .inl h
  | publish k base els hk hmu h1 h2 =>
    rcases setGet hk hj with ⟨rfl, rfl⟩ | ⟨_, h⟩
    · refine .inr (.inr (.inr ⟨rfl, base, hk, fun x hx => ?_⟩))
      exact List.mem_append_left _ (h1 x hx)
    · exact .inl h
  | merge k i ptr p a0 copied s1 t h1 ht =>
    have : s1.pops = s.pops := by
      unfold NSys.target at ht
      split at ht
      · cases ht; rfl
      · split at ht
        · split at ht <;> (cases ht; rfl)
        · cases ht; rfl
    have hj : s1.pops[j]? = some pc := hj
    rw [this] at hj
    exact .inl hj
  | _ => exact .inl hj

section
variable {c : ProcCfg} {K : Nat} {de : Bytes → Bool} {hit : Bytes → Nat → Bool} {nw nm np : Nat} {ops : List POp} {w w' : Whole} {l : Option POp}

theorem WholeInv.init (c : ProcCfg) (fs : Bytes → Store) (nw nm np : Nat) : WholeInv c (fun _ => []) (Whole.init c fs nw nm np) := by
  refine ⟨⟨nw, nm, np, .init⟩, List.length_range, ?_, ?_, ?_, ?_, fun m h => (h rfl).elim⟩
  · intro x hx; cases hx
  · intro x hx; cases hx
  · intro _ _ _ x hx; cases hx
  · intro _ _ x hx; cases hx

theorem whole_reach (h : Whole.Goes c true (Whole.init c (freshFs de hit) nw nm np) ops w) : Proc.Reach c (freshFs de hit) ops w.p := by
  induction h with
  | here => exact .start
  | @step ops w w' l hg hst ih =>
    cases hst with
    | run l p' h1 h2 h3 => exact ih.step h1
    | create i m v h1 => simpa using ih
    | wrote i k m v p' h1 h2 h3 h4 h5 => exact ih.step h1
    | wroteNot i m v p' h1 h2 h3 h4 => exact ih.step h1
    | names n' h1 h2 => simpa using ih
    | answer i p' h1 h2 h3 h4 => exact ih.step h1
    | restart p' nw nm np h1 => exact ih.step h1

/-- A write that was not acknowledged does not happen here. -/
theorem lastOk_of {t : PSpec} {s s' : Proc} (inv : ProcInv c K t s) (hok : ProcOk c K ops) (h : s.Step c none s') {i : Nat} {m : Bytes} {v : Val} (h1 : s.hands[i]? = some (.busy m v)) (h2 : s'.hands[i]? = some .wrote) :
    s.lastOk s' := by
  have ne : ∀ {j : Nat} {a : Hand}, s.hands.set j a = s.hands.set i .wrote → (s.hands.set j a)[i]? = some .wrote := fun e => by rw [e]; exact set_self h1
  cases h with
  | wrote j sys e m' v' g1 g2 g3 =>
    have := (inv.wrote hok.handles hok.geo g1 g2 g3).2
    exact ⟨j, m', _, v', by rw [← this]; exact g2⟩
  | recv j x rest g1 g2 g3 =>
    rcases hands_ne h2 with ⟨_, h⟩ | ⟨_, h⟩
    · cases h
    · rw [h1] at h; cases h
  | answer j g1 g2 =>
    rcases hands_ne h2 with ⟨_, h⟩ | ⟨_, h⟩
    · cases h
    · rw [h1] at h; cases h
  | _ =>
    have h2 : s.hands[i]? = some Hand.wrote := h2
    rw [h1] at h2; cases h2

theorem whole_inv (h : Whole.Goes c true (Whole.init c (freshFs de hit) nw nm np) ops w) (hok : ProcOk c K ops) : WholeInv c (ops.foldl PSpec.step {}).kept w := by
  induction h with
  | here => exact WholeInv.init _ _ _ _ _
  | @step ops w w' l hg hst ih =>
    have hin := ih hok.left
    have hr := whole_reach hg
    have inv := procInv_reach (freshFs_after c.pipe.cfg de hit) hr hok.left
    have safe : ∀ x ∈ w.n.acked, x ∈ w.n.disk := by
      obtain ⟨nw, nm, np, hn⟩ := hin.names
      exact hn.ok.acks
    cases hst with
    | run l p' h1 h2 h3 =>
      have hkept : ∀ m, (ops.foldl PSpec.step {}).kept m ≠ [] → ((ops ++ l.toList).foldl PSpec.step {}).kept m ≠ [] := by
        intro m hm
        rw [List.foldl_append]
        cases l with
        | none => exact hm
        | some op => exact kept_stays _ _ hm
      refine ⟨hin.names, hin.len, fun x hx => hkept x (hin.only x hx), hin.sub, hin.scan, hin.found, ?_⟩
      intro m hm
      by_cases hm0 : (ops.foldl PSpec.step {}).kept m = []
      · -- it is new
        cases h1 with
        | dump order now taken hd =>
          rw [List.foldl_append] at hm
          exact .inr (.inl (dump_kept inv (hok.fair _ (by simp)) hm hm0))
        | restart => exact (h2 rfl).elim
        | _ =>
          rw [List.foldl_append] at hm
          exact absurd hm0 hm
      · rcases hin.all m hm0 with g | g | g | ⟨i, k, g1, g2⟩
        · exact .inl g
        · rcases coming_stays inv h1 h2 g with g | ⟨i, v, g1, g2⟩
          · exact .inr (.inl g)
          · rw [(h3 i).mpr g2] at g1; cases g1
        · exact .inr (.inr (.inl g))
        · exact .inr (.inr (.inr ⟨i, k, (h3 i).mp g1, g2⟩))
    | create i m v h1 =>
      have hk : (ops.foldl PSpec.step {}).kept m ≠ [] := coming_kept inv (mem_coming.mpr (.inr ⟨i, v, h1⟩))
      obtain ⟨nw, nm, np, hn⟩ := hin.names
      simp only [Option.toList_none, List.append_nil]
      refine ⟨⟨nw, nm, np, hn.step (.create m)⟩, hin.len, ?_, fun x hx => List.mem_cons_of_mem _ (hin.sub x hx), hin.scan, hin.found, hin.all⟩
      intro x hx
      rcases List.mem_cons.mp hx with rfl | hx
      · exact hk
      · exact hin.only x hx
    | wrote i k m v p' h1 h2 h3 h4 h5 =>
      have hk : (ops.foldl PSpec.step {}).kept m ≠ [] := coming_kept inv (mem_coming.mpr (.inr ⟨i, v, h2⟩))
      obtain ⟨nw, nm, np, hn⟩ := hin.names
      simp only [Option.toList_none, List.append_nil]
      refine ⟨⟨nw, nm, np, hn.step (.write k i m h5 (by rw [hin.len]; exact hand_lt inv h2))⟩, hin.len, ?_, fun x hx => List.mem_cons_of_mem _ (hin.sub x hx), hin.scan, hin.found, ?_⟩
      · intro x hx
        rcases List.mem_cons.mp hx with rfl | hx
        · exact hk
        · exact hin.only x hx
      · intro x hx
        have hh := step_wrote h1 (by simp) h2 h3
        rcases hin.all x hx with g | g | g | ⟨i', k', g1, g2, g3⟩
        · exact .inl g
        · rcases coming_stays inv h1 (by simp) g with g | ⟨j, v', g1, g2⟩
          · exact .inr (.inl g)
          · have : j = i := by
              rw [hh] at g2
              rcases hands_ne g2 with ⟨e, _⟩ | ⟨_, g2⟩
              · exact e
              · rw [g1] at g2; cases g2
            subst this
            rw [h2] at g1
            cases g1
            refine .inr (.inr (.inr ⟨j, k, h3, by simp, .inl ?_⟩))
            show (w.n.writers.set k _)[k]? = _
            exact set_self h5
        · exact .inr (.inr (.inl g))
        · have hne : i' ≠ i := by rintro rfl; rw [h2] at g1; cases g1
          have hnk : k ≠ k' := by
            rintro rfl
            rcases g3 with g3 | g3 <;> rw [h5] at g3 <;> cases g3
          refine .inr (.inr (.inr ⟨i', k', ?_, ?_, ?_⟩))
          · rw [hh, List.getElem?_set_ne (Ne.symm hne)]; exact g1
          · show (if i' = i then some k else w.slot i') = some k'
            rw [if_neg hne]; exact g2
          · show (w.n.writers.set k _)[k']? = _ ∨ (w.n.writers.set k _)[k']? = _
            rw [List.getElem?_set_ne hnk]; exact g3
    | wroteNot i m v p' h1 h2 h3 h4 => exact (h4 (lastOk_of inv hok h1 h2 h3)).elim
    | names n' h1 h2 =>
      obtain ⟨nw, nm, np, hn⟩ := hin.names
      obtain ⟨hs, _⟩ := h1.suffix
      simp only [Option.toList_none, List.append_nil]
      refine ⟨⟨nw, nm, np, hn.step h1⟩, (step_len h1).trans hin.len, ?_, ?_, ?_, ?_, ?_⟩
      · intro x hx
        have hx : x ∈ n'.disk := hx
        rw [h2] at hx
        exact hin.only x hx
      · intro x hx
        show x ∈ n'.disk
        rw [h2]; exact hin.sub x hx
      · intro j b hj x hx
        rcases step_pops h1 hj with g | g | g | ⟨g, _⟩
        · exact hin.scan j b g x hx
        · cases g; exact hin.sub x hx
        · cases g
        · cases g
      · intro j hj x hx
        rcases step_pops h1 hj with g | g | g | ⟨_, b, g1, g2⟩
        · exact hs.subset (hin.found j g x hx)
        · cases g
        · cases g
        · exact g2 x (hin.scan j b g1 x hx)
      · intro m hm
        rcases hin.all m hm with g | g | g | ⟨i, k, g1, g2, g3⟩
        · exact .inl g
        · exact .inr (.inl g)
        · exact .inr (.inr (.inl (hs.subset g)))
        · rcases step_writers h1 h2 g3 with g3 | g3
          · exact .inr (.inr (.inr ⟨i, k, g1, g2, g3⟩))
          · exact .inr (.inr (.inl g3))
    | answer i p' h1 h2 h3 h4 =>
      have hh := step_answer h1 (by simp) h2 h3
      simp only [Option.toList_none, List.append_nil]
      refine ⟨hin.names, hin.len, hin.only, hin.sub, hin.scan, hin.found, ?_⟩
      intro m hm
      rcases hin.all m hm with g | g | g | ⟨j, k, g1, g2, g3⟩
      · exact .inl g
      · rcases coming_stays inv h1 (by simp) g with g | ⟨j, v, g1, g2⟩
        · exact .inr (.inl g)
        · rw [hh] at g2
          rcases hands_ne g2 with ⟨_, h⟩ | ⟨_, h⟩
          · cases h
          · rw [g1] at h; cases h
      · exact .inr (.inr (.inl g))
      · have hne : j ≠ i := by
          rintro rfl
          obtain ⟨m', e⟩ := h4 k g2
          rcases g3 with g3 | g3 <;> rw [e] at g3 <;> cases g3
        refine .inr (.inr (.inr ⟨j, k, ?_, g2, g3⟩))
        rw [hh, List.getElem?_set_ne (Ne.symm hne)]; exact g1
    | restart p' nw nm np h1 =>
      have hd : w.p.dumping = false := by cases h1; assumption
      have hc := (inv.idle hd).2
      have hfree : ∀ i : Nat, w.p.hands[i]? ≠ some .wrote := by
        intro i hi
        have h0 := (inv.rest hd).2
        have h2 := inv.wg
        have : w.p.hands.countP Hand.owes = 0 := by omega
        exact List.countP_eq_zero.mp this _ (List.mem_of_getElem? hi) rfl
      have hkeep : ((ops ++ (some POp.restart).toList).foldl PSpec.step {}).kept = (ops.foldl PSpec.step {}).kept := by
        rw [List.foldl_append]; rfl
      rw [hkeep]
      refine ⟨⟨nw, nm, np, .init⟩, List.length_range, hin.only, fun x hx => hx, ?_, ?_, ?_⟩
      · intro j b hj
        have := List.eq_of_mem_replicate (List.mem_of_getElem? hj)
        cases this
      · intro j hj
        have := List.eq_of_mem_replicate (List.mem_of_getElem? hj)
        cases this
      · intro m hm
        refine .inl ?_
        rcases hin.all m hm with g | g | g | ⟨i, k, g1, _⟩
        · exact hin.sub m g
        · rw [hc] at g; cases g
        · exact safe m g
        · exact (hfree i g1).elim

/-! ## C110 -/

theorem Whole.Goes.trans {w0 : Whole} {more : List POp} (h1 : Whole.Goes c true w0 ops w) (h2 : Whole.Goes c true w more w') : Whole.Goes c true w0 (ops ++ more) w' := by
  induction h2 with
  | here => simpa using h1
  | step _ hs ih => rw [← List.append_assoc]; exact ih.step hs

/-- The names since then, within one process. -/
theorem whole_from {more : List POp} {w0 : Whole} (hlen : w0.n.namesW.length = c.workers) (h : Whole.Goes c true w0 more w) (hl : ∀ (w1 : Whole) (more1 : List POp), Whole.Goes c true w0 more1 w1 → w1.p.hands.length = c.workers)
    (hr : POp.restart ∉ more) : NSys.From w0.n w.n ∧ w.base = w0.base := by
  induction h with
  | here => exact ⟨.here, rfl⟩
  | @step more w w' l hg hst ih =>
    have hlw : w.n.namesW.length = c.workers := by
      have h1 := (ih (fun h => hr (List.mem_append_left _ h))).1
      clear ih hst
      generalize w.n = n at h1 ⊢
      induction h1 with
      | here => exact hlen
      | step _ hs ih => exact (step_len hs).trans ih
    obtain ⟨h1, h2⟩ := ih (fun h => hr (List.mem_append_left _ h))
    cases hst with
    | run l p' g1 g2 g3 => exact ⟨h1, h2⟩
    | create i m v g1 => exact ⟨h1.step (.create m), h2⟩
    | wrote i k m v p' g1 g2 g3 g4 g5 =>
      refine ⟨h1.step (.write k i m g5 ?_), h2⟩
      rw [hlw, ← hl w more hg]
      exact (List.getElem?_eq_some_iff.mp g2).1
    | wroteNot i m v p' g1 g2 g3 g4 => exact ⟨h1, h2⟩
    | names n' g1 g2 => exact ⟨h1.step g1, h2⟩
    | answer i p' g1 g2 g3 g4 => exact ⟨h1, h2⟩
    | restart p' nw nm np g1 => exact absurd (List.mem_append_right _ (by simp)) hr

theorem reach_hands {fs : Bytes → Store} {s : Proc} (h : Proc.Reach c fs ops s) : s.hands.length = c.workers := by
  induction h with
  | start => exact List.length_replicate
  | step _ hs ih => cases hs with
    | restart => exact List.length_replicate
    | recv => exact List.length_set.trans ih
    | wrote => exact List.length_set.trans ih
    | answer => exact List.length_set.trans ih
    | _ => exact ih

/-- A call of `Metrics` that begins after `w1` and has returned before `w` in the same process. -/
theorem whole_listed {w1 : Whole} {more : List POp} (h1 : Whole.Goes c true (Whole.init c (freshFs de hit) nw nm np) ops w1) (hok : ProcOk c K (ops ++ more)) (hidle : w1.p.dumping = false)
    (hall : POp.restart ∉ ops ∨ ∃ j : Nat, w1.n.pops[j]? = some (.done true)) {k : Nat} (hk : w1.n.mets[k]? = some .start) (h2 : Whole.Goes c true w1 more w) (hr : POp.restart ∉ more)
    {a0 out : List Bytes} (hd : w.n.mets[k]? = some (.done a0 out)) :
    (∃ nw nm np, NSys.Reach true c.workers w.base nw nm np w.n) ∧ (∀ m, (ops.foldl PSpec.step {}).kept m ≠ [] → m ∈ a0) ∧ ∀ m ∈ w.n.disk, ((ops ++ more).foldl PSpec.step {}).kept m ≠ [] := by
  have hin1 := whole_inv h1 hok.left
  have hin := whole_inv (h1.trans h2) hok
  have inv1 := procInv_reach (freshFs_after c.pipe.cfg de hit) (whole_reach h1) hok.left
  obtain ⟨hf, _⟩ := whole_from hin1.len h2 (fun w2 more2 hg => reach_hands (whole_reach (h1.trans hg))) hr
  refine ⟨hin.names, ?_, hin.only⟩
  intro m hm
  refine ((hf.owed hk).2 _ a0 hd rfl).subset ?_
  have hbase : ∀ x ∈ w1.base, x ∈ w1.n.acked := by
    rcases hall with h | ⟨j, hj⟩
    · have hin0 := WholeInv.init c (freshFs de hit) nw nm np
      obtain ⟨_, hb⟩ := whole_from hin0.len h1 (fun w2 more2 hg => reach_hands (whole_reach hg)) h
      rw [hb]
      intro x hx; cases hx
    · exact hin1.found j hj
  rcases hin1.all m hm with g | g | g | ⟨i, k, g1, _⟩
  · exact hbase m g
  · rw [(inv1.idle hidle).2] at g; cases g
  · exact g
  · have h0 := (inv1.rest hidle).2
    have h2 := inv1.wg
    have : w1.p.hands.countP Hand.owes = 0 := by omega
    exact absurd rfl (List.countP_eq_zero.mp this _ (List.mem_of_getElem? g1))

/-- **C110** (listed). In any schedule of observations, dumps, writes, requests, restarts, scans of the database and `Metrics` calls where scans and `Metrics` calls do not overlap each other: when a call of `Metrics` begins while no dump is
under way, in the first process or once a scan of the database has been completed in the present one, it lists every metric for which a dump has kept anything so far, in this process or an earlier one; the list is sorted and without
repetition, and has only metrics for which something is kept. -/
theorem C110_listed {w1 : Whole} {more : List POp} (h1 : Whole.Goes c true (Whole.init c (freshFs de hit) nw nm np) ops w1) (hok : ProcOk c K (ops ++ more)) (hidle : w1.p.dumping = false)
    (hall : POp.restart ∉ ops ∨ ∃ j : Nat, w1.n.pops[j]? = some (.done true)) {k : Nat} (hk : w1.n.mets[k]? = some .start) (h2 : Whole.Goes c true w1 more w) (hr : POp.restart ∉ more)
    {a0 out : List Bytes} (hd : w.n.mets[k]? = some (.done a0 out)) :
    Sorted out ∧ (∀ m, (ops.foldl PSpec.step {}).kept m ≠ [] → m ∈ out) ∧ ∀ m ∈ out, ((ops ++ more).foldl PSpec.step {}).kept m ≠ [] := by
  obtain ⟨⟨nw', nm', np', hn⟩, ha, ho⟩ := whole_listed h1 hok hidle hall hk h2 hr hd
  obtain ⟨g1, g2, g3⟩ := C35_listed_partial hn hd
  exact ⟨g2, fun m hm => g1 m (ha m hm), fun m hm => ho m (g3 m hm)⟩

theorem kept_nodump (more : List POp) (t : PSpec) (hd : ∀ order now taken, POp.dump order now taken ∉ more) : (more.foldl PSpec.step t).kept = t.kept := by
  induction more generalizing t with
  | nil => rfl
  | cons op more ih =>
    rw [List.foldl_cons, ih _ (fun o n k h => hd o n k (List.mem_cons_of_mem _ h))]
    cases op with
    | dump order now taken => exact absurd List.mem_cons_self (hd order now taken)
    | _ => rfl

/-- **C110** (exactly). If also no dump begins before it returns, the list is exactly that of the metrics for which something is kept. -/
theorem C110_exact {w1 : Whole} {more : List POp} (h1 : Whole.Goes c true (Whole.init c (freshFs de hit) nw nm np) ops w1) (hok : ProcOk c K (ops ++ more)) (hidle : w1.p.dumping = false)
    (hall : POp.restart ∉ ops ∨ ∃ j : Nat, w1.n.pops[j]? = some (.done true)) {k : Nat} (hk : w1.n.mets[k]? = some .start) (h2 : Whole.Goes c true w1 more w) (hr : POp.restart ∉ more)
    (hno : ∀ order now taken, POp.dump order now taken ∉ more) {a0 out : List Bytes} (hd : w.n.mets[k]? = some (.done a0 out)) :
    Sorted out ∧ ∀ m, m ∈ out ↔ (ops.foldl PSpec.step {}).kept m ≠ [] := by
  obtain ⟨g1, g2, g3⟩ := C110_listed h1 hok hidle hall hk h2 hr hd
  refine ⟨g1, fun m => ⟨fun hm => ?_, g2 m⟩⟩
  have := g3 m hm
  rwa [List.foldl_append, kept_nodump more _ hno] at this

/-- **C110** (searched). The answer to a query made of such a list has every metric for which something was kept when it began and that matches the query, unless it is full of smaller names. -/
theorem C110_search {w1 : Whole} {more : List POp} (h1 : Whole.Goes c true (Whole.init c (freshFs de hit) nw nm np) ops w1) (hok : ProcOk c K (ops ++ more)) (hidle : w1.p.dumping = false)
    (hall : POp.restart ∉ ops ∨ ∃ j : Nat, w1.n.pops[j]? = some (.done true)) {k : Nat} (hk : w1.n.mets[k]? = some .start) (h2 : Whole.Goes c true w1 more w) (hr : POp.restart ∉ more)
    {a0 out : List Bytes} (hd : w.n.mets[k]? = some (.done a0 out)) (form : List (String × Bytes)) (n : Int64) (hn : Means form "results" 10 n) (hpos : 0 ≤ n.toInt) :
    ∃ ans, serveQuery form out = some ans ∧ Sorted ans ∧ (ans.length : Int) ≤ n.toInt ∧
      (∀ m ∈ ans, ((ops ++ more).foldl PSpec.step {}).kept m ≠ [] ∧ ∀ t ∈ fields (formValue form "query"), TermMatches t m) ∧
      ∀ m, (ops.foldl PSpec.step {}).kept m ≠ [] → (∀ t ∈ fields (formValue form "query"), TermMatches t m) → m ∈ ans ∨ ((ans.length : Int) = n.toInt ∧ ∀ y ∈ ans, strLt y m = true) := by
  obtain ⟨⟨nw', nm', np', hreach⟩, ha, ho⟩ := whole_listed h1 hok hidle hall hk h2 hr hd
  obtain ⟨ans, g1, g2, g3, g4, g5⟩ := C81_query_partial hreach hd form n hn hpos
  exact ⟨ans, g1, g2, g3, fun m hm => ⟨ho m (g4 m hm).1, (g4 m hm).2⟩, fun m hm ht => g5 m (ha m hm) ht⟩

/-- **C110** (what is listed can be opened). When no dump is under way and nobody is at work on a metric, something is kept for it exactly if a query of it, up to a time after the last dump, shows anything. -/
theorem C110_opens (h : Whole.Goes c true (Whole.init c (freshFs de hit) nw nm np) ops w) (hok : ProcOk c K ops) (hidle : w.p.dumping = false) (m : Bytes) (hq : w.p.sys.quiet m) (bound : Int64)
    (hb : ∀ now ∈ dumpTimes ops, now < bound) :
    ∃ t, SameFs (w.p.sys.g.fs m) t ∧ ((ops.foldl PSpec.step {}).kept m ≠ [] ↔ (queryList c.pipe.cfg bound (fun _ _ => .more) t).1.1 ≠ []) := by
  obtain ⟨recs, ⟨r1, _⟩, t, ht, _, stored, dropped, e1, e2, _, e4⟩ := C97_stored (whole_reach h) hok hidle m hq
  refine ⟨t, ht, ?_⟩
  rw [e4 bound hb]
  constructor
  · intro hk
    refine e2 (fun e => hk ?_)
    rw [e] at r1
    cases h' : (ops.foldl PSpec.step {}).kept m with
    | nil => rfl
    | cons b l => rw [h'] at r1; cases r1
  · intro hs hk
    rw [hk] at r1
    cases r1
    exact hs (List.append_eq_nil_iff.mp e1.symm).1

theorem foldl_kept (more : List POp) (t : PSpec) {m : Bytes} (h : t.kept m ≠ []) : (more.foldl PSpec.step t).kept m ≠ [] := by
  induction more generalizing t with
  | nil => exact h
  | cons op more ih => exact ih _ (kept_stays t op h)

end

/-- **C110** (what is observed is kept). After a finite observation of a metric and a dump for which the queue takes its value, with no dump and no end of the process between, something is kept for it, and stays so. -/
theorem C110_observed (before mid after : List POp) (m : Bytes) (ob : Obs) (at_ now : Int64) (order : List (Bytes × Agg) → List (Bytes × Agg)) (taken : Bytes → Bool) (hob : fFinite ob.val = true)
    (hmid : ∀ o ∈ mid, (∃ m' ob' t, o = .add m' ob' t) ∨ ∃ m' b cb, o = .query m' b cb) (ht : taken m = true) :
    ((before ++ .add m ob at_ :: mid ++ .dump order now taken :: after).foldl PSpec.step {}).kept m ≠ [] := by
  rw [List.append_assoc, List.foldl_append, List.cons_append, List.foldl_cons, List.foldl_append, List.foldl_cons]
  refine foldl_kept after _ ?_
  generalize before.foldl PSpec.step {} = t0
  have key : ∀ (mid : List POp), (∀ o ∈ mid, (∃ m' ob' t, o = .add m' ob' t) ∨ ∃ m' b cb, o = .query m' b cb) → ∀ t : PSpec, t.w.start ≠ none → m ∈ t.w.pend.map (·.1) →
      (mid.foldl PSpec.step t).w.start ≠ none ∧ m ∈ (mid.foldl PSpec.step t).w.pend.map (·.1) := by
    intro mid
    induction mid with
    | nil => exact fun _ t h1 h2 => ⟨h1, h2⟩
    | cons o mid ih =>
      intro hm t h1 h2
      refine ih (fun o ho => hm o (List.mem_cons_of_mem _ ho)) _ ?_ ?_
      all_goals
        rcases hm o List.mem_cons_self with ⟨m', ob', t', rfl⟩ | ⟨m', b, cb, rfl⟩
        · simp only [PSpec.step, WSpec.step]
          split <;> simp_all
        · assumption
  have hstart : (t0.step (.add m ob at_)).w = { t0.w with start := some (t0.w.start.getD at_), pend := t0.w.pend ++ [(m, ob)] } := by
    simp only [PSpec.step, WSpec.step]
    rw [if_pos hob]
  obtain ⟨h1, h2⟩ := key mid hmid (t0.step (.add m ob at_)) (by rw [hstart]; simp) (by rw [hstart]; simp)
  generalize mid.foldl PSpec.step (t0.step (.add m ob at_)) = t1 at h1 h2
  show (match t1.w.start with | none => t1.kept m | some t' => if taken m && (t1.w.pend.map (·.1)).contains m then ⟨t', now, t1.w.pend⟩ :: t1.kept m else t1.kept m : List Batch) ≠ []
  cases hs : t1.w.start with
  | none => exact absurd hs h1
  | some t' =>
    dsimp only
    rw [if_pos]
    · exact List.cons_ne_nil _ _
    · rw [Bool.and_eq_true]
      exact ⟨ht, by simpa using h2⟩

end Rothko
