import Verif.Props.Process
import Verif.Props.KillMore
/-!
# The whole program is killed (C107)
-/
namespace Rothko

theorem DbCall.Reads.given {cfg : Cfg} {o : DbCall} (h : o.Reads cfg) : o.given = [] := by
  cases o with
  | write => exact h.elim
  | query => rfl
  | latest => rfl

theorem ProcInv.inFlight {c : ProcCfg} {K : Nat} {t : PSpec} {s : Proc} (h : ProcInv c K t s) (m : Bytes) : s.sys.inFlight m = [] ∨ s.sys.inFlight m = forMetric m s.coming := by
  unfold FsSys.inFlight
  cases hw : s.sys.atWork m with
  | none => exact Or.inl rfl
  | some x =>
    obtain ⟨o, p⟩ := x
    show o.given = [] ∨ o.given = _
    obtain ⟨i, rest, hi⟩ := atWork_some hw
    by_cases hlt : i < c.workers
    · have hl : i < s.hands.length := by rw [h.len]; exact hlt
      obtain ⟨hd, hhd⟩ : ∃ hd, s.hands[i]? = some hd := ⟨_, List.getElem?_eq_getElem hl⟩
      have hok := h.hand i hd hhd
      cases hd with
      | free =>
        have hok : s.sys.cl[i]? = some ⟨[], .out⟩ := hok
        rw [hi] at hok; cases hok
      | wrote =>
        have hok : s.sys.cl[i]? = some ⟨[], .out⟩ := hok
        rw [hi] at hok; cases hok
      | busy m' v =>
        obtain ⟨w, hok⟩ := hok
        rw [hi] at hok
        injection hok with hok
        injection hok with e1 _
        injection e1 with e1 _
        injection e1 with e1 e2
        subst e1 e2
        refine Or.inr ?_
        have hmem : (m, v) ∈ s.coming := List.mem_append_right _ (List.mem_filterMap.mpr ⟨_, List.mem_of_getElem? hhd, rfl⟩)
        have hmem : v ∈ forMetric m s.coming := List.mem_map.mpr ⟨(m, v), List.mem_filter.mpr ⟨hmem, by simp⟩, rfl⟩
        have hs := forMetric_short (m := m) h.once
        show [v] = _
        match hf : forMetric m s.coming with
        | [] => rw [hf] at hmem; cases hmem
        | [w] => rw [hf] at hmem; rw [List.mem_singleton.mp hmem]
        | _ :: _ :: _ => rw [hf] at hs; simp at hs
    · exact Or.inl (h.reader i _ (by omega) hi (m, o) List.mem_cons_self).given

theorem AfterCfg.unlimited {cfg : Cfg} {s : Store} {acc : List Val} (h : AfterCfg cfg s acc) (hm : cfg.max ≤ 0) : AfterUnlimited s acc := by
  obtain ⟨t, hs, de, hit, ops, ho, hrun⟩ := h
  refine ⟨t, hs, de, hit, ops, fun o hx => ⟨(ho o hx).1, fun l hl => ?_⟩, hrun⟩
  have hu := (ho o hx).2
  cases o with
  | write cfg' v =>
    have hu : cfg' = cfg := hu
    injection hl with hl
    rw [← hl, hu]; exact hm
  | query => cases hl
  | latest => cases hl
  | restart => cases hl

/-- A beginning of the values of records. -/
theorem prefix_records {recs : List DRec} {vs : List Val} (h : vs <+: recs.map valOf) : ∃ kept, kept <+: recs ∧ vs = kept.map valOf := by
  obtain ⟨rest, e⟩ := h
  obtain ⟨l1, l2, e1, e2, _⟩ := List.map_eq_append_iff.mp e.symm
  exact ⟨l1, ⟨l2, e1.symm⟩, e2.symm⟩

section
variable {c : ProcCfg} {K : Nat} {de : Bytes → Bool} {hit : Bytes → Nat → Bool} {ops : List POp} {s : Proc}

/-- As `C107_killed_partial`, and the records fit into a data file. -/
theorem killed_records (h : Proc.Reach c (freshFs de hit) ops s) (hok : ProcOk c K ops) (pt : Bytes → KillPoint) (hc : s.sys.CutsOk pt) (m : Bytes) :
    ∃ recs found, (RecordsOf c ops m recs ∧ ∀ r ∈ recs, needs c.pipe.cfg.size r.encode.length < c.pipe.cfg.cap) ∧ (found = recs ∨ s.dumping = true ∧ ∃ r, recs = r :: found) ∧
      (found ≠ [] → ∃ shown, shown <+: found ∧ shown ≠ [] ∧ (c.pipe.cfg.max ≤ 0 → shown = found) ∧
        ∀ (hit' : Nat → Bool) (cfg : Cfg) (bound : Int64), 0 < bound → (∀ now ∈ dumpTimes ops, now < bound) →
          (queryList cfg bound (fun _ _ => .more) { (s.sys.killed pt m).reopen with hit := hit' }).1 = (shown.map valOf, none)) := by
  have inv := procInv_reach (freshFs_after c.pipe.cfg de hit) h hok
  obtain ⟨progs, base, acc, hs⟩ := inv.sys
  obtain ⟨recs, r1, r2, r3⟩ := hs.db m
  have hrecs : RecordsOf c ops m recs ∧ ∀ r ∈ recs, needs c.pipe.cfg.size r.encode.length < c.pipe.cfg.cap := ⟨⟨r1, fun r hr => (C06_record_round_trip r (fits_small hok.geo r2 r hr)).1⟩, r2⟩
  rw [List.append_assoc] at r3
  have hlim : c.pipe.cfg.max ≤ 0 → ∀ p ∈ progs, ∀ x ∈ p, ∀ l, x.2.limit = some l → l ≤ 0 := by
    intro hm p hp x hx l hl
    have hu := (hs.ok p hp x hx).2
    cases ho : x.2 with
    | write cfg' v =>
      rw [ho] at hl hu
      have hu : cfg' = c.pipe.cfg := hu
      injection hl with hl
      rw [← hl, hu]; exact hm
    | query => rw [ho] at hl; cases hl
    | latest => rw [ho] at hl; cases hl
  obtain ⟨old, o1, o2⟩ := inv.acked r3
  by_cases hne : (ackd (s.sys.finished m)).reverse ++ acc m = []
  · rw [hne] at o1
    have o1 : old = [] := List.map_eq_nil_iff.mp o1
    exact ⟨recs, old, hrecs, o2, fun hx => absurd o1 hx⟩
  · obtain ⟨new, kept, k1, k2, k3, k4, k5⟩ := C106_acknowledged_partial hok.handles hs.reach (fun p hp x hx => (hs.ok p hp x hx).1) pt hc m (acc m) (hs.after m).history hne
    have hshow : ∀ (hit' : Nat → Bool) (cfg : Cfg) (bound : Int64), 0 < bound → (∀ now ∈ dumpTimes ops, now < bound) →
        (queryList cfg bound (fun _ _ => .more) { (s.sys.killed pt m).reopen with hit := hit' }).1 = (new ++ kept, none) := by
      intro hit' cfg bound h0 hb
      refine k1 hit' cfg bound h0 (fun w hw => hb _ (recs_end r1 w ?_))
      rw [r3]
      rcases List.mem_append.mp hw with hw | hw
      · rcases inv.inFlight m with e | e
        · rw [e] at hw; cases hw
        · rw [e] at hw; exact List.mem_append_left _ hw
      · exact List.mem_append_right _ hw
    have hall : c.pipe.cfg.max ≤ 0 → kept = (ackd (s.sys.finished m)).reverse ++ acc m := fun hm => k5 ((hs.after m).unlimited hm) (hlim hm)
    rw [← o1] at k3 hall
    obtain ⟨ks, s1, s2⟩ := prefix_records k3
    subst s2
    have hks : ks ≠ [] := fun e => k4 (by rw [e]; rfl)
    -- values determine the records here: compare lengths
    have hlen : c.pipe.cfg.max ≤ 0 → ks = old := fun hm => s1.eq_of_length (by have := congrArg List.length (hall hm); simpa using this)
    rcases k2 with rfl | e
    · exact ⟨recs, old, hrecs, o2, fun _ => ⟨ks, s1, hks, hlen, hshow⟩⟩
    · rcases inv.inFlight m with e' | e'
      · rw [e'] at e
        subst e
        exact ⟨recs, old, hrecs, o2, fun _ => ⟨ks, s1, hks, hlen, hshow⟩⟩
      · rw [e'] at e
        subst e
        have hs := forMetric_short (m := m) inv.once
        match hf : forMetric m s.coming with
        | [] =>
          rw [hf] at hshow
          exact ⟨recs, old, hrecs, o2, fun _ => ⟨ks, s1, hks, hlen, hshow⟩⟩
        | _ :: _ :: _ => rw [hf] at hs; simp at hs
        | [v] =>
          rw [hf] at hshow r3
          rw [← o1] at r3
          rcases o2 with rfl | ⟨_, r, rfl⟩
          · exact absurd (congrArg List.length r3) (by simp)
          · injection r3 with e1 _
            refine ⟨r :: old, r :: old, hrecs, Or.inl rfl, fun _ => ⟨r :: ks, ?_, by simp, fun hm => by rw [hlen hm], fun hit' cfg bound h0 hb => ?_⟩⟩
            · obtain ⟨z, hz⟩ := s1
              exact ⟨z, by rw [List.cons_append, hz]⟩
            · rw [hshow hit' cfg bound h0 hb, List.map_cons, e1]
              rfl

/-- **C107.** The program is killed at any moment, with all its goroutines at whatever they are doing (but no write where C24 and C61 say that the metric is lost). Then, of the records of a metric, the next process shows all but at most the
newest: that one may be missing only if a dump was in progress, and then it is missing as a whole. (Oldest ones may have been removed, but never all, if there is a file limit.) What had not been dumped is lost. -/
theorem C107_killed_partial (h : Proc.Reach c (freshFs de hit) ops s) (hok : ProcOk c K ops) (pt : Bytes → KillPoint) (hc : s.sys.CutsOk pt) (m : Bytes) :
    ∃ recs found, RecordsOf c ops m recs ∧ (found = recs ∨ s.dumping = true ∧ ∃ r, recs = r :: found) ∧
      (found ≠ [] → ∃ shown, shown <+: found ∧ shown ≠ [] ∧ (c.pipe.cfg.max ≤ 0 → shown = found) ∧
        ∀ (hit' : Nat → Bool) (cfg : Cfg) (bound : Int64), 0 < bound → (∀ now ∈ dumpTimes ops, now < bound) →
          (queryList cfg bound (fun _ _ => .more) { (s.sys.killed pt m).reopen with hit := hit' }).1 = (shown.map valOf, none)) := by
  obtain ⟨recs, found, ⟨a, _⟩, b⟩ := killed_records h hok pt hc m
  exact ⟨recs, found, a, b⟩

end

end Rothko
