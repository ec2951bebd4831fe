import Verif.Lemmas.Bricked
import Verif.Props.Crash
/-!
# C64, C65 and universal forms of C23, C24, C61: histories in which the process may die in any write
-/
namespace Rothko

theorem Life.inv {s : Store} {given : List Val} (h : Life s given) : DurInv false s given := by
  obtain ⟨de, hit, ops, hok, rfl, rfl⟩ := h
  have := DurInv.run (c := false) ops (s := Store.fresh de hit) (given := []) (Or.inl ⟨rfl, fun _ => rfl⟩) hok (fun hx => by cases hx)
  rwa [List.append_nil] at this

theorem LifeSmall.inv {s : Store} {given : List Val} (h : LifeSmall s given) : DurInv true s given := by
  obtain ⟨de, hit, ops, hok, hsm, rfl, rfl⟩ := h
  have := DurInv.run (c := true) ops (s := Store.fresh de hit) (given := []) (Or.inl ⟨rfl, fun _ => rfl⟩) hok (fun _ => hsm)
  rwa [List.append_nil] at this

theorem LifeSmall.life {s : Store} {given : List Val} (h : LifeSmall s given) : Life s given := by
  obtain ⟨de, hit, ops, hok, _, h1, h2⟩ := h
  exact ⟨de, hit, ops, hok, h1, h2⟩

theorem runD_append (a b : List DOp) (s : Store) : runD (a ++ b) s = runD b (runD a s) := by
  induction a generalizing s with
  | nil => rfl
  | cons o a ih => exact ih _

theorem okD_append {a b : List DOp} {s : Store} (h1 : OkD a s) (h2 : OkD b (runD a s)) : OkD (a ++ b) s := by
  induction a generalizing s with
  | nil => exact h2
  | cons o a ih => exact ⟨h1.1, ih h1.2 h2⟩

theorem givenD_append (a b : List DOp) : givenD (a ++ b) = givenD b ++ givenD a := by
  induction a with
  | nil => simp [givenD]
  | cons o a ih => simp only [List.cons_append, givenD, ih, List.append_assoc]

/-- Histories can be continued. -/
theorem Life.run {s : Store} {given : List Val} (h : Life s given) (ops : List DOp) (ho : OkD ops s) : Life (runD ops s) (givenD ops ++ given) := by
  obtain ⟨de, hit, ops0, hok, rfl, rfl⟩ := h
  exact ⟨de, hit, ops0 ++ ops, okD_append hok ho, runD_append _ _ _, givenD_append _ _⟩

private theorem durCore_of {c : Bool} {s : Store} {given : List Val} (h : DurInv c s given) (hd : s.dir ≠ []) :
    ∃ first last H U V, DurCore c s given first last H U V := by
  rcases h with ⟨h1, _⟩ | h
  · exact absurd h1 hd
  · exact h

/-- **C64 (one operation).** Take any history of writes, queries, restarts and crashes of a metric that has data. The values it shows are divided into its data files
(`files`, newest first), and each of them was given to some write. Whatever comes next — a write that completes or dies anywhere, a query, a restart — all of them are still shown, unless
a write with a positive file limit below the number of files removes exactly the oldest file; and besides them at most the value of the new write is shown. -/
theorem C64_next {s : Store} {given : List Val} (h : Life s given) (hd : s.dir ≠ []) :
    ∃ files : List (List Val), files.length = s.dir.length ∧ Shows s given files.flatten ∧ (∀ w ∈ files.flatten, w ∈ given) ∧
      ∀ o : DOp, o.Ok s → ∃ new kept, Shows (o.run s) (o.given ++ given) (new ++ kept) ∧ (new = [] ∨ new = o.given) ∧
        (kept = files.flatten ∨ (kept = files.dropLast.flatten ∧ ∃ m, o.limit = some m ∧ 0 < m ∧ m < (s.dir.length : Int))) := by
  obtain ⟨first, last, H, U, V, hc⟩ := durCore_of h.inv hd
  refine ⟨filesOf V first last, ?_, hc.shows, hc.mem, ?_⟩
  · unfold filesOf; rw [filesDown_length, hc.core.count]
  · intro o ho
    obtain ⟨_, _, _, _, _, new, kept, h', hv, hk, hn, _⟩ := hc.step o ho (fun hx => by cases hx)
    exact ⟨new, kept, hv ▸ h'.shows, hn, hk⟩

private theorem dir_ne {c : Bool} {s : Store} {given : List Val} {first last : Int} {H : Int → Handle} {U : Int → Nat} {V : Int → List Val}
    (h : DurCore c s given first last H U V) : s.dir ≠ [] := by
  have h1 := h.core.count
  have h2 := h.core.rng
  intro hx
  rw [hx, List.length_nil] at h1
  omega

private theorem dropLast_prefix {α : Type} (l : List (List α)) : l.dropLast.flatten <+: l.flatten := by
  rcases List.eq_nil_or_concat l with rfl | ⟨a, x, rfl⟩
  · exact List.prefix_refl _
  · simp only [List.concat_eq_append, List.dropLast_concat, List.flatten_append]
    exact List.prefix_append _ _

/-- The invariant form of C64 over a whole continuation. -/
private theorem keep_run (ops : List DOp) : ∀ {s : Store} {given : List Val} {first last : Int} {H : Int → Handle} {U : Int → Nat} {V : Int → List Val}
    (vs0 : List Val) (new kept : List Val), DurCore false s given first last H U V → OkD ops s →
    valuesOf V first last = new ++ kept → kept <+: vs0 →
    ∃ first' last' H' U' V' new' kept', DurCore false (runD ops s) (givenD ops ++ given) first' last' H' U' V' ∧
      valuesOf V' first' last' = new' ++ kept' ∧ (∃ a b, new' = a ++ b ∧ a.Sublist (givenD ops) ∧ b <+: new) ∧ kept' <+: vs0 ∧
      ((∀ o ∈ ops, ∀ m, o.limit = some m → m ≤ 0) → kept' = kept) := by
  induction ops with
  | nil =>
    intro s given first last H U V vs0 new kept h _ hv hp
    exact ⟨_, _, _, _, _, new, kept, h, hv, ⟨[], new, rfl, List.Sublist.slnil, List.prefix_refl _⟩, hp, fun _ => rfl⟩
  | cons o ops ih =>
    intro s given first last H U V vs0 new kept h ho hv hp
    obtain ⟨f1, l1, H1, U1, V1, n1, k1, h1, hv1, hk1, hn1, _⟩ := h.step o ho.1 (fun hx => by cases hx)
    have hall : (filesOf V first last).flatten = new ++ kept := hv
    -- what is left of the old values
    obtain ⟨b, kept1, hk1', hb, hkp, hlim⟩ : ∃ b kept1, k1 = b ++ kept1 ∧ b <+: new ∧ kept1 <+: kept ∧
        ((∀ m, o.limit = some m → m ≤ 0) → kept1 = kept) := by
      rcases hk1 with hk1 | ⟨hk1, m, hm, hm0, _⟩
      · exact ⟨new, kept, by rw [hk1, hall], List.prefix_refl _, List.prefix_refl _, fun _ => rfl⟩
      · have hpre : k1 <+: new ++ kept := by rw [hk1, ← hall]; exact dropLast_prefix _
        have hno : ∀ kept1 : List Val, (∀ m, o.limit = some m → m ≤ 0) → kept1 = kept := by
          intro k hx; have := hx m hm; omega
        rcases Nat.le_total k1.length new.length with hle | hle
        · exact ⟨k1, [], by simp, List.prefix_of_prefix_length_le hpre (List.prefix_append _ _) hle, List.nil_prefix, hno []⟩
        · obtain ⟨t, ht⟩ := hpre
          obtain ⟨x, hx⟩ := List.prefix_of_prefix_length_le (List.prefix_append new kept) ⟨t, ht⟩ hle
          refine ⟨new, x, hx.symm, List.prefix_refl _, ⟨t, ?_⟩, hno x⟩
          rw [← hx, List.append_assoc] at ht
          exact List.append_cancel_left ht
    obtain ⟨f2, l2, H2, U2, V2, n2, k2, h2, hv2, ⟨a, b2, ha, has, hb2⟩, hk2, hl2⟩ :=
      ih vs0 (n1 ++ b) kept1 h1 ho.2 (by rw [hv1, hk1', List.append_assoc]) (hkp.trans hp)
    refine ⟨f2, l2, H2, U2, V2, n2, k2, ?_, hv2, ?_, hk2, ?_⟩
    · show DurCore false (runD ops (o.run s)) (givenD ops ++ o.given ++ given) _ _ _ _ _
      rw [List.append_assoc]; exact h2
    · -- the new values
      have hn1s : n1.Sublist o.given := by
        rcases hn1 with rfl | rfl
        · exact List.nil_sublist _
        · exact List.Sublist.refl _
      rcases Nat.le_total b2.length n1.length with hle | hle
      · refine ⟨a ++ b2, [], by simp [ha], ?_, List.nil_prefix⟩
        exact List.Sublist.append has (((List.prefix_of_prefix_length_le hb2 (List.prefix_append _ _) hle).sublist).trans hn1s)
      · obtain ⟨x, hx⟩ := List.prefix_of_prefix_length_le (List.prefix_append n1 b) hb2 hle
        refine ⟨a ++ n1, x, by rw [ha, ← hx, List.append_assoc], List.Sublist.append has hn1s, ?_⟩
        obtain ⟨t, ht⟩ := hb2
        rw [← hx, List.append_assoc] at ht
        have hxb : x <+: b := ⟨t, List.append_cancel_left ht⟩
        exact hxb.trans hb
    · intro hlimits
      rw [hl2 (fun o' ho' => hlimits o' (List.mem_cons_of_mem _ ho')), hlim (hlimits o List.mem_cons_self)]

/-- **C64.** Take any history of a metric that has data, with crashes anywhere, and let `vs` be the values it shows. After any continuation — more writes, more crashes, restarts, queries — it
shows the values `new ++ kept`, newest first: `kept` is `vs` except that oldest values may have been removed because of the file limit (with no limit, exactly `vs`), and `new`
are values written in the continuation, in the order of the writes. -/
theorem C64_durable {s : Store} {given : List Val} (h : Life s given) (hd : s.dir ≠ []) (vs : List Val) (hvs : Shows s given vs) (ops : List DOp) (ho : OkD ops s) :
    ∃ new kept, Shows (runD ops s) (givenD ops ++ given) (new ++ kept) ∧ new.Sublist (givenD ops) ∧ kept <+: vs ∧
      ((∀ o ∈ ops, ∀ m, o.limit = some m → m ≤ 0) → kept = vs) := by
  obtain ⟨first, last, H, U, V, hc⟩ := durCore_of h.inv hd
  by_cases hb : ∃ bound : Int64, 0 < bound ∧ ∀ w ∈ given, w.stop < bound
  · obtain ⟨bound, h0, hb⟩ := hb
    have e1 := hvs ⟨0, 0, 0⟩ bound h0 hb
    rw [hc.shows ⟨0, 0, 0⟩ bound h0 hb] at e1
    have e1 : valuesOf V first last = vs := by injection e1
    obtain ⟨_, _, _, _, _, n, k, h2, hv2, ⟨a, b, ha, has, hbp⟩, hk2, hl2⟩ := keep_run ops vs [] vs hc ho (by rw [e1]; rfl) (List.prefix_refl _)
    have hb0 : b = [] := List.prefix_nil.mp hbp
    refine ⟨n, k, hv2 ▸ h2.shows, ?_, hk2, hl2⟩
    rw [ha, hb0, List.append_nil]; exact has
  · refine ⟨[], vs, ?_, List.nil_sublist _, List.prefix_refl _, fun _ => rfl⟩
    intro cfg bound h0 hx
    exact absurd ⟨bound, h0, fun w hw => hx w (List.mem_append_right _ hw)⟩ hb

/-- **C23, the part that holds.** As long as values fit an empty file and the writes that died were of a single chunk and had stored at least one byte, a write that is acknowledged is shown: first, directly after
it, and ever after (as far as the file limit allows), in all continuations with crashes of any kind. -/
theorem C23_acknowledged_partial {s : Store} {given : List Val} (h : LifeSmall s given) (cfg : Cfg) (v : Val) (hg : GeoOk cfg.size cfg.cap)
    (hfit : needs cfg.size v.data.length ≤ cfg.cap) (hw : (dbWrite cfg v s).1 = .written) :
    ∃ rest, Shows (dbWrite cfg v s).2 (v :: given) (v :: rest) ∧
      ∀ ops, OkD ops (dbWrite cfg v s).2 → ∃ new kept, Shows (runD ops (dbWrite cfg v s).2) (givenD ops ++ v :: given) (new ++ kept) ∧
        new.Sublist (givenD ops) ∧ kept <+: v :: rest ∧ ((∀ o ∈ ops, ∀ m, o.limit = some m → m ≤ 0) → kept = v :: rest) := by
  have hrun : (DOp.op (.write cfg v)).run s = (dbWrite cfg v s).2 := by
    show (Op.run (s, []) (.write cfg v)).1 = (dbWrite cfg v s).2
    unfold Op.run
    dsimp only
    rcases dbWrite cfg v s with ⟨r, s'⟩
    cases r <;> rfl
  have main : ∀ s0 first last H U V, DurCore true s0 given first last H U V → (DOp.op (.write cfg v)).run s0 = (DOp.op (.write cfg v)).run s →
      dbWrite cfg v s = dbWrite cfg v s0 → ∃ rest, Shows (dbWrite cfg v s).2 (v :: given) (v :: rest) ∧ (dbWrite cfg v s).2.dir ≠ [] := by
    intro s0 first last H U V hc hr he
    obtain ⟨_, _, _, _, _, new, kept, h', hv, _, _, hack⟩ := hc.step (.op (.write cfg v)) hg (fun _ => hfit)
    have hnew := hack rfl cfg v rfl (by rw [← he]; exact hw)
    rw [hr, hrun] at h'
    refine ⟨kept, ?_, dir_ne h'⟩
    have := h'.shows
    rw [hv, hnew] at this
    exact this
  have : ∃ rest, Shows (dbWrite cfg v s).2 (v :: given) (v :: rest) ∧ (dbWrite cfg v s).2.dir ≠ [] := by
    rcases h.inv with ⟨h1, h2⟩ | ⟨first, last, H, U, V, hc⟩
    · rcases DurInv.first (c := true) (given := given) h1 h2 (.op (.write cfg v)) hg with ⟨_, hx, _⟩ | hx | ⟨s0, H, e, core, _, he⟩
      · cases hx
      · cases hx
      · exact main s0 1 1 H _ _ core e.symm (he cfg v rfl)
    · exact main s _ _ _ _ _ hc rfl rfl
  obtain ⟨rest, hs, hd⟩ := this
  refine ⟨rest, hs, fun ops ho => ?_⟩
  have hl : Life (dbWrite cfg v s).2 (v :: given) := by
    have := h.life.run [.op (.write cfg v)] ⟨hg, trivial⟩
    rw [← hrun]
    exact this
  exact C64_durable hl hd _ hs ops ho

/-- **C65 is false as stated.** In any history as above: if a write of a single chunk dies after its first byte (and the half written chunk is not a record by accident), no later write of that metric is
ever acknowledged again: all fail with one and the same error, whatever is written, queried, restarted or crashed in between. -/
theorem C65_stuck_refuted {s : Store} {given : List Val} (h : LifeSmall s given) (cfg : Cfg) (v : Val) (hg : GeoOk cfg.size cfg.cap) (hl : v.data.length ≤ 55)
    (j : Nat) (hj : 1 ≤ j) (e : FErr) (r : Rec) (ht : tornSlot cfg v 0 j s = some (.error e, r)) :
    ∃ e' : FErr, ∀ (ops : List DOp) (cfg' : Cfg) (w : Val), (dbWrite cfg' w (runD ops (crashWrite cfg v 0 j s))).1 = .failed (.file e') := by
  have main : ∀ s0 first last H U V, DurCore true s0 given first last H U V → tornSlot cfg v 0 j s0 = some (.error e, r) →
      crashWrite cfg v 0 j s0 = crashWrite cfg v 0 j s →
      ∃ e' : FErr, ∀ (ops : List DOp) (cfg' : Cfg) (w : Val), (dbWrite cfg' w (runD ops (crashWrite cfg v 0 j s))).1 = .failed (.file e') := by
    intro s0 first last H U V hc ht he
    obtain ⟨e', _, _, _, _, _, hst⟩ := hc.core.crash_stuck (hc.ne rfl) cfg v hg hl j hj e r ht
    rw [he] at hst
    exact ⟨e', fun ops cfg' w => (hst.run ops).write cfg' w⟩
  rcases h.inv with ⟨h1, h2⟩ | ⟨first, last, H, U, V, hc⟩
  · obtain ⟨s0, H, e0, core⟩ := fresh_newMetricG true (Ends given) s h1 h2 cfg hg false (Or.inl rfl)
    refine main s0 1 1 H (fun _ => 0) (fun _ => []) ⟨core, fun _ i a b => by omega, fun w hw => by cases hw⟩ ?_ ?_
    · rw [← ht]; unfold tornSlot; rw [e0, core.newMetric]
    · unfold crashWrite; rw [e0, core.newMetric]
  · exact main s _ _ _ _ _ hc ht rfl

theorem bricked_all {e : FErr} {s : Store} {first last : Int} (h : Bricked e s first last) (ops : List DOp) (cfg : Cfg) :
    (∀ w, (dbWrite cfg w (runD ops s)).1 = .failed (.file e)) ∧
    (∀ bound cb, (queryList cfg bound cb (runD ops s)).1 = ([], some (.file e))) ∧ (dbQueryLatest cfg (runD ops s)).1 = (none, some (.file e)) := by
  have hb := h.run ops
  refine ⟨fun w => ?_, fun bound cb => ?_, ?_⟩
  · obtain ⟨s', e1, _⟩ := hb.write cfg w
    rw [e1]
  · obtain ⟨s', e1, _⟩ := hb.read cfg bound (fun (seen : List Val) v => (seen ++ [v], cb seen v)) []
    unfold queryList; rw [e1]
  · obtain ⟨s', e1, _⟩ := hb.read cfg 0x7fffffffffffffff (fun (_ : Option Val) v => (some v, Cb.stop)) none
    unfold dbQueryLatest; rw [e1]

/-- **C61 is false in every state.** If the process dies while the next data file of a metric is being created, then from then on every query fails without a single value and every write
fails, whatever is done. -/
theorem C61_forever_refuted {s : Store} {given : List Val} (h : Life s given) (hd : s.dir ≠ []) (idx : Int) (hi : ∀ p ∈ s.dir, p.1 < idx) (cfg : Cfg) (zeros : Bool) :
    ∃ e : FErr, ∀ (ops : List DOp) (cfg' : Cfg), (∀ w, (dbWrite cfg' w (runD ops (crashCreate cfg idx zeros s))).1 = .failed (.file e)) ∧
      (∀ bound cb, (queryList cfg' bound cb (runD ops (crashCreate cfg idx zeros s))).1 = ([], some (.file e))) ∧
      (dbQueryLatest cfg' (runD ops (crashCreate cfg idx zeros s))).1 = (none, some (.file e)) := by
  obtain ⟨first, last, H, U, V, hc⟩ := durCore_of h.inv hd
  have hr := hc.core.rng
  have hkeys : ∀ x, x ∈ s.dir.map Prod.fst ↔ first ≤ x ∧ x ≤ last := by
    intro x
    rw [mem_keys, hc.core.lookup]
    by_cases hx : first ≤ x ∧ x ≤ last
    · rw [if_pos hx]; simp [hx]
    · rw [if_neg hx]; simp [hx]
  have hlt : ∀ x ∈ s.dir.map Prod.fst, x < idx := by
    intro x hx
    obtain ⟨p, hp, rfl⟩ := List.mem_map.mp hx
    exact hi p hp
  have hlast := hlt last ((hkeys last).mpr ⟨hr.2, by omega⟩)
  have hno : s.lookup idx = none := by
    rw [hc.core.lookup, if_neg (by omega)]
  obtain ⟨e, he⟩ : ∃ e, openFile (if zeros then (zeroFile cfg.size cfg.cap).data else []) = .error e := by
    cases zeros with
    | true => exact openFile_zero _
    | false => exact openFile_zero 0
  refine ⟨e, fun ops cfg' => bricked_all (first := first) (last := idx) ?_ ops cfg'⟩
  unfold crashCreate
  have hdir : ((s.install (.error .panic, if zeros then (zeroFile cfg.size cfg.cap).data else []) idx).2.reopen).dir = (idx, s.next) :: s.dir := by
    simp [Store.install, Store.reopen, hno]
  refine ⟨hc.core.ex, ⟨hr.1, by omega⟩, ?_, ?_, rfl, s.next, ?_, ?_⟩
  · rw [hdir]; exact List.mem_cons_of_mem _ ((hkeys first).mpr ⟨by omega, hr.2⟩)
  · rw [hdir]
    intro x hx
    rcases List.mem_cons.mp hx with hx | hx
    · have hx : x = idx := hx
      omega
    · have h1 := hlt x hx
      have h2 := (hkeys x).mp hx
      omega
  · unfold Store.lookup; rw [hdir]; simp
  · rw [← he]
    simp [Store.install, Store.reopen, hno]

/-- **C24 is false in every state.** If the process dies between the payload and the header of the metadata at the end of a write, and the file cannot be opened then (`tornMeta`: the checksum of the old
header does not match the new payload), from then on every query fails without a single value and every write fails, whatever is done. -/
theorem C24_forever_refuted {s : Store} {given : List Val} (h : LifeSmall s given) (hd : s.dir ≠ []) (cfg : Cfg) (v : Val) (hg : GeoOk cfg.size cfg.cap)
    (hfit : needs cfg.size v.data.length ≤ cfg.cap) (e : FErr) (ht : tornMeta cfg v s = some (.error e)) :
    ∀ (ops : List DOp) (cfg' : Cfg), (∀ w, (dbWrite cfg' w (runD ops (crashMeta cfg v s))).1 = .failed (.file e)) ∧
      (∀ bound cb, (queryList cfg' bound cb (runD ops (crashMeta cfg v s))).1 = ([], some (.file e))) ∧
      (dbQueryLatest cfg' (runD ops (crashMeta cfg v s))).1 = (none, some (.file e)) := by
  obtain ⟨first, last, H, U, V, hc⟩ := durCore_of h.inv hd
  intro ops cfg'
  have hp := hc.core.prep hc.ne cfg v hg (fun _ => hfit)
  revert ht
  unfold tornMeta crashMeta
  rw [hc.core.newMetric]
  simp only
  generalize writePrep cfg first last v s = p at hp
  cases hp with
  | ret r held s' first' last' H' U' V' core hheld hr ne hk => intro ht; cases ht
  | out x head nr held s' first' last' H' U' V' hcf core hheld hx hk => cases hcf
  | go nr held s' first' last' H' U' V' core hheld hf ne hk =>
    intro ht
    simp only [Option.some.injEq] at ht ⊢
    have hr := core.rng
    have hkeys : ∀ x, x ∈ s'.dir.map Prod.fst ↔ first' ≤ x ∧ x ≤ last' := by
      intro x
      rw [mem_keys, core.lookup]
      by_cases hx : first' ≤ x ∧ x ≤ last'
      · rw [if_pos hx]; simp [hx]
      · rw [if_neg hx]; simp [hx]
    refine bricked_all (s := (s'.setFile (H' last') _).reopen) (first := first') (last := last') ⟨core.ex, hr, (hkeys first').mpr ⟨by omega, hr.2⟩, fun x hx => (hkeys x).mp hx, rfl,
      (H' last').ino, ?_, ?_⟩ ops cfg'
    · have := core.lookup last'
      rw [if_pos ⟨hr.2, by omega⟩] at this
      exact this
    · rw [← ht]
      simp [Store.setFile, Store.reopen]

private theorem run_fst (ops : List Op) : ∀ (s : Store) (acc : List Val), (runOps ops (s, acc)).1 = runD (ops.map .op) s := by
  induction ops with
  | nil => intro s acc; rfl
  | cons o ops ih =>
    intro s acc
    show (runOps ops (o.run (s, acc))).1 = runD (ops.map .op) (o.run (s, [])).1
    have h1 : (o.run (s, acc)).1 = (o.run (s, [])).1 := by
      cases o with
      | write cfg v =>
        unfold Op.run
        dsimp only
        rcases dbWrite cfg v s with ⟨r, s'⟩
        cases r <;> rfl
      | _ => rfl
    rw [← h1]
    exact ih (o.run (s, acc)).1 (o.run (s, acc)).2

/-- Histories without crashes are among them. -/
theorem Reach.lifeSmall {s : Store} {acc : List Val} (h : Reach s acc) : ∃ given, LifeSmall s given := by
  obtain ⟨de, hit, ops, hok, hrun⟩ := h
  refine ⟨_, de, hit, ops.map .op, ?_, ?_, ?_, rfl⟩
  · generalize Store.fresh de hit = s0
    clear hrun
    induction ops generalizing s0 with
    | nil => trivial
    | cons o ops ih =>
      refine ⟨?_, ih (fun x hx => hok x (List.mem_cons_of_mem _ hx)) _⟩
      have := hok o List.mem_cons_self
      cases o with
      | write cfg v => exact this.1
      | query cfg b cb => exact this
      | latest cfg => exact this
      | restart => trivial
  · intro o ho
    obtain ⟨o', ho', rfl⟩ := List.mem_map.mp ho
    have := hok o' ho'
    cases o' with
    | write cfg v => exact this.2
    | _ => trivial
  · rw [← run_fst ops _ [], hrun]

/-- A slot that cannot be read is not a record by accident. -/
theorem tornOk_of {cfg : Cfg} {v : Val} {k j : Nat} {s : Store}
    (h : (tornSlot cfg v k j s).map (fun p => (match p.1 with | .ok _ => true | .error _ => false)) = some false) : TornOk cfg v k j s := by
  intro r r' hx
  rw [hx] at h
  simp at h

/-- A write, a crash in the middle of a write of three chunks, and two more writes. -/
def exLife : List DOp := [.op (.write exCfg4 (exVal 10)), .crash exCfg4 (exBig 20 130) 2 30, .op (.write exCfg4 (exVal 30)), .crash exCfg4 (exVal 40) 0 10]

set_option maxRecDepth 100000 in
theorem exLife_ok : OkD exLife (Store.fresh false (fun _ => true)) :=
  ⟨exCfg4_ok, ⟨exCfg4_ok, .inr (tornOk_of (by decide +kernel))⟩, exCfg4_ok, ⟨exCfg4_ok, .inr (tornOk_of (by decide +kernel))⟩, trivial⟩

set_option maxRecDepth 100000 in
/-- Test of C64: a history with two crashes is a `Life` with data, and what it shows. -/
theorem C64_example : Life (runD exLife (Store.fresh false (fun _ => true))) [exVal 40, exVal 30, exBig 20 130, exVal 10] ∧
    (runD exLife (Store.fresh false (fun _ => true))).dir ≠ [] ∧
    (queryList exCfg4 100 (fun _ _ => .more) (runD (exLife.take 2) (Store.fresh false (fun _ => true)))).1 = ([exVal 10], none) ∧
    (queryList exCfg4 100 (fun _ _ => .more) (runD exLife (Store.fresh false (fun _ => true)))).1 = ([exVal 30, exVal 10], none) := by
  refine ⟨⟨_, _, _, exLife_ok, rfl, rfl⟩, ?_⟩
  decide +kernel

set_option maxRecDepth 100000 in
/-- Test of C23, C24, C61 and C65: the state with one value meets their hypotheses. -/
theorem C65_example : ∃ given, LifeSmall exState4 given ∧ exState4.dir ≠ [] ∧
    (∃ e r, tornSlot exCfg4 (exVal 20) 0 10 exState4 = some (.error e, r)) ∧
    tornMeta exCfg4 (exVal 20) exState4 = some (.error (.parse .crc)) ∧
    (dbWrite exCfg4 (exVal 20) exState4).1 = .written ∧ (∀ p ∈ exState4.dir, p.1 < 2) := by
  obtain ⟨de, hit, ops, h1, h2⟩ := exState4_reach
  obtain ⟨given, h⟩ := Reach.lifeSmall (s := exState4) (acc := [exVal 10]) ⟨de, hit, ops, fun o ho => (h1 o ho).1, h2⟩
  refine ⟨given, h, ?_, ?_, ?_⟩
  · decide +kernel
  · have : (tornSlot exCfg4 (exVal 20) 0 10 exState4).map (fun p => (match p.1 with | .ok _ => true | .error _ => false)) = some false := by decide +kernel
    generalize tornSlot exCfg4 (exVal 20) 0 10 exState4 = x at *
    rcases x with _ | ⟨x, r⟩
    · cases this
    · cases x with
      | ok y => simp at this
      | error e => exact ⟨e, r, rfl⟩
  · refine ⟨?_, by decide +kernel, by decide +kernel⟩
    have : (match tornMeta exCfg4 (exVal 20) exState4 with | some (.error (.parse .crc)) => true | _ => false) = true := by decide +kernel
    generalize tornMeta exCfg4 (exVal 20) exState4 = x at *
    rcases x with _ | x
    · cases this
    · rcases x with e | f
      · cases e with
        | parse p => cases p <;> first | rfl | cases this
        | _ => cases this
      · cases this

end Rothko
