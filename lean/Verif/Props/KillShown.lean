import Verif.Props.KillProc
import Verif.Props.ProcShown
import Verif.Spec.ProcDrawn
/-!
# C127: the picture after a kill
-/
namespace Rothko

/-! ## What a query does with its callback -/

/-- Reading slots hands the same values, in the same order, to any callback. -/
theorem slots_any (bound : Int64) : ∀ (slots : List (Except FErr Rec)) (buf : Option Bytes), ∃ L : List Val, ∀ (σ : Type) (cb : σ → Val → σ × Cb) (st : σ), readSlots bound cb buf slots st = visit cb L st := by
  intro slots
  induction slots with
  | nil => intro buf; exact ⟨[], fun σ cb st => by cases buf <;> rfl⟩
  | cons x rest ih =>
    intro buf
    have call : ∀ v : Val, ∃ L : List Val, ∀ (σ : Type) (cb : σ → Val → σ × Cb) (st : σ), (match cb st v with
        | (st, .more) => readSlots bound cb none rest st
        | (st, .stop) => (st, .stop)
        | (st, .err) => (st, .fail .callback)
        | (st, .cancel) => (st, .fail .cancelled)) = visit cb L st := by
      intro v
      obtain ⟨L, hL⟩ := ih none
      refine ⟨v :: L, fun σ cb st => ?_⟩
      rw [visit]
      rcases cb st v with ⟨st', c⟩
      cases c with
      | more => exact hL σ cb st'
      | stop => rfl
      | err => rfl
      | cancel => rfl
    cases buf with
    | none =>
      cases x with
      | error e =>
        obtain ⟨L, hL⟩ := ih none
        exact ⟨L, fun σ cb st => by rw [readSlots]; exact hL σ cb st⟩
      | ok r =>
        obtain ⟨L0, h0⟩ := ih none
        obtain ⟨L1, h1⟩ := ih (some r.data)
        obtain ⟨L2, h2⟩ := call ⟨r.start, r.stop, r.data⟩
        by_cases c1 : r.stop ≥ bound
        · exact ⟨L0, fun σ cb st => by rw [readSlots, if_pos c1]; exact h0 σ cb st⟩
        · by_cases c2 : r.kind = kindComplete
          · exact ⟨L2, fun σ cb st => by rw [readSlots, if_neg c1, if_pos c2]; exact h2 σ cb st⟩
          · by_cases c3 : r.kind ≠ kindBegin
            · exact ⟨L0, fun σ cb st => by rw [readSlots, if_neg c1, if_neg c2, if_pos c3]; exact h0 σ cb st⟩
            · exact ⟨L1, fun σ cb st => by rw [readSlots, if_neg c1, if_neg c2, if_neg c3]; exact h1 σ cb st⟩
    | some buf =>
      cases x with
      | error e =>
        obtain ⟨L, hL⟩ := ih none
        exact ⟨L, fun σ cb st => by rw [readSlots]; exact hL σ cb st⟩
      | ok r =>
        obtain ⟨L0, h0⟩ := ih none
        obtain ⟨L1, h1⟩ := ih (some (buf ++ r.data))
        obtain ⟨L2, h2⟩ := call ⟨r.start, r.stop, buf ++ r.data⟩
        by_cases c1 : r.kind = kindContinue
        · exact ⟨L1, fun σ cb st => by rw [readSlots, if_pos c1]; exact h1 σ cb st⟩
        · by_cases c2 : r.kind ≠ kindEnd
          · exact ⟨L0, fun σ cb st => by rw [readSlots, if_neg c1, if_pos c2]; exact h0 σ cb st⟩
          · exact ⟨L2, fun σ cb st => by rw [readSlots, if_neg c1, if_neg c2]; exact h2 σ cb st⟩

/-- A file hands the same values to any callback, and then goes on, stops or fails. -/
theorem file_any (bound : Int64) (f : File) : ∃ (L : List Val) (c0 : Ctl), ∀ (σ : Type) (cb : σ → Val → σ × Cb) (st : σ), readFile bound cb f st = match visit cb L st with
    | (st, .more) => (st, c0)
    | x => x := by
  unfold readFile
  cases f.metadata with
  | error e => exact ⟨[], _, fun σ cb st => rfl⟩
  | ok m =>
    dsimp only
    split
    · exact ⟨[], _, fun σ cb st => rfl⟩
    · cases f.headPointer with
      | error e => exact ⟨[], _, fun σ cb st => rfl⟩
      | ok head =>
        obtain ⟨L, hL⟩ := slots_any bound (f.recordsFrom (head + 1)) none
        refine ⟨L, .more, fun σ cb st => ?_⟩
        dsimp only
        rw [hL]
        rcases visit cb L st with ⟨st', c⟩
        cases c <;> rfl

/-- A query hands the same values to any callback; if the callback never stops it, it ends with the same error. -/
theorem metric_any (cfg : Cfg) (bound : Int64) : ∀ (fuel : Nat) (num : Int) (s : Store), ∃ (L : List Val) (e : Option MErr), ∀ (σ : Type) (cb : σ → Val → σ × Cb) (st : σ),
    (metricRead cfg bound cb fuel num s st).1 = ((visit cb L st).1, match (visit cb L st).2 with | .more => e | .stop => none | .fail x => some x) := by
  intro fuel
  induction fuel with
  | zero => intro num s; exact ⟨[], none, fun σ cb st => rfl⟩
  | succ fuel ih =>
    intro num s
    cases ha : s.acquire cfg num true with
    | mk r s1 => cases r with
      | error e => exact ⟨[], some e, fun σ cb st => by rw [metricRead, ha]; rfl⟩
      | ok h =>
        obtain ⟨L, c0, hL⟩ := file_any bound (s1.file h)
        obtain ⟨L', e', hL'⟩ := ih (num - 1) (s1.release num h)
        cases c0 with
        | more =>
          refine ⟨L ++ L', e', fun σ cb st => ?_⟩
          rw [metricRead, ha]
          dsimp only
          rw [hL, visit_append]
          rcases visit cb L st with ⟨st', c⟩
          cases c with
          | more => exact hL' σ cb st'
          | stop => rfl
          | fail x => rfl
        | stop =>
          refine ⟨L, none, fun σ cb st => ?_⟩
          rw [metricRead, ha]
          dsimp only
          rw [hL]
          rcases visit cb L st with ⟨st', c⟩
          cases c <;> rfl
        | fail x =>
          refine ⟨L, some x, fun σ cb st => ?_⟩
          rw [metricRead, ha]
          dsimp only
          rw [hL]
          rcases visit cb L st with ⟨st', c⟩
          cases c <;> rfl

/-- What a query shows to a callback that takes everything, it shows to any callback until that stops it. -/
theorem query_any {cfg : Cfg} {bound : Int64} {s : Store} {vs : List Val} (h : (queryList cfg bound (fun _ _ => .more) s).1 = (vs, none)) {σ : Type} (cb : σ → Val → σ × Cb) (st : σ) :
    (dbQuery cfg bound cb st s).1 = ((visit cb vs st).1, (visit cb vs st).2.error) := by
  unfold queryList dbQuery at h
  unfold dbQuery
  cases hn : newMetric cfg true s with
  | mk r s1 =>
    rw [hn] at h
    cases r with
    | error e => cases h
    | ok x =>
      obtain ⟨first, last⟩ := x
      dsimp only at h ⊢
      obtain ⟨L, e, hL⟩ := metric_any cfg bound (last - first + 1).toNat last s1
      rw [hL, visit_collect] at h
      injection h with h1 h2
      have h1 : L = vs := h1
      have h2 : e = none := h2
      rw [hL, h1, h2]
      rcases visit cb vs st with ⟨st', c⟩
      cases c <;> rfl

/-- The answer to a request for a graph is made of the values shown. -/
theorem png_same {D α P : Type} (sc : Scene D α P) {cfg cfg' : Cfg} {now : Int64} (dur : Int64) (width height padding : Int) {s t : Store} {vs : List Val} (hs : (queryList cfg now (fun _ _ => .more) s).1 = (vs, none))
    (ht : (queryList cfg' now (fun _ _ => .more) t).1 = (vs, none)) : (servePng sc cfg now dur width height padding s).1 = (servePng sc cfg' now dur width height padding t).1 := by
  unfold servePng serveRender
  dsimp only
  rw [query_any hs, query_any ht]

theorem prefix_batches {α β : Type} {R : α → β → Prop} {l l' : List α} {k : List β} (h : EachOf R l k) (hp : l' <+: l) : ∃ k', k' <+: k ∧ EachOf R l' k' ∧ (l' = l → k' = k) := by
  induction h generalizing l' with
  | nil =>
    have : l' = [] := List.prefix_nil.mp hp
    subst this
    exact ⟨[], List.prefix_refl _, .nil, fun _ => rfl⟩
  | @cons a b l k hr hl ih =>
    cases l' with
    | nil => exact ⟨[], List.nil_prefix, .nil, fun e => by cases e⟩
    | cons x l' =>
      obtain ⟨rfl, hp'⟩ := List.cons_prefix_cons.mp hp
      obtain ⟨k', h1, h2, h3⟩ := ih hp'
      exact ⟨b :: k', List.cons_prefix_cons.mpr ⟨rfl, h1⟩, .cons hr h2, fun e => by rw [h3 (List.cons.inj e).2]⟩

/-- The picture of a store that shows just these records. -/
theorem picture_of {c : ProcCfg} {e : Outside} (he : e.Ok) {n : ℕ} (h1 : 1 ≤ n) (hn : n < 2 ^ 50) {colors : List Color} (hc : 1 ≤ colors.length) (hN : colors.length ≤ 2 ^ 40) {state : List Obs → List F64} (lib : Library e c.pipe.d state)
    (hg : GeoOk c.pipe.cfg.size c.pipe.cfg.cap) {m : Bytes} {sh : List DRec} {shown : List Batch} (p2 : EachOf (Right c.pipe.d m) sh shown) (r2 : ∀ r ∈ sh, needs c.pipe.cfg.size r.encode.length < c.pipe.cfg.cap) (hsne : shown ≠ [])
    (hvsort : (sh.map valOf).Pairwise (fun a b => b.stop < a.stop)) {now dur : Int64} {width height padding : Int} (hbound : ∀ v ∈ sh.map valOf, v.stop < now) (htimes : SaneTimes width shown) (hfar : now.toInt + dur.toInt < 9223372036854775808)
    (hpad : 0 ≤ padding) (hwd : width ≤ dur.toInt) (hht : height ≤ 9007199254740992) {cfg : Cfg} {s : Store} (hs : (queryList cfg now (fun _ _ => .more) s).1 = (sh.map valOf, none)) :
    ∃ newest, shown.head? = some newest ∧ ShowsIntervals e n colors state m now dur width height padding newest shown (servePng (theScene e n colors) cfg now dur width height padding s).1 := by
  obtain ⟨t, ht⟩ := reachCfg_list { c.pipe.cfg with max := 0 } hg (sh.map valOf) hvsort (by
    intro v hv
    obtain ⟨r, hr, rfl⟩ := List.mem_map.mp hv
    exact r2 r hr)
  have hstop := (stops_before p2 now).mp hbound
  have hshne : sh.map valOf ≠ [] := fun e => hsne ((eachOf_nil p2).mp (List.map_eq_nil_iff.mp e))
  obtain ⟨newest, st, dr, z1, z2, z3, z4⟩ := shows_records he h1 hn hc hN { c.pipe with cfg := { c.pipe.cfg with max := 0 } } lib hg p2 r2 ht hsne now dur width height padding
    (fun b hb => ⟨(htimes b hb).1, (htimes b hb).2.1, (htimes b hb).2.2, hstop b hb⟩) hfar hpad hwd hht
  have z5 := z3 (Int.le_refl _)
  subst z5
  rw [List.append_nil] at z1
  subst z1
  refine ⟨newest, z2, ?_⟩
  have z4 := z4 (.inr rfl)
  have hq : (queryList { c.pipe.cfg with max := 0 } now (fun _ _ => .more) t).1 = (sh.map valOf, none) := by
    rcases ht.inv with ⟨_, _, ha⟩ | ⟨first, last, H, V, d, inv, hc⟩
    · exact absurd ha hshne
    · have q := inv.stored_query { c.pipe.cfg with max := 0 } now hbound
      have hd : d = [] := Classical.byContradiction fun hx => by have := (hc.drop hx).1; revert this; show ¬ (0 : Int) < 0; omega
      rw [q, inv.eq, hd, List.append_nil]
  rw [png_same _ dur width height padding hs hq]
  exact z4

section
variable {c : ProcCfg} {K : Nat} {de : Bytes → Bool} {hit : Bytes → Nat → Bool} {ops : List POp} {s : Proc}

/-- What a kill leaves of a metric, as a list of intervals: all of them but at most the newest, and of these those that are shown. -/
theorem killed_shown (h : Proc.Reach c (freshFs de hit) ops s) (hok : ProcOk c K ops) (pt : Bytes → KillPoint) (hcut : s.sys.CutsOk pt) (m : Bytes) :
    ∃ found : List Batch, (found = (ops.foldl PSpec.step {}).kept m ∨ s.dumping = true ∧ ∃ b, (ops.foldl PSpec.step {}).kept m = b :: found) ∧
      (found ≠ [] → ∃ (shown : List Batch) (sh : List DRec), shown <+: found ∧ shown ≠ [] ∧ (c.pipe.cfg.max ≤ 0 → shown = found) ∧ EachOf (Right c.pipe.d m) sh shown ∧ (∀ r ∈ sh, needs c.pipe.cfg.size r.encode.length < c.pipe.cfg.cap) ∧
        (sh.map valOf).Pairwise (fun a b => b.stop < a.stop) ∧ ∀ (hit' : Nat → Bool) (cfg : Cfg) (now : Int64) (width : Int), (∀ t ∈ dumpTimes ops, t < now) → SaneTimes width shown →
          (∀ v ∈ sh.map valOf, v.stop < now) ∧ (queryList cfg now (fun _ _ => .more) { (s.sys.killed pt m).reopen with hit := hit' }).1 = (sh.map valOf, none)) := by
  have inv := procInv_reach (freshFs_after c.pipe.cfg de hit) h hok
  have hsorted := inv.sorted m
  obtain ⟨recs, fd, ⟨⟨r1, _⟩, r2⟩, r3, r4⟩ := killed_records h hok pt hcut m
  have r1 : EachOf (Right c.pipe.d m) recs ((ops.foldl PSpec.step {}).kept m) := r1
  have hend := recs_end r1
  generalize (ops.foldl PSpec.step {}).kept m = kept at hsorted r1
  have hfound : ∃ found, (found = kept ∨ s.dumping = true ∧ ∃ b, kept = b :: found) ∧ EachOf (Right c.pipe.d m) fd found := by
    rcases r3 with rfl | ⟨hd, r, rfl⟩
    · exact ⟨kept, .inl rfl, r1⟩
    · cases r1 with
      | @cons _ b _ k hr hl => exact ⟨k, .inr ⟨hd, b, rfl⟩, hl⟩
  obtain ⟨found, f1, f2⟩ := hfound
  have hsub : found.Sublist kept := by
    rcases f1 with rfl | ⟨_, b, rfl⟩
    · exact List.Sublist.refl _
    · exact List.sublist_cons_self _ _
  have hfd : ∀ r ∈ fd, r ∈ recs := by
    rcases r3 with rfl | ⟨_, r, rfl⟩
    · exact fun _ h => h
    · exact fun _ h => List.mem_cons_of_mem _ h
  refine ⟨found, f1, fun hne => ?_⟩
  obtain ⟨sh, q1, q2, q3, q4⟩ := r4 (fun e => hne ((eachOf_nil f2).mp e))
  obtain ⟨shown, p1, p2, p3⟩ := prefix_batches f2 q1
  have hsne : shown ≠ [] := fun e => q2 ((eachOf_nil p2).mpr e)
  have hin : ∀ r ∈ sh, r ∈ recs := fun r hr => hfd r (q1.subset hr)
  have hvsort : (sh.map valOf).Pairwise (fun a b => b.stop < a.stop) := by
    have hs := hsorted.sublist (p1.sublist.trans hsub)
    have he : sh.map ((fun v : Val => v.stop) ∘ valOf) = shown.map (·.stop) := by
      clear hs q4 q3 q2 q1 p3 hsne hin p1
      induction p2 with
      | nil => rfl
      | cons hr _ ih =>
        rw [List.map_cons, List.map_cons, ih]
        congr 1
        exact hr.stop
    have : (shown.map (·.stop)).Pairwise (fun a b : Int64 => b < a) := List.pairwise_map.mpr hs
    rw [← he, ← List.map_map] at this
    exact List.pairwise_map.mp this
  refine ⟨shown, sh, p1, hsne, fun hm => p3 (q3 hm), p2, fun r hr => r2 r (hin r hr), hvsort, fun hit' cfg now width hnow htimes => ?_⟩
  have hbound : ∀ v ∈ sh.map valOf, v.stop < now := fun v hv => by
    obtain ⟨r, hr, rfl⟩ := List.mem_map.mp hv
    exact hnow _ (hend _ (List.mem_map_of_mem (hin r hr)))
  have hstop := (stops_before p2 now).mp hbound
  have hpos : 0 < now := by
    obtain ⟨b, hb⟩ := List.exists_mem_of_ne_nil _ hsne
    have a := Int64.lt_iff_toInt_lt.mp (hstop b hb)
    have b := (htimes b hb).2.2
    exact Int64.lt_iff_toInt_lt.mpr (by show (0 : Int) < _; omega)
  exact ⟨hbound, q4 hit' cfg now hpos hnow⟩

/-- **C127.** The program is killed at any moment, with all its goroutines at whatever they are doing (but no write where C24 and C61 say that the metric is lost). A request for the graph of a metric in the next process, up to a time after all
dumps, is answered with the picture of all intervals of the metric but at most the newest: that one may be missing only if a dump was in progress. (Oldest ones may have been removed, but never all, if there is a file limit.) -/
theorem C127_picture {e : Outside} (he : e.Ok) {n : ℕ} (h1 : 1 ≤ n) (hn : n < 2 ^ 50) {colors : List Color} (hc : 1 ≤ colors.length) (hN : colors.length ≤ 2 ^ 40) {state : List Obs → List F64} (lib : Library e c.pipe.d state)
    (h : Proc.Reach c (freshFs de hit) ops s) (hok : ProcOk c K ops) (pt : Bytes → KillPoint) (hcut : s.sys.CutsOk pt) (m : Bytes) :
    ∃ found : List Batch, (found = (ops.foldl PSpec.step {}).kept m ∨ s.dumping = true ∧ ∃ b, (ops.foldl PSpec.step {}).kept m = b :: found) ∧
      (found ≠ [] → ∃ shown, shown <+: found ∧ shown ≠ [] ∧ (c.pipe.cfg.max ≤ 0 → shown = found) ∧
        ∀ (hit' : Nat → Bool) (cfg : Cfg) (now dur : Int64) (width height padding : Int), (∀ t ∈ dumpTimes ops, t < now) → SaneTimes width shown → now.toInt + dur.toInt < 9223372036854775808 → 0 ≤ padding → width ≤ dur.toInt →
          height ≤ 9007199254740992 → ∃ newest, shown.head? = some newest ∧ ShowsIntervals e n colors state m now dur width height padding newest shown
            (servePng (theScene e n colors) cfg now dur width height padding { (s.sys.killed pt m).reopen with hit := hit' }).1) := by
  obtain ⟨found, f1, f2⟩ := killed_shown h hok pt hcut m
  refine ⟨found, f1, fun hne => ?_⟩
  obtain ⟨shown, sh, g1, g2, g3, g4, g5, g6, g7⟩ := f2 hne
  refine ⟨shown, g1, g2, g3, fun hit' cfg now dur width height padding hnow htimes hfar hpad hwd hht => ?_⟩
  obtain ⟨k1, k2⟩ := g7 hit' cfg now width hnow htimes
  exact picture_of he h1 hn hc hN lib hok.geo g4 g5 g2 g6 k1 htimes hfar hpad hwd hht k2

end

end Rothko
