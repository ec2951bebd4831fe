import Verif.Spec.ProcShown
import Verif.Props.Request
import Verif.Props.ProcFault
/-!
# C120: the picture that a request gets while storing fails
-/
namespace Rothko

/-- A database can hold any values that fit, each one later than those before it. -/
theorem reachCfg_list (cfg : Cfg) (hg : GeoOk cfg.size cfg.cap) : ∀ L : List Val, L.Pairwise (fun a b => b.stop < a.stop) → (∀ v ∈ L, needs cfg.size v.data.length < cfg.cap) → ∃ t, ReachCfg cfg t L := by
  intro L
  induction L with
  | nil => intro _ _; exact ⟨_, true, fun _ => true, [], fun o ho => (by cases ho), rfl⟩
  | cons v L ih =>
    intro hp hf
    obtain ⟨h1, h2⟩ := List.pairwise_cons.mp hp
    obtain ⟨t, ht⟩ := ih h2 (fun w hw => hf w (List.mem_cons_of_mem _ hw))
    have hw := C20_one_config_partial ht v hg h1 (.inl (hf v List.mem_cons_self))
    have := reachCfg_call ht (.write cfg v) ⟨hg, Nat.le_of_lt (hf v List.mem_cons_self)⟩ rfl 0
    have e : (DbCall.run (.write cfg v) t).1 = .write .written := by
      show DbRes.write (dbWrite cfg v t).1 = _
      rw [hw]
    rw [e] at this
    exact ⟨_, this⟩

/-- While the callback asks for more it has not panicked. -/
theorem visit_calm {D α : Type} (p : RenderParams D α) (now dur stop : Int64) : ∀ (L : List Val) (st : RenderSt α), st.panicked = false → (visit (renderCb p now dur stop) L st).2 = .more → (visit (renderCb p now dur stop) L st).1.panicked = false := by
  intro L
  induction L with
  | nil => intro st h _; exact h
  | cons v L ih =>
    intro st h
    have hc : (renderCb p now dur stop st v).2 = .more → (renderCb p now dur stop st v).1.panicked = false := by
      have hpush : ∀ (st : RenderSt α) (m : Merger α) (r : DRec), st.panicked = false → (renderPush p stop st m r v).2 = .more → (renderPush p stop st m r v).1.panicked = false := by
        intro st m r h
        unfold renderPush
        cases m.push p.draw r with
        | none => intro e; cases e
        | some m => intro _; exact h
      unfold renderCb
      cases DRec.decode v.data with
      | ok r =>
        dsimp only
        cases st.earliest with
        | some _ =>
          dsimp only
          cases st.merger with
          | some m => exact hpush st m r h
          | none => intro e; cases e
        | none =>
          dsimp only
          cases p.load r with
          | none => intro e; cases e
          | some d =>
            dsimp only
            cases p.measure d with
            | panic => intro e; cases e
            | small => intro e; cases e
            | ok w =>
              dsimp only
              cases Merger.new α now dur w with
              | none => intro e; cases e
              | some m => exact hpush _ m r h
      | err _ => intro e; cases e
      | _ => intro e; cases e
    rw [visit]
    rcases hx : renderCb p now dur stop st v with ⟨st', cb⟩
    rw [hx] at hc
    cases cb with
    | more => exact ih st' (hc rfl)
    | stop => intro e; cases e
    | err => intro e; cases e
    | cancel => intro e; cases e

section
variable {D α P : Type} (sc : Scene D α P) (cfg : Cfg) (now dur : Int64) (width height padding : Int)

/-- The callback of the query of `pngCall`. -/
def seenCb (seen : List Val) (v : Val) : List Val × Cb :=
  (seen ++ [v], (renderCb (sc.params (pngOpts now dur width height padding)) now dur (now - dur) (renderAfter (sc.params (pngOpts now dur width height padding)) now dur seen) v).2)

/-- The answer when the query called back with these values, and returned this. -/
def answerAt (x : List Val × Option MErr) : Page := pngAnswer sc now dur width height padding (.query x.1 x.2)

theorem answer_visit (L : List Val) :
    answerAt sc now dur width height padding ((visit (seenCb sc now dur width height padding) L []).1, (visit (seenCb sc now dur width height padding) L []).2.error) =
      pngOf sc (pngOpts now dur width height padding) (renderEnd (sc.params (pngOpts now dur width height padding)) (visit (renderCb (sc.params (pngOpts now dur width height padding)) now dur (now - dur)) L {}).1
        (visit (renderCb (sc.params (pngOpts now dur width height padding)) now dur (now - dur)) L {}).2.error) := by
  obtain ⟨v1, v2⟩ := visit_seen (renderCb (sc.params (pngOpts now dur width height padding)) now dur (now - dur)) {} L []
  have v1 : renderAfter (sc.params (pngOpts now dur width height padding)) now dur (visit (seenCb sc now dur width height padding) L []).1 = (visit (renderCb (sc.params (pngOpts now dur width height padding)) now dur (now - dur)) L {}).1 := v1
  have v2 : (visit (seenCb sc now dur width height padding) L []).2 = (visit (renderCb (sc.params (pngOpts now dur width height padding)) now dur (now - dur)) L {}).2 := v2
  unfold answerAt pngAnswer renderAnswer
  dsimp only
  rw [v1, v2]

theorem answer_cut {L : List Val} {x : List Val × Option MErr} (h : CutShort (seenCb sc now dur width height padding) L [] x) : answerAt sc now dur width height padding x = .failed := by
  obtain ⟨L', _, h1, rfl⟩ := h
  obtain ⟨v1, v2⟩ := visit_seen (renderCb (sc.params (pngOpts now dur width height padding)) now dur (now - dur)) {} L' []
  have v1 : renderAfter (sc.params (pngOpts now dur width height padding)) now dur (visit (seenCb sc now dur width height padding) L' []).1 = (visit (renderCb (sc.params (pngOpts now dur width height padding)) now dur (now - dur)) L' {}).1 := v1
  have v2 : (visit (seenCb sc now dur width height padding) L' []).2 = (visit (renderCb (sc.params (pngOpts now dur width height padding)) now dur (now - dur)) L' {}).2 := v2
  have hcalm := visit_calm (sc.params (pngOpts now dur width height padding)) now dur (now - dur) L' {} rfl (by rw [← v2]; exact h1)
  unfold answerAt pngAnswer renderAnswer
  dsimp only
  rw [v1]
  unfold renderEnd
  rw [if_neg (by rw [hcalm]; decide)]
  rfl

/-- The answer to a request for a picture of a database with exactly these values, all before `now`. -/
theorem answer_list (hg : GeoOk cfg.size cfg.cap) (hmax : cfg.max ≤ 0) {t : Store} {L : List Val} (ht : ReachCfg cfg t L) (hne : L ≠ []) (hb : ∀ v ∈ L, v.stop < now) :
    (servePng sc cfg now dur width height padding t).1 = answerAt sc now dur width height padding ((visit (seenCb sc now dur width height padding) L []).1, (visit (seenCb sc now dur width height padding) L []).2.error) := by
  obtain ⟨h1, h2⟩ := C15_query_sound ht.reach cfg hg now
  cases hd : t.dirExists with
  | false => exact absurd (h1 hd).1 hne
  | true =>
    obtain ⟨L', _, _, _, hL⟩ := h2 hd
    have hLL : L' = L := by
      rcases ht.inv with ⟨_, _, ha⟩ | ⟨first, last, H, V, d, inv, hc⟩
      · exact absurd ha hne
      · have q := inv.stored_query cfg now hb
        have hd : d = [] := Classical.byContradiction fun hx => by have := (hc.drop hx).1; omega
        have := hL _ (fun (seen : List Val) v => (seen ++ [v], Cb.more)) []
        unfold queryList at q
        rw [q, visit_collect] at this
        rw [inv.eq, hd, List.append_nil]
        injection this with this _
        simpa using this.symm
    subst hLL
    rw [answer_visit]
    unfold servePng serveRender
    dsimp only
    rw [hL]

end

section
variable {c : ProcCfg} {er : SysErrors} {K : Nat} {de : Bytes → Bool} {hit : Bytes → Nat → Bool} {ops : List PFOp} {s s' : ProcF} {l : Option PFOp}

/-- What is shown of the records of a database, in the words of `ShowsIntervals`. -/
theorem shows_records {e : Outside} (he : e.Ok) {n : ℕ} (h1 : 1 ≤ n) (hn : n < 2 ^ 50) {colors : List Color} (hc : 1 ≤ colors.length) (hN : colors.length ≤ 2 ^ 40) {state : List Obs → List F64}
    (o : PipeCfg) (lib : Library e o.d state) (hg : GeoOk o.cfg.size o.cfg.cap) {m : Bytes} {recs : List DRec} {kept : List Batch} {t : Store} (k1 : EachOf (Right o.d m) recs kept) (k2 : ∀ r ∈ recs, needs o.cfg.size r.encode.length < o.cfg.cap)
    (k3 : ReachCfg o.cfg t (recs.map valOf)) (hne : kept ≠ []) (now dur : Int64) (width height padding : Int) (htimes : ∀ b ∈ kept, 0 ≤ b.start.toInt ∧ b.start.toInt + width < 9223372036854775808 ∧ 0 ≤ b.stop.toInt ∧ b.stop < now) (hfar : now.toInt + dur.toInt < 9223372036854775808)
    (hpad : 0 ≤ padding) (hwd : width ≤ dur.toInt) (hht : height ≤ 9007199254740992) :
    ∃ (newest : Batch) (stored dropped : List Batch), kept = stored ++ dropped ∧ stored.head? = some newest ∧ (o.cfg.max ≤ 0 → dropped = []) ∧
      (kept.length < 9007199254740992 ∨ dropped = [] → ShowsIntervals e n colors state m now dur width height padding newest stored (servePng (theScene e n colors) o.cfg now dur width height padding t).1) := by
  obtain ⟨newest, stored, dropped, hk, hnew, hmax, key⟩ := C87_records he h1 hn hc hN o lib hg k1 k2 k3 hne now dur (fun b hb => (htimes b hb).2.2) width height padding (fun b hb => ⟨(htimes b hb).1, (htimes b hb).2.1⟩) hfar hpad hwd hht
  refine ⟨newest, stored, dropped, hk, hnew, hmax, fun hlen gm g1 g2 g3 g4 g5 => ?_⟩
  obtain ⟨cv, pix, p1, p2, p3, p4, p5, p6, p7⟩ := key gm g1 g2 g3 g4 g5
  refine ⟨cv, pix, p1, p2, p3, p4, p5, p6, fun hs hl => p7 (fun b hb => (hs b hb).1) ?_ (fun b hb => (hs b hb).2)⟩
  rcases hlen with hlen | rfl
  · exact hlen
  · rw [hk, List.append_nil]; exact hl

/-- **C120.** While observations are added, dumps are made, the workers write and other requests are answered, in any interleaving, and whatever system calls fail, as long as none leaves a new data file of this metric half made, a request for the
graph of a metric gets the picture of exactly the metric's intervals that were not reported as lost (while a dump is in progress, the newest may still be missing), up to whole oldest files dropped by rotation; or, if system calls fail for the metric,
the answer may be an error, when its query met one. It is never a picture in which a stored interval is missing or an interval that was lost is shown, and it is never a panic. -/
theorem C120_shown {e : Outside} (he : e.Ok) {n : ℕ} (h1 : 1 ≤ n) (hn : n < 2 ^ 50) {colors : List Color} (hc : 1 ≤ colors.length) (hN : colors.length ≤ 2 ^ 40) {state : List Obs → List F64} (lib : Library e c.pipe.d state)
    (h : ProcF.Reach c er (freshFs de hit) ops s) (hok : LifeOk c K (plainOps ops)) (hst : s.Step c er l s') {i : Nat} {m : Bytes} {now dur : Int64} {width height padding : Int} {dir : Option DirFault} {unlink : Bool} {r : DbRes}
    (hw : er.Whole m) (hlog : s'.sys.log = s.sys.log ++ [(i, m, ⟨pngCall (theScene e n colors) c.pipe.cfg now dur width height padding, dir, unlink⟩, r)]) :
    ∃ kept : List Batch, ((ops.foldl PSpec.stepF {}).kept m = kept ∨ s.dumping = true ∧ ∃ b, (ops.foldl PSpec.stepF {}).kept m = b :: kept) ∧
      GraphOf c (¬ er.Spares m ∧ ∃ seen, r = .query seen (some .os)) e n colors state m now dur width height padding kept (pngAnswer (theScene e n colors) now dur width height padding r) := by
  have inv := fltInv_reach (goodStart_fresh c er de hit) h hok
  have hst := stepF_log hst hlog
  obtain ⟨progs, base, acc, hs⟩ := inv.sys
  obtain ⟨recs, r1, r2, r3⟩ := hs.db m
  obtain ⟨done, e1, e2⟩ := inv.acked r3
  obtain ⟨_, hres, hsp⟩ := hs.result hok.handles hst hlog
  obtain ⟨file, hist, u, hu, hlim, hr⟩ := hres hw
  rw [← e1] at hu
  have hkeep : ∃ kept : List Batch, ((ops.foldl PSpec.stepF {}).kept m = kept ∨ s.dumping = true ∧ ∃ b, (ops.foldl PSpec.stepF {}).kept m = b :: kept) ∧ EachOf (Right c.pipe.d m) done kept ∧
      ∀ r ∈ done, needs c.pipe.cfg.size r.encode.length < c.pipe.cfg.cap := by
    rcases e2 with rfl | ⟨hd, r', rfl⟩
    · exact ⟨_, .inl rfl, r1, r2⟩
    · obtain ⟨b, k', e, h5⟩ := eachOf_tail r1
      exact ⟨k', .inr ⟨hd, b, e⟩, h5, fun r hr => r2 r (List.mem_cons_of_mem _ hr)⟩
  obtain ⟨kept, k0, k1, k2⟩ := hkeep
  have hq : answerAt (theScene e n colors) now dur width height padding (dbQueryF ⟨dir, file, unlink⟩ c.pipe.cfg now (seenCb (theScene e n colors) now dur width height padding) [] u).1 = pngAnswer (theScene e n colors) now dur width height padding r := by
    rw [← hr]
    rfl
  rw [← hq]
  obtain ⟨L, l1, l2, l3, l4⟩ := C99_query_partial hu c.pipe.cfg hok.geo now
  have l5 := (l4 ⟨dir, file, unlink⟩ _ (seenCb (theScene e n colors) now dur width height padding) []).1
  refine ⟨kept, k0, ?_, ?_⟩
  · rintro rfl
    have hd : done = [] := (eachOf_nil k1).mpr rfl
    subst hd
    have hL : L = [] := List.sublist_nil.mp l1
    subst hL
    rcases l5 with hx | hx
    · rw [hx]
      cases hde : u.dirExists with
      | false =>
        rw [((sound_of_inv hu.inv c.pipe.cfg hok.geo now).1 hde).2]
        exact .inr rfl
      | true =>
        rw [l3 hde]
        exact .inl rfl
    · exact .inr (answer_cut _ _ _ _ _ _ hx)
  · intro hne htimes hfar hpad hwd hht
    have hm : done.map valOf ≠ [] := fun e => hne ((eachOf_nil k1).mp (List.map_eq_nil_iff.mp e))
    have hend : ∀ v ∈ done.map valOf, v.stop < now := (stops_before k1 now).mpr (fun b hb => (htimes b hb).2.2.2)
    have hmain : answerAt (theScene e n colors) now dur width height padding (dbQueryF ⟨dir, file, unlink⟩ c.pipe.cfg now (seenCb (theScene e n colors) now dur width height padding) [] u).1 = .failed ∧ (¬ er.Spares m ∧ ∃ seen, r = .query seen (some .os)) ∨
        ∃ stored dropped, done.map valOf = stored ++ dropped ∧ (done.map valOf ≠ [] → stored ≠ []) ∧ (c.pipe.cfg.max ≤ 0 → dropped = []) ∧
          answerAt (theScene e n colors) now dur width height padding (dbQueryF ⟨dir, file, unlink⟩ c.pipe.cfg now (seenCb (theScene e n colors) now dur width height padding) [] u).1 =
            answerAt (theScene e n colors) now dur width height padding ((visit (seenCb (theScene e n colors) now dur width height padding) stored []).1, (visit (seenCb (theScene e n colors) now dur width height padding) stored []).2.error) := by
      by_cases hspare : er.Spares m
      · refine .inr ?_
        obtain ⟨u2, hu2, hr2⟩ := hsp hspare
        rw [← e1] at hu2
        have hr2 : answerAt (theScene e n colors) now dur width height padding (dbQuery c.pipe.cfg now (seenCb (theScene e n colors) now dur width height padding) [] u2).1 = pngAnswer (theScene e n colors) now dur width height padding r := by
          rw [← hr2]
          rfl
        rw [hq, ← hr2]
        obtain ⟨s1, s2⟩ := C15_query_sound hu2.reach c.pipe.cfg hok.geo now
        cases hd : u2.dirExists with
        | false => exact absurd (s1 hd).1 hm
        | true =>
          obtain ⟨L', _, _, _, hL⟩ := s2 hd
          rcases hu2.inv with ⟨_, _, ha⟩ | ⟨first, last, H, V, d, inv2, hcf⟩
          · exact absurd ha hm
          · have q := inv2.stored_query c.pipe.cfg now hend
            have hLL : L' = valuesOf V first last := by
              have := hL _ (fun (seen : List Val) v => (seen ++ [v], Cb.more)) []
              unfold queryList at q
              rw [q, visit_collect] at this
              injection this with this _
              simpa using this.symm
            subst hLL
            refine ⟨valuesOf V first last, d, inv2.eq, fun hne hst => ?_, fun hmx => Classical.byContradiction fun hx => by have := (hcf.drop hx).1; omega, ?_⟩
            · cases hV : V last with
              | nil => exact hne (inv2.empty hV)
              | cons w ws =>
                have := mem_valuesOf (V := V) inv2.core.rng.2 (Int.le_refl last) (v := w) (by rw [hV]; simp)
                rw [hst] at this; cases this
            · rw [hL]
      · rcases l5 with hx | hx
        · refine .inr ?_
          obtain ⟨stored, dropped, q1, q2, q3, q4⟩ := reachF_shown hu hlim
          have q5 := q4 c.pipe.cfg now hend hm
          have l3 := l3 (reachF_dir hu hm)
          have hL : L = stored := by
            have l3 := l3 _ (fun (seen : List Val) v => (seen ++ [v], Cb.more)) []
            unfold queryList at q5
            rw [q5, visit_collect] at l3
            injection l3 with l3 _
            simpa using l3.symm
          subst hL
          exact ⟨L, dropped, q1, q2, q3, by rw [hx, l3]⟩
        · refine .inl ⟨answer_cut _ _ _ _ _ _ hx, hspare, ?_⟩
          obtain ⟨L', _, _, hcut⟩ := hx
          refine ⟨(visit (seenCb (theScene e n colors) now dur width height padding) L' []).1, ?_⟩
          rw [← hr]
          show DbRes.query (dbQueryF ⟨dir, file, unlink⟩ c.pipe.cfg now (seenCb (theScene e n colors) now dur width height padding) [] u).1.1 (dbQueryF ⟨dir, file, unlink⟩ c.pipe.cfg now (seenCb (theScene e n colors) now dur width height padding) [] u).1.2 = _
          rw [hcut]
    rcases hmain with hx | ⟨L, dropped, q1, q2, q3, hx⟩
    · exact .inl hx
    · refine .inr ?_
      obtain ⟨d1, d2, rfl, hd1, hd2⟩ := List.map_eq_append_iff.mp q1
      obtain ⟨b1, b2, rfl, hb1, hb2⟩ := eachOf_append k1
      have hb1ne : b1 ≠ [] := by
        rintro rfl
        rw [(eachOf_nil hb1).mpr rfl] at hd1
        exact q2 hm hd1.symm
      have hsort : (d1.map valOf).Pairwise (fun a b => b.stop < a.stop) := by
        have : (List.map valOf (d1 ++ d2)).Pairwise (fun a b => b.stop < a.stop) := by
          rcases hu.inv with ⟨_, _, ha⟩ | ⟨_, _, _, _, _, inv, _⟩
          · exact absurd ha hm
          · exact inv.sorted
        rw [List.map_append] at this
        exact (List.pairwise_append.mp this).1
      obtain ⟨t, ht⟩ := reachCfg_list { c.pipe.cfg with max := 0 } hok.geo (d1.map valOf) hsort (by
        intro v hv
        obtain ⟨r, hr, rfl⟩ := List.mem_map.mp hv
        exact k2 r (List.mem_append_left _ hr))
      obtain ⟨newest, st, dr, z1, z2, z3, z4⟩ := shows_records he h1 hn hc hN { c.pipe with cfg := { c.pipe.cfg with max := 0 } } lib hok.geo hb1 (fun r hr => k2 r (List.mem_append_left _ hr)) ht hb1ne now dur width height padding
        (fun b hb => htimes b (List.mem_append_left _ hb)) hfar hpad hwd hht
      have z5 := z3 (Int.le_refl _)
      subst z5
      rw [List.append_nil] at z1
      subst z1
      refine ⟨newest, b1, b2, rfl, z2, fun hmx => ?_, ?_⟩
      · have := q3 hmx
        rw [this] at hd2
        rw [List.map_eq_nil_iff.mp hd2] at hb2
        exact (eachOf_nil hb2).mp rfl
      · have z4 := z4 (.inr rfl)
        rw [answer_list _ { c.pipe.cfg with max := 0 } _ _ _ _ _ hok.geo (Int.le_refl _) ht (by rw [hd1]; exact q2 hm) (fun v hv => hend v (by rw [List.map_append]; exact List.mem_append_left _ hv)), hd1] at z4
        rw [hx]
        exact z4

end

end Rothko
