import Verif.Model.Request
import Verif.Props.Process
import Verif.Props.Scene
/-!
# C98: the picture that a request gets while the program runs
-/
namespace Rothko

/-- A callback that decides by the values seen and one that decides by what it made of them are called with the same values. -/
theorem visit_seen {σ : Type} (cb : σ → Val → σ × Cb) (st0 : σ) : ∀ (L : List Val) (seen : List Val),
    (visit (fun (seen : List Val) v => (seen ++ [v], (cb (seen.foldl (fun st v => (cb st v).1) st0) v).2)) L seen).1.foldl (fun st v => (cb st v).1) st0 = (visit cb L (seen.foldl (fun st v => (cb st v).1) st0)).1 ∧
    (visit (fun (seen : List Val) v => (seen ++ [v], (cb (seen.foldl (fun st v => (cb st v).1) st0) v).2)) L seen).2 = (visit cb L (seen.foldl (fun st v => (cb st v).1) st0)).2 := by
  intro L
  induction L with
  | nil => intro seen; exact ⟨rfl, rfl⟩
  | cons v vs ih =>
    intro seen
    have ih := ih (seen ++ [v])
    rw [List.foldl_append, List.foldl_cons, List.foldl_nil] at ih
    simp only [visit]
    obtain ⟨st, e⟩ : ∃ st, seen.foldl (fun st v => (cb st v).1) st0 = st := ⟨_, rfl⟩
    rw [e] at ih ⊢
    rcases hc : cb st v with ⟨st', c⟩
    rw [hc] at ih
    cases c <;> simp_all [List.foldl_append, e]

theorem answer_of_call {D α : Type} (p : RenderParams D α) {s : Store} {acc : List Val} (h : Reach s acc) (cfg : Cfg) (hg : GeoOk cfg.size cfg.cap) (now dur : Int64) :
    renderAnswer p now dur ((renderCall p cfg now dur).run s).1 = (serveRender p cfg now dur s).1 := by
  obtain ⟨h1, h2⟩ := C15_query_sound h cfg hg now
  show renderEnd p (renderAfter p now dur (queryList cfg now _ s).1.1) (queryList cfg now _ s).1.2 = renderEnd p (dbQuery cfg now (renderCb p now dur (now - dur)) {} s).1.1 (dbQuery cfg now (renderCb p now dur (now - dur)) {} s).1.2
  unfold queryList
  cases hd : s.dirExists with
  | false =>
    obtain ⟨_, h1⟩ := h1 hd
    rw [h1, h1]
    rfl
  | true =>
    obtain ⟨L, _, _, _, hL⟩ := h2 hd
    rw [hL, hL]
    obtain ⟨v1, v2⟩ := visit_seen (renderCb p now dur (now - dur)) {} L []
    dsimp only
    unfold renderAfter
    rw [v1, v2]
    rfl

theorem png_of_call {D α P : Type} (sc : Scene D α P) {s : Store} {acc : List Val} (h : Reach s acc) (cfg : Cfg) (hg : GeoOk cfg.size cfg.cap) (now dur : Int64) (width height padding : Int) :
    pngAnswer sc now dur width height padding ((pngCall sc cfg now dur width height padding).run s).1 = (servePng sc cfg now dur width height padding s).1 := by
  unfold pngAnswer pngCall
  rw [answer_of_call _ h cfg hg]
  rfl

/-- A list without its first element. -/
theorem eachOf_tail {α β : Type} {R : α → β → Prop} {a : α} {l : List α} {k : List β} (h : EachOf R (a :: l) k) : ∃ b k', k = b :: k' ∧ EachOf R l k' := by
  cases h with
  | cons _ h => exact ⟨_, _, rfl, h⟩

section
variable {c : ProcCfg} {K : Nat} {de : Bytes → Bool} {hit : Bytes → Nat → Bool} {ops : List POp} {s s' : Proc} {l : Option POp}

/-- The intervals whose records are written when a call on the metric returns. -/
theorem call_kept (h : Proc.Reach c (freshFs de hit) ops s) (hok : ProcOk c K ops) (hst : s.Step c l s') {i : Nat} {m : Bytes} {o : DbCall} {r : DbRes} (hlog : s'.sys.log = s.sys.log ++ [(i, m, o, r)]) :
    ∃ (kept : List Batch) (done : List DRec), ((ops.foldl PSpec.step {}).kept m = kept ∨ s.dumping = true ∧ ∃ b, (ops.foldl PSpec.step {}).kept m = b :: kept) ∧ EachOf (Right c.pipe.d m) done kept ∧
      (∀ r ∈ done, needs c.pipe.cfg.size r.encode.length < c.pipe.cfg.cap) ∧ ∃ t, ReachCfg c.pipe.cfg t (done.map valOf) ∧ r = (o.run t).1 := by
  obtain ⟨recs, r1, r2, done, hdone, t, h3, h4⟩ := call_records h hok hst hlog
  rcases hdone with rfl | ⟨hd, r', rfl⟩
  · exact ⟨_, done, .inl rfl, r1, r2, t, h3, h4⟩
  · obtain ⟨b, k', e, h5⟩ := eachOf_tail r1
    exact ⟨k', done, .inr ⟨hd, b, e⟩, h5, fun r hr => r2 r (List.mem_cons_of_mem _ hr), t, h3, h4⟩

set_option maxHeartbeats 1000000 in
/-- **C98.** While observations are added, dumps are made, the workers write and other requests are answered, in any interleaving, a request for the graph of a metric gets its picture. `kept` are the intervals in which the metric was observed and
whose records the queue took; while a dump is in progress, the newest may still be missing. If there are some, and they end before the time asked for, the answer is a picture of the size asked for in which a pixel of the heatmap is
white if none of the intervals in the database is over its time, and else has the colour of its row for the observations in the intervals over it; the key has in each row the colour at its share of the way through the colours; and
if each interval lasted, the bars are dark in proportion to the mean number of observations per second. If there are none, the answer is an error. -/
theorem C98_shown {e : Outside} (he : e.Ok) {n : ℕ} (h1 : 1 ≤ n) (hn : n < 2 ^ 50) {colors : List Color} (hc : 1 ≤ colors.length) (hN : colors.length ≤ 2 ^ 40) {state : List Obs → List F64} (lib : Library e c.pipe.d state)
    (h : Proc.Reach c (freshFs de hit) ops s) (hok : ProcOk c K ops) (hst : s.Step c l s') {i : Nat} {m : Bytes} {now dur : Int64} {width height padding : Int} {r : DbRes}
    (hlog : s'.sys.log = s.sys.log ++ [(i, m, pngCall (theScene e n colors) c.pipe.cfg now dur width height padding, r)]) :
    ∃ kept : List Batch, ((ops.foldl PSpec.step {}).kept m = kept ∨ s.dumping = true ∧ ∃ b, (ops.foldl PSpec.step {}).kept m = b :: kept) ∧
      (kept = [] → pngAnswer (theScene e n colors) now dur width height padding r = .tooSmall ∨ pngAnswer (theScene e n colors) now dur width height padding r = .failed) ∧
      (kept ≠ [] → (∀ b ∈ kept, 0 ≤ b.start.toInt ∧ b.start.toInt + width < 9223372036854775808 ∧ 0 ≤ b.stop.toInt ∧ b.stop < now) → now.toInt + dur.toInt < 9223372036854775808 → 0 ≤ padding → width ≤ dur.toInt → height ≤ 9007199254740992 →
        ∃ (newest : Batch) (stored dropped : List Batch), kept = stored ++ dropped ∧ stored.head? = some newest ∧ (c.pipe.cfg.max ≤ 0 → dropped = []) ∧
          ∀ gm, graphMeasure (sceneStyle e { obs := state (obsOf m newest.obs) }) (pngOpts now dur width height padding) = .ok gm → 0 < gm.width → 2 ≤ gm.height →
            (n : Int) * (gm.height - 1) < 1125899906842624 → ((colors.length - 1 : ℕ) : Int) * (gm.height - 1) < 1125899906842624 →
            ∃ cv pix, pngAnswer (theScene e n colors) now dur width height padding r = .png cv pix ∧
              cv.width = width + 2 * padding ∧ cv.height = height + 2 * padding ∧ IsImage pix cv.width.toNat cv.height.toNat ∧
              (∀ x y : Nat, x < gm.width → y < gm.height → ∃ k, pixel pix cv.width.toNat (gm.x + x).toNat (gm.y + y).toNat = some (k, 255) ∧
                if batchesAt now dur gm.width stored x = [] then k = white
                else RowColour e state colors n gm.height.toNat (obsOf m newest.obs) ((batchesAt now dur gm.width stored x).map (fun b => obsOf m b.obs)) (gm.height - 1 - y).toNat k) ∧
              (∀ x y : Nat, x < 10 → y < gm.height → ∃ i k, RowShows colors.length gm.height.toNat (gm.height.toNat - 1 - y) i ∧ colors[i]? = some k ∧ pixel pix cv.width.toNat (gm.x + gm.width + 5 + x).toNat (gm.y + y).toNat = some (k, 255)) ∧
              ((∀ b ∈ stored, b.start < b.stop) → ops.length < 9007199254740992 → ∃ bar : ℕ → Color, BarsShow m gm.width (batchesAt now dur gm.width stored) bar ∧
                ∀ x y : Nat, x < gm.width → y < 5 → pixel pix cv.width.toNat (gm.x + x).toNat (gm.y - 5 + y).toNat = some (bar x, 255))) := by
  obtain ⟨kept, done, k0, k1, k2, t, k3, rfl⟩ := call_kept h hok hst hlog
  refine ⟨kept, k0, ?_, ?_⟩ <;> rw [png_of_call _ k3.reach _ hok.geo]
  · rintro rfl
    have : done = [] := (eachOf_nil k1).mpr rfl
    subst this
    unfold servePng
    dsimp only
    rw [C69_empty _ k3.reach _ hok.geo]
    cases t.dirExists
    · exact .inr rfl
    · exact .inl rfl
  · intro hne htimes hfar hpad hwd hht
    obtain ⟨newest, stored, dropped, hk, hnew, hmax, key⟩ := C87_records he h1 hn hc hN c.pipe lib hok.geo k1 k2 k3 hne now dur (fun b hb => (htimes b hb).2.2) width height padding (fun b hb => ⟨(htimes b hb).1, (htimes b hb).2.1⟩) hfar hpad hwd hht
    refine ⟨newest, stored, dropped, hk, hnew, hmax, fun gm g1 g2 g3 g4 g5 => ?_⟩
    obtain ⟨cv, pix, p1, p2, p3, p4, p5, p6, p7⟩ := key gm g1 g2 g3 g4 g5
    have hkb := kept_bounds m ops {} 0 (Nat.le_refl _) (Nat.le_refl _) (fun _ hb => (by cases hb))
    have hsub : kept.length ≤ ((ops.foldl PSpec.step {}).kept m).length ∧ ∀ b ∈ kept, b ∈ (ops.foldl PSpec.step {}).kept m := by
      rcases k0 with e | ⟨_, b, e⟩ <;> rw [e]
      · exact ⟨Nat.le_refl _, fun _ h => h⟩
      · exact ⟨by simp, fun _ h => List.mem_cons_of_mem _ h⟩
    exact ⟨cv, pix, p1, p2, p3, p4, p5, p6, fun hspan hsmall => p7 hspan (by omega) (fun b hb => by have := hkb.2 b (hsub.2 b (by rw [hk]; exact List.mem_append_left _ hb)); omega)⟩

end

end Rothko
