import Verif.Props.KillLives
import Verif.Props.KillShown
/-!
# C127: the picture after many kills
-/
namespace Rothko

/-- The interval is one of these lives of the program. -/
def OfLives (lives : List (List POp)) (m : Bytes) (b : Batch) : Prop := ∃ ops ∈ lives, b ∈ (ops.foldl PSpec.step {}).kept m

theorem plives_fits {c : ProcCfg} {K : Nat} {fs fs' : Bytes → Store} {lives : List (List POp)} (h : PLives c K fs fs' lives) :
    ∃ given, Lives c.dir (LifeCall c) fs fs' given ∧ ∀ m, ∀ w ∈ given m, ∃ b, OfLives lives m b ∧ ∃ r, Right c.pipe.d m r b ∧ w = valOf r ∧ needs c.pipe.cfg.size r.encode.length < c.pipe.cfg.cap := by
  induction h with
  | nil => exact ⟨_, .nil, fun m w hw => by cases hw⟩
  | @kill fs1 lives ops s pt h1 hok hr hc ih =>
    obtain ⟨g1, a1, a2⟩ := ih
    obtain ⟨g2, b1, b2⟩ := (linv_reach hr hok).killed hok.handles pt hc
    refine ⟨_, a1.trans b1, fun m w hw => ?_⟩
    rcases List.mem_append.mp hw with hw | hw
    · obtain ⟨b, hb, r, e⟩ := b2 m w hw
      exact ⟨b, ⟨ops, List.mem_cons_self, hb⟩, r, e⟩
    · obtain ⟨b, ⟨o, ho, hb⟩, x⟩ := a2 m w hw
      exact ⟨b, ⟨o, List.mem_cons_of_mem _ ho, hb⟩, x⟩

theorem batches_of {c : ProcCfg} {lives : List (List POp)} {m : Bytes} : ∀ {vs : List Val},
    (∀ w ∈ vs, ∃ b, OfLives lives m b ∧ ∃ r, Right c.pipe.d m r b ∧ w = valOf r ∧ needs c.pipe.cfg.size r.encode.length < c.pipe.cfg.cap) →
    ∃ (recs : List DRec) (shown : List Batch), vs = recs.map valOf ∧ EachOf (Right c.pipe.d m) recs shown ∧ (∀ b ∈ shown, OfLives lives m b) ∧ ∀ r ∈ recs, needs c.pipe.cfg.size r.encode.length < c.pipe.cfg.cap := by
  intro vs
  induction vs with
  | nil => exact fun _ => ⟨[], [], rfl, .nil, fun b hb => (by cases hb), fun r hr => (by cases hr)⟩
  | cons v vs ih =>
    intro h
    obtain ⟨recs, shown, h1, h2, h3, h4⟩ := ih (fun w hw => h w (List.mem_cons_of_mem _ hw))
    obtain ⟨b, hb, r, e1, e2, e3⟩ := h v List.mem_cons_self
    refine ⟨r :: recs, b :: shown, by rw [e2, h1]; rfl, .cons e1 h2, fun x hx => ?_, fun x hx => ?_⟩
    · rcases List.mem_cons.mp hx with rfl | hx
      · exact hb
      · exact h3 x hx
    · rcases List.mem_cons.mp hx with rfl | hx
      · exact e3
      · exact h4 x hx

/-- **C127** (again and again). The program is started and killed any number of times, each time at any moment but the excluded ones, with any times from its clock; let a metric have a data file afterwards. A query for everything shows values with the times
of intervals of these lives. If there are any and these times descend, a request for the graph up to a time after all dumps is answered with the picture of just these intervals. -/
theorem C127_again {c : ProcCfg} {K : Nat} {de : Bytes → Bool} {hit : Bytes → Nat → Bool} {fs : Bytes → Store} {lives : List (List POp)} {e : Outside} (he : e.Ok) {n : ℕ} (h1 : 1 ≤ n) (hn : n < 2 ^ 50) {colors : List Color} (hc : 1 ≤ colors.length)
    (hN : colors.length ≤ 2 ^ 40) {state : List Obs → List F64} (lib : Library e c.pipe.d state) (hg : GeoOk c.pipe.cfg.size c.pipe.cfg.cap) (h : PLives c K (freshFs de hit) fs lives) (m : Bytes) (hd : (fs m).dir ≠ []) :
    ∃ (vs : List Val) (shown : List Batch), ShowsAll (fs m) (lives.flatMap dumpTimes) vs ∧ (∀ b ∈ shown, OfLives lives m b) ∧ EachOf (fun v (b : Batch) => v.start = b.start ∧ v.stop = b.stop) vs shown ∧
      (vs ≠ [] → (shown.map (·.stop)).Pairwise (fun a b => b < a) → ∀ (hit' : Nat → Bool) (cfg : Cfg) (now dur : Int64) (width height padding : Int), (∀ t ∈ lives.flatMap dumpTimes, t < now) → SaneTimes width shown →
        now.toInt + dur.toInt < 9223372036854775808 → 0 ≤ padding → width ≤ dur.toInt → height ≤ 9007199254740992 →
        ∃ newest, shown.head? = some newest ∧ ShowsIntervals e n colors state m now dur width height padding newest shown (servePng (theScene e n colors) cfg now dur width height padding { (fs m).reopen with hit := hit' }).1) := by
  obtain ⟨g, a1, a2⟩ := plives_fits h
  have hu : ∀ o, LifeCall c o → o.Usable := fun o h => h.1
  have h0 : DurV True (freshFs de hit m).reopen [] [] := Or.inl ⟨trivial, rfl, fun _ => rfl, rfl⟩
  obtain ⟨nw, kp, k1, k2, _, hD⟩ := lives_durV hu a1 m h0
  rw [List.append_nil] at hD
  have hD : DurV False (fs m).reopen (g m) (nw ++ kp) := by
    rcases hD with ⟨_, hx, _⟩ | hD
    · exact absurd hx hd
    · exact Or.inr hD
  obtain ⟨recs, shown, e1, e2, e3, e4⟩ := batches_of (fun w hw => a2 m w (hD.mem w hw))
  have hstops : ∀ w ∈ g m, w.stop ∈ lives.flatMap dumpTimes := by
    intro w hw
    obtain ⟨b, ⟨ops, ho, hb⟩, r, q1, q2, q3⟩ := a2 m w hw
    have : TrueRecord c lives m w := ⟨ops, ho, b, hb, r, q1, q2, by
      rw [q2]
      exact (C06_record_round_trip r (fits_small hg (recs := [r]) (fun x hx => by rw [List.mem_singleton.mp hx]; exact q3) r List.mem_cons_self)).1⟩
    exact this.stop
  have hall : ShowsAll (fs m) (lives.flatMap dumpTimes) (nw ++ kp) := fun hit' cfg bound hpos hb => hD.shows (fun h => h) hit' cfg bound hpos (fun w hw => hb _ (hstops w hw))
  have heach : EachOf (fun v (b : Batch) => v.start = b.start ∧ v.stop = b.stop) (nw ++ kp) shown := by
    rw [e1]
    clear e1 e3 e4
    induction e2 with
    | nil => exact .nil
    | cons hr _ ih => exact .cons ⟨hr.start, hr.stop⟩ ih
  refine ⟨nw ++ kp, shown, hall, e3, heach, fun hne hsort hit' cfg now dur width height padding hnow htimes hfar hpad hwd hht => ?_⟩
  have hstop : recs.map ((fun v : Val => v.stop) ∘ valOf) = shown.map (·.stop) := by
    clear hsort htimes heach e1 e3 e4
    induction e2 with
    | nil => rfl
    | cons hr _ ih =>
      rw [List.map_cons, List.map_cons, ih]
      congr 1
      exact hr.stop
  have hvsort : (recs.map valOf).Pairwise (fun a b => b.stop < a.stop) := by
    rw [← hstop, ← List.map_map] at hsort
    exact List.pairwise_map.mp hsort
  have hbound : ∀ v ∈ recs.map valOf, v.stop < now := fun v hv => hnow _ (hstops v (hD.mem v (by rw [e1]; exact hv)))
  have hsne : shown ≠ [] := fun e => hne (by rw [e1, (eachOf_nil e2).mpr e]; rfl)
  have hpos : 0 < now := by
    obtain ⟨b, hb⟩ := List.exists_mem_of_ne_nil _ hsne
    have a := Int64.lt_iff_toInt_lt.mp ((stops_before e2 now).mp hbound b hb)
    have b := (htimes b hb).2.2
    exact Int64.lt_iff_toInt_lt.mpr (by show (0 : Int) < _; omega)
  exact picture_of he h1 hn hc hN lib hg e2 e4 hsne hvsort hbound htimes hfar hpad hwd hht (by rw [← e1]; exact hall hit' cfg now hpos hnow)

end Rothko
