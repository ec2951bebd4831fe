import Verif.Lemmas.DurableRun
/-! A torn newest slot: no later write is stored. -/
namespace Rothko

/-- The newest slot that is in use cannot be read. -/
structure StuckG (e : FErr) (s : Store) (first last : Int) (H : Int → Handle) (U : Int → Nat) (V : Int → List Val) : Prop where
  core : CoreG true (fun _ => True) s first last H U V
  used : 1 ≤ U last
  torn : (s.file (H last)).record ((H last).cap - U last) = .error e

theorem StuckG.same {e : FErr} {s s' : Store} {first last : Int} {H : Int → Handle} {U : Int → Nat} {V : Int → List Val} (h : StuckG e s first last H U V)
    (hs : SameDisk s s') (hc : CacheG true s' first last H) : StuckG e s' first last H U V :=
  ⟨h.core.same hs hc, h.used, by rw [hs.file]; exact h.torn⟩

theorem StuckG.prep {e : FErr} {s : Store} {first last : Int} {H : Int → Handle} {U : Int → Nat} {V : Int → List Val} (h : StuckG e s first last H U V)
    (cfg : Cfg) (v : Val) : ∃ s', writePrep cfg first last v s = (.ret (.failed (.file e)), [(last, H last)], s') ∧ StuckG e s' first last H U V := by
  have hr := h.core.rng
  have hrep := h.core.rep last hr.2 (by omega)
  have hu := h.used
  have hfit : U last ≤ (H last).cap := hrep.fits
  obtain ⟨s1, e1, sd1, c1⟩ := h.core.acquire cfg last hr.2 (by omega)
  have h1 := h.same sd1 c1
  refine ⟨s1, ?_, h1⟩
  rw [writePrep_eq]
  have hfuel : (last - first + 1).toNat = (last - first).toNat + 1 := by omega
  have hacq : acquireLast cfg first (last - first + 1).toNat last s = (.ok (H last, (H last).cap - U last - 1, last), s1) := by
    rw [hfuel]
    simp only [acquireLast, e1, sd1.file, hrep.head]
    change (if ((H last).cap : Int) - U last - 1 = (H last).cap - 1 ∧ last > first then _ else
      (Except.ok (H last, ((H last).cap : Int) - U last - 1, last), s1)) = _
    rw [if_neg (by omega)]
  rw [hacq]
  simp only
  unfold prepRest
  have hmono : monoCheck (s1.file (H last)) ((H last).cap - U last - 1 + 1) v.stop = some (.failed (.file e)) := by
    unfold monoCheck
    rw [show ((H last).cap : Int) - U last - 1 + 1 = (H last).cap - U last by omega, h1.torn]
    have hc : ((s1.file (H last)).cap : Int) = (H last).cap := rfl
    rw [if_pos ((h1.core.rep last hr.2 (by omega)).has _ (by show ((H last).cap : Int) - U last ≤ _; omega) (by show _ < ((H last).cap : Int); omega))]
  rw [hmono]

/-- Nothing gets out of this state. -/
theorem StuckG.step {e : FErr} {s : Store} {first last : Int} {H : Int → Handle} {U : Int → Nat} {V : Int → List Val} (h : StuckG e s first last H U V)
    (o : DOp) : StuckG e (o.run s) first last H U V := by
  have hr := h.core.rng
  have hheld : ∀ s' : Store, ∀ p ∈ [(last, H last)], HandleOk true s'.next first last H p.1 p.2 := by
    intro s' p hp
    rw [List.mem_singleton.mp hp]
    exact Or.inl ⟨hr.2, by show last ≤ last; omega, rfl⟩
  cases o with
  | crash cfg v k j =>
    obtain ⟨s', e', h'⟩ := h.prep cfg v
    show StuckG e (crashWrite cfg v k j s) _ _ _ _ _
    unfold crashWrite
    rw [h.core.newMetric]
    simp only [e']
    exact ⟨h'.core.reopen, h'.used, h'.torn⟩
  | op o =>
    cases o with
    | write cfg v =>
      obtain ⟨s', e', h'⟩ := h.prep cfg v
      have he : dbWrite cfg v s = (.failed (.file e), s'.releaseAll [(last, H last)]) := by
        unfold dbWrite metricWrite
        rw [h.core.newMetric]
        simp only [e']
      show StuckG e (Op.run (s, []) (.write cfg v)).1 _ _ _ _ _
      unfold Op.run
      simp only [he]
      obtain ⟨a, b⟩ := h'.core.cache.releaseAll (hheld s')
      exact h'.same a b
    | query cfg bound cb =>
      have := h.core.query_any cfg bound (fun (seen : List Val) v => (seen ++ [v], cb seen v)) []
      exact h.same this.1 this.2.cache
    | latest cfg =>
      have := h.core.query_any cfg 0x7fffffffffffffff (fun (_ : Option Val) v => (some v, Cb.stop)) none
      exact h.same this.1 this.2.cache
    | restart => exact ⟨h.core.reopen, h.used, h.torn⟩

theorem StuckG.run {e : FErr} (ops : List DOp) : ∀ {s : Store} {first last : Int} {H : Int → Handle} {U : Int → Nat} {V : Int → List Val},
    StuckG e s first last H U V → StuckG e (runD ops s) first last H U V := by
  induction ops with
  | nil => intro s first last H U V h; exact h
  | cons o ops ih => intro s first last H U V h; exact ih (h.step o)

theorem StuckG.write {e : FErr} {s : Store} {first last : Int} {H : Int → Handle} {U : Int → Nat} {V : Int → List Val} (h : StuckG e s first last H U V)
    (cfg : Cfg) (v : Val) : (dbWrite cfg v s).1 = .failed (.file e) := by
  obtain ⟨s', e', h'⟩ := h.prep cfg v
  unfold dbWrite metricWrite
  rw [h.core.newMetric]
  simp only [e']

/-- A write of a single chunk that dies after its first byte leads into this state. -/
theorem CoreG.crash_stuck {P : Int64 → Prop} {s : Store} {first last : Int} {H : Int → Handle} {U : Int → Nat} {V : Int → List Val}
    (h : CoreG true P s first last H U V) (hne : ∀ i, first < i → i ≤ last → 1 ≤ U i) (cfg : Cfg) (v : Val)
    (hg : GeoOk cfg.size cfg.cap) (hl : v.data.length ≤ 55) (j : Nat) (hj : 1 ≤ j) (e : FErr) (r : Rec) (ht : tornSlot cfg v 0 j s = some (.error e, r)) :
    ∃ e' first' last' H' U' V', StuckG e' (crashWrite cfg v 0 j s) first' last' H' U' V' := by
  have hone : ∀ size cap : Nat, GeoOk size cap → needs size v.data.length = 1 := by
    intro size cap hg
    unfold needs
    split
    · rfl
    · have := hg.1
      rw [Nat.div_eq_of_lt_le] <;> omega
  have hp := h.prep (fun _ => hne) cfg v hg (fun _ => by rw [hone _ _ hg]; exact hg.2.2.1)
  revert ht
  unfold crashWrite tornSlot
  rw [h.newMetric]
  simp only
  generalize writePrep cfg first last v s = p at hp
  cases hp with
  | ret r held s' first' last' H' U' V' core hheld hr ne hk => intro ht; cases ht
  | go nr held s' first' last' H' U' V' core hheld hfit ne hk =>
    intro ht
    simp only at ht ⊢
    have hr' := core.rng
    have hrep := core.rep last' hr'.2 (by omega)
    have hgeo : 25 ≤ (H' last').size ∧ (H' last').size ≤ 24 + 65535 := geo_size hrep.geo
    have hlen : (chunks (H' last').size v).length = 1 := by
      rw [(chunks_spec (H' last').size v hgeo.1 hgeo.2).2.2.1]
      exact hone _ _ hrep.geo
    rw [chunkList_eq v (H' last').size hgeo.1 hgeo.2] at ht ⊢
    have herr : (crashStore (s'.file (H' last')) ((H' last').cap - U' last' - (chunks (H' last').size v).length) (chunks (H' last').size v) 0 j).record
        ((H' last').cap - U' last' - (chunks (H' last').size v).length + (0 : Nat)) = .error e := by
      split at ht
      · cases ht
      · simp only [Option.some.injEq, Prod.mk.injEq] at ht
        exact ht.1
    have hcr := hrep.crash (Q := fun _ => True) (fun _ _ => trivial) v trivial hfit 0 j (fun _ => hlen) (fun r r' h1 h2 => by
      change (crashStore (s'.file (H' last')) ((H' last').cap - U' last' - (chunks (H' last').size v).length) (chunks (H' last').size v) 0 j).record
        ((H' last').cap - U' last' - (chunks (H' last').size v).length + (0 : Nat)) = .ok r' at h2
      rw [herr] at h2; cases h2)
    obtain ⟨f', u', vs', ec, hs, hc, hf, hvs, hu, hst⟩ := hcr
    change crashStore (s'.file (H' last')) ((H' last').cap - U' last' - (chunks (H' last').size v).length) (chunks (H' last').size v) 0 j = f' at ec
    rw [ec] at herr ⊢
    obtain ⟨h1, e', h2⟩ := hst rfl rfl hj ⟨e, by
      have : (((H' last').cap : Int) - U' last' - (chunks (H' last').size v).length + (0 : Nat)) =
        ((H' last').cap : Int) - U' last' - (chunks (H' last').size v).length := by omega
      rw [this] at herr; exact herr⟩
    have core2 := (core.setIn (fun _ _ => trivial) f' u' vs' hs hc hf).reopen
    refine ⟨e', first', last', H', _, _, core2, by rw [upd_same]; exact h1, ?_⟩
    rw [upd_same]
    have : ((s'.setFile (H' last') f').reopen).file (H' last') = f' := setFile_same s' (H' last') f' hs hc
    rw [this]
    exact h2
  | out x head nr held s' first' last' H' U' V' hcf core hheld hx hk => cases hcf

end Rothko
