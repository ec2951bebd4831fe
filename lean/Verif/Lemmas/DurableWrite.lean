import Verif.Lemmas.DurableDir
import Verif.Spec.Durable
/-! Writes and crashed writes in histories with crashes. -/
namespace Rothko

/-- What a write keeps of the stored values: all of them, or all but those of the oldest file. -/
def Kept (cfg : Cfg) (V : Int → List Val) (first last : Int) (K : List Val) : Prop :=
  K = valuesOf V first last ∨ (K = valuesOf V (first + 1) last ∧ cfg.max > 0 ∧ last - first ≥ cfg.max)

theorem valuesOf_trim (V : Int → List Val) (first last last' : Int) (h1 : first ≤ last' + 1) (h2 : last' ≤ last) (h3 : ∀ i, last' < i → i ≤ last → V i = []) :
    valuesOf V first last = valuesOf V first last' := by
  obtain ⟨d, hd⟩ : ∃ d : Nat, last = last' + d := ⟨(last - last').toNat, by omega⟩
  induction d generalizing last with
  | zero => rw [show last = last' by omega]
  | succ d ih =>
    have hs : valuesOf V first last = V last ++ valuesOf V first (last - 1) := by
      unfold valuesOf
      rw [show (last - first + 1).toNat = (last - 1 - first + 1).toNat + 1 by omega]
      rfl
    rw [hs, h3 last (by omega) (by omega), List.nil_append]
    exact ih (last - 1) (by omega) (fun i a b => h3 i a (by omega)) (by omega)

/-- The outcome of the first half of a write. -/
inductive PrepG (c : Bool) (P : Int64 → Prop) (cfg : Cfg) (v : Val) (first last : Int) (V : Int → List Val) : Prep × List (Int × Handle) × Store → Prop
  | ret (r : WRes) (held : List (Int × Handle)) (s' : Store) (first' last' : Int) (H : Int → Handle) (U' : Int → Nat) (V' : Int → List Val)
      (core : CoreG c P s' first' last' H U' V') (hheld : ∀ p ∈ held, HandleOk c s'.next first' last' H p.1 p.2) (hr : r ≠ .written)
      (ne : c = true → ∀ i, first' < i → i ≤ last' → 1 ≤ U' i) (hk : Kept cfg V first last (valuesOf V' first' last')) : PrepG c P cfg v first last V (.ret r, held, s')
  | go (nr : Nat) (held : List (Int × Handle)) (s' : Store) (first' last' : Int) (H : Int → Handle) (U' : Int → Nat) (V' : Int → List Val)
      (core : CoreG c P s' first' last' H U' V') (hheld : ∀ p ∈ held, HandleOk c s'.next first' last' H p.1 p.2)
      (hfit : U' last' + (chunks (H last').size v).length ≤ (H last').cap)
      (ne : c = true → ∀ i, first' < i → i < last' → 1 ≤ U' i) (hk : Kept cfg V first last (valuesOf V' first' last')) :
      PrepG c P cfg v first last V (.go (H last') ((H last').cap - U' last' - (chunks (H last').size v).length) nr, held, s')
  | out (x : Handle) (head : Int) (nr : Nat) (held : List (Int × Handle)) (s' : Store) (first' last' : Int) (H : Int → Handle) (U' : Int → Nat)
      (V' : Int → List Val) (hc : c = false)
      (core : CoreG c P s' first' last' H U' V') (hheld : ∀ p ∈ held, HandleOk c s'.next first' last' H p.1 p.2)
      (hx : ∀ j, first' ≤ j → j ≤ last' → x.ino ≠ (H j).ino) (hk : Kept cfg V first last (valuesOf V' first' last')) :
      PrepG c P cfg v first last V (.go x head nr, held, s')

/-- `Write` after the newest file was acquired (metric.go:228-295). -/
def prepRest (cfg : Cfg) (first last : Int) (v : Val) (h : Handle) (head0 : Int) (s : Store) : Prep × List (Int × Handle) × Store :=
  match monoCheck (s.file h) (head0 + 1) v.stop with
  | some r => (.ret r, [(last, h)], s)
  | none =>
    match numRecords v.data.length h.size with
    | none => (.ret (.failed (.file .panic)), [(last, h)], s)
    | some 0 => (.ret (.failed .numRecords), [(last, h)], s)
    | some nr =>
      if head0 + 1 - nr < 0 then
        if last = 1 ∧ head0 + 1 = h.cap - 1 then (.ret (.failed .valueTooLarge), [(last, h)], s)
        else
          match (if last - first ≥ cfg.max ∧ cfg.max > 0 then (s.evict first).remove first else s).acquire cfg (last + 1) false with
          | (.error e, s) => (.ret (.failed e), [(last, h)], s)
          | (.ok h2, s) =>
            match numRecords v.data.length h2.size with
            | none => (.ret (.failed (.file .panic)), [(last + 1, h2), (last, h)], s)
            | some 0 => (.ret (.failed .numRecords), [(last + 1, h2), (last, h)], s)
            | some nr =>
              if (h2.cap : Int) - nr < 0 then (.ret (.failed .valueTooLarge), [(last + 1, h2), (last, h)], s)
              else (.go h2 (h2.cap - nr) nr, [(last + 1, h2), (last, h)], s)
      else (.go h (head0 + 1 - nr) nr, [(last, h)], s)

theorem writePrep_eq (cfg : Cfg) (first last : Int) (v : Val) (s : Store) : writePrep cfg first last v s =
    match acquireLast cfg first (last - first + 1).toNat last s with
    | (.error e, s) => (.ret (.failed e), [], s)
    | (.ok (h, head0, last), s) => prepRest cfg first last v h head0 s := rfl

theorem monoCheck_ne (f : File) (head : Int) (stop : Int64) (r : WRes) (h : monoCheck f head stop = some r) : r ≠ .written := by
  unfold monoCheck at h
  split at h
  · split at h
    · cases h; intro hx; cases hx
    · split at h
      · cases h; intro hx; cases hx
      · cases h
  · cases h

section
variable {c : Bool} {P Q : Int64 → Prop} {s : Store} {first last : Int} {H : Int → Handle} {U : Int → Nat} {V : Int → List Val}

theorem CoreG.drop (h : CoreG c P s first last H U V) (hlt : first < last) : CoreG c P ((s.evict first).remove first) (first + 1) last H U V := by
  refine h.shrink hlt first (first + 1) last (Or.inl ⟨rfl, rfl, rfl⟩) rfl rfl rfl rfl ?_
  intro i y hy
  have hy' : (if i = first then none else s.cache i) = some y := hy
  split at hy'
  · cases hy'
  · rename_i hi; exact Or.inl ⟨hi, hy'⟩

theorem CoreG.prep (h : CoreG c P s first last H U V) (hne : c = true → ∀ i, first < i → i ≤ last → 1 ≤ U i) (cfg : Cfg) (v : Val)
    (hg : GeoOk cfg.size cfg.cap) (hfitc : c = true → needs cfg.size v.data.length ≤ cfg.cap) :
    PrepG c P cfg v first last V (writePrep cfg first last v s) := by
  obtain ⟨s1, last1, e1, l1, l2, l3, l4, core1⟩ := h.acquireLast (fun hc hlt => hne hc last hlt (by omega)) cfg _ rfl
  rw [writePrep_eq]
  simp only [e1]
  have hr := core1.rng
  have hrep := core1.rep last1 hr.2 (by omega)
  have hgeo : 25 ≤ (H last1).size ∧ (H last1).size ≤ 24 + 65535 := geo_size hrep.geo
  have hsp := chunks_spec (H last1).size v hgeo.1 hgeo.2
  have hval : valuesOf V first last = valuesOf V first last1 := valuesOf_trim V first last last1 (by omega) l2 l4
  have hne1 : c = true → ∀ i, first < i → i ≤ last1 → 1 ≤ U i := fun hc i a b => hne hc i a (by omega)
  have hheld1 : ∀ p ∈ [(last1, H last1)], HandleOk c s1.next first last1 H p.1 p.2 := by
    intro p hp
    rw [List.mem_singleton.mp hp]
    exact Or.inl ⟨hr.2, by show last1 ≤ last1; omega, rfl⟩
  have retHere : ∀ r : WRes, r ≠ .written → PrepG c P cfg v first last V (.ret r, [(last1, H last1)], s1) := by
    intro r hr'
    exact .ret r _ s1 first last1 H U V core1 hheld1 hr' hne1 (Or.inl hval.symm)
  unfold prepRest
  have hfits : U last1 ≤ (H last1).cap := hrep.fits
  cases hm : monoCheck (s1.file (H last1)) ((H last1).cap - U last1 - 1 + 1) v.stop with
  | some r => exact retHere r (monoCheck_ne _ _ _ _ hm)
  | none =>
    simp only
    rw [hsp.2.1]
    obtain ⟨k, hk⟩ : ∃ k, (chunks (H last1).size v).length = k + 1 := ⟨(chunks (H last1).size v).length - 1, by omega⟩
    rw [hk]
    simp only
    by_cases hroom : (H last1).cap - U last1 - 1 + 1 - ((k + 1 : Nat) : Int) < 0
    · rw [if_pos hroom]
      by_cases hoff : last1 = 1 ∧ (H last1).cap - U last1 - 1 + 1 = ((H last1).cap : Int) - 1
      · rw [if_pos hoff]
        exact retHere _ (fun hx => by cases hx)
      · rw [if_neg hoff]
        obtain ⟨sx, first', hsx, core2, hf'⟩ : ∃ sx first', (if last1 - first ≥ cfg.max ∧ cfg.max > 0 then (s1.evict first).remove first else s1) = sx ∧
            CoreG c P sx first' last1 H U V ∧ (first' = first ∨ (first' = first + 1 ∧ last1 - first ≥ cfg.max ∧ cfg.max > 0)) := by
          by_cases hd : last1 - first ≥ cfg.max ∧ cfg.max > 0
          · rw [if_pos hd]; exact ⟨_, first + 1, rfl, core1.drop (by omega), Or.inr ⟨rfl, hd⟩⟩
          · rw [if_neg hd]; exact ⟨_, first, rfl, core1, Or.inl rfl⟩
        rw [hsx]
        have hr2 := core2.rng
        have hkept : Kept cfg V first last (valuesOf V first' last1) := by
          rcases hf' with rfl | ⟨rfl, h1, h2⟩
          · exact Or.inl hval.symm
          · exact Or.inr ⟨(valuesOf_trim V _ last last1 (by omega) l2 l4).symm, h2, by omega⟩
        obtain ⟨h2, s3, e3, hnext⟩ := core2.next cfg hg
        rw [e3]
        simp only
        rcases hnext with ⟨hcf, core3, hok⟩ | ⟨hs3, hc3, core3⟩
        · -- a handle of a removed file
          have hino : ∀ j, first' ≤ j → j ≤ last1 → h2.ino ≠ (H j).ino := by
            rcases hok with ⟨_, hx, _⟩ | ⟨_, _, _, hx⟩
            · omega
            · exact hx
          have hheld3 : ∀ p ∈ [(last1 + 1, h2), (last1, H last1)], HandleOk c s3.next first' last1 H p.1 p.2 := by
            intro p hp
            rcases List.mem_cons.mp hp with rfl | hp
            · exact hok
            · rw [List.mem_singleton.mp hp]; exact Or.inl ⟨hr2.2, by show last1 ≤ last1; omega, rfl⟩
          have retOut : ∀ r : WRes, r ≠ .written → PrepG c P cfg v first last V (.ret r, [(last1 + 1, h2), (last1, H last1)], s3) := by
            intro r hr'
            exact .ret r _ s3 first' last1 H U V core3 hheld3 hr' (fun hx => by rw [hcf] at hx; cases hx) hkept
          generalize numRecords v.data.length h2.size = n
          split
          · exact retOut _ (fun hx => by cases hx)
          · exact retOut _ (fun hx => by cases hx)
          · split
            · exact retOut _ (fun hx => by cases hx)
            · exact .out h2 _ _ _ s3 first' last1 H U V hcf core3 hheld3 hino hkept
        · -- a new file
          have hgc := geo_size hg
          have hspc := chunks_spec cfg.size v hgc.1 hgc.2
          have hvn : valuesOf (upd V (last1 + 1) []) first' (last1 + 1) = valuesOf V first' last1 := by
            rw [valuesOf_new V first' last1 (by omega) []]; rfl
          have hheld3 : ∀ p ∈ [(last1 + 1, h2), (last1, H last1)], HandleOk c s3.next first' (last1 + 1) (upd H (last1 + 1) h2) p.1 p.2 := by
            intro p hp
            rcases List.mem_cons.mp hp with rfl | hp
            · exact Or.inl ⟨by show first' ≤ last1 + 1; omega, by show last1 + 1 ≤ last1 + 1; omega, (upd_same _ _ _).symm⟩
            · rw [List.mem_singleton.mp hp]
              exact Or.inl ⟨hr2.2, by show last1 ≤ last1 + 1; omega, (upd_ne H h2 (show last1 ≠ last1 + 1 by omega)).symm⟩
          rw [hs3, hspc.2.1]
          obtain ⟨k2, hk2⟩ : ∃ k2, (chunks cfg.size v).length = k2 + 1 := ⟨(chunks cfg.size v).length - 1, by omega⟩
          rw [hk2]
          simp only
          by_cases hbig : (h2.cap : Int) - ((k2 + 1 : Nat) : Int) < 0
          · rw [if_pos hbig]
            refine .ret _ _ s3 first' (last1 + 1) _ _ _ core3 hheld3 (fun hx => by cases hx) ?_ (by rw [hvn]; exact hkept)
            intro hc
            have := hfitc hc
            omega
          · rw [if_neg hbig]
            have hgo := PrepG.go (c := c) (P := P) (cfg := cfg) (v := v) (first := first) (last := last) (V := V) (k2 + 1)
              [(last1 + 1, h2), (last1, H last1)] s3 first' (last1 + 1) (upd H (last1 + 1) h2) (upd U (last1 + 1) 0) (upd V (last1 + 1) []) core3 hheld3
              (by rw [upd_same, upd_same, hs3, hk2]; omega)
              (fun hc i a b => by
                rw [upd_ne _ _ (by omega)]
                rcases hf' with rfl | ⟨rfl, _⟩
                · exact hne1 hc i a (by omega)
                · exact hne1 hc i (by omega) (by omega))
              (by rw [hvn]; exact hkept)
            rw [upd_same, upd_same, hs3, hk2] at hgo
            rw [show (h2.cap : Int) - ((k2 + 1 : Nat) : Int) = h2.cap - ((0 : Nat) : Int) - ((k2 + 1 : Nat) : Int) by omega]
            exact hgo
    · rw [if_neg hroom]
      have hgo := PrepG.go (c := c) (P := P) (cfg := cfg) (v := v) (first := first) (last := last) (V := V) (k + 1)
        [(last1, H last1)] s1 first last1 H U V core1 hheld1 (by rw [hk]; omega)
        (fun hc i a b => hne1 hc i a (by omega)) (Or.inl hval.symm)
      rw [hk] at hgo
      rw [show ((H last1).cap : Int) - U last1 - 1 + 1 - ((k + 1 : Nat) : Int) = (H last1).cap - U last1 - ((k + 1 : Nat) : Int) by omega]
      exact hgo

/-- Storing something in the newest file keeps the others. -/
theorem valuesOf_last (V : Int → List Val) (first last : Int) (h : first ≤ last) (vs : List Val) :
    valuesOf (upd V last vs) first last = vs ++ valuesOf V first (last - 1) ∧ valuesOf V first last = V last ++ valuesOf V first (last - 1) := by
  unfold valuesOf
  rw [show (last - first + 1).toNat = (last - 1 - first + 1).toNat + 1 by omega]
  simp only [filesDown, upd_same, List.flatten_cons]
  refine ⟨?_, trivial⟩
  congr 2
  exact filesDown_congr (fun i h1 h2 => upd_ne _ _ (by omega))

/-- What a write, complete or not, leaves behind. -/
structure Stored (c : Bool) (Q : Int64 → Prop) (cfg : Cfg) (v : Val) (first last : Int) (V : Int → List Val) (s' : Store) (ok : Prop) : Prop where
  ex : ∃ first' last' H' U' V' new kept, CoreG c Q s' first' last' H' U' V' ∧ (c = true → ∀ i, first' < i → i ≤ last' → 1 ≤ U' i) ∧
    valuesOf V' first' last' = new ++ kept ∧ Kept cfg V first last kept ∧ (new = [] ∨ new = [v]) ∧ (c = true → ok → new = [v])

theorem CoreG.write (h : CoreG c P s first last H U V) (hne : c = true → ∀ i, first < i → i ≤ last → 1 ≤ U i) (cfg : Cfg) (v : Val)
    (hg : GeoOk cfg.size cfg.cap) (hfitc : c = true → needs cfg.size v.data.length ≤ cfg.cap) (hq : ∀ e, P e → Q e) (hv : Q v.stop) :
    Stored c Q cfg v first last V (dbWrite cfg v s).2 ((dbWrite cfg v s).1 = .written) := by
  have hp := h.prep hne cfg v hg hfitc
  unfold dbWrite
  rw [h.newMetric]
  simp only
  unfold metricWrite
  generalize writePrep cfg first last v s = p at hp
  cases hp with
  | ret r held s' first' last' H' U' V' core hheld hr ne hk =>
    refine ⟨first', last', H', U', V', [], _, (core.releaseAll hheld).mono hq, ne, rfl, hk, Or.inl rfl, ?_⟩
    intro _ hx
    exact absurd hx hr
  | go nr held s' first' last' H' U' V' core hheld hfit ne hk =>
    have hr' := core.rng
    have hrep := core.rep last' hr'.2 (by omega)
    obtain ⟨f', u', vs', e, hs, hc, hf, hvs, hcv, hu⟩ := hrep.write hq v hv hfit
    change writeBody (s'.file (H' last')) ((H' last').cap - U' last' - (chunks (H' last').size v).length) v = _ at e
    simp only [e]
    have core2 := core.setIn hq f' u' vs' hs hc hf
    have hheld2 : ∀ p ∈ held, HandleOk c (s'.setFile (H' last') f').next first' last' H' p.1 p.2 := hheld
    obtain ⟨ev1, ev2⟩ := valuesOf_last V' first' last' hr'.2 vs'
    have hne' : c = true → ∀ i, first' < i → i ≤ last' → 1 ≤ (upd U' last' u') i := by
      intro hc' i a b
      by_cases hi : i = last'
      · rw [hi, upd_same]; exact hu
      · rw [upd_ne _ _ hi]; exact ne hc' i a (by omega)
    rcases hvs with hvs | hvs
    · exact ⟨first', last', H', _, _, [v], _, core2.releaseAll hheld2, hne', by rw [ev1, hvs, ev2]; rfl, hk, Or.inr rfl, fun _ _ => rfl⟩
    · refine ⟨first', last', H', _, _, [], _, core2.releaseAll hheld2, hne', by rw [ev1, hvs, ev2]; rfl, hk, Or.inl rfl, fun hc' _ => ?_⟩
      have := hcv hc'
      rw [hvs] at this
      have hlen := congrArg List.length this
      simp at hlen
  | out x head nr held s' first' last' H' U' V' hcf core hheld hx hk =>
    have core2 := core.setOut x (writeBody (s'.file x) head v).2 hx
    exact ⟨first', last', H', U', V', [], _, (core2.releaseAll hheld).mono hq, fun hx => (by rw [hcf] at hx; cases hx), rfl, hk, Or.inl rfl,
      fun hx => (by rw [hcf] at hx; cases hx)⟩

/-- A crash between two chunks leaves the slot of the second one as it was. -/
theorem crashStore_zero {f : File} (hf : f.WF) (n : Int) (rs : List Rec) (k : Nat) (h0 : 0 ≤ n) (hn : n + rs.length ≤ f.cap) (hrs : ∀ r ∈ rs, Storable f.size r) :
    (crashStore f n rs k 0).record (n + k) = f.record (n + k) := by
  obtain ⟨f1, e1, _, _, _, _, _, oth, _⟩ := storeRecs_ok (rs.take k) f hf n h0 (by simp only [List.length_take]; omega) (fun r hr => hrs r (List.mem_of_mem_take hr))
  have e2 : crashStore f n rs k 0 = f1 := by
    unfold crashStore
    rw [e1]
    cases rs[k]? with
    | none => rfl
    | some r => simp only [List.take_zero, splice, List.append_nil, List.length_nil, Nat.add_zero, List.take_append_drop]
  rw [e2]
  exact (oth _ (Or.inr (by simp only [List.length_take]; omega))).1

theorem CoreG.crash (h : CoreG c P s first last H U V) (hne : c = true → ∀ i, first < i → i ≤ last → 1 ≤ U i) (cfg : Cfg) (v : Val)
    (hg : GeoOk cfg.size cfg.cap) (hfitc : c = true → v.data.length ≤ 55) (hq : ∀ e, P e → Q e) (hv : Q v.stop) (k j : Nat)
    (hkj : c = true → 1 ≤ k ∨ 1 ≤ j)
    (htorn : j = 0 ∨ ∀ r r', tornSlot cfg v k j s = some (.ok r', r) → r' = r ∨ tornBefore cfg v k s = some (.ok r')) :
    Stored c Q cfg v first last V (crashWrite cfg v k j s) False := by
  have hone : ∀ size cap : Nat, GeoOk size cap → v.data.length ≤ 55 → needs size v.data.length = 1 := by
    intro size cap hg hl
    unfold needs
    split
    · rfl
    · have := hg.1
      rw [Nat.div_eq_of_lt_le] <;> omega
  have hp := h.prep hne cfg v hg (fun hc => by rw [hone _ _ hg (hfitc hc)]; exact hg.2.2.1)
  revert htorn
  unfold crashWrite tornSlot tornBefore
  rw [h.newMetric]
  simp only
  generalize writePrep cfg first last v s = p at hp
  cases hp with
  | ret r held s' first' last' H' U' V' core hheld hr ne hk =>
    intro _
    exact ⟨first', last', H', U', V', [], _, core.reopen.mono hq, ne, rfl, hk, Or.inl rfl, fun _ hx => (by cases hx)⟩
  | go nr held s' first' last' H' U' V' core hheld hfit ne hk =>
    intro htorn
    simp only at htorn ⊢
    have hr' := core.rng
    have hrep := core.rep last' hr'.2 (by omega)
    have hgeo : 25 ≤ (H' last').size ∧ (H' last').size ≤ 24 + 65535 := geo_size hrep.geo
    rw [chunkList_eq v (H' last').size hgeo.1 hgeo.2] at htorn ⊢
    have hcr := hrep.crash hq v hv hfit k j (fun hc => by
        show (chunks (H' last').size v).length = 1
        rw [(chunks_spec (H' last').size v hgeo.1 hgeo.2).2.2.1]
        exact hone _ _ hrep.geo (hfitc hc)) (fun r r' h1 h2 => by
      change (chunks (H' last').size v)[k]? = some r at h1
      change (crashStore (s'.file (H' last')) ((H' last').cap - U' last' - (chunks (H' last').size v).length) (chunks (H' last').size v) k j).record
        ((H' last').cap - U' last' - (chunks (H' last').size v).length + k) = .ok r' at h2
      rcases htorn with hj | htorn
      · subst hj
        right
        rw [crashStore_zero hrep.wf _ _ k (by have := (List.getElem?_eq_some_iff.mp h1).1; show (0 : Int) ≤ (H' last').cap - U' last' - (chunks (H' last').size v).length; omega)
          (by show ((H' last').cap : Int) - U' last' - (chunks (H' last').size v).length + (chunks (H' last').size v).length ≤ (H' last').cap; omega)
          (fun r hr => chunks_storable _ v hgeo.1 hgeo.2 r hr)] at h2
        exact h2
      rcases htorn r r' (by rw [h1]; simp only [h2]) with h3 | h3
      · exact Or.inl h3
      · exact Or.inr (Option.some.inj h3))
    obtain ⟨f', u', vs', e, hs, hc, hf, hvs, hu, _⟩ := hcr
    change crashStore (s'.file (H' last')) ((H' last').cap - U' last' - (chunks (H' last').size v).length) (chunks (H' last').size v) k j = f' at e
    rw [e]
    have core2 := (core.setIn hq f' u' vs' hs hc hf).reopen
    obtain ⟨ev1, ev2⟩ := valuesOf_last V' first' last' hr'.2 vs'
    have hne' : c = true → ∀ i, first' < i → i ≤ last' → 1 ≤ (upd U' last' u') i := by
      intro hc' i a b
      by_cases hi : i = last'
      · rw [hi, upd_same]; exact hu (Or.inr ⟨hc', hkj hc'⟩)
      · rw [upd_ne _ _ hi]; exact ne hc' i a (by omega)
    rcases hvs with hvs | hvs
    · exact ⟨first', last', H', _, _, [v], _, core2, hne', by rw [ev1, hvs, ev2]; rfl, hk, Or.inr rfl, fun _ hx => (by cases hx)⟩
    · exact ⟨first', last', H', _, _, [], _, core2, hne', by rw [ev1, hvs, ev2]; rfl, hk, Or.inl rfl, fun _ hx => (by cases hx)⟩
  | out x head nr held s' first' last' H' U' V' hcf core hheld hx hk =>
    intro _
    simp only
    have core2 := (core.setOut x (crashStore (s'.file x) head (chunkList v x.size) k j) hx).reopen
    exact ⟨first', last', H', U', V', [], _, core2.mono hq, fun hx => (by rw [hcf] at hx; cases hx), rfl, hk, Or.inl rfl, fun _ hx => (by cases hx)⟩

end

end Rothko
