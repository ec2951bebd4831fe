import Verif.Lemmas.Visible
/-!
# C13–C20, C25: histories of one metric

`Reach s acc`: the state `s` is reachable from a metric without data by some sequence of writes, queries and restarts, for some behaviour of
the handle cache; `acc` lists the values whose write was acknowledged, newest first. Every written value fits an empty file
(values that do not are the subject of C19).
-/
namespace Rothko

private theorem mono_sublist {L acc : List Val} (h : L.Sublist acc) (hs : acc.Pairwise (fun a b => b.stop < a.stop)) :
    L.Pairwise (fun a b => b.stop < a.stop) := hs.sublist h

/-- In a state without data files a query finds nothing. -/
private theorem fresh_query {s : Store} (hd : s.dir = []) (hc : ∀ i, s.cache i = none) {σ : Type} (cfg : Cfg)
    (hg : GeoOk cfg.size cfg.cap) (bound : Int64) (cb : σ → Val → σ × Cb) (st : σ) :
    (s.dirExists = true → (dbQuery cfg bound cb st s).1 = (st, none)) ∧
    (s.dirExists = false → dbQuery cfg bound cb st s = ((st, some .noDir), s)) := by
  constructor
  · intro hde
    obtain ⟨s', H, e, inv⟩ := fresh_newMetric s hd hc cfg hg true (Or.inr hde)
    unfold dbQuery
    rw [e]
    obtain ⟨s2, e2, sd, cok⟩ := inv.core.dirInv.read cfg bound cb 1 1 (by omega) (by omega) st
    have : ((1 : Int) - 1 + 1).toNat = 1 := rfl
    simp only [this, e2]
    have hvis : visible bound (filesDown (fun _ : Int => (([] : List Val), smallestEnd [])) 1 1) = [] := by
      simp [filesDown, visible, before]
    rw [hvis]; rfl
  · intro hde
    unfold dbQuery newMetric
    rw [if_pos (by simp [hde])]

theorem stored_of_inv {P : Int → Int → Prop} {s : Store} {acc : List Val} (h : StInv P s acc) :
    ∃ stored dropped, acc = stored ++ dropped ∧ (acc ≠ [] → stored ≠ []) ∧
      ∀ cfg bound, GeoOk cfg.size cfg.cap → (∀ v ∈ acc, v.stop < bound) →
        (queryList cfg bound (fun _ _ => .more) s).1.1 = stored ∧
        (acc ≠ [] → (queryList cfg bound (fun _ _ => .more) s).1.2 = none) := by
  rcases h with ⟨hd, hc, ha⟩ | ⟨first, last, H, V, d, inv, _⟩
  · refine ⟨[], [], by rw [ha]; rfl, fun h => absurd ha h, ?_⟩
    intro cfg bound hg _
    refine ⟨?_, fun h => absurd ha h⟩
    obtain ⟨h1, h2⟩ := fresh_query hd hc cfg hg bound (fun (seen : List Val) v => (seen ++ [v], Cb.more)) []
    unfold queryList
    cases hde : s.dirExists with
    | true => rw [h1 hde]
    | false => rw [h2 hde]
  · have hr := inv.core.rng
    refine ⟨valuesOf V first last, d, inv.eq, ?_, ?_⟩
    · intro hne hst
      cases hV : V last with
      | nil => exact hne (inv.empty hV)
      | cons w ws =>
        have := mem_valuesOf (V := V) hr.2 (Int.le_refl last) (v := w) (by rw [hV]; simp)
        rw [hst] at this; cases this
    · intro cfg bound hg hb
      have hq := inv.query cfg bound (fun (seen : List Val) v => (seen ++ [v], Cb.more)) []
      have hall : MInv.shown V first last bound = before bound (valuesOf V first last) := by
        apply inv.shown_all
        intro i a b hne
        obtain ⟨v, hv, e⟩ := smallestEnd_mem hne
        rw [e]; apply hb; rw [inv.eq]
        exact List.mem_append_left _ (mem_valuesOf a b hv)
      have hbef : before bound (valuesOf V first last) = valuesOf V first last := by
        unfold before
        rw [List.filter_eq_self]
        intro v hv
        simpa using hb v (by rw [inv.eq]; exact List.mem_append_left _ hv)
      rw [hall, hbef, visit_collect] at hq
      unfold queryList
      rw [hq]
      exact ⟨rfl, fun _ => rfl⟩

/-- **C13.** In every reachable state the stored values are exactly the acknowledged ones, newest first, minus some of the oldest (those rotated away):
a query for everything calls back with exactly these, byte for byte. -/
theorem C13_acknowledged_stored {s : Store} {acc : List Val} (h : Reach s acc) :
    ∃ stored dropped, acc = stored ++ dropped ∧ (acc ≠ [] → stored ≠ []) ∧
      ∀ cfg bound, GeoOk cfg.size cfg.cap → (∀ v ∈ acc, v.stop < bound) →
        (queryList cfg bound (fun _ _ => .more) s).1.1 = stored ∧
        (acc ≠ [] → (queryList cfg bound (fun _ _ => .more) s).1.2 = none) := stored_of_inv h.inv

theorem forward_of_inv {P : Int → Int → Prop} {s : Store} {acc : List Val} (h : StInv P s acc) (cfg : Cfg) (v : Val) (hg : GeoOk cfg.size cfg.cap)
    (hfit : needs cfg.size v.data.length ≤ cfg.cap) :
    ((dbWrite cfg v s).1 = .written → ∀ w ∈ acc, w.stop < v.stop) ∧
    ((∃ w ∈ acc, v.stop ≤ w.stop) → (dbWrite cfg v s).1 = .notWritten) ∧
    ((dbWrite cfg v s).1 ≠ .written →
      (dbWrite cfg v s).2.dir = s.dir ∧ (dbWrite cfg v s).2.disk = s.disk ∧
      ∀ (σ : Type) (cfg' : Cfg) (bound : Int64) (cb : σ → Val → σ × Cb) (st : σ),
        (dbQuery cfg' bound cb st (dbWrite cfg v s).2).1 = (dbQuery cfg' bound cb st s).1) := by
  rcases h with ⟨hd, hc, ha⟩ | ⟨first, last, H, V, d, inv, _⟩
  · obtain ⟨s', H, e, inv⟩ := fresh_newMetric s hd hc cfg hg false (Or.inl rfl)
    have hw := inv.write cfg v hg hfit
    have he : dbWrite cfg v s' = dbWrite cfg v s := by
      unfold dbWrite; rw [e, inv.core.dirInv.newMetric]
    rw [he] at hw
    subst ha
    generalize dbWrite cfg v s = r at hw
    cases hw with
    | notLater _ w t ha => cases ha
    | offByOne _ w ha => cases ha
    | here s2 hl => exact ⟨fun _ => hl, fun ⟨w, hw, _⟩ => (by cases hw), fun hx => absurd rfl hx⟩
    | rotate s2 h2 hl => exact ⟨fun _ => hl, fun ⟨w, hw, _⟩ => (by cases hw), fun hx => absurd rfl hx⟩
  · have hw := inv.write cfg v hg hfit
    generalize dbWrite cfg v s = r at hw
    have hnot : (∀ w ∈ acc, w.stop < v.stop) → ¬ ∃ w ∈ acc, v.stop ≤ w.stop := by
      rintro hl ⟨w, hw, hle⟩
      have := hl w hw
      rw [Int64.lt_iff_toInt_lt] at this
      rw [Int64.le_iff_toInt_le] at hle
      omega
    cases hw with
    | notLater s2 w t ha hle sd inv' =>
      refine ⟨fun hx => (by cases hx), fun _ => rfl, fun _ => ⟨sd.dir, sd.disk, ?_⟩⟩
      intro σ cfg' bound cb st
      rw [inv'.query, inv.query]
    | offByOne s2 w ha hlt h1 h2 _ sd inv' =>
      refine ⟨fun hx => (by cases hx), fun hx => ?_, fun _ => ⟨sd.dir, sd.disk, ?_⟩⟩
      · exact absurd hx (hnot (by rw [ha]; intro x hx; rw [List.mem_singleton.mp hx]; exact hlt))
      · intro σ cfg' bound cb st
        rw [inv'.query, inv.query]
    | here s2 hl => exact ⟨fun _ => hl, fun hx => absurd hx (hnot hl), fun hx => absurd rfl hx⟩
    | rotate s2 h2 hl => exact ⟨fun _ => hl, fun hx => absurd hx (hnot hl), fun hx => absurd rfl hx⟩

/-- **C14.** A write is acknowledged only if it ends strictly after everything acknowledged before; if it does not, it reports "not written". Whenever a write is
not acknowledged, the files are unchanged and every query answers as before. -/
theorem C14_only_forward {s : Store} {acc : List Val} (h : Reach s acc) (cfg : Cfg) (v : Val) (hg : GeoOk cfg.size cfg.cap)
    (hfit : needs cfg.size v.data.length ≤ cfg.cap) :
    ((dbWrite cfg v s).1 = .written → ∀ w ∈ acc, w.stop < v.stop) ∧
    ((∃ w ∈ acc, v.stop ≤ w.stop) → (dbWrite cfg v s).1 = .notWritten) ∧
    ((dbWrite cfg v s).1 ≠ .written →
      (dbWrite cfg v s).2.dir = s.dir ∧ (dbWrite cfg v s).2.disk = s.disk ∧
      ∀ (σ : Type) (cfg' : Cfg) (bound : Int64) (cb : σ → Val → σ × Cb) (st : σ),
        (dbQuery cfg' bound cb st (dbWrite cfg v s).2).1 = (dbQuery cfg' bound cb st s).1) := forward_of_inv h.inv cfg v hg hfit

theorem sound_of_inv {P : Int → Int → Prop} {s : Store} {acc : List Val} (h : StInv P s acc) (cfg : Cfg) (hg : GeoOk cfg.size cfg.cap) (bound : Int64) :
    (s.dirExists = false → acc = [] ∧ ∀ (σ : Type) (cb : σ → Val → σ × Cb) (st : σ), dbQuery cfg bound cb st s = ((st, some .noDir), s)) ∧
    (s.dirExists = true → ∃ L : List Val, L.Sublist acc ∧ (∀ v ∈ L, v.stop < bound) ∧ L.Pairwise (fun a b => b.stop < a.stop) ∧
      ∀ (σ : Type) (cb : σ → Val → σ × Cb) (st : σ),
        (dbQuery cfg bound cb st s).1 = ((visit cb L st).1, (visit cb L st).2.error)) := by
  rcases h with ⟨hd, hc, ha⟩ | ⟨first, last, H, V, d, inv, _⟩
  · refine ⟨fun hde => ⟨ha, fun σ cb st => (fresh_query hd hc cfg hg bound cb st).2 hde⟩, fun hde =>
      ⟨[], List.nil_sublist _, fun v hv => (by cases hv), List.Pairwise.nil, fun σ cb st => ?_⟩⟩
    rw [(fresh_query hd hc cfg hg bound cb st).1 hde]; rfl
  · refine ⟨fun hde => (by rw [inv.core.ex] at hde; cases hde), fun _ => ⟨MInv.shown V first last bound, inv.shown_sublist bound,
      visible_before bound _, mono_sublist (inv.shown_sublist bound) inv.sorted, fun σ cb st => inv.query cfg bound cb st⟩⟩

/-- **C15.** Every query calls back with a list of values that were acknowledged (in the same order, each at most once), all ending strictly before the bound, in strictly
decreasing order of their ends, and stops exactly when the callback says so. If the metric's directory does not exist the query fails with no callback. -/
theorem C15_query_sound {s : Store} {acc : List Val} (h : Reach s acc) (cfg : Cfg) (hg : GeoOk cfg.size cfg.cap) (bound : Int64) :
    (s.dirExists = false → acc = [] ∧ ∀ (σ : Type) (cb : σ → Val → σ × Cb) (st : σ), dbQuery cfg bound cb st s = ((st, some .noDir), s)) ∧
    (s.dirExists = true → ∃ L : List Val, L.Sublist acc ∧ (∀ v ∈ L, v.stop < bound) ∧ L.Pairwise (fun a b => b.stop < a.stop) ∧
      ∀ (σ : Type) (cb : σ → Val → σ × Cb) (st : σ),
        (dbQuery cfg bound cb st s).1 = ((visit cb L st).1, (visit cb L st).2.error)) := sound_of_inv h.inv cfg hg bound

/-- The newest value of the newest file is the newest acknowledged one. -/
private theorem newest_ne {s : Store} {acc : List Val} {first last : Int} {H : Int → Handle} {V : Int → List Val} {d : List Val}
    (inv : MInv s acc first last H V d) (hne : acc ≠ []) : V last ≠ [] := fun hV => hne (inv.empty hV)

private theorem older_lt {s : Store} {acc : List Val} {first last : Int} {H : Int → Handle} {V : Int → List Val} {d : List Val}
    (inv : MInv s acc first last H V d) {i : Int} (h1 : first ≤ i) (h2 : i < last) {u w : Val} (hu : u ∈ V i) (hw : w ∈ V last) : u.stop < w.stop := by
  have hs := inv.sorted
  rw [inv.eq] at hs
  have hs := (List.pairwise_append.mp hs).1
  unfold valuesOf at hs
  rw [show (last - first + 1).toNat = (last - 1 - first + 1).toNat + 1 by omega] at hs
  simp only [filesDown, List.flatten_cons] at hs
  exact (List.pairwise_append.mp hs).2.2 w hw u (mem_valuesOf (first := first) (last := last - 1) h1 (by omega) hu)

/-- **C16 (partial).** Queries are complete for every bound above some end (other than 0) stored in the newest file. In particular every query whose bound is
above the newest value's end returns everything that is stored. Missing: bounds at or below all ends in the newest file, where the claim is false
(`C16_complete_refuted`). -/
theorem C16_complete_partial {s : Store} {acc : List Val} (h : Reach s acc) (hne : acc ≠ []) :
    ∃ newest older dropped, acc = newest ++ older ++ dropped ∧ newest ≠ [] ∧
      ∀ (cfg : Cfg) (bound : Int64), (∃ w ∈ newest, w.stop ≠ 0 ∧ w.stop < bound) →
        (queryList cfg bound (fun _ _ => .more) s).1 = (before bound (newest ++ older), none) := by
  rcases h.inv with ⟨hd, hc, ha⟩ | ⟨first, last, H, V, d, inv, _⟩
  · exact absurd ha hne
  · have hr := inv.core.rng
    have hval : valuesOf V first last = V last ++ (filesDown V (last - first).toNat (last - 1)).flatten := by
      unfold valuesOf
      rw [show (last - first + 1).toNat = (last - first).toNat + 1 by omega]
      rfl
    refine ⟨V last, (filesDown V (last - first).toNat (last - 1)).flatten, d, by rw [← hval]; exact inv.eq, newest_ne inv hne, ?_⟩
    intro cfg bound ⟨w, hw, hw0, hwb⟩
    have hq := inv.query cfg bound (fun (seen : List Val) v => (seen ++ [v], Cb.more)) []
    have hsv : (V last).Pairwise (fun a b => b.stop < a.stop) := by
      have hs := inv.sorted
      rw [inv.eq, hval, List.append_assoc] at hs
      exact (List.pairwise_append.mp hs).1
    have hall : MInv.shown V first last bound = before bound (valuesOf V first last) := by
      apply inv.shown_all
      intro i a b hne
      by_cases hi : i = last
      · subst hi
        have := (smallestEnd_le hsv hw hw0).1
        rw [Int64.le_iff_toInt_le] at this
        rw [Int64.lt_iff_toInt_lt] at hwb ⊢
        omega
      · obtain ⟨u, hu, e⟩ := smallestEnd_mem hne
        rw [e]
        have := older_lt inv a (by omega) hu hw
        rw [Int64.lt_iff_toInt_lt] at this hwb ⊢
        omega
    rw [hall, visit_collect, hval] at hq
    unfold queryList
    rw [hq]
    rfl

theorem latest_of_inv {P : Int → Int → Prop} {s : Store} {acc : List Val} (h : StInv P s acc) (cfg : Cfg) (hg : GeoOk cfg.size cfg.cap) :
    (∀ w t, acc = w :: t → w.stop < 0x7fffffffffffffff → (dbQueryLatest cfg s).1 = (some w, none)) ∧
    (acc = [] → (dbQueryLatest cfg s).1.1 = none) := by
  constructor
  · intro w t ha hw
    rcases h with ⟨hd, hc, ha'⟩ | ⟨first, last, H, V, d, inv, _⟩
    · rw [ha] at ha'; cases ha'
    · have hne : acc ≠ [] := by rw [ha]; simp
      have hall : MInv.shown V first last 0x7fffffffffffffff = before 0x7fffffffffffffff (valuesOf V first last) := by
        apply inv.shown_all
        intro i a b hne
        obtain ⟨v, hv, e⟩ := smallestEnd_mem hne
        rw [e]
        have hmem : v ∈ acc := by rw [inv.eq]; exact List.mem_append_left _ (mem_valuesOf a b hv)
        have hs := inv.sorted
        rw [ha] at hmem hs
        rcases List.mem_cons.mp hmem with rfl | hm
        · exact hw
        · have := (List.pairwise_cons.mp hs).1 v hm
          rw [Int64.lt_iff_toInt_lt] at this hw ⊢; omega
      cases hV : V last with
      | nil => exact absurd hV (newest_ne inv hne)
      | cons x xs =>
        obtain ⟨t', ht'⟩ := inv.newest hV
        have hxw : x = w := by rw [ha] at ht'; cases ht'; rfl
        subst hxw
        have hval : ∃ r, valuesOf V first last = x :: r := by
          have hr := inv.core.rng
          unfold valuesOf
          rw [show (last - first + 1).toNat = (last - first).toNat + 1 by omega]
          simp only [filesDown, hV, List.flatten_cons, List.cons_append]
          exact ⟨_, rfl⟩
        obtain ⟨r, hval⟩ := hval
        unfold dbQueryLatest
        rw [inv.query, hall, hval]
        unfold before
        rw [List.filter_cons_of_pos (by simpa using hw)]
        rfl
  · intro ha
    rcases h with ⟨hd, hc, _⟩ | ⟨first, last, H, V, d, inv, _⟩
    · obtain ⟨h1, h2⟩ := fresh_query hd hc cfg hg 0x7fffffffffffffff (fun (_ : Option Val) v => (some v, Cb.stop)) none
      unfold dbQueryLatest
      cases hde : s.dirExists with
      | true => rw [h1 hde]
      | false => rw [h2 hde]
    · unfold dbQueryLatest
      rw [inv.query]
      have : MInv.shown V first last 0x7fffffffffffffff = [] := by
        have := inv.shown_sublist 0x7fffffffffffffff
        rw [ha] at this
        exact List.sublist_nil.mp this
      rw [this]; rfl

/-- **C17.** `QueryLatest` returns the newest acknowledged value, if its end is not the largest 64 bit integer; with no acknowledged value it
returns nothing. A value that ends at the largest representable time is outside: there it is false (`C17_latest_refuted`). -/
theorem C17_latest {s : Store} {acc : List Val} (h : Reach s acc) (cfg : Cfg) (hg : GeoOk cfg.size cfg.cap) :
    (∀ w t, acc = w :: t → w.stop < 0x7fffffffffffffff → (dbQueryLatest cfg s).1 = (some w, none)) ∧
    (acc = [] → (dbQueryLatest cfg s).1.1 = none) := latest_of_inv h.inv cfg hg

/-- **C18.** With a positive file limit a metric never has more than limit + 1 data files; with limit zero (or less) nothing acknowledged is ever dropped. -/
theorem C18_retention {max : Int} {s : Store} {acc : List Val} (h : ReachMax max s acc) :
    (0 < max → (s.dir.length : Int) ≤ max + 1) ∧
    (max ≤ 0 → ∀ cfg bound, GeoOk cfg.size cfg.cap → (∀ v ∈ acc, v.stop < bound) →
      (queryList cfg bound (fun _ _ => .more) s).1.1 = acc) := by
  have hreach : Reach s acc := by
    obtain ⟨de, hit, ops, hok, hrun⟩ := h
    exact ⟨de, hit, ops, fun o ho => (hok o ho).1, hrun⟩
  constructor
  · intro hm
    rcases h.inv with ⟨hd, hc, ha⟩ | ⟨first, last, H, V, d, inv, hP⟩
    · rw [hd]; simp; omega
    · have hr := inv.core.rng
      rw [inv.core.count]
      have := hP.1 hm
      omega
  · intro hm cfg bound hg hb
    rcases h.inv with ⟨hd, hc, ha⟩ | ⟨first, last, H, V, d, inv, hP⟩
    · obtain ⟨stored, dropped, e, _, hq⟩ := C13_acknowledged_stored hreach
      rw [ha] at e
      have : stored = [] := (List.append_eq_nil_iff.mp e.symm).1
      rw [(hq cfg bound hg hb).1, this, ha]
    · have hd : d = [] := inv.one (hP.2 hm)
      have hq := inv.query cfg bound (fun (seen : List Val) v => (seen ++ [v], Cb.more)) []
      have hall : MInv.shown V first last bound = before bound (valuesOf V first last) := by
        apply inv.shown_all
        intro i a b hne
        obtain ⟨v, hv, e⟩ := smallestEnd_mem hne
        rw [e]; apply hb; rw [inv.eq]
        exact List.mem_append_left _ (mem_valuesOf a b hv)
      have hbef : before bound (valuesOf V first last) = valuesOf V first last := by
        unfold before
        rw [List.filter_eq_self]
        intro v hv
        simpa using hb v (by rw [inv.eq]; exact List.mem_append_left _ hv)
      rw [hall, hbef, visit_collect] at hq
      unfold queryList
      rw [hq, inv.eq, hd]; simp

/-- A query for everything, file by file from the newest. -/
theorem MInv.queryAll {s : Store} {acc : List Val} {first last : Int} {H : Int → Handle} {V : Int → List Val} {d : List Val} (inv : MInv s acc first last H V d)
    (bound : Int64) (cfg' : Cfg) (hb : ∀ w ∈ acc, w.stop < bound) : (queryList cfg' bound (fun _ _ => .more) s).1 = ((filesDown V (last - first + 1).toNat last).flatten, none) := by
  have hq := inv.query cfg' bound (fun (seen : List Val) v => (seen ++ [v], Cb.more)) []
  have hall : MInv.shown V first last bound = before bound (valuesOf V first last) := by
    apply inv.shown_all
    intro i a b hne
    obtain ⟨v, hv, e⟩ := smallestEnd_mem hne
    rw [e]; apply hb; rw [inv.eq]
    exact List.mem_append_left _ (mem_valuesOf a b hv)
  have hbef : before bound (valuesOf V first last) = valuesOf V first last := by
    unfold before
    rw [List.filter_eq_self]
    intro v hv
    simpa using hb v (by rw [inv.eq]; exact List.mem_append_left _ hv)
  rw [hall, hbef, visit_collect] at hq
  unfold queryList
  rw [hq]; rfl

/-- **C18, one step.** There is a division of the stored values into data files (as many as the directory lists) such that an acknowledged write either goes into the
newest file, or into a new file; only in the second case, and only if there were already more files than a positive limit, the oldest file is
dropped, and only that one. -/
theorem C18_only_oldest_dropped {s : Store} {acc : List Val} (h : Reach s acc) (hne : acc ≠ []) (cfg : Cfg) (v : Val) (hg : GeoOk cfg.size cfg.cap)
    (hfit : needs cfg.size v.data.length ≤ cfg.cap) (hw : (dbWrite cfg v s).1 = .written) :
    ∃ (files : List (List Val)) (files' : List (List Val)), files.length = s.dir.length ∧ files'.length = (dbWrite cfg v s).2.dir.length ∧
      (∀ bound cfg', GeoOk cfg'.size cfg'.cap → (∀ w ∈ v :: acc, w.stop < bound) →
        (queryList cfg' bound (fun _ _ => .more) s).1 = (files.flatten, none) ∧
        (queryList cfg' bound (fun _ _ => .more) (dbWrite cfg v s).2).1 = (files'.flatten, none)) ∧
      ((∃ f rest, files = f :: rest ∧ files' = (v :: f) :: rest) ∨
       (files' = [v] :: files ∧ ¬ (cfg.max > 0 ∧ (files.length : Int) > cfg.max)) ∨
       (files' = [v] :: files.dropLast ∧ cfg.max > 0 ∧ (files.length : Int) > cfg.max)) := by
  rcases h.inv with ⟨hd, hc, ha⟩ | ⟨first, last, H, V, d, inv, _⟩
  · exact absurd ha hne
  · have hr := inv.core.rng
    have hstep := inv.write cfg v hg hfit
    generalize hres : dbWrite cfg v s = r at hstep hw
    cases hstep with
    | notLater => cases hw
    | offByOne => cases hw
    | here s2 hl inv' =>
      refine ⟨filesDown V (last - first + 1).toNat last, filesDown (upd V last (v :: V last)) (last - first + 1).toNat last,
        by rw [filesDown_length, inv.core.count], by rw [filesDown_length, inv'.core.count], ?_, Or.inl ?_⟩
      · intro bound cfg' _ hb
        exact ⟨MInv.queryAll inv bound cfg' (fun w hw => hb w (List.mem_cons_of_mem _ hw)), MInv.queryAll inv' bound cfg' hb⟩
      · rw [show (last - first + 1).toNat = (last - first).toNat + 1 by omega]
        refine ⟨V last, filesDown V (last - first).toNat (last - 1), rfl, ?_⟩
        simp only [filesDown, upd_same]
        congr 1
        exact filesDown_congr (fun i a b => upd_ne _ _ (by omega))
    | rotate s2 h2 hl first' d' hf inv' =>
      refine ⟨filesDown V (last - first + 1).toNat last, filesDown (upd V (last + 1) [v]) (last + 1 - first' + 1).toNat (last + 1),
        by rw [filesDown_length, inv.core.count], by rw [filesDown_length, inv'.core.count], ?_, Or.inr ?_⟩
      · intro bound cfg' _ hb
        exact ⟨MInv.queryAll inv bound cfg' (fun w hw => hb w (List.mem_cons_of_mem _ hw)), MInv.queryAll inv' bound cfg' hb⟩
      · rcases hf with ⟨rfl, _, hx⟩ | ⟨rfl, _, hx⟩
        · left
          rw [filesDown_length]
          refine ⟨?_, by omega⟩
          rw [show (last + 1 - first' + 1).toNat = (last - first' + 1).toNat + 1 by omega]
          simp only [filesDown, upd_same]
          congr 1
          rw [show last + 1 - 1 = last by omega]
          exact filesDown_congr (fun i a b => upd_ne _ _ (by omega))
        · right
          rw [filesDown_length]
          refine ⟨?_, by omega, by omega⟩
          rw [show (last - first + 1).toNat = (last - first).toNat + 1 by omega, filesDown_snoc, List.dropLast_concat,
            show (last + 1 - (first + 1) + 1).toNat = (last - first).toNat + 1 by omega]
          simp only [filesDown, upd_same]
          congr 1
          rw [show last + 1 - 1 = last by omega]
          exact filesDown_congr (fun i a b => upd_ne _ _ (by omega))

theorem accepts_of_inv {P : Int → Int → Prop} {s : Store} {acc : List Val} (h : StInv P s acc) (cfg : Cfg) (v : Val) (hg : GeoOk cfg.size cfg.cap)
    (hfit : needs cfg.size v.data.length ≤ cfg.cap) (hlater : ∀ w ∈ acc, w.stop < v.stop) (h1 : acc.length ≠ 1) :
    (dbWrite cfg v s).1 = .written := by
  rcases h with ⟨hd, hc, ha⟩ | ⟨first, last, H, V, d, inv, _⟩
  · obtain ⟨s', H, e, inv⟩ := fresh_newMetric s hd hc cfg hg false (Or.inl rfl)
    have hw := inv.write cfg v hg hfit
    have he : dbWrite cfg v s' = dbWrite cfg v s := by
      unfold dbWrite; rw [e, inv.core.dirInv.newMetric]
    rw [he] at hw
    subst ha
    generalize dbWrite cfg v s = r at hw
    cases hw with
    | notLater _ w t ha => cases ha
    | offByOne _ w ha => cases ha
    | here s2 hl => rfl
    | rotate s2 h2 hl => rfl
  · have hw := inv.write cfg v hg hfit
    generalize dbWrite cfg v s = r at hw
    cases hw with
    | notLater s2 w t ha hle sd inv' =>
      have := hlater w (by rw [ha]; simp)
      rw [Int64.lt_iff_toInt_lt] at this
      rw [Int64.le_iff_toInt_le] at hle
      omega
    | offByOne s2 w ha => rw [ha] at h1; simp at h1
    | here s2 hl => rfl
    | rotate s2 h2 hl => rfl

/-- **C20 (partial).** A value that fits an empty file and ends after everything acknowledged is accepted, unless exactly one value has been acknowledged so far.
Missing: that one case, where a value needing the whole file is refused (`C20_fits_refuted`). -/
theorem C20_fits_partial {s : Store} {acc : List Val} (h : Reach s acc) (cfg : Cfg) (v : Val) (hg : GeoOk cfg.size cfg.cap)
    (hfit : needs cfg.size v.data.length ≤ cfg.cap) (hlater : ∀ w ∈ acc, w.stop < v.stop) (h1 : acc.length ≠ 1) :
    (dbWrite cfg v s).1 = .written := accepts_of_inv h.inv cfg v hg hfit hlater h1

/-- **C25 (partial).** Queries never change the directory or the contents of files of a metric that has data files or no directory. Missing: a directory
that exists only because of metrics with longer names (`C25_query_creates_refuted`). -/
theorem C25_read_only_partial {s : Store} {acc : List Val} (h : Reach s acc) (hs : s.dir ≠ [] ∨ s.dirExists = false) (cfg : Cfg)
    {σ : Type} (bound : Int64) (cb : σ → Val → σ × Cb) (st : σ) :
    (dbQuery cfg bound cb st s).2.dir = s.dir ∧ (dbQuery cfg bound cb st s).2.disk = s.disk ∧
      (dbQuery cfg bound cb st s).2.dirExists = s.dirExists := by
  rcases h.inv with ⟨hd, hc, ha⟩ | ⟨first, last, H, V, d, inv, _⟩
  · rcases hs with hs | hs
    · exact absurd hd hs
    · unfold dbQuery newMetric
      rw [if_pos (by simp [hs])]
      exact ⟨rfl, rfl, rfl⟩
  · obtain ⟨s', e, sd, _⟩ := inv.core.dirInv.query cfg bound cb st
    rw [e]
    exact ⟨sd.dir, sd.disk, sd.dirExists⟩

end Rothko
