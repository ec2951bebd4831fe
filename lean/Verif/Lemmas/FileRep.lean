import Verif.Lemmas.Read
import Verif.Spec.History
import Verif.Props.File
import Verif.Props.Head
/-! Representation of a list of values (newest first) in one data file. -/
namespace Rothko

theorem setRecord_length (f f' : File) (hf : f.WF) (n : Int) (r : Rec) (hs : r.data.length = r.size.toNat) (h : f.setRecord n r = .ok f') :
    f'.data.length = f.data.length := by
  unfold File.setRecord at h
  by_cases ho : f.oob n = true
  · rw [if_pos ho] at h; cases h
  · rw [if_neg ho] at h
    by_cases hfit : r.marshalledSize > f.size
    · rw [if_pos hfit] at h; cases h
    · rw [if_neg hfit, marshal_eq r hs] at h
      cases h
      apply splice_length
      simp [File.oob] at ho
      have := File.slot_end hf (n := n.toNat) (by omega)
      simp only [Rec.marshalledSize, show recordHeaderSize = 24 from rfl] at hfit
      simp only [List.length_append, head20_length, beBytes_length]
      omega

theorem recordsFrom_cons (f : File) (n : Int) (h : n < f.cap) : f.recordsFrom n = f.record n :: f.recordsFrom (n + 1) := by
  unfold File.recordsFrom
  have h1 : ((f.cap : Int) - n).toNat = ((f.cap : Int) - (n + 1)).toNat + 1 := by omega
  rw [h1, List.range_succ_eq_map]
  simp only [List.map_cons, List.map_map]
  congr 1
  · simp
  · apply List.map_congr_left
    intro i _
    simp only [Function.comp_apply]
    congr 1
    omega

theorem recordsFrom_nil (f : File) (n : Int) (h : f.cap ≤ n) : f.recordsFrom n = [] := by
  unfold File.recordsFrom
  rw [show ((f.cap : Int) - n).toNat = 0 by omega]; rfl

theorem recordsFrom_congr (f f' : File) (n : Int) (hc : f'.cap = f.cap) (h : ∀ m, n ≤ m → f'.record m = f.record m) :
    f'.recordsFrom n = f.recordsFrom n := by
  unfold File.recordsFrom
  rw [hc]
  apply List.map_congr_left
  intro i _
  exact h _ (by omega)

/-- A chunk that can be stored in a slot of the file. -/
def Storable (size : Nat) (r : Rec) : Prop := r.version = 1 ∧ r.data.length = r.size.toNat ∧ 24 + r.data.length ≤ size

theorem storeRecs_ok (rs : List Rec) (f : File) (hf : f.WF) (n : Int) (h0 : 0 ≤ n) (hn : n + rs.length ≤ f.cap)
    (hrs : ∀ r ∈ rs, Storable f.size r) :
    ∃ f', storeRecs f n rs = (none, f') ∧ f'.WF ∧ f'.size = f.size ∧ f'.cap = f.cap ∧ f'.data.length = f.data.length ∧
      f'.metadata = f.metadata ∧
      (∀ m, (m < n ∨ n + rs.length ≤ m) → f'.record m = f.record m ∧ f'.hasRecord m = f.hasRecord m) ∧
      (∀ m, n ≤ m → m < n + rs.length → f'.hasRecord m = true) ∧
      f'.recordsFrom n = rs.map .ok ++ f.recordsFrom (n + rs.length) := by
  induction rs generalizing f n with
  | nil =>
    refine ⟨f, rfl, hf, rfl, rfl, rfl, rfl, fun m _ => ⟨rfl, rfl⟩, ?_, ?_⟩
    · intro m h1 h2; simp at h2; omega
    · simp
  | cons r rs ih =>
    have hr := hrs r List.mem_cons_self
    have hlen : ((r :: rs).length : Int) = rs.length + 1 := by simp
    obtain ⟨f1, e1, w1, s1, c1, rec1, has1, oth1, m1⟩ := C12_store_slot f hf n h0 (by omega) r hr.1 hr.2.1 hr.2.2
    have l1 := setRecord_length f f1 hf n r hr.2.1 e1
    obtain ⟨f2, e2, w2, s2, c2, l2, m2, oth2, has2, rf2⟩ := ih f1 w1 (n + 1) (by omega) (by omega)
      (fun x hx => by rw [s1]; exact hrs x (List.mem_cons_of_mem _ hx))
    refine ⟨f2, ?_, w2, by rw [s2, s1], by rw [c2, c1], by rw [l2, l1], by rw [m2, m1], ?_, ?_, ?_⟩
    · simp only [storeRecs, e1, e2]
    · intro m hm
      obtain ⟨a, b⟩ := oth2 m (by omega)
      obtain ⟨c, d⟩ := oth1 m (by omega)
      exact ⟨a.trans c, b.trans d⟩
    · intro m h1 h2
      by_cases hm : m = n
      · subst hm
        rw [(oth2 m (by omega)).2, has1]
      · exact has2 m (by omega) (by omega)
    · rw [recordsFrom_cons f2 n (by rw [c2, c1]; omega), rf2, (oth2 n (by omega)).1, rec1]
      simp only [List.map_cons, List.cons_append, hlen]
      congr 2
      rw [show n + 1 + (rs.length : Int) = n + (rs.length + 1) by omega]
      exact recordsFrom_congr _ _ _ c1 (fun m hm => (oth1 m (by omega)).1)

/-- All chunks of a list of values, newest value first. -/
def allChunks (size : Nat) (vs : List Val) : List Rec := vs.flatMap (chunks size)

/-- Number of slots a list of values takes. -/
def used (size : Nat) (vs : List Val) : Nat := (allChunks size vs).length

/-- The value of the metadata field `SmallestEnd` after these writes (newest first). -/
def smallestEnd : List Val → Int64
  | [] => 0
  | v :: vs => if smallestEnd vs = 0 ∨ v.stop < smallestEnd vs then v.stop else smallestEnd vs

/-- What a reader of the file sees: the values, and the recorded smallest end. -/
structure FileView (f : File) (vs : List Val) (se : Int64) : Prop where
  geo : GeoOk f.size f.cap
  len : f.data.length = f.size * (f.cap + 1)
  fits : used f.size vs ≤ f.cap
  recs : f.recordsFrom (f.cap - used f.size vs) = (allChunks f.size vs).map .ok
  head : f.headPointer = .ok (f.cap - used f.size vs - 1)
  md : ∃ m, f.metadata = .ok m ∧ m.size.toInt = f.size ∧ m.smallestEnd = se

/-- The file holds exactly these values, and nothing else. -/
structure FileRep (f : File) (vs : List Val) : Prop where
  geo : GeoOk f.size f.cap
  len : f.data.length = f.size * (f.cap + 1)
  fits : used f.size vs ≤ f.cap
  recs : f.recordsFrom (f.cap - used f.size vs) = (allChunks f.size vs).map .ok
  has : ∀ n : Int, 0 ≤ n → n < f.cap → (f.hasRecord n = true ↔ (f.cap : Int) - used f.size vs ≤ n)
  md : ∃ m, f.metadata = .ok m ∧ m.size.toInt = f.size ∧ m.head.toInt = f.cap - used f.size vs - 1 ∧ m.smallestEnd = smallestEnd vs

theorem wf_of_len {f : File} (geo : GeoOk f.size f.cap) (len : f.data.length = f.size * (f.cap + 1)) : f.WF := by
  refine ⟨?_, by have := geo.1; omega⟩
  rw [len, Nat.mul_comm]; exact Nat.le_refl _

theorem FileRep.wf {f : File} {vs : List Val} (h : FileRep f vs) : f.WF := wf_of_len h.geo h.len
theorem FileView.wf {f : File} {vs : List Val} {se : Int64} (h : FileView f vs se) : f.WF := wf_of_len h.geo h.len

theorem FileRep.view {f : File} {vs : List Val} (h : FileRep f vs) : FileView f vs (smallestEnd vs) := by
  obtain ⟨m, hm, h1, h2, h3⟩ := h.md
  refine ⟨h.geo, h.len, h.fits, h.recs, ?_, m, hm, h1, h3⟩
  unfold File.headPointer
  rw [hm]
  simp only
  have hfits := h.fits
  have hcap := h.geo.2.2.1
  by_cases hneg : m.head.toInt < 0
  · rw [C11_full_hint _ _ _ hneg]
    simp only [h2]
  · rw [C11_head_from_any_hint f.hasRecord f.cap (f.cap - used f.size vs) m.head.toInt (by omega) (by omega) h.has (by omega) (by omega)]

theorem FileView.open {f : File} {vs : List Val} {se : Int64} (h : FileView f vs se) : openFile f.data = .ok f := by
  obtain ⟨m, hm, h1, _⟩ := h.md
  exact openFile_wf f h.wf m hm h1 h.len

theorem geo_size {size cap : Nat} (h : GeoOk size cap) : 25 ≤ size ∧ size ≤ 24 + 65535 := ⟨by have := h.1; omega, h.2.1⟩

theorem geo_cap {size cap : Nat} (h : GeoOk size cap) : cap < 2147483648 ∧ size < 2147483648 := by
  obtain ⟨a, b, c, d⟩ := h
  exact ⟨Nat.lt_of_le_of_lt (Nat.le_mul_of_pos_left cap (by omega)) d, by omega⟩

/-- Reading one file. -/
theorem FileView.read {f : File} {vs : List Val} {se : Int64} (h : FileView f vs se) {σ : Type} (bound : Int64) (cb : σ → Val → σ × Cb) (st : σ) :
    readFile bound cb f st = if se ≥ bound then (st, .stop) else visit cb (before bound vs) st := by
  obtain ⟨m, hm, h1, h2⟩ := h.md
  unfold readFile
  rw [hm]
  simp only [h2, h.head]
  split
  · rfl
  · rw [show (f.cap : Int) - used f.size vs - 1 + 1 = f.cap - used f.size vs by omega, h.recs]
    exact readSlots_values bound cb f.size (geo_size h.geo).1 (geo_size h.geo).2 vs st

/-- What the metric layer needs from a file: it opens with this geometry, and reading it calls back with the given values. -/
structure FileSees (f : File) (vs : List Val) (se : Int64) : Prop where
  opens : openFile f.data = .ok f
  reads : ∀ {σ : Type} (bound : Int64) (cb : σ → Val → σ × Cb) (st : σ),
    readFile bound cb f st = if se ≥ bound then (st, .stop) else visit cb (before bound vs) st

theorem FileView.sees {f : File} {vs : List Val} {se : Int64} (h : FileView f vs se) : FileSees f vs se := ⟨h.open, h.read⟩

theorem int64_toInt_ofInt (x : Int) (h1 : -2147483648 ≤ x) (h2 : x < 2147483648) : (Int64.ofInt x).toInt = x :=
  Int64.toInt_ofInt_of_le (by show (-9223372036854775808 : Int) ≤ x; omega) (by show x < (9223372036854775808 : Int); omega)

/-- A created file holds nothing. -/
theorem create_rep (size cap : Nat) (h : GeoOk size cap) :
    ∃ f, createFile size cap = (.ok f, f.data) ∧ f.size = size ∧ f.cap = cap ∧ FileRep f [] := by
  obtain ⟨f, e, w, s, c, l, m, hh⟩ := createFile_wf size cap h.1 h.2.2.1 h.2.2.2
  refine ⟨f, e, s, c, by rw [s, c]; exact h, by rw [l, s, c], by simp [used, allChunks], ?_, ?_, _, m, ?_, ?_, rfl⟩
  · simp [used, allChunks, recordsFrom_nil]
  · intro n h0 h1
    rw [hh n]; simp [used, allChunks]; omega
  · have := geo_cap h
    rw [s]; exact int64_toInt_ofInt _ (by omega) (by omega)
  · have := geo_cap h
    rw [c]; simp only [used, allChunks, List.flatMap_nil, List.length_nil]
    rw [int64_toInt_ofInt _ (by omega) (by omega)]; omega

theorem chunks_storable (size : Nat) (v : Val) (h1 : 25 ≤ size) (h2 : size ≤ 24 + 65535) : ∀ r ∈ chunks size v, Storable size r := by
  intro r hr
  have := (chunks_spec size v h1 h2).2.2.2.2.fits r hr
  exact ⟨this.2.2.2.2, this.2.1, this.1⟩

theorem used_cons (size : Nat) (v : Val) (vs : List Val) : used size (v :: vs) = (chunks size v).length + used size vs := by
  simp [used, allChunks]

/-- Partial stores of a new value: what the file looks like after the first `k` chunks. -/
theorem FileRep.store {f : File} {vs : List Val} (h : FileRep f vs) (v : Val) (hfit : used f.size (v :: vs) ≤ f.cap) (k : Nat) :
    ∃ f', storeRecs f (f.cap - used f.size (v :: vs)) ((chunks f.size v).take k) = (none, f') ∧ f'.WF ∧ f'.size = f.size ∧ f'.cap = f.cap ∧
      f'.data.length = f.data.length ∧ f'.metadata = f.metadata ∧
      (k < (chunks f.size v).length → FileView f' vs (smallestEnd vs)) ∧
      ((chunks f.size v).length ≤ k → FileView f' (v :: vs) (smallestEnd vs) ∧
        ∀ n : Int, 0 ≤ n → n < f'.cap → (f'.hasRecord n = true ↔ (f'.cap : Int) - used f'.size (v :: vs) ≤ n)) := by
  have hu := used_cons f.size v vs
  have hg := geo_size h.geo
  have hsp := chunks_spec f.size v hg.1 hg.2
  have hlt : ((chunks f.size v).take k).length = min k (chunks f.size v).length := List.length_take
  obtain ⟨f', e, w, s, c, l, m, oth, has, rf⟩ := storeRecs_ok ((chunks f.size v).take k) f h.wf (f.cap - used f.size (v :: vs)) (by omega) (by omega)
    (fun r hr => chunks_storable f.size v hg.1 hg.2 r (List.mem_of_mem_take hr))
  have hcap := h.geo.2.2.1
  refine ⟨f', e, w, s, c, l, m, ?_, ?_⟩
  · intro hk
    obtain ⟨m0, hm, h1, h2, h3⟩ := h.md
    refine ⟨by rw [s, c]; exact h.geo, by rw [l, s, c]; exact h.len, by rw [s, c]; exact h.fits, ?_, ?_, m0, by rw [m]; exact hm, by rw [s]; exact h1, h3⟩
    · rw [s, c, ← h.recs]
      exact recordsFrom_congr _ _ _ c (fun n hn => (oth n (by omega)).1)
    · unfold File.headPointer
      rw [m, hm]
      simp only [h2, s, c]
      have hno : f'.hasRecord (f.cap - used f.size vs - 1) = false := by
        rw [(oth _ (by omega)).2, Bool.eq_false_iff]
        intro hx
        have := (h.has _ (by omega) (by omega)).mp hx
        omega
      unfold Rothko.headPointer
      rw [if_neg (by omega), hno, headLoop_forward f'.hasRecord f.cap (f.cap - used f.size vs) (by omega) _ _ (by omega) (by omega)
        (fun n h1 h2 => by omega) (fun hx => by
          rw [(oth _ (by omega)).2]; exact (h.has _ (by omega) hx).mpr (by omega)) (by omega)]
  · intro hk
    have hfull : ((chunks f.size v).take k) = chunks f.size v := List.take_of_length_le hk
    rw [hfull] at oth has rf
    have hhas : ∀ n : Int, 0 ≤ n → n < f'.cap → (f'.hasRecord n = true ↔ (f'.cap : Int) - used f'.size (v :: vs) ≤ n) := by
      intro n h0 h1
      rw [s, c]
      by_cases ha : n < f.cap - used f.size (v :: vs)
      · rw [(oth n (by omega)).2, h.has n h0 (by omega)]; omega
      · by_cases hb : n < f.cap - used f.size (v :: vs) + (chunks f.size v).length
        · rw [has n (by omega) hb]; simp; omega
        · rw [(oth n (by omega)).2, h.has n h0 (by omega)]; omega
    refine ⟨?_, hhas⟩
    obtain ⟨m0, hm, h1, h2, h3⟩ := h.md
    refine ⟨by rw [s, c]; exact h.geo, by rw [l, s, c]; exact h.len, by rw [s, c]; exact hfit, ?_, ?_, m0, by rw [m]; exact hm, by rw [s]; exact h1, h3⟩
    · rw [s, c, rf]
      rw [show (f.cap : Int) - used f.size (v :: vs) + (chunks f.size v).length = f.cap - used f.size vs by omega, h.recs]
      simp [allChunks]
    · unfold File.headPointer
      rw [m, hm]
      simp only [h2]
      rw [C11_head_from_any_hint f'.hasRecord f'.cap (f'.cap - used f'.size (v :: vs)) _ (by rw [s, c]; omega) (by omega) hhas (by omega) (by omega)]

/-- The second half of `Write` on a file with room for the value. -/
theorem FileRep.write {f : File} {vs : List Val} (h : FileRep f vs) (v : Val) (hfit : used f.size (v :: vs) ≤ f.cap) :
    ∃ f', writeBody f (f.cap - used f.size (v :: vs)) v = (.written, f') ∧ f'.size = f.size ∧ f'.cap = f.cap ∧ FileRep f' (v :: vs) := by
  have hg := geo_size h.geo
  have hsp := chunks_spec f.size v hg.1 hg.2
  obtain ⟨f1, e1, w1, s1, c1, l1, m1, _, hv⟩ := h.store v hfit (chunks f.size v).length
  rw [List.take_of_length_le (Nat.le_refl _)] at e1
  obtain ⟨view, hhas⟩ := hv (Nat.le_refl _)
  obtain ⟨m0, hm, g1, g2, g3⟩ := h.md
  have hcap := geo_cap h.geo
  have hcap1 := h.geo.2.2.1
  let m' := updateMeta m0 (f.cap - used f.size (v :: vs) - 1) v
  have hle := meta_encSize_le m'
  have hfit' : 24 + m'.encSize ≤ f1.size := by rw [s1]; have := h.geo.1; omega
  obtain ⟨f2, e2, w2, s2, c2, md2, oth2⟩ := C05_metadata_round_trip f1 w1 m' (by omega) hfit'
  have l2 := setMetadata_length f1 f2 w1 m' hfit' e2
  refine ⟨f2, ?_, by rw [s2, s1], by rw [c2, c1], ?_⟩
  · unfold writeBody
    rw [hsp.1]
    simp only [e1, m1, hm]
    rw [show f1.setMetadata (updateMeta m0 (↑f.cap - ↑(used f.size (v :: vs)) - 1) v) = .ok f2 from e2]
  · refine ⟨by rw [s2, c2]; exact view.geo, by rw [l2, s2, c2]; exact view.len, by rw [s2, c2]; exact view.fits, ?_, ?_, m', md2, ?_, ?_, ?_⟩
    · rw [s2, c2, ← view.recs]
      exact recordsFrom_congr _ _ _ c2 (fun n _ => (oth2 n).1)
    · intro n h0 h1
      rw [(oth2 n).2, s2, c2]; exact hhas n h0 (by omega)
    · show m0.size.toInt = _
      rw [g1, s2, s1]
    · show (Int64.ofInt _).toInt = _
      rw [int64_toInt_ofInt _ (by omega) (by omega), s2, c2, s1, c1]
    · show (if m0.smallestEnd = 0 ∨ v.stop < m0.smallestEnd then v.stop else m0.smallestEnd) = _
      rw [g3]; rfl

end Rothko
