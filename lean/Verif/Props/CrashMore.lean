import Verif.Props.Crash
/-!
# C22: death between two chunks needs no assumption; death inside a chunk does
-/
namespace Rothko

/-- A slot whose first byte is zero is no record. -/
theorem no_record_of_empty {f : File} {n : Int} (h : f.hasRecord n = false) (r : Rec) : f.record n ≠ .ok r := by
  unfold File.hasRecord at h
  unfold File.record
  split
  · intro e; cases e
  · rename_i ho
    rw [if_neg ho] at h
    have hz : f.data.getD (f.offset n.toNat) 0 = 0 := by
      cases hb : (f.data.getD (f.offset n.toNat) 0 != 0)
      · simpa using hb
      · rw [hb] at h; cases h
    have hv : (slice f.data (f.offset n.toNat) (f.offset n.toNat + f.size)).getD 0 0 = 0 := by
      unfold slice
      simp only [List.getD_eq_getElem?_getD] at hz ⊢
      rw [List.getElem?_drop, List.getElem?_take]
      split
      · simpa using hz
      · rfl
    dsimp only
    have hp : ∀ r, parse (slice f.data (f.offset n.toNat) (f.offset n.toNat + f.size)) ≠ .ok r := by
      intro r e
      unfold parse at e
      rw [hv] at e
      split at e
      · cases e
      · simp only at e
        rw [if_pos (by decide)] at e
        cases e
    split
    · rename_i e; exact absurd e (hp _)
    · intro e; cases e

theorem FileRep.boundary {f : File} {vs : List Val} (h : FileRep f vs) (v : Val) (hfit : used f.size (v :: vs) ≤ f.cap) (k : Nat) (r r' : Rec)
    (hk : (chunks f.size v)[k]? = some r) :
    (crashStore f (f.cap - used f.size (v :: vs)) (chunks f.size v) k 0).record (f.cap - used f.size (v :: vs) + k) ≠ .ok r' := by
  have hu := used_cons f.size v vs
  have hg := geo_size h.geo
  have hlt : k < (chunks f.size v).length := (List.getElem?_eq_some_iff.mp hk).1
  apply no_record_of_empty
  obtain ⟨f1, e1, _, _, c1, _, _, oth, _⟩ := storeRecs_ok ((chunks f.size v).take k) f h.wf (f.cap - used f.size (v :: vs)) (by omega) (by simp; omega)
    (fun r hr => chunks_storable f.size v hg.1 hg.2 r (List.mem_of_mem_take hr))
  have hlk : ((chunks f.size v).take k).length = k := by simp; omega
  rw [hlk] at oth
  have e2 : crashStore f (f.cap - used f.size (v :: vs)) (chunks f.size v) k 0 = f1 := by
    unfold crashStore
    rw [e1]
    simp only [hk, List.take_zero, splice, List.append_nil, List.length_nil, Nat.add_zero, List.take_append_drop]
  rw [e2, (oth _ (Or.inr (Int.le_refl _))).2]
  cases hb : f.hasRecord (f.cap - used f.size (v :: vs) + k)
  · rfl
  · have := (h.has _ (by omega) (by omega)).mp hb
    omega

/-- In a history without crashes, the slot at which a write dies between two chunks is not a record. -/
theorem torn_boundary {s : Store} {acc : List Val} (h : Reach s acc) (cfg : Cfg) (v : Val) (hg : GeoOk cfg.size cfg.cap)
    (hfit : needs cfg.size v.data.length ≤ cfg.cap) (k : Nat) (r r' : Rec) : tornSlot cfg v k 0 s ≠ some (.ok r', r) := by
  have key : ∀ (s0 : Store) first last H V d, MInv s0 acc first last H V d → tornSlot cfg v k 0 s0 ≠ some (.ok r', r) := by
    intro s0 first last H V d inv
    have hr := inv.core.rng
    unfold tornSlot
    rw [inv.core.dirInv.newMetric]
    simp only
    have hp := inv.core.prep (fun hlt => inv.ne last hlt (by omega)) cfg v hg
    generalize writePrep cfg first last v s0 = p at hp
    cases hp with
    | notLater => intro e; cases e
    | offByOne => intro e; cases e
    | tooLarge => intro e; cases e
    | here s' nr hfit' hlater sd c =>
      simp only
      have hrep := (inv.core.same sd c).rep last hr.2 (by omega)
      have hgeo := geo_size hrep.geo
      rw [chunkList_eq v (H last).size hgeo.1 hgeo.2]
      cases hk : (chunks (H last).size v)[k]? with
      | none => intro e; cases e
      | some r0 =>
        intro e
        simp only [Option.some.injEq, Prod.mk.injEq] at e
        have hk' : (chunks (H last).size v)[k]? = some r := by rw [hk, e.2]
        exact hrep.boundary v hfit' k r r' hk' e.1
    | rotate s' nr h2 hs hc hfull hlater first' hf core' hh =>
      simp only
      have hr' := core'.rng
      have hrep := core'.rep (last + 1) hr'.2 (by omega)
      rw [upd_same, upd_same] at hrep
      have hgc := geo_size hg
      have hused : used cfg.size [v] ≤ cfg.cap := by
        rw [used_cons, (chunks_spec cfg.size v hgc.1 hgc.2).2.2.1]
        simpa [used, allChunks] using hfit
      have hgeo : 25 ≤ h2.size ∧ h2.size ≤ 24 + 65535 := geo_size hrep.geo
      rw [chunkList_eq v h2.size hgeo.1 hgeo.2]
      cases hk : (chunks h2.size v)[k]? with
      | none => intro e; cases e
      | some r0 =>
        intro e
        simp only [Option.some.injEq, Prod.mk.injEq] at e
        have hk' : (chunks h2.size v)[k]? = some r := by rw [hk, e.2]
        exact hrep.boundary v (by show used h2.size [v] ≤ h2.cap; rw [hs, hc]; exact hused) k r r' hk' e.1
  rcases h.inv with ⟨hd, hc, ha⟩ | ⟨first, last, H, V, d, inv, _⟩
  · obtain ⟨s', H, e, inv⟩ := fresh_newMetric s hd hc cfg hg false (Or.inl rfl)
    have inv : MInv s' acc 1 1 H (fun _ => []) [] := by rw [ha]; exact inv
    have := key s' 1 1 H _ [] inv
    rw [show tornSlot cfg v k 0 s = tornSlot cfg v k 0 s' by unfold tornSlot; rw [e, inv.core.dirInv.newMetric]]
    exact this
  · exact key s first last H V d inv

/-- **C22, at the granularity of its statement.** A write in any reachable state dies after any number `k` of chunk stores and before the metadata is updated. No assumption is needed: afterwards the
metric shows either exactly the previous values, or exactly the previous values and the complete new one; if the write had moved on to a new file and a positive limit was exceeded, the
values of the oldest file (and only those) are gone. -/
theorem C22_between_chunks {s : Store} {acc : List Val} (h : Reach s acc) (cfg : Cfg) (v : Val) (hg : GeoOk cfg.size cfg.cap)
    (hfit : needs cfg.size v.data.length ≤ cfg.cap) (k : Nat) :
    ∃ (files : List (List Val)) (dropped : List Val), acc = files.flatten ++ dropped ∧ (acc ≠ [] → files.length = s.dir.length) ∧
      (acc ≠ [] → ∀ cfg' bound, 0 < bound → (∀ w ∈ acc, w.stop < bound) →
        (queryList cfg' bound (fun _ _ => .more) s).1 = (files.flatten, none)) ∧
      ∃ (files' : List (List Val)) (shown : List Val),
        (files' = files ∨ (files' = files.dropLast ∧ cfg.max > 0 ∧ (s.dir.length : Int) > cfg.max)) ∧
        (shown = files'.flatten ∨ shown = v :: files'.flatten) ∧
        ∀ cfg' bound, 0 < bound → (∀ w ∈ v :: acc, w.stop < bound) →
          (queryList cfg' bound (fun _ _ => .more) (crashWrite cfg v k 0 s)).1 = (shown, none) :=
  C22_crash_atomic h cfg v hg hfit k 0 (fun r r' e => absurd e (torn_boundary h cfg v hg hfit k r r'))

/-- A value whose five bytes are a multiple of the checksum's polynomial: they have the checksum of five zero bytes. -/
def exPoly : Val := ⟨15, 20, [0xF1, 0x76, 0xEC, 0x05, 0x01]⟩

/-- **Below the granularity of chunks C22 is false.** A chunk is stored front to back, checksum first. If the process dies after the header and the missing bytes happen not to change the checksum, a value is
shown that was never written. (`C22_crash_atomic` says that this accident is the only way.) -/
theorem C22_inside_chunk_refuted : ∃ s acc, ReachMax 0 s acc ∧ ∃ (cfg : Cfg) (v w : Val) (j : Nat), GeoOk cfg.size cfg.cap ∧
    needs cfg.size v.data.length ≤ cfg.cap ∧ w ∉ v :: acc ∧
    (queryList cfg 100 (fun _ _ => .more) (crashWrite cfg v 0 j s)).1 = ([w, exVal 10], none) := by
  refine ⟨exState4, _, exState4_reach, exCfg4, exPoly, ⟨15, 20, [0, 0, 0, 0, 0]⟩, 24, exCfg4_ok, ?_⟩
  set_option maxRecDepth 100000 in decide +kernel

end Rothko
