import Verif.Lemmas.Damage
import Verif.Model.Crash
/-! Reading files left behind by a dying process. -/
namespace Rothko

theorem chunkList_eq (v : Val) (size : Nat) (h1 : 25 ≤ size) (h2 : size ≤ 24 + 65535) : chunkList v size = chunks size v := by
  unfold chunkList; rw [(chunks_spec size v h1 h2).1]

theorem recordsFrom_split (f : File) (n : Int) (k : Nat) (h : n + k ≤ f.cap) (L : List (Except FErr Rec))
    (hL : L.length = k) (hget : ∀ (i : Nat) (hi : i < L.length), f.record (n + i) = L[i]) : f.recordsFrom n = L ++ f.recordsFrom (n + k) := by
  rw [recordsFrom_append f k n h]
  congr 1
  apply List.ext_getElem
  · simp [hL]
  · intro i h1 h2
    rw [List.getElem_map, List.getElem_range]
    exact hget i h2

/-- A file whose writer died in the middle of storing a value: readers see the old values, or the old values and the new one. -/
theorem FileRep.crash {f : File} {vs : List Val} (h : FileRep f vs) (v : Val) (hfit : used f.size (v :: vs) ≤ f.cap) (k j : Nat)
    (hcol : ∀ r r', (chunks f.size v)[k]? = some r →
      (crashStore f (f.cap - used f.size (v :: vs)) (chunks f.size v) k j).record (f.cap - used f.size (v :: vs) + k) = .ok r' → r' = r) :
    (crashStore f (f.cap - used f.size (v :: vs)) (chunks f.size v) k j).size = f.size ∧
    (crashStore f (f.cap - used f.size (v :: vs)) (chunks f.size v) k j).cap = f.cap ∧
    (FileSees (crashStore f (f.cap - used f.size (v :: vs)) (chunks f.size v) k j) vs (smallestEnd vs) ∨
     FileSees (crashStore f (f.cap - used f.size (v :: vs)) (chunks f.size v) k j) (v :: vs) (smallestEnd vs)) := by
  have hu := used_cons f.size v vs
  have hg := geo_size h.geo
  have hsp := chunks_spec f.size v hg.1 hg.2
  obtain ⟨f1, e1, w1, s1, c1, l1, m1, v1, v2⟩ := h.store v hfit k
  generalize hn : (f.cap : Int) - used f.size (v :: vs) = n at *
  have hn0 : 0 ≤ n := by omega
  cases hk : (chunks f.size v)[k]? with
  | none =>
    have hle : (chunks f.size v).length ≤ k := by simpa using hk
    have e2 : crashStore f n (chunks f.size v) k j = f1 := by
      unfold crashStore; rw [e1]; simp only [hk]
    rw [e2]
    exact ⟨s1, c1, Or.inr (v2 hle).1.sees⟩
  | some r =>
    have hlt : k < (chunks f.size v).length := (List.getElem?_eq_some_iff.mp hk).1
    have hrk : (chunks f.size v)[k] = r := (List.getElem?_eq_some_iff.mp hk).2
    have hst := chunks_storable f.size v hg.1 hg.2 r (by rw [← hrk]; exact List.getElem_mem _)
    have hmar := marshal_eq r hst.2.1
    have view1 := v1 hlt
    -- the torn slot
    let b : Bytes := ((r.marshal).getD []).take j
    have hb : b.length ≤ f1.size := by
      rw [s1]
      have : b.length ≤ ((r.marshal).getD []).length := by simp only [b, List.length_take]; omega
      rw [hmar] at this
      simp only [Option.getD_some, List.length_append, head20_length, beBytes_length] at this
      have := hst.2.2
      omega
    obtain ⟨t, ht⟩ : ∃ t : Nat, n + k = t := ⟨(n + k).toNat, by omega⟩
    have htc : t < f1.cap := by omega
    let f2 : File := { f1 with data := splice f1.data (f1.offset t) b }
    obtain ⟨w2, oth2, md2, _⟩ := File.splice_slot f1 w1 t htc b hb
    have e2 : crashStore f n (chunks f.size v) k j = f2 := by
      unfold crashStore; rw [e1]; simp only [hk, ht, Int.toNat_natCast]; rfl
    have hlen2 : f2.data.length = f1.data.length := splice_length _ _ _ (by have := File.slot_end w1 htc; omega)
    rw [e2]
    have hcol' : ∀ r', f2.record (n + k) = .ok r' → r' = r := by
      intro r' hr'
      exact hcol r r' hk (by rw [e2]; exact hr')
    refine ⟨s1, c1, ?_⟩
    obtain ⟨m0, hm, g1, g2, g3⟩ := h.md
    have hmd : f2.metadata = .ok m0 := by rw [show f2.metadata = f1.metadata from md2, m1, hm]
    have hopen : openFile f2.data = .ok f2 := by
      apply openFile_wf f2 w2 m0 hmd (by rw [g1]; exact (congrArg Nat.cast s1).symm)
      rw [hlen2, l1, h.len]
      show f.size * (f.cap + 1) = f1.size * (f1.cap + 1)
      rw [s1, c1]
    -- facts about f1's slots
    obtain ⟨f1', e1', _, _, _, _, _, oth1, has1, _⟩ := storeRecs_ok ((chunks f.size v).take k) f h.wf n hn0 (by simp; omega)
      (fun r hr => chunks_storable f.size v hg.1 hg.2 r (List.mem_of_mem_take hr))
    rw [e1] at e1'
    cases e1'
    have hlk : ((chunks f.size v).take k).length = k := by simp; omega
    rw [hlk] at oth1 has1
    -- records of f2 at the old values
    have hold : f2.recordsFrom (f.cap - used f.size vs) = (allChunks f.size vs).map .ok := by
      rw [← h.recs]
      apply recordsFrom_congr f f2 _ c1
      intro q hq
      rw [(oth2 q (by omega)).1, (oth1 q (by omega)).1]
    have hhas2 : ∀ q : Int, (q < n ∨ n + k < q) → f2.hasRecord q = f.hasRecord q := by
      intro q hq
      rw [(oth2 q (by omega)).2, (oth1 q (by omega)).2]
    have hc2 : f2.cap = f.cap := c1
    have hs2 : f2.size = f.size := s1
    have hread : ∀ (hd : Int) (ws : List Val), f2.headPointer = .ok hd →
        (∀ {σ : Type} (bound : Int64) (cb : σ → Val → σ × Cb) (st : σ),
          readSlots bound cb none (f2.recordsFrom (hd + 1)) st = visit cb (before bound ws) st) → FileSees f2 ws (smallestEnd vs) := by
      intro hd ws e hr
      refine ⟨hopen, ?_⟩
      intro σ bound cb st
      unfold readFile
      rw [hmd, e]
      simp only [g3]
      split
      · rfl
      · exact hr bound cb st
    have hplain : f2.hasRecord (f.cap - used f.size vs - 1) = false → FileSees f2 vs (smallestEnd vs) := by
      intro hno
      apply hread (f.cap - used f.size vs - 1) vs
      · unfold File.headPointer
        rw [hmd]
        simp only [g2]
        unfold Rothko.headPointer
        rw [if_neg (by omega), hno, hc2, headLoop_forward f2.hasRecord f.cap (f.cap - used f.size vs) (by omega) _ _ (by omega) (by omega)
          (fun q h1 h2 => by omega) (fun hx => by
            rw [hhas2 _ (by omega)]; exact (h.has _ (by omega) hx).mpr (by omega)) (by omega)]
      · intro σ bound cb st
        rw [show (f.cap : Int) - used f.size vs - 1 + 1 = f.cap - used f.size vs by omega, hold]
        exact readSlots_values bound cb f.size hg.1 hg.2 vs st
    cases hno : f2.hasRecord (f.cap - used f.size vs - 1) with
    | false => exact Or.inl (hplain hno)
    | true =>
      -- the torn slot is the last chunk
      have hlast : k + 1 = (chunks f.size v).length := by
        by_cases hx : k + 1 = (chunks f.size v).length
        · exact hx
        · exfalso
          rw [hhas2 _ (by omega)] at hno
          have := (h.has _ (by omega) (by omega)).mp hno
          omega
      have hhead : f2.headPointer = .ok (n - 1) := by
        unfold File.headPointer
        rw [hmd]
        simp only [g2]
        rw [C11_head_from_any_hint f2.hasRecord f2.cap n (f.cap - used f.size vs - 1) (by omega) (by omega) ?_ (by omega) (by omega)]
        intro q q0 q1
        by_cases a : q < n
        · rw [hhas2 _ (by omega), h.has q q0 (by omega)]; omega
        · by_cases bb : q < n + k
          · rw [(oth2 q (by omega)).2, has1 q (by omega) bb]; simp; omega
          · by_cases cc : q = n + k
            · rw [show q = (f.cap : Int) - used f.size vs - 1 by omega, hno]; simp; omega
            · rw [hhas2 _ (by omega), h.has q q0 (by omega)]; omega
      let A : List (Except FErr Rec) := ((chunks f.size v).take k).map .ok ++ [f2.record (n + k)]
      have hAlen : A.length = k + 1 := by simp [A]; omega
      have hsplit : f2.recordsFrom n = A ++ (allChunks f.size vs).map .ok := by
        rw [recordsFrom_split f2 n (k + 1) (by omega) A hAlen]
        · congr 1
          rw [← hold]
          congr 1; omega
        · intro i hi
          by_cases hik : i < k
          · rw [List.getElem_append_left (by simp; omega)]
            simp only [List.getElem_map, List.getElem_take]
            rw [(oth2 _ (by omega)).1]
            -- stored chunks
            have rf := (storeRecs_ok ((chunks f.size v).take k) f h.wf n hn0 (by simp; omega)
              (fun r hr => chunks_storable f.size v hg.1 hg.2 r (List.mem_of_mem_take hr)))
            obtain ⟨g, eg, _, _, cg, _, _, _, _, rg⟩ := rf
            rw [e1] at eg
            cases eg
            have hi2 : i < (f1.recordsFrom n).length := by rw [rg]; simp; omega
            rw [← recordsFrom_get f1 n i hi2]
            simp only [rg]
            rw [List.getElem_append_left (by simp; omega)]
            simp
          · have : i = k := by omega
            subst this
            rw [List.getElem_append_right (by simp; omega)]
            simp
      have hslots : Slots A (chunks f.size v) := by
        have hc : chunks f.size v = (chunks f.size v).take k ++ [r] := by
          rw [← hrk, List.take_append_getElem]
          rw [hlast, List.take_length]
        have key : ∀ l : List Rec, l = (chunks f.size v).take k ++ [r] → Slots A l := by
          intro l hl
          subst hl
          refine Slots.append (Slots.of_ok _) ?_
          cases hrec : f2.record (n + k) with
          | ok r' => rw [hcol' r' hrec]; exact .good r .nil
          | error e => exact .bad e r .nil
        exact key _ hc
      cases hok : allOk A with
      | false =>
        left
        apply hread (n - 1) vs hhead
        intro σ bound cb st
        rw [show n - 1 + 1 = n by omega, hsplit, readSlots_value bound cb _ st v f.size A _ hsp.2.2.2.2 hslots, hok]
        simp only [Bool.false_eq_true, false_and, if_false]
        exact readSlots_values bound cb f.size hg.1 hg.2 vs st
      | true =>
        right
        apply hread (n - 1) (v :: vs) hhead
        intro σ bound cb st
        rw [show n - 1 + 1 = n by omega, hsplit, readSlots_value bound cb _ st v f.size A _ hsp.2.2.2.2 hslots, hok]
        have hfull := readSlots_values bound cb f.size hg.1 hg.2 (v :: vs) st
        rw [List.flatMap_cons, List.map_append, readSlots_value bound cb _ st v f.size _ _ hsp.2.2.2.2 (Slots.of_ok _), allOk_map] at hfull
        exact hfull

end Rothko
