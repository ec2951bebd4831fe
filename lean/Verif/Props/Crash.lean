import Verif.Lemmas.Crash
import Verif.Props.MetricRefuted
/-!
# C22–C24, C61: the process dies in the middle of a write
-/
namespace Rothko

private theorem filesDown_upd_top {α : Type} (F : Int → α) (x : α) (k : Nat) (n : Int) : filesDown (upd F n x) (k + 1) n = x :: filesDown F k (n - 1) := by
  simp only [filesDown, upd_same]
  congr 1
  exact filesDown_congr (fun i a b => upd_ne _ _ (by omega))

/-- **C22.** A write in any reachable state dies after any number `k` of complete chunks and `j` bytes of the next chunk. Afterwards the metric shows either exactly the
previous values, or exactly the previous values and the complete new one; if the write had moved on to a new file and a positive limit was exceeded, the
values of the oldest file (and only those) are gone. `files` is the division of the stored values into files. The only assumption is that the checksum of the half written chunk does not
match by accident (`hcol`). -/
theorem C22_crash_atomic {s : Store} {acc : List Val} (h : Reach s acc) (cfg : Cfg) (v : Val) (hg : GeoOk cfg.size cfg.cap)
    (hfit : needs cfg.size v.data.length ≤ cfg.cap) (k j : Nat)
    (hcol : ∀ r r', tornSlot cfg v k j s = some (.ok r', r) → r' = r) :
    ∃ (files : List (List Val)) (dropped : List Val), acc = files.flatten ++ dropped ∧ (acc ≠ [] → files.length = s.dir.length) ∧
      (acc ≠ [] → ∀ cfg' bound, 0 < bound → (∀ w ∈ acc, w.stop < bound) →
        (queryList cfg' bound (fun _ _ => .more) s).1 = (files.flatten, none)) ∧
      ∃ (files' : List (List Val)) (shown : List Val),
        (files' = files ∨ (files' = files.dropLast ∧ cfg.max > 0 ∧ (s.dir.length : Int) > cfg.max)) ∧
        (shown = files'.flatten ∨ shown = v :: files'.flatten) ∧
        ∀ cfg' bound, 0 < bound → (∀ w ∈ v :: acc, w.stop < bound) →
          (queryList cfg' bound (fun _ _ => .more) (crashWrite cfg v k j s)).1 = (shown, none) := by
  -- reduce to states with data files
  have key : ∀ (s0 : Store) first last H V d, MInv s0 acc first last H V d → crashWrite cfg v k j s0 = crashWrite cfg v k j s →
      tornSlot cfg v k j s0 = tornSlot cfg v k j s →
      ∃ (files' : List (List Val)) (shown : List Val),
        (files' = filesDown V (last - first + 1).toNat last ∨
          (files' = (filesDown V (last - first + 1).toNat last).dropLast ∧ cfg.max > 0 ∧ last - first ≥ cfg.max)) ∧
        (shown = files'.flatten ∨ shown = v :: files'.flatten) ∧
        ∀ cfg' bound, 0 < bound → (∀ w ∈ v :: acc, w.stop < bound) →
          (queryList cfg' bound (fun _ _ => .more) (crashWrite cfg v k j s)).1 = (shown, none) := by
    intro s0 first last H V d inv ecr etorn
    rw [← ecr]
    rw [← etorn] at hcol
    have hr := inv.core.rng
    have hsemem : ∀ bound, 0 < bound → (∀ w ∈ v :: acc, w.stop < bound) → ∀ i, first ≤ i → i ≤ last → smallestEnd (V i) < bound := by
      intro bound hb0 hb i a b
      by_cases hV : V i = []
      · rw [hV]; exact hb0
      · obtain ⟨w, hw, e⟩ := smallestEnd_mem hV
        rw [e]; apply hb; apply List.mem_cons_of_mem
        rw [inv.eq]; exact List.mem_append_left _ (mem_valuesOf a b hw)
    have hvmem : ∀ bound, (∀ w ∈ v :: acc, w.stop < bound) → ∀ i, first ≤ i → i ≤ last → ∀ w ∈ V i, w.stop < bound := by
      intro bound hb i a b w hw
      apply hb; apply List.mem_cons_of_mem
      rw [inv.eq]; exact List.mem_append_left _ (mem_valuesOf a b hw)
    have hsame : ∀ s' : Store, SameDisk s0 s' → CacheOk s' first last H → ∀ cfg' bound, 0 < bound → (∀ w ∈ v :: acc, w.stop < bound) →
        (queryList cfg' bound (fun _ _ => .more) s'.reopen).1 = ((filesDown V (last - first + 1).toNat last).flatten, none) := by
      intro s' sd c cfg' bound hb0 hb
      exact ((inv.core.same sd c).dirInv.reopen).everything cfg' bound (hsemem bound hb0 hb) (hvmem bound hb)
    revert hcol
    unfold crashWrite tornSlot
    rw [inv.core.dirInv.newMetric]
    simp only
    have hp := inv.core.prep (fun hlt => inv.ne last hlt (by omega)) cfg v hg
    generalize writePrep cfg first last v s0 = p at hp
    cases hp with
    | notLater w ws s' hV hw sd c => exact fun _ => ⟨_, _, Or.inl rfl, Or.inl rfl, hsame s' sd c⟩
    | offByOne s' h1 h2 h3 hlater sd c => exact fun _ => ⟨_, _, Or.inl rfl, Or.inl rfl, hsame s' sd c⟩
    | tooLarge s' h2 hbig => omega
    | here s' nr hfit' hlater sd c =>
      intro hcol
      simp only at hcol ⊢
      have core1 := inv.core.same sd c
      have hrep := core1.rep last hr.2 (by omega)
      have hgeo := geo_size hrep.geo
      rw [chunkList_eq v (H last).size hgeo.1 hgeo.2] at hcol ⊢
      have hcr := hrep.crash v hfit' k j (fun r r' hr hr' => hcol r r' (by
        change (chunks (H last).size v)[k]? = some r at hr
        change (crashStore (s'.file (H last)) ((H last).cap - used (H last).size (v :: V last)) (chunks (H last).size v) k j).record
          ((H last).cap - used (H last).size (v :: V last) + k) = .ok r' at hr'
        rw [hr]; simp only [hr']))
      change (crashStore (s'.file (H last)) ((H last).cap - used (H last).size (v :: V last)) (chunks (H last).size v) k j).size = (H last).size ∧
        (crashStore (s'.file (H last)) ((H last).cap - used (H last).size (v :: V last)) (chunks (H last).size v) k j).cap = (H last).cap ∧
        (FileSees (crashStore (s'.file (H last)) ((H last).cap - used (H last).size (v :: V last)) (chunks (H last).size v) k j) _ _ ∨
         FileSees (crashStore (s'.file (H last)) ((H last).cap - used (H last).size (v :: V last)) (chunks (H last).size v) k j) _ _) at hcr
      obtain ⟨c1, c2, c3⟩ := hcr
      generalize crashStore (s'.file (H last)) ((H last).cap - used (H last).size (v :: V last)) (chunks (H last).size v) k j = f2 at c1 c2 c3
      have hfin : ∀ vs : List Val, (vs = V last ∨ vs = v :: V last) → FileSees f2 vs (smallestEnd (V last)) →
          ∀ cfg' bound, 0 < bound → (∀ w ∈ v :: acc, w.stop < bound) →
          (queryList cfg' bound (fun _ _ => .more) (s'.setFile (H last) f2).reopen).1 =
            (vs ++ (filesDown V (last - first).toNat (last - 1)).flatten, none) := by
        intro vs hvs hsees cfg' bound hb0 hb
        have dinv := (core1.setView f2 vs _ c1 c2 hsees).reopen
        rw [dinv.everything cfg' bound]
        · rw [show (last - first + 1).toNat = (last - first).toNat + 1 by omega]
          simp only [filesDown, upd_same, List.flatten_cons]
          congr 3
          exact filesDown_congr (fun i a b => by rw [upd_ne _ _ (by omega)])
        · intro i a b
          by_cases hi : i = last
          · subst hi; rw [upd_same]; exact hsemem bound hb0 hb i a b
          · rw [upd_ne _ _ hi]; exact hsemem bound hb0 hb i a b
        · intro i a b w hw
          by_cases hi : i = last
          · subst hi
            rw [upd_same] at hw
            rcases hvs with rfl | rfl
            · exact hvmem bound hb i a b w hw
            · rcases List.mem_cons.mp hw with rfl | hw
              · exact hb w List.mem_cons_self
              · exact hvmem bound hb i a b w hw
          · rw [upd_ne _ _ hi] at hw; exact hvmem bound hb i a b w hw
      have hflat : (filesDown V (last - first + 1).toNat last).flatten = V last ++ (filesDown V (last - first).toNat (last - 1)).flatten := by
        rw [show (last - first + 1).toNat = (last - first).toNat + 1 by omega]; rfl
      rcases c3 with c3 | c3
      · exact ⟨_, _, Or.inl rfl, Or.inl hflat.symm, hfin _ (Or.inl rfl) c3⟩
      · exact ⟨_, _, Or.inl rfl, Or.inr (by rw [hflat]; rfl), hfin _ (Or.inr rfl) c3⟩
    | rotate s' nr h2 hs hc hfull hlater first' hf core' hh =>
      intro hcol
      simp only at hcol ⊢
      have hr' := core'.rng
      have hrep := core'.rep (last + 1) hr'.2 (by omega)
      rw [upd_same, upd_same] at hrep
      have hgc := geo_size hg
      have hused : used cfg.size [v] ≤ cfg.cap := by
        rw [used_cons, (chunks_spec cfg.size v hgc.1 hgc.2).2.2.1]
        simpa [used, allChunks] using hfit
      have hgeo : 25 ≤ h2.size ∧ h2.size ≤ 24 + 65535 := geo_size hrep.geo
      rw [chunkList_eq v h2.size hgeo.1 hgeo.2] at hcol ⊢
      have hcr := hrep.crash v (by show used h2.size [v] ≤ h2.cap; rw [hs, hc]; exact hused) k j (fun r r' hr hr' => hcol r r' (by
        change (chunks h2.size v)[k]? = some r at hr
        change (crashStore (s'.file h2) (h2.cap - used h2.size [v]) (chunks h2.size v) k j).record (h2.cap - used h2.size [v] + k) = .ok r' at hr'
        rw [hr]; simp only [hr']))
      change (crashStore (s'.file h2) (h2.cap - used h2.size [v]) (chunks h2.size v) k j).size = h2.size ∧
        (crashStore (s'.file h2) (h2.cap - used h2.size [v]) (chunks h2.size v) k j).cap = h2.cap ∧
        (FileSees (crashStore (s'.file h2) (h2.cap - used h2.size [v]) (chunks h2.size v) k j) _ _ ∨
         FileSees (crashStore (s'.file h2) (h2.cap - used h2.size [v]) (chunks h2.size v) k j) _ _) at hcr
      obtain ⟨c1, c2, c3⟩ := hcr
      generalize crashStore (s'.file h2) (h2.cap - used h2.size [v]) (chunks h2.size v) k j = f2 at c1 c2 c3
      have hff : first ≤ first' ∧ first' ≤ last := by
        rw [hf]; split
        · constructor <;> omega
        · exact ⟨by omega, hr.2⟩
      have hfin : ∀ vs : List Val, (vs = [] ∨ vs = [v]) → FileSees f2 vs (smallestEnd []) →
          ∀ cfg' bound, 0 < bound → (∀ w ∈ v :: acc, w.stop < bound) →
          (queryList cfg' bound (fun _ _ => .more) (s'.setFile h2 f2).reopen).1 =
            (vs ++ (filesDown V (last - first' + 1).toNat last).flatten, none) := by
        intro vs hvs hsees cfg' bound hb0 hb
        have dinv := (core'.setView f2 vs _ (by rw [upd_same]; exact c1) (by rw [upd_same]; exact c2) hsees).reopen
        rw [upd_same] at dinv
        rw [dinv.everything cfg' bound]
        · rw [show (last + 1 - first' + 1).toNat = (last - first' + 1).toNat + 1 by omega]
          simp only [filesDown, upd_same, List.flatten_cons]
          rw [show last + 1 - 1 = last by omega]
          congr 3
          exact filesDown_congr (fun i a b => by rw [upd_ne _ _ (by omega), upd_ne _ _ (by omega)])
        · intro i a b
          by_cases hi : i = last + 1
          · subst hi; rw [upd_same]; exact hb0
          · rw [upd_ne _ _ hi, upd_ne _ _ hi]; exact hsemem bound hb0 hb i (by omega) (by omega)
        · intro i a b w hw
          by_cases hi : i = last + 1
          · subst hi
            rw [upd_same] at hw
            rcases hvs with rfl | rfl
            · cases hw
            · rw [List.mem_singleton.mp hw]; exact hb v List.mem_cons_self
          · rw [upd_ne _ _ hi, upd_ne _ _ hi] at hw; exact hvmem bound hb i (by omega) (by omega) w hw
      have hfiles : filesDown V (last - first' + 1).toNat last = filesDown V (last - first + 1).toNat last ∨
          (filesDown V (last - first' + 1).toNat last = (filesDown V (last - first + 1).toNat last).dropLast ∧ cfg.max > 0 ∧ last - first ≥ cfg.max) := by
        by_cases hd : last - first ≥ cfg.max ∧ cfg.max > 0
        · rw [if_pos hd] at hf
          right
          refine ⟨?_, hd.2, hd.1⟩
          rw [show (last - first + 1).toNat = (last - first' + 1).toNat + 1 by omega, filesDown_snoc, List.dropLast_concat]
        · rw [if_neg hd] at hf
          left; rw [hf]
      rcases c3 with c3 | c3
      · exact ⟨_, _, hfiles, Or.inl rfl, hfin [] (Or.inl rfl) c3⟩
      · exact ⟨_, _, hfiles, Or.inr rfl, hfin [v] (Or.inr rfl) c3⟩
  rcases h.inv with ⟨hd, hc, ha⟩ | ⟨first, last, H, V, d, inv, _⟩
  · obtain ⟨s', H, e, inv⟩ := fresh_newMetric s hd hc cfg hg false (Or.inl rfl)
    refine ⟨[[]], [], by rw [ha]; rfl, fun hx => absurd ha hx, fun hx => absurd ha hx, ?_⟩
    have inv : MInv s' acc 1 1 H (fun _ => []) [] := by rw [ha]; exact inv
    obtain ⟨files', shown, h1, h2, h3⟩ := key s' 1 1 H _ [] inv
      (by unfold crashWrite; rw [e, inv.core.dirInv.newMetric])
      (by unfold tornSlot; rw [e, inv.core.dirInv.newMetric])
    refine ⟨files', shown, ?_, h2, h3⟩
    rcases h1 with h1 | ⟨_, h1, h4⟩
    · exact Or.inl h1
    · exfalso; omega
  · have hr := inv.core.rng
    refine ⟨filesDown V (last - first + 1).toNat last, d, inv.eq, fun _ => by rw [filesDown_length, inv.core.count], ?_, ?_⟩
    · intro _ cfg' bound hb0 hb
      refine inv.core.dirInv.everything cfg' bound ?_ ?_
      · intro i a b
        show smallestEnd (V i) < bound
        by_cases hV : V i = []
        · rw [hV]; exact hb0
        · obtain ⟨w, hw, e⟩ := smallestEnd_mem hV
          rw [e]; apply hb
          rw [inv.eq]; exact List.mem_append_left _ (mem_valuesOf a b hw)
      · intro i a b w hw
        apply hb
        rw [inv.eq]; exact List.mem_append_left _ (mem_valuesOf a b hw)
    · obtain ⟨files', shown, h1, h2, h3⟩ := key s first last H V d inv rfl rfl
      refine ⟨files', shown, ?_, h2, h3⟩
      rcases h1 with h1 | ⟨h0, h1, h4⟩
      · exact Or.inl h1
      · exact Or.inr ⟨h0, h1, by rw [inv.core.count]; omega⟩

/-- Four chunks per file. -/
def exCfg4 : Cfg := ⟨79, 4, 0⟩
theorem exCfg4_ok : GeoOk exCfg4.size exCfg4.cap := by unfold GeoOk; decide

/-- A state with one value, in a file of four slots. -/
def exOps4 : List Op := [.write exCfg4 (exVal 10)]
def exState4 : Store := (runOps exOps4 (Store.fresh false (fun _ => true), [])).1
set_option maxRecDepth 100000 in
theorem exState4_acc : (runOps exOps4 (Store.fresh false (fun _ => true), [])).2 = [exVal 10] := by decide +kernel
theorem exState4_reach : ReachMax 0 exState4 [exVal 10] := by
  unfold exState4
  refine reachMax_run _ _ _ _ ?_ exState4_acc
  intro o ho
  rw [exOps4, List.mem_singleton] at ho
  subst ho
  exact ⟨⟨exCfg4_ok, by decide⟩, by intro m h; cases h; rfl⟩

set_option maxRecDepth 100000 in
/-- Tests of C22: a write of three chunks dies inside its third chunk; the hypothesis about the checksum holds, and the old value alone is shown. If all three chunks are
complete, the new value is shown as well. -/
example : (∀ r r', tornSlot exCfg4 (exBig 20 130) 2 30 exState4 = some (.ok r', r) → r' = r) ∧
    (queryList exCfg4 100 (fun _ _ => .more) (crashWrite exCfg4 (exBig 20 130) 2 30 exState4)).1 = ([exVal 10], none) ∧
    (queryList exCfg4 100 (fun _ _ => .more) (crashWrite exCfg4 (exBig 20 130) 3 0 exState4)).1 = ([exBig 20 130, exVal 10], none) := by
  refine ⟨?_, ?_⟩
  · have : (tornSlot exCfg4 (exBig 20 130) 2 30 exState4).map (fun p => (match p.1 with | .ok _ => true | .error _ => false)) = some false := by decide +kernel
    intro r r' h
    rw [h] at this
    simp at this
  · decide +kernel

/-- **C23 is false as stated (stale chunks).** After a write dies between its second and third chunk and the process restarts, a write of one chunk is acknowledged, and a query for
everything does not return it: it follows the stale begin chunk in the file and is read as part of it. -/
theorem C23_lost_after_crash_refuted : ∃ s acc, ReachMax 0 s acc ∧ ∃ (cfg : Cfg) (w v : Val) (k : Nat), GeoOk cfg.size cfg.cap ∧
    needs cfg.size w.data.length ≤ cfg.cap ∧ needs cfg.size v.data.length ≤ cfg.cap ∧
    (dbWrite cfg v (crashWrite cfg w k 0 s)).1 = .written ∧ v.stop < 100 ∧
    v ∉ (queryList cfg 100 (fun _ _ => .more) (dbWrite cfg v (crashWrite cfg w k 0 s)).2).1.1 := by
  refine ⟨exState4, _, exState4_reach, exCfg4, exBig 20 130, exVal 30, 2, exCfg4_ok, ?_⟩
  set_option maxRecDepth 100000 in decide +kernel

/-- **C23 is false as stated (unlinked file).** If the process dies right after a write has created the next data file, the next write after the restart removes the empty file and, while its
handle is still cached, stores the value in the removed file: it is acknowledged and lost. -/
theorem C23_unlinked_after_crash_refuted : ∃ s acc, ReachMax 0 s acc ∧ ∃ (cfg : Cfg) (w v : Val), GeoOk cfg.size cfg.cap ∧
    needs cfg.size w.data.length ≤ cfg.cap ∧ needs cfg.size v.data.length ≤ cfg.cap ∧
    (dbWrite cfg v (crashWrite cfg w 0 0 s)).1 = .written ∧ v.stop < 100 ∧
    v ∉ (queryList cfg 100 (fun _ _ => .more) (dbWrite cfg v (crashWrite cfg w 0 0 s)).2).1.1 := by
  refine ⟨(runOps exTwo (Store.fresh false (fun _ => true), [])).1, _, reachMax_run _ _ _ _ ?_ rfl, exCfg, exVal 30, exVal 40, exCfg_ok, ?_⟩
  · intro o ho
    simp only [exTwo, List.mem_cons, List.not_mem_nil, or_false] at ho
    rcases ho with rfl | rfl
    · exact ⟨⟨exCfg_ok, by decide⟩, by intro m h; cases h; rfl⟩
    · exact ⟨⟨exCfg_ok, by decide⟩, by intro m h; cases h; rfl⟩
  · set_option maxRecDepth 100000 in decide +kernel

/-- **C24 is false as stated.** If the process dies between the metadata payload and its header, the file cannot be opened again: the query fails and shows nothing,
although a value had been acknowledged; and every later write fails too. -/
theorem C24_metadata_crash_refuted : ∃ s acc, ReachMax 0 s acc ∧ acc ≠ [] ∧ ∃ (cfg : Cfg) (w : Val), GeoOk cfg.size cfg.cap ∧
    needs cfg.size w.data.length ≤ cfg.cap ∧ (∀ x ∈ acc, x.stop < w.stop) ∧
    (queryList cfg 100 (fun _ _ => .more) (crashMeta cfg w s)).1 = ([], some (.file (.parse .crc))) ∧
    (dbWrite cfg (exVal 50) (crashMeta cfg w s)).1 = .failed (.file (.parse .crc)) := by
  refine ⟨exState4, _, exState4_reach, by simp, exCfg4, exVal 20, exCfg4_ok, ?_⟩
  set_option maxRecDepth 100000 in decide +kernel

/-- **C61 is false as stated.** If the process dies while the next data file is being created (the name exists, the file is empty or all zero), every query fails without a single
value, and every write fails. -/
theorem C61_creation_crash_refuted : ∃ s acc, ReachMax 0 s acc ∧ acc ≠ [] ∧ ∃ cfg : Cfg, GeoOk cfg.size cfg.cap ∧
    (queryList cfg 100 (fun _ _ => .more) (crashCreate cfg 3 false s)).1 = ([], some (.file .tooSmall)) ∧
    (queryList cfg 100 (fun _ _ => .more) (crashCreate cfg 3 true s)).1 = ([], some (.file (.parse .version))) ∧
    (dbWrite cfg (exVal 50) (crashCreate cfg 3 true s)).1 = .failed (.file (.parse .version)) := by
  refine ⟨exState, _, exState_reach, by simp, exCfg, exCfg_ok, ?_⟩
  set_option maxRecDepth 100000 in decide +kernel

end Rothko
