import Verif.Spec.Space
import Verif.Lemmas.HistoryCfg
import Verif.Props.MetricRefuted
/-!
# C71, C72: how much space a metric takes, and how much history it keeps

files/db.go:21-41 describes both in terms of the options `Size`, `Cap` and `Files`.
-/
namespace Rothko

/-! ## C71: space -/

/-- Every file of the directory has its full length from the beginning. -/
theorem files_length {cfg : Cfg} {s : Store} {acc : List Val} {first last : Int} {H : Int → Handle} {V : Int → List Val} {d : List Val} (inv : MInv s acc first last H V d)
    (hc : CfgInv cfg first last H V d) : ∀ e ∈ s.dir, (s.disk e.2).length = cfg.size * (cfg.cap + 1) := by
  intro e he
  have hf : s.lookup e.1 = some e.2 := by
    have key : ∀ l : List (Int × Nat), (l.map Prod.fst).Nodup → e ∈ l → l.find? (fun p => p.1 == e.1) = some e := by
      intro l
      induction l with
      | nil => intro _ h; cases h
      | cons x l ih =>
        intro hn hm
        have hn := List.nodup_cons.mp hn
        rw [List.find?_cons]
        rcases List.mem_cons.mp hm with rfl | hm
        · simp
        · have : x.1 ≠ e.1 := fun h => hn.1 (h ▸ List.mem_map.mpr ⟨e, hm, rfl⟩)
          rw [show (x.1 == e.1) = false by simpa using this]
          exact ih hn.2 hm
    unfold Store.lookup
    rw [key _ inv.core.nodup he]
    rfl
  rw [inv.core.lookup] at hf
  split at hf
  · rename_i hr
    injection hf with hf
    have hl := (inv.core.rep e.1 hr.1 hr.2).len
    obtain ⟨g1, g2⟩ := hc.geo e.1 hr.1 hr.2
    rw [← hf, ← g1, ← g2]
    exact hl
  · cases hf

/-- **C71.** As long as the options stay the same, a metric's files take exactly `Size * (Cap + 1)` bytes each, and with a positive limit of `Files` there are at most `Files + 1` of them. -/
theorem C71_space {cfg : Cfg} {s : Store} {acc : List Val} (h : ReachCfg cfg s acc) :
    s.bytes = s.dir.length * (cfg.size * (cfg.cap + 1)) ∧ (0 < cfg.max → s.bytes ≤ (cfg.max.toNat + 1) * (cfg.size * (cfg.cap + 1))) := by
  have h1 : s.bytes = s.dir.length * (cfg.size * (cfg.cap + 1)) := by
    have key : ∀ l : List (Int × Nat), (∀ e ∈ l, (s.disk e.2).length = cfg.size * (cfg.cap + 1)) →
        (l.map (fun e => (s.disk e.2).length)).sum = l.length * (cfg.size * (cfg.cap + 1)) := by
      intro l
      induction l with
      | nil => intro _; simp
      | cons x l ih =>
        intro hl
        rw [List.map_cons, List.sum_cons, ih (fun e he => hl e (List.mem_cons_of_mem _ he)), hl x List.mem_cons_self, List.length_cons, Nat.add_mul]
        omega
    apply key
    rcases h.inv with ⟨hd, _, _⟩ | ⟨first, last, H, V, d, inv, hc⟩
    · rw [hd]; intro e he; cases he
    · exact files_length inv hc
  refine ⟨h1, fun hm => ?_⟩
  rw [h1]
  apply Nat.mul_le_mul_right
  rcases h.inv with ⟨hd, _, _⟩ | ⟨first, last, H, V, d, inv, hc⟩
  · rw [hd]; exact Nat.zero_le _
  · have := hc.lim hm
    have := inv.core.rng
    rw [inv.core.count]
    omega

/-! ## C72: history -/

theorem used_slots {size : Nat} (h1 : 25 ≤ size) (h2 : size ≤ 24 + 65535) (vs : List Val) : used size vs = slots size vs := by
  induction vs with
  | nil => simp [used, allChunks, slots]
  | cons v vs ih =>
    rw [used_cons, ih, (chunks_spec size v h1 h2).2.2.1]
    simp [slots]

theorem slots_append (size : Nat) (a b : List Val) : slots size (a ++ b) = slots size a + slots size b := by simp [slots]

/-- The files below the newest are nearly full. -/
theorem slots_down {size cap K : Nat} (V : Int → List Val) (k : Nat) (n : Int) (h : ∀ i, n - k < i → i ≤ n → cap - K + 1 ≤ slots size (V i)) :
    k * (cap - K + 1) ≤ slots size (filesDown V k n).flatten := by
  induction k generalizing n with
  | zero => simp
  | succ k ih =>
    rw [filesDown, List.flatten_cons, slots_append, Nat.add_mul]
    have := ih (n - 1) (fun i a b => h i (by omega) (by omega))
    have := h n (by omega) (by omega)
    omega

/-- **C72.** As long as the options stay the same, and no value takes more than `K` slots: if anything acknowledged is not shown any more by a query for everything, then the values shown, the newest of
the acknowledged ones, take more than `Files * (Cap - K + 1)` slots. -/
theorem C72_history {cfg : Cfg} {s : Store} {acc : List Val} (h : ReachCfg cfg s acc) (hg : GeoOk cfg.size cfg.cap) (K : Nat) (hK : K ≤ cfg.cap)
    (hsize : ∀ v ∈ acc, needs cfg.size v.data.length ≤ K) (bound : Int64) (hb : ∀ v ∈ acc, v.stop < bound) :
    ∃ dropped, acc = (queryList cfg bound (fun _ _ => .more) s).1.1 ++ dropped ∧
      (dropped ≠ [] → cfg.max.toNat * (cfg.cap - K + 1) < slots cfg.size (queryList cfg bound (fun _ _ => .more) s).1.1) := by
  have hgs := geo_size hg
  rcases h.inv with ⟨hd, hcache, ha⟩ | ⟨first, last, H, V, d, inv, hc⟩
  · obtain ⟨stored, dropped, e, _, hq⟩ := C13_acknowledged_stored h.reach
    obtain ⟨q, _⟩ := hq cfg bound hg hb
    rw [q]
    refine ⟨dropped, e, fun hne => ?_⟩
    rw [ha] at e
    exact absurd (List.append_eq_nil_iff.mp e.symm).2 hne
  · have hr := inv.core.rng
    have hq : (queryList cfg bound (fun _ _ => .more) s).1.1 = valuesOf V first last := by
      have hq := inv.query cfg bound (fun (seen : List Val) v => (seen ++ [v], Cb.more)) []
      have hall : MInv.shown V first last bound = before bound (valuesOf V first last) := by
        apply inv.shown_all
        intro i a b hne
        obtain ⟨v, hv, e⟩ := smallestEnd_mem hne
        rw [e]; apply hb; rw [inv.eq]
        exact List.mem_append_left _ (mem_valuesOf a b hv)
      have hbef : before bound (valuesOf V first last) = valuesOf V first last := by
        unfold before
        rw [List.filter_eq_self]
        intro v hv
        simpa using hb v (by rw [inv.eq]; exact List.mem_append_left _ hv)
      rw [hall, hbef, visit_collect] at hq
      unfold queryList
      rw [hq]
      rfl
    rw [hq]
    refine ⟨d, inv.eq, fun hne => ?_⟩
    obtain ⟨hm, hge⟩ := hc.drop hne
    have hlast : 1 ≤ slots cfg.size (V last) := by
      rw [← used_slots hgs.1 hgs.2]
      have : V last ≠ [] := inv.ne last (by omega) (by omega)
      have := mt (used_zero hgs.1 hgs.2 (vs := V last)).mp this
      omega
    have hin : ∀ i, first ≤ i → i ≤ last → ∀ v ∈ V i, needs cfg.size v.data.length ≤ K := fun i a b v hv =>
      hsize v (by rw [inv.eq]; exact List.mem_append_left _ (mem_valuesOf a b hv))
    have hrest := slots_down (size := cfg.size) (cap := cfg.cap) (K := K) V (last - first).toNat (last - 1) (by
      intro i a b
      obtain ⟨v, hv, hf⟩ := hc.full i (by omega) (by omega)
      have := hin (i + 1) (by omega) (by omega) v hv
      rw [used_slots hgs.1 hgs.2] at hf
      have e : slots cfg.size (v :: V i) = needs cfg.size v.data.length + slots cfg.size (V i) := by simp [slots]
      omega)
    have e : slots cfg.size (valuesOf V first last) = slots cfg.size (V last) + slots cfg.size (filesDown V (last - first).toNat (last - 1)).flatten := by
      unfold valuesOf
      rw [show (last - first + 1).toNat = (last - first).toNat + 1 by omega, filesDown, List.flatten_cons, slots_append]
    have hmul : cfg.max.toNat * (cfg.cap - K + 1) ≤ (last - first).toNat * (cfg.cap - K + 1) := Nat.mul_le_mul_right _ (by omega)
    rw [e]
    omega

/-- **C72** for values of one slot: a query for everything shows everything acknowledged, or more than `Files * Cap` values. -/
theorem C72_count {cfg : Cfg} {s : Store} {acc : List Val} (h : ReachCfg cfg s acc) (hg : GeoOk cfg.size cfg.cap)
    (hsize : ∀ v ∈ acc, needs cfg.size v.data.length = 1) (bound : Int64) (hb : ∀ v ∈ acc, v.stop < bound) :
    (queryList cfg bound (fun _ _ => .more) s).1.1 = acc ∨ (cfg.max.toNat * cfg.cap < (queryList cfg bound (fun _ _ => .more) s).1.1.length ∧
      ∃ dropped, acc = (queryList cfg bound (fun _ _ => .more) s).1.1 ++ dropped) := by
  have hcap : 1 ≤ cfg.cap := by have := hg.2.2.1; omega
  obtain ⟨dropped, e, hd⟩ := C72_history h hg 1 hcap (fun v hv => Nat.le_of_eq (hsize v hv)) bound hb
  by_cases hne : dropped = []
  · left; rw [hne, List.append_nil] at e; exact e.symm
  · right
    refine ⟨?_, dropped, e⟩
    have := hd hne
    have hlen : ∀ l : List Val, (∀ v ∈ l, needs cfg.size v.data.length = 1) → slots cfg.size l = l.length := by
      intro l
      induction l with
      | nil => intro _; rfl
      | cons v l ih =>
        intro hl
        have h1 := ih (fun w hw => hl w (List.mem_cons_of_mem _ hw))
        have h2 := hl v List.mem_cons_self
        have h3 : slots cfg.size (v :: l) = needs cfg.size v.data.length + slots cfg.size l := by simp [slots]
        rw [h3, h1, h2, List.length_cons]
        omega
    rw [hlen _ (fun v hv => hsize v (by rw [e]; exact List.mem_append_left _ hv))] at this
    rw [show cfg.cap - 1 + 1 = cfg.cap by omega] at this
    exact this

/-! ## A metric that has rotated -/

/-- Five values in files of two. -/
def exFive : List Op := [.write exCfgMax (exVal 10), .write exCfgMax (exVal 20), .write exCfgMax (exVal 30), .restart, .write exCfgMax (exVal 40), .write exCfgMax (exVal 50)]
def exFiveState : Store := (runOps exFive (Store.fresh false (fun _ => true), [])).1
set_option maxRecDepth 100000 in
theorem exFive_acc : (runOps exFive (Store.fresh false (fun _ => true), [])).2 = [exVal 50, exVal 40, exVal 30, exVal 20, exVal 10] := by decide +kernel
theorem exFive_run : runOps exFive (Store.fresh false (fun _ => true), []) = (exFiveState, [exVal 50, exVal 40, exVal 30, exVal 20, exVal 10]) := by
  rw [← exFive_acc]
  unfold exFiveState
  generalize runOps exFive (Store.fresh false (fun _ => true), []) = x
  rfl
theorem exFive_reach : ReachCfg exCfgMax exFiveState [exVal 50, exVal 40, exVal 30, exVal 20, exVal 10] := by
  refine ⟨false, fun _ => true, exFive, ?_, exFive_run⟩
  have hg : GeoOk exCfgMax.size exCfgMax.cap := by unfold GeoOk; decide
  have hw : ∀ t, Op.Ok (.write exCfgMax (exVal t)) := fun t => ⟨hg, by simp only [exVal]; decide⟩
  intro o ho
  simp only [exFive, List.mem_cons, List.not_mem_nil, or_false] at ho
  rcases ho with rfl | rfl | rfl | rfl | rfl | rfl
  · exact ⟨hw _, rfl⟩
  · exact ⟨hw _, rfl⟩
  · exact ⟨hw _, rfl⟩
  · exact ⟨trivial, trivial⟩
  · exact ⟨hw _, rfl⟩
  · exact ⟨hw _, rfl⟩

set_option maxRecDepth 100000 in
/-- **C71, C72 example.** A metric with `Files` 1 and `Cap` 2 that has dropped its first file: two files of 79 * 3 bytes; three values are shown. -/
theorem C72_example : exFiveState.bytes = 474 ∧ (queryList exCfgMax 100 (fun _ _ => .more) exFiveState).1.1 = [exVal 50, exVal 40, exVal 30] := by decide +kernel

/-- **C71 is false as documented** (db.go:23-26): the bound `Size * Cap * (Files + 1)` for each metric does not count the slot of the metadata that each file has; with it the space is as `C71_space` says. -/
theorem C71_documented_refuted : ∃ cfg s acc, ReachCfg cfg s acc ∧ 0 < cfg.max ∧ cfg.size * cfg.cap * (cfg.max.toNat + 1) < s.bytes :=
  ⟨exCfgMax, exFiveState, _, exFive_reach, by decide, by rw [C72_example.1]; decide⟩

end Rothko
