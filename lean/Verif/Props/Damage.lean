import Verif.Lemmas.Damage
import Verif.Props.MetricRefuted
/-!
# C21: unreadable slots lose only their own value
-/
namespace Rothko

private theorem survivors_sublist (bad : Nat → Bool) (size pos : Nat) (vs : List Val) : (survivors bad size pos vs).Sublist vs := by
  induction vs generalizing pos with
  | nil => exact List.Sublist.slnil
  | cons v vs ih =>
    simp only [survivors]
    split
    · exact (ih _).cons v
    · exact (ih _).cons_cons v

/-- **C21.** In every reachable state the stored values lie in the data files of the metric, one after the other in the last slots of each file (`files`, newest first),
such that: if any set of slots of any of the files becomes unreadable, a query for everything returns exactly the values none of whose chunks is in a
damaged slot, unaltered, in the same order, and reports no error; with or without a restart in between. -/
theorem C21_damage {s : Store} {acc : List Val} (h : Reach s acc) (hne : acc ≠ []) :
    ∃ (files : List FileInfo) (dropped : List Val),
      acc = files.flatMap FileInfo.vals ++ dropped ∧ files.length = s.dir.length ∧
      (∀ f ∈ files, s.lookup f.num = some f.ino ∧ slotsOf f.size f.vals ≤ f.cap ∧ (s.disk f.ino).length = f.size * (f.cap + 1)) ∧
      ∀ (bad : Nat → Nat → Bool) (s' : Store), s'.dirExists = s.dirExists → s'.dir = s.dir → (s'.cache = s.cache ∨ ∀ i, s'.cache i = none) →
        (∀ f ∈ files, Damage f.size f.cap (bad f.ino) (s.disk f.ino) (s'.disk f.ino)) →
        ∀ (cfg : Cfg) (bound : Int64), (∀ v ∈ acc, v.stop < bound) →
          (queryList cfg bound (fun _ _ => .more) s').1 =
            (files.flatMap (fun f => survivors (bad f.ino) f.size (f.cap - slotsOf f.size f.vals) f.vals), none) := by
  rcases h.inv with ⟨hd, hc, ha⟩ | ⟨first, last, H, V, d, inv, _⟩
  · exact absurd ha hne
  have hr := inv.core.rng
  let info : Int → FileInfo := fun i => ⟨i, (H i).ino, (H i).size, (H i).cap, V i⟩
  have hmem : ∀ f ∈ filesDown info (last - first + 1).toNat last, ∃ i, first ≤ i ∧ i ≤ last ∧ f = info i := by
    intro f hf
    obtain ⟨i, a, b, e⟩ := mem_filesDown hf
    exact ⟨i, by omega, b, e⟩
  have hflat : ∀ (g : FileInfo → List Val) (k : Nat) (n : Int), (filesDown info k n).flatMap g = (filesDown (fun i => g (info i)) k n).flatten := by
    intro g k n
    rw [List.flatMap_def, filesDown_map]
  refine ⟨filesDown info (last - first + 1).toNat last, d, ?_, by rw [filesDown_length, inv.core.count], ?_, ?_⟩
  · rw [hflat]; exact inv.eq
  · intro f hf
    obtain ⟨i, a, b, rfl⟩ := hmem f hf
    have hrep := inv.core.rep i a b
    have hg := geo_size hrep.geo
    refine ⟨by rw [inv.core.lookup, if_pos ⟨a, b⟩], ?_, hrep.len⟩
    exact (slotsOf_eq hg.1 hg.2 (V i)) ▸ hrep.fits
  · intro bad s' hde hdir hcache hdam cfg bound hb
    let F : Int → List Val × Int64 := fun i =>
      (survivors (bad (H i).ino) (H i).size ((H i).cap - slotsOf (H i).size (V i)) (V i), smallestEnd (V i))
    have hin : ∀ i, first ≤ i → i ≤ last → info i ∈ filesDown info (last - first + 1).toNat last := by
      intro i a b
      have : ∀ (k : Nat) (n : Int), n - k < i → i ≤ n → info i ∈ filesDown info k n := by
        intro k
        induction k with
        | zero => intro n a b; omega
        | succ k ih =>
          intro n a b
          by_cases hi : i = n
          · subst hi; exact List.mem_cons_self
          · exact List.mem_cons_of_mem _ (ih (n - 1) (by omega) (by omega))
      exact this _ _ (by omega) b
    have dinv : DirInv s' first last H F := by
      refine ⟨by rw [hde]; exact inv.core.ex, hr, fun idx => ?_, fun i a b => ?_, fun i x hx => ?_⟩
      · have : s'.lookup idx = s.lookup idx := by unfold Store.lookup; rw [hdir]
        rw [this]; exact inv.core.lookup idx
      · have := (inv.core.rep i a b).damaged (bad (H i).ino) (s'.disk (H i).ino) (hdam _ (hin i a b))
        exact this
      · rcases hcache with hc | hc
        · rw [hc] at hx; exact inv.core.cache i x hx
        · rw [hc i] at hx; cases hx
    obtain ⟨s2, e, _⟩ := dinv.query cfg bound (fun (seen : List Val) v => (seen ++ [v], Cb.more)) []
    unfold queryList
    rw [e, visible_all, visit_collect]
    · simp only [List.nil_append, Ctl.error]
      congr 1
      rw [hflat]
      show before bound (filesDown (fun i => (F i).1) _ last).flatten = _
      unfold before
      rw [List.filter_eq_self]
      · intro v hv
        rw [List.mem_flatten] at hv
        obtain ⟨l, hl, hv⟩ := hv
        obtain ⟨i, a, b, rfl⟩ := mem_filesDown hl
        have hvV : v ∈ V i := (survivors_sublist _ _ _ _).mem hv
        simpa using hb v (by rw [inv.eq]; exact List.mem_append_left _ (mem_valuesOf (by omega) b hvV))
    · intro i a b
      by_cases hV : V i = []
      · right
        have : i = first := by
          by_cases hi : i = first
          · exact hi
          · exact absurd hV (inv.ne i (by omega) b)
        refine ⟨by omega, ?_⟩
        show survivors _ _ _ (V i) = []
        rw [hV]; rfl
      · left
        obtain ⟨v, hv, e⟩ := smallestEnd_mem hV
        show smallestEnd (V i) < bound
        rw [e]
        exact hb v (by rw [inv.eq]; exact List.mem_append_left _ (mem_valuesOf (by omega) b hv))

/-- How many files a query looks at. -/
private def readsOf (bound : Int64) : List Int64 → Nat
  | [] => 0
  | e :: es => if e ≥ bound then 0 else readsOf bound es + 1

private theorem visible_take (bound : Int64) (W : Int → List Val) (E : Int → Int64) (k : Nat) (n : Int) :
    visible bound (filesDown (fun i => (W i, E i)) k n) = before bound ((filesDown W k n).take (readsOf bound (filesDown E k n))).flatten := by
  induction k generalizing n with
  | zero => rfl
  | succ k ih =>
    simp only [filesDown, visible, readsOf]
    split
    · rfl
    · rw [List.take_succ_cons, List.flatten_cons, before_append, ih]

/-- **C21, for every bound and callback.** In every reachable state the stored values lie in the data files (`files`, newest first). A query for values before a bound looks at the first few of them (`reads`, which depends on the bound
only; all of them for a bound above everything stored) and shows their values before the bound. If any set of slots of any of the files becomes unreadable, with or without a restart, the same
query goes through exactly the same values without those that have a chunk in a damaged slot, unaltered, in the same order, and stops and fails exactly where the callback makes it. -/
theorem C21_every {s : Store} {acc : List Val} (h : Reach s acc) (hne : acc ≠ []) :
    ∃ (files : List FileInfo) (dropped : List Val) (reads : Int64 → Nat),
      acc = files.flatMap FileInfo.vals ++ dropped ∧ files.length = s.dir.length ∧
      (∀ f ∈ files, s.lookup f.num = some f.ino ∧ slotsOf f.size f.vals ≤ f.cap ∧ (s.disk f.ino).length = f.size * (f.cap + 1)) ∧
      (∀ bound, (∀ v ∈ acc, v.stop < bound) → ∀ f ∈ files.drop (reads bound), f.vals = []) ∧
      ∀ (cfg : Cfg) (bound : Int64) (σ : Type) (cb : σ → Val → σ × Cb) (st : σ),
        ((dbQuery cfg bound cb st s).1 = ((visit cb (before bound ((files.take (reads bound)).flatMap FileInfo.vals)) st).1,
          (visit cb (before bound ((files.take (reads bound)).flatMap FileInfo.vals)) st).2.error)) ∧
        ∀ (bad : Nat → Nat → Bool) (s' : Store), s'.dirExists = s.dirExists → s'.dir = s.dir → (s'.cache = s.cache ∨ ∀ i, s'.cache i = none) →
          (∀ f ∈ files, Damage f.size f.cap (bad f.ino) (s.disk f.ino) (s'.disk f.ino)) →
          ∀ left, left = before bound ((files.take (reads bound)).flatMap (fun f => survivors (bad f.ino) f.size (f.cap - slotsOf f.size f.vals) f.vals)) →
            (dbQuery cfg bound cb st s').1 = ((visit cb left st).1, (visit cb left st).2.error) := by
  rcases h.inv with ⟨hd, hc, ha⟩ | ⟨first, last, H, V, d, inv, _⟩
  · exact absurd ha hne
  have hr := inv.core.rng
  let info : Int → FileInfo := fun i => ⟨i, (H i).ino, (H i).size, (H i).cap, V i⟩
  have hmem : ∀ f ∈ filesDown info (last - first + 1).toNat last, ∃ i, first ≤ i ∧ i ≤ last ∧ f = info i := by
    intro f hf
    obtain ⟨i, a, b, e⟩ := mem_filesDown hf
    exact ⟨i, by omega, b, e⟩
  have hflat : ∀ (g : FileInfo → List Val) (k : Nat) (n : Int), (filesDown info k n).flatMap g = (filesDown (fun i => g (info i)) k n).flatten := by
    intro g k n
    rw [List.flatMap_def, filesDown_map]
  have hflatT : ∀ (g : FileInfo → List Val) (t k : Nat) (n : Int), ((filesDown info k n).take t).flatMap g = ((filesDown (fun i => g (info i)) k n).take t).flatten := by
    intro g t k n
    rw [List.flatMap_def, List.map_take, filesDown_map]
  refine ⟨filesDown info (last - first + 1).toNat last, d, fun bound => readsOf bound (filesDown (fun i => smallestEnd (V i)) (last - first + 1).toNat last), ?_,
    by rw [filesDown_length, inv.core.count], ?_, ?_, ?_⟩
  · rw [hflat]; exact inv.eq
  · intro f hf
    obtain ⟨i, a, b, rfl⟩ := hmem f hf
    have hrep := inv.core.rep i a b
    have hg := geo_size hrep.geo
    refine ⟨by rw [inv.core.lookup, if_pos ⟨a, b⟩], ?_, hrep.len⟩
    exact (slotsOf_eq hg.1 hg.2 (V i)) ▸ hrep.fits
  · intro bound hb
    have hlow : ∀ i, first < i → i ≤ last → ¬ smallestEnd (V i) ≥ bound := by
      intro i a b
      obtain ⟨v, hv, e⟩ := smallestEnd_mem (inv.ne i a b)
      rw [e]
      exact int64_not_ge.mpr (hb v (by rw [inv.eq]; exact List.mem_append_left _ (mem_valuesOf (by omega) b hv)))
    have hfirst : V first ≠ [] → ¬ smallestEnd (V first) ≥ bound := by
      intro hV
      obtain ⟨v, hv, e⟩ := smallestEnd_mem hV
      rw [e]
      exact int64_not_ge.mpr (hb v (by rw [inv.eq]; exact List.mem_append_left _ (mem_valuesOf (Int.le_refl _) hr.2 hv)))
    have : ∀ (k : Nat) (n : Int), n - k + 1 ≥ first → n ≤ last → ∀ f ∈ (filesDown info k n).drop (readsOf bound (filesDown (fun i => smallestEnd (V i)) k n)), f.vals = [] := by
      intro k
      induction k with
      | zero => intro n _ _ f hf; simp [filesDown] at hf
      | succ k ih =>
        intro n h1 h2 f hf
        simp only [filesDown, readsOf] at hf
        split at hf
        · next hge =>
          rw [List.drop_zero] at hf
          have hn : n = first := by
            by_cases hn : n = first
            · exact hn
            · exact absurd hge (hlow n (by omega) h2)
          have hk : k = 0 := by omega
          subst hk
          simp only [filesDown, List.mem_singleton] at hf
          subst hf
          show V n = []
          exact Classical.byContradiction (fun hV => hfirst (by rw [← hn]; exact hV) (by rw [← hn]; exact hge))
        · rw [List.drop_succ_cons] at hf
          exact ih (n - 1) (by omega) (by omega) f hf
    exact this _ _ (by omega) (Int.le_refl _)
  · intro cfg bound σ cb st
    refine ⟨?_, ?_⟩
    · have e := inv.query cfg bound cb st
      unfold MInv.shown at e
      rw [visible_take bound V (fun i => smallestEnd (V i))] at e
      rw [hflatT]
      exact e
    · intro bad s' hde hdir hcache hdam left hleft
      let F : Int → List Val × Int64 := fun i =>
        (survivors (bad (H i).ino) (H i).size ((H i).cap - slotsOf (H i).size (V i)) (V i), smallestEnd (V i))
      have hin : ∀ i, first ≤ i → i ≤ last → info i ∈ filesDown info (last - first + 1).toNat last := by
        intro i a b
        have : ∀ (k : Nat) (n : Int), n - k < i → i ≤ n → info i ∈ filesDown info k n := by
          intro k
          induction k with
          | zero => intro n a b; omega
          | succ k ih =>
            intro n a b
            by_cases hi : i = n
            · subst hi; exact List.mem_cons_self
            · exact List.mem_cons_of_mem _ (ih (n - 1) (by omega) (by omega))
        exact this _ _ (by omega) b
      have dinv : DirInv s' first last H F := by
        refine ⟨by rw [hde]; exact inv.core.ex, hr, fun idx => ?_, fun i a b => ?_, fun i x hx => ?_⟩
        · have : s'.lookup idx = s.lookup idx := by unfold Store.lookup; rw [hdir]
          rw [this]; exact inv.core.lookup idx
        · exact (inv.core.rep i a b).damaged (bad (H i).ino) (s'.disk (H i).ino) (hdam _ (hin i a b))
        · rcases hcache with hc | hc
          · rw [hc] at hx; exact inv.core.cache i x hx
          · rw [hc i] at hx; cases hx
      obtain ⟨s2, e, _⟩ := dinv.query cfg bound cb st
      rw [visible_take bound (fun i => (F i).1) (fun i => smallestEnd (V i))] at e
      rw [hflatT] at hleft
      rw [e, hleft]

/-- The state `exState` with the second slot of file 1 (which holds the oldest of three values) overwritten by other bytes. -/
def exDamaged : Store := { exState with disk := fun i => if i = 0 then splice (exState.disk 0) (2 * 79 + 24) [200, 100] else exState.disk i }

set_option maxRecDepth 100000 in
/-- Test of C21 on one case: the hypotheses hold (slot 1 of the file with inode 0 does not parse, all other slots are as before), and exactly its value is gone. -/
example : (∃ e, parse (slotBytes 79 (exDamaged.disk 0) 1) = .error e) ∧ slotBytes 79 (exDamaged.disk 0) 0 = slotBytes 79 (exState.disk 0) 0 ∧
    (queryList exCfg 100 (fun _ _ => .more) exDamaged).1 = ([exVal 30, exVal 20], none) := by
  refine ⟨⟨.crc, ?_⟩, ?_⟩
  all_goals decide +kernel

end Rothko
