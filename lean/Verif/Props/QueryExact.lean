import Verif.Props.MetricRefuted
/-!
# C16: exactly which values a query returns
-/
namespace Rothko

/-- Has the file a value that ends before the bound? -/
def hasBefore (bound : Int64) (file : List Val) : Bool := file.any (fun v => decide (v.stop < bound))

private theorem smallest_iff {vs : List Val} (hs : vs.Pairwise (fun a b => b.stop < a.stop)) (h0 : ∀ w ∈ vs, w.stop ≠ 0) (hne : vs ≠ []) (bound : Int64) :
    smallestEnd vs < bound ↔ hasBefore bound vs = true := by
  unfold hasBefore
  rw [List.any_eq_true]
  constructor
  · intro h
    obtain ⟨v, hv, e⟩ := smallestEnd_mem hne
    exact ⟨v, hv, by rw [← e]; simpa using h⟩
  · rintro ⟨w, hw, hb⟩
    have hb : w.stop < bound := by simpa using hb
    have := (smallestEnd_le hs hw (h0 w hw)).1
    rw [Int64.le_iff_toInt_le] at this
    rw [Int64.lt_iff_toInt_lt] at hb ⊢
    omega

private theorem visible_exact (bound : Int64) (V : Int → List Val) (k : Nat) (n : Int)
    (hs : ∀ i, n - k < i → i ≤ n → (V i).Pairwise (fun a b => b.stop < a.stop)) (h0 : ∀ i, n - k < i → i ≤ n → ∀ w ∈ V i, w.stop ≠ 0)
    (h2 : ∀ i, n - k + 1 < i → i ≤ n → V i ≠ []) :
    visible bound (filesDown (fun i => (V i, smallestEnd (V i))) k n) = before bound ((filesDown V k n).takeWhile (hasBefore bound)).flatten := by
  induction k generalizing n with
  | zero => rfl
  | succ k ih =>
    simp only [filesDown, visible]
    by_cases hV : V n = []
    · have hk : k = 0 := by
        cases k with
        | zero => rfl
        | succ k => exact absurd hV (h2 n (by omega) (by omega))
      subst hk
      rw [hV]
      simp [filesDown, visible, before, hasBefore]
    · have hi := smallest_iff (hs n (by omega) (by omega)) (h0 n (by omega) (by omega)) hV bound
      by_cases hb : smallestEnd (V n) < bound
      · rw [if_neg (int64_not_ge.mpr hb), List.takeWhile_cons, if_pos (hi.mp hb), List.flatten_cons, before_append,
          ih (n - 1) (fun i a b => hs i (by omega) (by omega)) (fun i a b => h0 i (by omega) (by omega)) (fun i a b => h2 i (by omega) (by omega))]
      · rw [if_pos (Classical.byContradiction (fun hx => hb (int64_not_ge.mp hx))), List.takeWhile_cons, if_neg (fun hx => hb (hi.mpr hx))]
        rfl

/-- **C16, exactly.** In any reachable state (without values that end at time 0) the stored values lie in data files, newest first, and a query returns the values that end before the bound in the files
up to the first one that has no such value. Since older files have smaller ends, that file hides all the older ones: the claim that a query returns everything before the bound holds
exactly when the newest file has a value before the bound, or nothing stored has. -/
theorem C16_exact_partial {s : Store} {acc : List Val} (h : Reach s acc) (hne : acc ≠ []) (h0 : ∀ w ∈ acc, w.stop ≠ 0) :
    ∃ (files : List (List Val)) (dropped : List Val), acc = files.flatten ++ dropped ∧ files.length = s.dir.length ∧
      (∀ (cfg : Cfg) (bound : Int64),
        (queryList cfg bound (fun _ _ => .more) s).1 = (before bound (files.takeWhile (hasBefore bound)).flatten, none) ∧
        ((queryList cfg bound (fun _ _ => .more) s).1 = (before bound files.flatten, none) ↔
          (∃ newest older, files = newest :: older ∧ hasBefore bound newest = true) ∨ hasBefore bound files.flatten = false)) := by
  rcases h.inv with ⟨hd, hc, ha⟩ | ⟨first, last, H, V, d, inv, _⟩
  · exact absurd ha hne
  · have hr := inv.core.rng
    have hmem : ∀ i, first ≤ i → i ≤ last → ∀ w ∈ V i, w ∈ acc := fun i a b w hw => by rw [inv.eq]; exact List.mem_append_left _ (mem_valuesOf a b hw)
    have hsub : ∀ i, first ≤ i → i ≤ last → (V i).Pairwise (fun a b => b.stop < a.stop) := by
      intro i a b
      have hsv : (valuesOf V first last).Pairwise (fun a b => b.stop < a.stop) := by
        have := inv.sorted
        rw [inv.eq] at this
        exact (List.pairwise_append.mp this).1
      have : (V i).Sublist (valuesOf V first last) := by
        unfold valuesOf
        apply List.sublist_flatten_of_mem
        have : ∀ (k : Nat) (n : Int), n - k < i → i ≤ n → V i ∈ filesDown V k n := by
          intro k
          induction k with
          | zero => intro n a b; omega
          | succ k ih =>
            intro n a b
            by_cases hi : i = n
            · subst hi; exact List.mem_cons_self
            · exact List.mem_cons_of_mem _ (ih (n - 1) (by omega) (by omega))
        exact this _ _ (by omega) b
      exact hsv.sublist this
    refine ⟨filesDown V (last - first + 1).toNat last, d, inv.eq, by rw [filesDown_length, inv.core.count], ?_⟩
    intro cfg bound
    have hq := inv.query cfg bound (fun (seen : List Val) v => (seen ++ [v], Cb.more)) []
    have hshown : MInv.shown V first last bound = before bound ((filesDown V (last - first + 1).toNat last).takeWhile (hasBefore bound)).flatten :=
      visible_exact bound V _ last (fun i a b => hsub i (by omega) b) (fun i a b w hw => h0 w (hmem i (by omega) b w hw)) (fun i a b => inv.ne i (by omega) b)
    rw [hshown, visit_collect] at hq
    have hql : (queryList cfg bound (fun _ _ => .more) s).1 = (before bound ((filesDown V (last - first + 1).toNat last).takeWhile (hasBefore bound)).flatten, none) := by
      unfold queryList
      rw [hq]
      rfl
    refine ⟨hql, ?_⟩
    rw [hql]
    have hnil : ∀ l : List Val, before bound l = [] ↔ hasBefore bound l = false := by
      intro l
      unfold before hasBefore
      rw [List.filter_eq_nil_iff, List.any_eq_false]
    have hsorted : ((filesDown V (last - first + 1).toNat last).flatten).Pairwise (fun a b => b.stop < a.stop) := by
      have := inv.sorted
      rw [inv.eq] at this
      exact (List.pairwise_append.mp this).1
    have hnonempty : ∀ f ∈ (filesDown V (last - first + 1).toNat last).dropLast, f ≠ [] := by
      intro f hf
      rw [show (last - first + 1).toNat = (last - (first + 1) + 1).toNat + 1 by omega, filesDown_snoc, List.dropLast_concat] at hf
      obtain ⟨i, a, b, rfl⟩ := mem_filesDown hf
      exact inv.ne i (by omega) b
    have hfne : ∃ f fs, filesDown V (last - first + 1).toNat last = f :: fs := by
      rw [show (last - first + 1).toNat = (last - first).toNat + 1 by omega]
      exact ⟨_, _, rfl⟩
    revert hsorted hnonempty hfne
    generalize filesDown V (last - first + 1).toNat last = files
    intro hsorted hnonempty ⟨newest, older, hf⟩
    subst hf
    simp only [Prod.mk.injEq, and_true, List.cons.injEq]
    -- if a file has a value before the bound, so has every non-empty older file
    have hold : ∀ (fs : List (List Val)) (f : List Val), (f :: fs).flatten.Pairwise (fun a b => b.stop < a.stop) → (∀ g ∈ fs.dropLast, g ≠ []) → hasBefore bound f = true →
        before bound (fs.takeWhile (hasBefore bound)).flatten = before bound fs.flatten := by
      intro fs
      induction fs with
      | nil => intros; rfl
      | cons g fs ih =>
        intro f hp hn hb
        unfold hasBefore at hb
        rw [List.any_eq_true] at hb
        obtain ⟨w, hw, hwb⟩ := hb
        have hwb : w.stop < bound := by simpa using hwb
        rw [List.flatten_cons] at hp
        have hp := List.pairwise_append.mp hp
        by_cases hg : g = []
        · have : fs = [] := by
            cases fs with
            | nil => rfl
            | cons a fs => exact absurd hg (hn g (by simp))
          subst this hg
          simp [before, hasBefore]
        · obtain ⟨u, hu⟩ := List.exists_mem_of_ne_nil g hg
          have hgb : hasBefore bound g = true := by
            unfold hasBefore
            rw [List.any_eq_true]
            refine ⟨u, hu, ?_⟩
            have := hp.2.2 w hw u (by simp [hu])
            rw [decide_eq_true_iff]
            rw [Int64.lt_iff_toInt_lt] at this hwb ⊢
            omega
          rw [List.takeWhile_cons, if_pos hgb, List.flatten_cons, List.flatten_cons, before_append, before_append,
            ih g hp.2.1 (fun x hx => hn x (by
              cases fs with
              | nil => cases hx
              | cons a fs => exact List.mem_cons_of_mem _ hx)) hgb]
    constructor
    · intro e
      by_cases hb : hasBefore bound newest = true
      · exact Or.inl ⟨newest, older, ⟨rfl, rfl⟩, hb⟩
      · right
        rw [List.takeWhile_cons, if_neg hb] at e
        exact (hnil _).mp e.symm
    · rintro (⟨_, _, ⟨rfl, rfl⟩, hb⟩ | hb)
      · rw [List.takeWhile_cons, if_pos hb, List.flatten_cons, List.flatten_cons, before_append, before_append,
          hold older newest hsorted (fun g hg => hnonempty g (by
            cases older with
            | nil => cases hg
            | cons a fs => exact List.mem_cons_of_mem _ hg)) hb]
      · have h1 := (hnil _).mpr hb
        rw [h1]
        have : hasBefore bound newest = false := by
          cases hx : hasBefore bound newest with
          | false => rfl
          | true =>
            unfold hasBefore at hx hb
            rw [List.any_eq_true] at hx
            rw [List.any_eq_false] at hb
            obtain ⟨w, hw, hwb⟩ := hx
            exact absurd hwb (hb w (by simp [hw]))
        rw [List.takeWhile_cons, if_neg (by rw [this]; simp)]
        rfl

/-- The hypotheses are met by a state with two data files ([30] over [20, 10]); with bound 25 the newest file hides the two older values, with bound 35 everything is returned. -/
example : Reach exState [exVal 30, exVal 20, exVal 10] ∧ (∀ w ∈ [exVal 30, exVal 20, exVal 10], w.stop ≠ 0) ∧ exState.dir.length = 2 ∧
    (queryList exCfg 25 (fun _ _ => .more) exState).1 = ([], none) ∧
    (queryList exCfg 35 (fun _ _ => .more) exState).1 = ([exVal 30, exVal 20, exVal 10], none) := by
  refine ⟨exState_reach.reach, by decide, ?_⟩
  set_option maxRecDepth 100000 in decide +kernel

end Rothko
