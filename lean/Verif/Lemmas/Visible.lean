import Verif.Lemmas.History
/-! What queries show of the files of a metric. -/
namespace Rothko

theorem int64_not_ge {a b : Int64} : ¬ (a ≥ b) ↔ a < b := by
  show ¬ (b ≤ a) ↔ _
  rw [Int64.le_iff_toInt_le, Int64.lt_iff_toInt_lt]; omega

theorem smallestEnd_mem {vs : List Val} (h : vs ≠ []) : ∃ v ∈ vs, smallestEnd vs = v.stop := by
  induction vs with
  | nil => exact absurd rfl h
  | cons v vs ih =>
    unfold smallestEnd
    by_cases hc : smallestEnd vs = 0 ∨ v.stop < smallestEnd vs
    · rw [if_pos hc]; exact ⟨v, List.mem_cons_self, rfl⟩
    · rw [if_neg hc]
      have hne : vs ≠ [] := by intro h0; subst h0; exact hc (Or.inl rfl)
      obtain ⟨w, hw, e⟩ := ih hne
      exact ⟨w, List.mem_cons_of_mem _ hw, e⟩

/-- With decreasing ends (newest first) the recorded smallest end is at most every nonzero end. -/
theorem smallestEnd_le {vs : List Val} (hs : vs.Pairwise (fun a b => b.stop < a.stop)) {w : Val} (hw : w ∈ vs) (h0 : w.stop ≠ 0) :
    smallestEnd vs ≤ w.stop ∧ smallestEnd vs ≠ 0 := by
  induction vs generalizing w with
  | nil => cases hw
  | cons v vs ih =>
    rw [List.pairwise_cons] at hs
    unfold smallestEnd
    rcases List.mem_cons.mp hw with rfl | hw'
    · by_cases hc : smallestEnd vs = 0 ∨ w.stop < smallestEnd vs
      · rw [if_pos hc]; exact ⟨Int64.le_refl _, h0⟩
      · rw [if_neg hc]
        refine ⟨?_, fun hz => hc (Or.inl hz)⟩
        have : ¬ w.stop < smallestEnd vs := fun hx => hc (Or.inr hx)
        rw [Int64.lt_iff_toInt_lt] at this
        rw [Int64.le_iff_toInt_le]; omega
    · obtain ⟨h1, h2⟩ := ih hs.2 hw' h0
      have hlt := hs.1 w hw'
      by_cases hc : smallestEnd vs = 0 ∨ v.stop < smallestEnd vs
      · exfalso
        rcases hc with hc | hc
        · exact h2 hc
        · rw [Int64.lt_iff_toInt_lt] at hlt hc
          rw [Int64.le_iff_toInt_le] at h1
          omega
      · rw [if_neg hc]; exact ⟨h1, h2⟩

theorem before_append (bound : Int64) (a b : List Val) : before bound (a ++ b) = before bound a ++ before bound b := by
  simp [before]

theorem before_sublist (bound : Int64) (a : List Val) : (before bound a).Sublist a := List.filter_sublist

theorem visible_sublist (bound : Int64) (fs : List (List Val × Int64)) : (visible bound fs).Sublist (fs.map Prod.fst).flatten := by
  induction fs with
  | nil => exact List.Sublist.slnil
  | cons f fs ih =>
    unfold visible
    split
    · exact List.nil_sublist _
    · simp only [List.map_cons, List.flatten_cons]
      exact List.Sublist.append (before_sublist _ _) ih

theorem visible_before (bound : Int64) (fs : List (List Val × Int64)) : ∀ v ∈ visible bound fs, v.stop < bound := by
  induction fs with
  | nil => intro v hv; cases hv
  | cons f fs ih =>
    intro v hv
    unfold visible at hv
    split at hv
    · cases hv
    · rcases List.mem_append.mp hv with hv | hv
      · simpa [before] using (List.mem_filter.mp hv).2
      · exact ih v hv

/-- If the bound is above the recorded smallest end of every non-empty file, everything before the bound is shown. -/
theorem visible_complete (bound : Int64) (V : Int → List Val) (k : Nat) (n : Int)
    (h1 : ∀ i, n - k < i → i ≤ n → V i ≠ [] → smallestEnd (V i) < bound) (h2 : ∀ i, n - k + 1 < i → i ≤ n → V i ≠ []) :
    visible bound (filesDown (fun i => (V i, smallestEnd (V i))) k n) = before bound (filesDown V k n).flatten := by
  induction k generalizing n with
  | zero => rfl
  | succ k ih =>
    simp only [filesDown, visible, List.flatten_cons, before_append]
    by_cases hV : V n = []
    · have hk : k = 0 := by
        cases k with
        | zero => rfl
        | succ k => exact absurd hV (h2 n (by omega) (by omega))
      subst hk
      rw [hV]
      simp [filesDown, visible, before]
    · rw [if_neg (int64_not_ge.mpr (h1 n (by omega) (by omega) hV)), ih (n - 1) (fun i a b => h1 i (by omega) (by omega))
        (fun i a b => h2 i (by omega) (by omega))]

theorem visit_collect (L : List Val) (seen : List Val) :
    visit (fun (seen : List Val) v => (seen ++ [v], Cb.more)) L seen = (seen ++ L, .more) := by
  induction L generalizing seen with
  | nil => simp [visit]
  | cons v L ih => simp [visit, ih]

/-- The values shown by a query. -/
def MInv.shown (V : Int → List Val) (first last : Int) (bound : Int64) : List Val :=
  visible bound (filesDown (fun i => (V i, smallestEnd (V i))) (last - first + 1).toNat last)

theorem MInv.shown_sublist {s : Store} {acc : List Val} {first last : Int} {H : Int → Handle} {V : Int → List Val} {d : List Val}
    (h : MInv s acc first last H V d) (bound : Int64) : (MInv.shown V first last bound).Sublist acc := by
  have h1 := visible_sublist bound (filesDown (fun i => (V i, smallestEnd (V i))) (last - first + 1).toNat last)
  rw [filesDown_map] at h1
  rw [h.eq]
  exact h1.trans (List.sublist_append_left _ _)

theorem mem_valuesOf {V : Int → List Val} {first last i : Int} {v : Val} (h1 : first ≤ i) (h2 : i ≤ last) (hv : v ∈ V i) :
    v ∈ valuesOf V first last := by
  unfold valuesOf
  rw [List.mem_flatten]
  refine ⟨V i, ?_, hv⟩
  have : ∀ (k : Nat) (n : Int), n - k < i → i ≤ n → V i ∈ filesDown V k n := by
    intro k
    induction k with
    | zero => intro n a b; omega
    | succ k ih =>
      intro n a b
      by_cases hi : i = n
      · subst hi; exact List.mem_cons_self
      · exact List.mem_cons_of_mem _ (ih (n - 1) (by omega) (by omega))
  exact this _ _ (by omega) h2

/-- A bound above the ends of all files' smallest values shows everything. -/
theorem MInv.shown_all {s : Store} {acc : List Val} {first last : Int} {H : Int → Handle} {V : Int → List Val} {d : List Val}
    (h : MInv s acc first last H V d) (bound : Int64) (hb : ∀ i, first ≤ i → i ≤ last → V i ≠ [] → smallestEnd (V i) < bound) :
    MInv.shown V first last bound = before bound (valuesOf V first last) := by
  have hr := h.core.rng
  exact visible_complete bound V _ last (fun i a b => hb i (by omega) b) (fun i a b => h.ne i (by omega) b)

theorem MInv.query {s : Store} {acc : List Val} {first last : Int} {H : Int → Handle} {V : Int → List Val} {d : List Val}
    (h : MInv s acc first last H V d) {σ : Type} (cfg : Cfg) (bound : Int64) (cb : σ → Val → σ × Cb) (st : σ) :
    (dbQuery cfg bound cb st s).1 =
      ((visit cb (MInv.shown V first last bound) st).1, (visit cb (MInv.shown V first last bound) st).2.error) := by
  obtain ⟨s', e, _⟩ := h.core.dirInv.query cfg bound cb st
  rw [e]; rfl

/-- If the bound is above the recorded smallest end of every file (or the oldest file is empty), everything before the bound is shown. -/
theorem visible_all (bound : Int64) (F : Int → List Val × Int64) (k : Nat) (n : Int)
    (h : ∀ i, n - k < i → i ≤ n → (F i).2 < bound ∨ (i = n - k + 1 ∧ (F i).1 = [])) :
    visible bound (filesDown F k n) = before bound (filesDown (fun i => (F i).1) k n).flatten := by
  induction k generalizing n with
  | zero => rfl
  | succ k ih =>
    simp only [filesDown, visible, List.flatten_cons, before_append]
    rcases h n (by omega) (by omega) with hlt | ⟨hk, hnil⟩
    · rw [if_neg (int64_not_ge.mpr hlt), ih (n - 1) (fun i a b => by
        rcases h i (by omega) (by omega) with h1 | ⟨h1, h2⟩
        · exact Or.inl h1
        · exact Or.inr ⟨by omega, h2⟩)]
    · have : k = 0 := by omega
      subst this
      rw [hnil]
      simp [filesDown, visible, before]

/-- A query for everything. -/
theorem DirInv.everything {s : Store} {first last : Int} {H : Int → Handle} {F : Int → List Val × Int64} (h : DirInv s first last H F) (cfg : Cfg)
    (bound : Int64) (hse : ∀ i, first ≤ i → i ≤ last → (F i).2 < bound) (hall : ∀ i, first ≤ i → i ≤ last → ∀ v ∈ (F i).1, v.stop < bound) :
    (queryList cfg bound (fun _ _ => .more) s).1 = ((filesDown (fun i => (F i).1) (last - first + 1).toNat last).flatten, none) := by
  have hr := h.rng
  obtain ⟨s2, e, _⟩ := h.query cfg bound (fun (seen : List Val) v => (seen ++ [v], Cb.more)) []
  unfold queryList
  rw [e, visible_all bound F _ last (fun i a b => Or.inl (hse i (by omega) b)), visit_collect]
  simp only [List.nil_append, Ctl.error]
  congr 1
  unfold before
  rw [List.filter_eq_self]
  intro v hv
  rw [List.mem_flatten] at hv
  obtain ⟨l, hl, hv⟩ := hv
  obtain ⟨i, a, b, rfl⟩ := mem_filesDown hl
  simpa using hall i (by omega) b v hv

theorem DirInv.reopen {s : Store} {first last : Int} {H : Int → Handle} {F : Int → List Val × Int64} (h : DirInv s first last H F) :
    DirInv s.reopen first last H F := ⟨h.ex, h.rng, h.lookup, h.view, fun i x hx => by cases hx⟩

end Rothko
