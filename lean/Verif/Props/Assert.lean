import Verif.Model.Assert
/-!
# C52: all or nothing
-/
namespace Rothko

/-! ## Specification -/

/-- A step into a value. -/
inductive CStep
  | key (k : String)
  | pos (n : Int)

/-- The value at a path: nil where a key is absent or there is nothing; `none` where a type is wrong or an array is too short. -/
def dig : CVal → List CStep → Option CVal
  | v, [] => some v
  | .nil, _ :: _ => some .nil
  | .map m, .key k :: p => dig (CVal.at m k) p
  | .arr l, .pos n :: p => if 0 ≤ n then (l[n.toNat]?).bind (fun v => dig v p) else none
  | _, _ :: _ => none

/-- The paths the handles stand for, by the calls that made them. -/
def pathsOf (ps : List (List CStep)) : List AssOp → List (List CStep)
  | [] => ps
  | .index h k :: ops => pathsOf (ps ++ [(ps[h]?).getD [] ++ [.key k]]) ops
  | .nth h n :: ops => pathsOf (ps ++ [(ps[h]?).getD [] ++ [.pos n]]) ops
  | .get .. :: ops => pathsOf ps ops

/-- What the user asked for, by path: the accesses of the calls, in order. `none`: only a step. -/
def asked (ps : List (List CStep)) : List AssOp → List (List CStep × Option CKind)
  | [] => []
  | .index h k :: ops => ((ps[h]?).getD [] ++ [.key k], none) :: asked (ps ++ [(ps[h]?).getD [] ++ [.key k]]) ops
  | .nth h n :: ops => ((ps[h]?).getD [] ++ [.pos n], none) :: asked (ps ++ [(ps[h]?).getD [] ++ [.pos n]]) ops
  | .get h k :: ops => ((ps[h]?).getD [], some k) :: asked ps ops

/-- The access is right for the document, with this result: the value there, or zero where there is nothing. -/
def Exact (root : CVal) : List CStep × Option CKind → CRes → Prop
  | (p, none), r => r = .handle ∧ ∃ v, dig root p = some v
  | (p, some k), r => ∃ v, dig root p = some v ∧ ((v = .nil ∧ r = .val k.zero) ∨ (k.is v = true ∧ r = .val v))

/-- Every access is right. -/
def AllExact (root : CVal) : List (List CStep × Option CKind) → List CRes → Prop
  | [], [] => True
  | a :: as, r :: rs => Exact root a r ∧ AllExact root as rs
  | _, _ => False

/-! ## Proof -/

theorem dig_snoc (v : CVal) (p : List CStep) (s : CStep) : dig v (p ++ [s]) = (dig v p).bind (fun v => dig v [s]) := by
  induction p generalizing v with
  | nil => simp [dig]
  | cons a p ih =>
    rw [List.cons_append]
    cases v with
    | nil => cases s <;> simp [dig]
    | map m => cases a with
      | key k => simp only [dig]; exact ih _
      | pos n => simp [dig]
    | arr l => cases a with
      | key k => simp [dig]
      | pos n =>
        simp only [dig]
        by_cases h : 0 ≤ n
        · rw [if_pos h, if_pos h]
          cases l[n.toNat]? with
          | none => rfl
          | some w => exact ih w
        · rw [if_neg h, if_neg h]; rfl
    | int n => simp [dig]
    | int64 n => simp [dig]
    | str n => simp [dig]
    | bool n => simp [dig]
    | float n => simp [dig]
    | other n => simp [dig]

/-- While there is no error the handles have the values at their paths. -/
structure HandlesOk (root : CVal) (ps : List (List CStep)) (g : CGroup) : Prop where
  len : ps.length = g.handles.length
  vals : g.err = false → ∀ (h : Nat) (p : List CStep) (x : CVal), ps[h]? = some p → g.handles[h]? = some x → dig root p = some x

theorem HandlesOk.add {root : CVal} {ps : List (List CStep)} {g : CGroup} (ok : HandlesOk root ps g) (p : List CStep) (x : CVal) (e : Bool)
    (h : e = false → g.err = false ∧ dig root p = some x) : HandlesOk root (ps ++ [p]) { err := e, handles := g.handles ++ [x] } where
  len := by simp [ok.len]
  vals he i q y h1 h2 := by
    obtain ⟨e1, e2⟩ := h he
    dsimp only at h2
    by_cases hi : i < ps.length
    · rw [List.getElem?_append_left hi] at h1
      rw [List.getElem?_append_left (by rw [← ok.len]; exact hi)] at h2
      exact ok.vals e1 i q y h1 h2
    · have : i = ps.length := by
        have := (List.getElem?_eq_some_iff.mp h1).1
        simp at this; omega
      subst this
      rw [List.getElem?_append_right (Nat.le_refl _)] at h1
      rw [List.getElem?_append_right (by rw [ok.len]; exact Nat.le_refl _)] at h2
      simp only [Nat.sub_self, List.getElem?_cons_zero, ok.len] at h1 h2
      cases h1; cases h2
      exact e2

/-- What a call does to the state, by the paths. -/
def nextPaths (ps : List (List CStep)) : AssOp → List (List CStep)
  | .index h k => ps ++ [(ps[h]?).getD [] ++ [.key k]]
  | .nth h n => ps ++ [(ps[h]?).getD [] ++ [.pos n]]
  | .get .. => ps

def askedOne (ps : List (List CStep)) : AssOp → List CStep × Option CKind
  | .index h k => ((ps[h]?).getD [] ++ [.key k], none)
  | .nth h n => ((ps[h]?).getD [] ++ [.pos n], none)
  | .get h k => ((ps[h]?).getD [], some k)

theorem asked_cons (ps : List (List CStep)) (op : AssOp) (ops : List AssOp) : asked ps (op :: ops) = askedOne ps op :: asked (nextPaths ps op) ops := by
  cases op <;> rfl

/-- The zero of the call. -/
def AssOp.zero : AssOp → CRes
  | .get _ k => .val k.zero
  | _ => .handle

theorem call_spec {root : CVal} {ps : List (List CStep)} {g : CGroup} (ok : HandlesOk root ps g) (op : AssOp) (r : CRes) (g' : CGroup) (h : g.call op = (r, g')) (hr : r ≠ .panics) :
    HandlesOk root (nextPaths ps op) g' ∧
    (g.err = true → g'.err = true ∧ r = op.zero) ∧
    (g.err = false → (g'.err = false ∧ Exact root (askedOne ps op) r) ∨ (g'.err = true ∧ r = op.zero ∧ ∀ r', ¬ Exact root (askedOne ps op) r')) := by
  cases op with
  | index i k =>
    simp only [CGroup.call] at h
    cases hx : g.handles[i]? with
    | none => rw [hx] at h; cases h; exact absurd rfl hr
    | some x =>
      rw [hx] at h
      dsimp only at h
      have hi : i < ps.length := by rw [ok.len]; exact (List.getElem?_eq_some_iff.mp hx).1
      have hp : ps[i]? = some ps[i] := List.getElem?_eq_getElem hi
      by_cases he : g.err = true
      · rw [if_pos he] at h
        cases h
        refine ⟨ok.add _ _ _ (fun h0 => by rw [he] at h0; cases h0), fun _ => ⟨he, rfl⟩, fun h0 => by rw [he] at h0; cases h0⟩
      · rw [if_neg he] at h
        have he' : g.err = false := by simpa using he
        have hd := ok.vals he' i _ x hp hx
        have ds := dig_snoc root ps[i] (.key k)
        rw [hd, Option.bind_some] at ds
        have good : ∀ v, dig root (ps[i] ++ [.key k]) = some v → h = h → g' = { g with handles := g.handles ++ [v] } → r = .handle →
            HandlesOk root (nextPaths ps (.index i k)) g' ∧ (g.err = true → g'.err = true ∧ r = AssOp.zero (.index i k)) ∧
            (g.err = false → (g'.err = false ∧ Exact root (askedOne ps (.index i k)) r) ∨ (g'.err = true ∧ r = AssOp.zero (.index i k) ∧ ∀ r', ¬ Exact root (askedOne ps (.index i k)) r')) := by
          intro v hv _ hg hrr
          subst hg; subst hrr
          simp only [nextPaths, askedOne, hp, Option.getD_some]
          exact ⟨ok.add _ _ _ (fun _ => ⟨he', hv⟩), (by intro h0; exact absurd h0 he), fun _ => Or.inl ⟨he', rfl, v, hv⟩⟩
        have bad : dig root (ps[i] ++ [.key k]) = none → g' = { err := true, handles := g.handles ++ [x] } → r = .handle →
            HandlesOk root (nextPaths ps (.index i k)) g' ∧ (g.err = true → g'.err = true ∧ r = AssOp.zero (.index i k)) ∧
            (g.err = false → (g'.err = false ∧ Exact root (askedOne ps (.index i k)) r) ∨ (g'.err = true ∧ r = AssOp.zero (.index i k) ∧ ∀ r', ¬ Exact root (askedOne ps (.index i k)) r')) := by
          intro hv hg hrr
          subst hg; subst hrr
          simp only [nextPaths, askedOne, hp, Option.getD_some]
          refine ⟨ok.add _ _ _ (fun h0 => by cases h0), (by intro h0; exact absurd h0 he), fun _ => Or.inr ⟨(by trivial), (by trivial), ?_⟩⟩
          rintro r' ⟨_, v, hv'⟩
          rw [hv] at hv'; cases hv'
        cases x with
        | nil => cases h; exact good .nil (by rw [ds]; rfl) rfl rfl rfl
        | map m => cases h; exact good (CVal.at m k) (by rw [ds]; rfl) rfl rfl rfl
        | _ => cases h; exact bad (by rw [ds]; rfl) rfl rfl
  | nth i n =>
    simp only [CGroup.call] at h
    cases hx : g.handles[i]? with
    | none => rw [hx] at h; cases h; exact absurd rfl hr
    | some x =>
      rw [hx] at h
      dsimp only at h
      have hi : i < ps.length := by rw [ok.len]; exact (List.getElem?_eq_some_iff.mp hx).1
      have hp : ps[i]? = some ps[i] := List.getElem?_eq_getElem hi
      by_cases he : g.err = true
      · rw [if_pos he] at h
        cases h
        refine ⟨ok.add _ _ _ (fun h0 => by rw [he] at h0; cases h0), fun _ => ⟨he, rfl⟩, fun h0 => by rw [he] at h0; cases h0⟩
      · rw [if_neg he] at h
        have he' : g.err = false := by simpa using he
        have hd := ok.vals he' i _ x hp hx
        have ds := dig_snoc root ps[i] (.pos n)
        rw [hd, Option.bind_some] at ds
        have good : ∀ v, dig root (ps[i] ++ [.pos n]) = some v → g' = { g with handles := g.handles ++ [v] } → r = .handle →
            HandlesOk root (nextPaths ps (.nth i n)) g' ∧ (g.err = true → g'.err = true ∧ r = AssOp.zero (.nth i n)) ∧
            (g.err = false → (g'.err = false ∧ Exact root (askedOne ps (.nth i n)) r) ∨ (g'.err = true ∧ r = AssOp.zero (.nth i n) ∧ ∀ r', ¬ Exact root (askedOne ps (.nth i n)) r')) := by
          intro v hv hg hrr
          subst hg; subst hrr
          simp only [nextPaths, askedOne, hp, Option.getD_some]
          exact ⟨ok.add _ _ _ (fun _ => ⟨he', hv⟩), (by intro h0; exact absurd h0 he), fun _ => Or.inl ⟨he', rfl, v, hv⟩⟩
        have bad : dig root (ps[i] ++ [.pos n]) = none → g' = { err := true, handles := g.handles ++ [x] } → r = .handle →
            HandlesOk root (nextPaths ps (.nth i n)) g' ∧ (g.err = true → g'.err = true ∧ r = AssOp.zero (.nth i n)) ∧
            (g.err = false → (g'.err = false ∧ Exact root (askedOne ps (.nth i n)) r) ∨ (g'.err = true ∧ r = AssOp.zero (.nth i n) ∧ ∀ r', ¬ Exact root (askedOne ps (.nth i n)) r')) := by
          intro hv hg hrr
          subst hg; subst hrr
          simp only [nextPaths, askedOne, hp, Option.getD_some]
          refine ⟨ok.add _ _ _ (fun h0 => by cases h0), (by intro h0; exact absurd h0 he), fun _ => Or.inr ⟨(by trivial), (by trivial), ?_⟩⟩
          rintro r' ⟨_, v, hv'⟩
          rw [hv] at hv'; cases hv'
        cases x with
        | nil => cases h; exact good .nil (by rw [ds]; rfl) rfl rfl
        | arr l =>
          dsimp only at h
          by_cases hn : n ≥ l.length
          · rw [if_pos hn] at h
            cases h
            refine bad ?_ rfl rfl
            rw [ds]
            simp only [dig]
            rw [if_pos (by omega), List.getElem?_eq_none (by omega)]
            rfl
          · rw [if_neg hn] at h
            by_cases hneg : n < 0
            · rw [if_pos hneg] at h; cases h; exact absurd rfl hr
            · rw [if_neg hneg] at h
              have hl : n.toNat < l.length := by omega
              rw [List.getElem?_eq_getElem hl] at h
              cases h
              refine good l[n.toNat] ?_ rfl rfl
              rw [ds]
              simp only [dig]
              rw [if_pos (by omega), List.getElem?_eq_getElem hl]
              rfl
        | _ => cases h; exact bad (by rw [ds]; rfl) rfl rfl
  | get i k =>
    simp only [CGroup.call] at h
    cases hx : g.handles[i]? with
    | none => rw [hx] at h; cases h; exact absurd rfl hr
    | some x =>
      rw [hx] at h
      dsimp only at h
      have hi : i < ps.length := by rw [ok.len]; exact (List.getElem?_eq_some_iff.mp hx).1
      have hp : ps[i]? = some ps[i] := List.getElem?_eq_getElem hi
      by_cases he : g.err = true
      · rw [if_pos he] at h
        cases h
        exact ⟨ok, fun _ => ⟨he, rfl⟩, fun h0 => by rw [he] at h0; cases h0⟩
      · rw [if_neg he] at h
        have he' : g.err = false := by simpa using he
        have hd := ok.vals he' i _ x hp hx
        simp only [nextPaths, askedOne, hp, Option.getD_some]
        have other : (∀ m, x = m → m ≠ CVal.nil) → (if k.is x = true then (CRes.val x, g) else (.val k.zero, { g with err := true })) = (r, g') →
            HandlesOk root ps g' ∧ (g.err = true → g'.err = true ∧ r = AssOp.zero (.get i k)) ∧
            (g.err = false → (g'.err = false ∧ Exact root (ps[i], some k) r) ∨ (g'.err = true ∧ r = AssOp.zero (.get i k) ∧ ∀ r', ¬ Exact root (ps[i], some k) r')) := by
          intro hnn hh
          by_cases hk : k.is x = true
          · rw [if_pos hk] at hh
            cases hh
            exact ⟨ok, (by intro h0; exact absurd h0 he), fun _ => Or.inl ⟨he', x, hd, Or.inr ⟨hk, rfl⟩⟩⟩
          · rw [if_neg hk] at hh
            cases hh
            refine ⟨⟨ok.len, fun h0 => by cases h0⟩, (by intro h0; exact absurd h0 he), fun _ => Or.inr ⟨(by trivial), (by trivial), ?_⟩⟩
            rintro r' ⟨v, hv, hh⟩
            rw [hd] at hv
            cases hv
            rcases hh with ⟨hh, _⟩ | ⟨hh, _⟩
            · exact hnn x rfl hh
            · exact hk hh
        cases x with
        | nil =>
          cases h
          exact ⟨ok, (by intro h0; exact absurd h0 he), fun _ => Or.inl ⟨he', .nil, hd, Or.inl ⟨rfl, rfl⟩⟩⟩
        | _ => exact other (fun m hm => by subst hm; exact fun hh => by cases hh) h

theorem run_cons {g : CGroup} {op : AssOp} {ops : List AssOp} (hr : (g.call op).1 ≠ .panics) :
    g.run (op :: ops) = ((g.call op).1 :: ((g.call op).2.run ops).1, ((g.call op).2.run ops).2) := by
  simp only [CGroup.run]

theorem run_head {g : CGroup} {op : AssOp} {ops : List AssOp} (h : ∀ r ∈ (g.run (op :: ops)).1, r ≠ .panics) : (g.call op).1 ≠ .panics := by
  intro hp
  simp only [CGroup.run] at h
  generalize g.call op = x at *
  obtain ⟨r, g'⟩ := x
  cases hp
  exact h .panics (by simp) rfl

/-- The results of calls after an error. -/
theorem run_err {root : CVal} (ops : List AssOp) {ps : List (List CStep)} {g : CGroup} (ok : HandlesOk root ps g) (he : g.err = true) (hn : ∀ r ∈ (g.run ops).1, r ≠ .panics) :
    (g.run ops).2.err = true ∧ (g.run ops).1 = ops.map AssOp.zero := by
  induction ops generalizing ps g with
  | nil => exact ⟨he, rfl⟩
  | cons op ops ih =>
    have hp := run_head hn
    obtain ⟨ok', h1, _⟩ := call_spec ok op (g.call op).1 (g.call op).2 rfl hp
    obtain ⟨he', hz⟩ := h1 he
    rw [run_cons hp] at hn ⊢
    obtain ⟨i1, i2⟩ := ih ok' he' (fun r hr => hn r (by simp [hr]))
    exact ⟨i1, by simp [i2, hz]⟩

theorem run_exact {root : CVal} (ops : List AssOp) {ps : List (List CStep)} {g : CGroup} (ok : HandlesOk root ps g) (he : g.err = false) (hn : ∀ r ∈ (g.run ops).1, r ≠ .panics) :
    ((g.run ops).2.err = false → AllExact root (asked ps ops) (g.run ops).1) ∧
    ((g.run ops).2.err = true → ∃ a ∈ asked ps ops, ∀ r, ¬ Exact root a r) := by
  induction ops generalizing ps g with
  | nil => exact ⟨fun _ => trivial, fun h => by simp only [CGroup.run] at h; rw [he] at h; cases h⟩
  | cons op ops ih =>
    have hp := run_head hn
    obtain ⟨ok', _, h2⟩ := call_spec ok op (g.call op).1 (g.call op).2 rfl hp
    rw [run_cons hp] at hn ⊢
    rw [asked_cons]
    have hn' : ∀ r ∈ ((g.call op).2.run ops).1, r ≠ .panics := fun r hr => hn r (by simp [hr])
    rcases h2 he with ⟨h3, h4⟩ | ⟨h3, h4, h5⟩
    · obtain ⟨i1, i2⟩ := ih ok' h3 hn'
      refine ⟨fun h => ⟨h4, i1 h⟩, fun h => ?_⟩
      obtain ⟨a, ha, h⟩ := i2 h
      exact ⟨a, by simp [ha], h⟩
    · obtain ⟨j1, _⟩ := run_err ops ok' h3 hn'
      refine ⟨fun h => ?_, fun _ => ⟨_, List.Mem.head _, h5⟩⟩
      dsimp only at h
      rw [j1] at h
      cases h

theorem allExact_mem {root : CVal} {as : List (List CStep × Option CKind)} {rs : List CRes} (h : AllExact root as rs) : ∀ a ∈ as, ∃ r, Exact root a r := by
  induction as generalizing rs with
  | nil => intro a ha; cases ha
  | cons b as ih =>
    cases rs with
    | nil => cases h
    | cons r rs =>
      intro a ha
      rcases List.mem_cons.mp ha with rfl | ha
      · exact ⟨r, h.1⟩
      · exact ih h.2 a ha

theorem new_ok (root : CVal) : HandlesOk root [[]] (CGroup.new root) :=
  ⟨rfl, fun _ h p x h1 h2 => by
    cases h with
    | zero => simp [CGroup.new] at h1 h2; rw [h1, ← h2]; rfl
    | succ n => simp at h1⟩

/-- **C52** (nothing wrong). If `Err` is nil after the calls, every call gave exactly the value at its path in the document, or zero where there is none. -/
theorem C52_exact (root : CVal) (ops : List AssOp) (hn : ∀ r ∈ ((CGroup.new root).run ops).1, r ≠ .panics) (h : ((CGroup.new root).run ops).2.err = false) :
    AllExact root (asked [[]] ops) ((CGroup.new root).run ops).1 :=
  (run_exact ops (new_ok root) rfl hn).1 h

/-- **C52** (when). `Err` is not nil exactly if some access does not fit the document. -/
theorem C52_err_iff (root : CVal) (ops : List AssOp) (hn : ∀ r ∈ ((CGroup.new root).run ops).1, r ≠ .panics) :
    ((CGroup.new root).run ops).2.err = true ↔ ∃ a ∈ asked [[]] ops, ∀ r, ¬ Exact root a r := by
  obtain ⟨h1, h2⟩ := run_exact ops (new_ok root) rfl hn
  refine ⟨h2, ?_⟩
  rintro ⟨a, ha, hbad⟩
  cases he : ((CGroup.new root).run ops).2.err with
  | true => rfl
  | false =>
    obtain ⟨r, hr⟩ := allExact_mem (h1 he) a ha
    exact absurd hr (hbad r)

theorem run_append {g : CGroup} {a b : List AssOp} (hn : ∀ r ∈ (g.run (a ++ b)).1, r ≠ .panics) :
    (∀ r ∈ (g.run a).1, r ≠ .panics) ∧ g.run (a ++ b) = ((g.run a).1 ++ ((g.run a).2.run b).1, ((g.run a).2.run b).2) := by
  induction a generalizing g with
  | nil => exact ⟨by simp [CGroup.run], rfl⟩
  | cons op a ih =>
    rw [List.cons_append] at hn ⊢
    have hp := run_head hn
    rw [run_cons hp] at hn ⊢
    rw [run_cons hp]
    obtain ⟨i1, i2⟩ := ih (g := (g.call op).2) (fun r hr => hn r (by simp [hr]))
    refine ⟨?_, by rw [i2]; rfl⟩
    intro r hr
    rcases List.mem_cons.mp hr with rfl | hr
    · exact hp
    · exact i1 r hr

theorem run_ok {root : CVal} (ops : List AssOp) {ps : List (List CStep)} {g : CGroup} (ok : HandlesOk root ps g) (hn : ∀ r ∈ (g.run ops).1, r ≠ .panics) :
    ∃ ps', HandlesOk root ps' (g.run ops).2 := by
  induction ops generalizing ps g with
  | nil => exact ⟨ps, ok⟩
  | cons op ops ih =>
    have hp := run_head hn
    obtain ⟨ok', _⟩ := call_spec ok op (g.call op).1 (g.call op).2 rfl hp
    rw [run_cons hp] at hn ⊢
    exact ih ok' (fun r hr => hn r (by simp [hr]))

/-- **C52** (sticky). After an error, `Err` stays and every later accessor returns zero. -/
theorem C52_sticky (root : CVal) (before after : List AssOp) (hn : ∀ r ∈ ((CGroup.new root).run (before ++ after)).1, r ≠ .panics) (h : ((CGroup.new root).run before).2.err = true) :
    ((CGroup.new root).run (before ++ after)).2.err = true ∧ ((CGroup.new root).run (before ++ after)).1 = ((CGroup.new root).run before).1 ++ after.map AssOp.zero := by
  obtain ⟨hb, e⟩ := run_append hn
  obtain ⟨ps, ok⟩ := run_ok before (new_ok root) hb
  have ha : ∀ r ∈ (((CGroup.new root).run before).2.run after).1, r ≠ .panics := by
    intro r hr; exact hn r (by rw [e]; simp [hr])
  obtain ⟨i1, i2⟩ := run_err after ok h ha
  rw [e]
  exact ⟨i1, by rw [i2]⟩

/-- The calls use handles they were given, and no negative index. -/
def opsOk (n : Nat) : List AssOp → Prop
  | [] => True
  | .index h _ :: ops => h < n ∧ opsOk (n + 1) ops
  | .nth h i :: ops => h < n ∧ 0 ≤ i ∧ opsOk (n + 1) ops
  | .get h _ :: ops => h < n ∧ opsOk n ops

/-- **C52** (no panics): then no call panics. A negative index of an array does. -/
theorem C52_no_panic (root : CVal) (ops : List AssOp) (h : opsOk 1 ops) : ∀ r ∈ ((CGroup.new root).run ops).1, r ≠ .panics := by
  have gen : ∀ (ops : List AssOp) (g : CGroup), opsOk g.handles.length ops → ∀ r ∈ (g.run ops).1, r ≠ .panics := by
    intro ops
    induction ops with
    | nil => intro g _ r hr; cases hr
    | cons op ops ih =>
      intro g h
      have key : (g.call op).1 ≠ .panics ∧ opsOk (g.call op).2.handles.length ops := by
        cases op with
        | index i k =>
          obtain ⟨h1, h2⟩ := h
          simp only [CGroup.call, List.getElem?_eq_getElem h1]
          split
          · exact ⟨(by simp), by simpa using h2⟩
          · split <;> exact ⟨(by simp), by simpa using h2⟩
        | nth i n =>
          obtain ⟨h1, h0, h2⟩ := h
          simp only [CGroup.call, List.getElem?_eq_getElem h1]
          split
          · exact ⟨(by simp), by simpa using h2⟩
          · split
            · exact ⟨(by simp), by simpa using h2⟩
            · rename_i l _
              split
              · exact ⟨(by simp), by simpa using h2⟩
              · rename_i hh
                rw [if_neg (by omega), List.getElem?_eq_getElem (by omega)]
                exact ⟨(by simp), by simpa using h2⟩
            · exact ⟨(by simp), by simpa using h2⟩
        | get i k =>
          obtain ⟨h1, h2⟩ := h
          simp only [CGroup.call, List.getElem?_eq_getElem h1]
          split
          · exact ⟨(by simp), h2⟩
          · split
            · exact ⟨(by simp), h2⟩
            · split <;> exact ⟨(by simp), h2⟩
      rw [run_cons key.1]
      intro r hr
      rcases List.mem_cons.mp hr with rfl | hr
      · exact key.1
      · exact ih _ key.2 r hr
  exact gen ops _ h

theorem C52_negative : ((CGroup.new (.arr [.int 1])).run [.nth 0 (-1)]).1 = [.panics] := rfl

/-- `a.I("x").Int()` and then `a.I("y").N(1).String()` on a document that has both. -/
theorem C52_example : opsOk 1 [.index 0 "x", .get 1 .int, .index 0 "y", .nth 2 1, .get 3 .str] ∧
    (CGroup.new (.map [("x", .int 5), ("y", .arr [.nil, .str "b"])])).run [.index 0 "x", .get 1 .int, .index 0 "y", .nth 2 1, .get 3 .str] =
      ([.handle, .val (.int 5), .handle, .handle, .val (.str "b")], { err := false, handles := [.map [("x", .int 5), ("y", .arr [.nil, .str "b"])], .int 5, .arr [.nil, .str "b"], .str "b"] }) := by
  refine ⟨?_, rfl⟩
  simp [opsOk]

end Rothko
