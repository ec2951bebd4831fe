import Verif.Model.Tabbed
/-! # C129: a table's rows arrive until the first error, which stays -/
namespace Rothko

/-! ## Specification -/

/-- The line for a row: the cells with a tab (9) between two of them, and a newline (10). -/
def rowLine (cells : List Bytes) : Bytes := (cells.intersperse [9]).flatten ++ [10]

/-- The writer asked for every call, whatever it answers: where it ends, and the answers. -/
def askAll {W E : Type} (o : TabOut W E) : W → List TabOp → W × List (Option E)
  | w, [] => (w, [])
  | w, .write vs :: ops => ((askAll o (o.write w (rowLine vs)).1 ops).1, (o.write w (rowLine vs)).2 :: (askAll o (o.write w (rowLine vs)).1 ops).2)
  | w, .flush :: ops => ((askAll o (o.flush w).1 ops).1, (o.flush w).2 :: (askAll o (o.flush w).1 ops).2)

/-- A writer that keeps the bytes and never fails. -/
def keepBytes (E : Type) : TabOut Bytes E := ⟨fun w b => (w ++ b, none), fun w => (w, none)⟩

/-! ## Proofs -/

theorem joinWith_intersperse (sep : UInt8) (ls : List Bytes) : joinWith sep ls = (ls.intersperse [sep]).flatten := by
  induction ls with
  | nil => rfl
  | cons a l ih =>
    cases l with
    | nil => simp [joinWith]
    | cons b l =>
      have : joinWith sep (a :: b :: l) = a ++ sep :: joinWith sep (b :: l) := rfl
      rw [this, ih]
      simp [List.intersperse]

theorem tab_stuck {W E : Type} (o : TabOut W E) (t : Tabbed W E) (e : E) (h : t.err = some e) (ops : List TabOp) : t.run o ops = t := by
  induction ops with
  | nil => rfl
  | cons op ops ih =>
    have h1 : t.op o op = t := by cases op <;> simp [Tabbed.op, Tabbed.write, Tabbed.flush, h]
    show (t.op o op).run o ops = t
    rw [h1, ih]

theorem tab_first {W E : Type} (o : TabOut W E) (w : W) (op : TabOp) :
    (⟨w, none⟩ : Tabbed W E).op o op = ⟨(askAll o w [op]).1, (askAll o w [op]).2.getLast?.join⟩ := by
  cases op with
  | write vs => simp [Tabbed.op, Tabbed.write, askAll, rowLine, joinWith_intersperse]
  | flush => simp [Tabbed.op, Tabbed.flush, askAll]

theorem ask_cons {W E : Type} (o : TabOut W E) (w : W) (op : TabOp) (ops : List TabOp) :
    ∃ a, askAll o w [op] = ((askAll o w [op]).1, [a]) ∧ askAll o w (op :: ops) = ((askAll o (askAll o w [op]).1 ops).1, a :: (askAll o (askAll o w [op]).1 ops).2) := by
  cases op <;> exact ⟨_, rfl, rfl⟩

/-- **C129, errors.** Whatever the writer does, it is asked for the first calls in order, up to and with the first that fails (all, if none fails), and nothing after; `Error` gives what that call gave. -/
theorem C129_error {W E : Type} (o : TabOut W E) (w : W) (ops : List TabOp) :
    ∃ k ≤ ops.length,
      ((Tabbed.new w).run o ops).tw = (askAll o w (ops.take k)).1 ∧
      ((Tabbed.new w).run o ops).error = (askAll o w (ops.take k)).2.getLast?.join ∧
      (∀ a ∈ (askAll o w (ops.take k)).2.dropLast, a = none) ∧
      (((Tabbed.new w).run o ops).error = none → k = ops.length) := by
  induction ops generalizing w with
  | nil => exact ⟨0, Nat.le_refl _, rfl, rfl, by simp [askAll], fun _ => rfl⟩
  | cons op ops ih =>
    obtain ⟨a, ha, -⟩ := ask_cons o w op []
    have hf := tab_first o w op
    have hr : (Tabbed.new w).run o (op :: ops) = (⟨(askAll o w [op]).1, a⟩ : Tabbed W E).run o ops := by
      show ((⟨w, none⟩ : Tabbed W E).op o op).run o ops = _
      rw [hf]
      congr 2
      rw [ha]; simp
    cases a with
    | some e =>
      rw [hr, tab_stuck o _ e rfl]
      refine ⟨1, by simp, ?_, ?_, ?_, fun h => by simp [Tabbed.error] at h⟩
      · simp
      · simp only [List.take_succ_cons, List.take_zero]; rw [ha]; simp [Tabbed.error]
      · simp only [List.take_succ_cons, List.take_zero]; rw [ha]; simp
    | none =>
      obtain ⟨k, hk, h1, h2, h3, h4⟩ := ih (askAll o w [op]).1
      obtain ⟨a', ha', hc⟩ := ask_cons o w op (ops.take k)
      have e : a' = none := by
        have := ha.symm.trans ha'
        simp only [Prod.mk.injEq, List.cons.injEq] at this
        exact this.2.1.symm
      subst e
      rw [hr]
      refine ⟨k + 1, by simpa using hk, ?_, ?_, ?_, ?_⟩
      · rw [List.take_succ_cons, hc]; exact h1
      · rw [List.take_succ_cons, hc]
        refine h2.trans ?_
        cases h : (askAll o (askAll o w [op]).1 (ops.take k)).2 with
        | nil => simp
        | cons x xs => simp [List.getLast?_cons_cons]
      · rw [List.take_succ_cons, hc]
        cases h : (askAll o (askAll o w [op]).1 (ops.take k)).2 with
        | nil => simp
        | cons x xs =>
          intro a ha
          rw [h] at h3
          rcases (by simpa [List.dropLast] using ha : a = none ∨ a ∈ (x :: xs).dropLast) with rfl | h'
          · rfl
          · exact h3 a h'
      · intro h
        rw [h4 h]; rfl

/-- An error seen once is the one seen ever after, and the writer is not asked for anything more. -/
theorem C129_stays {W E : Type} (o : TabOut W E) (w : W) (before after : List TabOp) (e : E)
    (h : ((Tabbed.new w).run o before).error = some e) :
    ((Tabbed.new w).run o (before ++ after)).error = some e ∧
    ((Tabbed.new w).run o (before ++ after)).tw = ((Tabbed.new w).run o before).tw := by
  have : (Tabbed.new w).run o (before ++ after) = ((Tabbed.new w).run o before).run o after := by simp [Tabbed.run, List.foldl_append]
  rw [this, tab_stuck o _ e h]
  exact ⟨h, rfl⟩

theorem tab_row (cells : List Bytes) (hne : cells ≠ []) (h : ∀ c ∈ cells, (9 : UInt8) ∉ c) : splitOn 9 (joinWith 9 cells) = cells := by
  induction cells with
  | nil => exact absurd rfl hne
  | cons a l ih =>
    cases l with
    | nil => exact splitOn_none 9 a (h a (by simp))
    | cons b l =>
      have : joinWith 9 (a :: b :: l) = a ++ 9 :: joinWith 9 (b :: l) := rfl
      rw [this, splitOn_append, splitOn_none 9 a (h a (by simp)), ih (by simp) (fun x hx => h x (by simp [hx]))]
      rfl

theorem tab_no10 (cells : List Bytes) (h : ∀ c ∈ cells, (10 : UInt8) ∉ c) : (10 : UInt8) ∉ joinWith 9 cells := by
  induction cells with
  | nil => simp [joinWith]
  | cons a l ih =>
    cases l with
    | nil => exact h a (by simp)
    | cons b l =>
      have : joinWith 9 (a :: b :: l) = a ++ 9 :: joinWith 9 (b :: l) := rfl
      rw [this, List.mem_append, List.mem_cons]
      rintro (h1 | h1 | h1)
      · exact h a (by simp) h1
      · exact absurd h1 (by decide)
      · exact ih (fun x hx => h x (by simp [hx])) h1

/-- **C129, rows.** With a writer that keeps the bytes: the text read line by line and cell by cell is the rows written, in order (the last, empty, line is what is after the last newline), wherever flushes are, for rows of at least one cell and cells without tab and newline. -/
theorem C129_rows {E : Type} (ops : List TabOp)
    (hne : ∀ cells, TabOp.write cells ∈ ops → cells ≠ [])
    (hc : ∀ cells, TabOp.write cells ∈ ops → ∀ c ∈ cells, (9 : UInt8) ∉ c ∧ (10 : UInt8) ∉ c) :
    ((Tabbed.new (E := E) []).run (keepBytes E) ops).error = none ∧
    (splitOn 10 ((Tabbed.new (E := E) []).run (keepBytes E) ops).tw).map (splitOn 9)
      = ops.filterMap (fun | .write cells => some cells | .flush => none) ++ [[[]]] := by
  have key : ∀ (ops : List TabOp) (w : Bytes), (⟨w, none⟩ : Tabbed Bytes E).run (keepBytes E) ops
      = ⟨w ++ (ops.filterMap (fun | .write cells => some cells | .flush => none)).flatMap (fun c => joinWith 9 c ++ [10]), none⟩ := by
    intro ops
    induction ops with
    | nil => intro w; simp [Tabbed.run]
    | cons op ops ih =>
      intro w
      cases op with
      | write cells =>
        show (⟨w ++ (joinWith 9 cells ++ [10]), none⟩ : Tabbed Bytes E).run (keepBytes E) ops = _
        rw [ih]; simp
      | flush =>
        show (⟨w, none⟩ : Tabbed Bytes E).run (keepBytes E) ops = _
        rw [ih]; simp
  have split : ∀ rows : List (List Bytes), (∀ r ∈ rows, r ≠ [] ∧ ∀ c ∈ r, (9 : UInt8) ∉ c ∧ (10 : UInt8) ∉ c) →
      (splitOn 10 (rows.flatMap fun c => joinWith 9 c ++ [10])).map (splitOn 9) = rows ++ [[[]]] := by
    intro rows
    induction rows with
    | nil => intro _; rfl
    | cons r rows ih =>
      intro h
      have hr := h r (by simp)
      rw [List.flatMap_cons, List.append_assoc, List.singleton_append, splitOn_append,
        splitOn_none 10 _ (tab_no10 r fun c hc => (hr.2 c hc).2), List.map_append, ih fun r hr => h r (by simp [hr])]
      simp [tab_row r hr.1 fun c hc => (hr.2 c hc).1]
  rw [show (Tabbed.new (E := E) []) = (⟨[], none⟩ : Tabbed Bytes E) from rfl, key]
  refine ⟨rfl, ?_⟩
  rw [List.nil_append]
  refine split _ fun r hr => ?_
  obtain ⟨op, hop, hr⟩ := List.mem_filterMap.mp hr
  cases op with
  | flush => exact absurd hr (by simp)
  | write cells =>
    simp only [Option.some.injEq] at hr
    subst hr
    exact ⟨hne _ hop, hc _ hop⟩

/-! ## Cases -/

/-- A writer with room for a number of bytes. -/
def roomFor (n : Nat) : TabOut Bytes Nat :=
  ⟨fun w b => if w.length + b.length ≤ n then (w ++ b, none) else (w, some b.length), fun w => (w, none)⟩

/-- Three rows into a writer with room for seven bytes: the second fails and the third, which would fit, is not asked for. -/
theorem C129_error_example :
    ((Tabbed.new []).run (roomFor 7) [.write [[97], [98]], .flush, .write [[99, 99], [100]], .write [[101]]]).tw = [97, 9, 98, 10] ∧
    ((Tabbed.new []).run (roomFor 7) [.write [[97], [98]], .flush, .write [[99, 99], [100]], .write [[101]]]).error = some 5 := by decide

/-- Two rows with an empty cell. -/
theorem C129_rows_example :
    ((Tabbed.new (E := Nat) []).run (keepBytes Nat) [.write [[97], [], [98]], .flush, .write [[]]]).tw = [97, 9, 9, 98, 10, 10] ∧
    (splitOn 10 ((Tabbed.new (E := Nat) []).run (keepBytes Nat) [.write [[97], [], [98]], .flush, .write [[]]]).tw).map (splitOn 9) = [[[97], [], [98]], [[]], [[]]] := by
  decide

end Rothko
