import Verif.Model.GraphiteLog
import Verif.Props.Graphite
/-! # C132: every line that a connection sends is added or logged -/
namespace Rothko

/-! ## Specification -/

/-- What the lines are owed, in order: a well formed one its addition, any other a line in the log with its text. -/
inductive LineEvents {F : Type} (parse : Bytes → Option F) : List Bytes → List (ConnEv F) → Prop
  | nil : LineEvents parse [] []
  | good {l c m : Bytes} {x : F} {ls : List Bytes} {es : List (ConnEv F)} :
      Stripped l c → GraphiteLine parse c m x → LineEvents parse ls es → LineEvents parse (l :: ls) (.add m x :: es)
  | bad {l c : Bytes} {ls : List Bytes} {es : List (ConnEv F)} :
      Stripped l c → (∀ m x, ¬ GraphiteLine parse c m x) → LineEvents parse ls es → LineEvents parse (l :: ls) (.invalid c :: es)

/-! ## Proofs -/

theorem lineEvents_map {F : Type} (parse : Bytes → Option F) (ls : List Bytes) :
    LineEvents parse ls (ls.flatMap (fun l => [lineEvent parse (dropCR l)])) := by
  induction ls with
  | nil => exact .nil
  | cons l ls ih =>
    rw [List.flatMap_cons, List.singleton_append, lineEvent]
    cases e : handleLine parse (dropCR l) with
    | none =>
      refine .bad (stripped_dropCR l) (fun m x g => ?_) ih
      rw [(C56_line parse _ m x).mpr g] at e
      cases e
    | some a =>
      obtain ⟨m, x⟩ := a
      exact .good (stripped_dropCR l) ((C56_line parse _ m x).mp e) ih

theorem connLog_lines {F : Type} (parse : Bytes → Option F) (buf : Bytes) (reads : List Bytes) :
    ∀ ls, buf.length ≤ maxToken → StreamLines (buf ++ reads.flatten) ls →
      connLog parse buf reads =
        ((ls.takeWhile (fun l => decide (l.length < maxToken))).flatMap (fun l => [lineEvent parse (dropCR l)]), ls.any (fun l => decide (maxToken ≤ l.length))) := by
  induction buf, reads using connLog.induct (parse := parse) with
  | case1 buf reads l rest e ih =>
    intro ls hb h
    have hlen := cutLine_length _ _ _ e
    obtain ⟨eb, n⟩ := cutLine_some _ _ _ e
    rw [eb, List.append_assoc, List.cons_append] at h
    obtain ⟨ls', rfl, h'⟩ := lines_cut n h
    rw [connLog.eq_def]
    split
    · rename_i l2 r2 e2
      rw [e] at e2
      simp at e2
      obtain ⟨rfl, rfl⟩ := e2
      rw [ih ls' (by omega) h']
      have : l.length < maxToken := by omega
      simp [this]
      rintro a
      omega
    · rename_i e2; rw [e] at e2; cases e2
  | case2 buf reads e hf =>
    intro ls hb h
    have n := cutLine_none _ e
    obtain ⟨f, ls', rfl, hl⟩ := lines_start (by intro a; rw [a] at hf; simp [maxToken] at hf) n h
    have hnl : ¬ f.length < maxToken := by omega
    have hle : maxToken ≤ f.length := by omega
    rw [connLog.eq_def]
    split
    · rename_i e2; rw [e] at e2; cases e2
    · rw [dif_pos hf]
      simp [hnl, hle]
  | case3 e hf =>
    intro ls hb h
    have : ls = [] := by
      generalize e2 : ([] : Bytes) ++ ([] : List Bytes).flatten = b at h
      cases h with
      | nil => rfl
      | last k _ => simp at e2; exact absurd e2.symm (fun a => k a.symm)
      | cons => simp at e2
    subst this
    rw [connLog.eq_def]
    split
    · rename_i e2; rw [e] at e2; cases e2
    · rw [dif_neg hf]; simp
  | case4 buf e hf hne =>
    intro ls hb h
    have n := cutLine_none _ e
    have : ls = [buf] := by
      generalize e2 : buf ++ ([] : List Bytes).flatten = b at h
      simp at e2
      subst e2
      generalize e3 : buf = c at h
      cases h with
      | nil => exact absurd e3 hne
      | last => rfl
      | cons => exact absurd (by rw [e3]; simp) n
    subst this
    rw [connLog.eq_def]
    split
    · rename_i e2; rw [e] at e2; cases e2
    · rw [dif_neg hf]
      have : buf.length < maxToken := by omega
      simp [hne, this]
  | case5 buf e hf p ps hp ih =>
    intro ls hb h
    rw [connLog.eq_def]
    split
    · rename_i e2; rw [e] at e2; cases e2
    · rw [dif_neg hf]
      simp only [hp, if_true]
      exact ih ls (by simp; omega) (by rw [List.append_assoc]; exact h)
  | case6 buf e hf p ps hp ih =>
    intro ls hb h
    rw [connLog.eq_def]
    split
    · rename_i e2; rw [e] at e2; cases e2
    · rw [dif_neg hf]
      simp only [hp, if_false]
      refine ih ls (by simp; omega) ?_
      rw [List.flatten_cons, List.append_assoc, ← List.append_assoc (List.take _ _), List.take_append_drop]
      exact h

/-- **C132.** However the stream is cut into packets: every line is, in order, added if it is well formed and logged with its text if not; nothing else is done for a stream without a line of 65536 bytes or more. -/
theorem C132_conn {F : Type} (parse : Bytes → Option F) (reads : List Bytes) (ls : List Bytes) (h : StreamLines reads.flatten ls) (hs : ∀ l ∈ ls, l.length < 65536) :
    LineEvents parse ls (serveConn parse reads) := by
  have e1 : ls.takeWhile (fun l => decide (l.length < maxToken)) = ls := by
    have := List.takeWhile_append_of_pos (l₁ := ls) (l₂ := []) (p := fun l => decide (l.length < maxToken)) (fun a ha => decide_eq_true (hs a ha))
    simpa using this
  have e2 : ls.any (fun l => decide (maxToken ≤ l.length)) = false := by
    rw [List.any_eq_false]
    intro l hl
    have := hs l hl
    simp only [decide_eq_true_eq]
    unfold maxToken
    omega
  unfold serveConn
  rw [connLog_lines parse [] reads ls (by simp) h, e1, e2]
  exact lineEvents_map parse ls

/-- **C132** (long lines). At the first line of 65536 bytes or more one line about the connection is logged, after what the lines before it are owed, and nothing comes after it. -/
theorem C132_long {F : Type} (parse : Bytes → Option F) (reads : List Bytes) (ls rest : List Bytes) (l : Bytes) (h : StreamLines reads.flatten (ls ++ l :: rest))
    (hs : ∀ l ∈ ls, l.length < 65536) (hl : 65536 ≤ l.length) :
    ∃ es, serveConn parse reads = es ++ [.connError] ∧ LineEvents parse ls es := by
  have e1 : (ls ++ l :: rest).takeWhile (fun l => decide (l.length < maxToken)) = ls := by
    rw [List.takeWhile_append_of_pos (p := fun l => decide (l.length < maxToken)) (fun a ha => decide_eq_true (hs a ha)), List.takeWhile_cons_of_neg (by simp only [decide_eq_true_eq]; unfold maxToken; omega), List.append_nil]
  have e2 : (ls ++ l :: rest).any (fun l => decide (maxToken ≤ l.length)) = true := by
    rw [List.any_eq_true]
    exact ⟨l, by simp, decide_eq_true hl⟩
  refine ⟨_, ?_, lineEvents_map parse ls⟩
  unfold serveConn
  rw [connLog_lines parse [] reads _ (by simp) h, e1, e2]
  rfl

/-- The additions are those of C56. -/
theorem C132_adds {F : Type} (parse : Bytes → Option F) (ls : List Bytes) (es : List (ConnEv F)) (h : LineEvents parse ls es) :
    LineAdds parse ls (es.filterMap fun | .add m x => some (m, x) | _ => none) := by
  induction h with
  | nil => exact .nil
  | good s g _ ih => exact .good s g ih
  | bad s g _ ih => exact .bad s g ih

/-- Three lines in two packets, the second without a value; the last has no newline. -/
theorem C132_example :
    let reads : List Bytes := [[97, 32, 49, 32, 50, 13, 10, 98, 32], [10, 99, 32, 51, 32, 52]]
    let parse : Bytes → Option Nat := fun b => match b with | [d] => some (d.toNat - 48) | _ => none
    StreamLines reads.flatten [[97, 32, 49, 32, 50, 13], [98, 32], [99, 32, 51, 32, 52]] ∧
    serveConn parse reads = [.add [97] 1, .invalid [98, 32], .add [99] 3] := by
  intro reads parse
  have hl : StreamLines reads.flatten [[97, 32, 49, 32, 50, 13], [98, 32], [99, 32, 51, 32, 52]] :=
    .cons (l := [97, 32, 49, 32, 50, 13]) (rest := [98, 32, 10, 99, 32, 51, 32, 52]) (by decide) (.cons (l := [98, 32]) (rest := [99, 32, 51, 32, 52]) (by decide) (.last (by decide) (by decide)))
  refine ⟨hl, ?_⟩
  unfold serveConn
  rw [connLog_lines parse [] reads _ (by simp) hl]
  decide

end Rothko
