/-
C56: what a graphite connection adds to the writer.
-/
import Verif.Model.Graphite

namespace Rothko

/-! ## Specification -/

/-- The line is `metric value timestamp` with single spaces, and the value field parses to `x`. -/
def GraphiteLine {F : Type} (parse : Bytes → Option F) (line metric : Bytes) (x : F) : Prop :=
  ∃ v t, line = metric ++ 32 :: (v ++ 32 :: t) ∧ 32 ∉ metric ∧ 32 ∉ v ∧ 32 ∉ t ∧ parse v = some x

/-- The lines of a stream of bytes: what stands between newlines; the last one needs no newline. -/
inductive StreamLines : Bytes → List Bytes → Prop
  | nil : StreamLines [] []
  | last {l : Bytes} : l ≠ [] → 10 ∉ l → StreamLines l [l]
  | cons {l rest : Bytes} {ls : List Bytes} : 10 ∉ l → StreamLines rest ls → StreamLines (l ++ 10 :: rest) (l :: ls)

/-- `c` is the line `l` without one trailing carriage return. -/
def Stripped (l c : Bytes) : Prop := l = c ++ [13] ∨ (l = c ∧ ∀ d, l ≠ d ++ [13])

/-- The additions owed to the lines, in order: one for each well formed line, none for the others. -/
inductive LineAdds {F : Type} (parse : Bytes → Option F) : List Bytes → List (Bytes × F) → Prop
  | nil : LineAdds parse [] []
  | good {l c m : Bytes} {x : F} {ls : List Bytes} {as : List (Bytes × F)} :
      Stripped l c → GraphiteLine parse c m x → LineAdds parse ls as → LineAdds parse (l :: ls) ((m, x) :: as)
  | bad {l c : Bytes} {ls : List Bytes} {as : List (Bytes × F)} :
      Stripped l c → (∀ m x, ¬ GraphiteLine parse c m x) → LineAdds parse ls as → LineAdds parse (l :: ls) as

/-! ## Proofs -/

theorem splitSp_none {l : Bytes} (h : 32 ∉ l) : splitSp l = [l] := by
  induction l with
  | nil => rfl
  | cons c l ih =>
    simp at h
    unfold splitSp
    rw [if_neg (fun e => h.1 e.symm), ih h.2]

theorem splitSp_cons {a : Bytes} (h : 32 ∉ a) (b : Bytes) : splitSp (a ++ 32 :: b) = a :: splitSp b := by
  induction a with
  | nil => simp [splitSp]
  | cons c l ih =>
    simp at h
    rw [List.cons_append, splitSp, if_neg (fun e => h.1 e.symm), ih h.2]

theorem splitSp_join : ∀ (l : Bytes) (f : Bytes) (fs : List Bytes), splitSp l = f :: fs → 32 ∉ f ∧ (fs = [] ∧ l = f ∨ ∃ r, l = f ++ 32 :: r ∧ splitSp r = fs)
  | [], f, fs, h => by simp [splitSp] at h; obtain ⟨rfl, rfl⟩ := h; simp
  | c :: l, f, fs, h => by
    unfold splitSp at h
    split at h
    · rename_i e
      simp at h
      obtain ⟨rfl, rfl⟩ := h
      exact ⟨by simp, Or.inr ⟨l, by rw [e]; rfl, rfl⟩⟩
    · rename_i e
      split at h
      · rename_i e2
        exact absurd e2 (by
          cases l with
          | nil => simp [splitSp]
          | cons d l =>
            unfold splitSp
            split
            · simp
            · split <;> simp)
      · rename_i g gs e2
        simp at h
        obtain ⟨rfl, rfl⟩ := h
        obtain ⟨n, o⟩ := splitSp_join l g gs e2
        refine ⟨by simp; exact ⟨fun x => e x.symm, n⟩, ?_⟩
        rcases o with ⟨a, b⟩ | ⟨r, a, b⟩
        · exact Or.inl ⟨a, by rw [b]⟩
        · exact Or.inr ⟨r, by rw [a]; rfl, b⟩

/-- **C56** (one line). A line leads to an addition exactly when it has the three fields and the value parses: then exactly that value is added to exactly that metric. -/
theorem C56_line {F : Type} (parse : Bytes → Option F) (line m : Bytes) (x : F) :
    handleLine parse line = some (m, x) ↔ GraphiteLine parse line m x := by
  constructor
  · intro h
    unfold handleLine at h
    split at h
    · rename_i f0 f1 f2 e
      obtain ⟨n0, o⟩ := splitSp_join _ _ _ e
      rcases o with ⟨a, _⟩ | ⟨r, e0, e⟩
      · cases a
      obtain ⟨n1, o⟩ := splitSp_join _ _ _ e
      rcases o with ⟨a, _⟩ | ⟨r', e1, e⟩
      · cases a
      obtain ⟨n2, o⟩ := splitSp_join _ _ _ e
      rcases o with ⟨_, e2⟩ | ⟨r', e2, e⟩
      · split at h
        · cases h
        · rename_i v hv
          simp at h
          obtain ⟨rfl, rfl⟩ := h
          exact ⟨f1, f2, by rw [e0, e1, e2], n0, n1, n2, hv⟩
      · exfalso
        cases r' with
        | nil => simp [splitSp] at e
        | cons d l =>
          unfold splitSp at e
          split at e
          · simp at e
          · split at e <;> simp at e
    · cases h
  · rintro ⟨v, t, rfl, n0, n1, n2, hv⟩
    unfold handleLine
    rw [splitSp_cons n0, splitSp_cons n1, splitSp_none n2]
    simp [hv]

/-- **C56** (truncated line). What is left of a well formed line that was cut anywhere (the connection broke) adds either nothing or what the whole line would have added. -/
theorem C56_truncated {F : Type} (parse : Bytes → Option F) (line rest m m' : Bytes) (x x' : F)
    (h : GraphiteLine parse (line ++ rest) m x) (h' : handleLine parse line = some (m', x')) : m' = m ∧ x' = x := by
  obtain ⟨v, t, e, n0, n1, n2, hv⟩ := (C56_line parse line m' x').mp h'
  obtain ⟨w, u, e', k0, k1, k2, hw⟩ := h
  have s1 : splitSp (line ++ rest) = m :: w :: splitSp u := by rw [e', splitSp_cons k0, splitSp_cons k1]
  have s2 : splitSp (line ++ rest) = m' :: v :: splitSp (t ++ rest) := by
    rw [e, List.append_assoc, List.cons_append, List.append_assoc, List.cons_append, splitSp_cons n0, splitSp_cons n1]
  rw [s1] at s2
  simp at s2
  obtain ⟨rfl, rfl, _⟩ := s2
  rw [hv] at hw
  exact ⟨rfl, by simpa using hw⟩

theorem stripped_dropCR (l : Bytes) : Stripped l (dropCR l) := by
  unfold dropCR
  split
  · rename_i e
    left
    have hne : l ≠ [] := by intro a; rw [a] at e; simp at e
    rw [List.getLast?_eq_some_getLast hne] at e
    have := List.dropLast_concat_getLast hne
    simp at e
    rw [e] at this
    exact this.symm
  · rename_i e
    right
    refine ⟨rfl, fun d a => e ?_⟩
    rw [a]
    simp

theorem lineAdds_flatMap {F : Type} (parse : Bytes → Option F) (ls : List Bytes) :
    LineAdds parse ls (ls.flatMap (fun l => (handleLine parse (dropCR l)).toList)) := by
  induction ls with
  | nil => exact .nil
  | cons l ls ih =>
    rw [List.flatMap_cons]
    cases e : handleLine parse (dropCR l) with
    | none =>
      refine .bad (stripped_dropCR l) (fun m x g => ?_) ih
      rw [(C56_line parse _ m x).mpr g] at e
      cases e
    | some a =>
      obtain ⟨m, x⟩ := a
      exact .good (stripped_dropCR l) ((C56_line parse _ m x).mp e) ih

theorem stripped_unique {l c d : Bytes} (h : Stripped l c) (h' : Stripped l d) : c = d := by
  rcases h with h | ⟨h, n⟩ <;> rcases h' with h' | ⟨h', n'⟩
  · rw [h] at h'; simpa using h'
  · exact absurd h (n' c)
  · exact absurd h' (n d)
  · rw [← h, h']

/-- The additions owed to the lines are determined by them. -/
theorem lineAdds_unique {F : Type} (parse : Bytes → Option F) {ls : List Bytes} {as bs : List (Bytes × F)}
    (h : LineAdds parse ls as) (h' : LineAdds parse ls bs) : as = bs := by
  induction h generalizing bs with
  | nil => cases h'; rfl
  | good s g _ ih =>
    cases h' with
    | good s' g' r' =>
      have := stripped_unique s s'
      subst this
      have a := (C56_line parse _ _ _).mpr g
      rw [(C56_line parse _ _ _).mpr g'] at a
      simp at a
      rw [ih r', a.1, a.2]
    | bad s' g' r' =>
      have := stripped_unique s s'
      subst this
      exact absurd g (g' _ _)
  | bad s g _ ih =>
    cases h' with
    | good s' g' r' =>
      have := stripped_unique s s'
      subst this
      exact absurd g' (g _ _)
    | bad s' g' r' => exact ih r'

theorem cutLine_some : ∀ (b l r : Bytes), cutLine b = some (l, r) → b = l ++ 10 :: r ∧ 10 ∉ l
  | [], _, _, h => by simp [cutLine] at h
  | c :: rest, l, r, h => by
    unfold cutLine at h
    split at h
    · rename_i e; simp at h; obtain ⟨rfl, rfl⟩ := h; simp [e]
    · rename_i e
      split at h
      · simp at h
      · rename_i l' r' e2
        simp at h
        obtain ⟨rfl, rfl⟩ := h
        obtain ⟨a, b⟩ := cutLine_some rest l' r' e2
        rw [a]
        simp
        exact ⟨fun x => e x.symm, b⟩

theorem cutLine_none : ∀ (b : Bytes), cutLine b = none → 10 ∉ b
  | [], _ => by simp
  | c :: rest, h => by
    unfold cutLine at h
    split at h
    · simp at h
    · rename_i e
      split at h
      · rename_i e2
        simp
        exact ⟨fun x => e x.symm, cutLine_none rest e2⟩
      · simp at h

theorem prefix_unique {a b : Bytes} : ∀ {l l' : Bytes}, 10 ∉ l → 10 ∉ l' → l ++ 10 :: a = l' ++ 10 :: b → l = l' ∧ a = b
  | [], [], _, _, h => by simpa using h
  | [], c :: l', _, n, h => by simp at h n; exact absurd h.1 n.1
  | c :: l, [], n, _, h => by simp at h n; exact absurd h.1.symm n.1
  | c :: l, d :: l', n, n', h => by
    simp at h n n'
    obtain ⟨i, j⟩ := prefix_unique n.2 n'.2 h.2
    exact ⟨by rw [h.1, i], j⟩

theorem lines_cut {l r : Bytes} {ls : List Bytes} (n : 10 ∉ l) (h : StreamLines (l ++ 10 :: r) ls) : ∃ ls', ls = l :: ls' ∧ StreamLines r ls' := by
  generalize e : l ++ 10 :: r = b at h
  cases h with
  | nil => simp at e
  | last _ k => exact absurd (by rw [← e]; simp) k
  | cons k s =>
    obtain ⟨rfl, rfl⟩ := prefix_unique n k e
    exact ⟨_, rfl, s⟩

theorem lines_start {l r : Bytes} {ls : List Bytes} (hl : l ≠ []) (n : 10 ∉ l) (h : StreamLines (l ++ r) ls) : ∃ f ls', ls = f :: ls' ∧ l.length ≤ f.length := by
  generalize e : l ++ r = b at h
  cases h with
  | nil => simp at e; exact absurd e.1 hl
  | last _ k => exact ⟨_, _, rfl, by rw [← e]; simp⟩
  | @cons f rest ls k s =>
    refine ⟨_, _, rfl, ?_⟩
    rw [List.append_eq_append_iff] at e
    rcases e with ⟨a, e1, e2⟩ | ⟨a, e1, e2⟩
    · rw [e1]; simp
    · cases a with
      | nil => simp at e1; rw [e1]; exact Nat.le_refl _
      | cons d a =>
        simp at e2
        exact absurd (by rw [e1, ← e2.1]; simp) n

theorem handleConn_lines {F : Type} (parse : Bytes → Option F) (buf : Bytes) (reads : List Bytes) :
    ∀ ls, buf.length ≤ maxToken → StreamLines (buf ++ reads.flatten) ls →
      handleConn parse buf reads =
        ((ls.takeWhile (fun l => decide (l.length < maxToken))).flatMap (fun l => (handleLine parse (dropCR l)).toList), ls.any (fun l => decide (maxToken ≤ l.length))) := by
  induction buf, reads using handleConn.induct (parse := parse) with
  | case1 buf reads l rest e ih =>
    intro ls hb h
    have hlen := cutLine_length _ _ _ e
    obtain ⟨eb, n⟩ := cutLine_some _ _ _ e
    rw [eb, List.append_assoc, List.cons_append] at h
    obtain ⟨ls', rfl, h'⟩ := lines_cut n h
    rw [handleConn.eq_def]
    split
    · rename_i l2 r2 e2
      rw [e] at e2
      simp at e2
      obtain ⟨rfl, rfl⟩ := e2
      rw [ih ls' (by omega) h']
      have : l.length < maxToken := by omega
      simp [this]
      rintro a
      omega
    · rename_i e2; rw [e] at e2; cases e2
  | case2 buf reads e hf =>
    intro ls hb h
    have n := cutLine_none _ e
    obtain ⟨f, ls', rfl, hl⟩ := lines_start (by intro a; rw [a] at hf; simp [maxToken] at hf) n h
    have hnl : ¬ f.length < maxToken := by omega
    have hle : maxToken ≤ f.length := by omega
    rw [handleConn.eq_def]
    split
    · rename_i e2; rw [e] at e2; cases e2
    · rw [dif_pos hf]
      simp [hnl, hle]
  | case3 e hf =>
    intro ls hb h
    have : ls = [] := by
      generalize e2 : ([] : Bytes) ++ ([] : List Bytes).flatten = b at h
      cases h with
      | nil => rfl
      | last k _ => simp at e2; exact absurd e2.symm (fun a => k a.symm)
      | cons => simp at e2
    subst this
    rw [handleConn.eq_def]
    split
    · rename_i e2; rw [e] at e2; cases e2
    · rw [dif_neg hf]; simp
  | case4 buf e hf hne =>
    intro ls hb h
    have n := cutLine_none _ e
    have : ls = [buf] := by
      generalize e2 : buf ++ ([] : List Bytes).flatten = b at h
      simp at e2
      subst e2
      generalize e3 : buf = c at h
      cases h with
      | nil => exact absurd e3 hne
      | last => rfl
      | cons => exact absurd (by rw [e3]; simp) n
    subst this
    rw [handleConn.eq_def]
    split
    · rename_i e2; rw [e] at e2; cases e2
    · rw [dif_neg hf]
      have : buf.length < maxToken := by omega
      simp [hne, this]
  | case5 buf e hf p ps hp ih =>
    intro ls hb h
    rw [handleConn.eq_def]
    split
    · rename_i e2; rw [e] at e2; cases e2
    · rw [dif_neg hf]
      simp only [hp, if_true]
      exact ih ls (by simp; omega) (by rw [List.append_assoc]; exact h)
  | case6 buf e hf p ps hp ih =>
    intro ls hb h
    rw [handleConn.eq_def]
    split
    · rename_i e2; rw [e] at e2; cases e2
    · rw [dif_neg hf]
      simp only [hp, if_false]
      refine ih ls (by simp; omega) ?_
      rw [List.flatten_cons, List.append_assoc, ← List.append_assoc (List.take _ _), List.take_append_drop]
      exact h

/-- Every stream has its lines. -/
theorem C56_lines_exist (b : Bytes) : ∃ ls, StreamLines b ls := by
  generalize hn : b.length = n
  induction n using Nat.strongRecOn generalizing b with
  | ind n ih =>
    cases e : cutLine b with
    | none =>
      by_cases hb : b = []
      · exact ⟨[], by rw [hb]; exact .nil⟩
      · exact ⟨[b], .last hb (cutLine_none b e)⟩
    | some lr =>
      obtain ⟨l, r⟩ := lr
      have := cutLine_length _ _ _ e
      obtain ⟨eb, k⟩ := cutLine_some _ _ _ e
      obtain ⟨ls, h⟩ := ih r.length (by omega) r rfl
      exact ⟨l :: ls, by rw [eb]; exact .cons k h⟩

/-- **C56** (a connection). However the stream is cut into packets, when no line is as long as the scanner's buffer, the connection adds exactly what its lines are owed, in order, and ends without an error of its own. -/
theorem C56_conn {F : Type} (parse : Bytes → Option F) (reads : List Bytes) (ls : List Bytes) (h : StreamLines reads.flatten ls) (hs : ∀ l ∈ ls, l.length < 65536) :
    ∃ as, handleConn parse [] reads = (as, false) ∧ LineAdds parse ls as := by
  refine ⟨_, ?_, lineAdds_flatMap parse ls⟩
  rw [handleConn_lines parse [] reads ls (by simp) h]
  have e1 : ls.takeWhile (fun l => decide (l.length < maxToken)) = ls := by
    have := List.takeWhile_append_of_pos (l₁ := ls) (l₂ := []) (p := fun l => decide (l.length < maxToken)) (fun a ha => decide_eq_true (hs a ha))
    simpa using this
  have e2 : ls.any (fun l => decide (maxToken ≤ l.length)) = false := by
    rw [List.any_eq_false]
    intro l hl
    have := hs l hl
    simp only [decide_eq_true_eq]
    unfold maxToken
    omega
  rw [e1, e2]

/-- **C56** (long lines). At the first line of 65536 bytes or more the connection stops with an error: the lines before it are added, nothing after it is. -/
theorem C56_long {F : Type} (parse : Bytes → Option F) (reads : List Bytes) (ls rest : List Bytes) (l : Bytes) (h : StreamLines reads.flatten (ls ++ l :: rest))
    (hs : ∀ l ∈ ls, l.length < 65536) (hl : 65536 ≤ l.length) :
    ∃ as, handleConn parse [] reads = (as, true) ∧ LineAdds parse ls as := by
  refine ⟨_, ?_, lineAdds_flatMap parse ls⟩
  rw [handleConn_lines parse [] reads _ (by simp) h]
  have e1 : (ls ++ l :: rest).takeWhile (fun l => decide (l.length < maxToken)) = ls := by
    rw [List.takeWhile_append_of_pos (p := fun l => decide (l.length < maxToken)) (fun a ha => decide_eq_true (hs a ha)), List.takeWhile_cons_of_neg (by simp only [decide_eq_true_eq]; unfold maxToken; omega), List.append_nil]
  have e2 : (ls ++ l :: rest).any (fun l => decide (maxToken ≤ l.length)) = true := by
    rw [List.any_eq_true]
    exact ⟨l, by simp, decide_eq_true hl⟩
  rw [e1, e2]

/-- **C56** is false without the bound: a line that is not well formed can stop the connection, and the well formed line after it is lost. -/
theorem C56_long_refuted :
    ¬ ∀ (parse : Bytes → Option Unit) (reads ls : List Bytes), StreamLines reads.flatten ls → ∃ as, handleConn parse [] reads = (as, false) ∧ LineAdds parse ls as := by
  intro h
  let big : Bytes := List.replicate 65536 97
  have hb : 10 ∉ big := by
    intro a
    have := List.eq_of_mem_replicate a
    revert this
    decide
  have hl : 65536 ≤ big.length := by rw [List.length_replicate]; exact Nat.le_refl _
  have s : StreamLines ([big ++ 10 :: [97, 32, 49, 32, 49]].flatten) [big, [97, 32, 49, 32, 49]] := by
    rw [List.flatten_cons, List.flatten_nil, List.append_nil]
    exact .cons hb (.last (by decide) (by decide))
  obtain ⟨as, e, _⟩ := h (fun _ => some ()) _ _ s
  obtain ⟨bs, e', _⟩ := C56_long (fun _ => some ()) _ [] [[97, 32, 49, 32, 49]] big s (by simp) hl
  rw [e] at e'
  simp at e'

/-- A connection with a good line, a line with two fields and a line ended by CR LF, delivered in three packets cut inside lines. `1` parses to 1. -/
theorem C56_example :
    let parse : Bytes → Option Nat := fun b => if b = [49] then some 1 else none
    let reads : List Bytes := [[97, 32], [49, 32, 48, 10, 98, 32, 49, 10, 99], [32, 49, 32, 13, 10]]
    let ls : List Bytes := [[97, 32, 49, 32, 48], [98, 32, 49], [99, 32, 49, 32, 13]]
    StreamLines reads.flatten ls ∧ (∀ l ∈ ls, l.length < 65536) ∧ LineAdds parse ls [([97], 1), ([99], 1)] := by
  refine ⟨?_, by decide, ?_⟩
  · exact .cons (l := [97, 32, 49, 32, 48]) (by decide) (.cons (l := [98, 32, 49]) (by decide) (.cons (l := [99, 32, 49, 32, 13]) (by decide) .nil))
  · exact lineAdds_flatMap _ [[97, 32, 49, 32, 48], [98, 32, 49], [99, 32, 49, 32, 13]]

end Rothko
