import Verif.Props.ParseFloat
import Verif.Props.Feed
import Verif.Props.Scene
/-!
# C116 Numbers from lines to records
-/
namespace Rothko

/-- A numeral has no spaces and line ends. -/
theorem Numeral.Ok.chars {n : Numeral} (h : n.Ok) : ∀ b ∈ n.text, b ≠ 32 ∧ b ≠ 10 ∧ b ≠ 13 := by
  have hd : ∀ {ds : List Nat}, (∀ d ∈ ds, d ≤ 9) → ∀ b ∈ digitText ds, b ≠ 32 ∧ b ≠ 10 ∧ b ≠ 13 := fun hds b hb => by
    obtain ⟨d, g, rfl⟩ := List.mem_map.mp hb
    have := hds d g
    exact ⟨digit_ne this (.inl (by decide)), digit_ne this (.inl (by decide)), digit_ne this (.inl (by decide))⟩
  have hs : ∀ {s : Bytes}, (s = [] ∨ s = [43] ∨ s = [45]) → ∀ b ∈ s, b ≠ 32 ∧ b ≠ 10 ∧ b ≠ 13 := fun hs b hb => by
    rcases hs with rfl | rfl | rfl
    · simp at hb
    · rw [List.mem_singleton] at hb; rw [hb]; decide
    · rw [List.mem_singleton] at hb; rw [hb]; decide
  intro b hb
  unfold Numeral.text at hb
  rcases List.mem_append.mp hb with hb | hb
  · rcases List.mem_append.mp hb with hb | hb
    · rcases List.mem_append.mp hb with hb | hb
      · exact hs h.sign b hb
      · exact hd h.whole b hb
    · have hf := h.frac
      unfold Numeral.places at hf
      cases hx : n.frac with
      | none => rw [hx] at hb; simp at hb
      | some F =>
        rw [hx] at hb hf
        rcases List.mem_cons.mp hb with rfl | hb
        · decide
        · exact hd hf b hb
  · cases hx : n.exp with
    | none => rw [hx] at hb; simp at hb
    | some p =>
      obtain ⟨c, s, ds⟩ := p
      obtain ⟨x1, x2, x3, x4⟩ := h.exp _ _ _ hx
      rw [hx] at hb
      rcases List.mem_cons.mp hb with rfl | hb
      · rcases x1 with rfl | rfl <;> decide
      · rcases List.mem_append.mp hb with hb | hb
        · exact hs x2 b hb
        · exact hd x4 b hb

theorem SentLine.Ok.chars {l : SentLine} (h : l.Ok) : ∀ b ∈ l.text, b ≠ 10 ∧ b ≠ 13 := by
  intro b hb
  unfold SentLine.text at hb
  rcases List.mem_append.mp hb with hb | hb
  · exact (h.metric b hb).2
  rcases List.mem_cons.mp hb with rfl | hb
  · decide
  rcases List.mem_append.mp hb with hb | hb
  · exact (h.number.chars b hb).2
  rcases List.mem_cons.mp hb with rfl | hb
  · decide
  · exact (h.time b hb).2

/-- **C116** (lines). A line adds to its metric the double nearest to its number, if that is not too large. -/
theorem C116_line {l : SentLine} (h : l.Ok) : ∃ x, Reads l.number x ∧ handleLine parseFloat l.text = some (l.metric, x) := by
  obtain ⟨x, e, hx⟩ := (C116_number h.number h.short).1 h.range
  refine ⟨x, hx, (C56_line parseFloat _ _ _).mpr ⟨l.number.text, l.time, rfl, ?_, ?_, ?_, e⟩⟩
  · exact fun g => (h.metric _ g).1 rfl
  · exact fun g => (h.number.chars _ g).1 rfl
  · exact fun g => (h.time _ g).1 rfl

/-- **C116** (lines that are refused). A line whose second field is neither a number nor one of the words, or a number that is too large, adds nothing; and whatever the line, the one value it can add is that of its second field. -/
theorem C116_refused (line metric : Bytes) (x : F64) (h : handleLine parseFloat line = some (metric, x)) :
    ∃ v t, line = metric ++ 32 :: (v ++ 32 :: t) ∧ 32 ∉ metric ∧ 32 ∉ v ∧ 32 ∉ t ∧ ((∃ n : Numeral, n.Ok ∧ v = n.text ∧ (n.Short → ¬ TooLarge n.value ∧ Reads n x)) ∨ (fFinite x = false ∧ (InfWord v ∨ NegInfWord v ∨ NanWord v))) := by
  obtain ⟨v, t, e, h1, h2, h3, hp⟩ := (C56_line parseFloat _ _ _).mp h
  refine ⟨v, t, e, h1, h2, h3, ?_⟩
  rcases C116_only hp with ⟨n, hn, rfl⟩ | hw
  · refine .inl ⟨n, hn, rfl, fun hs => ?_⟩
    by_cases hT : TooLarge n.value
    · rw [(C116_number hn hs).2 hT] at hp; cases hp
    · obtain ⟨y, ey, hy⟩ := (C116_number hn hs).1 hT
      rw [hp] at ey
      cases ey
      exact ⟨hT, hy⟩
  · refine .inr ⟨?_, hw⟩
    obtain ⟨w1, w2, w3⟩ := C116_word v
    rcases hw with g | g | g
    · rw [w1 g] at hp; cases hp; decide
    · rw [w2 g] at hp; cases hp; decide
    · obtain ⟨y, ey, hy⟩ := w3 g
      rw [ey] at hp
      cases hp
      unfold fFinite
      rw [hy]
      simp

/-- The addition owed to a line. -/
def Owed (l : SentLine) (a : Bytes × F64) : Prop := a.1 = l.metric ∧ Reads l.number a.2

/-- **C116** (connections). A connection's lines, cut into packets in any way, add one value each, in order. -/
theorem C116_conn {reads : List Bytes} {ls : List SentLine} (h : SaysLines reads ls) : ∃ as, Sends parseFloat reads as ∧ handleConn parseFloat [] reads = (as, false) ∧ EachOf Owed ls as := by
  obtain ⟨hok, he⟩ := h
  have hlines : ∀ ls : List SentLine, (∀ l ∈ ls, l.Ok) → StreamLines (ls.map (fun l => l.text ++ [10])).flatten (ls.map SentLine.text) := by
    intro ls hok
    induction ls with
    | nil => exact .nil
    | cons l ls ih =>
      rw [List.map_cons, List.flatten_cons, List.append_assoc, List.map_cons]
      exact .cons (fun g => ((hok l (by simp)).chars _ g).1 rfl) (ih (fun x hx => hok x (by simp [hx])))
  have hadds : ∀ ls : List SentLine, (∀ l ∈ ls, l.Ok) → ∃ as, LineAdds parseFloat (ls.map SentLine.text) as ∧ EachOf Owed ls as := by
    intro ls hok
    induction ls with
    | nil => exact ⟨[], .nil, .nil⟩
    | cons l ls ih =>
      obtain ⟨as, h1, h2⟩ := ih (fun x hx => hok x (by simp [hx]))
      have hl := hok l (by simp)
      obtain ⟨x, hx, hh⟩ := C116_line hl
      refine ⟨(l.metric, x) :: as, .good (c := l.text) (.inr ⟨rfl, ?_⟩) ((C56_line parseFloat _ _ _).mp hh) h1, .cons ⟨rfl, hx⟩ h2⟩
      intro d e
      exact (hl.chars 13 (by rw [e]; simp)).2 rfl
  obtain ⟨as, h1, h2⟩ := hadds ls hok
  have hl := hlines ls hok
  rw [← he] at hl
  have hlen : ∀ l ∈ ls.map SentLine.text, l.length < 65536 := by
    intro l hm
    obtain ⟨x, hx, rfl⟩ := List.mem_map.mp hm
    exact (hok x hx).length
  obtain ⟨as', e, h3⟩ := C56_conn parseFloat reads _ hl hlen
  have := lineAdds_unique parseFloat h1 h3
  subst this
  exact ⟨as, ⟨_, hl, hlen, h1⟩, e, h2⟩

theorem owed_append {l1 l2 : List SentLine} {a1 a2 : List (Bytes × F64)} (h1 : EachOf Owed l1 a1) (h2 : EachOf Owed l2 a2) : EachOf Owed (l1 ++ l2) (a1 ++ a2) := by
  induction h1 with
  | nil => exact h2
  | cons h _ ih => exact .cons h ih

theorem conns_sent {streams : List (List Bytes)} {lines : List (List SentLine)} (h : EachOf SaysLines streams lines) : ∃ sent, EachOf (Sends parseFloat) streams sent ∧ EachOf Owed lines.flatten sent.flatten := by
  induction h with
  | nil => exact ⟨[], .nil, .nil⟩
  | cons h _ ih =>
    obtain ⟨as, h1, _, h2⟩ := C116_conn h
    obtain ⟨sent, h3, h4⟩ := ih
    exact ⟨as :: sent, .cons h1 h3, owed_append h2 h4⟩

theorem owed_values {ls : List SentLine} {as : List (Bytes × F64)} (h : EachOf Owed ls as) (m : Bytes) : EachOf (fun l x => Reads l.number x) (ls.filter (fun l => decide (l.metric = m))) (sentValues m as) := by
  induction h with
  | nil => exact .nil
  | @cons l a ls as h _ ih =>
    unfold sentValues
    by_cases g : l.metric = m
    · rw [List.filter_cons_of_pos (by simpa using g), List.filter_cons_of_pos (by rw [h.1, h.2.finite]; simpa using g), List.map_cons]
      exact .cons h.2 ih
    · rw [List.filter_cons_of_neg (by simpa using g), List.filter_cons_of_neg (by rw [h.1]; simp [g])]
      exact ih

section
variable {c : ProcCfg} {fs : Bytes → Store} {streams : List (List Bytes)} {lines : List (List SentLine)} {ops : List POp} {s : Fed}

/-- **C116** (from numbers to intervals). Any connections send lines with numbers; they are handled in any order, while dumps, writes and queries go on. When all lines are handled, the values of the metric in the intervals kept and in
the one in progress are, each as often, the doubles nearest to the numbers that its lines say. -/
theorem C116_sent (h : Fed.Reach c parseFloat fs streams ops s) (hs : EachOf SaysLines streams lines) (m : Bytes) (hr : ∀ op ∈ ops, op ≠ .restart)
    (ht : ∀ order now taken, .dump order now taken ∈ ops → taken m = true) (hall : ∀ rest ∈ s.conns, rest = []) :
    ∃ vals, EachOf (fun (l : SentLine) x => Reads l.number x) (lines.flatten.filter (fun l => decide (l.metric = m))) vals ∧
      vals.Perm ((((ops.foldl PSpec.step {}).kept m).map (Batch.values m)).flatten ++ (obsOf m (ops.foldl PSpec.step {}).w.pend).map (·.val)) := by
  obtain ⟨sent, h1, h2⟩ := conns_sent hs
  refine ⟨sentValues m sent.flatten, owed_values h2 m, ?_⟩
  have := C105_conserved h h1 m hr ht
  rw [List.flatten_eq_nil_iff.mpr hall] at this
  simpa [sentValues] using this

/-- **C116** (from numbers to records). As C105 says of what is stored, for numbers: the metric's records divide among them the doubles nearest to the numbers that its lines say, and their counts add up to the number of its lines. -/
theorem C116_stored {K : Nat} {de : Bytes → Bool} {hit : Bytes → Nat → Bool} (h : Fed.Reach c parseFloat (freshFs de hit) streams ops s) (hok : ProcOk c K ops) (hs : EachOf SaysLines streams lines) (m : Bytes) (hr : ∀ op ∈ ops, op ≠ .restart)
    (ht : ∀ order now taken, .dump order now taken ∈ ops → taken m = true) (hall : ∀ rest ∈ s.conns, rest = []) {before after : List POp} {order : List (Bytes × Agg) → List (Bytes × Agg)} {now : Int64} {taken : Bytes → Bool}
    (hops : ops = before ++ .dump order now taken :: after) (hafter : observedAll after = []) (hd : s.proc.dumping = false) (hq : s.proc.sys.quiet m) :
    ∃ vals recs parts, EachOf (fun (l : SentLine) x => Reads l.number x) (lines.flatten.filter (fun l => decide (l.metric = m))) vals ∧
      EachOf (fun r p => ∃ start stop, RecordOf c.pipe.d start stop p r) recs parts ∧ (parts.flatten.map (·.val)).Perm vals ∧
      (recs.map (fun r => r.observations.toInt)).sum = ((lines.flatten.filter (fun l => decide (l.metric = m))).length : Int) ∧
      ∃ t, SameFs (s.proc.sys.g.fs m) t ∧ ∃ stored dropped, recs.map valOf = stored ++ dropped ∧ (c.pipe.cfg.max ≤ 0 → dropped = []) ∧
        ∀ bound : Int64, (∀ now ∈ dumpTimes ops, now < bound) → (queryList c.pipe.cfg bound (fun _ _ => .more) t).1.1 = stored := by
  obtain ⟨sent, h1, h2⟩ := conns_sent hs
  obtain ⟨recs, parts, q1, q2, q3, _, t, t1, stored, dropped, q4, _, q5, q6⟩ := C105_stored h hok h1 m hr ht hall hops hafter hd hq
  refine ⟨sentValues m sent.flatten, recs, parts, owed_values h2 m, q1, q2, ?_, t, t1, stored, dropped, q4, q5, q6⟩
  rw [q3, ← eachOf_length (owed_values h2 m)]

end

end Rothko
