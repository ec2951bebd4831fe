import Verif.Model.Page
import Verif.Props.Url
/-!
# C90, C91: the page shows the metric of its address, at the size of its window
-/
namespace Rothko

/-! ## Specification -/

/-- A run of the page. -/
def UPage.runs (s : UPage) (es : List UEv) : UPage := es.foldl UPage.step s

/-- The metric a graph is about, seen or not. -/
def UGraph.metric (g : UGraph) : Option Bytes :=
  match g.state with
  | .nothing => none
  | .delay m => some m
  | .image m _ => some m

/-! ## The address -/

theorem key_match : (metricKey == metricKey) = true := by decide

theorem elm_one (v : Bytes) : elmParams (browserQuery (toQuery [(metricKey, v)])) = if isText v then [(metricKey, v)] else [] := by
  by_cases h : isText v = true
  · rw [if_pos h]
    exact elm_params _ (by simp) (by simpa using ⟨text_key, (isText_iff v).mp h⟩)
  · rw [if_neg h]
    unfold elmParams
    rw [query_split _ (by simp), List.filterMap_map]
    simp only [List.filterMap_cons, List.filterMap_nil, Function.comp]
    rw [splitOn_append, splitOn_none 61 _ (esc_not metricKey (by decide)), splitOn_none 61 _ (esc_not v (by decide))]
    simp only [List.cons_append, List.nil_append]
    rw [text_decode metricKey text_key]
    unfold percentDecode
    rw [unescape_esc]
    simp only
    rw [if_neg h]

/-- A pushed address names the pushed metric or none. -/
theorem push_metric (u : UUrl) (v m : Bytes) (h : (u.push v).metric = some m) : m = v := by
  unfold UUrl.metric at h
  split at h
  · unfold elmString UUrl.push at h
    simp only [Option.elim] at h
    rw [elm_one] at h
    by_cases ht : isText v = true
    · rw [if_pos ht] at h
      simpa using h.symm
    · rw [if_neg ht] at h
      simp at h
  · cases h

/-! ## Invariants -/

/-- What is shown is what the address names. -/
def UPage.Right (s : UPage) : Prop := ∀ m, m ≠ [] → s.address.metric = some m → s.model.graph.metric = some m

/-- The commands under way. -/
inductive UPage.Shape (s : UPage) : Prop
  | calm (v : Bytes) (h : ∀ c ∈ s.pending, c = .send (.graph (.draw v)) ∨ c = .send (.draw v false))
      (hm : ∀ m, m ≠ [] → s.address.metric = some m → (s.pending ≠ [] → m = v) ∧ (s.pending = [] → s.model.graph.metric = some m))
  | note (h : s.pending = [.send (.bar .dismiss)]) (hr : s.Right)
  | chosen (v : Bytes) (h : s.pending = [.send (.bar (.select v))]) (hr : s.Right)
  | told (v : Bytes) (h : s.pending = [.send (.draw v true)]) (hr : s.Right)
  | both (v : Bytes) (h : s.pending = [.send (.graph (.draw v)), .push v])
  | last (v : Bytes) (h : s.pending = [.push v]) (hr : s.model.graph.metric = some v)

/-- The model's address is the browser's. -/
def UPage.Same (s : UPage) : Prop := s.model.url = s.address

theorem shape_right {s : UPage} (h : s.Shape) (hp : s.pending = []) : s.Right := by
  cases h with
  | calm v h hm => exact fun m h1 h2 => (hm m h1 h2).2 hp
  | note h _ => rw [hp] at h; cases h
  | chosen v h _ => rw [hp] at h; cases h
  | told v h _ => rw [hp] at h; cases h
  | both v h => rw [hp] at h; cases h
  | last v h _ => rw [hp] at h; cases h

theorem right_shape {s : UPage} (hr : s.Right) (hp : s.pending = []) : s.Shape := by
  refine .calm [] (by rw [hp]; simp) (fun m h1 h2 => ⟨fun h => absurd hp h, fun _ => hr m h1 h2⟩)

theorem draw_metric (g : UGraph) (v : Bytes) : (g.update (.draw v)).1.metric = some v ∧ (g.update (.draw v)).2 = none := by
  refine ⟨?_, rfl⟩
  unfold UGraph.update UGraph.metric
  cases g.width <;> rfl

theorem resize_metric (g : UGraph) (w : Int) : (g.update (.resize w)).1.metric = g.metric := rfl

theorem timer_metric (g : UGraph) (c : Nat) : (g.update (.resizeTimer c)).1.metric = g.metric ∧ (g.update (.resizeTimer c)).2 = none := by
  refine ⟨?_, rfl⟩
  obtain ⟨st, w, k⟩ := g
  unfold UGraph.update
  dsimp only
  by_cases h : c = k
  · rw [if_pos h]
    cases st <;> cases w <;> rfl
  · rw [if_neg h]

/-- The commands of the query bar: at most one. -/
theorem bar_cmds (b : QBar) (m : QMsg) :
    (b.update m).2 = [] ∨ (∃ v, (b.update m).2 = [.sleep v]) ∨ (∃ v, (b.update m).2 = [.request v]) ∨ (b.update m).2 = [.send .dismiss] ∨ (∃ v, (b.update m).2 = [.send (.select v)]) ∨
    (∃ v, (b.update m).2 = [.parent v]) := by
  cases m with
  | setValue v => exact .inr (.inl ⟨v, rfl⟩)
  | focus => exact .inr (.inr (.inl ⟨_, rfl⟩))
  | timer v =>
    unfold QBar.update
    dsimp only
    split
    · exact .inr (.inr (.inl ⟨_, rfl⟩))
    · exact .inl rfl
  | response v r => exact .inl rfl
  | dismiss => exact .inl rfl
  | select v => exact .inr (.inr (.inr (.inr (.inr ⟨v, rfl⟩))))
  | keyDown k =>
    unfold QBar.update
    dsimp only
    split
    · unfold updateKeyCode
      repeat' split
      all_goals first
        | exact .inl rfl
        | exact .inr (.inr (.inr (.inl rfl)))
        | exact .inr (.inr (.inr (.inr (.inl ⟨_, rfl⟩))))
    · split
      · exact .inr (.inr (.inr (.inr (.inr ⟨_, rfl⟩))))
      · exact .inl rfl
  | mouseOver i => exact .inl rfl
  | mouseLeave i => exact .inl rfl

/-- A message to the query bar, when nothing is under way. -/
theorem shape_bar (s : UPage) (m : QMsg) (hp : s.pending = []) (hr : s.Right) : (s.handle (.bar m)).Shape := by
  rcases bar_cmds s.model.bar m with e | ⟨v, e⟩ | ⟨v, e⟩ | e | ⟨v, e⟩ | ⟨v, e⟩ <;> unfold UPage.handle UModel.update <;> dsimp only <;> rw [e] <;>
    simp only [List.map_cons, List.map_nil, QCmd.lift, List.foldl_cons, List.foldl_nil, UPage.start]
  · exact right_shape hr hp
  · exact right_shape hr hp
  · exact right_shape hr hp
  · exact .note (by simp [hp]) hr
  · exact .chosen v (by simp [hp]) hr
  · exact .told v (by simp [hp]) hr

/-- Going to an address, when the commands under way are all for the metric it names. -/
theorem shape_init (s : UPage) (u : UUrl) (v : Bytes) (ha : s.address = u) (hv : ∀ m, u.metric = some m → m = v)
    (hp : ∀ c ∈ s.pending, c = .send (.graph (.draw v)) ∨ c = .send (.draw v false)) : ((UModel.init u).2.foldl UPage.start s).Shape := by
  unfold UModel.init
  cases hu : u.metric with
  | none =>
    simp only [Option.getD_none, ne_eq, not_true_eq_false, if_false, List.foldl_cons, List.foldl_nil, UPage.start]
    exact .calm v hp (fun m h1 h2 => by simp only [ha, hu] at h2; cases h2)
  | some a =>
    have hav := hv a hu
    subst hav
    by_cases h0 : a = []
    · subst h0
      simp only [Option.getD_some, ne_eq, not_true_eq_false, if_false, List.foldl_cons, List.foldl_nil, UPage.start]
      exact .calm [] hp (fun m h1 h2 => by simp only [ha, hu] at h2; injection h2 with h2; exact absurd h2.symm h1)
    · simp only [Option.getD_some, ne_eq, h0, not_false_eq_true, if_true, List.foldl_cons, List.foldl_nil, UPage.start]
      refine .calm a ?_ ?_
      · intro c hc
        simp only [List.mem_append, List.mem_singleton] at hc
        rcases hc with hc | hc
        · exact hp c hc
        · exact .inr hc
      · intro m h1 h2
        simp only [ha, hu] at h2
        injection h2 with h2
        exact ⟨fun _ => h2.symm, fun h => by simp at h⟩

theorem start_model (cs : List UCmd) (s : UPage) : (cs.foldl UPage.start s).model = s.model ∧ (cs.foldl UPage.start s).address = s.address ∧ (cs.foldl UPage.start s).window = s.window := by
  induction cs generalizing s with
  | nil => exact ⟨rfl, rfl, rfl⟩
  | cons c cs ih =>
    rw [List.foldl_cons]
    have := ih (s.start c)
    cases c <;> exact this

theorem handle_same (s : UPage) (m : UMsg) (h : s.Same) (hu : ∀ u, m = .urlChange u → s.address = u) : (s.handle m).Same := by
  unfold UPage.handle UPage.Same
  obtain ⟨h1, h2, _⟩ := start_model (s.model.update m).2 { s with model := (s.model.update m).1 }
  rw [h1, h2]
  dsimp only
  cases m with
  | draw v p => exact h
  | graph g => exact h
  | bar b => exact h
  | urlChange u =>
    unfold UModel.update
    dsimp only
    split
    · exact (hu u rfl).symm
    · exact h

/-- A changed address, when the commands under way are all for the metric it names; if the address is an old one, the graph is right or commands are under way. -/
theorem shape_change (s : UPage) (u : UUrl) (v : Bytes) (ha : s.address = u) (hv : ∀ m, u.metric = some m → m = v)
    (hp : ∀ c ∈ s.pending, c = .send (.graph (.draw v)) ∨ c = .send (.draw v false)) (hold : s.model.url = u → s.pending = [] → s.Right) : (s.handle (.urlChange u)).Shape := by
  unfold UPage.handle UModel.update
  dsimp only
  by_cases e : u = s.model.url
  · rw [if_neg (by simpa using e)]
    simp only [List.foldl_nil]
    refine .calm v hp (fun m h1 h2 => ⟨fun _ => hv m (by rw [← ha]; exact h2), fun h => hold e.symm h m h1 h2⟩)
  · rw [if_pos e]
    exact shape_init _ u v ha hv hp

theorem shape_step (s : UPage) (e : UEv) (hs : s.Shape) (hu : s.Same) : (s.step e).Shape ∧ (s.step e).Same := by
  cases e with
  | run i =>
    show UPage.Shape (match s.pending[i]? with | some c => UPage.done { s with pending := s.pending.eraseIdx i } c | none => s) ∧
      UPage.Same (match s.pending[i]? with | some c => UPage.done { s with pending := s.pending.eraseIdx i } c | none => s)
    cases hc : s.pending[i]? with
    | none => exact ⟨hs, hu⟩
    | some c =>
      dsimp only
      have hmem : c ∈ s.pending := List.mem_of_getElem? hc
      cases hs with
      | calm v h hm =>
        have herase : ∀ x ∈ s.pending.eraseIdx i, x = .send (.graph (.draw v)) ∨ x = .send (.draw v false) := fun x hx => h x (List.mem_of_mem_eraseIdx hx)
        rcases h c hmem with rfl | rfl
        · refine ⟨?_, handle_same _ _ hu (fun u hu => by cases hu)⟩
          unfold UPage.done UPage.handle UModel.update
          simp only [(draw_metric s.model.graph v).2, Option.toList, List.map_nil, List.foldl_nil]
          refine .calm v herase (fun m h1 h2 => ?_)
          have := (hm m h1 h2).1 (fun e => by rw [e] at hmem; cases hmem)
          subst this
          exact ⟨fun _ => rfl, fun _ => (draw_metric s.model.graph m).1⟩
        · refine ⟨?_, handle_same _ _ hu (fun u hu => by cases hu)⟩
          unfold UPage.done UPage.handle UModel.update
          simp only [Bool.false_eq_true, if_false, List.foldl_cons, List.foldl_nil, UPage.start]
          refine .calm v ?_ (fun m h1 h2 => ⟨fun _ => (hm m h1 h2).1 (fun e => by rw [e] at hmem; cases hmem), fun h => by simp at h⟩)
          intro x hx
          simp only [List.mem_append, List.mem_singleton] at hx
          rcases hx with hx | hx
          · exact herase x hx
          · exact .inl hx
      | note h hr =>
        rw [h] at hc hmem
        simp only [List.mem_singleton] at hmem
        subst hmem
        have hi : i = 0 := by
          cases i with
          | zero => rfl
          | succ i => simp at hc
        subst hi
        refine ⟨?_, handle_same _ _ hu (fun u hu => by cases hu)⟩
        exact shape_bar _ _ (by simp [h]) hr
      | chosen v h hr =>
        rw [h] at hc hmem
        simp only [List.mem_singleton] at hmem
        subst hmem
        have hi : i = 0 := by
          cases i with
          | zero => rfl
          | succ i => simp at hc
        subst hi
        refine ⟨?_, handle_same _ _ hu (fun u hu => by cases hu)⟩
        exact shape_bar _ _ (by simp [h]) hr
      | told v h hr =>
        rw [h] at hc hmem
        simp only [List.mem_singleton] at hmem
        subst hmem
        have hi : i = 0 := by
          cases i with
          | zero => rfl
          | succ i => simp at hc
        subst hi
        refine ⟨?_, handle_same _ _ hu (fun u hu => by cases hu)⟩
        unfold UPage.done UPage.handle UModel.update
        simp only [if_true, List.foldl_cons, List.foldl_nil, UPage.start]
        exact .both v (by simp [h])
      | both v h =>
        rw [h] at hc
        match i, hc with
        | 0, hc =>
          injection hc with hc
          subst hc
          refine ⟨?_, handle_same _ _ hu (fun u hu => by cases hu)⟩
          unfold UPage.done UPage.handle UModel.update
          simp only [(draw_metric s.model.graph v).2, Option.toList, List.map_nil, List.foldl_nil]
          exact .last v (by simp [h]) (draw_metric s.model.graph v).1
        | 1, hc =>
          injection hc with hc
          subst hc
          refine ⟨?_, ?_⟩
          · refine shape_change _ _ v rfl (fun m hm => push_metric _ _ _ hm) ?_ ?_
            · intro c hc
              simp [h] at hc
              exact .inl hc
            · intro _ hp
              simp [h] at hp
          · unfold UPage.done
            unfold UPage.handle UPage.Same
            obtain ⟨h1, h2, _⟩ := start_model (s.model.update (.urlChange (s.address.push v))).2
              { s with pending := s.pending.eraseIdx 1, address := s.address.push v, model := (s.model.update (.urlChange (s.address.push v))).1 }
            dsimp only
            rw [h1, h2]
            unfold UModel.update
            dsimp only
            split
            · rfl
            · rename_i hne
              simpa using Eq.symm (Decidable.not_not.mp hne)
        | i + 2, hc => simp at hc
      | last v h hr =>
        rw [h] at hc hmem
        simp only [List.mem_singleton] at hmem
        subst hmem
        have hi : i = 0 := by
          cases i with
          | zero => rfl
          | succ i => simp at hc
        subst hi
        refine ⟨?_, ?_⟩
        · refine shape_change _ _ v rfl (fun m hm => push_metric _ _ _ hm) ?_ ?_
          · intro c hc
            simp [h] at hc
          · intro _ _ m h1 h2
            rw [show m = v from push_metric _ _ _ h2]
            exact hr
        · unfold UPage.done
          unfold UPage.handle UPage.Same
          obtain ⟨h1, h2, _⟩ := start_model (s.model.update (.urlChange (s.address.push v))).2
            { s with pending := s.pending.eraseIdx 0, address := s.address.push v, model := (s.model.update (.urlChange (s.address.push v))).1 }
          dsimp only
          rw [h1, h2]
          unfold UModel.update
          dsimp only
          split
          · rfl
          · rename_i hne
            simpa using Eq.symm (Decidable.not_not.mp hne)
  | resize w =>
    show UPage.Shape (if s.pending = [] then _ else s) ∧ UPage.Same (if s.pending = [] then _ else s)
    by_cases hp : s.pending = []
    · rw [if_pos hp]
      refine ⟨right_shape (s := UPage.handle { s with window := w, resized := s.now } (.graph (.resize w))) ?_ hp, handle_same _ _ hu (fun u hu => by cases hu)⟩
      exact fun m h1 h2 => shape_right hs hp m h1 h2
    · rw [if_neg hp]
      exact ⟨hs, hu⟩
  | viewport =>
    show UPage.Shape (if s.pending = [] ∧ _ then _ else s) ∧ UPage.Same (if s.pending = [] ∧ _ then _ else s)
    by_cases hp : s.pending = [] ∧ 0 < s.viewports
    · rw [if_pos hp]
      refine ⟨right_shape (s := UPage.handle { s with viewports := s.viewports - 1, resized := s.now } (.graph (.resize s.window))) ?_ hp.1, handle_same _ _ hu (fun u hu => by cases hu)⟩
      exact fun m h1 h2 => shape_right hs hp.1 m h1 h2
    · rw [if_neg hp]
      exact ⟨hs, hu⟩
  | fire c due =>
    show UPage.Shape (if s.pending = [] ∧ _ then _ else s) ∧ UPage.Same (if s.pending = [] ∧ _ then _ else s)
    by_cases hp : s.pending = [] ∧ (c, due) ∈ s.timers ∧ due ≤ s.now
    · rw [if_pos hp]
      refine ⟨right_shape (s := UPage.handle { s with timers := s.timers.erase (c, due) } (.graph (.resizeTimer c))) ?_ hp.1, handle_same _ _ hu (fun u hu => by cases hu)⟩
      intro m h1 h2
      exact (timer_metric s.model.graph c).1.trans (shape_right hs hp.1 m h1 h2)
    · rw [if_neg hp]
      exact ⟨hs, hu⟩
  | bar m =>
    show UPage.Shape (if s.pending = [] then _ else s) ∧ UPage.Same (if s.pending = [] then _ else s)
    by_cases hp : s.pending = []
    · rw [if_pos hp]
      exact ⟨shape_bar s m hp (shape_right hs hp), handle_same _ _ hu (fun u hu => by cases hu)⟩
    · rw [if_neg hp]
      exact ⟨hs, hu⟩
  | barTimer v due =>
    show UPage.Shape (if s.pending = [] ∧ _ then _ else s) ∧ UPage.Same (if s.pending = [] ∧ _ then _ else s)
    by_cases hp : s.pending = [] ∧ (v, due) ∈ s.sleeping ∧ due ≤ s.now
    · rw [if_pos hp]
      exact ⟨shape_bar _ _ hp.1 (fun m h1 h2 => shape_right hs hp.1 m h1 h2), handle_same _ _ hu (fun u hu => by cases hu)⟩
    · rw [if_neg hp]
      exact ⟨hs, hu⟩
  | answer v r =>
    show UPage.Shape (if s.pending = [] ∧ _ then _ else s) ∧ UPage.Same (if s.pending = [] ∧ _ then _ else s)
    by_cases hp : s.pending = [] ∧ v ∈ s.requests
    · rw [if_pos hp]
      exact ⟨shape_bar _ _ hp.1 (fun m h1 h2 => shape_right hs hp.1 m h1 h2), handle_same _ _ hu (fun u hu => by cases hu)⟩
    · rw [if_neg hp]
      exact ⟨hs, hu⟩
  | goto u =>
    show UPage.Shape (if s.pending = [] then _ else s) ∧ UPage.Same (if s.pending = [] then _ else s)
    by_cases hp : s.pending = []
    · rw [if_pos hp]
      refine ⟨shape_change _ u (u.metric.getD []) rfl (fun m hm => by rw [hm]; rfl) (fun c hc => by rw [show s.pending = [] from hp] at hc; cases hc) ?_, ?_⟩
      · intro e _ m h1 h2
        exact shape_right hs hp m h1 (by rw [← hu, e]; exact h2)
      · unfold UPage.handle UPage.Same
        obtain ⟨h1, h2, _⟩ := start_model (s.model.update (.urlChange u)).2 { s with address := u, model := (s.model.update (.urlChange u)).1 }
        dsimp only
        rw [h1, h2]
        unfold UModel.update
        dsimp only
        split
        · rfl
        · rename_i hne
          simpa using Eq.symm (Decidable.not_not.mp hne)
    · rw [if_neg hp]
      exact ⟨hs, hu⟩
  | load u =>
    show UPage.Shape (if s.pending = [] then _ else s) ∧ UPage.Same (if s.pending = [] then _ else s)
    by_cases hp : s.pending = []
    · rw [if_pos hp]
      refine ⟨shape_init _ u (u.metric.getD []) rfl (fun m hm => by rw [hm]; rfl) (by simp), ?_⟩
      unfold UPage.load UPage.Same
      rw [(start_model _ _).1, (start_model _ _).2.1]
      rfl
    · rw [if_neg hp]
      exact ⟨hs, hu⟩
  | wait ms =>
    refine ⟨?_, hu⟩
    cases hs with
    | calm v h hm => exact .calm v h hm
    | note h hr => exact .note h hr
    | chosen v h hr => exact .chosen v h hr
    | told v h hr => exact .told v h hr
    | both v h => exact .both v h
    | last v h hr => exact .last v h hr

theorem load_shape (u : UUrl) (w : Int) (t : Nat) : (UPage.load u w t).Shape ∧ (UPage.load u w t).Same := by
  refine ⟨shape_init _ u (u.metric.getD []) rfl (fun m hm => by rw [hm]; rfl) (by simp), ?_⟩
  unfold UPage.load UPage.Same
  rw [(start_model _ _).1, (start_model _ _).2.1]
  rfl

theorem shape_runs (es : List UEv) (s : UPage) (h : s.Shape ∧ s.Same) : (s.runs es).Shape ∧ (s.runs es).Same := by
  induction es generalizing s with
  | nil => exact h
  | cons e es ih => exact ih (s.step e) (shape_step s e h.1 h.2)

/-! ## The size -/

/-- The graph's width, and the width of its image. -/
structure UPage.Fit (s : UPage) : Prop where
  known : ∀ w, s.model.graph.width = some w → w = s.window
  asked : s.model.graph.width = none → 0 < s.viewports
  drawn : 0 < s.viewports ∨ (∃ due, (s.model.graph.counter, due) ∈ s.timers) ∨ s.model.graph.state = .nothing ∨ ∃ m, s.model.graph.state = .image m s.window

/-- A change of what the size does not depend on. -/
theorem fit_same {s t : UPage} (h : s.Fit) (h1 : t.model.graph = s.model.graph) (h2 : t.window = s.window) (h3 : t.viewports = s.viewports) (h4 : t.timers = s.timers) : t.Fit :=
  ⟨by rw [h1, h2]; exact h.known, by rw [h1, h3]; exact h.asked, by rw [h1, h2, h3, h4]; exact h.drawn⟩

theorem fit_bar (s : UPage) (m : QMsg) (h : s.Fit) : (s.handle (.bar m)).Fit := by
  rcases bar_cmds s.model.bar m with e | ⟨v, e⟩ | ⟨v, e⟩ | e | ⟨v, e⟩ | ⟨v, e⟩ <;> unfold UPage.handle UModel.update <;> dsimp only <;> rw [e] <;>
    exact fit_same h rfl rfl rfl rfl

theorem fit_init (s : UPage) (u : UUrl) (hm : s.model = (UModel.init u).1) : ((UModel.init u).2.foldl UPage.start s).Fit := by
  have hg : s.model.graph = UGraph.new := by rw [hm]; rfl
  have key : ∀ t : UPage, t.model.graph = UGraph.new → 0 < t.viewports → t.Fit := fun t h1 h2 =>
    ⟨fun w hw => (by rw [h1] at hw; cases hw), fun _ => h2, .inl h2⟩
  unfold UModel.init
  by_cases h0 : u.metric.getD [] = []
  · rw [if_neg (by simpa using h0)]
    exact key _ hg (Nat.succ_pos _)
  · rw [if_pos h0]
    exact key _ hg (Nat.succ_pos _)

theorem fit_change (s : UPage) (u : UUrl) (h : s.Fit) : (s.handle (.urlChange u)).Fit := by
  unfold UPage.handle UModel.update
  dsimp only
  split
  · exact fit_init _ u rfl
  · exact h

theorem fit_draw (s : UPage) (v : Bytes) (h : s.Fit) : (s.handle (.graph (.draw v))).Fit := by
  obtain ⟨⟨url, ⟨st, wd, ct⟩, bar⟩, a, w, n, p, vp, tm, sl, rq, rs⟩ := s
  cases wd with
  | none => exact ⟨h.known, h.asked, .inl (h.asked rfl)⟩
  | some x =>
    have hx : x = w := h.known x rfl
    subst hx
    exact ⟨h.known, h.asked, .inr (.inr (.inr ⟨v, rfl⟩))⟩

theorem fit_resize (s : UPage) (w : Int) (hw : s.window = w) : (s.handle (.graph (.resize w))).Fit := by
  subst hw
  refine ⟨fun w hw => ?_, fun h => (by cases h), .inr (.inl ⟨s.now + 250, ?_⟩)⟩
  · injection hw with hw
    exact hw.symm
  · show (s.model.graph.counter + 1, s.now + 250) ∈ s.timers ++ [(s.model.graph.counter + 1, s.now + 250)]
    simp

theorem fit_timer (s : UPage) (c due : Nat) (h : s.Fit) : (UPage.handle { s with timers := s.timers.erase (c, due) } (.graph (.resizeTimer c))).Fit := by
  obtain ⟨⟨url, ⟨st, wd, ct⟩, bar⟩, a, w, n, p, vp, tm, sl, rq, rs⟩ := s
  obtain ⟨h1, h2, h3⟩ := h
  dsimp only at h1 h2 h3
  by_cases hc : c = ct
  · subst hc
    cases wd with
    | none =>
      have hv := h2 rfl
      cases st <;> simp only [UPage.handle, UModel.update, UGraph.update, if_true, Option.toList, List.map_nil, List.foldl_nil] <;> exact ⟨h1, h2, .inl hv⟩
    | some x =>
      have hx := h1 x rfl
      subst hx
      cases st <;> simp only [UPage.handle, UModel.update, UGraph.update, if_true, Option.toList, List.map_nil, List.foldl_nil]
      · exact ⟨h1, h2, .inr (.inr (.inl rfl))⟩
      · exact ⟨h1, h2, .inr (.inr (.inr ⟨_, rfl⟩))⟩
      · exact ⟨h1, h2, .inr (.inr (.inr ⟨_, rfl⟩))⟩
  · simp only [UPage.handle, UModel.update, UGraph.update, if_neg hc, Option.toList, List.map_nil, List.foldl_nil]
    refine ⟨h1, h2, ?_⟩
    rcases h3 with h3 | ⟨d, h3⟩ | h3
    · exact .inl h3
    · refine .inr (.inl ⟨d, ?_⟩)
      show _ ∈ tm.erase (c, due)
      exact (List.mem_erase_of_ne (fun e => hc (by injection e with e _; exact e.symm))).mpr h3
    · exact .inr (.inr h3)

theorem fit_step (s : UPage) (e : UEv) (hs : s.Shape) (h : s.Fit) : (s.step e).Fit := by
  cases e with
  | run i =>
    show UPage.Fit (match s.pending[i]? with | some c => UPage.done { s with pending := s.pending.eraseIdx i } c | none => s)
    cases hc : s.pending[i]? with
    | none => exact h
    | some c =>
      dsimp only
      have h' : UPage.Fit { s with pending := s.pending.eraseIdx i } := fit_same h rfl rfl rfl rfl
      have hmem := List.mem_of_getElem? hc
      have hd : ∀ v b, UPage.Fit (UPage.done { s with pending := s.pending.eraseIdx i } (.send (.draw v b))) := by
        intro v b
        cases b <;> exact fit_same h rfl rfl rfl rfl
      have hpush : ∀ v, UPage.Fit (UPage.done { s with pending := s.pending.eraseIdx i } (.push v)) := fun v =>
        fit_change { s with pending := s.pending.eraseIdx i, address := s.address.push v } _ (fit_same h rfl rfl rfl rfl)
      cases hs with
      | calm v hp _ =>
        rcases hp c hmem with rfl | rfl
        · exact fit_draw _ v h'
        · exact hd v false
      | note hp _ =>
        rw [hp, List.mem_singleton] at hmem
        subst hmem
        exact fit_bar _ _ h'
      | chosen v hp _ =>
        rw [hp, List.mem_singleton] at hmem
        subst hmem
        exact fit_bar _ _ h'
      | told v hp _ =>
        rw [hp, List.mem_singleton] at hmem
        subst hmem
        exact hd v true
      | both v hp =>
        rw [hp, List.mem_cons, List.mem_singleton] at hmem
        rcases hmem with rfl | rfl
        · exact fit_draw _ v h'
        · exact hpush v
      | last v hp _ =>
        rw [hp, List.mem_singleton] at hmem
        subst hmem
        exact hpush v
  | resize w =>
    show UPage.Fit (if s.pending = [] then _ else s)
    split
    · exact fit_resize _ w rfl
    · exact h
  | viewport =>
    show UPage.Fit (if s.pending = [] ∧ _ then _ else s)
    split
    · exact fit_resize _ s.window rfl
    · exact h
  | fire c due =>
    show UPage.Fit (if s.pending = [] ∧ _ then _ else s)
    split
    · exact fit_timer s c due h
    · exact h
  | bar m =>
    show UPage.Fit (if s.pending = [] then _ else s)
    split
    · exact fit_bar s m h
    · exact h
  | barTimer v due =>
    show UPage.Fit (if s.pending = [] ∧ _ then _ else s)
    split
    · exact fit_bar _ _ (fit_same h rfl rfl rfl rfl)
    · exact h
  | answer v r =>
    show UPage.Fit (if s.pending = [] ∧ _ then _ else s)
    split
    · exact fit_bar _ _ (fit_same h rfl rfl rfl rfl)
    · exact h
  | goto u =>
    show UPage.Fit (if s.pending = [] then _ else s)
    split
    · exact fit_change { s with address := u } u (fit_same h rfl rfl rfl rfl)
    · exact h
  | load u =>
    show UPage.Fit (if s.pending = [] then _ else s)
    split
    · exact fit_init _ u rfl
    · exact h
  | wait ms => exact fit_same h rfl rfl rfl rfl

theorem fit_runs (es : List UEv) (s : UPage) (h : s.Shape ∧ s.Same) (hf : s.Fit) : (s.runs es).Fit := by
  induction es generalizing s with
  | nil => exact hf
  | cons e es ih => exact ih (s.step e) (shape_step s e h.1 h.2) (fit_step s e h.1 hf)

theorem view_metric (g : UGraph) (v : Bytes) (w : Int) (h : g.view = some (v, w)) : g.metric = some v := by
  unfold UGraph.view at h
  unfold UGraph.metric
  split at h
  · rename_i m x e
    rw [e]
    injection h with h
    injection h with h _
    rw [h]
  · cases h

/-- **C90** After any history: when the window's width is known and no timer is under way, what is seen is the metric the graph is about, 38 pixels narrower than the window. -/
theorem C90_size (u : UUrl) (w : Int) (t : Nat) (es : List UEv) (s : UPage) (hs : s = (UPage.load u w t).runs es) (hv : s.viewports = 0) (ht : s.timers = []) :
    s.model.graph.view = s.model.graph.metric.map (fun m => (m, s.window - 38)) := by
  have hf : s.Fit := by
    rw [hs]
    exact fit_runs es _ (load_shape u w t) (fit_init _ u rfl)
  rcases hf.drawn with h | ⟨d, h⟩ | h | ⟨m, h⟩
  · omega
  · rw [ht] at h
    cases h
  · unfold UGraph.view UGraph.metric
    rw [h]
    rfl
  · unfold UGraph.view UGraph.metric
    rw [h]
    rfl

/-- **C91** After any history: whenever no command is under way, the page shows nothing but the metric its address names; and when also the window's width is known and no timer is under way, it shows that metric, 38 pixels narrower than the window. -/
theorem C91_address (u : UUrl) (w : Int) (t : Nat) (es : List UEv) (s : UPage) (hs : s = (UPage.load u w t).runs es) (hp : s.pending = []) (m : Bytes) (hm : m ≠ [])
    (ha : s.address.metric = some m) :
    (∀ x, s.model.graph.view = some x → x.1 = m) ∧ (s.viewports = 0 → s.timers = [] → s.model.graph.view = some (m, s.window - 38)) := by
  have h := shape_runs es _ (load_shape u w t)
  rw [← hs] at h
  have hr := shape_right h.1 hp m hm ha
  constructor
  · rintro ⟨v, x⟩ hx
    have := view_metric _ _ _ hx
    rw [hr] at this
    injection this with this
    exact this.symm
  · intro h1 h2
    rw [C90_size u w t es s hs h1 h2, hr]
    rfl

/-! ## Steadiness -/

theorem bar_view (s : UPage) (m : QMsg) : (s.handle (.bar m)).model.graph = s.model.graph := by
  unfold UPage.handle
  rw [(start_model _ _).1]
  rfl

/-- **C90** A change of the window, reading its width, typing, answers and the passing of time leave what is seen as it is: only a command, a timer or a change of the address changes it. -/
theorem C90_steady (s : UPage) (e : UEv) (h : (s.step e).model.graph.view ≠ s.model.graph.view) :
    (∃ i, e = .run i) ∨ (∃ c due, e = .fire c due ∧ c = s.model.graph.counter) ∨ (∃ u, e = .goto u) ∨ ∃ u, e = .load u := by
  cases e with
  | run i => exact .inl ⟨i, rfl⟩
  | goto u => exact .inr (.inr (.inl ⟨u, rfl⟩))
  | load u => exact .inr (.inr (.inr ⟨u, rfl⟩))
  | fire c due =>
    refine .inr (.inl ⟨c, due, rfl, ?_⟩)
    refine Decidable.byContradiction (fun hc => h ?_)
    show UGraph.view (UModel.graph (UPage.model (if s.pending = [] ∧ _ then _ else s))) = _
    split
    · simp only [UPage.handle, UModel.update, UGraph.update, if_neg hc, Option.toList, List.map_nil, List.foldl_nil]
    · rfl
  | resize w =>
    refine absurd ?_ h
    show UGraph.view (UModel.graph (UPage.model (if s.pending = [] then _ else s))) = _
    split <;> rfl
  | viewport =>
    refine absurd ?_ h
    show UGraph.view (UModel.graph (UPage.model (if s.pending = [] ∧ _ then _ else s))) = _
    split <;> rfl
  | bar m =>
    refine absurd ?_ h
    show UGraph.view (UModel.graph (UPage.model (if s.pending = [] then _ else s))) = _
    split
    · rw [bar_view]
    · rfl
  | barTimer v due =>
    refine absurd ?_ h
    show UGraph.view (UModel.graph (UPage.model (if s.pending = [] ∧ _ then _ else s))) = _
    split
    · rw [bar_view]
    · rfl
  | answer v r =>
    refine absurd ?_ h
    show UGraph.view (UModel.graph (UPage.model (if s.pending = [] ∧ _ then _ else s))) = _
    split
    · rw [bar_view]
    · rfl
  | wait ms => exact absurd rfl h

/-- The timers of one graph. -/
def UPage.Timely (s : UPage) : Prop := ∀ p ∈ s.timers, p.1 ≤ s.model.graph.counter ∧ (p.1 = s.model.graph.counter → p.2 = s.resized + 250)

theorem timely_same {s t : UPage} (h : s.Timely) (h1 : t.model.graph.counter = s.model.graph.counter) (h2 : ∀ p ∈ t.timers, p ∈ s.timers) (h3 : t.resized = s.resized) : t.Timely := by
  intro p hp
  rw [h1, h3]
  exact h p (h2 p hp)

theorem change_nothing (s : UPage) (u : UUrl) (h : s.model.url = u) : s.handle (.urlChange u) = s := by
  unfold UPage.handle UModel.update
  dsimp only
  rw [if_neg (by simpa using h.symm)]
  rfl

theorem timely_resize (s : UPage) (w : Int) (h : ∀ p ∈ s.timers, p.1 ≤ s.model.graph.counter) (hr : s.resized = s.now) : (s.handle (.graph (.resize w))).Timely := by
  intro p hp
  have hp' : p ∈ s.timers ++ [(s.model.graph.counter + 1, s.now + 250)] := hp
  show p.1 ≤ s.model.graph.counter + 1 ∧ (p.1 = s.model.graph.counter + 1 → p.2 = s.resized + 250)
  rcases List.mem_append.mp hp' with hp | hp
  · have := h p hp
    exact ⟨by omega, by omega⟩
  · rw [List.mem_singleton] at hp
    subst hp
    exact ⟨Nat.le_refl _, fun _ => by rw [hr]⟩

theorem timely_bar (s : UPage) (m : QMsg) (h : s.Timely) : (s.handle (.bar m)).Timely := by
  rcases bar_cmds s.model.bar m with e | ⟨v, e⟩ | ⟨v, e⟩ | e | ⟨v, e⟩ | ⟨v, e⟩ <;> unfold UPage.handle UModel.update <;> dsimp only <;> rw [e] <;>
    exact timely_same h rfl (fun _ hp => hp) rfl

theorem init_timers (s : UPage) (u : UUrl) : ((UModel.init u).2.foldl UPage.start s).timers = s.timers := by
  unfold UModel.init
  dsimp only
  split <;> rfl

theorem timer_counter (g : UGraph) (c : Nat) : (g.update (.resizeTimer c)).1.counter = g.counter := by
  obtain ⟨st, w, k⟩ := g
  unfold UGraph.update
  dsimp only
  by_cases h : c = k
  · rw [if_pos h]
    cases st <;> cases w <;> rfl
  · rw [if_neg h]

theorem draw_counter (g : UGraph) (v : Bytes) : (g.update (.draw v)).1.counter = g.counter := by
  unfold UGraph.update
  cases g.width <;> rfl

theorem timely_step (s : UPage) (e : UEv) (hs : s.Shape) (hu : s.Same) (h : s.Timely) (ha : (s.step e).address = s.address) : (s.step e).Timely := by
  cases e with
  | run i =>
    revert ha
    show UPage.address (match s.pending[i]? with | some c => UPage.done { s with pending := s.pending.eraseIdx i } c | none => s) = _ →
      UPage.Timely (match s.pending[i]? with | some c => UPage.done { s with pending := s.pending.eraseIdx i } c | none => s)
    cases hc : s.pending[i]? with
    | none => exact fun _ => h
    | some c =>
      dsimp only
      intro ha
      have h' : UPage.Timely { s with pending := s.pending.eraseIdx i } := timely_same h rfl (fun _ hp => hp) rfl
      have hmem := List.mem_of_getElem? hc
      have hd : ∀ v b, UPage.Timely (UPage.done { s with pending := s.pending.eraseIdx i } (.send (.draw v b))) := by
        intro v b
        cases b <;> exact timely_same h rfl (fun _ hp => hp) rfl
      have hg : ∀ v, UPage.Timely (UPage.done { s with pending := s.pending.eraseIdx i } (.send (.graph (.draw v)))) := by
        intro v
        exact timely_same h (draw_counter _ v) (fun _ hp => hp) rfl
      have hpush : ∀ v, c = .push v → UPage.Timely (UPage.done { s with pending := s.pending.eraseIdx i } (.push v)) := by
        rintro v rfl
        have hav : s.address.push v = s.address := by
          unfold UPage.done UPage.handle at ha
          rw [(start_model _ _).2.1] at ha
          exact ha
        unfold UPage.done
        dsimp only
        rw [change_nothing _ _ (by show s.model.url = _; rw [hav]; exact hu)]
        exact timely_same h rfl (fun _ hp => hp) rfl
      cases hs with
      | calm v hp _ =>
        rcases hp c hmem with rfl | rfl
        · exact hg v
        · exact hd v false
      | note hp _ =>
        rw [hp, List.mem_singleton] at hmem
        subst hmem
        exact timely_bar _ _ h'
      | chosen v hp _ =>
        rw [hp, List.mem_singleton] at hmem
        subst hmem
        exact timely_bar _ _ h'
      | told v hp _ =>
        rw [hp, List.mem_singleton] at hmem
        subst hmem
        exact hd v true
      | both v hp =>
        rw [hp, List.mem_cons, List.mem_singleton] at hmem
        rcases hmem with rfl | rfl
        · exact hg v
        · exact hpush v rfl
      | last v hp _ =>
        rw [hp, List.mem_singleton] at hmem
        subst hmem
        exact hpush v rfl
  | resize w =>
    show UPage.Timely (if s.pending = [] then _ else s)
    split
    · exact timely_resize _ w (fun p hp => (h p hp).1) rfl
    · exact h
  | viewport =>
    show UPage.Timely (if s.pending = [] ∧ _ then _ else s)
    split
    · exact timely_resize _ s.window (fun p hp => (h p hp).1) rfl
    · exact h
  | fire c due =>
    show UPage.Timely (if s.pending = [] ∧ _ then _ else s)
    split
    · exact timely_same h (timer_counter _ c) (fun _ hp => List.mem_of_mem_erase hp) rfl
    · exact h
  | bar m =>
    show UPage.Timely (if s.pending = [] then _ else s)
    split
    · exact timely_bar s m h
    · exact h
  | barTimer v due =>
    show UPage.Timely (if s.pending = [] ∧ _ then _ else s)
    split
    · exact timely_bar _ _ (timely_same h rfl (fun _ hp => hp) rfl)
    · exact h
  | answer v r =>
    show UPage.Timely (if s.pending = [] ∧ _ then _ else s)
    split
    · exact timely_bar _ _ (timely_same h rfl (fun _ hp => hp) rfl)
    · exact h
  | goto u =>
    revert ha
    show UPage.address (if s.pending = [] then _ else s) = _ → UPage.Timely (if s.pending = [] then _ else s)
    split
    · intro ha
      have hau : u = s.address := by
        unfold UPage.handle at ha
        rw [(start_model _ _).2.1] at ha
        exact ha
      rw [change_nothing _ _ (by show s.model.url = _; rw [hau]; exact hu)]
      exact timely_same h rfl (fun _ hp => hp) rfl
    · exact fun _ => h
  | load u =>
    show UPage.Timely (if s.pending = [] then _ else s)
    split
    · intro p hp
      unfold UPage.load at hp
      rw [init_timers] at hp
      cases hp
    · exact h
  | wait ms => exact timely_same h rfl (fun _ hp => hp) rfl

/-- **C90** As long as the address stays the same, a timer changes what is seen only when the window has been left alone for 250 milliseconds: a burst of changes asks the server for one image. -/
theorem C90_burst (u : UUrl) (w : Int) (t : Nat) (es : List UEv) (hes : ∀ k, ((UPage.load u w t).runs (es.take k)).address = u) (s : UPage) (hs : s = (UPage.load u w t).runs es)
    (c due : Nat) (h : (s.step (.fire c due)).model.graph.view ≠ s.model.graph.view) : s.resized + 250 ≤ s.now := by
  have key : ∀ (es : List UEv) (s : UPage), s.Shape ∧ s.Same → s.Timely → (∀ k, (s.runs (es.take k)).address = u) → (s.runs es).Timely := by
    intro es
    induction es with
    | nil => exact fun s _ h _ => h
    | cons e es ih =>
      intro s h1 h2 h3
      refine ih (s.step e) (shape_step s e h1.1 h1.2) (timely_step s e h1.1 h1.2 h2 ?_) (fun k => h3 (k + 1))
      exact (h3 1).trans (h3 0).symm
  have ht : s.Timely := by
    rw [hs]
    refine key es _ (load_shape u w t) ?_ hes
    intro p hp
    unfold UPage.load at hp
    rw [init_timers] at hp
    cases hp
  rcases C90_steady s _ h with ⟨i, hi⟩ | ⟨c', due', he, hc⟩ | ⟨v, hv⟩ | ⟨v, hv⟩
  · cases hi
  · injection he with e1 e2
    subst e1 e2
    by_cases hf : s.pending = [] ∧ (c, due) ∈ s.timers ∧ due ≤ s.now
    · have := (ht _ hf.2.1).2 hc
      dsimp only at this
      omega
    · refine absurd ?_ h
      show UGraph.view (UModel.graph (UPage.model (if s.pending = [] ∧ _ then _ else s))) = _
      rw [if_neg hf]
  · cases hv
  · cases hv

/-! ## A selection -/

/-- How many commands can follow from a command. -/
def UCmd.weight : UCmd → Nat
  | .send (.bar (.select _)) => 6
  | .send (.bar _) => 1
  | .send (.draw _ true) => 5
  | .send (.draw _ false) => 2
  | .send (.graph _) => 1
  | .push _ => 3
  | _ => 1

/-- The commands are done in some order, each being under way when it is done. -/
def UPage.Doable (s : UPage) : List Nat → Prop
  | [] => True
  | i :: is => i < s.pending.length ∧ (s.step (.run i)).Doable is

/-- The weight of the commands under way. -/
def UPage.weight (s : UPage) : Nat := (s.pending.map UCmd.weight).sum

theorem erase_weight (l : List UCmd) (i : Nat) (c : UCmd) (h : l[i]? = some c) : ((l.eraseIdx i).map UCmd.weight).sum + c.weight = (l.map UCmd.weight).sum := by
  induction l generalizing i with
  | nil => cases h
  | cons a l ih =>
    cases i with
    | zero =>
      injection h with h
      subst h
      simp only [List.eraseIdx_cons_zero, List.map_cons, List.sum_cons]
      omega
    | succ i =>
      have := ih i h
      simp only [List.eraseIdx_cons_succ, List.map_cons, List.sum_cons]
      omega

theorem change_weight (s : UPage) (u : UUrl) : (s.handle (.urlChange u)).weight ≤ s.weight + 2 := by
  unfold UPage.handle UModel.update
  dsimp only
  split
  · unfold UModel.init
    dsimp only
    split
    · simp only [List.foldl_cons, List.foldl_nil, UPage.start, UPage.weight, List.map_append, List.sum_append]
      simp [UCmd.weight]
    · simp only [List.foldl_cons, List.foldl_nil, UPage.start, UPage.weight]
      omega
  · simp only [List.foldl_nil, UPage.weight]
    omega

theorem weight_run (s : UPage) (i : Nat) (hs : s.Shape) (hi : i < s.pending.length) : (s.step (.run i)).weight < s.weight := by
  have hc : s.pending[i]? = some s.pending[i] := List.getElem?_eq_getElem hi
  have hw := erase_weight s.pending i _ hc
  have hmem := List.mem_of_getElem? hc
  show UPage.weight (match s.pending[i]? with | some c => UPage.done { s with pending := s.pending.eraseIdx i } c | none => s) < _
  rw [hc]
  dsimp only
  generalize s.pending[i] = c at *
  have hg : ∀ v, c = .send (.graph (.draw v)) → (UPage.done { s with pending := s.pending.eraseIdx i } c).weight < s.weight := by
    rintro v rfl
    have hw' : _ + 1 = _ := hw
    show ((s.pending.eraseIdx i).map UCmd.weight).sum < (s.pending.map UCmd.weight).sum
    omega
  have hpush : ∀ v, c = .push v → (UPage.done { s with pending := s.pending.eraseIdx i } c).weight < s.weight := by
    rintro v rfl
    have hw' : _ + 3 = _ := hw
    have := change_weight { s with pending := s.pending.eraseIdx i, address := s.address.push v } (s.address.push v)
    refine Nat.lt_of_le_of_lt this ?_
    show ((s.pending.eraseIdx i).map UCmd.weight).sum + 2 < (s.pending.map UCmd.weight).sum
    omega
  have hd : ∀ v, c = .send (.draw v true) → (UPage.done { s with pending := s.pending.eraseIdx i } c).weight < s.weight := by
    rintro v rfl
    have hw' : _ + 5 = _ := hw
    show (((s.pending.eraseIdx i ++ [UCmd.send (.graph (.draw v))]) ++ [UCmd.push v]).map UCmd.weight).sum < (s.pending.map UCmd.weight).sum
    simp only [List.map_append, List.sum_append]
    simp only [List.map_cons, List.map_nil, UCmd.weight, List.sum_cons, List.sum_nil]
    omega
  have hf : ∀ v, c = .send (.draw v false) → (UPage.done { s with pending := s.pending.eraseIdx i } c).weight < s.weight := by
    rintro v rfl
    have hw' : _ + 2 = _ := hw
    show ((s.pending.eraseIdx i ++ [UCmd.send (.graph (.draw v))]).map UCmd.weight).sum < (s.pending.map UCmd.weight).sum
    simp only [List.map_append, List.sum_append]
    simp only [List.map_cons, List.map_nil, UCmd.weight, List.sum_cons, List.sum_nil]
    omega
  cases hs with
  | calm v hp _ =>
    rcases hp c hmem with h | h
    · exact hg v h
    · exact hf v h
  | note hp _ =>
    rw [hp, List.mem_singleton] at hmem
    subst hmem
    have hw' : _ + 1 = _ := hw
    show ((s.pending.eraseIdx i).map UCmd.weight).sum < (s.pending.map UCmd.weight).sum
    omega
  | chosen v hp _ =>
    rw [hp, List.mem_singleton] at hmem
    subst hmem
    have hw' : _ + 6 = _ := hw
    show ((s.pending.eraseIdx i ++ [UCmd.send (.draw v true)]).map UCmd.weight).sum < (s.pending.map UCmd.weight).sum
    simp only [List.map_append, List.sum_append]
    simp only [List.map_cons, List.map_nil, UCmd.weight, List.sum_cons, List.sum_nil]
    omega
  | told v hp _ =>
    rw [hp, List.mem_singleton] at hmem
    exact hd v hmem
  | both v hp =>
    rw [hp, List.mem_cons, List.mem_singleton] at hmem
    rcases hmem with h | h
    · exact hg v h
    · exact hpush v h
  | last v hp _ =>
    rw [hp, List.mem_singleton] at hmem
    exact hpush v hmem

theorem doable_weight (is : List Nat) (s : UPage) (h : s.Shape ∧ s.Same) (hd : s.Doable is) : is.length ≤ s.weight := by
  induction is generalizing s with
  | nil => exact Nat.zero_le _
  | cons i is ih =>
    have h1 := weight_run s i h.1 hd.1
    have h2 := ih _ (shape_step s _ h.1 h.2) hd.2
    rw [List.length_cons]
    omega

theorem weight_le (s : UPage) : s.weight ≤ 6 * s.pending.length := by
  unfold UPage.weight
  induction s.pending with
  | nil => simp
  | cons c l ih =>
    have hc : c.weight ≤ 6 := by
      unfold UCmd.weight
      split <;> omega
    simp only [List.map_cons, List.sum_cons, List.length_cons]
    omega

/-- **C91** The commands come to an end, in whatever order they are done: each leads to five more at most. -/
theorem C91_settles (u : UUrl) (w : Int) (t : Nat) (es : List UEv) (s : UPage) (hs : s = (UPage.load u w t).runs es) (is : List Nat) (hd : s.Doable is) : is.length ≤ 6 * s.pending.length := by
  refine Nat.le_trans (doable_weight is s ?_ hd) (weight_le s)
  rw [hs]
  exact shape_runs es _ (load_shape u w t)

/-- A selection of `v` at the address `a`, on its way. -/
inductive UPage.Going (s : UPage) (a : UUrl) (v : Bytes) : Prop
  | told (h : s.pending = [.send (.draw v true)]) (ha : s.address = a)
  | both (h : s.pending = [.send (.graph (.draw v)), .push v]) (ha : s.address = a)
  | last (h : s.pending = [.push v]) (ha : s.address = a)
  | calm (h : ∀ c ∈ s.pending, c = .send (.graph (.draw v)) ∨ c = .send (.draw v false)) (ha : s.address = a.push v)

theorem going_change (s : UPage) (a : UUrl) (v : Bytes) (hm : (a.push v).metric = some v) (ha : s.address = a.push v) (hb : s.model.bar.value = v)
    (hp : ∀ c ∈ s.pending, c = .send (.graph (.draw v)) ∨ c = .send (.draw v false)) :
    (s.handle (.urlChange (a.push v))).Going a v ∧ (s.handle (.urlChange (a.push v))).model.bar.value = v := by
  unfold UPage.handle UModel.update
  dsimp only
  split
  · unfold UModel.init
    dsimp only
    rw [hm]
    simp only [Option.getD_some]
    split
    · refine ⟨.calm ?_ ha, rfl⟩
      intro c hc
      simp only [List.foldl_cons, List.foldl_nil, UPage.start, List.mem_append, List.mem_singleton] at hc
      rcases hc with hc | hc
      · exact hp c hc
      · exact .inr hc
    · exact ⟨.calm hp ha, rfl⟩
  · exact ⟨.calm hp ha, hb⟩

theorem going_run (s : UPage) (i : Nat) (a : UUrl) (v : Bytes) (hm : (a.push v).metric = some v) (h : s.Going a v) (hb : s.model.bar.value = v) :
    (s.step (.run i)).Going a v ∧ (s.step (.run i)).model.bar.value = v := by
  show UPage.Going (match s.pending[i]? with | some c => UPage.done { s with pending := s.pending.eraseIdx i } c | none => s) a v ∧
    (UPage.model (match s.pending[i]? with | some c => UPage.done { s with pending := s.pending.eraseIdx i } c | none => s)).bar.value = v
  cases hc : s.pending[i]? with
  | none => exact ⟨h, hb⟩
  | some c =>
    dsimp only
    have hmem := List.mem_of_getElem? hc
    have one : ∀ x, s.pending = [x] → c = x ∧ s.pending.eraseIdx i = [] := by
      intro x hx
      rw [hx] at hc hmem ⊢
      cases i with
      | zero =>
        injection hc with hc
        exact ⟨hc.symm, rfl⟩
      | succ i => simp at hc
    cases h with
    | told h ha =>
      obtain ⟨rfl, he⟩ := one _ h
      refine ⟨.both ?_ ha, hb⟩
      show (s.pending.eraseIdx i ++ [_]) ++ [_] = _
      rw [he]
      rfl
    | both h ha =>
      rw [h] at hc
      match i, hc with
      | 0, hc =>
        injection hc with hc
        subst hc
        refine ⟨.last ?_ ha, hb⟩
        show s.pending.eraseIdx 0 = _
        rw [h]
        rfl
      | 1, hc =>
        injection hc with hc
        subst hc
        unfold UPage.done
        dsimp only
        rw [show s.address = a from ha]
        refine going_change _ a v hm rfl hb ?_
        intro c hc
        simp [h] at hc
        exact .inl hc
      | i + 2, hc => simp at hc
    | last h ha =>
      obtain ⟨rfl, he⟩ := one _ h
      unfold UPage.done
      dsimp only
      rw [show s.address = a from ha]
      refine going_change _ a v hm rfl hb ?_
      intro c hc
      rw [show s.pending.eraseIdx i = [] from he] at hc
      cases hc
    | calm h ha =>
      have herase : ∀ x ∈ s.pending.eraseIdx i, x = .send (.graph (.draw v)) ∨ x = .send (.draw v false) := fun x hx => h x (List.mem_of_mem_eraseIdx hx)
      rcases h c hmem with rfl | rfl
      · exact ⟨.calm herase ha, hb⟩
      · refine ⟨.calm ?_ ha, hb⟩
        intro x hx
        have hx' : x ∈ s.pending.eraseIdx i ++ [_] := hx
        rcases List.mem_append.mp hx' with hx | hx
        · exact herase x hx
        · exact .inl (List.mem_singleton.mp hx)

/-- **C91** A name that is selected at the top path, in whatever order the commands it leads to are done: in the end the address names it and is the old one otherwise, the bar holds it, and the graph is about it. -/
theorem C91_select (u : UUrl) (w : Int) (t : Nat) (es : List UEv) (s : UPage) (hs : s = (UPage.load u w t).runs es) (hp : s.pending = []) (htop : s.address.top = true) (v : Bytes) (hv : Text v)
    (hne : v ≠ []) (is : List Nat) (r : UPage) (hr : r = (s.step (.bar (.select v))).runs (is.map .run)) (hd : r.pending = []) :
    r.address = s.address.push v ∧ r.address.metric = some v ∧ r.model.bar.value = v ∧ r.model.graph.metric = some v := by
  have hm : (s.address.push v).metric = some v := C92_address s.address v hv htop
  have hgo : ∀ (is : List Nat) (x : UPage), x.Going s.address v → x.model.bar.value = v → (x.runs (is.map .run)).Going s.address v ∧ (x.runs (is.map .run)).model.bar.value = v := by
    intro is
    induction is with
    | nil => exact fun x h1 h2 => ⟨h1, h2⟩
    | cons i is ih =>
      intro x h1 h2
      obtain ⟨h3, h4⟩ := going_run x i s.address v hm h1 h2
      exact ih _ h3 h4
  have h0 : s.step (.bar (.select v)) = s.handle (.bar (.select v)) := if_pos hp
  have h1 : (s.step (.bar (.select v))).Going s.address v := by
    rw [h0]
    refine .told ?_ rfl
    show s.pending ++ [_] = _
    rw [hp]
    rfl
  have h2 : (s.step (.bar (.select v))).model.bar.value = v := by
    rw [h0]
    rfl
  have h3 := hgo is _ h1 h2
  rw [← hr] at h3
  have ha : r.address = s.address.push v := by
    cases h3.1 with
    | told h _ => rw [hd] at h; cases h
    | both h _ => rw [hd] at h; cases h
    | last h _ => rw [hd] at h; cases h
    | calm _ ha => exact ha
  have hmr : r.address.metric = some v := by rw [ha]; exact hm
  refine ⟨ha, hmr, h3.2, ?_⟩
  have hsh := shape_runs (es ++ .bar (.select v) :: is.map .run) _ (load_shape u w t)
  have : (UPage.load u w t).runs (es ++ .bar (.select v) :: is.map .run) = r := by
    rw [hr, hs]
    unfold UPage.runs
    rw [List.foldl_append, List.foldl_cons]
  rw [this] at hsh
  exact shape_right hsh.1 hd v hne hmr

/-! ## Examples -/

/-- The top of the site. -/
def exTop : UUrl := ⟨[47], none, none⟩

/-- Test of C90 and C91: the page is loaded, a name is selected, the address is changed before the graph is told, the window is measured, resized twice, and its timers run out; then the user goes back. -/
theorem C91_example :
    let s := (UPage.load exTop 1000 0).runs [.viewport, .wait 250, .fire 1 250, .bar (.select [97]), .run 0, .run 1, .run 0, .run 0, .run 0, .viewport, .resize 800, .wait 100, .resize 600, .wait 150, .fire 1 500, .fire 2 500, .wait 100, .fire 3 600]
    s.pending = [] ∧ s.viewports = 0 ∧ s.timers = [] ∧ s.address = exTop.push [97] ∧ s.model.graph.view = some ([97], 562) ∧ s.model.bar.value = [97] ∧
    (s.step (.goto exTop)).model.graph.view = none ∧ ((s.step (.goto exTop)).step (.goto (exTop.push [98]))).pending = [.send (.draw [98] false)] := by decide +kernel

/-- The events of the test of C90. -/
def exBurst : List UEv := [.run 0, .run 0, .viewport, .wait 250, .fire 1 250, .resize 800, .wait 200, .resize 600, .wait 50, .fire 2 500, .wait 200]

/-- Test of C90: after the first of two changes of the window the image stays; 250 milliseconds after the second one it follows. The address stays all the time, so that C90_burst applies. -/
theorem C90_example : (∀ k, ((UPage.load (exTop.push [97]) 1000 0).runs (exBurst.take k)).address = exTop.push [97]) ∧
    ((UPage.load (exTop.push [97]) 1000 0).runs exBurst).model.graph.view = some ([97], 962) ∧
    (((UPage.load (exTop.push [97]) 1000 0).runs exBurst).step (.fire 3 700)).model.graph.view = some ([97], 562) ∧
    ((UPage.load (exTop.push [97]) 1000 0).runs exBurst).resized + 250 ≤ ((UPage.load (exTop.push [97]) 1000 0).runs exBurst).now := by
  refine ⟨fun k => ?_, by decide +kernel, by decide +kernel, by decide +kernel⟩
  by_cases h : k < 11
  · revert k
    decide +kernel
  · rw [List.take_of_length_le (by simp [exBurst]; omega)]
    decide +kernel

/-- C90_burst needs that the address stays: a timer started before the address changed can be taken for one of the new graph's, so that the image is asked for in the middle of a burst. -/
theorem C90_burst_refuted : ∃ (es : List UEv) (s : UPage), s = (UPage.load (exTop.push [97]) 1000 0).runs es ∧ (s.step (.fire 1 250)).model.graph.view ≠ s.model.graph.view ∧ ¬ s.resized + 250 ≤ s.now :=
  ⟨[.run 0, .run 0, .viewport, .wait 249, .goto (exTop.push [98]), .run 0, .run 0, .viewport, .wait 1], _, rfl, by decide +kernel, by decide +kernel⟩

/-- C91_select needs the top path: elsewhere (where the server serves the page too, C58) a selected name can end with no graph at all, for the address is not understood. -/
theorem C91_path_refuted : ∃ (u : UUrl) (is : List Nat), u.top = false ∧
    let r := ((UPage.load u 1000 0).step (.bar (.select [97]))).runs (is.map .run)
    r.pending = [] ∧ r.model.graph.metric = none ∧ r.model.bar.value = [] :=
  ⟨⟨[47, 120], none, none⟩, [0, 0, 0], by decide +kernel, by decide +kernel⟩

/-- The same metric selected again leaves the address of the image as it is: the browser has nothing to ask the server for. -/
theorem C91_again_refuted : let s := (UPage.load (exTop.push [97]) 1000 0).runs [.run 0, .run 0, .viewport, .wait 250, .fire 1 250]
    let r := s.runs [.bar (.select [97]), .run 0, .run 0, .run 0]
    s.model.graph.view = some ([97], 962) ∧ r.pending = [] ∧ r.model.graph.view = s.model.graph.view := by decide +kernel

end Rothko
