/-
C60: loading and redacting a configuration.
-/
import Verif.Model.Config

namespace Rothko

variable {V : Type}

/-- **C60** (accepted). A document is accepted exactly when it has one database and one distribution. -/
theorem C60_accepted (t : TomlConf V) (order : List (Bytes × List V)) : (∃ c, loadConf t order = .ok c) ↔ (∃ d, t.database = [d]) ∧ ∃ d, t.dist = [d] := by
  unfold loadConf
  constructor
  · rintro ⟨c, h⟩
    split at h
    · cases h
    · rename_i h1
      split at h
      · cases h
      · rename_i h2
        have k1 : t.database.length = 1 := Decidable.not_not.mp h1
        have k2 : t.dist.length = 1 := Decidable.not_not.mp h2
        exact ⟨List.length_eq_one_iff.mp k1, List.length_eq_one_iff.mp k2⟩
  · rintro ⟨⟨⟨a, b⟩, h1⟩, ⟨c, d⟩, h2⟩
    simp [h1, h2]

/-- **C60** (entities). The loaded configuration has the kinds and configurations of the document: the database, the distribution, and for every kind of listener its instances, in order and no others. -/
theorem C60_entities (t : TomlConf V) (order : List (Bytes × List V)) (hk : (t.listeners.map Prod.fst).Nodup) (ho : order.Perm t.listeners) (c : Conf V) (h : loadConf t order = .ok c) :
    t.database = [(c.database.kind, c.database.config)] ∧ t.dist = [(c.dist.kind, c.dist.config)] ∧ c.duration = t.duration ∧ c.plugins = t.plugins ∧ c.api = t.api ∧
    (∀ kind cfgs, (kind, cfgs) ∈ t.listeners → (c.listeners.filter (fun e => e.kind = kind)).map Entity.config = cfgs) ∧
    ∀ e ∈ c.listeners, ∃ cfgs, (e.kind, cfgs) ∈ t.listeners ∧ e.config ∈ cfgs := by
  obtain ⟨⟨⟨dk, dc⟩, h1⟩, ⟨sk, sc⟩, h2⟩ := (C60_accepted t order).mp ⟨c, h⟩
  unfold loadConf at h
  simp only [h1, h2, List.length_singleton, ne_eq, not_true_eq_false, if_false] at h
  injection h with h
  subst h
  refine ⟨h1, h2, rfl, rfl, rfl, ?_, ?_⟩
  · intro kind cfgs hm
    have hn : (order.map Prod.fst).Nodup := (ho.map Prod.fst).nodup_iff.mpr hk
    have hm' := ho.mem_iff.mpr hm
    clear h1 h2 ho hm hk
    show ((order.flatMap (fun kc => kc.2.map (fun c => (⟨kc.1, c⟩ : Entity V)))).filter (fun e => decide (e.kind = kind))).map Entity.config = cfgs
    have other : ∀ (l : List (Bytes × List V)), kind ∉ l.map Prod.fst → (l.flatMap (fun kc => kc.2.map (fun c => (⟨kc.1, c⟩ : Entity V)))).filter (fun e => decide (e.kind = kind)) = [] := by
      intro l hl
      rw [List.filter_eq_nil_iff]
      intro e he
      obtain ⟨kc, hkc, hx⟩ := List.mem_flatMap.mp he
      obtain ⟨v, _, rfl⟩ := List.mem_map.mp hx
      intro ek
      exact hl (List.mem_map.mpr ⟨kc, hkc, of_decide_eq_true ek⟩)
    induction order with
    | nil => cases hm'
    | cons a l ih =>
      rw [List.map_cons, List.nodup_cons] at hn
      rw [List.flatMap_cons, List.filter_append, List.map_append]
      rcases List.mem_cons.mp hm' with e | hm'
      · subst e
        rw [other l hn.1, List.map_nil, List.append_nil, List.filter_eq_self.mpr, List.map_map]
        · have : (Entity.config ∘ fun c => (⟨kind, c⟩ : Entity V)) = id := rfl
          show cfgs.map (Entity.config ∘ fun c => (⟨kind, c⟩ : Entity V)) = cfgs
          rw [this, List.map_id]
        · intro e he
          obtain ⟨v, _, rfl⟩ := List.mem_map.mp he
          exact decide_eq_true rfl
      · have hne : a.1 ≠ kind := by
          intro e
          exact hn.1 (e ▸ List.mem_map.mpr ⟨_, hm', rfl⟩)
        rw [ih hn.2 hm']
        have : (a.2.map (fun c => (⟨a.1, c⟩ : Entity V))).filter (fun e => decide (e.kind = kind)) = [] := by
          rw [List.filter_eq_nil_iff]
          intro e he
          obtain ⟨v, _, rfl⟩ := List.mem_map.mp he
          intro ek
          exact hne (of_decide_eq_true ek)
        rw [this]
        rfl
  · intro e he
    obtain ⟨kc, hkc, hx⟩ := List.mem_flatMap.mp he
    obtain ⟨v, hv, rfl⟩ := List.mem_map.mp hx
    exact ⟨kc.2, ho.mem_iff.mp hkc, hv⟩

/-- **C60** (redacted). A redacted configuration does not depend on the credentials and the key material at all, and keeps the rest. -/
theorem C60_redacted (a b : ApiConf) (ha : a.address = b.address) (ho : a.origin = b.origin) : a.redact = b.redact ∧ a.redact.address = a.address ∧ a.redact.origin = a.origin := by
  refine ⟨?_, rfl, rfl⟩
  unfold ApiConf.redact
  rw [ha, ho]

/-- Two kinds of listeners, one with two instances, visited in the other order. -/
theorem C60_example :
    let t : TomlConf Nat := { duration := 5, plugins := [], listeners := [([97], [1, 2]), ([98], [3])], database := [([99], 4)], dist := [([100], 5)], api := ⟨[], [], [1], [2], [3], [4]⟩ }
    ∃ c, loadConf t [([98], [3]), ([97], [1, 2])] = .ok c ∧ [([98], [3]), ([97], [1, 2])].Perm t.listeners ∧ c.listeners = [⟨[98], 3⟩, ⟨[97], 1⟩, ⟨[97], 2⟩] := by
  exact ⟨_, rfl, List.Perm.swap .., rfl⟩

end Rothko
