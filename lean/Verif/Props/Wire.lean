import Verif.Lemmas.Wire
import Verif.Props.Proto
/-!
# C66: records and metadata written by other versions: any order of fields, repeated fields, unknown fields of any kind
-/
namespace Rothko

private theorem step_varint (field : σ → Int → Nat → Bytes → Int → Option (Outcome (σ × Int))) (set : BitVec 64 → σ) (m : σ) (n : Nat) (hn : 1 ≤ n ∧ n < 536870912)
    (hf : ∀ d i, field m n 0 d i = some (varintField set 0 d i)) (v : BitVec 64) (p rest : Bytes) :
    Reaches field (p ++ (wireTag n 0 ++ leb v.toNat ++ rest)) m p.length (set v) (p ++ (wireTag n 0 ++ leb v.toNat)).length := by
  rw [List.append_assoc]
  apply reaches_known field p (leb v.toNat) rest n 0 m (set v) hn (by omega) (by omega)
  rw [hf]
  have := varintField_encode set v (p ++ wireTag n 0) rest
  rw [leb_eq] at this
  simp only [List.append_assoc] at this
  rw [this]

private theorem step_bytes (field : σ → Int → Nat → Bytes → Int → Option (Outcome (σ × Int))) (set : Bytes → σ) (m : σ) (n : Nat) (hn : 1 ≤ n ∧ n < 536870912)
    (hf : ∀ d i, field m n 2 d i = some (bytesField set 2 d i)) (b : Bytes) (p rest : Bytes)
    (hl : (p ++ (wireTag n 2 ++ (leb b.length ++ b) ++ rest)).length < 2 ^ 62) :
    Reaches field (p ++ (wireTag n 2 ++ (leb b.length ++ b) ++ rest)) m p.length (set b) (p ++ (wireTag n 2 ++ (leb b.length ++ b))).length := by
  rw [List.append_assoc]
  apply reaches_known field p (leb b.length ++ b) rest n 2 m (set b) hn (by omega) (by omega)
  rw [hf]
  simp only [List.length_append] at hl
  have hb : leb b.length = encodeVarint (BitVec.ofNat 64 b.length) := leb_ofNat _ (by omega)
  have := bytesField_encode set b (p ++ wireTag n 2) rest (by rw [← hb]; simp only [List.length_append]; omega)
  rw [← hb] at this
  simp only [List.append_assoc] at this ⊢
  rw [this]

private theorem step_fixed (field : σ → Int → Nat → Bytes → Int → Option (Outcome (σ × Int))) (set : BitVec 64 → σ) (m : σ) (n : Nat) (hn : 1 ≤ n ∧ n < 536870912)
    (hf : ∀ d i, field m n 1 d i = some (fixed64Field set 1 d i)) (x : BitVec 64) (p rest : Bytes) :
    Reaches field (p ++ (wireTag n 1 ++ le8 x.toNat ++ rest)) m p.length (set x) (p ++ (wireTag n 1 ++ le8 x.toNat)).length := by
  rw [List.append_assoc]
  apply reaches_known field p (le8 x.toNat) rest n 1 m (set x) hn (by omega) (by omega)
  rw [hf]
  have := fixed64Field_encode set x (p ++ wireTag n 1) rest
  rw [← le8_eq] at this
  simp only [List.append_assoc] at this
  rw [this]

private theorem record_step (m : DRec) (f : RField) (hok : f.Ok) (p rest : Bytes) (hl : (p ++ (f.wire ++ rest)).length < 2 ^ 62) :
    Reaches DRec.field (p ++ (f.wire ++ rest)) m p.length (f.set m) (p ++ f.wire).length := by
  cases f with
  | startTime v => exact step_varint DRec.field (fun v => { m with startTime := ⟨⟨v⟩⟩ }) m 1 (by omega) (fun _ _ => rfl) v.toBitVec p rest
  | endTime v => exact step_varint DRec.field (fun v => { m with endTime := ⟨⟨v⟩⟩ }) m 2 (by omega) (fun _ _ => rfl) v.toBitVec p rest
  | observations v => exact step_varint DRec.field (fun v => { m with observations := ⟨⟨v⟩⟩ }) m 3 (by omega) (fun _ _ => rfl) v.toBitVec p rest
  | distribution b => exact step_bytes DRec.field (fun v => { m with distribution := v }) m 4 (by omega) (fun _ _ => rfl) b p rest hl
  | kind b => exact step_bytes DRec.field (fun v => { m with kind := v }) m 5 (by omega) (fun _ _ => rfl) b p rest hl
  | min x => exact step_fixed DRec.field (fun v => { m with min := v }) m 6 (by omega) (fun _ _ => rfl) x p rest
  | max x => exact step_fixed DRec.field (fun v => { m with max := v }) m 7 (by omega) (fun _ _ => rfl) x p rest
  | minId b => exact step_bytes DRec.field (fun v => { m with minId := v }) m 8 (by omega) (fun _ _ => rfl) b p rest hl
  | maxId b => exact step_bytes DRec.field (fun v => { m with maxId := v }) m 9 (by omega) (fun _ _ => rfl) b p rest hl
  | merged v => exact step_varint DRec.field (fun v => { m with merged := ⟨⟨v⟩⟩ }) m 10 (by omega) (fun _ _ => rfl) v.toBitVec p rest
  | other n b =>
    refine reaches_unknown DRec.field p b rest n m hok.2 (fun k d i => ?_) hl
    have := hok.1
    unfold DRec.field
    repeat rw [if_neg (by omega)]

private theorem meta_step (m : Meta) (f : MField) (hok : f.Ok) (p rest : Bytes) (hl : (p ++ (f.wire ++ rest)).length < 2 ^ 62) :
    Reaches Meta.field (p ++ (f.wire ++ rest)) m p.length (f.set m) (p ++ f.wire).length := by
  cases f with
  | size v => exact step_varint Meta.field (fun v => { m with size := ⟨⟨v⟩⟩ }) m 1 (by omega) (fun _ _ => rfl) v.toBitVec p rest
  | head v => exact step_varint Meta.field (fun v => { m with head := ⟨⟨v⟩⟩ }) m 2 (by omega) (fun _ _ => rfl) v.toBitVec p rest
  | start v => exact step_varint Meta.field (fun v => { m with start := ⟨⟨v⟩⟩ }) m 3 (by omega) (fun _ _ => rfl) v.toBitVec p rest
  | stop v => exact step_varint Meta.field (fun v => { m with stop := ⟨⟨v⟩⟩ }) m 4 (by omega) (fun _ _ => rfl) v.toBitVec p rest
  | smallestEnd v => exact step_varint Meta.field (fun v => { m with smallestEnd := ⟨⟨v⟩⟩ }) m 5 (by omega) (fun _ _ => rfl) v.toBitVec p rest
  | other n b =>
    refine reaches_unknown Meta.field p b rest n m hok.2 (fun k d i => ?_) hl
    have := hok.1
    unfold Meta.field
    repeat rw [if_neg (by omega)]

private theorem fold_reaches {φ : Type} (field : σ → Int → Nat → Bytes → Int → Option (Outcome (σ × Int))) (wire : φ → Bytes) (set : σ → φ → σ) (ok : φ → Prop)
    (step : ∀ m f, ok f → ∀ p rest, (p ++ (wire f ++ rest)).length < 2 ^ 62 → Reaches field (p ++ (wire f ++ rest)) m p.length (set m f) (p ++ wire f).length)
    (fs : List φ) (hok : ∀ f ∈ fs, ok f) : ∀ (p : Bytes) (m : σ), (p ++ (fs.map wire).flatten).length < 2 ^ 62 →
    Reaches field (p ++ (fs.map wire).flatten) m p.length (fs.foldl set m) (p ++ (fs.map wire).flatten).length := by
  induction fs with
  | nil => intro p m _; simpa using Reaches.refl
  | cons f fs ih =>
    intro p m hl
    simp only [List.map_cons, List.flatten_cons, List.foldl_cons] at hl ⊢
    have r1 := step m f (hok f List.mem_cons_self) p (fs.map wire).flatten hl
    have r2 := ih (fun g hg => hok g (List.mem_cons_of_mem _ hg)) (p ++ wire f) (set m f) (by rw [List.append_assoc]; exact hl)
    rw [List.append_assoc] at r2
    exact r1.trans r2

/-- **C66.** A message made of any fields of a record in any order, with repetitions, and with any number of fields of other numbers between them (of every kind, groups nested to any
depth), decodes to what the fields say, one after the other: the last one of a kind wins, and the unknown ones mean nothing. -/
theorem C66_record (m : DRec) (fs : List RField) (hok : ∀ f ∈ fs, f.Ok) (hl : (RField.message fs).length < 2 ^ 62) :
    DRec.decodeInto m (RField.message fs) = .ok (fs.foldl RField.set m) := by
  unfold DRec.decodeInto
  apply reaches_end _ _ _ _ 0 _ (by omega)
  have := fold_reaches DRec.field RField.wire RField.set RField.Ok record_step fs hok [] m hl
  exact this

/-- C66 for the metadata of data files. -/
theorem C66_meta (fs : List MField) (hok : ∀ f ∈ fs, f.Ok) (hl : (MField.message fs).length < 2 ^ 62) :
    Meta.decode (MField.message fs) = .ok (fs.foldl MField.set {}) := by
  unfold Meta.decode
  apply reaches_end _ _ _ _ 0 _ (by omega)
  have := fold_reaches Meta.field MField.wire MField.set MField.Ok meta_step fs hok [] {} hl
  exact this

/-- Is the field one of the record's own? -/
def RField.known : RField → Bool
  | .other _ _ => false
  | _ => true

/-- C66, in other words: a decoder that does not know some fields reads the same record as if they were not there. -/
theorem C66_unknown (m : DRec) (fs : List RField) (hok : ∀ f ∈ fs, f.Ok) (hl : (RField.message fs).length < 2 ^ 62) :
    DRec.decodeInto m (RField.message fs) = DRec.decodeInto m (RField.message (fs.filter RField.known)) := by
  have hlen : (RField.message (fs.filter RField.known)).length ≤ (RField.message fs).length := by
    clear hok hl
    induction fs with
    | nil => exact Nat.le_refl _
    | cons f fs ih =>
      have e : RField.message (f :: fs) = f.wire ++ RField.message fs := rfl
      rw [e, List.length_append]
      cases hk : f.known with
      | true =>
        rw [List.filter_cons_of_pos hk]
        have e' : RField.message (f :: fs.filter RField.known) = f.wire ++ RField.message (fs.filter RField.known) := rfl
        rw [e', List.length_append]
        omega
      | false =>
        rw [List.filter_cons_of_neg (by simp [hk])]
        omega
  rw [C66_record m fs hok hl, C66_record m _ (fun f hf => hok f (List.mem_filter.mp hf).1) (by omega)]
  congr 1
  clear hok hl hlen
  induction fs generalizing m with
  | nil => rfl
  | cons f fs ih =>
    cases hk : f.known with
    | true => rw [List.filter_cons_of_pos hk, List.foldl_cons, List.foldl_cons, ih]
    | false =>
      rw [List.filter_cons_of_neg (by simp [hk]), List.foldl_cons, ih]
      cases f <;> first | rfl | cases hk

/-- Test: a message in another order, with a repeated field and an unknown group that holds a fixed32 field and another group. -/
def exMessage : List RField :=
  [.merged 3, .other 17 (wireTag 17 3 ++ ((wireTag 2 5 ++ [1, 2, 3, 4]) ++ ((wireTag 300 3 ++ ([] ++ wireTag 300 4)) ++ []) ++ wireTag 17 4)), .endTime 9,
    .other 11 (wireTag 11 5 ++ [9, 9, 9, 9]), .endTime 10, .kind [116]]

theorem exMessage_ok : ∀ f ∈ exMessage, f.Ok := by
  intro f hf
  simp only [exMessage, List.mem_cons, List.not_mem_nil, or_false] at hf
  rcases hf with rfl | rfl | rfl | rfl | rfl | rfl
  · trivial
  · refine ⟨by omega, ?_⟩
    exact .group 17 _ (by omega) (.cons 2 _ _ (.fixed32 2 [1, 2, 3, 4] (by omega) rfl) (.cons 300 _ _ (.group 300 [] (by omega) .nil) .nil))
  · trivial
  · exact ⟨by omega, .fixed32 11 [9, 9, 9, 9] (by omega) rfl⟩
  · trivial
  · trivial

theorem C66_example : DRec.decode (RField.message exMessage) = .ok { endTime := 10, kind := [116], merged := 3 } ∧ (RField.message exMessage).length < 2 ^ 62 := by
  have h : (RField.message exMessage).length < 2 ^ 62 := by
    simp [RField.message, exMessage, RField.wire, wireTag, leb]
  exact ⟨C66_record {} exMessage exMessage_ok h, h⟩

end Rothko
