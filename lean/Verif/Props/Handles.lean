import Verif.Props.Calls
import Verif.Spec.Handles
/-!
# C96: the calls are careful with handles
-/
namespace Rothko

variable {α : Type}

theorem newMetricP_careful (cfg : Cfg) (names : Option (List Int)) (k : Except MErr (Int × Int) → FsProg α) (h : ∀ x, (k x).Careful []) : (newMetricP cfg names k).Careful [] := by
  unfold newMetricP
  cases names with
  | none => exact h _
  | some names =>
    dsimp only
    split
    · exact h _
    · refine ⟨by decide, ?_, fun e => h _, fun g => ?_⟩
      · intro x hx; cases hx
      refine ⟨List.Mem.head _, ?_⟩
      rw [List.erase_cons_head]
      exact h _

theorem acquireLastP_careful (cfg : Cfg) (first : Int) (k : Except MErr (FsHandle × Int × Int) → FsProg α) (he : ∀ e, (k (.error e)).Careful []) (hk : ∀ h head l, (k (.ok (h, head, l))).Careful [(l, h)])
    (fuel : Nat) : ∀ last : Int, (acquireLastP cfg first k fuel last).Careful [] := by
  induction fuel with
  | zero => intro last; exact he _
  | succ fuel ih =>
    intro last
    unfold acquireLastP
    refine ⟨by decide, ?_, fun e => he _, fun g => ⟨⟨last, List.Mem.head _⟩, fun f => ?_⟩⟩
    · intro x hx; cases hx
    dsimp only
    cases f.headPointer with
    | error e =>
      refine ⟨List.Mem.head _, ?_⟩
      rw [List.erase_cons_head]
      exact he _
    | ok head =>
      dsimp only
      split
      · refine ⟨List.Mem.head _, ?_⟩
        rw [List.erase_cons_head]
        exact ih (last - 1)
      · exact hk g head last

theorem releaseAllP_careful (p : FsProg α) (hp : p.Careful []) (held : List (Int × FsHandle)) : (releaseAllP p held).Careful held := by
  induction held with
  | nil => exact hp
  | cons a l ih =>
    refine ⟨List.Mem.head _, ?_⟩
    rw [List.erase_cons_head]
    exact ih

theorem storeP_careful (h : FsHandle) (head : Int) (v : Val) (held : List (Int × FsHandle)) (k : WRes → FsProg α) (hk : ∀ r, (k r).Careful []) (hm : ∃ idx, (idx, h) ∈ held) :
    (storeP h head v held k).Careful held :=
  ⟨hm, fun _ => ⟨hm, releaseAllP_careful _ (hk _) held⟩⟩

theorem numCases_all {β : Type} (P : β → Prop) (n : Option Nat) (a b : β) (c : Nat → β) (ha : P a) (hb : P b) (hc : ∀ n, P (c n)) : P (numCases n a b c) := by
  unfold numCases
  split
  · exact ha
  · exact hb
  · exact hc _

theorem rotateP_careful (cfg : Cfg) (last : Int) (h : FsHandle) (v : Val) (k : WRes → FsProg α) (hk : ∀ r, (k r).Careful []) : (rotateP cfg last h v k).Careful [(last, h)] := by
  rw [rotateP_cases]
  refine ⟨Nat.lt_succ_self 1, ?_, fun e => releaseAllP_careful _ (hk _) _, fun g => ?_⟩
  · intro x hx
    rw [List.mem_singleton] at hx
    subst hx
    show last ≠ last + 1
    omega
  · dsimp only
    refine numCases_all (fun p : FsProg α => p.Careful [(last + 1, g), (last, h)]) _ _ _ _ (releaseAllP_careful _ (hk _) _) (releaseAllP_careful _ (hk _) _) (fun n => ?_)
    split
    · exact releaseAllP_careful _ (hk _) _
    · exact storeP_careful _ _ _ _ _ hk ⟨_, List.Mem.head _⟩

theorem writeP_careful (cfg : Cfg) (first last : Int) (v : Val) (k : WRes → FsProg α) (hk : ∀ r, (k r).Careful []) : (writeP cfg first last v k).Careful [] := by
  rw [writeP_found]
  refine acquireLastP_careful cfg first _ (fun e => hk _) (fun h head l => ?_) _ last
  unfold writeFound
  refine ⟨⟨l, List.Mem.head _⟩, fun f => ?_⟩
  dsimp only
  split
  · exact releaseAllP_careful _ (hk _) _
  · refine numCases_all (fun p : FsProg α => p.Careful [(l, h)]) _ _ _ _ (releaseAllP_careful _ (hk _) _) (releaseAllP_careful _ (hk _) _) (fun n => ?_)
    split
    · split
      · exact releaseAllP_careful _ (hk _) _
      · split
        · rename_i hc
          refine ⟨?_, rotateP_careful cfg l h v k hk⟩
          intro x hx
          rw [List.mem_singleton] at hx
          subst hx
          show l ≠ first
          omega
        · exact rotateP_careful cfg l h v k hk
    · exact storeP_careful _ _ _ _ _ hk ⟨_, List.Mem.head _⟩

theorem readP_careful {σ : Type} (cfg : Cfg) (bound : Int64) (cb : σ → Val → σ × Cb) (k : σ × Option MErr → FsProg α) (hk : ∀ r, (k r).Careful []) (fuel : Nat) :
    ∀ (num : Int) (st : σ), (readP cfg bound cb k fuel num st).Careful [] := by
  induction fuel with
  | zero => intro num st; exact hk _
  | succ fuel ih =>
    intro num st
    unfold readP
    refine ⟨by decide, ?_, fun e => hk _, fun g => ⟨⟨num, List.Mem.head _⟩, fun f => ?_⟩⟩
    · intro x hx; cases hx
    dsimp only
    rcases readFile bound cb f st with ⟨st', c⟩
    cases c with
    | more =>
      refine ⟨List.Mem.head _, ?_⟩
      rw [List.erase_cons_head]
      exact ih _ _
    | stop =>
      refine ⟨List.Mem.head _, ?_⟩
      rw [List.erase_cons_head]
      exact hk _
    | fail e =>
      refine ⟨List.Mem.head _, ?_⟩
      rw [List.erase_cons_head]
      exact hk _

/-- **C96** (careful). Every call on a metric, on every path through it and whatever fails on the way, is careful with handles: what it acquires it releases exactly once, under the path it was acquired for, it uses a handle only in
between, it never acquires a path twice, and it never holds more than two handles. -/
theorem C96_careful (o : DbCall) (names : Option (List Int)) : (dbCalls.body o names).Careful [] := by
  cases o with
  | write cfg v =>
    unfold dbCalls
    dsimp only
    first | unfold dbWriteP | unfold dbQueryP
    refine newMetricP_careful cfg names _ (fun x => ?_)
    rcases x with e | ⟨first, last⟩
    · rfl
    · exact writeP_careful cfg first last v _ (fun r => rfl)
  | query cfg b cb =>
    unfold dbCalls
    dsimp only
    first | unfold dbWriteP | unfold dbQueryP
    refine newMetricP_careful cfg names _ (fun x => ?_)
    rcases x with e | ⟨first, last⟩
    · rfl
    · exact readP_careful cfg b _ (fun r => .done (DbRes.query r.1 r.2)) (fun r => rfl) _ last []
  | latest cfg =>
    unfold dbCalls
    dsimp only
    first | unfold dbWriteP | unfold dbQueryP
    refine newMetricP_careful cfg names _ (fun x => ?_)
    rcases x with e | ⟨first, last⟩
    · rfl
    · exact readP_careful cfg _ _ (fun r => .done (DbRes.latest r.1 r.2)) (fun r => rfl) _ last none

end Rothko
