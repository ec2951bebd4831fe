import Verif.Model.Cache
/-!
# What is observed of a handle cache
-/
namespace Rothko

/-- A call on the cache. -/
inductive COp (φ : Type)
  | put (f : φ)
  | take (tok : Nat)
  | takeAll (stop : φ → Bool)

/-- A call with what it returned. -/
inductive CEvent (φ : Type)
  | put (f : φ) (tok : Nat) (evicted : Option φ)
  | take (tok : Nat) (res : Option φ)
  | takeAll (fs : List φ)

/-- All calls in order; `none` is a panic. -/
def HCache.run {φ : Type} [Inhabited φ] : List (COp φ) → HCache φ → Option (List (CEvent φ) × HCache φ)
  | [], c => some ([], c)
  | .put f :: ops, c =>
    match c.put f with
    | none => none
    | some ((t, ev), c) => (HCache.run ops c).map (fun r => (.put f t ev :: r.1, r.2))
  | .take t :: ops, c =>
    match c.take t with
    | none => none
    | some (res, c) => (HCache.run ops c).map (fun r => (.take t res :: r.1, r.2))
  | .takeAll stop :: ops, c =>
    let r := c.takeAll stop
    (HCache.run ops r.2).map (fun r' => (.takeAll r.1 :: r'.1, r'.2))

/-- What was put in, with the token it was given. -/
def issued {φ : Type} : List (CEvent φ) → List (Nat × φ)
  | [] => []
  | .put f t _ :: es => (t, f) :: issued es
  | _ :: es => issued es

/-- `outs` are the entries that came back in the events, in order: a `take` of a token gives back the entry of that token; an eviction or `takeAll` gives back
some entry with that file. -/
def CameBack {φ : Type} : List (CEvent φ) → List (Nat × φ) → Prop
  | [], outs => outs = []
  | .put _ _ none :: es, outs => CameBack es outs
  | .put _ _ (some f) :: es, outs => ∃ t outs', outs = (t, f) :: outs' ∧ CameBack es outs'
  | .take _ none :: es, outs => CameBack es outs
  | .take t (some f) :: es, outs => ∃ outs', outs = (t, f) :: outs' ∧ CameBack es outs'
  | .takeAll fs :: es, outs => ∃ l outs', outs = l ++ outs' ∧ l.map Prod.snd = fs ∧ CameBack es outs'

end Rothko
