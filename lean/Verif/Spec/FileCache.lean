import Verif.Model.FileCache
/-!
# Use of the file cache under exclusive access per path
-/
namespace Rothko

/-- A file cache together with the handles its users hold, the handles that were closed, and all that were ever opened. -/
structure FWorld where
  fch : FileCache
  inUse : List FHandle
  closed : List FHandle
  opened : List FHandle

/-- Calls. `acquire path ok`: if the file has to be opened, `ok` says whether that succeeds. -/
inductive FOp
  | acquire (path : Bytes) (ok : Bool)
  | release (f : FHandle)
  | evict (path : Bytes)
  | close

/-- What a user may call: a path is acquired or evicted only while nobody holds a handle of it (the callers hold the lock of the path's metric), and a handle is released, under its own path, by the one who holds it. -/
def FOp.Allowed (w : FWorld) : FOp → Prop
  | .acquire path _ => ∀ f ∈ w.inUse, f.path ≠ path
  | .release f => f ∈ w.inUse
  | .evict path => ∀ f ∈ w.inUse, f.path ≠ path
  | .close => True

/-- The handle a new open call gives: it has a new identity. -/
def FWorld.fresh (w : FWorld) (path : Bytes) (ok : Bool) : Option FHandle := if ok then some ⟨w.opened.length, path⟩ else none

/-- One call; `none` is a panic. The first component is the handle returned by an acquire. -/
def FWorld.step (w : FWorld) : FOp → Option (Option FHandle × FWorld)
  | .acquire path ok =>
    match w.fch.acquire path (w.fresh path ok) with
    | none => none
    | some ((r, hit), fch) =>
      some (r, { w with fch, inUse := r.toList ++ w.inUse, opened := (if hit then [] else r.toList) ++ w.opened })
  | .release f =>
    match w.fch.release f.path f with
    | none => none
    | some (ev, fch) => some (none, { w with fch, inUse := w.inUse.erase f, closed := ev.toList ++ w.closed })
  | .evict path =>
    match w.fch.evict path with
    | none => none
    | some (r, fch) => some (none, { w with fch, closed := r.toList ++ w.closed })
  | .close => some (none, { w with fch := w.fch.close.2, closed := w.fch.close.1 ++ w.closed })

/-- The worlds that can arise. -/
inductive FReach (handles : Nat) : FWorld → Prop
  | init : FReach handles ⟨.new handles, [], [], []⟩
  | step {w w' : FWorld} {op : FOp} {r : Option FHandle} : FReach handles w → op.Allowed w → w.step op = some (r, w') → FReach handles w'

end Rothko
