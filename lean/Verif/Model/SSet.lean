import Verif.Model.Bytes
/-!
# Sorted sets of strings (database/files/internal/sset/set.go)
-/
namespace Rothko

/-- `<` on Go strings: byte by byte. (set.go:23-52.) -/
def strLt : Bytes → Bytes → Bool
  | _, [] => false
  | [], _ :: _ => true
  | a :: l, b :: m => a < b || (a == b && strLt l m)

/-- `Set` (set.go:6-9). The map is its membership function. -/
structure SSet where
  set : Bytes → Bool
  order : List Bytes

/-- `New` (set.go:12-17); the capacity only affects allocation. -/
def SSet.new : SSet := ⟨fun _ => false, []⟩

/-- `Len` (set.go:20). -/
def SSet.len (s : SSet) : Nat := s.order.length

/-- `Has` (set.go:23-26). -/
def SSet.has (s : SSet) (x : Bytes) : Bool := s.set x

/-- The search loop of `Add` (set.go:38-46). An index out of range would panic in Go; here it counts as not less, and the search stays within `[i, j)`, so it does not occur. -/
def searchFrom (order : List Bytes) (x : Bytes) (i j : Nat) : Nat :=
  if _h : i < j then
    if (match order[(i + j) / 2]? with | some y => strLt y x | none => false) then searchFrom order x ((i + j) / 2 + 1) j
    else searchFrom order x i ((i + j) / 2)
  else i
termination_by j - i
decreasing_by all_goals omega

/-- `append`, overlapping `copy` and store (set.go:49-51). -/
def insertAt (order : List Bytes) (i : Nat) (x : Bytes) : List Bytes :=
  let a := order ++ [x]
  let b := a.take (i + 1) ++ ((a.drop i).take (a.length - (i + 1)))
  b.set i x

/-- `Add` (set.go:28-52). -/
def SSet.add (s : SSet) (x : Bytes) : SSet :=
  if s.set x then s
  else ⟨fun y => if y = x then true else s.set y, insertAt s.order (searchFrom s.order x 0 s.order.length) x⟩

/-- `Copy` (set.go:55-65). -/
def SSet.copy (s : SSet) : SSet :=
  s.order.foldl (fun out key => ⟨fun y => if y = key then true else out.set y, out.order ++ [key]⟩) .new

/-- `Merge` (set.go:68-75). -/
def SSet.merge (s o : SSet) : SSet := o.order.foldl SSet.add s

/-- `Iter` (set.go:78-84): the callback has state `σ`; the keys it was called with. -/
def iterLoop {σ : Type} (cb : σ → Bytes → σ × Bool) : List Bytes → σ → List Bytes → σ × List Bytes
  | [], st, seen => (st, seen)
  | key :: rest, st, seen =>
    let r := cb st key
    if r.2 then iterLoop cb rest r.1 (seen ++ [key]) else (r.1, seen ++ [key])

/-- set.go:78-84: `Iter`, with a callback that has state `σ`. -/
def SSet.iter {σ : Type} (s : SSet) (cb : σ → Bytes → σ × Bool) (st : σ) : σ × List Bytes := iterLoop cb s.order st []

/-- A program using several sets, which live in a heap and are named by handles. Each method call changes only its receiver: `New` and `Copy` allocate. (set.go:12-84.) -/
inductive SOp
  | new
  | add (h : Nat) (x : Bytes)
  | copy (h : Nat)
  | merge (h g : Nat)

/-- set.go:12-84: one call. -/
def SOp.run (heap : List SSet) : SOp → List SSet
  | .new => heap ++ [.new]
  | .add h x => match heap[h]? with | some s => heap.set h (s.add x) | none => heap
  | .copy h => match heap[h]? with | some s => heap ++ [s.copy] | none => heap
  | .merge h g => match heap[h]?, heap[g]? with | some s, some o => heap.set h (s.merge o) | _, _ => heap

end Rothko
