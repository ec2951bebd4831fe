import Verif.Model.Float
/-!
# Type assertions on configuration values (internal/typeassert/asserter.go)
-/
namespace Rothko

/-- An `interface{}` out of a parsed document. `other` is any type without an accessor. A Go map has each key once. (asserter.go:13.) -/
inductive CVal
  | nil
  | map (m : List (String × CVal))
  | arr (l : List CVal)
  | int (n : Int64)
  | int64 (n : Int64)
  | str (s : String)
  | bool (b : Bool)
  | float (f : F64)
  | other (tag : Nat)

/-- The accessors `Int`, `Int64`, `String`, `Bool` and `Float64`. (asserter.go:95-152.) -/
inductive CKind
  | int | int64 | str | bool | float

/-- The zero of the accessor. (asserter.go:96-98,108-110,120-122,132-134,144-146.) -/
def CKind.zero : CKind → CVal
  | .int => .int 0
  | .int64 => .int64 0
  | .str => .str ""
  | .bool => .bool false
  | .float => .float 0#64

/-- The type assertion of the accessor: `ok`. (asserter.go:99,111,123,135,147.) -/
def CKind.is : CKind → CVal → Bool
  | .int, .int _ => true
  | .int64, .int64 _ => true
  | .str, .str _ => true
  | .bool, .bool _ => true
  | .float, .float _ => true
  | _, _ => false

/-- `m[index]`: nil if there is none. (asserter.go:66.) -/
def CVal.at (m : List (String × CVal)) (k : String) : CVal := match m.lookup k with | some v => v | none => .nil

/-- `Asserter` (asserter.go:12-16): the value. The error is shared by all that come from one `A` and is in `CGroup`. The path is only for messages. -/
structure CGroup where
  err : Bool := false
  handles : List CVal

/-- `A` (asserter.go:19-25). -/
def CGroup.new (x : CVal) : CGroup := { handles := [x] }

/-- A call on a handle. (asserter.go:48-152.) -/
inductive AssOp
  | index (h : Nat) (k : String)
  | nth (h : Nat) (n : Int)
  | get (h : Nat) (k : CKind)

/-- What a call gives: a new handle (the last), a value, or a panic. (asserter.go:48-152.) -/
inductive CRes
  | handle
  | val (v : CVal)
  | panics

/-- `I` (asserter.go:48-67), `N` (70-92) and the accessors (95-152). A call on a handle that does not exist does not occur; here it panics. -/
def CGroup.call (g : CGroup) : AssOp → CRes × CGroup
  | .index h k =>
    match g.handles[h]? with
    | none => (.panics, g)
    | some x =>
      if g.err then (.handle, { g with handles := g.handles ++ [x] })
      else match x with
        | .nil => (.handle, { g with handles := g.handles ++ [.nil] })
        | .map m => (.handle, { g with handles := g.handles ++ [CVal.at m k] })
        | x => (.handle, { err := true, handles := g.handles ++ [x] })
  | .nth h n =>
    match g.handles[h]? with
    | none => (.panics, g)
    | some x =>
      if g.err then (.handle, { g with handles := g.handles ++ [x] })
      else match x with
        | .nil => (.handle, { g with handles := g.handles ++ [.nil] })
        | .arr l =>
          if n ≥ l.length then (.handle, { err := true, handles := g.handles ++ [x] })
          else if n < 0 then (.panics, g) -- an index out of range
          else match l[n.toNat]? with
            | some v => (.handle, { g with handles := g.handles ++ [v] })
            | none => (.panics, g)
        | x => (.handle, { err := true, handles := g.handles ++ [x] })
  | .get h k =>
    match g.handles[h]? with
    | none => (.panics, g)
    | some x =>
      if g.err then (.val k.zero, g)
      else match x with
        | .nil => (.val k.zero, g)
        | x => if k.is x then (.val x, g) else (.val k.zero, { g with err := true })

/-- Calls in a row with their results. It stops at a panic. (asserter.go:29-152.) -/
def CGroup.run (g : CGroup) : List AssOp → List CRes × CGroup
  | [] => ([], g)
  | op :: ops =>
    match g.call op with
    | (.panics, g) => ([.panics], g)
    | (r, g) => let (rs, g) := g.run ops; (r :: rs, g)

end Rothko
