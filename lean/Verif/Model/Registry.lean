/-!
# The registry (registry/registry.go)
-/
namespace Rothko

/-- The three kinds of makers. (registry.go:19-21.) -/
inductive RKind
  | listener | database | distribution
deriving DecidableEq

/-- `Registry` (registry.go:16-22). A maker is anything of type `M`; a nil map has nothing. The mutex makes every call atomic. -/
structure Registry (M : Type) where
  listeners : List (String × M) := []
  databases : List (String × M) := []
  distributions : List (String × M) := []

/-- Assignment to a Go map. (registry.go:31,58,85.) -/
def mapPut {M : Type} (m : List (String × M)) (k : String) (v : M) : List (String × M) :=
  match m with
  | [] => [(k, v)]
  | (k', v') :: m => if k' = k then (k, v) :: m else (k', v') :: mapPut m k v

/-- `RegisterListener` (registry.go:26-33), `RegisterDatabase` (53-60) and `RegisterDistribution` (80-87). -/
def Registry.register {M : Type} (r : Registry M) (kind : RKind) (name : String) (maker : M) : Registry M :=
  match kind with
  | .listener => { r with listeners := mapPut r.listeners name maker }
  | .database => { r with databases := mapPut r.databases name maker }
  | .distribution => { r with distributions := mapPut r.distributions name maker }

/-- `NewListener` (registry.go:37-49), `NewDatabase` (64-76) and `NewDistribution` (92-104): the maker that is used; `none` is the error. -/
def Registry.maker {M : Type} (r : Registry M) (kind : RKind) (name : String) : Option M :=
  match kind with
  | .listener => r.listeners.lookup name
  | .database => r.databases.lookup name
  | .distribution => r.distributions.lookup name

end Rothko
