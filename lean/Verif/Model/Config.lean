/-
Loading a configuration: /repo/config/load.go and config.go.

The document is what toml.Unmarshal fills in (load.go:14-38; decoding itself is not modelled): maps are lists of pairs with distinct keys. Go's `range` visits a map in any order: `order` is
the order in which the listeners' map is visited. `V` is an undecoded configuration value (`interface{}`).
-/
import Verif.Model.Bytes

namespace Rothko

/-- config.go:46-51,64-72: the api section (load.go:22-33 has the same fields). -/
structure ApiConf where
  address : Bytes
  origin : Bytes
  key : Bytes
  cert : Bytes
  username : Bytes
  password : Bytes
deriving DecidableEq

/-- load.go:14-34. -/
structure TomlConf (V : Type) where
  duration : Int
  plugins : List Bytes
  listeners : List (Bytes × List V)
  database : List (Bytes × V)
  dist : List (Bytes × V)
  api : ApiConf

/-- config.go:38-43. -/
structure Entity (V : Type) where
  kind : Bytes
  config : V
deriving DecidableEq

/-- config.go:13-22 (without `from`, the document itself). -/
structure Conf (V : Type) where
  duration : Int
  plugins : List Bytes
  listeners : List (Entity V)
  database : Entity V
  dist : Entity V
  api : ApiConf

/-- load.go:36-46: the errors of `Load`. -/
inductive ConfErr
  | database
  | dist
deriving DecidableEq

/-- load.go:40-88. -/
def loadConf {V : Type} (t : TomlConf V) (order : List (Bytes × List V)) : Except ConfErr (Conf V) :=
  if t.database.length ≠ 1 then .error .database
  else if t.dist.length ≠ 1 then .error .dist
  else
    match t.database, t.dist with
    | (dk, dc) :: _, (sk, sc) :: _ =>
      .ok {
        duration := t.duration, plugins := t.plugins, api := t.api
        database := ⟨dk, dc⟩
        dist := ⟨sk, sc⟩
        listeners := order.flatMap (fun kc => kc.2.map (fun c => ⟨kc.1, c⟩)) }
    | _, _ => .error .database

/-- The string "redacted". (config.go:53-60.) -/
def redacted : Bytes := [114, 101, 100, 97, 99, 116, 101, 100]

/-- config.go:53-60, Redact. -/
def ApiConf.redact (a : ApiConf) : ApiConf :=
  { a with username := redacted, password := redacted, key := redacted, cert := redacted }

end Rothko
