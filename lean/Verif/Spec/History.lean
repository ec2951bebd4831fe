import Verif.Spec.Query
/-!
Histories of one metric: sequences of writes, queries and restarts, and the values acknowledged in them.
-/
namespace Rothko

/-- Options for which data files can be created and addressed: the record size leaves room for the metadata record (79 always
suffices) and a chunk length fits 16 bits; at least one record; below the overflow limit of `createFile`. -/
def GeoOk (size cap : Nat) : Prop := 79 ≤ size ∧ size ≤ 65559 ∧ 1 ≤ cap ∧ size * cap < 2147483648

/-- The operations of a history. The options may change from one operation to the next (restart with another configuration). -/
inductive Op
  | write (cfg : Cfg) (v : Val)
  | query (cfg : Cfg) (bound : Int64) (cb : List Val → Val → Cb)
  | latest (cfg : Cfg)
  | restart

/-- A query whose callback remembers what it saw. -/
def queryList (cfg : Cfg) (bound : Int64) (cb : List Val → Val → Cb) (s : Store) : (List Val × Option MErr) × Store :=
  dbQuery cfg bound (fun seen v => (seen ++ [v], cb seen v)) [] s

/-- Run one operation; `acc` is the list of acknowledged values, newest first. -/
def Op.run (sa : Store × List Val) : Op → Store × List Val
  | .write cfg v =>
    match dbWrite cfg v sa.1 with
    | (.written, s) => (s, v :: sa.2)
    | (_, s) => (s, sa.2)
  | .query cfg bound cb => ((queryList cfg bound cb sa.1).2, sa.2)
  | .latest cfg => ((dbQueryLatest cfg sa.1).2, sa.2)
  | .restart => (sa.1.reopen, sa.2)

/-- Run a history. -/
def runOps (ops : List Op) (sa : Store × List Val) : Store × List Val := ops.foldl Op.run sa

/-- Usable options, and the value fits an empty file. -/
def Op.Ok : Op → Prop
  | .write cfg v => GeoOk cfg.size cfg.cap ∧ needs cfg.size v.data.length ≤ cfg.cap
  | .query cfg _ _ => GeoOk cfg.size cfg.cap
  | .latest cfg => GeoOk cfg.size cfg.cap
  | .restart => True

/-- A metric without data files; its directory may already exist (because of a metric with a longer name). -/
def Store.fresh (dirExists : Bool) (hit : Nat → Bool) : Store := { Store.empty hit with dirExists }

/-- The states and acknowledged values (newest first) reachable by a history from a metric without data, for some behaviour of the handle cache. -/
def Reach (s : Store) (acc : List Val) : Prop :=
  ∃ (de : Bool) (hit : Nat → Bool) (ops : List Op), (∀ o ∈ ops, o.Ok) ∧ runOps ops (Store.fresh de hit, []) = (s, acc)

/-- The file limit used by an operation, if it is a write. -/
def Op.limit : Op → Option Int
  | .write cfg _ => some cfg.max
  | _ => none

/-- As `Reach`, with the same file limit in all writes. -/
def ReachMax (max : Int) (s : Store) (acc : List Val) : Prop :=
  ∃ (de : Bool) (hit : Nat → Bool) (ops : List Op), (∀ o ∈ ops, o.Ok ∧ (∀ m, o.limit = some m → m = max)) ∧
    runOps ops (Store.fresh de hit, []) = (s, acc)

end Rothko
