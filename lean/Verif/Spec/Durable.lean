import Verif.Spec.History
import Verif.Model.Crash
/-!
Histories of one metric in which the process may die in the middle of any write, any number of times.
-/
namespace Rothko

/-- An operation of such a history: one that completes, or a write that dies after `k` complete chunks and `j` bytes of the next one, followed by a restart. -/
inductive DOp
  | op (o : Op)
  | crash (cfg : Cfg) (v : Val) (k j : Nat)

/-- The state after the operation. -/
def DOp.run (s : Store) : DOp → Store
  | .op o => (o.run (s, [])).1
  | .crash cfg v k j => crashWrite cfg v k j s

/-- The value given to the operation, if it is a write, whether it completes or not. -/
def DOp.given : DOp → List Val
  | .op (.write _ v) => [v]
  | .crash _ v _ _ => [v]
  | _ => []

/-- The file limit of the operation, if it is a write. -/
def DOp.limit : DOp → Option Int
  | .op o => o.limit
  | .crash cfg _ _ _ => some cfg.max

/-- What the slot at which the write dies read as before the write. -/
def tornBefore (cfg : Cfg) (v : Val) (k : Nat) (s : Store) : Option (Except FErr Rec) :=
  match newMetric cfg false s with
  | (.error _, _) => none
  | (.ok (first, last), s) =>
    match writePrep cfg first last v s with
    | (.ret _, _, _) => none
    | (.go h head _, _, s) => some ((s.file h).record (head + k))

/-- The torn slot is not a record by accident: if the half written chunk reads as a record, then as the new chunk, or as what was there before. -/
def TornOk (cfg : Cfg) (v : Val) (k j : Nat) (s : Store) : Prop :=
  ∀ r r', tornSlot cfg v k j s = some (.ok r', r) → r' = r ∨ tornBefore cfg v k s = some (.ok r')

/-- Usable options, and no accidental checksum of a half written chunk (nothing is asked of a crash between two chunks). Writes may be of any size and in any order of time. -/
def DOp.Ok (s : Store) : DOp → Prop
  | .op (.write cfg _) => GeoOk cfg.size cfg.cap
  | .op (.query cfg _ _) => GeoOk cfg.size cfg.cap
  | .op (.latest cfg) => GeoOk cfg.size cfg.cap
  | .op .restart => True
  | .crash cfg v k j => GeoOk cfg.size cfg.cap ∧ (j = 0 ∨ TornOk cfg v k j s)

/-- The restriction under which acknowledged writes are safe as well: values fit an empty file, and the writes that die are of a single chunk (at most 55 bytes) and have
stored at least one byte. -/
def DOp.Small : DOp → Prop
  | .op (.write cfg v) => needs cfg.size v.data.length ≤ cfg.cap
  | .crash _ v k j => v.data.length ≤ 55 ∧ (1 ≤ k ∨ 1 ≤ j)
  | _ => True

/-- Run a history. -/
def runD : List DOp → Store → Store
  | [], s => s
  | o :: ops, s => runD ops (o.run s)

/-- Every operation is ok in the state it meets. -/
def OkD : List DOp → Store → Prop
  | [], _ => True
  | o :: ops, s => o.Ok s ∧ OkD ops (o.run s)

/-- The values given to the writes of a history, newest first. -/
def givenD : List DOp → List Val
  | [] => []
  | o :: ops => givenD ops ++ o.given

/-- A query for everything given so far shows exactly these values. -/
def Shows (s : Store) (given vs : List Val) : Prop :=
  ∀ (cfg : Cfg) (bound : Int64), 0 < bound → (∀ w ∈ given, w.stop < bound) → (queryList cfg bound (fun _ _ => .more) s).1 = (vs, none)

/-- The states, and the values given to writes, of all histories with crashes. -/
def Life (s : Store) (given : List Val) : Prop :=
  ∃ (de : Bool) (hit : Nat → Bool) (ops : List DOp), OkD ops (Store.fresh de hit) ∧ runD ops (Store.fresh de hit) = s ∧ givenD ops = given

/-- As `Life`, where the writes are small in the above sense. -/
def LifeSmall (s : Store) (given : List Val) : Prop :=
  ∃ (de : Bool) (hit : Nat → Bool) (ops : List DOp), OkD ops (Store.fresh de hit) ∧ (∀ o ∈ ops, o.Small) ∧ runD ops (Store.fresh de hit) = s ∧ givenD ops = given

/-- What opening the data file says when a write has died between the payload of the metadata and its header. -/
def tornMeta (cfg : Cfg) (v : Val) (s : Store) : Option (Except FErr File) :=
  match newMetric cfg false s with
  | (.error _, _) => none
  | (.ok (first, last), s) =>
    match writePrep cfg first last v s with
    | (.ret _, _, _) => none
    | (.go h head _, _, s) => some (openFile (crashMetaStore (s.file h) head v).data)

end Rothko
