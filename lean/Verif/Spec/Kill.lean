import Verif.Model.Kill
import Verif.Props.Calls
import Verif.Spec.Durable
import Verif.Spec.Handles
/-!
Processes that are killed, one after the other, on the same files.
-/
namespace Rothko

/-- The value given to the call, if it is a write. -/
def DbCall.given : DbCall → List Val
  | .write _ v => [v]
  | _ => []

/-- The file limit of the call, if it is a write. -/
def DbCall.limit : DbCall → Option Int
  | .write cfg _ => some cfg.max
  | _ => none

/-- Usable options (the value may be of any size). -/
def DbCall.Usable : DbCall → Prop
  | .write cfg _ => GeoOk cfg.size cfg.cap
  | .query cfg _ _ => GeoOk cfg.size cfg.cap
  | .latest cfg => GeoOk cfg.size cfg.cap

/-- A usable call that does not remove data files. -/
def DbCall.Unlimited (o : DbCall) : Prop := o.Usable ∧ ∀ m, o.limit = some m → m ≤ 0

/-- The slot at which the storing of a value is cut is not a record by accident: if it reads as a record, then as the new chunk, or as what was there before. (Nothing is asked if it is cut between two chunks.) -/
def TornFine (s : Store) (h : FsHandle) (head : Int) (v : Val) (a b : Nat) : Prop :=
  b = 0 ∨ ∀ r r', (chunkList v h.geo.size)[a]? = some r → ((s.tornAt h head v a b).file h.geo).record (head + a) = .ok r' → r' = r ∨ (s.file h.geo).record (head + a) = .ok r'

/-- The places about which something is claimed: not between the two halves of the metadata (C24), not while a data file is made (C61), and no accidental records. -/
def FsProg.CutOk {α : Type} (p : FsProg α) (pt : KillPoint) (s : Store) : Prop :=
  match pt, p with
  | .chunk a b, .store h head v _ _ => TornFine s h head v a b
  | .metadata, .store _ _ _ _ _ => False
  | .create _, .acquire _ _ false _ => False
  | _, _ => True

/-- This for all metrics at once. -/
def FsSys.CutsOk (s : FsSys DbCall DbRes) (pt : Bytes → KillPoint) : Prop := ∀ m o p, s.atWork m = some (o, p) → p.CutOk (pt m) (s.g.fs m)

/-- The values given to the writes of a metric. -/
def progGiven (m : Bytes) (progs : List (List (Bytes × DbCall))) : List Val := (progs.flatten.filter (fun c => c.1 = m)).flatMap (fun c => c.2.given)

/-- `Lives d Q fs fs' given`: on the files `fs` processes ran one after the other, each with any number of goroutines whose calls are all of kind `Q`, and each was killed; `fs'` is what they left, and `given` what their writes
were given. A process that ends by itself is one that is killed when nothing is at work. -/
inductive Lives (d : Bytes) (Q : DbCall → Prop) (fs : Bytes → Store) : (Bytes → Store) → (Bytes → List Val) → Prop
  | nil : Lives d Q fs fs (fun _ => [])
  | kill {fs1 : Bytes → Store} {given : Bytes → List Val} {n : Nat} {progs : List (List (Bytes × DbCall))} {s : FsSys DbCall DbRes} (pt : Bytes → KillPoint) : Lives d Q fs fs1 given → n < 2 ^ 63 →
      (∀ p ∈ progs, ∀ c ∈ p, Q c.2) → FsSys.Reach dbCalls (dbPath d) n progs fs1 s → s.CutsOk pt → Lives d Q fs (s.killed pt) (fun m => progGiven m progs ++ given m)

/-- A process started on these files shows exactly these values for the metric, when it is asked for everything given so far. -/
def ShowsFiles (s : Store) (given vs : List Val) : Prop := ∀ hit, Shows { s.reopen with hit } given vs

end Rothko
