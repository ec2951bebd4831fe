import Verif.Model.Calls
import Verif.Model.Crash
/-!
# A process that is killed, with all its goroutines at whatever they are doing

Model/Crash describes what a single write leaves when its process dies. Here the whole process of Model/Calls dies: any number of goroutines, each somewhere in the middle of a call, on any number of metrics. The data files
are shared mappings, so what was stored stays, and the rest of each call does not happen. Each metric on which a call was at work has its own place where the call was cut.

Loss of power is not modelled (pages reach the disk in any order).
-/
namespace Rothko

/-- Where in the present step a call is cut: before or after it (`between`); after `a` complete chunks and `b` bytes of the next one (metric.go:297-303, record.go:62-92); when the chunks and the payload of the
metadata are stored and its header is not (file_helpers.go:40-46); while the data file is made, when it is empty or full of zero bytes (file.go:35-57). -/
inductive KillPoint
  | between
  | chunk (a b : Nat)
  | metadata
  | create (zeros : Bool)
deriving DecidableEq, Repr

variable {α : Type}

/-- The file after `a` complete chunks of `v` and `b` bytes of the next one (metric.go:297-303). -/
def Store.tornAt (s : Store) (h : FsHandle) (head : Int) (v : Val) (a b : Nat) : Store :=
  s.setFile h.geo (crashStore (s.file h.geo) head (chunkList v h.geo.size) a b)

/-- What is left of the files of a metric when the call at work on it is cut there. A place that is not in the present step is the same as `between`. (metric.go:138-495.) -/
def FsProg.cut (p : FsProg α) (pt : KillPoint) (s : Store) : Store :=
  match pt, p with
  | .chunk a b, .store h head v _ _ => s.tornAt h head v a b
  | .metadata, .store h head v _ _ => s.setFile h.geo (crashMetaStore (s.file h.geo) head v)
  | .create zeros, .acquire cfg idx false _ => (s.install (.error .panic, if zeros then (zeroFile cfg.size cfg.cap).data else []) idx).2
  | _, _ => s

/-- The call at work on the metric: one that has the lock of the metric (lock_pool.go:26-52) and has begun. -/
def FsSys.atWork {Op Res : Type} (s : FsSys Op Res) (m : Bytes) : Option (Op × FsProg Res) :=
  s.cl.findSome? (fun c =>
    match c with
    | ⟨(m', o) :: _, .busy p⟩ => if m' = m then some (o, p) else none
    | _ => none)

/-- The file system that the next process finds. (db.go:117-168 on the files left by metric.go:138-495.) -/
def FsSys.killed {Op Res : Type} (s : FsSys Op Res) (pt : Bytes → KillPoint) (m : Bytes) : Store :=
  match s.atWork m with
  | none => s.g.fs m
  | some (_, p) => p.cut (pt m) (s.g.fs m)

end Rothko
