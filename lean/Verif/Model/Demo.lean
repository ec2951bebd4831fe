import Verif.Model.Bytes
/-!
# Adding demo data (demo.go:120-214)

One goroutine makes records and queues them one after the other, waiting for the answer to each on a channel without a buffer; the database's worker, or the end of its `Run`, invokes the callback, which sends on that channel;
if `Queue` gives up, it invokes the callback itself, in the calling goroutine (database/files/db_write.go:27-35). The values observed are not modelled.
-/
namespace Rothko

/-- A record to be queued (demo.go:180-197): metric, start and end. -/
structure DemoJob where
  metric : Bytes
  start : Int
  fin : Int
deriving DecidableEq

/-- The loop over the times of a metric (demo.go:159-160,208), with a bound on the number of its iterations. -/
def demoLoop : Nat → Int → Int → Int → List (Int × Int)
  | 0, _, _, _ => []
  | fuel + 1, now, delta, t0 => if t0 < now then (t0, t0 + delta) :: demoLoop fuel now delta (t0 + delta) else []

/-- The times of the records of a metric, in nanoseconds (demo.go:142-160). -/
def demoTimes (fuel : Nat) (now : Int) : List (Int × Int) :=
  demoLoop fuel now (Int.tdiv (now - (now - 24 * 3600000000000)) 100) (now - 24 * 3600000000000)

/-- All the records in the order in which they are made (demo.go:154-210): `names` are the metrics in the order in which the maps happen to be visited. -/
def demoJobs (fuel : Nat) (now : Int) (names : List Bytes) : List DemoJob := names.flatMap (fun m => (demoTimes fuel now).map (fun t => ⟨m, t.1, t.2⟩))

/-- The metrics: normal and exp with increasing, stable and decreasing (demo.go:126-140,156). -/
def demoNames : List Bytes :=
  (["normal", "exp"].flatMap (fun s => ["increasing", "stable", "decreasing"].map (fun d => s ++ "." ++ d))).map (fun s => s.toUTF8.toList)

/-- Where the goroutine is (demo.go:160-209). -/
inductive DemoPc
  | making
  | queueing (j : DemoJob)
  | calling (j : DemoJob)        -- inside of `Queue`, which gave up: in the callback, sending on the channel (198)
  | receiving (j : DemoJob)      -- demo.go:203
  | returned (err : Bool)
deriving DecidableEq

/-- What has become of the value that is queued (db_write.go:55-59,83-87). -/
inductive DemoSlot
  | empty
  | queued
  | sending (written err : Bool)     -- in the callback, sending on the channel (demo.go:198)
deriving DecidableEq

/-- demo.go:148-160. `drop` is the database's option. `log` has the records answered and whether they were written (not part of the program). -/
structure DemoSys where
  drop : Bool
  cancelled : Bool
  pc : DemoPc
  todo : List DemoJob
  slot : DemoSlot
  log : List (DemoJob × Bool)
deriving DecidableEq

/-- demo.go:148-153. -/
def DemoSys.init (drop : Bool) (jobs : List DemoJob) : DemoSys := { drop := drop, cancelled := false, pc := .making, todo := jobs, slot := .empty, log := [] }

/-- One step (demo.go:160-213, db_write.go:27-91). -/
inductive DemoSys.Step (s : DemoSys) : DemoSys → Prop
  | cancel : Step s { s with cancelled := true }
  /-- demo.go:160-190. -/
  | make (j : DemoJob) (rest : List DemoJob) : s.pc = .making → s.todo = j :: rest → Step s { s with pc := .queueing j, todo := rest }
  /-- demo.go:162-165: the distribution cannot be made. -/
  | fail (j : DemoJob) (rest : List DemoJob) : s.pc = .making → s.todo = j :: rest → Step s { s with pc := .returned true }
  /-- demo.go:213. -/
  | finish : s.pc = .making → s.todo = [] → Step s { s with pc := .returned false }
  /-- db_write.go:49,56. -/
  | send (j : DemoJob) : s.pc = .queueing j → Step s { s with pc := .receiving j, slot := .queued }
  /-- db_write.go:51-52,58,27-35: the queue is not ready, or the context is done. -/
  | giveUp (j : DemoJob) : s.pc = .queueing j → s.drop = true ∨ s.cancelled = true → Step s { s with pc := .calling j }
  /-- db_write.go:83-87, and the draining of the queue at the end of `Run`. -/
  | answer (written err : Bool) : s.slot = .queued → Step s { s with slot := .sending written err }
  /-- demo.go:198,203-209: a send meets a receive. Only this goroutine receives. -/
  | receive (j : DemoJob) (written : Bool) : s.pc = .receiving j → s.slot = .sending written false → Step s { s with pc := .making, slot := .empty, log := s.log ++ [(j, written)] }
  | receiveErr (j : DemoJob) (written : Bool) : s.pc = .receiving j → s.slot = .sending written true → Step s { s with pc := .returned true, slot := .empty }

/-- The states of a call of `addDemoData` (demo.go:122-214, any schedule). -/
inductive DemoSys.Reach (drop : Bool) (jobs : List DemoJob) : DemoSys → Prop
  | init : Reach drop jobs (DemoSys.init drop jobs)
  | step {s s' : DemoSys} : Reach drop jobs s → s.Step s' → Reach drop jobs s'

end Rothko
