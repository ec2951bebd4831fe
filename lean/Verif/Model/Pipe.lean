import Verif.Model.Agg
import Verif.Model.Metric
/-!
# From observations to the files (run.go:142-216, dump/dump.go:69-159, database/files/db_write.go)

One writer, one dumper and the files of all the metrics, one call after the other. That concurrent calls come to the same is the subject of other properties: C41 to C43 (adding), C57 (dumping waits for
its writes), C31 to C33 (the queues), C59 (the database's locks).
-/
namespace Rothko

/-- The configuration: the options of the files database (files/db.go:39-41), the distribution's parameters, and which directories lie inside which: making the directory of the first metric makes that of the second (metric.go:85). -/
structure PipeCfg where
  cfg : Cfg
  d : DistParams
  inside : Bytes → Bytes → Bool := fun _ _ => false

/-- The writer, and the directory of every metric (files/metric.go:33-39). Names and directories correspond one to one (C27). -/
structure Pipe where
  w : WState := {}
  db : Bytes → Store

/-- What dump.go:89-133 gives to `Queue` for a record: its start, its end and its encoding. -/
def valOf (r : DRec) : Val := ⟨r.startTime, r.endTime, r.encode⟩

/-- A worker writes a captured record (dump.go:127-133, db_write.go:83-112). -/
def Pipe.store (o : PipeCfg) (db : Bytes → Store) (c : Captured) : Bytes → Store :=
  fun x =>
    if x = c.metric then (dbWrite o.cfg (valOf c.rec_) (db x)).2
    else if o.inside c.metric x then { db x with dirExists := true }
    else db x

/-- `Dump` (dump.go:71-159). `taken` is whether `Queue` takes the value of a metric: it does not if the queue is full and the database is configured to drop values (db_write.go:48-54).
`order` is the order in which `Capture` goes over the metrics. -/
def Pipe.dump (o : PipeCfg) (s : Pipe) (order : List (Bytes × Agg) → List (Bytes × Agg)) (now : Int64) (taken : Bytes → Bool) : Pipe :=
  match s.w.page with
  | none => s
  | some p => { w := s.w.capture o.d order now, db := ((captureLoop o.d now (order p.m)).1.filter (fun c => taken c.metric)).foldl (Pipe.store o) s.db }

/-- What happens: an observation (data/writer.go:47), a dump (dump.go:71), a query (files/db_read.go:20), a restart of the program. -/
inductive POp
  | add (metric : Bytes) (o : Obs) (now : Int64)
  | dump (order : List (Bytes × Agg) → List (Bytes × Agg)) (now : Int64) (taken : Bytes → Bool)
  | query (metric : Bytes) (bound : Int64) (cb : List Val → Val → Cb)
  | restart

/-- One after the other (dump.go:71, writer.go:47, db_read.go:20). A restart begins with a new writer and an empty cache of handles. -/
def POp.run (o : PipeCfg) (s : Pipe) : POp → Pipe
  | .add metric ob now => { s with w := (WOp.add metric ob now).run o.d s.w }
  | .dump order now taken => s.dump o order now taken
  | .query metric bound cb => { s with db := fun x => if x = metric then (dbQuery o.cfg bound (fun seen v => (seen ++ [v], cb seen v)) [] (s.db x)).2 else s.db x }
  | .restart => { w := {}, db := fun x => (s.db x).reopen }

end Rothko
