import Verif.Model.ProcFault
import Verif.Spec.KillProc
/-!
What a database is to contain when some values could not be stored (C118).
-/
namespace Rothko

/-- As `PSpec.step`; a value that was lost was that of the newest interval of its metric, which is then not kept. -/
def PSpec.stepF (t : PSpec) : PFOp → PSpec
  | .op o => t.step o
  | .lost m => { t with kept := fun k => if k = m then (t.kept k).tail else t.kept k }

/-- The operations among what happened. -/
def plainOps (ops : List PFOp) : List POp := ops.filterMap (fun o => match o with | .op o => some o | .lost _ => none)

/-- No system call fails for the metric. -/
def SysErrors.Spares (e : SysErrors) (m : Bytes) : Prop := (∀ f, ¬ e.file m f) ∧ ∀ dir unlink, e.call m dir unlink → dir = none ∧ unlink = false

/-- No new data file of the metric is left half made: an error comes before the file is made, or when the file is there already. -/
def SysErrors.Whole (e : SysErrors) (m : Bytes) : Prop := ∀ k, ¬ e.file m (.partly k)

/-- The records of the metric, newest first: one for each interval kept, with its times, that decodes to the exact count, minimum, maximum, ids and distribution of the metric's observations in it. -/
def KeptOf (c : ProcCfg) (ops : List PFOp) (m : Bytes) (recs : List DRec) : Prop :=
  EachOf (fun r b => RecordOf c.pipe.d b.start b.stop (obsOf m b.obs) r) recs ((ops.foldl PSpec.stepF {}).kept m) ∧
  ∀ r ∈ recs, DRec.decode (valOf r).data = .ok { r with min := normZero r.min, max := normZero r.max }

end Rothko
