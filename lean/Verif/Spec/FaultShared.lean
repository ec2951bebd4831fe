import Verif.Model.FaultShared
import Verif.Props.SerialDb
/-! Calls together with what the operating system does to them. -/
namespace Rothko

/-- A call, how opening its directory fails (if it does), and whether removing files fails while it runs. -/
structure FltCall where
  call : DbCall
  dir : Option DirFault
  unlink : Bool

/-- Nothing is said to fail. -/
def FltCall.Fine (o : FltCall) : Prop := o.dir = none ∧ o.unlink = false

/-- The call carried out alone on its metric while the system calls named by `flt` fail (Model/Fault). -/
def DbCall.runF (flt : Faults) : DbCall → Store → DbRes × Store
  | .write cfg v, s => (.write (dbWriteF flt cfg v s).1, (dbWriteF flt cfg v s).2)
  | .query cfg b cb, s =>
    (.query (dbQueryF flt cfg b (fun seen v => (seen ++ [v], cb seen v)) [] s).1.1 (dbQueryF flt cfg b (fun seen v => (seen ++ [v], cb seen v)) [] s).1.2,
      (dbQueryF flt cfg b (fun seen v => (seen ++ [v], cb seen v)) [] s).2)
  | .latest cfg, s => (.latest (dbQueryLatestF flt cfg s).1.1 (dbQueryLatestF flt cfg s).1.2, (dbQueryLatestF flt cfg s).2)

/-- The call carried out alone, `file` telling which lookups of files fail. -/
def FltCall.run (file : Nat → Option FileFault) (o : FltCall) (s : Store) : DbRes × Store := o.call.runF ⟨o.dir, file, o.unlink⟩ s

end Rothko
