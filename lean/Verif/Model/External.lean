import Verif.Spec.Split
/-! # Logging and monitoring (`external/`)
Simplified: a logger or monitor is a name (of any type `L`, `M`) and calling it adds the call to a log; an interface holding a nil pointer counts as a resource. Messages, key and value lists and numbers are of any types. -/
namespace Rothko

/-- A `Resources` (external/resources.go:7-10): both fields can be nil. -/
structure Resources (L M : Type) where
  logger : Option L
  monitor : Option M

/-- A call as a resource sees it: the methods of `Logger` and `Monitor` (external/common.go:10-18). -/
inductive ExtCall (L M X V : Type)
  | infow (to : L) (msg : Bytes) (keyvals : X)
  | errorw (to : L) (msg : Bytes) (keyvals : X)
  | observe (to : M) (name : Bytes) (value : V)

/-- A method call on an interface value (external/resources.go:15, 22, 29): a panic if it is nil (`none`), else it is added to the log. -/
def ifaceCall {I C : Type} (i : Option I) (f : I → C) (log : List C) : Option (List C) :=
  match i with
  | none => none
  | some l => some (log ++ [f l])

/-- `Resources.Infow` (external/resources.go:13-17). -/
def Resources.infow {L M X V : Type} (r : Resources L M) (msg : Bytes) (kv : X) (log : List (ExtCall L M X V)) : Option (List (ExtCall L M X V)) :=
  if r.logger.isSome then ifaceCall r.logger (fun l => .infow l msg kv) log else some log

/-- `Resources.Errorw` (external/resources.go:20-24). -/
def Resources.errorw {L M X V : Type} (r : Resources L M) (msg : Bytes) (kv : X) (log : List (ExtCall L M X V)) : Option (List (ExtCall L M X V)) :=
  if r.logger.isSome then ifaceCall r.logger (fun l => .errorw l msg kv) log else some log

/-- `Resources.Observe` (external/resources.go:27-31). -/
def Resources.observe {L M X V : Type} (r : Resources L M) (name : Bytes) (v : V) (log : List (ExtCall L M X V)) : Option (List (ExtCall L M X V)) :=
  if r.monitor.isSome then ifaceCall r.monitor (fun m => .observe m name v) log else some log

/-- What a program does with the package: a plugin replaces `Default` (external/common.go:6) or one of its two fields, or anything calls one of the three functions (external/common.go:25-37). -/
inductive ExtOp (L M X V : Type)
  | set (r : Resources L M)
  | setLogger (l : Option L)
  | setMonitor (m : Option M)
  | infow (msg : Bytes) (keyvals : X)
  | errorw (msg : Bytes) (keyvals : X)
  | observe (name : Bytes) (value : V)

/-- The package: the variable `Default` (external/common.go:6), nil in both fields at the start, and the calls the resources got. -/
structure ExtState (L M X V : Type) where
  dflt : Resources L M
  log : List (ExtCall L M X V)

/-- The start (external/common.go:6). -/
def ExtState.init {L M X V : Type} : ExtState L M X V := ⟨⟨none, none⟩, []⟩

/-- One thing done (external/common.go:25-37); `none` if it panics. -/
def ExtState.op {L M X V : Type} (s : ExtState L M X V) : ExtOp L M X V → Option (ExtState L M X V)
  | .set r => some ⟨r, s.log⟩
  | .setLogger l => some ⟨⟨l, s.dflt.monitor⟩, s.log⟩
  | .setMonitor m => some ⟨⟨s.dflt.logger, m⟩, s.log⟩
  | .infow msg kv => (s.dflt.infow msg kv s.log).map fun l => ⟨s.dflt, l⟩
  | .errorw msg kv => (s.dflt.errorw msg kv s.log).map fun l => ⟨s.dflt, l⟩
  | .observe n v => (s.dflt.observe n v s.log).map fun l => ⟨s.dflt, l⟩

/-- Everything done (external/common.go:25-37). -/
def ExtState.run {L M X V : Type} : ExtState L M X V → List (ExtOp L M X V) → Option (ExtState L M X V)
  | s, [] => some s
  | s, op :: ops => match s.op op with
    | none => none
    | some s' => s'.run ops

end Rothko
