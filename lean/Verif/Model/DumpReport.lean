import Verif.Model.Dump
/-!
What a Dump says through the `external` package: /repo/dump/dump.go:108-114, 146-158.

Simplified: of a log line the facts in its fields are kept, not its text; an error is present or not. The lines for one event are one step with it (no other goroutine changes what they say).
-/
namespace Rothko

/-- A call of the `external` package made by a Dump (dump.go:108-114, 148-151, 153-158): a problem with a record, the duration in nanoseconds, one of the three counts, the last line. -/
inductive DMsg
  | problem (metric : Bytes) (written err : Bool)
  | duration (ns : Int)
  | observeWrites (n : Nat)
  | observeSkips (n : Nat)
  | observeErrors (n : Nat)
  | finished (ns : Int) (writes skips errors : Nat)
deriving DecidableEq, Repr

/-- A running Dump and what it said so far (dump.go:69-159). -/
structure DRep where
  sys : DSys
  out : List DMsg

/-- What `complete(written, err)` says about a record (dump.go:107-114). -/
def DMsg.ofComplete (metric : Bytes) (written err : Bool) : List DMsg :=
  if !written || err then [.problem metric written err] else []

/-- What is said at the end (dump.go:146-158): `ns` is `time.Since(now)`. -/
def DSys.summary (s : DSys) (ns : Int) : List DMsg :=
  [.duration ns, .observeWrites s.writes, .observeSkips s.skips, .observeErrors s.errors, .finished ns s.writes s.skips s.errors]

/-- A step of `DSys.Step` in which no callback runs, Queue gives no error and Dump does not return: in none of them (dump.go:71-106, 115-145) is anything said. -/
def DSys.Quiet (s s' : DSys) : Prop :=
  s.Step s' ∧ s'.calls.countP (fun r => r.ans != .waiting) = s.calls.countP (fun r => r.ans != .waiting) ∧ (s'.pc = .returned → s.pc = .returned)

/-- One step and what it says (dump.go:71-159). -/
inductive DRep.Step (x : DRep) : DRep → Prop
  /-- The database invokes the callback (dump.go:106-126). -/
  | report (i : Nat) (r : DReq) (written err : Bool) : x.sys.calls[i]? = some r → r.ans = .waiting →
      Step x ⟨x.sys.complete i r (.reported written err) written err, x.out ++ DMsg.ofComplete r.arg.metric written err⟩
  /-- Queue returns an error (dump.go:134-136). -/
  | refuse (i : Nat) (r : DReq) : x.sys.pc = .queueing i → x.sys.calls[i]? = some r → r.ans = .waiting →
      Step x ⟨{ x.sys.complete i r .refused false true with pc := .capturing }, x.out ++ DMsg.ofComplete r.arg.metric false true⟩
  /-- The wait is over (dump.go:144-158). -/
  | wait (ns : Int) : x.sys.pc = .waiting → x.sys.wg = 0 → Step x ⟨{ x.sys with pc := .returned }, x.out ++ x.sys.summary ns⟩
  /-- Any other step. -/
  | quiet (s' : DSys) : x.sys.Quiet s' → Step x ⟨s', x.out⟩

/-- The states of a Dump of the captured records `caps` with what it said (dump.go:71-159, any schedule). -/
inductive DRep.Reach (caps : List DRecd) (pool : List Nat) (heap : Nat → Bytes) (cap : Nat → Nat) (nbuf : Nat) : DRep → Prop
  | init : Reach caps pool heap cap nbuf ⟨DSys.init caps pool heap cap nbuf, []⟩
  | step {x x' : DRep} : Reach caps pool heap cap nbuf x → x.Step x' → Reach caps pool heap cap nbuf x'

end Rothko
