import Verif.Model.Assert
/-!
# Making the database, the distribution and the listener out of the configuration (database/files/register.go, dist/tdigest/register.go, listener/graphite/register.go, database/files/db.go:117-168)
-/
namespace Rothko

/-- `Options` and `Tuning` with the directory (db.go:20-68). An int is 64 bits wide. -/
structure FilesOpts where
  dir : String
  size : Int64
  cap : Int64
  files : Int64
  buffer : Int64
  drop : Bool
  handles : Int64
  workers : Int64
deriving DecidableEq

/-- The string of a value an accessor returned (asserter.go:119-128). -/
def CRes.str : Option CRes → String
  | some (.val (.str s)) => s
  | _ => ""

/-- The integer of a value an accessor returned (asserter.go:107-116). -/
def CRes.i64 : Option CRes → Int64
  | some (.val (.int64 n)) => n
  | _ => 0

/-- The bool of a value an accessor returned (asserter.go:131-140). -/
def CRes.bool : Option CRes → Bool
  | some (.val (.bool b)) => b
  | _ => false

/-- The float of a value an accessor returned (asserter.go:143-152). -/
def CRes.float : Option CRes → F64
  | some (.val (.float f)) => f
  | _ => 0#64

/-- The calls of the maker of files databases, in order (files/register.go:17-30). -/
def filesCalls : List AssOp :=
  [.index 0 "directory", .get 1 .str, .index 0 "size", .get 2 .int64, .index 0 "cap", .get 3 .int64, .index 0 "files", .get 4 .int64,
    .index 0 "tuning", .index 5 "buffer", .get 6 .int64, .index 0 "tuning", .index 7 "drop", .get 8 .bool,
    .index 0 "tuning", .index 9 "handles", .get 10 .int64, .index 0 "tuning", .index 11 "workers", .get 12 .int64]

/-- The maker of files databases (files/register.go:16-36), up to `New`. `none`: an error. -/
def filesMaker (config : CVal) : Option FilesOpts :=
  let r := (CGroup.new config).run filesCalls
  if r.2.err then none
  else some { dir := CRes.str r.1[1]?, size := CRes.i64 r.1[3]?, cap := CRes.i64 r.1[5]?, files := CRes.i64 r.1[7]?, buffer := CRes.i64 r.1[10]?, drop := CRes.bool r.1[13]?,
              handles := CRes.i64 r.1[16]?, workers := CRes.i64 r.1[19]? }

/-- The maker of t-digests (tdigest/register.go:14-30): the compression. `none`: an error. -/
def tdigestMaker (config : CVal) : Option F64 :=
  match config with
  | .nil => some 0#64
  | config =>
    let r := (CGroup.new config).run [.index 0 "compression", .get 1 .float]
    if r.2.err then none else some (CRes.float r.1[1]?)

/-- The maker of graphite listeners (graphite/register.go:14-25): the address. `none`: an error. -/
def graphiteMaker (config : CVal) : Option String :=
  let r := (CGroup.new config).run [.index 0 "address", .get 1 .str]
  if r.2.err then none else some (CRes.str r.1[1]?)

/-- What the machine says: `GOMAXPROCS`, and the soft limit of open files (db.go:120,131); `none`: it is not told. -/
structure Host where
  procs : Int
  limit : Option (BitVec 64)

/-- The workers (db.go:119-126). -/
def tuneWorkers (h : Host) (workers : Int64) : Int := if workers = 0 then (if h.procs - 1 ≤ 0 then 1 else h.procs - 1) else workers.toInt

/-- The handles asked for (db.go:129-136): `int(lim.Cur)` is the limit as a signed number. -/
def wantHandles (h : Host) (handles : Int64) : Int :=
  if handles = 0 then (match h.limit with | some l => (Int64.ofBitVec l - 512).toInt | none => 0) else handles.toInt

/-- The handles (db.go:129-139). -/
def tuneHandles (h : Host) (handles : Int64) : Int := if wantHandles h handles < 0 then 0 else wantHandles h handles

/-- The tuning a database runs with (db.go:117-139). -/
structure Tuned where
  buffer : Int
  drop : Bool
  handles : Int
  workers : Int
deriving DecidableEq

/-- `New` (db.go:117-168). `none`: `make` panics as a size is negative (142,144). That a size can also be too large for the memory is left out. -/
def newFiles (h : Host) (o : FilesOpts) : Option Tuned :=
  if o.buffer < 0 then none
  else if tuneWorkers h o.workers < 0 then none
  else some ⟨o.buffer.toInt, o.drop, tuneHandles h o.handles, tuneWorkers h o.workers⟩

/-- The initial configuration's `[database.files]` (config/initial.go:57-61) as toml decodes it. -/
def initialFiles : CVal := .map [("directory", .str "data"), ("size", .int64 256), ("cap", .int64 400), ("files", .int64 2)]

/-- The initial configuration's `[dist.tdigest]` (config/initial.go:95-96): 5.0. -/
def initialDist : CVal := .map [("compression", .float 0x4014000000000000#64)]

/-- The initial configuration's `[[listeners.graphite]]` (config/initial.go:32-33). -/
def initialListener : CVal := .map [("address", .str ":1111")]

end Rothko
