import Verif.Model.Metric
/-!
# Process death in the middle of a write

The data files are shared memory mappings, so every store instruction executed before the process dies reaches the file, and none after.  A write
(metric.go:218-329) stores the chunks of the value one after the other (metric.go:297-303), each chunk front to back (record.go:62-92), then the metadata
payload, then the metadata header (file_helpers.go:40,46).  Death is modelled after any number of bytes of any chunk, and between payload and header of the metadata.
Loss of power (where pages reach the disk in any order) is not modelled.
-/
namespace Rothko

/-- The chunks of a value for a record size (`none` if the size is unusable), record.go:146-188. -/
def chunkList (v : Val) (size : Nat) : List Rec :=
  match iterateRecords v.start v.stop v.data size with
  | .recs rs => rs
  | _ => []

/-- The file when the process dies after `k` complete chunks and `j` bytes of the next one (metric.go:297-303, record.go:62-92). -/
def crashStore (f : File) (head : Int) (rs : List Rec) (k j : Nat) : File :=
  let f1 := (storeRecs f head (rs.take k)).2
  match rs[k]? with
  | none => f1
  | some r => { f1 with data := splice f1.data (f1.offset (head + k).toNat) (((r.marshal).getD []).take j) }

/-- The state found by the next process when a write dies there. (metric.go:297-303.) -/
def crashWrite (cfg : Cfg) (v : Val) (k j : Nat) (s : Store) : Store :=
  match newMetric cfg false s with
  | (.error _, s) => s.reopen
  | (.ok (first, last), s) =>
    match writePrep cfg first last v s with
    | (.ret _, _, s) => s.reopen
    | (.go h head _, _, s) => (s.setFile h (crashStore (s.file h) head (chunkList v h.size) k j)).reopen

/-- What the half written slot reads as, together with the chunk that was being written (`none` if there is no such slot). (metric.go:297-303, record.go:62-92.) -/
def tornSlot (cfg : Cfg) (v : Val) (k j : Nat) (s : Store) : Option (Except FErr Rec × Rec) :=
  match newMetric cfg false s with
  | (.error _, _) => none
  | (.ok (first, last), s) =>
    match writePrep cfg first last v s with
    | (.ret _, _, _) => none
    | (.go h head _, _, s) =>
      match (chunkList v h.size)[k]? with
      | none => none
      | some r => some ((crashStore (s.file h) head (chunkList v h.size) k j).record (head + k), r)

/-- The file when the process dies after the metadata payload is stored and before the header (file_helpers.go:40-46) at the end of a write. -/
def crashMetaStore (f : File) (head : Int) (v : Val) : File :=
  let f1 := (storeRecs f head (chunkList v f.size)).2
  match f1.metadata with
  | .error _ => f1
  | .ok m =>
    match writeMetaPayload (slice f1.data 0 f1.size) (updateMeta m (head - 1) v) with
    | .error _ => f1
    | .ok b => { f1 with data := splice f1.data 0 b }

/-- The state found by the next process in that case. (metric.go:305-328, file_helpers.go:23-49.) -/
def crashMeta (cfg : Cfg) (v : Val) (s : Store) : Store :=
  match newMetric cfg false s with
  | (.error _, s) => s.reopen
  | (.ok (first, last), s) =>
    match writePrep cfg first last v s with
    | (.ret _, _, s) => s.reopen
    | (.go h head _, _, s) => (s.setFile h (crashMetaStore (s.file h) head v)).reopen

/-- The state found by the next process when death strikes while the data file with this number is being created (file.go:35-57): the name exists, and the
file is still empty (`zeros = false`) or allocated and full of zero bytes (`zeros = true`). -/
def crashCreate (cfg : Cfg) (idx : Int) (zeros : Bool) (s : Store) : Store :=
  (s.install (.error .panic, if zeros then (zeroFile cfg.size cfg.cap).data else []) idx).2.reopen

end Rothko
