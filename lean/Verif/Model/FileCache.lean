import Verif.Model.Cache
import Verif.Model.Bytes
/-!
# database/files/file_cache.go

A handle is represented by an identity (which `openFile`/`createFile` call made it) and the path it was opened at. Every function below does its work in one
critical section of `fch.mu`; the opening and closing outside of it touch only a handle that no one else can reach, so each call is modelled as one step.
-/
namespace Rothko

/-- An open file. (file.go:21-27.) -/
structure FHandle where
  id : Nat
  path : Bytes
deriving DecidableEq, Repr, Inhabited

/-- `type fileCache` (file_cache.go:24-30). -/
structure FileCache where
  toks : Bytes → Option Nat
  ch : HCache FHandle

/-- `newFileCache` (file_cache.go:33-40). -/
def FileCache.new (handles : Nat) : FileCache := { toks := fun _ => none, ch := HCache.new FHandle handles }

/-- `Close` (file_cache.go:43-52): the handles that are closed. -/
def FileCache.close (fch : FileCache) : List FHandle × FileCache :=
  let r := fch.ch.takeAll (fun _ => false)
  (r.1, { toks := fun _ => none, ch := r.2 })

/-- `releaseFile` (file_cache.go:55-65): the evicted handle, which is closed. `none`: panic. -/
def FileCache.release (fch : FileCache) (path : Bytes) (f : FHandle) : Option (Option FHandle × FileCache) :=
  match fch.ch.put f with
  | none => none
  | some ((tok, ev), ch) => some (ev, { toks := fun p => if p = path then some tok else fch.toks p, ch })

/-- `acquireFile` (file_cache.go:69-87); `opened` is what `openFile`/`createFile` return if they are called (`none`: an error). Result: the handle, and whether it came from the cache. -/
def FileCache.acquire (fch : FileCache) (path : Bytes) (opened : Option FHandle) : Option ((Option FHandle × Bool) × FileCache) :=
  match fch.toks path with
  | none => some ((opened, false), fch)
  | some tok =>
    match fch.ch.take tok with
    | none => none
    | some (some f, ch) => some ((some f, true), { fch with ch })
    | some (none, ch) => some ((opened, false), { fch with ch })

/-- `evictFile` (file_cache.go:90-104): the handle that is closed. -/
def FileCache.evict (fch : FileCache) (path : Bytes) : Option (Option FHandle × FileCache) :=
  match fch.toks path with
  | none => some (none, fch)
  | some tok =>
    match fch.ch.take tok with
    | none => none
    | some (r, ch) => some (r, { toks := fun p => if p = path then none else fch.toks p, ch })

end Rothko
