import Verif.Props.Populate
/-!
Specification for C114: file systems that change, and what a directory that is being read promises.
-/
namespace Rothko

/-- A directory, or anything else. -/
inductive NodeKind
  | dir
  | file
deriving DecidableEq, Repr

/-- A file system: what is at a path (its components, below the database directory). -/
abbrev World := List Bytes → Option NodeKind

/-- A tree as there may be in a database directory: what is in something is in a directory; the names of entries are those a file system can have; and what has the ending `.data` is a data file of a metric. (There may be other things with other names.) -/
structure World.Tree (w : World) : Prop where
  parent : ∀ p n, w (p ++ [n]) ≠ none → w p = some .dir
  name : ∀ p n, w (p ++ [n]) ≠ none → n ≠ [] ∧ 47 ∉ n ∧ 0 ∉ n ∧ n ≠ [46] ∧ n ≠ [46, 46]
  data : ∀ p n, w (p ++ [n]) ≠ none → dataSuffix.isSuffixOf n = true → ∃ m i, p ++ [n] = dataPath m i

/-- The components of a relative path. -/
def pathComps (b : Bytes) : List Bytes := if b = [] then [] else splitOn 47 b

/-- An open descriptor. `owed`: the entries that have been in the directory ever since it was opened and were not yet returned; `ever`: the entries that were in it at some time since; `given`: what was returned since and has not been removed after that;
`read`: some entries were returned. -/
structure DirFd where
  kind : NodeKind
  path : List Bytes
  owed : Bytes → Prop
  ever : Bytes → Prop
  given : Bytes → Prop
  read : Bool

/-- `.` and `..`. -/
def isDots (n : Bytes) : Prop := n = [46] ∨ n = [46, 46]

def DirFd.opened (w : World) (kind : NodeKind) (path : List Bytes) : DirFd := { kind, path, owed := fun n => w (path ++ [n]) ≠ none, ever := fun n => w (path ++ [n]) ≠ none, given := fun _ => False, read := false }

/-- After a change of the file system. -/
def DirFd.see (fd : DirFd) (w : World) : DirFd := { fd with owed := fun n => fd.owed n ∧ w (fd.path ++ [n]) ≠ none, ever := fun n => fd.ever n ∨ w (fd.path ++ [n]) ≠ none, given := fun n => fd.given n ∧ (isDots n ∨ w (fd.path ++ [n]) ≠ none) }

/-- `n` is among the entries. -/
def Lists (es : List Entry) (n : Bytes) : Prop := ∃ e ∈ es, e.listed = true ∧ e.name = n

/-- After entries were returned. -/
def DirFd.returned (fd : DirFd) (es : List Entry) : DirFd := { fd with owed := fun n => fd.owed n ∧ ¬ Lists es n, given := fun n => fd.given n ∨ ∃ e ∈ es, e.name = n, read := true }

/-- What can be returned: some entries, in a buffer of 4096 bytes, that were in the directory at some time since it was opened, and none of them twice (unless it was removed in between). The first time, if the directory is small (`whole`), all that are in it. -/
structure DirFd.CanRead (fd : DirFd) (whole : Prop) (w : World) (es : List Entry) : Prop where
  some : es ≠ []
  fits : ((es.map Entry.bytes).flatten).length ≤ 4096
  valid : ∀ e ∈ es, e.Valid
  ever : ∀ e ∈ es, isDots e.name ∨ fd.ever e.name
  new : ∀ e ∈ es, ¬ fd.given e.name
  all : whole → fd.read = false → ∀ n, w (fd.path ++ [n]) ≠ none → Lists es n

/-- When the end can be reported: everything owed was returned. -/
structure DirFd.CanEnd (fd : DirFd) (whole : Prop) (w : World) : Prop where
  owed : ∀ n, ¬ fd.owed n
  all : whole → fd.read = false → ∀ n, w (fd.path ++ [n]) = none

end Rothko
