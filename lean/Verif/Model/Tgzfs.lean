/-
The file tree served from a tarball: /repo/internal/tgzfs/fs.go and file.go.

An archive is the list of the entries archive/tar hands out (name, file info, contents); gzip and tar decoding are not modelled, nor are the errors they report.
Bytes of a path: '/' is 47 and '.' is 46. `I` is os.FileInfo.
-/
import Verif.Model.Bytes

namespace Rothko

/-- strings.Split(p, "/"). (fs.go:80.) -/
def splitSlash : Bytes → List Bytes
  | [] => [[]]
  | c :: rest =>
    if c = 47 then [] :: splitSlash rest
    else
      match splitSlash rest with
      | [] => [[c]]
      | f :: fs => (c :: f) :: fs

/-- One element of a path under path.Clean: the cleaned elements so far, the last one first. (fs.go:80, library code.) -/
def cleanStep (rooted : Bool) (acc : List Bytes) (e : Bytes) : List Bytes :=
  if e = [] ∨ e = [46] then acc
  else if e = [46, 46] then
    match acc with
    | [] => if rooted then [] else [[46, 46]]
    | t :: r => if t = [46, 46] then [46, 46] :: t :: r else r
  else e :: acc

/-- fs.go:79-81, splitPath(p) without its empty elements, which getFile skips (fs.go:89-91): the elements of path.Clean(p).
path.Clean is given by its documented rules: empty and "." elements are dropped, ".." removes the element before it, leading ".." of a rooted path is dropped, and an empty result is ".". -/
def cleanParts (p : Bytes) : List Bytes :=
  let rooted := p.head? = some 47
  let r := (splitSlash p).foldl (cleanStep rooted) []
  if rooted then r.reverse
  else if r = [] then [[46]]
  else r.reverse

/-- file.go:12-16. The children are a map from names. -/
inductive TNode (I : Type)
  | mk (fi : Option I) (data : Bytes) (children : List (Bytes × TNode I))

/-- file.go:13. -/
def TNode.fi {I : Type} : TNode I → Option I
  | .mk fi _ _ => fi
/-- file.go:14. -/
def TNode.data {I : Type} : TNode I → Bytes
  | .mk _ d _ => d
/-- file.go:15. -/
def TNode.children {I : Type} : TNode I → List (Bytes × TNode I)
  | .mk _ _ c => c

/-- file.go:19-23, newFile. -/
def TNode.new {I : Type} : TNode I := .mk none [] []

/-- `children[part] = child`. (fs.go:99.) -/
def putChild {I : Type} (k : Bytes) (v : TNode I) : List (Bytes × TNode I) → List (Bytes × TNode I)
  | [] => [(k, v)]
  | (k', v') :: r => if k' = k then (k, v) :: r else (k', v') :: putChild k v r

/-- fs.go:86-103, getFile(path, true), followed by an update of the file it returns. -/
def TNode.update {I : Type} (f : TNode I → TNode I) : List Bytes → TNode I → TNode I
  | [], n => f n
  | p :: ps, n => .mk n.fi n.data (putChild p (TNode.update f ps ((n.children.lookup p).getD TNode.new)) n.children)

/-- fs.go:86-103, getFile(path, false) without the default: the file at the path. -/
def TNode.get {I : Type} : List Bytes → TNode I → Option (TNode I)
  | [], n => some n
  | p :: ps, n =>
    match n.children.lookup p with
    | none => none
    | some c => TNode.get ps c

/-- fs.go:34-37. `def` is a pointer to a file of the tree: files are never removed, so it is given by its path. -/
structure TFs (I : Type) where
  root : TNode I
  dflt : Option (List Bytes)

/-- An entry of the archive. (fs.go:53,61-64.) -/
structure TEntry (I : Type) where
  name : Bytes
  info : I
  data : Bytes

/-- "index.html" and "./index.html". (fs.go:71.) -/
def indexName : Bytes := [105, 110, 100, 101, 120, 46, 104, 116, 109, 108]
/-- fs.go:71. -/
def dotIndexName : Bytes := 46 :: 47 :: indexName

/-- fs.go:61-73, one entry of the archive. -/
def TFs.add {I : Type} (fs : TFs I) (e : TEntry I) : TFs I :=
  { root := fs.root.update (fun n => .mk (some e.info) e.data n.children) (cleanParts e.name)
    dflt := if e.name = indexName ∨ e.name = dotIndexName then some (cleanParts e.name) else fs.dflt }

/-- fs.go:40-75, New. `rootInfo` is rootFileInfo (fs.go:23-31). -/
def TFs.new {I : Type} (rootInfo : I) (entries : List (TEntry I)) : TFs I :=
  entries.foldl TFs.add { root := .mk (some rootInfo) [] [], dflt := none }

/-- fs.go:86-112, Open: the file opened, `none` for os.ErrNotExist. -/
def TFs.open {I : Type} (fs : TFs I) (path : Bytes) : Option (TNode I) :=
  match fs.root.get (cleanParts path) with
  | some n => some n
  | none =>
    match fs.dflt with
    | none => none
    | some d => fs.root.get d

/-- What a call of Readdir returns. (file.go:66-76.) -/
inductive TDir (α : Type)
  | eof
  | entries (l : List α)
  | panic
deriving DecidableEq

/-- file.go:66-76, Readdir, on the rest of the listing of the handle. -/
def readdir {α : Type} (listing : List α) (count : Int) : TDir α × List α :=
  if listing.length = 0 then (.eof, listing)
  else
    let c : Int := if (listing.length : Int) < count then listing.length else count
    if c < 0 then (.panic, listing)
    else
      let l := listing.take c.toNat
      (.entries l, listing.take (listing.length - l.length))

end Rothko
