import Verif.Model.Site
/-!
# The handler of the site's files (internal/tmplfs/fs.go:28-33, run.go:287-319)

`http.FileServer` is library code, modelled from its source as of Go 1.10, for GET requests without headers that ask for parts of a file or for changes only.
-/
namespace Rothko

/-- What is used of an `os.FileInfo` (internal/tgzfs/fs.go:62). -/
structure SInfo where
  dir : Bool
  size : Nat
deriving DecidableEq

/-- `rootFileInfo` (internal/tgzfs/fs.go:23-31). -/
def siteRoot : SInfo := ⟨true, 0⟩

/-- What `Open` of the site's file system gives (internal/tmplfs/fs.go:42-86). -/
inductive Opened
  /-- `os.ErrNotExist` -/
  | missing
  /-- any other error -/
  | failed
  /-- `Stat`'s info, nil for directories without an entry; the bytes; the number of names in it -/
  | file (info : Option SInfo) (data : Bytes) (names : Nat)
deriving DecidableEq

/-- `Open` (internal/tmplfs/fs.go:42-86) over the archive (internal/tgzfs/fs.go:106-112); a wrapped file's info has another size (internal/tmplfs/fs.go:106-117). -/
def openSite (template : Bytes → SiteParams → Option Bytes) (fs : TFs SInfo) (rawQuery : Bytes) (dev : Bool) (name : Bytes) : Opened :=
  match fs.open name with
  | none => .missing
  | some n =>
    if ¬ htmlSuffix <:+ name then .file n.fi n.data n.children.length
    else match template n.data (siteParams rawQuery dev) with
      | none => .failed
      | some out => .file (n.fi.map (fun i => { i with size := out.length })) out n.children.length

/-- `path.Clean` of a path that begins with a slash (internal/tmplfs/fs.go:29, library code). -/
def cleanText (p : Bytes) : Bytes := if cleanParts p = [] then [47] else (cleanParts p).flatMap (fun e => 47 :: e)

/-- `path.Base` (internal/tmplfs/fs.go:29, library code): the last element, without slashes at the end. -/
def pathBase (p : Bytes) : Bytes :=
  if p = [] then [46]
  else match (splitSlash p).filter (fun e => e ≠ []) with
    | [] => [47]
    | e :: es => (e :: es).getLast (by simp)

/-- What is answered (internal/tmplfs/fs.go:28-33). -/
inductive SiteAnswer
  | page (bytes : Bytes)
  | moved (location : Bytes)
  | notFound
  | error
  | listing (n : Nat)
  | panic
deriving DecidableEq

/-- `localRedirect` (internal/tmplfs/fs.go:29, library code). -/
def localRedirect (rawQuery loc : Bytes) : SiteAnswer := .moved (if rawQuery = [] then loc else loc ++ 63 :: rawQuery)

/-- The end of `serveFile` (internal/tmplfs/fs.go:29, library code): a directory is listed (`Readdir(-1)`, internal/tgzfs/file.go:66-76), of a file as many bytes are sent as its size tells. -/
def serveOpened (info : Option SInfo) (data : Bytes) (names : Nat) : SiteAnswer :=
  match info with
  | none => .panic
  | some i =>
    if i.dir then
      (match (readdir (List.replicate names ()) (-1)).1 with
       | .eof => .error
       | .entries l => .listing l.length
       | .panic => .panic)
    else .page (data.take i.size)

/-- The middle of `serveFile` (internal/tmplfs/fs.go:29, library code): a directory's index.html instead of the directory, if it can be opened. -/
def serveIndex (opn : Bytes → Opened) (name : Bytes) (i : SInfo) (data : Bytes) (names : Nat) : SiteAnswer :=
  if i.dir then
    match opn ((if name = [47] then [] else name) ++ 47 :: indexName) with
    | .file info' data' names' => serveOpened info' data' names'
    | _ => serveOpened (some i) data names
  else serveOpened (some i) data names

/-- `fileHandler.ServeHTTP` and `serveFile` (internal/tmplfs/fs.go:29, library code). -/
def fileServer (opn : Bytes → Opened) (rawQuery url : Bytes) : SiteAnswer :=
  let upath := if url.head? = some 47 then url else 47 :: url
  let name := cleanText upath
  if (47 :: indexName) <:+ upath then localRedirect rawQuery [46, 47]
  else match opn name with
    | .missing => .notFound
    | .failed => .error
    | .file none _ _ => .panic
    | .file (some i) data names =>
      if i.dir = true ∧ upath.getLast? ≠ some 47 then localRedirect rawQuery (pathBase upath ++ [47])
      else if i.dir = false ∧ upath.getLast? = some 47 then localRedirect rawQuery ([46, 46, 47] ++ pathBase upath)
      else serveIndex opn name i data names

/-- `ServeHTTP` of the site (internal/tmplfs/fs.go:28-33). -/
def serveSite (template : Bytes → SiteParams → Option Bytes) (fs : TFs SInfo) (dev : Bool) (rawQuery url : Bytes) : SiteAnswer :=
  fileServer (openSite template fs rawQuery dev) rawQuery url

/-- `tarballWarning.ServeHTTP` (run.go:293-319): the handler of a build without a user interface; `warning` is its text. -/
def serveWarning (warning : Bytes) (url : Bytes) : SiteAnswer :=
  if url = 47 :: indexName ∨ url = indexName ∨ url = [47] ∨ url = [] then .page warning else .notFound

end Rothko
