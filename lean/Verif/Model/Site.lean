import Verif.Model.Tgzfs
import Verif.Model.Url
/-!
# The static site (internal/tmplfs/fs.go, ui/site/index.html)

`html/template` and `http.FileServer` are library code that is not modelled: a template is a function from its text and its parameters to what it writes, or an error.
-/
namespace Rothko

/-- ".html" (internal/tmplfs/fs.go:48). -/
def htmlSuffix : Bytes := [46, 104, 116, 109, 108]

/-- The parameters of a template (internal/tmplfs/fs.go:72-76). -/
structure SiteParams where
  query : Bytes
  metric : Bytes
  dev : Bool
deriving DecidableEq

/-- lines 72-76 for a GET request with the query `rawQuery` (internal/tmplfs/fs.go:72-76). -/
def siteParams (rawQuery : Bytes) (dev : Bool) : SiteParams := ⟨rawQuery, formValue (goForm rawQuery) "metric", dev⟩

/-- What `Open` gives (internal/tmplfs/fs.go:42-93): an error, or a file with the bytes it holds and the size it tells. `closed`: how often the file that was opened below has been closed. -/
structure SiteFile where
  file : Option (Bytes × Nat)
  closed : Nat
deriving DecidableEq

/-- `Open` (internal/tmplfs/fs.go:42-86) over the file opened below: its bytes and its size, `none` if there is none. Reading from memory does not fail. -/
def tmplOpen (template : Bytes → SiteParams → Option Bytes) (rawQuery : Bytes) (dev : Bool) (name : Bytes) (below : Option (Bytes × Nat)) : SiteFile :=
  match below with
  | none => ⟨none, 0⟩
  | some f =>
    if ¬ htmlSuffix <:+ name then ⟨some f, 0⟩
    else match template f.1 (siteParams rawQuery dev) with
      | none => ⟨none, 1⟩
      | some out => ⟨some (out, out.length), 0⟩

/-- What is sent of a file: as many bytes as its size tells (internal/tmplfs/fs.go:29-32, library code). -/
def SiteFile.sent (f : SiteFile) : Option Bytes := f.file.map (fun p => p.1.take p.2)

/-- The file opened below: `Open` of the archive's file system, where an info has a size (internal/tgzfs/fs.go:106-112, internal/tgzfs/file.go:37-46,84-86). A file without an info panics: `none` here. -/
def tarOpen (fs : TFs Nat) (name : Bytes) : Option (Bytes × Nat) :=
  match fs.open name with
  | none => none
  | some n => match n.fi with
    | none => none
    | some size => some (n.data, size)

/-- A request for a file of the site (internal/tmplfs/fs.go:28-86). -/
def siteOpen (template : Bytes → SiteParams → Option Bytes) (fs : TFs Nat) (rawQuery : Bytes) (dev : Bool) (name : Bytes) : SiteFile :=
  tmplOpen template rawQuery dev name (tarOpen fs name)

/-- The query of the preview's image (ui/site/index.html:9); the escapes HTML needs are not modelled. -/
def previewQuery (p : SiteParams) : Bytes := p.query ++ [38, 112, 97, 100, 100, 105, 110, 103, 61, 53]

end Rothko
