import Verif.Model.FileServer
/-!
# Sites and how browsers follow redirects (C117)
-/
namespace Rothko

/-- An archive of a site as `tar` makes it from a directory: no path twice, an index.html, an entry for every directory, and sizes as they are. No directory is called index.html. -/
structure SiteOk (es : List (TEntry SInfo)) : Prop where
  once : ∀ a b e e', es = a ++ e :: b → e' ∈ b → cleanParts e'.name ≠ cleanParts e.name
  root : ∀ e ∈ es, cleanParts e.name ≠ []
  index : ∃ e ∈ es, (e.name = indexName ∨ e.name = dotIndexName) ∧ e.info.dir = false
  dirs : ∀ e ∈ es, ∀ q, q ≠ [] → q <+: cleanParts e.name → ∃ d ∈ es, cleanParts d.name = q ∧ (q ≠ cleanParts e.name → d.info.dir = true)
  size : ∀ e ∈ es, e.info.dir = false → e.info.size = e.data.length
  plain : ∀ e ∈ es, e.info.dir = true → (cleanParts e.name).getLast? ≠ some indexName

/-- The entry `e` is at the path with the elements `q`. -/
def EntryAt (es : List (TEntry SInfo)) (q : List Bytes) (e : TEntry SInfo) : Prop := e ∈ es ∧ cleanParts e.name = q

/-- An element of a path: not empty, no slash, neither `.` nor `..`. -/
def PathElem (e : Bytes) : Prop := e ≠ [] ∧ e ≠ [46] ∧ e ≠ [46, 46] ∧ 47 ∉ e

/-- The path with these elements, without a slash at its end. -/
def urlOf (q : List Bytes) : Bytes := q.flatMap (fun e => 47 :: e)

/-- The first index.html that applies to the directory: its own, or else the site's. -/
def IndexFor (es : List (TEntry SInfo)) (q : List Bytes) (e : TEntry SInfo) : Prop := EntryAt es (q ++ [indexName]) e ∨ ((∀ e', ¬ EntryAt es (q ++ [indexName]) e') ∧ EntryAt es [indexName] e)

/-- What is at the path: the root, an entry, or, where there is none, the site's index.html. -/
inductive SiteAt (es : List (TEntry SInfo)) (q : List Bytes) : SInfo → Bytes → Prop
  | root : q = [] → SiteAt es q ⟨true, 0⟩ []
  | entry (e : TEntry SInfo) : q ≠ [] → EntryAt es q e → SiteAt es q e.info e.data
  | missing (e : TEntry SInfo) : q ≠ [] → (∀ e', ¬ EntryAt es q e') → EntryAt es [indexName] e → SiteAt es q e.info e.data

/-- An element that needs no escapes in a relative reference: no `#`, `%`, `?`, `:` or backslash. -/
def PlainElem (e : Bytes) : Prop := PathElem e ∧ ∀ b ∈ e, b ≠ 35 ∧ b ≠ 37 ∧ b ≠ 63 ∧ b ≠ 58 ∧ b ≠ 92

/-- A page filled in: an error if the template fails. -/
def filledIn (template : Bytes → SiteParams → Option Bytes) (dev : Bool) (rawQuery data : Bytes) : SiteAnswer :=
  match template data ⟨rawQuery, formValue (goForm rawQuery) "metric", dev⟩ with
  | none => .error
  | some out => .page out

/-! ## Browsers (RFC 3986, 5.2) -/

/-- Remove dot segments (5.2.4) from the segments after the leading slash. -/
def removeDots (done : List Bytes) : List Bytes → List Bytes
  | [] => done.reverse
  | s :: rest =>
    if s = [46] then (if rest = [] then ([] :: done).reverse else removeDots done rest)
    else if s = [46, 46] then (if rest = [] then ([] :: done.tail).reverse else removeDots done.tail rest)
    else removeDots (s :: done) rest

/-- The path and the query that a browser asks for next: the location, a relative path and perhaps a query, replaces what follows the last slash (5.2.3). -/
def follow (url loc : Bytes) : Bytes × Bytes :=
  let ref := loc.takeWhile (· ≠ 63)
  ((removeDots [] ((splitSlash url).tail.dropLast ++ splitSlash ref)).flatMap (fun s => 47 :: s), (loc.dropWhile (· ≠ 63)).tail)

/-- What a browser shows that follows one redirect. -/
def visitPage (serve : Bytes → Bytes → SiteAnswer) (rawQuery url : Bytes) : SiteAnswer :=
  match serve rawQuery url with
  | .moved loc => serve (follow url loc).2 (follow url loc).1
  | a => a

end Rothko
