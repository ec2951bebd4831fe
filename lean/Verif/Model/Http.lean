import Verif.Model.Bytes
/-!
# The HTTP server (api/server.go, api/common.go)

net/http is not in the repository: `HReq` is the request as parsed by it, and `Raw` is its `ResponseWriter`.
Strings are lists of bytes; constants are Lean strings.
-/
namespace Rothko

/-- An `http.Request`: the method, the path, what `BasicAuth` returns and the form values. (server.go:73,119,126,130.) -/
structure HReq where
  method : String
  path : String
  auth : Option (Bytes × Bytes)
  form : String → Bytes
  accept : String := ""

/-- What a handler does with its `ResponseWriter`. (server.go:73-97, common.go:43-57.) -/
inductive HAct
  | setHeader (k v : String)
  | writeHeader (code : Nat)
  | write (b : Bytes)

/-- The `ResponseWriter` of net/http: the first `WriteHeader`, or a `Write` without one, sends the status and the headers set so far; later ones change nothing that was sent. Informational (1xx) statuses are not modelled. (server.go:73, library code.) -/
structure Raw where
  headers : List (String × String) := []
  sent : Option (Nat × List (String × String)) := none
  body : Bytes := []

/-- net/http (library code) as called from server.go:76-82 and common.go:48,56. -/
def Raw.act (w : Raw) : HAct → Raw
  | .setHeader k v => { w with headers := (k, v) :: w.headers.filter (fun p => !(p.1 == k)) }
  | .writeHeader code => match w.sent with
    | none => { w with sent := some (code, w.headers) }
    | some _ => w
  | .write b => match w.sent with
    | none => { w with sent := some (200, w.headers), body := w.body ++ b }
    | some _ => { w with body := w.body ++ b }

/-- When the handler returns, net/http sends a 200 if nothing was sent. (server.go:97, library code.) -/
def Raw.response (w : Raw) : Nat × List (String × String) × Bytes :=
  match w.sent with
  | none => (200, w.headers, w.body)
  | some (c, h) => (c, h, w.body)

/-- `respTracker` (common.go:37-57). -/
structure Tracker where
  raw : Raw := {}
  wrote : Bool := false
  code : Nat := 0

/-- The methods of `respTracker`; `Header` is the embedded one. (common.go:43-57.) -/
def Tracker.act (t : Tracker) : HAct → Tracker
  | .setHeader k v => { t with raw := t.raw.act (.setHeader k v) }
  | .writeHeader code => { raw := t.raw.act (.writeHeader code), wrote := true, code := if t.wrote then t.code else code }
  | .write b => { raw := t.raw.act (.write b), wrote := true, code := if t.wrote then t.code else 200 }

/-- common.go:43-57: a handler's calls in a row. -/
def Tracker.acts (t : Tracker) (l : List HAct) : Tracker := l.foldl Tracker.act t

/-- The classes of errors (common.go:14-19); `other` is an error without a status. -/
inductive HErr
  | notFound | methodNotAllowed | badRequest | unauthorized | other
deriving DecidableEq

/-- `getStatusCode` (common.go:21-35). -/
def getStatusCode : HErr → Nat
  | .notFound => 404
  | .methodNotAllowed => 405
  | .badRequest => 400
  | .unauthorized => 401
  | .other => 500

/-- What is behind the server. (server.go:42-51.) -/
inductive Touch
  | query (metric : Bytes)
  | metrics
  | static
deriving DecidableEq

/-- What a handler did: what it used, what it did with the writer, and the error it returned. (server.go:115-147.) -/
structure HRun where
  touched : List Touch := []
  acts : List HAct := []
  err : Option HErr := none

/-- `Server` (server.go:31-51), with what the handlers do after the checks modelled here: `render` is `serveRender` from line 160 on, for a metric that is not empty; `query` is `serveQuery`. -/
structure HServer where
  origin : String
  username : Bytes
  password : Bytes
  nonce : Bytes
  static : Option (HReq → List HAct)
  render : HReq → List HAct × Option HErr
  query : HReq → List HAct × Option HErr

/-- `validAuth` (server.go:100-112). `hash` is `sha256.Sum256`. -/
def validAuth (hash : Bytes → Bytes) (s : HServer) (username password : Bytes) : Bool :=
  let usernameGood : Nat := if hash username = hash s.username then 1 else 0
  let passwordGood : Nat := if hash password = hash s.password then 1 else 0
  usernameGood &&& passwordGood == 1

/-- Lines 130-146 of `serveHTTP`, and lines 155-158 of `serveRender`. (server.go:130-146,155-158.) -/
def route (s : HServer) (req : HReq) : HRun :=
  if req.path = "/api/render" then
    if req.form "metric" = [] then { err := some .badRequest }
    else let r := s.render req; { touched := [.query (req.form "metric")], acts := r.1, err := r.2 }
  else if req.path = "/api/query" then let r := s.query req; { touched := [.metrics], acts := r.1, err := r.2 }
  else if req.path = "/api/nonce" then { acts := [.write s.nonce] }
  else match s.static with
    | some h => { touched := [.static], acts := h req }
    | none => { err := some .notFound }

/-- `serveHTTP` (server.go:115-147). -/
def serveHTTP (hash : Bytes → Bytes) (s : HServer) (req : HReq) : HRun :=
  let authorized := match req.auth with
    | none => false
    | some (u, p) => validAuth hash s u p
  if s.username ≠ [] ∧ !authorized then { acts := [.setHeader "WWW-Authenticate" "Basic realm=\"rothko\""], err := some .unauthorized }
  else if req.method ≠ "GET" then { err := some .methodNotAllowed }
  else route s req

/-- What a request does: the response, what was used, and the status in the log (`none`: no log line). (server.go:73-97.) -/
structure HOut where
  touched : List Touch
  status : Nat
  headers : List (String × String)
  body : Bytes
  logged : Option Nat

/-- `ServeHTTP` (server.go:73-97). `msg` is the text of an error. -/
def serve (hash : Bytes → Bytes) (msg : HErr → Bytes) (s : HServer) (req : HReq) : HOut :=
  let origin := if s.origin = "" then "*" else s.origin -- server.go:57-59
  let w : Raw := ({} : Raw).act (.setHeader "Access-Control-Allow-Origin" origin)
  let run := serveHTTP hash s req
  let t := ({ raw := w } : Tracker).acts run.acts
  let w := match run.err with
    | some e => if t.wrote then t.raw else (t.raw.act (.writeHeader (getStatusCode e))).act (.write (msg e))
    | none => t.raw
  let r := w.response
  { touched := run.touched, status := r.1, headers := r.2.1, body := r.2.2, logged := if req.path = "/api/nonce" then none else some t.code }

end Rothko
