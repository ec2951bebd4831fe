import Verif.Model.Request
import Verif.Model.Params
import Verif.Model.Http
import Verif.Model.Url
import Verif.Model.Ieee
/-!
# A request for a graph from its form to its answer (api/server.go:149-271, api/common.go:59-85)

`Model/Params` reads the numbers, `Model/Request` makes the query and the picture, `Model/Http` sends what a handler writes. Here they are put together.
-/
namespace Rothko

/-- What `serveRender` uses that is not modelled: `time.ParseDuration` (Model/Duration has it) and `strconv.ParseFloat` (common.go:74,81; `none`: an error), pictures for a number of samples and a compression (server.go:180-185), `png.Encode` (server.go:270) and
the JSON of the metric, the columns, the newest record, the time, the duration, the width, the height and the padding (server.go:241-250; `none`: an error, as for a rate that is not finite). -/
structure Backend (D α P : Type) where
  duration : Bytes → Option Int64
  float : Bytes → Option F64
  scene : Int64 → F64 → Scene D α P
  encode : Canvas → Bytes → Bytes
  json : Bytes → List (Col α) → Bytes → Int64 → Int64 → Int64 → Int64 → Int64 → Option Bytes

/-- `getDuration` (common.go:73-78). -/
def getDuration (parse : Bytes → Option Int64) (x : Bytes) (dflt : Int64) : Int64 := (parse x).getD dflt

/-- `getFloat64` (common.go:80-85). -/
def getFloat (parse : Bytes → Option F64) (x : Bytes) (dflt : F64) : F64 := (parse x).getD dflt

/-- The parameters of a request for a graph (server.go:154-166). -/
structure RenderAsk where
  metric : Bytes
  nums : RenderNums
  dur : Int64
  compression : F64

/-- server.go:154-166, at the time `clock`: 24 hours and a compression of 5 unless the form says otherwise. -/
def renderAsk {D α P : Type} (b : Backend D α P) (form : List (String × Bytes)) (clock : Int64) : RenderAsk where
  metric := formValue form "metric"
  nums := renderNums form clock
  dur := getDuration b.duration (formValue form "duration") 86400000000000
  compression := getFloat b.float (formValue form "compression") 0x4014000000000000#64

/-- The pictures of the request (server.go:170-185). -/
def RenderAsk.scene {D α P : Type} (b : Backend D α P) (a : RenderAsk) : Scene D α P := b.scene a.nums.samples a.compression

/-- The query that is made (server.go:189-222): `a.metric` is its metric. -/
def RenderAsk.call {D α P : Type} (b : Backend D α P) (cfg : Cfg) (a : RenderAsk) : DbCall :=
  pngCall (a.scene b) cfg a.nums.now a.dur a.nums.width.toInt a.nums.height.toInt a.nums.padding.toInt

/-- The columns and the newest record (server.go:223-234). -/
def RenderAsk.columns {D α P : Type} (b : Backend D α P) (a : RenderAsk) (r : DbRes) : RenderRes α :=
  renderAnswer ((a.scene b).params (pngOpts a.nums.now a.dur a.nums.width.toInt a.nums.height.toInt a.nums.padding.toInt)) a.nums.now a.dur r

/-- The picture (server.go:223-271). -/
def RenderAsk.page {D α P : Type} (b : Backend D α P) (a : RenderAsk) (r : DbRes) : Page :=
  pngAnswer (a.scene b) a.nums.now a.dur a.nums.width.toInt a.nums.height.toInt a.nums.padding.toInt r

/-- What is done with a picture (server.go:224-234, 268-270). `none`: it panics. A picture whose width or height is 0 or too large for png is not treated apart. -/
def pageActs (encode : Canvas → Bytes → Bytes) : Page → Option (List HAct × Option HErr)
  | .png c pix => some ([.setHeader "Content-Type" "image/png", .write (encode c pix)], none)
  | .failed => some ([], some .other)
  | .tooSmall => some ([], some .other)
  | .panicked => none

/-- What `serveRender` writes and returns (server.go:223-271) when the query gave `r`. `json.Encoder.Encode` writes nothing if it fails (library code). -/
def RenderAsk.reply {D α P : Type} (b : Backend D α P) (accept : String) (a : RenderAsk) (r : DbRes) : Option (List HAct × Option HErr) :=
  if accept = "application/json" then
    match a.columns b r with
    | .columns newest _ cols =>
      match b.json a.metric cols newest a.nums.now a.dur a.nums.width a.nums.height a.nums.padding with
      | some body => some ([.setHeader "Content-Type" "application/json", .write body], none)
      | none => some ([.setHeader "Content-Type" "application/json"], some .other)
    | .failed => some ([], some .other)
    | .tooSmall => some ([], some .other)
    | .panicked => none
  else pageActs b.encode (a.page b r)

/-- A request for `path?query` as net/http hands it over (api/server.go:73,126-130; library code). -/
def getRequest (path : String) (query : Bytes) (auth : Option (Bytes × Bytes)) (accept : String) : HReq := ⟨"GET", path, auth, formValue (goForm query), accept⟩

/-- The request for the image that the page shows (ui/elm/Graph.elm:160-171): `api/render` with the metric and the width that are seen. -/
def imageRequest (seen : Bytes × Int) (auth : Option (Bytes × Bytes)) (accept : String) : HReq := getRequest "/api/render" (browserQuery (imageQuery seen)) auth accept

end Rothko
