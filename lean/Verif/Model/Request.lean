import Verif.Model.Process
import Verif.Model.Response
/-!
# A request for a graph while the program runs (api/server.go:149-271)

In Model/Process a request is a call of the database whose callback decides by the values it was called with. Here the callback is the one of `serveRender`, and what it gives back is made into the answer. The handler reads the clock
before it calls `Query` (server.go:163).
-/
namespace Rothko

/-- The variables of `serveRender` after the callback was called with these values (server.go:170-222). -/
def renderAfter {D α : Type} (p : RenderParams D α) (now dur : Int64) (seen : List Val) : RenderSt α := seen.foldl (fun st v => (renderCb p now dur (now - dur) st v).1) {}

/-- The query that a request for a graph makes (server.go:189-222). -/
def renderCall {D α : Type} (p : RenderParams D α) (cfg : Cfg) (now dur : Int64) : DbCall := .query cfg now (fun seen v => (renderCb p now dur (now - dur) (renderAfter p now dur seen) v).2)

/-- What is made of the query's result (server.go:223-234). -/
def renderAnswer {D α : Type} (p : RenderParams D α) (now dur : Int64) : DbRes → RenderRes α
  | .query seen err => renderEnd p (renderAfter p now dur seen) err
  | _ => .failed

/-- The query that a request for a picture makes (server.go:149-222). -/
def pngCall {D α P : Type} (sc : Scene D α P) (cfg : Cfg) (now dur : Int64) (width height padding : Int) : DbCall := renderCall (sc.params (pngOpts now dur width height padding)) cfg now dur

/-- The picture that is made of its result (server.go:223-271). -/
def pngAnswer {D α P : Type} (sc : Scene D α P) (now dur : Int64) (width height padding : Int) (r : DbRes) : Page :=
  pngOf sc (pngOpts now dur width height padding) (renderAnswer (sc.params (pngOpts now dur width height padding)) now dur r)

end Rothko
