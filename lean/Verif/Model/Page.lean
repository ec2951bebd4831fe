import Verif.Model.Url
/-!
# The page (ui/elm/Main.elm)

A command that sends a message or changes the address is done before the browser hands the page its next event (JavaScript runs one event to completion), in any order; a timer, a request and the reading of the window's size
end later, at any time. The links of the page lead to the address with an empty fragment (`goto`); the titles, the styles and addresses of other hosts are not modelled.
-/
namespace Rothko

/-- `Msg` (ui/elm/Main.elm:63-68), without `OnUrlRequest`: it only makes the browser go to an address (Main.elm:181-187). -/
inductive UMsg
  | draw (metric : Bytes) (push : Bool)
  | graph (m : UgMsg)
  | bar (m : QMsg)
  | urlChange (u : UUrl)
deriving DecidableEq

/-- The commands (Main.elm:141-205). -/
inductive UCmd
  | send (m : UMsg)
  | push (metric : Bytes)
  | viewport
  | timer (counter : Nat)
  | sleep (v : Bytes)
  | request (v : Bytes)
deriving DecidableEq

/-- `Model` (Main.elm:111-117). -/
structure UModel where
  url : UUrl
  graph : UGraph
  bar : QBar
deriving DecidableEq

/-- `init` (Main.elm:141-164). -/
def UModel.init (u : UUrl) : UModel × List UCmd :=
  (⟨u, UGraph.new, QBar.new (u.metric.getD [])⟩, .viewport :: if u.metric.getD [] ≠ [] then [.send (.draw (u.metric.getD []) false)] else [])

/-- The query bar's commands as the page's (Main.elm:128-134, ui/elm/QueryBar.elm:100-111). -/
def QCmd.lift : QCmd → UCmd
  | .sleep v => .sleep v
  | .request v => .request v
  | .send m => .send (.bar m)
  | .parent v => .send (.draw v true)

/-- `update` (Main.elm:171-205). -/
def UModel.update (m : UModel) : UMsg → UModel × List UCmd
  | .urlChange u => if u ≠ m.url then UModel.init u else (m, [])
  | .draw metric push => (m, .send (.graph (.draw metric)) :: if push then [.push metric] else [])
  | .graph g => ({ m with graph := (m.graph.update g).1 }, (m.graph.update g).2.toList.map .timer)
  | .bar b => ({ m with bar := (m.bar.update b).1 }, (m.bar.update b).2.map QCmd.lift)

/-- The page in the browser (Main.elm:44-53): the model, the address, the window's width, the time, and what is under way. `resized` is not part of the program: the time of the last message about the window's size. -/
structure UPage where
  model : UModel
  address : UUrl
  window : Int
  now : Nat
  pending : List UCmd
  viewports : Nat
  timers : List (Nat × Nat)
  sleeping : List (Bytes × Nat)
  requests : List Bytes
  resized : Nat
deriving DecidableEq

/-- A command is started (Main.elm:141-205). -/
def UPage.start (s : UPage) : UCmd → UPage
  | .send m => { s with pending := s.pending ++ [.send m] }
  | .push v => { s with pending := s.pending ++ [.push v] }
  | .viewport => { s with viewports := s.viewports + 1 }
  | .timer c => { s with timers := s.timers ++ [(c, s.now + 250)] }
  | .sleep v => { s with sleeping := s.sleeping ++ [(v, s.now + 250)] }
  | .request v => { s with requests := s.requests ++ [v] }

/-- A message is handled (Main.elm:171-205). -/
def UPage.handle (s : UPage) (m : UMsg) : UPage := (s.model.update m).2.foldl UPage.start { s with model := (s.model.update m).1 }

/-- The page is loaded at the address `u` (Main.elm:141-164). -/
def UPage.load (u : UUrl) (window : Int) (now : Nat) : UPage :=
  (UModel.init u).2.foldl UPage.start ⟨(UModel.init u).1, u, window, now, [], 0, [], [], [], now⟩

/-- A command that sends a message or changes the address is done: `pushUrl` hands the page the new address (Main.elm:194, library code). -/
def UPage.done (s : UPage) : UCmd → UPage
  | .send m => s.handle m
  | .push v => UPage.handle { s with address := s.address.push v } (.urlChange (s.address.push v))
  | _ => s

/-- What can happen: a command under way is done; and, when none is, the window changes its width, its width is read, a timer runs out, something happens to the query bar (a message of its view, Main.elm:251-253), a request ends, the address is changed by
hand or by a link or by going back or forward, the page is loaded, time passes (Main.elm:44-53,171-217). -/
inductive UEv
  | run (i : Nat)
  | resize (w : Int)
  | viewport
  | fire (c due : Nat)
  | bar (m : QMsg)
  | barTimer (v : Bytes) (due : Nat)
  | answer (v : Bytes) (r : Option (List Bytes))
  | goto (u : UUrl)
  | load (u : UUrl)
  | wait (ms : Nat)

/-- One event (Main.elm:44-53). An event that cannot happen now changes nothing. -/
def UPage.step (s : UPage) : UEv → UPage
  | .run i => (match s.pending[i]? with
    | some c => UPage.done { s with pending := s.pending.eraseIdx i } c
    | none => s)
  | .resize w => if s.pending = [] then UPage.handle { s with window := w, resized := s.now } (.graph (.resize w)) else s
  | .viewport => if s.pending = [] ∧ 0 < s.viewports then UPage.handle { s with viewports := s.viewports - 1, resized := s.now } (.graph (.resize s.window)) else s
  | .fire c due => if s.pending = [] ∧ (c, due) ∈ s.timers ∧ due ≤ s.now then UPage.handle { s with timers := s.timers.erase (c, due) } (.graph (.resizeTimer c)) else s
  | .bar m => if s.pending = [] then s.handle (.bar m) else s
  | .barTimer v due => if s.pending = [] ∧ (v, due) ∈ s.sleeping ∧ due ≤ s.now then UPage.handle { s with sleeping := s.sleeping.erase (v, due) } (.bar (.timer v)) else s
  | .answer v r => if s.pending = [] ∧ v ∈ s.requests then UPage.handle { s with requests := s.requests.erase v } (.bar (.response v r)) else s
  | .goto u => if s.pending = [] then UPage.handle { s with address := u } (.urlChange u) else s
  | .load u => if s.pending = [] then UPage.load u s.window s.now else s
  | .wait ms => { s with now := s.now + ms }

end Rothko
