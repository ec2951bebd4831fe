import Verif.Model.Bytes
/-!
# The web interface (ui/elm/QueryBar.elm, ui/elm/Graph.elm, ui/elm/Main.elm)

Texts are the bytes of their UTF-8 encodings; the numbers are integers. Html, styles and the Elm runtime are not modelled: a command's message comes later, at any time and in any order; a request is answered with anything or fails.
-/
namespace Rothko

/-! ## The query bar -/

/-- `Query` (ui/elm/QueryBar.elm:27-29): no menu, or the highlighted place and the completions. -/
inductive QQuery
  | closed
  | got (highlight : Option Int) (completions : List Bytes)
deriving DecidableEq

/-- `Model` (QueryBar.elm:32-36). -/
structure QBar where
  value : Bytes
  query : QQuery
deriving DecidableEq

/-- `new` (QueryBar.elm:39-44). -/
def QBar.new (value : Bytes) : QBar := ⟨value, .closed⟩

/-- `Msg` (QueryBar.elm:51-60). A response is `none` for an `Http.Error`. -/
inductive QMsg
  | setValue (v : Bytes)
  | focus
  | timer (v : Bytes)
  | response (v : Bytes) (r : Option (List Bytes))
  | dismiss
  | select (v : Bytes)
  | keyDown (key : String)
  | mouseOver (i : Int)
  | mouseLeave (i : Int)
deriving DecidableEq

/-- The commands of the query bar (QueryBar.elm:114-264): a timer of 250 milliseconds, a request for the completions of a text, a message to itself, the parent's message to draw. -/
inductive QCmd
  | sleep (v : Bytes)
  | request (v : Bytes)
  | send (m : QMsg)
  | parent (v : Bytes)
deriving DecidableEq

/-- `(List.drop index >> List.head) completions` (QueryBar.elm:250-251). Elm's `drop` of a negative number drops nothing. -/
def elmAt (l : List Bytes) (i : Int) : Option Bytes := (l.drop i.toNat).head?

/-- `updateKeyCode` (QueryBar.elm:225-264). -/
def updateKeyCode (highlight : Option Int) (completions : List Bytes) (key : String) : Option Int × List QCmd :=
  if key = "ArrowUp" then (match highlight with
    | none => (none, [])
    | some val => (some (max (val - 1) 0), []))
  else if key = "ArrowDown" then
    if completions.length = 0 then (none, []) else (some (min (highlight.getD (-1) + 1) (completions.length - 1)), [])
  else if key = "Enter" then (match highlight.bind (elmAt completions) with
    | some selected => (highlight, [.send (.select selected)])
    | none => (highlight, []))
  else if key = "Escape" then (highlight, [.send .dismiss])
  else (highlight, [])

/-- `doUpdate` (QueryBar.elm:114-222). -/
def QBar.update (b : QBar) : QMsg → QBar × List QCmd
  | .setValue v => (⟨v, .closed⟩, [.sleep v])
  | .focus => (b, [.request b.value])
  | .timer v => (b, if v = b.value then [.request v] else [])
  | .response v r => (match r with
    | some r => if v = b.value then ⟨b.value, .got none r⟩ else b
    | none => b, [])
  | .dismiss => (⟨b.value, .closed⟩, [])
  | .select v => (⟨v, .closed⟩, [.parent v])
  | .keyDown key => (match b.query with
    | .got h cs => (⟨b.value, .got (updateKeyCode h cs key).1 cs⟩, (updateKeyCode h cs key).2)
    | .closed => if key = "Enter" then (b, [.parent b.value]) else (b, []))
  | .mouseOver i => (match b.query with
    | .got _ cs => ⟨b.value, .got (some i) cs⟩
    | .closed => b, [])
  | .mouseLeave i => (match b.query with
    | .got (some j) cs => if j = i then ⟨b.value, .got none cs⟩ else b
    | _ => b, [])

/-- The completions that are visible: `viewAutocomplete` draws nothing for an empty list (QueryBar.elm:293-318). -/
def QBar.menu (b : QBar) : List Bytes :=
  match b.query with
  | .got _ cs => cs
  | .closed => []

/-- A query bar with what is under way (QueryBar.elm:79-222): timers with their times, requests, messages to itself. The histories are not part of the program: the texts typed with their times, the texts the parent gave, the answers, the names that
were in a menu, the names handed to the parent. -/
structure QBox where
  bar : QBar
  now : Nat
  sleeping : List (Bytes × Nat)
  requests : List Bytes
  msgs : List QMsg
  typed : List (Bytes × Nat)
  given : List Bytes
  answers : List (Bytes × List Bytes)
  shown : List Bytes
  selected : List Bytes
deriving DecidableEq

/-- A page with the text `v` in the bar (Main.elm:141-155). -/
def QBox.init (v : Bytes) : QBox := { bar := QBar.new v, now := 0, sleeping := [], requests := [], msgs := [], typed := [], given := [v], answers := [], shown := [], selected := [] }

/-- A command is started (QueryBar.elm:114-222). -/
def QBox.start (s : QBox) : QCmd → QBox
  | .sleep v => { s with sleeping := s.sleeping ++ [(v, s.now + 250)] }
  | .request v => { s with requests := s.requests ++ [v] }
  | .send m => { s with msgs := s.msgs ++ [m] }
  | .parent v => { s with selected := s.selected ++ [v] }

/-- A message is handled (QueryBar.elm:100-111). -/
def QBox.handle (s : QBox) (m : QMsg) : QBox :=
  (s.bar.update m).2.foldl QBox.start { s with bar := (s.bar.update m).1, shown := s.shown ++ (s.bar.update m).1.menu }

/-- What can happen (QueryBar.elm:79-93,277-348): the user types, enters or leaves the input, clicks on a name that was in a menu, presses a key, moves the mouse (the menu on the screen may be an older one, so that a place can be any);
a timer runs out, a request is answered or fails, a message arrives, the parent makes a new bar (Main.elm:141-155), time passes. -/
inductive QEv
  | type (v : Bytes)
  | focus
  | blur
  | click (v : Bytes)
  | key (k : String)
  | over (i : Nat)
  | leave (i : Nat)
  | fire (v : Bytes) (due : Nat)
  | answer (v : Bytes) (r : List Bytes)
  | fail (v : Bytes)
  | deliver (m : QMsg)
  | renew (v : Bytes)
  | wait (ms : Nat)

/-- One event (QueryBar.elm:79-222). An event that cannot happen now changes nothing. -/
def QBox.step (s : QBox) : QEv → QBox
  | .type v => QBox.handle { s with typed := s.typed ++ [(v, s.now)] } (.setValue v)
  | .focus => s.handle .focus
  | .blur => s.handle .dismiss
  | .click v => if v ∈ s.shown then s.handle (.select v) else s
  | .key k => s.handle (.keyDown k)
  | .over i => s.handle (.mouseOver i)
  | .leave i => s.handle (.mouseLeave i)
  | .fire v due => if (v, due) ∈ s.sleeping ∧ due ≤ s.now then QBox.handle { s with sleeping := s.sleeping.erase (v, due) } (.timer v) else s
  | .answer v r => if v ∈ s.requests then QBox.handle { s with requests := s.requests.erase v, answers := s.answers ++ [(v, r)] } (.response v (some r)) else s
  | .fail v => if v ∈ s.requests then QBox.handle { s with requests := s.requests.erase v } (.response v none) else s
  | .deliver m => if m ∈ s.msgs then QBox.handle { s with msgs := s.msgs.erase m } m else s
  | .renew v => { s with bar := QBar.new v, given := s.given ++ [v] }
  | .wait ms => { s with now := s.now + ms }

/-! ## The graph -/

/-- `State` (ui/elm/Graph.elm:37-46). -/
inductive UgState
  | nothing
  | delay (metric : Bytes)
  | image (metric : Bytes) (width : Int)
deriving DecidableEq

/-- `Model` (Graph.elm:49-54). -/
structure UGraph where
  state : UgState
  width : Option Int
  counter : Nat
deriving DecidableEq

/-- The model of `new` (Graph.elm:57-63). -/
def UGraph.new : UGraph := ⟨.nothing, none, 0⟩

/-- `Msg` (Graph.elm:73-76). The height is not used. -/
inductive UgMsg
  | draw (metric : Bytes)
  | resize (width : Int)
  | resizeTimer (counter : Nat)
deriving DecidableEq

/-- `doUpdate` (Graph.elm:110-143): the model, and the counter of a timer that is started. -/
def UGraph.update (g : UGraph) : UgMsg → UGraph × Option Nat
  | .draw metric => (match g.width with
    | none => { g with state := .delay metric }
    | some width => { g with state := .image metric width }, none)
  | .resize width => ({ g with width := some width, counter := g.counter + 1 }, some (g.counter + 1))
  | .resizeTimer counter => (if counter = g.counter then (match g.state, g.width with
    | .delay metric, some width => { g with state := .image metric width }
    | .image metric _, some width => { g with state := .image metric width }
    | _, _ => g) else g, none)

/-- What is seen (Graph.elm:156-174): the metric and the width of the image that is requested. -/
def UGraph.view (g : UGraph) : Option (Bytes × Int) :=
  match g.state with
  | .image metric width => some (metric, width - 38)
  | _ => none

end Rothko
