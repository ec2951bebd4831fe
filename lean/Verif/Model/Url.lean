import Verif.Model.Ui
import Verif.Model.Params
import Verif.Spec.Split
/-!
# Texts in addresses (ui/elm/Api.elm, Graph.elm:156-171, Main.elm:80-104; api/server.go:155-166, 274-276)

Elm's `Url` modules, `encodeURIComponent`, `decodeURIComponent`, the browser's reading of an address and Go's `net/url` are library code, transcribed since the meaning of the addresses rests on them. A text is its UTF-8 encoding.
-/
namespace Rothko

/-- The characters `encodeURIComponent` leaves as they are: letters, digits and `- _ . ! ~ * ' ( )` (ui/elm/Api.elm:29-31, library code). -/
def plainByte (b : UInt8) : Bool :=
  (65 ≤ b && b ≤ 90) || (97 ≤ b && b ≤ 122) || (48 ≤ b && b ≤ 57) || b == 45 || b == 95 || b == 46 || b == 33 || b == 126 || b == 42 || b == 39 || b == 40 || b == 41

/-- A hexadecimal digit (ui/elm/Api.elm:29-31, library code). -/
def hexDigit (n : Nat) : UInt8 := if n < 10 then UInt8.ofNat (48 + n) else UInt8.ofNat (55 + n)

/-- `Url.percentEncode` (ui/elm/Api.elm:29-31, library code). -/
def percentEncode (s : Bytes) : Bytes := s.flatMap (fun b => if plainByte b then [b] else [37, hexDigit (b.toNat / 16), hexDigit (b.toNat % 16)])

/-- `Builder.toQuery` without its `?` (ui/elm/Api.elm:24-26, Graph.elm:161-169, library code), for at least one parameter. -/
def toQuery (params : List (Bytes × Bytes)) : Bytes := joinWith 38 (params.map (fun p => percentEncode p.1 ++ 61 :: percentEncode p.2))

/-- What the browser makes of a query of such characters in an address: the apostrophe is escaped (Graph.elm:171, Main.elm:194, library code). -/
def browserQuery (s : Bytes) : Bytes := s.flatMap (fun b => if b == 39 then [37, 50, 55] else [b])

/-- The value of a hexadecimal digit (api/server.go:155, Main.elm:80-87, library code). -/
def hexValue (b : UInt8) : Option Nat :=
  if 48 ≤ b ∧ b ≤ 57 then some (b.toNat - 48)
  else if 97 ≤ b ∧ b ≤ 102 then some (b.toNat - 87)
  else if 65 ≤ b ∧ b ≤ 70 then some (b.toNat - 55)
  else none

/-- Escapes replaced by their bytes; `plus` is what a `+` stands for. `none`: an escape is malformed (api/server.go:155, Main.elm:80-87, library code). -/
def unescape (plus : UInt8) : Bytes → Option Bytes
  | [] => some []
  | 37 :: a :: b :: s => (match hexValue a, hexValue b, unescape plus s with
    | some x, some y, some r => some (UInt8.ofNat (x * 16 + y) :: r)
    | _, _, _ => none)
  | c :: s => if c = 37 then none else (unescape plus s).map ((if c = 43 then plus else c) :: ·)

/-- Whether the bytes are UTF-8 (Main.elm:80-87, library code). -/
def isText (s : Bytes) : Bool := (runes s).all (fun c => !(c.1 == 65533 && c.2.length == 1))

/-- `Url.percentDecode` (Main.elm:80-87, library code): a `+` is a plus, and the bytes must be UTF-8. -/
def percentDecode (s : Bytes) : Option Bytes :=
  match unescape 43 s with
  | some r => if isText r then some r else none
  | none => none

/-- `prepareQuery` of `Url.Parser` (Main.elm:80-87, library code): the parameters in their order. -/
def elmParams (query : Bytes) : List (Bytes × Bytes) :=
  (splitOn 38 query).filterMap (fun seg => match splitOn 61 seg with
    | [k, v] => (match percentDecode k, percentDecode v with
      | some k, some v => some (k, v)
      | _, _ => none)
    | _ => none)

/-- `Query.string key` (Main.elm:84, library code): the parameter's value if it is there exactly once. -/
def elmString (key : Bytes) (query : Option Bytes) : Option Bytes :=
  match ((query.elim [] elmParams).filter (fun (p : Bytes × Bytes) => p.1 == key)).map (fun (p : Bytes × Bytes) => p.2) with
  | [v] => some v
  | _ => none

/-- `removeFinalEmpty` of `Url.Parser` (Main.elm:80-87, library code). -/
def removeFinalEmpty : List Bytes → List Bytes
  | [] => []
  | s :: rest => if s = [] ∧ rest = [] then [] else s :: removeFinalEmpty rest

/-- `preparePath` of `Url.Parser` (Main.elm:80-87, library code): the segments of the path. -/
def preparePath (path : Bytes) : List Bytes :=
  match splitOn 47 path with
  | [] :: segments => removeFinalEmpty segments
  | segments => removeFinalEmpty segments

/-- `Url` (Main.elm:80, library code), without protocol, host and port, which stay the same. -/
structure UUrl where
  path : Bytes
  query : Option Bytes
  fragment : Option Bytes
deriving DecidableEq

/-- The metric's key (Main.elm:84,103). -/
def metricKey : Bytes := [109, 101, 116, 114, 105, 99]

/-- Whether `Parser.top` matches the path (Main.elm:84, library code): nothing, or one empty segment, is left. -/
def UUrl.top (u : UUrl) : Bool := preparePath u.path == [] || preparePath u.path == [[]]

/-- `parse` (Main.elm:80-87): the metric of an address. -/
def UUrl.metric (u : UUrl) : Option Bytes := if u.top then elmString metricKey u.query else none

/-- `render` (Main.elm:90-104) and `Navigation.pushUrl` (Main.elm:194, library code): the same path with another query, and no fragment. -/
def UUrl.push (u : UUrl) (metric : Bytes) : UUrl := ⟨u.path, some (browserQuery (toQuery [(metricKey, metric)])), none⟩

/-- The digits of a number (Graph.elm:167, library code). -/
def decimalNat (n : Nat) : Bytes := if n < 10 then [UInt8.ofNat (48 + n)] else decimalNat (n / 10) ++ [UInt8.ofNat (48 + n % 10)]
decreasing_by omega

/-- `String.fromInt` (Graph.elm:167, library code). -/
def decimalInt (i : Int) : Bytes := if i < 0 then 45 :: decimalNat i.natAbs else decimalNat i.natAbs

/-- The query of the image's address (Graph.elm:160-169): the parameter added last comes first. The argument is the metric and the width that are seen. -/
def imageQuery (v : Bytes × Int) : Bytes :=
  toQuery [([112, 97, 100, 100, 105, 110, 103], [53]), ([119, 105, 100, 116, 104], decimalInt v.2), (metricKey, v.1)]

/-- The query of the request for completions (ui/elm/Api.elm:119-135), without `results`. -/
def completionQuery (v : Bytes) : Bytes := toQuery [([113, 117, 101, 114, 121], v)]

/-- A key of ASCII characters as a string (api/server.go:155-166). Each other byte is read as a character of its own, so that keys stay apart. -/
def keyString (k : Bytes) : String := String.ofList (k.map (fun b => Char.ofNat b.toNat))

/-- `url.ParseQuery` (api/server.go:155, library code): `;` separates like `&`, a parameter that is malformed is left out. -/
def goForm (query : Bytes) : List (String × Bytes) :=
  (splitOn 38 (query.map (fun b => if b = 59 then 38 else b))).filterMap (fun seg =>
    if seg = [] then none
    else match unescape 32 (seg.takeWhile (· != 61)), unescape 32 ((seg.dropWhile (· != 61)).drop 1) with
      | some k, some v => some (keyString k, v)
      | _, _ => none)

end Rothko
