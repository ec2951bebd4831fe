import Verif.Model.Query
/-!
# The parameters of a request and the query request (api/common.go:59-71, api/server.go:155-166, 274-288)

`strconv.ParseInt` is transcribed from Go's standard library, as the parameters' meaning rests on it.
-/
namespace Rothko

/-- The loop of `strconv.ParseUint` in base 10 with 64 bits (api/common.go:60, library code): digits are added unless the number so far is at least 2^64/10 rounded up, or the addition wraps. `none`: an error. -/
def parseUintLoop : Bytes → UInt64 → Option UInt64
  | [], n => some n
  | c :: s, n =>
    if ¬ (48 ≤ c ∧ c ≤ 57) then none
    else if n ≥ 1844674407370955162 then none
    else if n * 10 + (c - 48).toUInt64 < n * 10 then none
    else parseUintLoop s (n * 10 + (c - 48).toUInt64)

/-- `strconv.ParseUint(s, 10, 64)` (api/common.go:60, library code). -/
def parseUint (s : Bytes) : Option UInt64 := if s = [] then none else parseUintLoop s 0

/-- The sign of a number (api/common.go:60, library code): whether it is negative, and what follows. -/
def cutSign : Bytes → Bool × Bytes
  | 43 :: s => (false, s)
  | 45 :: s => (true, s)
  | s => (false, s)

/-- `strconv.ParseInt(x, 10, 64)` (api/common.go:60, library code). `none`: an error. Out of range is an error either way, so that the value `ParseUint` gives with it does not matter. -/
def parseInt64 (x : Bytes) : Option Int64 :=
  if x = [] then none
  else
    match parseUint (cutSign x).2 with
    | none => none
    | some un =>
      if !(cutSign x).1 && un ≥ 9223372036854775808 then none
      else if (cutSign x).1 && un > 9223372036854775808 then none
      else some (if (cutSign x).1 then - un.toInt64 else un.toInt64)

/-- `getInt64` (common.go:59-64), and `getInt` (common.go:66-71) where an int has 64 bits. -/
def getInt (x : Bytes) (dflt : Int64) : Int64 :=
  match parseInt64 x with
  | some v => v
  | none => dflt

/-- `req.FormValue` (api/server.go:155-166): the first value of the key, empty if there is none (library code). Parsing the url and the body is not modelled. -/
def formValue : List (String × Bytes) → String → Bytes
  | [], _ => []
  | (k, v) :: f, key => if k = key then v else formValue f key

/-- The numbers of a render request (server.go:160-165). -/
structure RenderNums where
  width : Int64
  height : Int64
  padding : Int64
  now : Int64
  samples : Int64
deriving DecidableEq

/-- server.go:160-165, at the time `clock`. The duration and the compression (164,166) are parsed by library code that is not modelled. -/
def renderNums (form : List (String × Bytes)) (clock : Int64) : RenderNums :=
  { width := getInt (formValue form "width") 1000, height := getInt (formValue form "height") 350, padding := getInt (formValue form "padding") 0,
    now := getInt (formValue form "now") clock, samples := getInt (formValue form "samples") 30 }

/-- `serveQuery` (server.go:274-288) over the names the database lists in order: the names encoded as the answer. `none`: it panics. That a large number of results is too much for the memory is left out. -/
def serveQuery (form : List (String × Bytes)) (names : List Bytes) : Option (List Bytes) :=
  match newSearch (formValue form "query") (getInt (formValue form "results") 10).toInt with
  | none => none
  | some s => some (runSearch s names).1.matched

end Rothko
