import Verif.Model.Metric
/-!
# Names: database/files/convert.go and the path functions of database/files/metric.go
-/
namespace Rothko

/-- `"%2e"` (convert.go:18,47). -/
def escDot : Bytes := [37, 50, 101]
/-- `"%2f"` (convert.go:31). -/
def escSlash : Bytes := [37, 50, 102]
/-- `"%25"` (convert.go:33). -/
def escPercent : Bytes := [37, 50, 53]

/-- The variables of the loop in `metricToDir` (convert.go:12-14). -/
structure EncState where
  buf : Bytes
  nonDots : Bool
  dots : Nat
deriving DecidableEq, Repr

/-- The inner switch (convert.go:29-36). -/
def encByte (ch : UInt8) : Bytes := if ch = 47 then escSlash else if ch = 37 then escPercent else [ch]

/-- One iteration of the loop (convert.go:15-37). -/
def encStep (s : EncState) (ch : UInt8) : EncState :=
  if ch = 46 then
    { s with buf := s.buf ++ (if s.dots > 0 || !s.nonDots then escDot else [47]), dots := s.dots + 1 }
  else
    { buf := s.buf ++ (if !s.nonDots && s.dots > 0 then [47] else []) ++ encByte ch, nonDots := true, dots := 0 }

/-- The fix up at the end (convert.go:42-49). -/
def encFinish (s : EncState) : Bytes :=
  if s.dots > 0 && s.nonDots then
    s.buf.take (s.buf.length - (1 + (s.dots - 1) * 3)) ++ [47] ++ (List.replicate s.dots escDot).flatten
  else s.buf

/-- `metricToDir(buf, metric)` (convert.go:11-52): appends to `buf`. -/
def metricToDir (buf metric : Bytes) : Bytes :=
  encFinish (metric.foldl encStep { buf, nonDots := false, dots := 0 })

/-- The variables of `dirToMetric` (convert.go:55-56). -/
structure DecState where
  buf : Bytes
  lastDot : Bool
  allDots : Bool
deriving DecidableEq, Repr

/-- The loop of `dirToMetric` (convert.go:57-96); `none` is the error. -/
def decLoop : Bytes → DecState → Option DecState
  | [], s => some s
  | ch :: rest, s =>
    if ch = 47 then
      decLoop rest (if s.lastDot then s else { buf := s.buf ++ [46], lastDot := true, allDots := true })
    else if ch = 37 then
      match rest with
      | d :: e :: rest' =>
        if d ≠ 50 then none
        else if e = 101 then decLoop rest' { s with buf := s.buf ++ [46], lastDot := true }
        else if e = 102 then decLoop rest' { buf := s.buf ++ [47], lastDot := false, allDots := false }
        else if e = 53 then decLoop rest' { buf := s.buf ++ [37], lastDot := false, allDots := false }
        else none
      | _ => none
    else if ch = 46 then none
    else decLoop rest { buf := s.buf ++ [ch], lastDot := false, allDots := false }

/-- `dirToMetric(buf, dir)` (convert.go:54-104). -/
def dirToMetric (buf dir : Bytes) : Option Bytes :=
  match decLoop dir { buf, lastDot := false, allDots := false } with
  | none => none
  | some s => some (if s.allDots && decide (0 < dir.length) then s.buf.take (s.buf.length - 1) else s.buf)

/-- `strconv.AppendInt(_, n, 10)` for `n ≥ 0`: the decimal digits. (metric.go:56.) -/
def natDec (n : Nat) : Bytes := if n < 10 then [UInt8.ofNat (48 + n)] else natDec (n / 10) ++ [UInt8.ofNat (48 + n % 10)]
decreasing_by omega

/-- `strconv.AppendInt(_, i, 10)` (metric.go:56, convert.go:115). -/
def intDec (i : Int) : Bytes := if i < 0 then 45 :: natDec i.natAbs else natDec i.natAbs

/-- `".data"`. (metric.go:57,118.) -/
def dataSuffix : Bytes := [46, 100, 97, 116, 97]

/-- `append(_, '/')` unless empty or already there (metric.go:53-55,82-84). -/
def addSlash (b : Bytes) : Bytes := if 0 < b.length && b.getLast? != some 47 then b ++ [47] else b

/-- `metricFilenameAt(dir, index)` (metric.go:46-61). -/
def metricFilenameAt (dir : Bytes) (index : Int) : Bytes := addSlash dir ++ intDec index ++ dataSuffix

/-- The directory of a metric as `newMetric` computes it from `opts.dir` and `opts.name` (metric.go:80-86). -/
def metricDir (dbDir name : Bytes) : Bytes := metricToDir (addSlash dbDir) name

/-- `metricToPath(buf, metric, num)` (convert.go:108-119). -/
def metricToPath (buf metric : Bytes) (num : Int) : Bytes :=
  let buf := metricToDir buf metric
  (if buf.length > 0 then buf ++ [47] else buf) ++ intDec num ++ dataSuffix

/-- The digits loop of `strconv.ParseUint(s, 10, 64)`, before the range check: `none` on an empty string or a byte that is not a digit. (metric.go:122.) -/
def parseDigits (s : Bytes) : Option Nat :=
  if s = [] then none
  else s.foldl (fun a c => a.bind (fun n => if 48 ≤ c ∧ c ≤ 57 then some (n * 10 + (c.toNat - 48)) else none)) (some 0)

/-- `strconv.ParseInt(s, 10, 0)` on a 64 bit platform (metric.go:122): optional sign, digits, range check. Go's standard library, modelled by its documentation. -/
def parseInt (s : Bytes) : Option Int :=
  let neg := s.head? == some 45
  let body := if s.head? == some 45 || s.head? == some 43 then s.tail else s
  match parseDigits body with
  | none => none
  | some n =>
    if neg then (if n ≤ 2 ^ 63 then some (-(n : Int)) else none)
    else if n < 2 ^ 63 then some (n : Int) else none

/-- The number of a name found in the directory, if it counts as a data file (metric.go:118-126). -/
def dataFileIndex (name : Bytes) : Option Int :=
  if dataSuffix.isSuffixOf name then parseInt (name.take (name.length - 5)) else none

/-- The scan of `newMetric` over the names of the directory (metric.go:115-136). -/
def scanNames (names : List Bytes) : Int × Int × Bool :=
  names.foldl (fun acc name => match dataFileIndex name with
    | none => acc
    | some iv => scanStep acc iv) (0, 0, false)

end Rothko
