import Verif.Spec.Split
import Verif.Model.SSet
/-!
# Searching metrics (api/query/glob.go, api/query/spec.go, api/query/search.go)
-/
namespace Rothko

/-- `if 'A' <= n && n <= 'Z' { n += 'a' - 'A' }` (glob.go:18-20, spec.go:38-40). -/
def lowerByte (n : UInt8) : UInt8 := if 65 ≤ n ∧ n ≤ 90 then n + 32 else n

/-- The variables of `glob` (glob.go:10-11). -/
structure GState where
  px : Nat
  nx : Nat
  npx : Nat
  nnx : Nat
deriving DecidableEq, Repr

/-- The backtracking at the end of the loop body (glob.go:42-48). -/
def globBack (name : Bytes) (s : GState) : GState ⊕ Bool :=
  if 0 < s.nnx ∧ s.nnx < name.length then .inl { s with px := s.npx, nx := s.nnx } else .inr false

/-- One iteration of the loop of `glob` (glob.go:13-48): the next state or the result. -/
def globStep (pattern name : Bytes) (s : GState) : GState ⊕ Bool :=
  match pattern[s.px]? with
  | none => .inr true
  | some c =>
    match name[s.nx]? with
    | none => .inr false
    | some n =>
      if c = 63 then .inl { s with px := s.px + 1, nx := s.nx + 1 }
      else if c = 42 then .inl { s with npx := s.px, nnx := s.nx + 1, px := s.px + 1 }
      else if lowerByte n = c then .inl { s with px := s.px + 1, nx := s.nx + 1 }
      else globBack name s

/-- The loop, with a bound on the number of iterations; `none` if it is reached. (glob.go:13-48.) -/
def globRun (pattern name : Bytes) : Nat → GState → Option Bool
  | 0, _ => none
  | fuel + 1, s =>
    match globStep pattern name s with
    | .inr b => some b
    | .inl s => globRun pattern name fuel s

/-- A bound on the number of iterations (C38 proves that it is never reached). (glob.go:13.) -/
def globBound (pattern name : Bytes) : Nat := (name.length + 1) * (pattern.length + 2)

/-- `glob(pattern, name)` (glob.go:9-52). -/
def glob (pattern name : Bytes) : Bool := globRun pattern name (globBound pattern name) ⟨0, 0, 0, 0⟩ = some true

/-- `globify(part)` (spec.go:29-46). -/
def globify (part : Bytes) : Bytes := 42 :: part.map lowerByte

/-- `strings.IndexByte(s, '.')`; `none` is -1. (spec.go:59-65.) -/
def indexDot (s : Bytes) : Option Nat := if 46 ∈ s then some (s.takeWhile (· != 46)).length else none

/-- `splitMetric(metric)` (spec.go:72-78). -/
def splitMetric (metric : Bytes) : Bytes × Bytes :=
  match indexDot metric with
  | none => (metric, [])
  | some i => (metric.take i, metric.drop (i + 1))

/-- `newSpec(s)` (spec.go:18-26). `strings.Split(s, ".")` is `splitOn`. -/
def newSpec (s : Bytes) : List Bytes := (splitOn 46 s).map globify

/-- The inner loop of `Match` (spec.go:59-65): whether every glob matched. -/
def matchGlobs : List Bytes → Bytes → Bytes → Bool
  | [], _, _ => true
  | g :: gs, part, tail =>
    if glob g part then matchGlobs gs (splitMetric tail).1 (splitMetric tail).2
    else false

theorem splitMetric_lt {m : Bytes} (h : m ≠ []) : (splitMetric m).2.length < m.length := by
  have := List.length_pos_iff.mpr h
  unfold splitMetric
  split
  · simpa using this
  · simp; omega

/-- `Match(metric)` (spec.go:49-69). -/
def specMatch (globs : List Bytes) (metric : Bytes) : Bool :=
  if _h : metric = [] then false
  else
    if matchGlobs globs (splitMetric metric).1 (splitMetric metric).2 then true
    else specMatch globs (splitMetric metric).2
termination_by metric.length
decreasing_by exact splitMetric_lt _h

/-- `Search` (search.go:10-13), with `cap(matched)`. -/
structure Search where
  specs : List (List Bytes)
  matched : List Bytes
  cap : Nat

/-- The length of a rune by its first byte, and the range of its second byte: the tables of `unicode/utf8`. Length 0: no rune begins with the byte. (search.go:17, library code.) -/
def runeClass (a : Nat) : Nat × Nat × Nat :=
  if a < 128 then (1, 0, 0)
  else if a < 194 then (0, 0, 0)
  else if a < 224 then (2, 128, 191)
  else if a = 224 then (3, 160, 191)
  else if a = 237 then (3, 128, 159)
  else if a < 240 then (3, 128, 191)
  else if a = 240 then (4, 144, 191)
  else if a < 244 then (4, 128, 191)
  else if a = 244 then (4, 128, 143)
  else (0, 0, 0)

/-- A continuation byte (search.go:17, library code). -/
def isCont (b : UInt8) : Bool := 128 ≤ b.toNat && b.toNat ≤ 191

/-- A rune of two bytes (search.go:17, library code). Masks and shifts are written as arithmetic. -/
def decode2 (a : UInt8) (lo hi : Nat) : Bytes → Nat × Bytes
  | b :: _ => if lo ≤ b.toNat ∧ b.toNat ≤ hi then (a.toNat % 32 * 64 + b.toNat % 64, [a, b]) else (65533, [a])
  | _ => (65533, [a])

/-- A rune of three bytes (search.go:17, library code). -/
def decode3 (a : UInt8) (lo hi : Nat) : Bytes → Nat × Bytes
  | b :: c :: _ => if lo ≤ b.toNat ∧ b.toNat ≤ hi ∧ isCont c then (a.toNat % 16 * 4096 + b.toNat % 64 * 64 + c.toNat % 64, [a, b, c]) else (65533, [a])
  | _ => (65533, [a])

/-- A rune of four bytes (search.go:17, library code). -/
def decode4 (a : UInt8) (lo hi : Nat) : Bytes → Nat × Bytes
  | b :: c :: d :: _ =>
    if lo ≤ b.toNat ∧ b.toNat ≤ hi ∧ isCont c ∧ isCont d then (a.toNat % 8 * 262144 + b.toNat % 64 * 4096 + c.toNat % 64 * 64 + d.toNat % 64, [a, b, c, d]) else (65533, [a])
  | _ => (65533, [a])

/-- `utf8.DecodeRuneInString` (search.go:17, library code): the rune and its bytes; a byte that begins no rune is U+FFFD of one byte. -/
def decodeRune (a : UInt8) (s : Bytes) : Nat × Bytes :=
  match runeClass a.toNat with
  | (1, _, _) => (a.toNat, [a])
  | (2, lo, hi) => decode2 a lo hi s
  | (3, lo, hi) => decode3 a lo hi s
  | (4, lo, hi) => decode4 a lo hi s
  | _ => (65533, [a])

/-- The runes of a string, as `range` over it goes through them (search.go:17, library code). The first argument bounds their number. -/
def runesLoop : Nat → Bytes → List (Nat × Bytes)
  | 0, _ => []
  | _, [] => []
  | fuel + 1, a :: s => decodeRune a s :: runesLoop fuel (s.drop ((decodeRune a s).2.length - 1))

/-- The runes of a string with their bytes (search.go:17, library code). -/
def runes (s : Bytes) : List (Nat × Bytes) := runesLoop s.length s

/-- `unicode.IsSpace` (search.go:17, library code). -/
def isSpaceRune (r : Nat) : Bool :=
  (9 ≤ r && r ≤ 13) || r = 32 || r = 133 || r = 160 || r = 5760 || (8192 ≤ r && r ≤ 8202) || r = 8232 || r = 8233 || r = 8239 || r = 8287 || r = 12288

/-- The loop of `strings.Fields` over the runes of the string (Go's standard library): fields done, field in progress. (search.go:17, library code.) -/
def fieldsLoop : List (Nat × Bytes) → List Bytes → Bytes → List Bytes
  | [], acc, cur => if cur = [] then acc else acc ++ [cur]
  | (r, bs) :: s, acc, cur =>
    if isSpaceRune r then fieldsLoop s (if cur = [] then acc else acc ++ [cur]) []
    else fieldsLoop s acc (cur ++ bs)

/-- `strings.Fields` (search.go:17, library code). -/
def fields (s : Bytes) : List Bytes := fieldsLoop (runes s) [] []

/-- `New(query, capacity)` (search.go:16-26); a negative capacity panics in `make`. -/
def newSearch (query : Bytes) (capacity : Int) : Option Search :=
  if capacity < 0 then none else some ⟨(fields query).map newSpec, [], capacity.toNat⟩

/-- `Match` (search.go:29-36). -/
def Search.match_ (s : Search) (metric : Bytes) : Bool := s.specs.all (fun sp => specMatch sp metric)

/-- `Add` (search.go:39-48). It never reallocates, so the capacity stays. -/
def Search.add (s : Search) (name : Bytes) : Search × Bool :=
  if s.matched.length = s.cap then (s, false)
  else if !s.match_ name then (s, true)
  else ({ s with matched := s.matched ++ [name] }, true)

/-- `db.Metrics(ctx, search.Add)` (api/server.go:281-287), over the names the database lists in order (C35): the search afterwards and the names it was called with. -/
def runSearch (s : Search) (names : List Bytes) : Search × List Bytes := iterLoop Search.add names s []

end Rothko
