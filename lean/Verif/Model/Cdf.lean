import Verif.Model.Float
/-!
# The estimated CDF (dist/tdigest/wrapper.go)

The t-digest (github.com/zeebo/tdigest) is not in the repository. It is its observations, and its `Quantile` is a parameter `quant`.
Ranks are rationals: those the code computes are multiples of 1/128 between 0 and 1, which `float64` holds exactly.
-/
namespace Rothko

/-- `Wrapper` (wrapper.go:43-46). A nil cache is an empty one. -/
structure TWrap where
  obs : List F64 := []
  cache : List (Rat × F64) := []

/-- `Observe` (wrapper.go:64-66). -/
def TWrap.observe (w : TWrap) (v : F64) : TWrap := { w with obs := w.obs ++ [v] }

/-- `quan` (wrapper.go:80-90). -/
def TWrap.quan (quant : List F64 → Rat → F64) (w : TWrap) (q : Rat) : F64 × TWrap :=
  match w.cache.lookup q with
  | some v => (v, w)
  | none => let v := quant w.obs q; (v, { w with cache := (q, v) :: w.cache })

/-- The loop of `CDF` (wrapper.go:110-119). -/
def TWrap.bisect (quant : List F64 → Rat → F64) (x : F64) : Nat → TWrap → Rat → Rat → Rat × TWrap
  | 0, w, minq, maxq => ((minq + maxq) / 2, w)
  | n + 1, w, minq, maxq =>
    let medq := (minq + maxq) / 2
    let (val, w) := w.quan quant medq
    if fLe val x then TWrap.bisect quant x n w medq maxq else TWrap.bisect quant x n w minq medq

/-- `CDF` (wrapper.go:93-120). -/
def TWrap.cdf (quant : List F64 → Rat → F64) (w : TWrap) (x : F64) : Rat × TWrap :=
  let (min, w) := w.quan quant 0
  let (max, w) := w.quan quant 1
  if fLe x min then (0, w)
  else if fLe max x then (1, w)
  else TWrap.bisect quant x 6 w 0 1

end Rothko
