import Verif.Model.Heat
/-!
# Observations per second (merge/merger.go:200-207, draw/observations/obs.go:79-97)
-/
namespace Rothko

/-- A `float64` as a number; the sign of zero and the overflow of finite results are not modelled. (merger.go:200.) -/
inductive Num
  | fin (q : ℚ)
  | inf (neg : Bool)
  | nan
  deriving DecidableEq

/-- Rounding of either sign. (merger.go:204-205.) -/
def rnS (q : ℚ) : ℚ := if q < 0 then -rn (-q) else rn q

/-- `+`. (merger.go:204.) -/
def Num.add : Num → Num → Num
  | .fin a, .fin b => .fin (rnS (a + b))
  | .fin _, .inf s => .inf s
  | .inf s, .fin _ => .inf s
  | .inf s, .inf t => if s = t then .inf s else .nan
  | _, _ => .nan

/-- `/`. (merger.go:204-207, obs.go:93.) -/
def Num.div : Num → Num → Num
  | .fin a, .fin b => if b = 0 then (if a = 0 then .nan else .inf (a < 0)) else .fin (rnS (a / b))
  | .fin _, .inf _ => .fin 0
  | .inf s, .fin b => .inf (s != decide (b < 0))
  | _, _ => .nan

/-- `*`. (obs.go:93.) -/
def Num.mul : Num → Num → Num
  | .fin a, .fin b => .fin (rnS (a * b))
  | .fin a, .inf s => if a = 0 then .nan else .inf (s != decide (a < 0))
  | .inf s, .fin a => if a = 0 then .nan else .inf (s != decide (a < 0))
  | .inf s, .inf t => .inf (s != t)
  | _, _ => .nan

/-- `<`. (obs.go:82.) -/
def Num.lt : Num → Num → Bool
  | .fin a, .fin b => a < b
  | .fin _, .inf s => !s
  | .inf s, .fin _ => s
  | .inf s, .inf t => s && !t
  | _, _ => false

/-- `float64(n)`. (merger.go:204.) -/
def Num.ofInt (n : Int) : Num := .fin (rnS n)

/-- `time.Duration.Seconds`: whole seconds and the fraction of one are converted separately. (merger.go:205.) -/
def seconds (d : Int64) : Num := (Num.ofInt (d / 1000000000).toInt).add ((Num.ofInt (d % 1000000000).toInt).div (.fin 1000000000))

/-- merger.go:204-205: one record's observations per second. -/
def recRate (r : DRec) : Num := ((Num.ofInt r.observations.toInt).div (.ofInt r.merged.toInt)).div (seconds (r.endTime - r.startTime))

/-- merger.go:200-207. -/
def obsRate (rs : List DRec) : Num := (rs.foldl (fun acc r => Num.add acc (recRate r)) (Num.fin 0)).div (.ofInt rs.length)

/-- A column's values and observations per second: `Data` and `ObsSec` (draw/common.go:19-23). -/
structure Shot where
  data : List F64
  rate : Num

/-- obs.go:79-86: the greatest rate, and the `X` of the first column that has it. -/
def peakOf : List (Col Shot) → Num × Int → Num × Int
  | [], acc => acc
  | c :: cs, acc => peakOf cs (if acc.1.lt c.data.rate then (c.data.rate, c.x) else acc)

/-- obs.go:93: `255 - byte(rate/max*255)`. The conversion to a byte of what is not in [0, 256) is up to the implementation: `junk`. -/
def barSat (junk : Num → UInt8) (rate max : Num) : UInt8 :=
  match (rate.div max).mul (.fin 255) with
  | .fin q => if 0 ≤ q ∧ q < 256 then 255 - UInt8.ofNat ⌊q⌋₊ else 255 - junk (.fin q)
  | v => 255 - junk v

/-- obs.go:79-94: the colour of a column's bar. -/
def barColour (junk : Num → UInt8) (cols : List (Col Shot)) (s : Shot) : Color :=
  let sat := barSat junk s.rate (peakOf cols (.fin 0, 0)).1
  ⟨sat, sat, sat⟩

end Rothko
