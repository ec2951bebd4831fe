/-!
# internal/pcg/pcg.go and database/files/common.go
-/
namespace Rothko

/-- `type PCG` (pcg.go:5-8). -/
structure Pcg where
  state : UInt64
  inc : UInt64
deriving DecidableEq, Repr, Inhabited

/-- `mul` (pcg.go:11). -/
def pcgMul : UInt64 := 6364136223846793005

/-- `New` (pcg.go:13-28). -/
def Pcg.new (state inc : UInt64) : Pcg :=
  let inc := (inc <<< 1) ||| 1
  { state := (inc + state) * pcgMul + inc, inc }

/-- The output permutation (pcg.go:43-45). Go converts to `uint32` by truncation; `-rot` is a `uint32` negation. -/
def pcgOutput (old : UInt64) : UInt32 :=
  let xorshifted : UInt32 := (((old >>> 18) ^^^ old) >>> 27).toUInt32
  let rot : UInt32 := (old >>> 59).toUInt32
  (xorshifted >>> rot) ||| (xorshifted <<< ((-rot) &&& 31))

/-- `Uint32` (pcg.go:30-46): the output and the new generator. -/
def Pcg.uint32 (p : Pcg) : UInt32 × Pcg :=
  let p := if p.inc = 0 then Pcg.new 0 0 else p
  (pcgOutput p.state, { p with state := p.state * pcgMul + p.inc })

/-- `fastMod` (common.go:7-9). `m` is a Go `int`, which is never negative where it is called. -/
def fastMod (n : UInt32) (m : Nat) : Nat :=
  ((n.toUInt64 * UInt64.ofNat m) >>> 32).toNat

end Rothko
