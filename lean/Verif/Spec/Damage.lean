import Verif.Spec.History
/-! Specification of damage to data files: some slots become unreadable, everything else stays. -/
namespace Rothko

/-- The bytes of slot `n` of a data file with records of `size` bytes (slot 0 follows the metadata record). -/
def slotBytes (size : Nat) (data : Bytes) (n : Nat) : Bytes := slice data ((n + 1) * size) ((n + 1) * size + size)

/-- `data'` is `data` with exactly the slots in `bad` unreadable; the metadata record is intact. Damaged slots may hold any bytes that
do not parse, also slots that held nothing before. -/
structure Damage (size cap : Nat) (bad : Nat → Bool) (data data' : Bytes) : Prop where
  len : data'.length = data.length
  header : slice data' 0 size = slice data 0 size
  keep : ∀ n, n < cap → bad n = false → slotBytes size data' n = slotBytes size data n
  lost : ∀ n, n < cap → bad n = true → ∃ e, parse (slotBytes size data' n) = .error e

/-- The values none of whose chunks is in a bad slot; the values are stored one after the other from slot `pos` on. -/
def survivors (bad : Nat → Bool) (size : Nat) : Nat → List Val → List Val
  | _, [] => []
  | pos, v :: vs =>
    let n := needs size v.data.length
    let rest := survivors bad size (pos + n) vs
    if (List.range n).any (fun i => bad (pos + i)) then rest else v :: rest

/-- The number of slots a list of values takes. -/
def slotsOf (size : Nat) (vs : List Val) : Nat := (vs.map (fun v => needs size v.data.length)).sum

/-- A data file as an observer of the disk sees it: its number, inode, record size, capacity and the values in it, newest first. They occupy the last
`slotsOf size vals` slots. -/
structure FileInfo where
  num : Int
  ino : Nat
  size : Nat
  cap : Nat
  vals : List Val

end Rothko
