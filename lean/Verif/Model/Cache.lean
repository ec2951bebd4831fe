import Verif.Model.Pcg
/-!
# database/files/cache.go

Files are opaque values of a type `φ` (the Go struct `file`); `Inhabited φ` is the zero `file{}`.  Tokens are natural numbers: the Go counter is an `int64` that starts at 0
and would wrap only after `2^63` puts.  An index out of range is a Go panic: the functions return `none`.
-/
namespace Rothko

/-- `type cacheEntry` (cache.go:22-26). -/
structure CEntry (φ : Type) where
  loc : Nat
  tok : Nat
  f : φ

/-- `type cache` (cache.go:30-36). The Go map is a partial function. `cap(c.order)` is always `c.cap`: the slice is made with that capacity (cache.go:42),
is only appended to below its capacity and only cut at the end. -/
structure HCache (φ : Type) where
  tok : Nat
  cap : Nat
  order : List Nat
  handles : Nat → Option (CEntry φ)
  pcg : Pcg

/-- `newCache` (cache.go:39-46); a negative capacity panics in `make`. -/
def HCache.new (φ : Type) (cap : Nat) : HCache φ :=
  { tok := 0, cap, order := [], handles := fun _ => none, pcg := Pcg.new 0 0 }

variable {φ : Type} [Inhabited φ]

/-- `c.handles[tok]`: the zero entry if there is none. (cache.go:56,74,113.) -/
def HCache.get (c : HCache φ) (tok : Nat) : CEntry φ := (c.handles tok).getD { loc := 0, tok := 0, f := default }

/-- `c.handles[tok] = e`. (cache.go:77,99,116.) -/
def HCache.setHandle (c : HCache φ) (tok : Nat) (e : CEntry φ) : HCache φ :=
  { c with handles := fun t => if t = tok then some e else c.handles t }

/-- `delete(c.handles, tok)`. (cache.go:57,80,115.) -/
def HCache.delHandle (c : HCache φ) (tok : Nat) : HCache φ :=
  { c with handles := fun t => if t = tok then none else c.handles t }

/-- `c.order[i] = tok`. (cache.go:76,117.) -/
def HCache.setOrder (c : HCache φ) (i tok : Nat) : Option (HCache φ) :=
  if i < c.order.length then some { c with order := c.order.set i tok } else none

/-- `TakeAll` (cache.go:49-63): the files passed to the callback, in order. The callback is called once per file; `stop f` says that it returned false. -/
def HCache.takeAllLoop (stop : φ → Bool) : Nat → HCache φ → List φ × HCache φ
  | 0, c => ([], c)
  | fuel + 1, c =>
    match c.order.getLast? with
    | none => ([], c)
    | some tok =>
      let entry := c.get tok
      let c := ({ c with order := c.order.dropLast }).delHandle tok
      if stop entry.f then ([entry.f], c)
      else let r := HCache.takeAllLoop stop fuel c; (entry.f :: r.1, r.2)

/-- `TakeAll` (cache.go:49-63); every iteration shortens `order`, so its length is enough fuel. -/
def HCache.takeAll (stop : φ → Bool) (c : HCache φ) : List φ × HCache φ := c.takeAllLoop stop (c.order.length + 1)

/-- `Take` (cache.go:67-84). -/
def HCache.take (c : HCache φ) (tok : Nat) : Option (Option φ × HCache φ) :=
  match c.handles tok with
  | none => some (none, c)
  | some entry =>
    match c.order.getLast? with
    | none => none
    | some lt =>
      let last := { c.get lt with loc := entry.loc }
      match c.setOrder entry.loc last.tok with
      | none => none
      | some c =>
        let c := c.setHandle last.tok last
        let c := c.delHandle entry.tok
        some (some entry.f, { c with order := c.order.dropLast })

/-- `Put` (cache.go:89-120): the token, and the evicted file if there is one. -/
def HCache.put (c : HCache φ) (f : φ) : Option ((Nat × Option φ) × HCache φ) :=
  let c := { c with tok := c.tok + 1 }
  let entry : CEntry φ := { loc := c.order.length, tok := c.tok, f }
  if c.order.length < c.cap then
    let c := c.setHandle entry.tok entry
    some ((entry.tok, none), { c with order := c.order ++ [entry.tok] })
  else if c.cap = 0 then some ((entry.tok, some f), c)
  else
    let r := c.pcg.uint32
    let c := { c with pcg := r.2 }
    let entry := { entry with loc := fastMod r.1 c.cap }
    match c.order[entry.loc]? with
    | none => none
    | some t =>
      let current := c.get t
      let c := c.delHandle current.tok
      let c := c.setHandle entry.tok entry
      match c.setOrder current.loc entry.tok with
      | none => none
      | some c => some ((entry.tok, some current.f), c)

end Rothko
