import Verif.Spec.Split
/-! # Rows for a table (`internal/junk/tabwriter.go`)
Simplified: the library's `text/tabwriter` is any writer that takes bytes and can be flushed and gives an error or not; how it aligns the cells is not modelled. An error is a value of `E`; `errs.Wrap` adds text to it and keeps nil nil, here it is left out. -/
namespace Rothko

/-- What `Tabbed` uses of the `*tabwriter.Writer` in its field (tabwriter.go:15): `Write`, which `fmt.Fprintln` calls once with the whole line, and `Flush`. The state is any `W`. -/
structure TabOut (W E : Type) where
  write : W → Bytes → W × Option E
  flush : W → W × Option E

/-- A `Tabbed` (tabwriter.go:14-17); `NewTabbed` (19-23) makes it with no error. -/
structure Tabbed (W E : Type) where
  tw : W
  err : Option E

/-- `NewTabbed` (tabwriter.go:19-23). -/
def Tabbed.new {W E : Type} (w : W) : Tabbed W E := ⟨w, none⟩

/-- `Write` (tabwriter.go:25-30): the values with tabs between them and a newline, unless there was an error. -/
def Tabbed.write {W E : Type} (o : TabOut W E) (t : Tabbed W E) (values : List Bytes) : Tabbed W E :=
  match t.err with
  | some _ => t
  | none =>
    let r := o.write t.tw (joinWith 9 values ++ [10])
    ⟨r.1, r.2⟩

/-- `Flush` (tabwriter.go:32-36). -/
def Tabbed.flush {W E : Type} (o : TabOut W E) (t : Tabbed W E) : Tabbed W E :=
  match t.err with
  | some _ => t
  | none =>
    let r := o.flush t.tw
    ⟨r.1, r.2⟩

/-- `Error` (tabwriter.go:38-40). -/
def Tabbed.error {W E : Type} (t : Tabbed W E) : Option E := t.err

/-- A call of a user of `Tabbed`: `Write` or `Flush` (tabwriter.go:25, 32). -/
inductive TabOp
  | write (values : List Bytes)
  | flush

/-- The call made (tabwriter.go:25-36). -/
def Tabbed.op {W E : Type} (o : TabOut W E) (t : Tabbed W E) : TabOp → Tabbed W E
  | .write vs => t.write o vs
  | .flush => t.flush o

/-- All the calls, one after the other (tabwriter.go:25-36). -/
def Tabbed.run {W E : Type} (o : TabOut W E) (t : Tabbed W E) (ops : List TabOp) : Tabbed W E := ops.foldl (fun t op => t.op o op) t

end Rothko
