import Verif.Model.Metric
/-! Specification vocabulary for queries: what "call back with these values, in this order, until told to stop" means. -/
namespace Rothko

/-- Call back with the values of a list in order, until the callback stops, fails, or the context is done. -/
def visit (cb : σ → Val → σ × Cb) : List Val → σ → σ × Ctl
  | [], st => (st, .more)
  | v :: vs, st =>
    match cb st v with
    | (st, .more) => visit cb vs st
    | (st, .stop) => (st, .stop)
    | (st, .err) => (st, .fail .callback)
    | (st, .cancel) => (st, .fail .cancelled)

/-- The error a query reports. -/
def Ctl.error : Ctl → Option MErr
  | .fail e => some e
  | _ => none

/-- The number of chunks a value of `len` bytes takes with records of `size` bytes (24 of them header). -/
def needs (size len : Nat) : Nat := if len = 0 then 1 else (len + (size - 24) - 1) / (size - 24)

/-- The values of a list that end strictly before a bound. -/
def before (bound : Int64) (vs : List Val) : List Val := vs.filter (fun v => decide (v.stop < bound))

theorem visit_append (cb : σ → Val → σ × Cb) (a b : List Val) (st : σ) :
    visit cb (a ++ b) st = match visit cb a st with
      | (st, .more) => visit cb b st
      | r => r := by
  induction a generalizing st with
  | nil => rfl
  | cons v vs ih =>
    simp only [List.cons_append, visit]
    rcases cb st v with ⟨st', c⟩
    cases c <;> simp [ih]

end Rothko
