import Verif.Lemmas.ProtoSafe
/-!
# C07: decoding arbitrary bytes as a Record

Full statement (false): for every byte string `d`, `DRec.decode d` is `.ok _` or `.err _`.
`C07_panic_refuted`: a ten byte input makes the process panic (length 2^63-1 overflows the index).
`C07_terminates`: decoding always terminates (the loop and recursion fuel is never exhausted).
`C07_no_panic_partial`: it cannot panic if the input has no run of eight bytes with the continuation bit (missing: such inputs).
-/
namespace Rothko

private theorem drec_fieldOk : FieldOk DRec.field := by
  intro m num wt d i r h0 h1 hr
  unfold DRec.field at hr
  repeat' (split at hr)
  all_goals first
    | (cases hr; exact (varintField_safe _ _ _ _ h0).noStuck)
    | (cases hr; exact (fixed64Field_safe _ _ _ _).noStuck)
    | (cases hr; exact bytesField_noStuck _ _ _ _ h0)
    | cases hr

private theorem drec_fieldSafe : FieldSafe DRec.field := by
  intro m num wt d i r hd hl h0 h1 hr
  unfold DRec.field at hr
  repeat' (split at hr)
  all_goals first
    | (cases hr; exact varintField_safe _ _ _ _ h0)
    | (cases hr; exact fixed64Field_safe _ _ _ _)
    | (cases hr; exact bytesField_safe _ _ _ hd hl _ h0)
    | cases hr

/-- **C07, termination.** Decoding any byte string (shorter than 2^60 bytes) as a Record, starting from any record value, terminates. -/
theorem C07_terminates (m : DRec) (d : Bytes) (hl : d.length < 2 ^ 60) : DRec.decodeInto m d ≠ .stuck := by
  have := unmarshalLoop_noStuck DRec.field drec_fieldOk d hl (d.length + 1) m 0 (by omega) (by intro _; omega)
  intro h
  unfold DRec.decodeInto at h
  rw [h] at this
  exact this

/-- **C07 (refutation of the full statement).** This ten byte string crashes the decoder. -/
theorem C07_panic_refuted :
    DRec.decode [0x22, 0xff, 0xff, 0xff, 0xff, 0xff, 0xff, 0xff, 0xff, 0x7f] = .panic := by decide +kernel

/-- **C07 (partial).** If among any eight consecutive bytes at least one is below 0x80, decoding returns a record or an error. -/
theorem C07_no_panic_partial (m : DRec) (d : Bytes) (hl : d.length < 2 ^ 60)
    (hrun : ∀ i, i + 8 ≤ d.length → ∃ j, i ≤ j ∧ j < i + 8 ∧ d.getD j 0 < 0x80) :
    (∃ m', DRec.decodeInto m d = .ok m') ∨ (∃ e, DRec.decodeInto m d = .err e) := by
  have := unmarshalLoop_safe DRec.field drec_fieldSafe d hl hrun (d.length + 1) m 0 (by omega) (by omega) (by omega)
  unfold DRec.decodeInto
  revert this
  cases unmarshalLoop DRec.field d (d.length + 1) m 0 <;> simp [Safe]

/-- Non-vacuity: a malformed input (unknown nested groups, truncated) and a well-formed one meet the hypothesis. -/
example : ∀ i, i + 8 ≤ [0x5b, 0x5b, 0x8a, 0x01, 0xff, 0xff, 0x03, 0x00, 0x99, 0x22].length →
    ∃ j, i ≤ j ∧ j < i + 8 ∧ ([0x5b, 0x5b, 0x8a, 0x01, 0xff, 0xff, 0x03, 0x00, 0x99, 0x22] : Bytes).getD j 0 < 0x80 := by
  intro i hi
  simp at hi
  match i, hi with
  | 0, _ => exact ⟨0, by decide⟩
  | 1, _ => exact ⟨1, by decide⟩
  | 2, _ => exact ⟨3, by decide⟩

end Rothko
