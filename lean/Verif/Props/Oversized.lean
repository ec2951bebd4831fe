import Verif.Props.MetricRefuted
/-!
# C19 (partial): what a failing oversized write leaves behind
-/
namespace Rothko

/-- **C19 (partial).** Without a file limit, a write that fails because the value is too large changes no answer of any query with a positive bound.
Missing: writes made afterwards (`C19_later_write_lost_refuted`), configurations with a file limit (`C19_drops_data_refuted`), and bounds of zero or less (the empty
file left behind has smallest end 0, which ends such a query). -/
theorem C19_oversized_partial {s : Store} {acc : List Val} (h : Reach s acc) (hne : acc ≠ []) (cfg : Cfg) (v : Val) (hg : GeoOk cfg.size cfg.cap)
    (hmax : cfg.max ≤ 0) (hfail : (dbWrite cfg v s).1 = .failed .valueTooLarge)
    {σ : Type} (cfg' : Cfg) (bound : Int64) (hb : 0 < bound) (cb : σ → Val → σ × Cb) (st : σ) :
    (dbQuery cfg' bound cb st (dbWrite cfg v s).2).1 = (dbQuery cfg' bound cb st s).1 := by
  rcases h.inv with ⟨hd, hc, ha⟩ | ⟨first, last, H, V, d, inv, _⟩
  · exact absurd ha hne
  have hr := inv.core.rng
  rw [inv.query]
  revert hfail
  unfold dbWrite
  rw [inv.core.dirInv.newMetric]
  simp only
  unfold metricWrite
  have hp := inv.core.prep (fun hlt => inv.ne last hlt (by omega)) cfg v hg
  generalize writePrep cfg first last v s = p at hp
  cases hp with
  | notLater w ws s' hV hw sd c => intro hfail; cases hfail
  | offByOne s' h1 h2 h3 hlater sd c =>
    intro _
    have hsd := sd.trans (sameDisk_release s' last (H last))
    exact (inv.same hsd (c.release hr.2 (by omega))).query cfg' bound cb st
  | here s' nr hfit' hlater sd c =>
    intro hfail
    obtain ⟨f', e, core'⟩ := (inv.core.same sd c).write v hfit'
    simp only [e] at hfail; cases hfail
  | rotate s' nr h2 hs hc hfull hlater first' hf core' hh =>
    intro hfail
    have hgc := geo_size hg
    by_cases hused : used cfg.size [v] ≤ cfg.cap
    · obtain ⟨f', e, core2⟩ := core'.write v (by rw [upd_same, upd_same, hs, hc]; exact hused)
      rw [upd_same, upd_same] at e
      simp only [e] at hfail; cases hfail
    · exfalso
      -- a value that passed the size check fits
      have hneg : (h2.cap : Int) - used h2.size [v] < 0 := by rw [hs, hc]; omega
      simp only at hfail
      revert hfail
      unfold writeBody
      split
      · intro hx; cases hx
      · intro hx; cases hx
      · rename_i rs _
        split
        · intro hx; cases hx
        · split
          · intro hx; cases hx
          · split
            · intro hx; cases hx
            · intro hx; cases hx
  | tooLarge s' h2 hbig hlater first' hf core' =>
    intro _
    rw [if_neg (by omega)] at hf
    subst hf
    have hne1 : last ≠ last + 1 := by omega
    have rel1 := core'.cache.release (idx := last + 1) (by omega) (by omega)
    rw [upd_same] at rel1
    have rel2 := rel1.release (idx := last) hr.2 (by omega)
    rw [upd_ne _ _ hne1] at rel2
    have core3 := core'.same ((sameDisk_release _ _ _).trans (sameDisk_release _ _ _)) rel2
    obtain ⟨s2, e, _⟩ := core3.dirInv.query cfg' bound cb st
    simp only
    show (dbQuery cfg' bound cb st (((s'.release (last + 1) h2)).release last (H last))).1 = _
    rw [e]
    have hvis : visible bound (filesDown (fun i => (upd V (last + 1) [] i, smallestEnd (upd V (last + 1) [] i))) (last + 1 - first' + 1).toNat (last + 1))
        = MInv.shown V first' last bound := by
      rw [show (last + 1 - first' + 1).toNat = (last - first' + 1).toNat + 1 by omega]
      simp only [filesDown, visible, upd_same]
      rw [if_neg (show ¬ smallestEnd [] ≥ bound from int64_not_ge.mpr hb)]
      unfold MInv.shown
      simp only [before, List.filter_nil, List.nil_append]
      rw [show last + 1 - 1 = last by omega]
      congr 1
      exact filesDown_congr (fun i a b => by rw [upd_ne _ _ (by omega)])
    rw [hvis]

set_option maxRecDepth 100000 in
/-- The hypotheses are met by a state with three values and an oversized fourth. -/
example : exCfg.max ≤ 0 ∧ (dbWrite exCfg (exBig 40 120) exState).1 = .failed .valueTooLarge := by decide +kernel

end Rothko
