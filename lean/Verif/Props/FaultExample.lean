import Verif.Props.Fault
import Verif.Props.MetricRefuted
/-! C99 on concrete histories. -/
namespace Rothko

/-- Every file that must be opened or made cannot be. -/
def noFiles : Faults := ⟨none, fun _ => some .clean, false⟩
/-- The disk is full. -/
def diskFull : Faults := ⟨none, fun _ => some (.partly 0), false⟩

/-- Two records per file, at most two files: six writes go through; others fail because the directory, the new file or the old file cannot be opened; then removing the oldest file fails. -/
def exFaulty : List (Op × Faults) :=
  [(.write exCfgMax (exVal 10), .none), (.write exCfgMax (exVal 20), ⟨some .after, fun _ => none, false⟩), (.write exCfgMax (exVal 20), .none), (.write exCfgMax (exVal 30), noFiles),
   (.restart, .none), (.write exCfgMax (exVal 30), noFiles), (.latest exCfgMax, noFiles), (.write exCfgMax (exVal 30), .none), (.write exCfgMax (exVal 40), noFiles),
   (.write exCfgMax (exVal 50), ⟨none, fun _ => none, true⟩)]

/-- The state after it. -/
def exFaultySt : Store := (runFaults exFaulty (Store.fresh false (fun _ => true), [])).1

theorem clean_none : Faults.none.Clean := fun c n h => by cases h
theorem noFiles_clean : noFiles.Clean := fun c n h => by cases h

theorem exFaulty_reach : ReachF exFaulty exFaultySt [exVal 50, exVal 40, exVal 30, exVal 20, exVal 10] := by
  refine ⟨fun o ho => ?_, false, fun _ => true, ?_⟩
  · have hn : Op.Ok (.write exCfgMax (exVal 10)) := ⟨exCfgMax_ok, by decide⟩
    simp only [exFaulty, List.mem_cons, List.not_mem_nil, or_false] at ho
    rcases ho with rfl | rfl | rfl | rfl | rfl | rfl | rfl | rfl | rfl | rfl
    all_goals first
      | exact ⟨⟨exCfgMax_ok, by decide⟩, fun c n h => by cases h⟩
      | exact ⟨trivial, fun c n h => by cases h⟩
      | exact ⟨exCfgMax_ok, fun c n h => by cases h⟩
  · have h : (runFaults exFaulty (Store.fresh false (fun _ => true), [])).2 = [exVal 50, exVal 40, exVal 30, exVal 20, exVal 10] := by
      set_option maxRecDepth 100000 in decide +kernel
    unfold exFaultySt
    generalize runFaults exFaulty (Store.fresh false (fun _ => true), []) = x at h ⊢
    obtain ⟨a, b⟩ := x
    rw [← h]

/-- The hypotheses of C99 are met by a history with failures of every kind, and the answers are as they say: all five values, a third file, and a query cut short after the newest file. -/
theorem C99_example : ReachF exFaulty exFaultySt [exVal 50, exVal 40, exVal 30, exVal 20, exVal 10] ∧ keptFiles exFaulty = 1 ∧ exFaultySt.dir.length = 3 ∧
    (queryList exCfgMax 100 (fun _ _ => .more) exFaultySt).1 = ([exVal 50, exVal 40, exVal 30, exVal 20, exVal 10], none) ∧
    (dbQueryF ⟨none, fun c => if c = exFaultySt.clock + 1 then some .clean else none, false⟩ exCfgMax 100 (fun seen v => (seen ++ [v], .more)) [] exFaultySt.reopen).1 = ([exVal 50], some .os) := by
  refine ⟨exFaulty_reach, ?_⟩
  set_option maxRecDepth 100000 in decide +kernel

/-- **C99 is false as stated for data in the oldest file.** With a file limit, a write that fails because the new file cannot be made has already removed the oldest file. -/
theorem C99_dropped_refuted : ∃ ops s acc, ReachF ops s acc ∧ ∃ (flt : Faults) (cfg : Cfg) (v : Val), flt.Clean ∧ GeoOk cfg.size cfg.cap ∧ needs cfg.size v.data.length ≤ cfg.cap ∧
    (dbWriteF flt cfg v s).1 = .failed .os ∧
    ∃ w ∈ acc, w ∈ (queryList cfg 100 (fun _ _ => .more) s).1.1 ∧ w ∉ (queryList cfg 100 (fun _ _ => .more) (dbWriteF flt cfg v s).2).1.1 := by
  refine ⟨exFaulty, exFaultySt, _, exFaulty_reach, noFiles, exCfgMax, exBig 60 100, noFiles_clean, exCfgMax_ok, by decide, ?_, exVal 10, by decide, ?_⟩
  all_goals set_option maxRecDepth 100000 in decide +kernel

/-- The hypotheses of `C99_full_refuted` are met: a full disk. -/
theorem C99_full_example : (dbWriteF diskFull exCfgMax (exBig 60 100) exFaultySt).1 = .failed .os ∧ (dbWriteF diskFull exCfgMax (exBig 60 100) exFaultySt).2.next ≠ exFaultySt.next ∧
    (dbWrite exCfgMax (exVal 70) (dbWriteF diskFull exCfgMax (exBig 60 100) exFaultySt).2).1 = .failed (.file .tooSmall) ∧
    (queryList exCfgMax 100 (fun _ _ => .more) (dbWriteF diskFull exCfgMax (exBig 60 100) exFaultySt).2).1 = ([], some (.file .tooSmall)) ∧
    needs exCfgMax.size (exBig 60 100).data.length ≤ exCfgMax.cap := by
  set_option maxRecDepth 100000 in decide +kernel

end Rothko
