import Verif.Props.Metric
/-!
# Counterexamples at the metric level, and concrete cases for the positive theorems

Every `…_refuted` theorem exhibits a reachable state of the model in which the full claim of a property fails; the histories are short and use
ordinary options, so each can be replayed against the Go code.  The evaluation is done by the kernel (`decide +kernel`), no compiled code is trusted.
-/
namespace Rothko

/-- Records of 79 bytes (55 payload bytes per chunk), two per file, no file limit. -/
def exCfg : Cfg := ⟨79, 2, 0⟩
/-- As `exCfg` with one record per file. -/
def exCfg1 : Cfg := ⟨79, 1, 0⟩
/-- As `exCfg` with a limit of one file. -/
def exCfgMax : Cfg := ⟨79, 2, 1⟩

/-- A one-chunk value ending at `t`. -/
def exVal (t : Int64) : Val := ⟨t - 5, t, [1, 2, 3]⟩
/-- A value of `n` bytes ending at `t`. -/
def exBig (t : Int64) (n : Nat) : Val := ⟨t - 5, t, List.replicate n 7⟩

theorem exCfg_ok : GeoOk exCfg.size exCfg.cap := by unfold GeoOk; decide
theorem exCfg1_ok : GeoOk exCfg1.size exCfg1.cap := by unfold GeoOk; decide
theorem exCfgMax_ok : GeoOk exCfgMax.size exCfgMax.cap := by unfold GeoOk; decide

theorem reachMax_run (max : Int) (ops : List Op) (de : Bool) (hit : Nat → Bool) (hok : ∀ o ∈ ops, o.Ok ∧ (∀ m, o.limit = some m → m = max)) {acc : List Val}
    (hacc : (runOps ops (Store.fresh de hit, [])).2 = acc) : ReachMax max (runOps ops (Store.fresh de hit, [])).1 acc := by
  subst hacc; exact ⟨de, hit, ops, hok, rfl⟩

theorem reach_run (ops : List Op) (de : Bool) (hit : Nat → Bool) (hok : ∀ o ∈ ops, o.Ok) {acc : List Val}
    (hacc : (runOps ops (Store.fresh de hit, [])).2 = acc) : Reach (runOps ops (Store.fresh de hit, [])).1 acc := by
  subst hacc; exact ⟨de, hit, ops, hok, rfl⟩

/-- Three writes of one chunk each, with two chunks per file, then a cache that always hits. -/
def exOps : List Op := [.write exCfg (exVal 10), .write exCfg (exVal 20), .restart, .write exCfg (exVal 30)]

theorem exOps_ok : ∀ o ∈ exOps, o.Ok ∧ (∀ m, o.limit = some m → m = 0) := by
  intro o ho
  simp only [exOps, List.mem_cons, List.not_mem_nil, or_false] at ho
  rcases ho with rfl | rfl | rfl | rfl
  · exact ⟨⟨exCfg_ok, by decide⟩, by intro m h; cases h; rfl⟩
  · exact ⟨⟨exCfg_ok, by decide⟩, by intro m h; cases h; rfl⟩
  · exact ⟨trivial, by intro m h; cases h⟩
  · exact ⟨⟨exCfg_ok, by decide⟩, by intro m h; cases h; rfl⟩

/-- The state after `exOps`. -/
def exState : Store := (runOps exOps (Store.fresh false (fun _ => true), [])).1

set_option maxRecDepth 100000 in
theorem exState_acc : (runOps exOps (Store.fresh false (fun _ => true), [])).2 = [exVal 30, exVal 20, exVal 10] := by decide +kernel

theorem exState_reach : ReachMax 0 exState [exVal 30, exVal 20, exVal 10] :=
  by unfold exState; exact reachMax_run _ _ _ _ exOps_ok exState_acc

theorem ReachMax.reach {max : Int} {s : Store} {acc : List Val} (h : ReachMax max s acc) : Reach s acc := by
  obtain ⟨de, hit, ops, hok, hrun⟩ := h
  exact ⟨de, hit, ops, fun o ho => (hok o ho).1, hrun⟩

/-- The hypotheses of C13–C18 are met by a state with three values in two files. -/
example : Reach exState [exVal 30, exVal 20, exVal 10] ∧ GeoOk exCfg.size exCfg.cap ∧
    (∀ v ∈ [exVal 30, exVal 20, exVal 10], v.stop < 100) ∧ needs exCfg.size (exVal 40).data.length ≤ exCfg.cap :=
  ⟨exState_reach.reach, exCfg_ok, by decide, by decide⟩

set_option maxRecDepth 100000 in
/-- C13 on this state, evaluated: the acknowledged values come back newest first, from two files. -/
example : (queryList exCfg 100 (fun _ _ => .more) exState).1 = ([exVal 30, exVal 20, exVal 10], none) ∧ exState.dir.length = 2 := by decide +kernel

set_option maxRecDepth 100000 in
/-- C14, C18 (one step) and C20 on this state: a later value is written, an earlier one is not. -/
example : (dbWrite exCfg (exVal 40) exState).1 = .written ∧ (dbWrite exCfg (exVal 30) exState).1 = .notWritten := by decide +kernel

/-- **C16 is false as stated.** There are no dropped files (the limit is zero), a value ends before the bound, and the query does not return it: it stops at the newest
file, all of whose values end after the bound, and never looks at the older files. -/
theorem C16_complete_refuted : ∃ s acc, ReachMax 0 s acc ∧ ∃ (cfg : Cfg) (bound : Int64), GeoOk cfg.size cfg.cap ∧
    (∃ v ∈ acc, v.stop < bound) ∧ (queryList cfg bound (fun _ _ => .more) s).1 = ([], none) := by
  refine ⟨exState, _, exState_reach, exCfg, 25, exCfg_ok, ⟨exVal 20, by decide, by decide⟩, ?_⟩
  set_option maxRecDepth 100000 in decide +kernel

/-- One write at the largest representable time. -/
def exMaxOps : List Op := [.write exCfg (exVal 0x7fffffffffffffff)]

set_option maxRecDepth 100000 in
theorem exMax_acc : (runOps exMaxOps (Store.fresh false (fun _ => true), [])).2 = [exVal 0x7fffffffffffffff] := by decide +kernel

/-- **C17 is false as stated** for a value ending at the largest 64 bit integer: it is acknowledged, and `QueryLatest` does not find it. -/
theorem C17_latest_refuted : ∃ s v, Reach s [v] ∧ ∃ cfg : Cfg, GeoOk cfg.size cfg.cap ∧ (dbQueryLatest cfg s).1 = (none, none) := by
  refine ⟨(runOps exMaxOps (Store.fresh false (fun _ => true), [])).1, exVal 0x7fffffffffffffff,
    reach_run _ _ _ ?_ exMax_acc, exCfg, exCfg_ok, ?_⟩
  · intro o ho
    rw [exMaxOps, List.mem_singleton] at ho
    subst ho
    exact ⟨exCfg_ok, by decide⟩
  · set_option maxRecDepth 100000 in decide +kernel

/-- Two writes that fill the first file. -/
def exTwo : List Op := [.write exCfg (exVal 10), .write exCfg (exVal 20)]

/-- **C19 is false as stated (lost write).** A state with two values; a write of an oversized value fails; the next write is acknowledged, yet its value is not stored:
a query for everything returns only the two old values. (The new file of the failed write is still in the handle cache after its name was removed.) -/
theorem C19_later_write_lost_refuted : ∃ s acc, ReachMax 0 s acc ∧ ∃ (cfg : Cfg) (big v : Val), GeoOk cfg.size cfg.cap ∧
    (dbWrite cfg big s).1 = .failed .valueTooLarge ∧
    needs cfg.size v.data.length ≤ cfg.cap ∧
    (dbWrite cfg v s).1 = .written ∧ v ∈ (queryList cfg 100 (fun _ _ => .more) (dbWrite cfg v s).2).1.1 ∧
    (dbWrite cfg v (dbWrite cfg big s).2).1 = .written ∧ v.stop < 100 ∧
    v ∉ (queryList cfg 100 (fun _ _ => .more) (dbWrite cfg v (dbWrite cfg big s).2).2).1.1 := by
  refine ⟨(runOps exTwo (Store.fresh false (fun _ => true), [])).1, _, reachMax_run _ _ _ _ ?_ rfl, exCfg, exBig 40 120, exVal 50, exCfg_ok, ?_⟩
  · intro o ho
    simp only [exTwo, List.mem_cons, List.not_mem_nil, or_false] at ho
    rcases ho with rfl | rfl
    · exact ⟨⟨exCfg_ok, by decide⟩, by intro m h; cases h; rfl⟩
    · exact ⟨⟨exCfg_ok, by decide⟩, by intro m h; cases h; rfl⟩
  set_option maxRecDepth 100000 in decide +kernel

/-- Three writes with a limit of one file. -/
def exMaxFiles : List Op := [.write exCfgMax (exVal 10), .write exCfgMax (exVal 20), .write exCfgMax (exVal 30)]

set_option maxRecDepth 100000 in
theorem exMaxFiles_acc : (runOps exMaxFiles (Store.fresh false (fun _ => true), [])).2 = [exVal 30, exVal 20, exVal 10] := by decide +kernel

/-- **C19 is false as stated (lost data).** With a file limit, a failing oversized write deletes the oldest data file: acknowledged values disappear. -/
theorem C19_drops_data_refuted : ∃ s acc, ReachMax 1 s acc ∧ ∃ (cfg : Cfg) (big : Val), cfg.max = 1 ∧ GeoOk cfg.size cfg.cap ∧
    (dbWrite cfg big s).1 = .failed .valueTooLarge ∧
    ∃ v ∈ acc, v ∈ (queryList cfg 100 (fun _ _ => .more) s).1.1 ∧ v ∉ (queryList cfg 100 (fun _ _ => .more) (dbWrite cfg big s).2).1.1 := by
  refine ⟨(runOps exMaxFiles (Store.fresh false (fun _ => true), [])).1, [exVal 30, exVal 20, exVal 10],
    reachMax_run _ _ _ _ ?_ exMaxFiles_acc, exCfgMax, exBig 40 120, rfl, exCfgMax_ok, ?_, exVal 10, by decide, ?_⟩
  · intro o ho
    simp only [exMaxFiles, List.mem_cons, List.not_mem_nil, or_false] at ho
    rcases ho with rfl | rfl | rfl
    · exact ⟨⟨exCfgMax_ok, by decide⟩, by intro m h; cases h; rfl⟩
    · exact ⟨⟨exCfgMax_ok, by decide⟩, by intro m h; cases h; rfl⟩
    · exact ⟨⟨exCfgMax_ok, by decide⟩, by intro m h; cases h; rfl⟩
  all_goals set_option maxRecDepth 100000 in decide +kernel

/-- **C20 is false as stated.** After one acknowledged value, a later value that would fill an empty file exactly is refused as "too large". -/
theorem C20_fits_refuted : ∃ s w, Reach s [w] ∧ ∃ (cfg : Cfg) (v : Val), GeoOk cfg.size cfg.cap ∧
    needs cfg.size v.data.length ≤ cfg.cap ∧ w.stop < v.stop ∧ (dbWrite cfg v s).1 = .failed .valueTooLarge := by
  have hacc : (runOps [.write exCfg (exVal 10)] (Store.fresh false (fun _ => true), [])).2 = [exVal 10] := by
    set_option maxRecDepth 100000 in decide +kernel
  refine ⟨(runOps [.write exCfg (exVal 10)] (Store.fresh false (fun _ => true), [])).1, exVal 10,
    reach_run _ _ _ ?_ hacc, exCfg, exBig 20 110, exCfg_ok, by decide, by decide, ?_⟩
  · intro o ho
    rw [List.mem_singleton] at ho
    subst ho
    exact ⟨exCfg_ok, by decide⟩
  · set_option maxRecDepth 100000 in decide +kernel

/-- **C25 is false as stated.** Asking for a metric that was never written, but whose directory exists because of a metric with a longer name, creates a data file. -/
theorem C25_query_creates_refuted : ∃ s : Store, Reach s [] ∧ s.dir = [] ∧ ∃ cfg : Cfg, GeoOk cfg.size cfg.cap ∧
    (queryList cfg 100 (fun _ _ => .more) s).1 = ([], none) ∧ (queryList cfg 100 (fun _ _ => .more) s).2.dir ≠ [] := by
  refine ⟨Store.fresh true (fun _ => true), ⟨true, fun _ => true, [], fun o ho => (by cases ho), rfl⟩, rfl, exCfg, exCfg_ok, ?_⟩
  set_option maxRecDepth 100000 in decide +kernel

/-- The hypotheses of the partial theorems C16, C17, C20 and C25 hold in this state. -/
example : [exVal 30, exVal 20, exVal 10] ≠ [] ∧ (exVal 30).stop ≠ 0 ∧ (exVal 30).stop < 0x7fffffffffffffff ∧
    [exVal 30, exVal 20, exVal 10].length ≠ 1 ∧ (exState.dir ≠ [] ∨ exState.dirExists = false) := by
  refine ⟨by simp, by decide, by decide, by decide, Or.inl ?_⟩
  set_option maxRecDepth 100000 in decide +kernel

end Rothko
