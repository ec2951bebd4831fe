import Verif.Model.Command
import Verif.Props.Run
import Verif.Props.Config
/-! C102: the commands and their exit status. -/
namespace Rothko

/-- **C102** (init; partial: without other processes). If nobody else touches the path: `init` with status 0 leaves exactly the initial configuration, where nothing was; whatever was there before, file or not, is unchanged if the status is not 0 and the file could not be opened
or was there. -/
theorem C102_init_partial (text : Bytes) (nargs : Nat) (st : PathSt) (flt : Option WriteFault) :
    ((exitStatus (initCommand text nargs st st flt).1).1 = 0 ↔ nargs = 0 ∧ flt = none ∧ (st = .absent ∨ st = .dangling)) ∧
    ((exitStatus (initCommand text nargs st st flt).1).1 = 0 → (initCommand text nargs st st flt).2 = .file text) ∧
    (∀ b, st = .file b → (initCommand text nargs st st flt).2 = .file b ∧ exitStatus (initCommand text nargs st st flt).1 = (1, false)) ∧
    ((exitStatus (initCommand text nargs st st flt).1).1 ≠ 0 → (∀ n, flt ≠ some (.after n)) → (initCommand text nargs st st flt).2 = st) := by
  unfold initCommand
  by_cases hn : nargs = 0
  · subst hn
    cases st <;> (try rcases flt with _ | _ | n) <;> simp [exitStatus, writeFile]
  · simp [hn, exitStatus]

/-- **C102** (status). The status of `run` is 0 exactly if it has one argument, the file can be read, decoded and loaded, every part of the configuration could be made and the program returned without an error. A wrong configuration (and a wrong number of arguments) is
reported as such, not as an unexpected error. -/
theorem C102_status {V E : Type} (toml : Bytes → Option (TomlConf V × List (Bytes × List V))) (setup : Conf V → Option E) (nargs : Nat) (path : PathSt) (work : Conf V → Option E) :
    ((exitStatus (runCommand toml setup nargs path work)).1 = 0 ↔
      nargs = 1 ∧ ∃ b t order conf, path = .file b ∧ toml b = some (t, order) ∧ loadConf t order = .ok conf ∧ setup conf = none ∧ work conf = none) ∧
    (exitStatus (runCommand toml setup nargs path work) = (1, false) ↔
      nargs ≠ 1 ∨ ∃ b t order conf e, path = .file b ∧ toml b = some (t, order) ∧ loadConf t order = .ok conf ∧ setup conf = some e) := by
  unfold runCommand
  by_cases hn : nargs = 1
  · subst hn
    simp only [ne_eq, not_true_eq_false, if_false, true_and, false_or]
    cases path with
    | absent => simp [exitStatus]
    | dangling => simp [exitStatus]
    | denied => simp [exitStatus]
    | file b =>
      simp only [PathSt.file.injEq, exists_and_left, exists_eq_left']
      cases ht : toml b with
      | none => simp [exitStatus]
      | some to =>
        obtain ⟨t, order⟩ := to
        simp only [Option.some.injEq, Prod.mk.injEq]
        cases hl : loadConf t order with
        | error e =>
          simp only [exitStatus]
          constructor
          · refine ⟨fun h => absurd h (by decide), ?_⟩
            rintro ⟨t', order', ⟨rfl, rfl⟩, conf, hc, _⟩
            rw [hl] at hc; cases hc
          · refine ⟨fun h => absurd h (by decide), ?_⟩
            rintro ⟨t', order', ⟨rfl, rfl⟩, conf, hc, _⟩
            rw [hl] at hc; cases hc
        | ok conf =>
          dsimp only
          cases hs : setup conf with
          | some e =>
            simp only [exitStatus]
            constructor
            · refine ⟨fun h => absurd h (by decide), ?_⟩
              rintro ⟨t', order', ⟨rfl, rfl⟩, conf', hc, hs', _⟩
              rw [hl] at hc; cases hc
              rw [hs] at hs'; cases hs'
            · exact ⟨fun _ => ⟨t, order, ⟨rfl, rfl⟩, conf, hl, e, hs⟩, fun _ => trivial⟩
          | none =>
            cases hw : work conf with
            | some e =>
              simp only [exitStatus]
              constructor
              · refine ⟨fun h => absurd h (by decide), ?_⟩
                rintro ⟨t', order', ⟨rfl, rfl⟩, conf', hc, hs', hw'⟩
                rw [hl] at hc; cases hc
                rw [hw] at hw'; cases hw'
              · refine ⟨fun h => absurd h (by decide), ?_⟩
                rintro ⟨t', order', ⟨rfl, rfl⟩, conf', hc, e', hs'⟩
                rw [hl] at hc; cases hc
                rw [hs] at hs'; cases hs'
            | none =>
              simp only [exitStatus]
              constructor
              · exact ⟨fun _ => ⟨t, order, ⟨rfl, rfl⟩, conf, hl, hs, hw⟩, fun _ => trivial⟩
              · refine ⟨fun h => absurd h (by decide), ?_⟩
                rintro ⟨t', order', ⟨rfl, rfl⟩, conf', hc, e', hs'⟩
                rw [hl] at hc; cases hc
                rw [hs] at hs'; cases hs'
  · simp [hn, exitStatus]

/-- **C102** (nothing lost). If `run` (with the database of database/files) exits with status 0, the last dump was made and, if it took less than its 60 seconds, every observation is in a record that was handed to the database. -/
theorem C102_flushed {V E : Type} (toml : Bytes → Option (TomlConf V × List (Bytes × List V))) (setup : Conf V → Option E) (nargs : Nat) (path : PathSt) {n : Nat} {s : RSys E} (h : RReach true n s) (r : Option E)
    (hr : s.outer.main = .fin r) (hz : (exitStatus (runCommand toml setup nargs path (fun _ => r))).1 = 0) :
    s.dumped = true ∧ s.held = 0 ∧ (s.ctxDone = false → s.late = false → s.given = s.added) := by
  obtain ⟨_, _, _, _, _, _, _, _, _, hw⟩ := ((C102_status toml setup nargs path (fun _ => r)).1.mp hz)
  subst hw
  have := C67_flushed h hr
  exact ⟨this.1, this.2.1, fun hc hl => this.2.2.2.2.2 rfl hc hl⟩

/-- **C102 is false as "init never overwrites a configuration"**: one that is made between the look and the write is overwritten; and one that cannot be written whole is left in part, so that `init` refuses from then on. -/
theorem C102_overwrites_refuted : (∀ text b : Bytes, initCommand text 0 .absent (.file b) none = (.fine, .file text)) ∧
    (∀ (text : Bytes) (n : Nat) (flt : Option WriteFault), (initCommand text 0 (initCommand text 0 .absent .absent (some (.after n))).2 (initCommand text 0 .absent .absent (some (.after n))).2 flt) = (.handled, .file (text.take n))) :=
  ⟨fun _ _ => rfl, fun _ _ _ => rfl⟩

/-- The hypotheses are met: `init` and then `run`. -/
theorem C102_example : initCommand [1, 2] 0 .absent .absent none = (.fine, .file [1, 2]) ∧
    runCommand (V := Nat) (E := Nat) (fun b => if b = [1, 2] then some ({ duration := 10, plugins := [], api := ⟨[], [], [], [], [], []⟩, database := [([3], 0)], dist := [([4], 0)], listeners := [] }, []) else none)
      (fun _ => none) 1 (initCommand [1, 2] 0 .absent .absent none).2 (fun _ => none) = .fine := by
  decide

end Rothko
