import Verif.Spec.FaultShared
import Verif.Lemmas.FaultShared
import Verif.Props.Calls
/-!
# C112: the calls step by step when the operating system may report errors. Carried out alone on one metric, the steps amount to Model/Fault.
-/
namespace Rothko

attribute [local irreducible] createFile openFile

/-- What a call returns when its directory cannot be opened. -/
def errRes (e : MErr) : DbCall → DbRes
  | .write _ _ => .write (.failed e)
  | .query _ _ _ => .query [] (some e)
  | .latest _ => .latest none (some e)

/-- The calls of the database as steps. -/
def dbCallsF : FsCallsF FltCall DbRes where
  ro o := dbCalls.ro o.call
  dir o := o.dir
  body
    | o, .ok names => if o.unlink then (dbCalls.body o.call names).keep else dbCalls.body o.call names
    | o, .error e => .done (errRes e o.call)

/-- The files that cannot be opened, at each time; the rest of `Faults` is in the call. -/
def fileFaults (flt : Nat → Option FileFault) : Faults := ⟨none, flt, false⟩

theorem body_run (flt : Faults) (ids : Nat → Nat) (o : DbCall) (s : Store) :
    (match openDirF flt.dir (dbCalls.ro o) s with
      | (.ok names, s') => (dbCalls.body o names).runG flt ids s'
      | (.error e, s') => (errRes e o, s')) = o.runF flt s := by
  cases o with
  | write cfg v =>
    unfold DbCall.runF dbWriteF
    dsimp only
    show (match openDirF flt.dir false s with | (.ok names, s') => (dbWriteP cfg v names (fun r => FsProg.done (DbRes.write r))).runG flt ids s' | (.error e, s') => (errRes e (.write cfg v), s')) = _
    generalize openDirF flt.dir false s = d
    obtain ⟨e | names, s'⟩ := d
    · rfl
    · dsimp only
      obtain ⟨h1, h2⟩ := runG_like (fun a b => a = DbRes.write b) flt ids (fun c => c) _ _ (dbWriteP_like cfg v names (fun r => FsProg.done (DbRes.write r)) FsProg.done (fun r => rfl)) s'
      rw [runG_clock] at h1 h2
      exact Prod.ext h1 h2
  | query cfg b cb =>
    unfold DbCall.runF dbQueryF
    dsimp only
    show (match openDirF flt.dir true s with | (.ok names, s') => (dbQueryP cfg b (fun seen v => (seen ++ [v], cb seen v)) [] names (fun r => FsProg.done (DbRes.query r.1 r.2))).runG flt ids s' | (.error e, s') => (errRes e (.query cfg b cb), s')) = _
    generalize openDirF flt.dir true s = d
    obtain ⟨e | names, s'⟩ := d
    · rfl
    · dsimp only
      obtain ⟨h1, h2⟩ := runG_like (fun a (b : List Val × Option MErr) => a = DbRes.query b.1 b.2) flt ids (fun c => c) _ _ (dbQueryP_like cfg b (fun seen v => (seen ++ [v], cb seen v)) [] names (fun r => FsProg.done (DbRes.query r.1 r.2)) FsProg.done (fun r => rfl)) s'
      rw [runG_clock] at h1 h2
      exact Prod.ext h1 h2
  | latest cfg =>
    unfold DbCall.runF dbQueryLatestF dbQueryF
    dsimp only
    show (match openDirF flt.dir true s with | (.ok names, s') => (dbQueryP cfg 0x7fffffffffffffff (fun _ v => (some v, .stop)) none names (fun r => FsProg.done (DbRes.latest r.1 r.2))).runG flt ids s' | (.error e, s') => (errRes e (.latest cfg), s')) = _
    generalize openDirF flt.dir true s = d
    obtain ⟨e | names, s'⟩ := d
    · rfl
    · dsimp only
      obtain ⟨h1, h2⟩ := runG_like (fun a (b : Option Val × Option MErr) => a = DbRes.latest b.1 b.2) flt ids (fun c => c) _ _ (dbQueryP_like cfg 0x7fffffffffffffff (fun (_ : Option Val) v => (some v, Cb.stop)) none names (fun r => FsProg.done (DbRes.latest r.1 r.2)) FsProg.done (fun r => rfl)) s'
      rw [runG_clock] at h1 h2
      exact Prod.ext h1 h2

theorem runG_dir (flt : Faults) (d : Option DirFault) (ids : Nat → Nat) (p : FsProg DbRes) : ∀ s, p.runG { flt with dir := d } ids s = p.runG flt ids s := by
  have ha : ∀ (s : Store) cfg idx ex, s.acquireF { flt with dir := d } cfg idx ex = s.acquireF flt cfg idx ex := fun _ _ _ _ => rfl
  induction p with
  | done a => intro s; rfl
  | acquire cfg idx ex k ih =>
    intro s
    rw [FsProg.runG, FsProg.runG, ha]
    generalize Store.acquireF flt cfg s idx ex = a
    obtain ⟨e | h, s1⟩ := a <;> exact ih _ _
  | release idx h k ih => intro s; exact ih _
  | evict idx k ih => intro s; exact ih _
  | remove idx k ih => intro s; exact ih _
  | load h k ih => intro s; exact ih _ _
  | store h head v f k ih => intro s; exact ih _

/-- **C112** (the same calls). The steps of a call, carried out alone, amount to the call of Model/Fault, whatever the identities of the handles. -/
theorem C112_run (ids : Nat → Nat) (flt : Nat → Option FileFault) (o : FltCall) (s : Store) :
    (dbCallsF.body o (openDirF o.dir (dbCallsF.ro o) s).1).runG (fileFaults flt) ids (openDirF o.dir (dbCallsF.ro o) s).2 = o.run flt s := by
  unfold FltCall.run
  rw [← body_run ⟨o.dir, flt, o.unlink⟩ ids o.call s]
  obtain ⟨call, dir, unlink⟩ := o
  show (dbCallsF.body ⟨call, dir, unlink⟩ (openDirF dir (dbCalls.ro call) s).1).runG _ ids (openDirF dir (dbCalls.ro call) s).2 = _
  dsimp only
  generalize openDirF dir (dbCalls.ro call) s = d
  obtain ⟨e | names, s'⟩ := d
  · rfl
  · dsimp only
    have hd := runG_dir ⟨none, flt, unlink⟩ dir ids (dbCalls.body call names) s'
    dsimp only at hd
    rw [hd]
    cases unlink with
    | true => exact runG_keep ⟨none, flt, true⟩ ids (dbCalls.body call names) s'
    | false => rfl

/-! ## As a machine -/

/-- The oracles of one metric: which handle each lookup gives, and which lookups fail. -/
abbrev Oracles : Type := (Nat → Nat) × (Nat → Option FileFault)

/-- One step on the state of one metric. -/
def FsProg.oneF {α : Type} : FsProg α → Store × Oracles → Option (FsProg α × (Store × Oracles))
  | .done _, _ => none
  | .acquire cfg idx ex k, s =>
    match s.1.acquireF (fileFaults s.2.2) cfg idx ex with
    | (.error e, s') => some (k (.error e), (s', s.2))
    | (.ok h, s') => some (k (.ok ⟨s.2.1 s.1.clock, h⟩), (s', s.2))
  | .release idx h k, s => some (k, (s.1.release idx h.geo, s.2))
  | .evict idx k, s => some (k, (s.1.evict idx, s.2))
  | .remove idx k, s => some (k, (s.1.remove idx, s.2))
  | .load h k, s => some (k (s.1.file h.geo), s)
  | .store h _ _ f k, s => some (k, (s.1.setFile h.geo f, s.2))

/-- The steps as a machine in the sense of C59. -/
def fsMachineF : Machine FltCall DbRes (Store × Oracles) (FsProg DbRes) where
  first o s := (dbCallsF.body o (openDirF o.dir (dbCallsF.ro o) s.1).1, ((openDirF o.dir (dbCallsF.ro o) s.1).2, s.2))
  step := FsProg.oneF
  result := FsProg.value (.write .notWritten)

/-- The call carried out alone. -/
def fsRunF (o : FltCall) (s : Store × Oracles) : DbRes × (Store × Oracles) := ((o.run s.2.2 s.1).1, ((o.run s.2.2 s.1).2, s.2))

theorem oneF_run {α : Type} {p p' : FsProg α} {s s' : Store × Oracles} (h : p.oneF s = some (p', s')) : s'.2 = s.2 ∧ p.runG (fileFaults s.2.2) s.2.1 s.1 = p'.runG (fileFaults s'.2.2) s'.2.1 s'.1 := by
  cases p with
  | done a => cases h
  | acquire cfg idx ex k =>
    rw [FsProg.oneF] at h
    rw [FsProg.runG]
    generalize Store.acquireF (fileFaults s.2.2) cfg s.1 idx ex = a at h
    obtain ⟨e | x, s1⟩ := a <;> (cases h; exact ⟨rfl, rfl⟩)
  | release idx x k => cases h; exact ⟨rfl, rfl⟩
  | evict idx k => cases h; exact ⟨rfl, rfl⟩
  | remove idx k => cases h; exact ⟨rfl, rfl⟩
  | load x k => cases h; exact ⟨rfl, rfl⟩
  | store x head v f k => cases h; exact ⟨rfl, rfl⟩

theorem oneF_none {α : Type} {p : FsProg α} {s : Store × Oracles} (h : p.oneF s = none) : ∃ a, p = .done a := by
  cases p with
  | done a => exact ⟨a, rfl⟩
  | acquire cfg idx ex k =>
    rw [FsProg.oneF] at h
    generalize Store.acquireF (fileFaults s.2.2) cfg s.1 idx ex = a at h
    obtain ⟨e | x, s1⟩ := a <;> cases h
  | _ => cases h

theorem fsMachineF_implements : fsMachineF.Implements fsRunF := by
  intro o s l t hr hd
  have key : ∀ l t, fsMachineF.Runs o s l t → t.2 = s.2 ∧ l.runG (fileFaults t.2.2) t.2.1 t.1 = o.run s.2.2 s.1 := by
    intro l t hr
    induction hr with
    | first => exact ⟨rfl, C112_run s.2.1 s.2.2 o s.1⟩
    | step _ hs ih =>
      obtain ⟨e1, e2⟩ := oneF_run hs
      exact ⟨e1.trans ih.1, e2.symm.trans ih.2⟩
  obtain ⟨e1, e2⟩ := key l t hr
  obtain ⟨a, rfl⟩ := oneF_none hd
  unfold fsRunF
  rw [← e2, ← e1]
  rfl

/-- A directory made by another metric. -/
def mkdirFsF (s : Store × Oracles) : Store × Oracles := (mkdirEnv s.1, s.2)

theorem mk_openNew (cfg : Cfg) (s : Store) (idx : Int) (ex : Bool) : (mkdirEnv s).openNew cfg idx ex = ((s.openNew cfg idx ex).1, mkdirEnv (s.openNew cfg idx ex).2) := by
  unfold Store.openNew
  cases ex with
  | true =>
    simp only [if_true]
    unfold Store.openAt
    have : (mkdirEnv s).lookup idx = s.lookup idx := rfl
    rw [this]
    cases s.lookup idx with
    | none => rfl
    | some ino =>
      dsimp only
      have : (mkdirEnv s).disk = s.disk := rfl
      rw [this]
      cases openFile (s.disk ino) <;> rfl
  | false =>
    simp only [Bool.false_eq_true, if_false]
    exact mk_createAt cfg idx s

theorem mk_failed (cfg : Cfg) (s : Store) (idx : Int) (ex : Bool) (f : FileFault) : (mkdirEnv s).failed cfg idx ex f = ((s.failed cfg idx ex f).1, mkdirEnv (s.failed cfg idx ex f).2) := by
  cases f with
  | clean => rfl
  | partly n =>
    unfold Store.failed
    cases ex with
    | true => rfl
    | false =>
      simp only [Bool.false_eq_true, if_false]
      split
      · rfl
      · exact mk_createAt cfg idx s

theorem acquireF_openF (flt : Faults) (cfg : Cfg) (s : Store) (idx : Int) (ex : Bool) : s.acquireF flt cfg idx ex =
    match s.cache idx, s.hit s.clock with
    | some h, true => (.ok h, { s.evict idx with clock := s.clock + 1 })
    | _, _ => Store.openF cfg { s.evict idx with clock := s.clock + 1 } idx ex (flt.file s.clock) := by
  unfold Store.acquireF Store.openF
  dsimp only
  cases s.cache idx with
  | none => cases flt.file s.clock <;> rfl
  | some h => cases s.hit s.clock <;> (cases flt.file s.clock <;> rfl)

theorem mk_openF (cfg : Cfg) (s : Store) (idx : Int) (ex : Bool) (f : Option FileFault) : (mkdirEnv s).openF cfg idx ex f = ((s.openF cfg idx ex f).1, mkdirEnv (s.openF cfg idx ex f).2) := by
  cases f with
  | none => exact mk_openNew cfg s idx ex
  | some f => exact mk_failed cfg s idx ex f

theorem mk_acquireF (flt : Faults) (cfg : Cfg) (s : Store) (idx : Int) (ex : Bool) : (mkdirEnv s).acquireF flt cfg idx ex = ((s.acquireF flt cfg idx ex).1, mkdirEnv (s.acquireF flt cfg idx ex).2) := by
  rw [acquireF_openF, acquireF_openF]
  show (match s.cache idx, s.hit s.clock with
    | some h, true => ((.ok h : Except MErr Handle), { (mkdirEnv s).evict idx with clock := s.clock + 1 })
    | _, _ => Store.openF cfg (mkdirEnv { s.evict idx with clock := s.clock + 1 }) idx ex (flt.file s.clock)) = _
  rw [mk_openF]
  cases s.cache idx with
  | none => rfl
  | some h => cases s.hit s.clock <;> rfl

theorem fsMachineF_settled : fsMachineF.Settled mkdirFsF := by
  intro l s
  show FsProg.oneF l (mkdirFsF s) = (FsProg.oneF l s).map _
  cases l with
  | done a => rfl
  | acquire cfg idx ex k =>
    unfold FsProg.oneF mkdirFsF
    dsimp only
    rw [mk_acquireF]
    generalize Store.acquireF (fileFaults s.2.2) cfg s.1 idx ex = a
    obtain ⟨e | x, s1⟩ := a <;> rfl
  | _ => rfl

/-- The steps are careful with handles. -/
theorem dbCallsF_careful (o : FltCall) (names : Except MErr (Option (List Int))) : (dbCallsF.body o names).Careful [] := by
  cases names with
  | error e => rfl
  | ok names =>
    show (if o.unlink then (dbCalls.body o.call names).keep else dbCalls.body o.call names).Careful []
    split
    · exact keep_careful _ _ (C96_careful o.call names)
    · exact C96_careful o.call names

end Rothko
