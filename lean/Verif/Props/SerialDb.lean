/-
C59 for the database: the calls of Model/Metric under the lock pool.
-/
import Verif.Props.Serial
import Verif.Spec.History

namespace Rothko

/-- A call that works on one metric: db.write on behalf of a worker, Query with a callback (deciding from what it has seen), QueryLatest. -/
inductive DbCall
  | write (cfg : Cfg) (v : Val)
  | query (cfg : Cfg) (bound : Int64) (cb : List Val → Val → Cb)
  | latest (cfg : Cfg)

/-- What the caller gets. -/
inductive DbRes
  | write (r : WRes)
  | query (seen : List Val) (err : Option MErr)
  | latest (v : Option Val) (err : Option MErr)
deriving DecidableEq

/-- The call carried out alone (Model/Metric). -/
def DbCall.run : DbCall → Store → DbRes × Store
  | .write cfg v, s => (.write (dbWrite cfg v s).1, (dbWrite cfg v s).2)
  | .query cfg b cb, s => (.query (queryList cfg b cb s).1.1 (queryList cfg b cb s).1.2, (queryList cfg b cb s).2)
  | .latest cfg, s => (.latest (dbQueryLatest cfg s).1.1 (dbQueryLatest cfg s).1.2, (dbQueryLatest cfg s).2)

/-- A metric with a longer name makes the directory of this one on the way (os.MkdirAll, metric.go:85). -/
def mkdirEnv (s : Store) : Store := { s with dirExists := true }

/-- Where a call is: newMetric done; the first half of Write done; finished. -/
inductive DbPc
  | opened (o : DbCall) (r : Except MErr (Int × Int))
  | prepared (v : Val) (p : Prep) (held : List (Int × Handle))
  | done (r : DbRes)

/-- The calls in steps: newMetric (metric.go:77-161), then for a write what comes before the first byte is stored (218-295) and the rest (297-329), for a query all of Read (337-495). -/
def dbMachine : Machine DbCall DbRes Store DbPc where
  first
    | .write cfg v, s => (.opened (.write cfg v) (newMetric cfg false s).1, (newMetric cfg false s).2)
    | .query cfg b cb, s => (.opened (.query cfg b cb) (newMetric cfg true s).1, (newMetric cfg true s).2)
    | .latest cfg, s => (.opened (.latest cfg) (newMetric cfg true s).1, (newMetric cfg true s).2)
  step
    | .opened (.write _ _) (.error e), s => some (.done (.write (.failed e)), s)
    | .opened (.write cfg v) (.ok (first, last)), s =>
      some (.prepared v (writePrep cfg first last v s).1 (writePrep cfg first last v s).2.1, (writePrep cfg first last v s).2.2)
    | .opened (.query _ _ _) (.error e), s => some (.done (.query [] (some e)), s)
    | .opened (.query cfg b cb) (.ok (first, last)), s =>
      let r := metricRead cfg b (fun seen v => (seen ++ [v], cb seen v)) (last - first + 1).toNat last s []
      some (.done (.query r.1.1 r.1.2), r.2)
    | .opened (.latest _) (.error e), s => some (.done (.latest none (some e)), s)
    | .opened (.latest cfg) (.ok (first, last)), s =>
      let r := metricRead cfg 0x7fffffffffffffff (fun _ v => (some v, .stop)) (last - first + 1).toNat last s none
      some (.done (.latest r.1.1 r.1.2), r.2)
    | .prepared _ (.ret r) held, s => some (.done (.write r), s.releaseAll held)
    | .prepared v (.go h head _) held, s =>
      some (.done (.write (writeBody (s.file h) head v).1), (s.setFile h (writeBody (s.file h) head v).2).releaseAll held)
    | .done _, _ => none
  result
    | .done r => r
    | _ => .write .notWritten

/-! ## The steps amount to the calls -/

/-- The ways a run of `dbMachine` can be. -/
theorem dbMachine_implements : dbMachine.Implements DbCall.run := by
  intro o s l t hr hd
  have key : ∀ l t, dbMachine.Runs o s l t →
      (∃ r, l = .opened o r ∧ (r, t) = (match o with | .write cfg _ => newMetric cfg false s | .query cfg _ _ => newMetric cfg true s | .latest cfg => newMetric cfg true s)) ∨
      (∃ cfg v first last p held s1, o = .write cfg v ∧ newMetric cfg false s = (.ok (first, last), s1) ∧ writePrep cfg first last v s1 = (p, held, t) ∧ l = .prepared v p held) ∨
      (∃ r, l = .done r ∧ o.run s = (r, t)) := by
    intro l t hr
    induction hr with
    | first =>
      left
      cases o <;> exact ⟨_, rfl, rfl⟩
    | @step l l' t t' hr hs ih =>
      rcases ih with ⟨r, rfl, e⟩ | ⟨cfg, v, first, last, p, held, s1, rfl, e1, e2, rfl⟩ | ⟨r, rfl, _⟩
      · cases o with
        | write cfg v =>
          have e : newMetric cfg false s = (r, t) := e.symm
          cases r with
          | error x =>
            right; right
            simp only [dbMachine, Option.some.injEq, Prod.mk.injEq] at hs
            obtain ⟨rfl, rfl⟩ := hs
            refine ⟨_, rfl, ?_⟩
            simp [DbCall.run, dbWrite, e]
          | ok fl =>
            right; left
            obtain ⟨first, last⟩ := fl
            simp only [dbMachine, Option.some.injEq, Prod.mk.injEq] at hs
            obtain ⟨rfl, rfl⟩ := hs
            exact ⟨cfg, v, first, last, _, _, t, rfl, e, rfl, rfl⟩
        | query cfg b cb =>
          have e : newMetric cfg true s = (r, t) := e.symm
          right; right
          cases r with
          | error x =>
            simp only [dbMachine, Option.some.injEq, Prod.mk.injEq] at hs
            obtain ⟨rfl, rfl⟩ := hs
            refine ⟨_, rfl, ?_⟩
            simp [DbCall.run, queryList, dbQuery, e]
          | ok fl =>
            obtain ⟨first, last⟩ := fl
            simp only [dbMachine, Option.some.injEq, Prod.mk.injEq] at hs
            obtain ⟨rfl, rfl⟩ := hs
            refine ⟨_, rfl, ?_⟩
            simp [DbCall.run, queryList, dbQuery, e]
        | latest cfg =>
          have e : newMetric cfg true s = (r, t) := e.symm
          right; right
          cases r with
          | error x =>
            simp only [dbMachine, Option.some.injEq, Prod.mk.injEq] at hs
            obtain ⟨rfl, rfl⟩ := hs
            refine ⟨_, rfl, ?_⟩
            simp [DbCall.run, dbQueryLatest, dbQuery, e]
          | ok fl =>
            obtain ⟨first, last⟩ := fl
            simp only [dbMachine, Option.some.injEq, Prod.mk.injEq] at hs
            obtain ⟨rfl, rfl⟩ := hs
            refine ⟨_, rfl, ?_⟩
            simp [DbCall.run, dbQueryLatest, dbQuery, e]
      · right; right
        cases p with
        | ret r =>
          simp only [dbMachine, Option.some.injEq, Prod.mk.injEq] at hs
          obtain ⟨rfl, rfl⟩ := hs
          refine ⟨_, rfl, ?_⟩
          simp [DbCall.run, dbWrite, e1, metricWrite, e2]
        | go h head nr =>
          simp only [dbMachine, Option.some.injEq, Prod.mk.injEq] at hs
          obtain ⟨rfl, rfl⟩ := hs
          refine ⟨_, rfl, ?_⟩
          simp [DbCall.run, dbWrite, e1, metricWrite, e2]
      · simp [dbMachine] at hs
  rcases key l t hr with ⟨r, rfl, e⟩ | ⟨cfg, v, first, last, p, held, s1, rfl, e1, e2, rfl⟩ | ⟨r, rfl, e⟩
  · cases o <;> (rcases r with x | ⟨_, _⟩ <;> simp [dbMachine] at hd)
  · cases p <;> simp [dbMachine] at hd
  · exact e

/-! ## After newMetric, nothing looks at the existence of the directory -/

theorem mk_openAt (idx : Int) (s : Store) : (mkdirEnv s).openAt idx = ((s.openAt idx).1, mkdirEnv (s.openAt idx).2) := by
  unfold Store.openAt
  show (match s.lookup idx with | none => _ | some ino => _) = _
  cases s.lookup idx with
  | none => rfl
  | some ino =>
    dsimp only
    show (match openFile (s.disk ino) with | .error e => _ | .ok f => _) = _
    cases openFile (s.disk ino) <;> rfl

theorem mk_install (c : Except FErr File × Bytes) (idx : Int) (s : Store) : (mkdirEnv s).install c idx = ((s.install c idx).1, mkdirEnv (s.install c idx).2) := by
  obtain ⟨f, d⟩ := c
  cases f <;> rfl

theorem mk_createAt (cfg : Cfg) (idx : Int) (s : Store) : (mkdirEnv s).createAt cfg idx = ((s.createAt cfg idx).1, mkdirEnv (s.createAt cfg idx).2) := by
  rw [Store.createAt, Store.createAt, mk_install]

/-- The choice that `acquire` makes. -/
def acqOf (c : Option Handle) (hit ex : Bool) (s' : Store) (o n : Except MErr Handle × Store) : Except MErr Handle × Store :=
  match c, hit with
  | some h, true => (.ok h, s')
  | _, _ => if ex then o else n

theorem acquire_acqOf (cfg : Cfg) (s : Store) (idx : Int) (ex : Bool) :
    s.acquire cfg idx ex = acqOf (s.cache idx) (s.hit s.clock) ex { s.evict idx with clock := s.clock + 1 }
      (Store.openAt { s.evict idx with clock := s.clock + 1 } idx) (Store.createAt cfg { s.evict idx with clock := s.clock + 1 } idx) := by
  unfold Store.acquire acqOf
  rfl

theorem mk_acqOf (c : Option Handle) (hit ex : Bool) (s' : Store) (o n : Except MErr Handle × Store) :
    acqOf c hit ex (mkdirEnv s') (o.1, mkdirEnv o.2) (n.1, mkdirEnv n.2) = ((acqOf c hit ex s' o n).1, mkdirEnv (acqOf c hit ex s' o n).2) := by
  cases c <;> cases hit <;> cases ex <;> rfl

theorem mk_acquire (cfg : Cfg) (s : Store) (idx : Int) (ex : Bool) : (mkdirEnv s).acquire cfg idx ex = ((s.acquire cfg idx ex).1, mkdirEnv (s.acquire cfg idx ex).2) := by
  have es : ({ (mkdirEnv s).evict idx with clock := (mkdirEnv s).clock + 1 } : Store) = mkdirEnv { s.evict idx with clock := s.clock + 1 } := rfl
  have ec : (mkdirEnv s).cache = s.cache := rfl
  have eh : (mkdirEnv s).hit = s.hit := rfl
  have ek : (mkdirEnv s).clock = s.clock := rfl
  rw [acquire_acqOf, acquire_acqOf, es, ec, eh, ek, mk_openAt, mk_createAt, mk_acqOf]

theorem mk_acquireLast (cfg : Cfg) (first : Int) (fuel : Nat) : ∀ (last : Int) (s : Store),
    acquireLast cfg first fuel last (mkdirEnv s) = ((acquireLast cfg first fuel last s).1, mkdirEnv (acquireLast cfg first fuel last s).2) := by
  induction fuel with
  | zero => intro last s; rfl
  | succ fuel ih =>
    intro last s
    unfold acquireLast
    rw [mk_acquire]
    rcases s.acquire cfg last true with ⟨e | h, s1⟩
    · rfl
    · dsimp only
      show (match (s1.file h).headPointer with | .error e => _ | .ok head => _) = _
      cases (s1.file h).headPointer with
      | error e => rfl
      | ok head =>
        dsimp only
        split
        · exact ih (last - 1) ((s1.release last h).remove last)
        · rfl

theorem mk_releaseAll (held : List (Int × Handle)) : ∀ s : Store, (mkdirEnv s).releaseAll held = mkdirEnv (s.releaseAll held) := by
  induction held with
  | nil => intro s; rfl
  | cons a l ih => intro s; exact ih (s.release a.1 a.2)

theorem mk_writePrep (cfg : Cfg) (first last : Int) (v : Val) (s : Store) :
    writePrep cfg first last v (mkdirEnv s) = ((writePrep cfg first last v s).1, (writePrep cfg first last v s).2.1, mkdirEnv (writePrep cfg first last v s).2.2) := by
  unfold writePrep
  rw [mk_acquireLast]
  rcases acquireLast cfg first (last - first + 1).toNat last s with ⟨e | ⟨h, head0, last⟩, s1⟩
  · rfl
  · dsimp only
    have ef : (mkdirEnv s1).file h = s1.file h := rfl
    rw [ef]
    generalize (if (s1.file h).hasRecord (head0 + 1) then
        match (s1.file h).record (head0 + 1) with
        | .error e => some (WRes.failed (.file e))
        | .ok r => if r.stop ≥ v.stop then some .notWritten else none
      else none) = early
    cases early with
    | some r => rfl
    | none =>
      dsimp only
      generalize numRecords v.data.length h.size = n1
      split
      · rfl
      · rfl
      · split
        · split
          · rfl
          · have er : (if last - first ≥ cfg.max ∧ cfg.max > 0 then ((mkdirEnv s1).evict first).remove first else mkdirEnv s1) =
                mkdirEnv (if last - first ≥ cfg.max ∧ cfg.max > 0 then (s1.evict first).remove first else s1) := by
              split <;> rfl
            rw [er, mk_acquire]
            rcases Store.acquire cfg (if last - first ≥ cfg.max ∧ cfg.max > 0 then (s1.evict first).remove first else s1) (last + 1) false with ⟨e | h2, s2⟩
            · rfl
            · dsimp only
              generalize numRecords v.data.length h2.size = n2
              split
              · rfl
              · rfl
              · split <;> rfl
        · rfl

theorem mk_metricRead {α : Type} (cfg : Cfg) (bound : Int64) (cb : α → Val → α × Cb) (fuel : Nat) : ∀ (num : Int) (s : Store) (st : α),
    metricRead cfg bound cb fuel num (mkdirEnv s) st = ((metricRead cfg bound cb fuel num s st).1, mkdirEnv (metricRead cfg bound cb fuel num s st).2) := by
  induction fuel with
  | zero => intro num s st; rfl
  | succ fuel ih =>
    intro num s st
    unfold metricRead
    rw [mk_acquire]
    rcases s.acquire cfg num true with ⟨e | h, s1⟩
    · rfl
    · dsimp only
      have ef : (mkdirEnv s1).file h = s1.file h := rfl
      rw [ef]
      rcases readFile bound cb (s1.file h) st with ⟨st', c⟩
      cases c with
      | more => exact ih (num - 1) (s1.release num h) st'
      | stop => rfl
      | fail e => rfl

theorem dbMachine_settled : dbMachine.Settled mkdirEnv := by
  intro l s
  cases l with
  | opened o r =>
    cases o with
    | write cfg v =>
      cases r with
      | error e => rfl
      | ok fl => simp only [dbMachine, mk_writePrep, Option.map_some]
    | query cfg b cb =>
      cases r with
      | error e => rfl
      | ok fl => simp only [dbMachine, mk_metricRead, Option.map_some]
    | latest cfg =>
      cases r with
      | error e => rfl
      | ok fl => simp only [dbMachine, mk_metricRead, Option.map_some]
  | prepared v p held =>
    cases p with
    | ret r => simp only [dbMachine, mk_releaseAll, Option.map_some]
    | go h head nr =>
      have ef : (mkdirEnv s).file h = s.file h := rfl
      simp only [dbMachine, Option.map_some, ef]
      congr 2
      exact mk_releaseAll held (s.setFile h (writeBody (s.file h) head v).2)
  | done r => rfl

/-! ## Concurrent executions are histories -/

/-- The call can be accepted: usable options, and a value that fits an empty file. -/
def DbCall.Ok : DbCall → Prop
  | .write cfg v => GeoOk cfg.size cfg.cap ∧ needs cfg.size v.data.length ≤ cfg.cap
  | .query cfg _ _ => GeoOk cfg.size cfg.cap
  | .latest cfg => GeoOk cfg.size cfg.cap

/-- The acknowledged values among finished calls (oldest first). -/
def ackd : List (Nat × DbCall × DbRes) → List Val
  | [] => []
  | (_, .write _ v, .write .written) :: r => v :: ackd r
  | _ :: r => ackd r

theorem ackd_append (a b : List (Nat × DbCall × DbRes)) : ackd (a ++ b) = ackd a ++ ackd b := by
  induction a with
  | nil => rfl
  | cons x a ih =>
    obtain ⟨i, o, r⟩ := x
    cases o with
    | write cfg v =>
      cases r with
      | write w => cases w <;> simp [ackd, ih]
      | query => simp [ackd, ih]
      | latest => simp [ackd, ih]
    | query => simp [ackd, ih]
    | latest => simp [ackd, ih]

/-- What one history operation amounts to. -/
def DbCall.toOp : DbCall → Op
  | .write cfg v => .write cfg v
  | .query cfg b cb => .query cfg b cb
  | .latest cfg => .latest cfg

theorem run_toOp (o : DbCall) (s : Store) (acc : List Val) (i : Nat) : o.toOp.run (s, acc) = ((o.run s).2, ackd [(i, o, (o.run s).1)] ++ acc) := by
  cases o with
  | write cfg v =>
    simp only [DbCall.toOp, Op.run, DbCall.run]
    rcases hw : dbWrite cfg v s with ⟨w, s'⟩
    cases w <;> simp [ackd]
  | query cfg b cb => rfl
  | latest cfg => rfl

theorem install_dirExists (c : Except FErr File × Bytes) (idx : Int) (s : Store) : (s.install c idx).2.dirExists = s.dirExists := by
  obtain ⟨f, d⟩ := c
  cases f <;> rfl

theorem openAt_dirExists (idx : Int) (s : Store) : (s.openAt idx).2.dirExists = s.dirExists := by
  unfold Store.openAt
  split
  · rfl
  · split <;> rfl

theorem acqOf_dirExists (c : Option Handle) (hit ex : Bool) (s' : Store) (o n : Except MErr Handle × Store) (ho : o.2.dirExists = s'.dirExists) (hn : n.2.dirExists = s'.dirExists) :
    (acqOf c hit ex s' o n).2.dirExists = s'.dirExists := by
  cases c <;> cases hit <;> cases ex <;> first | rfl | assumption

theorem createAt_dirExists (cfg : Cfg) (idx : Int) (s : Store) : (s.createAt cfg idx).2.dirExists = s.dirExists := by
  rw [Store.createAt, install_dirExists]

theorem acquire_dirExists (cfg : Cfg) (s : Store) (idx : Int) (ex : Bool) : (s.acquire cfg idx ex).2.dirExists = s.dirExists := by
  have h := acquire_acqOf cfg s idx ex
  have e : ({ s.evict idx with clock := s.clock + 1 } : Store).dirExists = s.dirExists := rfl
  generalize ({ s.evict idx with clock := s.clock + 1 } : Store) = s' at h e
  have ho := openAt_dirExists idx s'
  have hn := createAt_dirExists cfg idx s'
  generalize s'.openAt idx = o at h ho
  generalize s'.createAt cfg idx = n at h hn
  rw [h, acqOf_dirExists _ _ _ _ _ _ ho hn, e]

theorem mkdirEnv_of {s : Store} (h : s.dirExists = true) : mkdirEnv s = s := by
  unfold mkdirEnv
  rw [← h]

theorem newMetric_dirExists (cfg : Cfg) (ro : Bool) (s : Store) (h : (!s.dirExists && ro) = false) : (newMetric cfg ro s).2.dirExists = true := by
  unfold newMetric
  rw [h, if_neg Bool.false_ne_true]
  have k := acquire_dirExists cfg { s with dirExists := true } 1 false
  have k : (Store.acquire cfg { s with dirExists := true } 1 false).2.dirExists = true := k
  dsimp only
  split
  · rfl
  · generalize Store.acquire cfg { s with dirExists := true } 1 false = x at k
    obtain ⟨r, s1⟩ := x
    cases r <;> exact k

theorem dbWrite_dirExists (cfg : Cfg) (v : Val) (s : Store) : (dbWrite cfg v s).2.dirExists = true := by
  unfold dbWrite
  have k := newMetric_dirExists cfg false s (by simp)
  generalize newMetric cfg false s = x at k
  obtain ⟨r, s1⟩ := x
  cases r with
  | error e => exact k
  | ok fl =>
    obtain ⟨first, last⟩ := fl
    dsimp only
    unfold metricWrite
    have k : s1.dirExists = true := k
    rw [← mkdirEnv_of k, mk_writePrep]
    generalize writePrep cfg first last v s1 = y
    obtain ⟨p, held, s2⟩ := y
    cases p with
    | ret r =>
      show ((mkdirEnv s2).releaseAll held).dirExists = true
      rw [mk_releaseAll]; rfl
    | go hd head nr =>
      show ((mkdirEnv (s2.setFile hd _)).releaseAll held).dirExists = true
      rw [mk_releaseAll]; rfl

theorem dbQuery_dirExists {α : Type} (cfg : Cfg) (b : Int64) (cb : α → Val → α × Cb) (s : Store) (st : α) (h : s.dirExists = true) : (dbQuery cfg b cb st s).2.dirExists = true := by
  unfold dbQuery
  have k := newMetric_dirExists cfg true s (by simp [h])
  generalize newMetric cfg true s = x at k
  obtain ⟨r, s1⟩ := x
  cases r with
  | error e => exact k
  | ok fl =>
    obtain ⟨first, last⟩ := fl
    dsimp only
    have k : s1.dirExists = true := k
    rw [← mkdirEnv_of k, mk_metricRead]
    rfl

theorem run_dirExists (o : Op) (sa : Store × List Val) (h : sa.1.dirExists = true ∨ ∃ cfg v, o = .write cfg v) : (o.run sa).1.dirExists = true := by
  cases o with
  | write cfg v =>
    have k := dbWrite_dirExists cfg v sa.1
    obtain ⟨s, acc⟩ := sa
    simp only [Op.run]
    generalize dbWrite cfg v s = x at k
    obtain ⟨w, s'⟩ := x
    cases w <;> exact k
  | query cfg b cb =>
    rcases h with h | ⟨_, _, h⟩
    · exact dbQuery_dirExists cfg b _ sa.1 _ h
    · cases h
  | latest cfg =>
    rcases h with h | ⟨_, _, h⟩
    · exact dbQuery_dirExists cfg _ _ sa.1 _ h
    · cases h
  | restart =>
    rcases h with h | ⟨_, _, h⟩
    · exact h
    · cases h

theorem newMetric_noDir (cfg : Cfg) (s : Store) (h : s.dirExists = false) : newMetric cfg true s = (.error .noDir, s) := by
  unfold newMetric
  rw [h]
  exact if_pos rfl

theorem fresh_stays (o : Op) (hit : Nat → Bool) (h : (o.run (Store.fresh false hit, [])).1.dirExists = false) : o.run (Store.fresh false hit, []) = (Store.fresh false hit, []) := by
  cases o with
  | write cfg v =>
    rw [run_dirExists _ _ (.inr ⟨cfg, v, rfl⟩)] at h
    cases h
  | query cfg b cb => simp only [Op.run, queryList, dbQuery, newMetric_noDir cfg (Store.fresh false hit) rfl]
  | latest cfg => simp only [Op.run, dbQueryLatest, dbQuery, newMetric_noDir cfg (Store.fresh false hit) rfl]
  | restart => rfl

theorem dir_stays (o : Op) (sa : Store × List Val) (h : (o.run sa).1.dirExists = false) : sa.1.dirExists = false := by
  cases hd : sa.1.dirExists with
  | false => rfl
  | true =>
    rw [run_dirExists o sa (.inl hd)] at h
    cases h

theorem runOps_fresh (ops : List Op) (hit : Nat → Bool) : (runOps ops (Store.fresh false hit, [])).1.dirExists = false → runOps ops (Store.fresh false hit, []) = (Store.fresh false hit, []) := by
  have back : ∀ (ops : List Op) (sa : Store × List Val), (runOps ops sa).1.dirExists = false → sa.1.dirExists = false := by
    intro ops
    induction ops with
    | nil => intro sa h; exact h
    | cons o ops ih => intro sa h; exact dir_stays o sa (ih _ h)
  induction ops with
  | nil => intro _; rfl
  | cons o ops ih =>
    intro h
    have h1 := back ops (o.run (Store.fresh false hit, [])) h
    have h2 := fresh_stays o hit h1
    show runOps ops (o.run (Store.fresh false hit, [])) = _
    rw [h2]
    refine ih ?_
    have h : (runOps ops (o.run (Store.fresh false hit, []))).1.dirExists = false := h
    rw [h2] at h
    exact h

/-- Making the directory leads from a state of a history to a state of a history. -/
theorem reach_mkdir {s : Store} {acc : List Val} (h : Reach s acc) : Reach (mkdirEnv s) acc := by
  cases hd : s.dirExists with
  | true =>
    have e : mkdirEnv s = s := by unfold mkdirEnv; rw [← hd]
    rw [e]; exact h
  | false =>
    obtain ⟨de, hit, ops, hok, he⟩ := h
    cases de with
    | true =>
      exfalso
      have back : ∀ (ops : List Op) (sa : Store × List Val), (runOps ops sa).1.dirExists = false → sa.1.dirExists = false := by
        intro ops
        induction ops with
        | nil => intro sa h; exact h
        | cons o ops ih => intro sa h; exact dir_stays o sa (ih _ h)
      have := back ops (Store.fresh true hit, []) (by rw [he]; exact hd)
      cases this
    | false =>
      have h1 := runOps_fresh ops hit (by rw [he]; exact hd)
      rw [he] at h1
      injection h1 with h1 h2
      subst h1
      subst h2
      exact ⟨true, hit, [], fun o ho => (by cases ho), rfl⟩

theorem reach_call {s : Store} {acc : List Val} (h : Reach s acc) (o : DbCall) (ho : o.Ok) (i : Nat) : Reach (o.run s).2 (ackd [(i, o, (o.run s).1)] ++ acc) := by
  obtain ⟨de, hit, ops, hok, he⟩ := h
  refine ⟨de, hit, ops ++ [o.toOp], ?_, ?_⟩
  · intro x hx
    rcases List.mem_append.mp hx with hx | hx
    · exact hok x hx
    · rw [List.mem_singleton.mp hx]
      cases o <;> exact ho
  · unfold runOps at he ⊢
    rw [List.foldl_append, he]
    exact run_toOp o s acc i

theorem log_lt {progs : List (List (Bytes × DbCall))} {st : Bytes → Store} {s : SSys DbCall DbRes Store DbPc} (h : SSys.Reach dbMachine mkdirEnv progs st s) :
    ∀ e ∈ s.log, e.1 < progs.length := by
  induction h with
  | init => intro e he; cases he
  | @step s s' hr st ih =>
    intro e he
    cases st with
    | finish j k o rest l a a' p hc =>
      rcases List.mem_append.mp he with he | he
      · exact ih e he
      · rw [List.mem_singleton.mp he]
        have v := hr.inv dbMachine_implements dbMachine_settled
        rw [← v.len]
        exact (List.getElem?_eq_some_iff.mp hc).1
    | env => exact ih e he
    | call => exact ih e he
    | enter => exact ih e he
    | first => exact ih e he
    | work => exact ih e he
    | done => exact ih e he

/-- **C59** (histories). Under any interleaving of any number of goroutines that write to and query any metrics, the state of every metric nobody is at work on is one that a serial history of that metric
leads to, and the values acknowledged in that history are the values of the writes that were reported as written, in the order in which these calls finished. So what is proved of histories (C13 to C21)
holds of concurrent executions. -/
theorem C59_history {progs : List (List (Bytes × DbCall))} {st : Bytes → Store} {s : SSys DbCall DbRes Store DbPc} (h : SSys.Reach dbMachine mkdirEnv progs st s)
    (hok : ∀ p ∈ progs, ∀ c ∈ p, c.2.Ok) (k : Bytes) (hs : ∃ de hit, st k = Store.fresh de hit) (hq : s.quiet k) :
    Reach (s.st k) (ackd (s.finished k)).reverse := by
  obtain ⟨evs, h1, h2⟩ := C59_serial dbMachine_implements dbMachine_settled h k hq
  have hokf : ∀ e ∈ s.finished k, e.2.1.Ok := by
    intro e he
    unfold SSys.finished at he
    obtain ⟨⟨i, k', o, r⟩, hm, rfl⟩ := List.mem_map.mp he
    have hm := (List.mem_filter.mp hm).1
    have v := h.inv dbMachine_implements dbMachine_settled
    have hi : i < progs.length := log_lt h _ hm
    obtain ⟨rest, e⟩ := C59_order dbMachine_implements dbMachine_settled h i progs[i] (List.getElem?_eq_getElem hi)
    have : (k', o) ∈ progs[i] := by
      rw [← e]
      refine List.mem_append_left _ (List.mem_map.mpr ⟨(i, k', o, r), List.mem_filter.mpr ⟨hm, by simp⟩, rfl⟩)
    exact hok _ (List.getElem_mem hi) _ this
  rw [← h2] at hokf ⊢
  obtain ⟨de, hit, e⟩ := hs
  rw [e] at h1
  generalize s.st k = t at h1
  clear h2 hq h
  induction h1 with
  | nil => exact ⟨de, hit, [], fun o ho => (by cases ho), rfl⟩
  | op i o r h1 hf ih =>
    rw [List.filterMap_append] at hokf ⊢
    have := reach_call (ih (fun e he => hokf e (List.mem_append_left _ he))) o (hokf (i, o, r) (by simp)) i
    rw [hf] at this
    rw [ackd_append, List.reverse_append]
    have e2 : (ackd ([some (i, o, r)].filterMap id)).reverse = ackd [(i, o, r)] := by
      show (ackd [(i, o, r)]).reverse = _
      cases o with
      | write cfg v => cases r with
        | write w => cases w <;> rfl
        | query => rfl
        | latest => rfl
      | query => rfl
      | latest => rfl
    rw [e2]
    exact this
  | env h1 ih =>
    rw [List.filterMap_append] at hokf ⊢
    have := reach_mkdir (ih (fun e he => hokf e (List.mem_append_left _ he)))
    have e2 : ([none] : List (Option (Nat × DbCall × DbRes))).filterMap id = [] := rfl
    rw [e2, List.append_nil]
    exact this

/-- **C59** (isolation) is false in one respect: a call on a metric with a longer name can make the directory, and then a query of this metric, which failed before, succeeds. -/
theorem C59_isolated_refuted : ¬ ∀ (s : Store) (o : DbCall), (o.run (mkdirEnv s)).1 = (o.run s).1 := by
  intro h
  have := h (Store.fresh false (fun _ => true)) (.latest ⟨256, 4, 2⟩)
  revert this
  decide +kernel


theorem setSt_twice (s : SSys DbCall DbRes Store DbPc) (k : Bytes) (x y : Store) (c : List (Client DbCall DbPc)) :
    ({ s with st := s.setSt k x, cl := c } : SSys DbCall DbRes Store DbPc).setSt k y = s.setSt k y := by
  funext k'
  unfold SSys.setSt
  dsimp only
  split <;> rfl

theorem setSt_self (s : SSys DbCall DbRes Store DbPc) (k : Bytes) (x : Store) (c : List (Client DbCall DbPc)) :
    ({ s with st := s.setSt k x, cl := c } : SSys DbCall DbRes Store DbPc).st k = x := by
  show s.setSt k x k = x
  unfold SSys.setSt
  rw [if_pos rfl]

/-- A call that has its lock can be carried out to its end whatever the others do, with the result and effect it has alone. -/
theorem C59_completes {progs : List (List (Bytes × DbCall))} {st : Bytes → Store} {s : SSys DbCall DbRes Store DbPc} (h : SSys.Reach dbMachine mkdirEnv progs st s)
    (i : Nat) (k : Bytes) (o : DbCall) (rest : List (Bytes × DbCall)) (hc : s.cl[i]? = some ⟨(k, o) :: rest, .begin⟩) :
    SSys.Reach dbMachine mkdirEnv progs st { s with st := s.setSt k (o.run (s.st k)).2, cl := s.cl.set i ⟨(k, o) :: rest, .busy (.done (o.run (s.st k)).1)⟩ } := by
  have hi : i < s.cl.length := (List.getElem?_eq_some_iff.mp hc).1
  have one : ∀ (l l' : DbPc) (x y : Store), SSys.Reach dbMachine mkdirEnv progs st { s with st := s.setSt k x, cl := s.cl.set i ⟨(k, o) :: rest, .busy l⟩ } → dbMachine.step l x = some (l', y) →
      SSys.Reach dbMachine mkdirEnv progs st { s with st := s.setSt k y, cl := s.cl.set i ⟨(k, o) :: rest, .busy l'⟩ } := by
    intro l l' x y hr hst
    have := hr.step (.work i k o rest l l' y (by show (s.cl.set i _)[i]? = _; rw [List.getElem?_set_self hi]) (by rw [setSt_self]; exact hst))
    rw [setSt_twice] at this
    have e : (s.cl.set i ⟨(k, o) :: rest, .busy l⟩).set i ⟨(k, o) :: rest, .busy l'⟩ = s.cl.set i ⟨(k, o) :: rest, .busy l'⟩ := List.set_set _
    rw [← e]
    exact this
  have h1 := h.step (.first i k o rest hc)
  have fin : ∀ r t, dbMachine.Runs o (s.st k) (.done r) t → o.run (s.st k) = (r, t) := fun r t hr => by
    have := dbMachine_implements o (s.st k) (.done r) t hr rfl
    exact this
  have goal : ∀ (l : DbPc) (x : Store) (r : DbRes) (t : Store), SSys.Reach dbMachine mkdirEnv progs st { s with st := s.setSt k x, cl := s.cl.set i ⟨(k, o) :: rest, .busy l⟩ } → dbMachine.Runs o (s.st k) l x →
      dbMachine.step l x = some (.done r, t) → SSys.Reach dbMachine mkdirEnv progs st { s with st := s.setSt k (o.run (s.st k)).2, cl := s.cl.set i ⟨(k, o) :: rest, .busy (.done (o.run (s.st k)).1)⟩ } := by
    intro l x r t hr hm hst
    rw [fin r t (.step hm hst)]
    exact one l _ x t hr hst
  have m1 : dbMachine.Runs o (s.st k) _ _ := .first
  cases o with
  | write cfg v =>
    have h1 : SSys.Reach dbMachine mkdirEnv progs st { s with st := s.setSt k (newMetric cfg false (s.st k)).2, cl := s.cl.set i ⟨(k, .write cfg v) :: rest, .busy (.opened (.write cfg v) (newMetric cfg false (s.st k)).1)⟩ } := h1
    have m1 : dbMachine.Runs (.write cfg v) (s.st k) (.opened (.write cfg v) (newMetric cfg false (s.st k)).1) (newMetric cfg false (s.st k)).2 := m1
    generalize newMetric cfg false (s.st k) = z at h1 m1
    obtain ⟨r, s1⟩ := z
    cases r with
    | error e => exact goal _ _ _ _ h1 m1 rfl
    | ok fl =>
      obtain ⟨first, last⟩ := fl
      have e2 : dbMachine.step (.opened (.write cfg v) (.ok (first, last))) s1 =
        some (.prepared v (writePrep cfg first last v s1).1 (writePrep cfg first last v s1).2.1, (writePrep cfg first last v s1).2.2) := rfl
      generalize writePrep cfg first last v s1 = z at e2
      have h2 := one _ _ _ _ h1 e2
      have m2 : dbMachine.Runs (.write cfg v) (s.st k) _ _ := .step m1 e2
      obtain ⟨p, held, s2⟩ := z
      cases p with
      | ret r => exact goal _ _ _ _ h2 m2 rfl
      | go hd head nr => exact goal _ _ _ _ h2 m2 rfl
  | query cfg b cb =>
    have h1 : SSys.Reach dbMachine mkdirEnv progs st { s with st := s.setSt k (newMetric cfg true (s.st k)).2, cl := s.cl.set i ⟨(k, .query cfg b cb) :: rest, .busy (.opened (.query cfg b cb) (newMetric cfg true (s.st k)).1)⟩ } := h1
    have m1 : dbMachine.Runs (.query cfg b cb) (s.st k) (.opened (.query cfg b cb) (newMetric cfg true (s.st k)).1) (newMetric cfg true (s.st k)).2 := m1
    generalize newMetric cfg true (s.st k) = z at h1 m1
    obtain ⟨r, s1⟩ := z
    cases r with
    | error e => exact goal _ _ _ _ h1 m1 rfl
    | ok fl => exact goal _ _ _ _ h1 m1 rfl
  | latest cfg =>
    have h1 : SSys.Reach dbMachine mkdirEnv progs st { s with st := s.setSt k (newMetric cfg true (s.st k)).2, cl := s.cl.set i ⟨(k, .latest cfg) :: rest, .busy (.opened (.latest cfg) (newMetric cfg true (s.st k)).1)⟩ } := h1
    have m1 : dbMachine.Runs (.latest cfg) (s.st k) (.opened (.latest cfg) (newMetric cfg true (s.st k)).1) (newMetric cfg true (s.st k)).2 := m1
    generalize newMetric cfg true (s.st k) = z at h1 m1
    obtain ⟨r, s1⟩ := z
    cases r with
    | error e => exact goal _ _ _ _ h1 m1 rfl
    | ok fl => exact goal _ _ _ _ h1 m1 rfl

/-- Two goroutines write to the same metric and one of them then reads it; the second write waits for the first. -/
theorem C59_example :
    let cfg : Cfg := ⟨256, 4, 2⟩
    let v1 : Val := ⟨1, 2, [7]⟩
    let v2 : Val := ⟨2, 3, [8]⟩
    let a : Bytes := [97]
    ∃ s : SSys DbCall DbRes Store DbPc, SSys.Reach dbMachine mkdirEnv [[(a, .write cfg v1)], [(a, .write cfg v2), (a, .latest cfg)]] (fun _ => Store.fresh false (fun _ => true)) s ∧
      s.quiet a ∧ ackd (s.finished a) = [v1, v2] ∧ (s.finished a).map (fun e => (e.1, e.2.2)) = [(0, .write .written), (1, .write .written), (1, .latest (some v2) none)] := by
  intro cfg v1 v2 a
  have s0 := SSys.Reach.init (m := dbMachine) (env := mkdirEnv) (progs := [[(a, .write cfg v1)], [(a, .write cfg v2), (a, .latest cfg)]]) (st := fun _ => Store.fresh false (fun _ => true))
  have s1 := s0.step (.call 0 a _ _ rfl rfl)
  have s2 := s1.step (.call 1 a _ _ rfl rfl)
  have s3 := s2.step (.enter 0 a _ _ 0 rfl rfl rfl)
  have s4 := C59_completes s3 0 a _ _ rfl
  have s5 := s4.step (.finish 0 a _ _ _ 0 _ _ rfl rfl rfl rfl)
  have s6 := s5.step (.done 0 _ rfl rfl)
  have s7 := s6.step (.enter 1 a _ _ 0 rfl rfl rfl)
  have s8 := C59_completes s7 1 a _ _ rfl
  have s9 := s8.step (.finish 1 a _ _ _ 0 _ _ rfl rfl rfl rfl)
  have s10 := s9.step (.done 1 _ rfl rfl)
  have s11 := s10.step (.call 1 a _ _ rfl rfl)
  have s12 := s11.step (.enter 1 a _ _ _ rfl rfl rfl)
  have s13 := C59_completes s12 1 a _ _ rfl
  have s14 := s13.step (.finish 1 a _ _ _ _ _ _ rfl rfl rfl rfl)
  have s15 := s14.step (.done 1 _ rfl rfl)
  refine ⟨_, s15, ?_, ?_, ?_⟩
  · intro i o rest l
    rcases i with _ | _ | i
    · intro h; cases h
    · intro h; cases h
    · intro h; cases h
  · decide +kernel
  · decide +kernel
end Rothko
