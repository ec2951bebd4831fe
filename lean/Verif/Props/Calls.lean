import Verif.Model.Calls
import Verif.Props.SerialDb
/-!
# C96: the calls step by step. Carried out alone on one metric, the steps amount to Model/Metric.
-/
namespace Rothko

variable {α : Type}

/-- The steps carried out on the state of one metric, with the oracle of Model/Metric for the cache; `ids` gives the identities of the handles. -/
def FsProg.run (ids : Nat → Nat) : FsProg α → Store → α × Store
  | .done a, s => (a, s)
  | .acquire cfg idx ex k, s =>
    match s.acquire cfg idx ex with
    | (.error e, s') => (k (.error e)).run ids s'
    | (.ok h, s') => (k (.ok ⟨ids s.clock, h⟩)).run ids s'
  | .release idx h k, s => k.run ids (s.release idx h.geo)
  | .evict idx k, s => k.run ids (s.evict idx)
  | .remove idx k, s => k.run ids (s.remove idx)
  | .load h k, s => (k (s.file h.geo)).run ids s
  | .store h _ _ f k, s => k.run ids (s.setFile h.geo f)

theorem newMetricP_run (ids : Nat → Nat) (cfg : Cfg) (ro : Bool) (k : Except MErr (Int × Int) → FsProg α) (s : Store) :
    (newMetricP cfg (dirNames ro s).1 k).run ids (dirNames ro s).2 = (k (newMetric cfg ro s).1).run ids (newMetric cfg ro s).2 := by
  unfold dirNames newMetric
  cases hc : (!s.dirExists && ro) with
  | true => rfl
  | false =>
    simp only [Bool.false_eq_true, if_false]
    unfold newMetricP
    dsimp only
    generalize hr : List.foldl scanStep (0, 0, false) (List.map Prod.fst s.dir) = r
    cases hr2 : r.2.2 with
    | true => simp only [if_true]
    | false =>
      simp only [Bool.false_eq_true, if_false, FsProg.run]
      generalize Store.acquire cfg { s with dirExists := true } 1 false = a
      obtain ⟨e | h, s'⟩ := a
      · rfl
      · rfl

theorem acquireLastP_run (ids : Nat → Nat) (cfg : Cfg) (first : Int) (k : Except MErr (FsHandle × Int × Int) → FsProg α) (fuel : Nat) : ∀ (last : Int) (s : Store),
    (∀ e s', acquireLast cfg first fuel last s = (.error e, s') → (acquireLastP cfg first k fuel last).run ids s = (k (.error e)).run ids s') ∧
    (∀ h head l s', acquireLast cfg first fuel last s = (.ok (h, head, l), s') → ∃ id, (acquireLastP cfg first k fuel last).run ids s = (k (.ok (⟨id, h⟩, head, l))).run ids s') := by
  induction fuel with
  | zero =>
    intro last s
    constructor
    · intro e s' he; cases he; rfl
    · intro h head l s' he; cases he
  | succ fuel ih =>
    intro last s
    unfold acquireLast acquireLastP
    rw [FsProg.run]
    generalize Store.acquire cfg s last true = a
    obtain ⟨x | h, s1⟩ := a
    · constructor
      · intro e s' he; cases he; rfl
      · intro h head l s' he; cases he
    · dsimp only
      rw [FsProg.run]
      dsimp only
      cases (s1.file h).headPointer with
      | error x =>
        dsimp only
        constructor
        · intro e s' he; cases he; rfl
        · intro h head l s' he; cases he
      | ok head =>
        dsimp only
        split
        · exact ih (last - 1) ((s1.release last h).remove last)
        · constructor
          · intro e s' he; cases he
          · intro h' head' l s' he; cases he; exact ⟨_, rfl⟩

theorem releaseAllP_run (ids : Nat → Nat) (p : FsProg α) (held : List (Int × FsHandle)) : ∀ s : Store,
    (releaseAllP p held).run ids s = p.run ids (s.releaseAll (held.map (fun x => (x.1, x.2.geo)))) := by
  induction held with
  | nil => intro s; rfl
  | cons a l ih => intro s; exact ih _

/-- The rest of a write. -/
def finishWrite (v : Val) (p : Prep × List (Int × Handle) × Store) : WRes × Store :=
  match p with
  | (.ret r, held, s) => (r, s.releaseAll held)
  | (.go h head _, held, s) => ((writeBody (s.file h) head v).1, (s.setFile h (writeBody (s.file h) head v).2).releaseAll held)

theorem metricWrite_finish (cfg : Cfg) (first last : Int) (v : Val) (s : Store) : metricWrite cfg first last v s = finishWrite v (writePrep cfg first last v s) := rfl

theorem storeP_run (ids : Nat → Nat) (h : FsHandle) (head : Int) (v : Val) (held : List (Int × FsHandle)) (k : WRes → FsProg α) (nr : Nat) (s : Store) :
    (storeP h head v held k).run ids s = (k (finishWrite v (.go h.geo head nr, held.map (fun x => (x.1, x.2.geo)), s)).1).run ids (finishWrite v (.go h.geo head nr, held.map (fun x => (x.1, x.2.geo)), s)).2 := by
  unfold storeP
  rw [FsProg.run, FsProg.run, releaseAllP_run]
  rfl

/-- The three cases of the number of records. -/
def numCases {β : Type} (n : Option Nat) (a b : β) (c : Nat → β) : β :=
  match n with
  | none => a
  | some 0 => b
  | some nr => c nr

/-- A write into a new file, as in `writePrep`. -/
def rotatePrep (cfg : Cfg) (last : Int) (h : Handle) (v : Val) (s : Store) : Prep × List (Int × Handle) × Store :=
  match s.acquire cfg (last + 1) false with
  | (.error e, s) => (.ret (.failed e), [(last, h)], s)
  | (.ok h2, s) =>
    numCases (numRecords v.data.length h2.size) (.ret (.failed (.file .panic)), [(last + 1, h2), (last, h)], s) (.ret (.failed .numRecords), [(last + 1, h2), (last, h)], s)
      (fun nr => if (h2.cap : Int) - nr < 0 then (.ret (.failed .valueTooLarge), [(last + 1, h2), (last, h)], s)
        else (.go h2 (h2.cap - nr) nr, [(last + 1, h2), (last, h)], s))

theorem rotateP_cases (cfg : Cfg) (last : Int) (h : FsHandle) (v : Val) (k : WRes → FsProg α) : rotateP cfg last h v k =
    .acquire cfg (last + 1) false (fun x =>
      match x with
      | .error e => releaseAllP (k (.failed e)) [(last, h)]
      | .ok h2 => numCases (numRecords v.data.length h2.geo.size) (releaseAllP (k (.failed (.file .panic))) [(last + 1, h2), (last, h)]) (releaseAllP (k (.failed .numRecords)) [(last + 1, h2), (last, h)])
        (fun nr => if (h2.geo.cap : Int) - nr < 0 then releaseAllP (k (.failed .valueTooLarge)) [(last + 1, h2), (last, h)]
          else storeP h2 (h2.geo.cap - nr) v [(last + 1, h2), (last, h)] k)) := rfl

/-- What `Write` does once it has the last file. -/
def writeFound (cfg : Cfg) (first : Int) (v : Val) (k : WRes → FsProg α) (x : Except MErr (FsHandle × Int × Int)) : FsProg α :=
  match x with
  | .error e => k (.failed e)
  | .ok (h, head0, last) => .load h (fun f =>
    match writeEarly f (head0 + 1) v with
    | some r => releaseAllP (k r) [(last, h)]
    | none =>
      numCases (numRecords v.data.length h.geo.size) (releaseAllP (k (.failed (.file .panic))) [(last, h)]) (releaseAllP (k (.failed .numRecords)) [(last, h)]) (fun nr =>
        if head0 + 1 - nr < 0 then
          if last = 1 ∧ head0 + 1 = h.geo.cap - 1 then releaseAllP (k (.failed .valueTooLarge)) [(last, h)]
          else if last - first ≥ cfg.max ∧ cfg.max > 0 then .evict first (.remove first (rotateP cfg last h v k))
          else rotateP cfg last h v k
        else storeP h (head0 + 1 - nr) v [(last, h)] k))

theorem writeP_found (cfg : Cfg) (first last : Int) (v : Val) (k : WRes → FsProg α) :
    writeP cfg first last v k = acquireLastP cfg first (writeFound cfg first v k) (last - first + 1).toNat last := rfl

theorem rotateP_run (ids : Nat → Nat) (cfg : Cfg) (last : Int) (h : FsHandle) (v : Val) (k : WRes → FsProg α) (s : Store) :
    (rotateP cfg last h v k).run ids s = (k (finishWrite v (rotatePrep cfg last h.geo v s)).1).run ids (finishWrite v (rotatePrep cfg last h.geo v s)).2 := by
  rw [rotateP_cases]
  unfold rotatePrep
  rw [FsProg.run]
  generalize Store.acquire cfg s (last + 1) false = a
  obtain ⟨e | h2, s1⟩ := a
  · dsimp only
    rw [releaseAllP_run]; rfl
  · dsimp only
    generalize numRecords v.data.length h2.size = n
    match n with
    | none => simp only [numCases]; rw [releaseAllP_run]; rfl
    | some 0 => simp only [numCases]; rw [releaseAllP_run]; rfl
    | some (n + 1) =>
      simp only [numCases]
      split
      · rw [releaseAllP_run]; rfl
      · rw [storeP_run ids _ _ _ _ _ (n + 1)]; rfl

theorem writePrep_rotate (cfg : Cfg) (first last : Int) (v : Val) (s : Store) : writePrep cfg first last v s =
    match acquireLast cfg first (last - first + 1).toNat last s with
    | (.error e, s) => (.ret (.failed e), [], s)
    | (.ok (h, head0, last), s) =>
      match writeEarly (s.file h) (head0 + 1) v with
      | some r => (.ret r, [(last, h)], s)
      | none =>
        numCases (numRecords v.data.length h.size) (.ret (.failed (.file .panic)), [(last, h)], s) (.ret (.failed .numRecords), [(last, h)], s) (fun nr =>
          if head0 + 1 - nr < 0 then
            if last = 1 ∧ head0 + 1 = h.cap - 1 then (.ret (.failed .valueTooLarge), [(last, h)], s)
            else rotatePrep cfg last h v (if last - first ≥ cfg.max ∧ cfg.max > 0 then (s.evict first).remove first else s)
          else (.go h (head0 + 1 - nr) nr, [(last, h)], s)) := by
  rfl

theorem writeP_run (ids : Nat → Nat) (cfg : Cfg) (first last : Int) (v : Val) (k : WRes → FsProg α) (s : Store) :
    (writeP cfg first last v k).run ids s = (k (metricWrite cfg first last v s).1).run ids (metricWrite cfg first last v s).2 := by
  rw [metricWrite_finish, writePrep_rotate, writeP_found]
  have hr := acquireLastP_run ids cfg first (writeFound cfg first v k) (last - first + 1).toNat last s
  generalize acquireLast cfg first (last - first + 1).toNat last s = a at hr
  obtain ⟨e | ⟨h, head0, last⟩, s1⟩ := a
  · rw [hr.1 e s1 rfl]; rfl
  · obtain ⟨id, hr⟩ := hr.2 h head0 last s1 rfl
    rw [hr, writeFound]
    dsimp only
    rw [FsProg.run]
    dsimp only
    generalize writeEarly (s1.file h) (head0 + 1) v = early
    cases early with
    | some r => dsimp only; rw [releaseAllP_run]; rfl
    | none =>
      dsimp only
      generalize numRecords v.data.length h.size = n
      match n with
      | none => simp only [numCases]; rw [releaseAllP_run]; rfl
      | some 0 => simp only [numCases]; rw [releaseAllP_run]; rfl
      | some (n + 1) =>
        simp only [numCases]
        split
        · split
          · rw [releaseAllP_run]; rfl
          · split
            · rw [FsProg.run, FsProg.run, rotateP_run]
            · rw [rotateP_run]
        · rw [storeP_run ids _ _ _ _ _ (n + 1)]; rfl

theorem readP_run {σ : Type} (ids : Nat → Nat) (cfg : Cfg) (bound : Int64) (cb : σ → Val → σ × Cb) (k : σ × Option MErr → FsProg α) (fuel : Nat) : ∀ (num : Int) (st : σ) (s : Store),
    (readP cfg bound cb k fuel num st).run ids s = (k (metricRead cfg bound cb fuel num s st).1).run ids (metricRead cfg bound cb fuel num s st).2 := by
  induction fuel with
  | zero => intro num st s; rfl
  | succ fuel ih =>
    intro num st s
    unfold readP metricRead
    rw [FsProg.run]
    generalize Store.acquire cfg s num true = a
    obtain ⟨e | h, s1⟩ := a
    · rfl
    · dsimp only
      rw [FsProg.run]
      dsimp only
      rcases readFile bound cb (s1.file h) st with ⟨st', c⟩
      cases c with
      | more => exact ih (num - 1) st' (s1.release num h)
      | stop => rfl
      | fail e => rfl

theorem dbWriteP_run (ids : Nat → Nat) (cfg : Cfg) (v : Val) (k : WRes → FsProg α) (s : Store) :
    (dbWriteP cfg v (dirNames false s).1 k).run ids (dirNames false s).2 = (k (dbWrite cfg v s).1).run ids (dbWrite cfg v s).2 := by
  unfold dbWriteP dbWrite
  rw [newMetricP_run]
  generalize newMetric cfg false s = a
  obtain ⟨e | ⟨first, last⟩, s1⟩ := a
  · rfl
  · exact writeP_run ids cfg first last v k s1

theorem dbQueryP_run {σ : Type} (ids : Nat → Nat) (cfg : Cfg) (bound : Int64) (cb : σ → Val → σ × Cb) (st : σ) (k : σ × Option MErr → FsProg α) (s : Store) :
    (dbQueryP cfg bound cb st (dirNames true s).1 k).run ids (dirNames true s).2 = (k (dbQuery cfg bound cb st s).1).run ids (dbQuery cfg bound cb st s).2 := by
  unfold dbQueryP dbQuery
  rw [newMetricP_run]
  generalize newMetric cfg true s = a
  obtain ⟨e | ⟨first, last⟩, s1⟩ := a
  · rfl
  · exact readP_run ids cfg bound cb k _ last st s1

/-- The calls of the database as steps. -/
def dbCalls : FsCalls DbCall DbRes where
  ro
    | .write _ _ => false
    | .query _ _ _ => true
    | .latest _ => true
  body
    | .write cfg v, names => dbWriteP cfg v names (fun r => .done (.write r))
    | .query cfg b cb, names => dbQueryP cfg b (fun seen v => (seen ++ [v], cb seen v)) [] names (fun r => .done (.query r.1 r.2))
    | .latest cfg, names => dbQueryP cfg 0x7fffffffffffffff (fun _ v => (some v, .stop)) none names (fun r => .done (.latest r.1 r.2))

/-- **C96** (the same calls). The steps of a call, carried out alone, amount to the call of Model/Metric, whatever the identities of the handles. -/
theorem C96_run (ids : Nat → Nat) (o : DbCall) (s : Store) : (dbCalls.body o (dirNames (dbCalls.ro o) s).1).run ids (dirNames (dbCalls.ro o) s).2 = o.run s := by
  cases o with
  | write cfg v => exact dbWriteP_run ids cfg v (fun r => .done (DbRes.write r)) s
  | query cfg b cb => exact dbQueryP_run ids cfg b (fun seen v => (seen ++ [v], cb seen v)) [] (fun r => .done (DbRes.query r.1 r.2)) s
  | latest cfg => exact dbQueryP_run ids cfg 0x7fffffffffffffff (fun _ v => (some v, .stop)) none (fun r => .done (DbRes.latest r.1 r.2)) s

/-! ## As a machine -/

/-- One step on the state of one metric. -/
def FsProg.one : FsProg α → Store × (Nat → Nat) → Option (FsProg α × (Store × (Nat → Nat)))
  | .done _, _ => none
  | .acquire cfg idx ex k, s =>
    match s.1.acquire cfg idx ex with
    | (.error e, s') => some (k (.error e), (s', s.2))
    | (.ok h, s') => some (k (.ok ⟨s.2 s.1.clock, h⟩), (s', s.2))
  | .release idx h k, s => some (k, (s.1.release idx h.geo, s.2))
  | .evict idx k, s => some (k, (s.1.evict idx, s.2))
  | .remove idx k, s => some (k, (s.1.remove idx, s.2))
  | .load h k, s => some (k (s.1.file h.geo), s)
  | .store h _ _ f k, s => some (k, (s.1.setFile h.geo f, s.2))

/-- What a finished call returns. -/
def FsProg.value (d : α) : FsProg α → α
  | .done a => a
  | _ => d

/-- The steps as a machine in the sense of C59. -/
def fsMachine : Machine DbCall DbRes (Store × (Nat → Nat)) (FsProg DbRes) where
  first o s := (dbCalls.body o (dirNames (dbCalls.ro o) s.1).1, ((dirNames (dbCalls.ro o) s.1).2, s.2))
  step := FsProg.one
  result := FsProg.value (.write .notWritten)

/-- The call carried out alone. -/
def fsRun (o : DbCall) (s : Store × (Nat → Nat)) : DbRes × (Store × (Nat → Nat)) := ((o.run s.1).1, ((o.run s.1).2, s.2))

theorem one_run {p p' : FsProg α} {s s' : Store × (Nat → Nat)} (h : p.one s = some (p', s')) : s'.2 = s.2 ∧ p.run s.2 s.1 = p'.run s'.2 s'.1 := by
  cases p with
  | done a => cases h
  | acquire cfg idx ex k =>
    rw [FsProg.one] at h
    rw [FsProg.run]
    generalize Store.acquire cfg s.1 idx ex = a at h
    obtain ⟨e | x, s1⟩ := a <;> (cases h; exact ⟨rfl, rfl⟩)
  | release idx x k => cases h; exact ⟨rfl, rfl⟩
  | evict idx k => cases h; exact ⟨rfl, rfl⟩
  | remove idx k => cases h; exact ⟨rfl, rfl⟩
  | load x k => cases h; exact ⟨rfl, rfl⟩
  | store x head v f k => cases h; exact ⟨rfl, rfl⟩

theorem one_none {p : FsProg α} {s : Store × (Nat → Nat)} (h : p.one s = none) : ∃ a, p = .done a := by
  cases p with
  | done a => exact ⟨a, rfl⟩
  | acquire cfg idx ex k =>
    rw [FsProg.one] at h
    generalize Store.acquire cfg s.1 idx ex = a at h
    obtain ⟨e | x, s1⟩ := a <;> cases h
  | _ => cases h

theorem fsMachine_implements : fsMachine.Implements fsRun := by
  intro o s l t hr hd
  have key : ∀ l t, fsMachine.Runs o s l t → t.2 = s.2 ∧ l.run t.2 t.1 = o.run s.1 := by
    intro l t hr
    induction hr with
    | first => exact ⟨rfl, C96_run s.2 o s.1⟩
    | step _ hs ih =>
      obtain ⟨e1, e2⟩ := one_run hs
      exact ⟨e1.trans ih.1, e2.symm.trans ih.2⟩
  obtain ⟨e1, e2⟩ := key l t hr
  obtain ⟨a, rfl⟩ := one_none hd
  unfold fsRun
  rw [← e2, ← e1]
  rfl

/-- A directory made by another metric. -/
def mkdirFs (s : Store × (Nat → Nat)) : Store × (Nat → Nat) := (mkdirEnv s.1, s.2)

theorem fsMachine_settled : fsMachine.Settled mkdirFs := by
  intro l s
  show FsProg.one l (mkdirFs s) = (FsProg.one l s).map _
  cases l with
  | done a => rfl
  | acquire cfg idx ex k =>
    unfold FsProg.one mkdirFs
    dsimp only
    rw [mk_acquire]
    generalize Store.acquire cfg s.1 idx ex = a
    obtain ⟨e | x, s1⟩ := a <;> rfl
  | _ => rfl

end Rothko
