import Verif.Lemmas.DurableStuck
/-! The file with the largest number cannot be opened: nothing works any more. -/
namespace Rothko

/-- The file with the largest number cannot be opened, and no handle of it is left. -/
structure Bricked (e : FErr) (s : Store) (first last : Int) : Prop where
  ex : s.dirExists = true
  rng : 1 ≤ first ∧ first ≤ last
  hasFirst : first ∈ s.dir.map Prod.fst
  within : ∀ x ∈ s.dir.map Prod.fst, first ≤ x ∧ x ≤ last
  cache : s.cache last = none
  bad : ∃ ino, s.lookup last = some ino ∧ openFile (s.disk ino) = .error e

theorem Bricked.newMetric {e : FErr} {s : Store} {first last : Int} (h : Bricked e s first last) (cfg : Cfg) (ro : Bool) :
    Rothko.newMetric cfg ro s = (.ok (first, last), s) := by
  obtain ⟨ino, hl, _⟩ := h.bad
  unfold Rothko.newMetric
  rw [h.ex]
  simp only [Bool.not_true, Bool.false_and, Bool.false_eq_true, if_false]
  have hscan := scan_eq (s.dir.map Prod.fst) first last h.rng.1 h.hasFirst (by rw [mem_keys, hl]; rfl) h.within
  have hs : ({ s with dirExists := true } : Store) = s := by rw [← h.ex]
  simp only [hs, hscan, if_true]

theorem Bricked.acquire {e : FErr} {s : Store} {first last : Int} (h : Bricked e s first last) (cfg : Cfg) :
    ∃ s', s.acquire cfg last true = (.error (.file e), s') ∧ Bricked e s' first last := by
  obtain ⟨ino, hl, ho⟩ := h.bad
  refine ⟨{ s.evict last with clock := s.clock + 1 }, ?_, ⟨h.ex, h.rng, h.hasFirst, h.within, by simp [Store.evict], ino, hl, ho⟩⟩
  unfold Store.acquire
  rw [h.cache]
  simp only [if_true]
  unfold Store.openAt
  have hl' : ({ s.evict last with clock := s.clock + 1 } : Store).lookup last = some ino := hl
  have ho' : openFile (({ s.evict last with clock := s.clock + 1 } : Store).disk ino) = .error e := ho
  rw [hl']
  simp only [ho']

theorem Bricked.prep {e : FErr} {s : Store} {first last : Int} (h : Bricked e s first last) (cfg : Cfg) (v : Val) :
    ∃ s', writePrep cfg first last v s = (.ret (.failed (.file e)), [], s') ∧ Bricked e s' first last := by
  obtain ⟨s', ha, hb⟩ := h.acquire cfg
  have hr := h.rng
  refine ⟨s', ?_, hb⟩
  rw [writePrep_eq, show (last - first + 1).toNat = (last - first).toNat + 1 by omega]
  simp only [acquireLast, ha]

theorem Bricked.read {e : FErr} {s : Store} {first last : Int} (h : Bricked e s first last) {σ : Type} (cfg : Cfg) (bound : Int64) (cb : σ → Val → σ × Cb)
    (st : σ) : ∃ s', dbQuery cfg bound cb st s = ((st, some (.file e)), s') ∧ Bricked e s' first last := by
  obtain ⟨s', ha, hb⟩ := h.acquire cfg
  have hr := h.rng
  refine ⟨s', ?_, hb⟩
  unfold dbQuery
  rw [h.newMetric]
  simp only
  rw [show (last - first + 1).toNat = (last - first).toNat + 1 by omega]
  simp only [metricRead, ha]

theorem Bricked.write {e : FErr} {s : Store} {first last : Int} (h : Bricked e s first last) (cfg : Cfg) (v : Val) :
    ∃ s', dbWrite cfg v s = (.failed (.file e), s') ∧ Bricked e s' first last := by
  obtain ⟨s', hp, hb⟩ := h.prep cfg v
  refine ⟨s', ?_, hb⟩
  unfold dbWrite metricWrite
  rw [h.newMetric]
  simp only [hp]
  rfl

theorem Bricked.reopen {e : FErr} {s : Store} {first last : Int} (h : Bricked e s first last) : Bricked e s.reopen first last :=
  ⟨h.ex, h.rng, h.hasFirst, h.within, rfl, h.bad⟩

theorem Bricked.step {e : FErr} {s : Store} {first last : Int} (h : Bricked e s first last) (o : DOp) : Bricked e (o.run s) first last := by
  cases o with
  | crash cfg v k j =>
    obtain ⟨s', hp, hb⟩ := h.prep cfg v
    show Bricked e (crashWrite cfg v k j s) _ _
    unfold crashWrite
    rw [h.newMetric]
    simp only [hp]
    exact hb.reopen
  | op o =>
    cases o with
    | write cfg v =>
      obtain ⟨s', hp, hb⟩ := h.write cfg v
      show Bricked e (Op.run (s, []) (.write cfg v)).1 _ _
      unfold Op.run
      simp only [hp]
      exact hb
    | query cfg bound cb =>
      obtain ⟨s', hp, hb⟩ := h.read cfg bound (fun (seen : List Val) v => (seen ++ [v], cb seen v)) []
      show Bricked e (queryList cfg bound cb s).2 _ _
      unfold queryList
      rw [hp]; exact hb
    | latest cfg =>
      obtain ⟨s', hp, hb⟩ := h.read cfg 0x7fffffffffffffff (fun (_ : Option Val) v => (some v, Cb.stop)) none
      show Bricked e (dbQueryLatest cfg s).2 _ _
      unfold dbQueryLatest
      rw [hp]; exact hb
    | restart => exact h.reopen

theorem Bricked.run {e : FErr} {first last : Int} (ops : List DOp) : ∀ {s : Store}, Bricked e s first last → Bricked e (runD ops s) first last := by
  induction ops with
  | nil => intro s h; exact h
  | cons o ops ih => intro s h; exact ih (h.step o)

/-- A file of zero bytes cannot be opened. -/
theorem openFile_zero (n : Nat) : ∃ e, openFile (List.replicate n 0) = .error e := by
  unfold openFile
  by_cases h : (List.replicate n (0 : UInt8)).length < recordHeaderSize
  · rw [if_pos h]; exact ⟨_, rfl⟩
  · rw [if_neg h]
    have hn : 24 ≤ n := by rw [List.length_replicate] at h; simp only [recordHeaderSize] at h; omega
    have : ∃ e, readMetadata (List.replicate n (0 : UInt8)) = .error e := by
      unfold readMetadata
      have hp : parse (List.replicate n (0 : UInt8)) = .error .version := by
        obtain ⟨m, rfl⟩ : ∃ m, n = m + 1 := ⟨n - 1, by omega⟩
        unfold parse
        rw [if_neg h]
        simp only [List.replicate_succ, List.getD_cons_zero]
        rw [if_pos (by decide)]
      rw [hp]
      exact ⟨_, rfl⟩
    obtain ⟨e, he⟩ := this
    rw [he]
    exact ⟨e, rfl⟩

end Rothko
