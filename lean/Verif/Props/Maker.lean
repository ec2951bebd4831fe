import Verif.Model.Maker
import Verif.Props.Assert
import Verif.Spec.History
import Verif.Model.Metric
/-!
# C78, C79: from the configuration to the database, the distribution and the listener
-/
namespace Rothko

/-! ## Specification -/

/-- The entry at a path of keys: `some` of its value or of zero if it is absent; `none` if it has the wrong type or lies inside of something that is not a table. -/
def entry (root : CVal) (path : List String) (k : CKind) : Option CVal :=
  match dig root (path.map .key) with
  | none => none
  | some .nil => some k.zero
  | some v => if k.is v then some v else none

/-- The options the configuration says. -/
structure FilesOpts.From (o : FilesOpts) (root : CVal) : Prop where
  dir : entry root ["directory"] .str = some (.str o.dir)
  size : entry root ["size"] .int64 = some (.int64 o.size)
  cap : entry root ["cap"] .int64 = some (.int64 o.cap)
  files : entry root ["files"] .int64 = some (.int64 o.files)
  buffer : entry root ["tuning", "buffer"] .int64 = some (.int64 o.buffer)
  drop : entry root ["tuning", "drop"] .bool = some (.bool o.drop)
  handles : entry root ["tuning", "handles"] .int64 = some (.int64 o.handles)
  workers : entry root ["tuning", "workers"] .int64 = some (.int64 o.workers)

/-! ## Proof -/

theorem exact_entry {root : CVal} {path : List String} {k : CKind} {r : CRes} (h : Exact root (path.map .key, some k) r) : ∃ v, entry root path k = some v ∧ r = .val v := by
  obtain ⟨v, hv, h⟩ := h
  unfold entry
  rw [hv]
  rcases h with ⟨rfl, hr⟩ | ⟨hk, hr⟩
  · exact ⟨_, rfl, hr⟩
  · refine ⟨v, ?_, hr⟩
    cases v <;> simp_all [CKind.is]

theorem entry_exact {root : CVal} {path : List String} {k : CKind} {v : CVal} (h : entry root path k = some v) : Exact root (path.map .key, some k) (.val v) := by
  unfold entry at h
  split at h
  · cases h
  · rename_i hd
    exact ⟨_, hd, .inl ⟨rfl, by injection h with h; rw [h]⟩⟩
  · rename_i hd
    split at h
    · rename_i hk
      injection h with h
      subst h
      exact ⟨_, hd, .inr ⟨hk, rfl⟩⟩
    · cases h

theorem entry_dig {root : CVal} {path : List String} {k : CKind} {v : CVal} (h : entry root path k = some v) : ∃ v, dig root (path.map .key) = some v := by
  obtain ⟨v, hv, _⟩ := entry_exact h
  exact ⟨v, hv⟩

theorem dig_prefix {root : CVal} {a b : String} {v : CVal} (h : dig root [.key a, .key b] = some v) : ∃ v, dig root [.key a] = some v := by
  have := dig_snoc root [.key a] (.key b)
  rw [show [CStep.key a] ++ [CStep.key b] = [.key a, .key b] from rfl, h] at this
  cases hd : dig root [.key a] with
  | none => rw [hd] at this; cases this
  | some v => exact ⟨v, rfl⟩

theorem entry_kind {root : CVal} {path : List String} {k : CKind} {v : CVal} (h : entry root path k = some v) : k.is v = true := by
  unfold entry at h
  split at h
  · cases h
  · injection h with h; subst h; cases k <;> rfl
  · split at h
    · rename_i hk
      injection h with h
      subst h
      exact hk
    · cases h

theorem entry_i64 {root : CVal} {path : List String} {v : CVal} (h : entry root path .int64 = some v) : ∃ n, v = .int64 n := by
  have := entry_kind h
  cases v <;> first | exact ⟨_, rfl⟩ | cases this

theorem entry_str {root : CVal} {path : List String} {v : CVal} (h : entry root path .str = some v) : ∃ n, v = .str n := by
  have := entry_kind h
  cases v <;> first | exact ⟨_, rfl⟩ | cases this

theorem entry_bool {root : CVal} {path : List String} {v : CVal} (h : entry root path .bool = some v) : ∃ n, v = .bool n := by
  have := entry_kind h
  cases v <;> first | exact ⟨_, rfl⟩ | cases this

theorem entry_float {root : CVal} {path : List String} {v : CVal} (h : entry root path .float = some v) : ∃ n, v = .float n := by
  have := entry_kind h
  cases v <;> first | exact ⟨_, rfl⟩ | cases this

theorem allExact_get {root : CVal} {as : List (List CStep × Option CKind)} {rs : List CRes} (h : AllExact root as rs) (i : Nat) (a : List CStep × Option CKind) (ha : as[i]? = some a) :
    ∃ r, rs[i]? = some r ∧ Exact root a r := by
  induction as generalizing rs i with
  | nil => simp at ha
  | cons b as ih =>
    cases rs with
    | nil => exact absurd h (by unfold AllExact; exact id)
    | cons r rs =>
      obtain ⟨h1, h2⟩ := h
      cases i with
      | zero => injection ha with ha; subst ha; exact ⟨r, rfl, h1⟩
      | succ i => exact ih h2 i ha

theorem made_i64 {root : CVal} {as : List (List CStep × Option CKind)} {rs : List CRes} (h : AllExact root as rs) (i : Nat) (path : List String) (ha : as[i]? = some (path.map .key, some .int64)) :
    entry root path .int64 = some (.int64 (CRes.i64 rs[i]?)) := by
  obtain ⟨r, hr, hx⟩ := allExact_get h i _ ha
  obtain ⟨v, hv, e⟩ := exact_entry hx
  obtain ⟨n, rfl⟩ := entry_i64 hv
  rw [hv, hr, e]
  rfl

theorem made_str {root : CVal} {as : List (List CStep × Option CKind)} {rs : List CRes} (h : AllExact root as rs) (i : Nat) (path : List String) (ha : as[i]? = some (path.map .key, some .str)) :
    entry root path .str = some (.str (CRes.str rs[i]?)) := by
  obtain ⟨r, hr, hx⟩ := allExact_get h i _ ha
  obtain ⟨v, hv, e⟩ := exact_entry hx
  obtain ⟨n, rfl⟩ := entry_str hv
  rw [hv, hr, e]
  rfl

theorem made_bool {root : CVal} {as : List (List CStep × Option CKind)} {rs : List CRes} (h : AllExact root as rs) (i : Nat) (path : List String) (ha : as[i]? = some (path.map .key, some .bool)) :
    entry root path .bool = some (.bool (CRes.bool rs[i]?)) := by
  obtain ⟨r, hr, hx⟩ := allExact_get h i _ ha
  obtain ⟨v, hv, e⟩ := exact_entry hx
  obtain ⟨n, rfl⟩ := entry_bool hv
  rw [hv, hr, e]
  rfl

theorem made_float {root : CVal} {as : List (List CStep × Option CKind)} {rs : List CRes} (h : AllExact root as rs) (i : Nat) (path : List String) (ha : as[i]? = some (path.map .key, some .float)) :
    entry root path .float = some (.float (CRes.float rs[i]?)) := by
  obtain ⟨r, hr, hx⟩ := allExact_get h i _ ha
  obtain ⟨v, hv, e⟩ := exact_entry hx
  obtain ⟨n, rfl⟩ := entry_float hv
  rw [hv, hr, e]
  rfl

/-- The configuration says only one thing. -/
theorem from_unique {root : CVal} {o o' : FilesOpts} (h : o.From root) (h' : o'.From root) : o = o' := by
  obtain ⟨a1, a2, a3, a4, a5, a6, a7, a8⟩ := h
  obtain ⟨b1, b2, b3, b4, b5, b6, b7, b8⟩ := h'
  cases o; cases o'
  simp_all

/-- **C78** (files). The maker of files databases succeeds exactly if every entry it knows is absent or of its type (and the tuning is absent or a table); the options then are the entries, zero, empty or false where absent. -/
theorem C78_files (root : CVal) (o : FilesOpts) : filesMaker root = some o ↔ o.From root := by
  have hnp : ∀ r ∈ ((CGroup.new root).run filesCalls).1, r ≠ .panics := C52_no_panic root filesCalls (by simp [filesCalls, opsOk])
  have hex := C52_exact root filesCalls hnp
  have hiff := C52_err_iff root filesCalls hnp
  have key : ((CGroup.new root).run filesCalls).2.err = false → ∃ o, filesMaker root = some o ∧ o.From root := by
    intro he
    have h := hex he
    refine ⟨_, by unfold filesMaker; dsimp only; rw [he]; rfl, ?_⟩
    exact ⟨made_str h 1 ["directory"] rfl, made_i64 h 3 ["size"] rfl, made_i64 h 5 ["cap"] rfl, made_i64 h 7 ["files"] rfl, made_i64 h 10 ["tuning", "buffer"] rfl,
      made_bool h 13 ["tuning", "drop"] rfl, made_i64 h 16 ["tuning", "handles"] rfl, made_i64 h 19 ["tuning", "workers"] rfl⟩
  constructor
  · intro h
    have he : ((CGroup.new root).run filesCalls).2.err = false := by
      cases he : ((CGroup.new root).run filesCalls).2.err with
      | false => rfl
      | true =>
        unfold filesMaker at h
        dsimp only at h
        rw [he] at h
        cases h
    obtain ⟨o', h1, h2⟩ := key he
    rw [h] at h1
    injection h1 with h1
    rw [h1]
    exact h2
  · intro h
    have he : ((CGroup.new root).run filesCalls).2.err = false := by
      cases he : ((CGroup.new root).run filesCalls).2.err with
      | false => rfl
      | true =>
        obtain ⟨a, ha, hbad⟩ := hiff.mp he
        exfalso
        have step : ∀ {k : String} {kk : CKind} {v : CVal}, entry root [k] kk = some v → ∃ r, Exact root ([.key k], none) r := by
          intro k kk v hv
          obtain ⟨w, hw⟩ := entry_dig hv
          exact ⟨.handle, rfl, w, hw⟩
        have deep : ∀ {a b : String} {kk : CKind} {v : CVal}, entry root [a, b] kk = some v → (∃ r, Exact root ([.key a], none) r) ∧ ∃ r, Exact root ([.key a, .key b], none) r := by
          intro a b kk v hv
          obtain ⟨w, hw⟩ := entry_dig hv
          obtain ⟨u, hu⟩ := dig_prefix hw
          exact ⟨⟨.handle, rfl, u, hu⟩, .handle, rfl, w, hw⟩
        have : ∃ r, Exact root a r := by
          have ha : a ∈ [([CStep.key "directory"], none), ([.key "directory"], some CKind.str), ([.key "size"], none), ([.key "size"], some .int64), ([.key "cap"], none), ([.key "cap"], some .int64),
            ([.key "files"], none), ([.key "files"], some .int64), ([.key "tuning"], none), ([.key "tuning", .key "buffer"], none), ([.key "tuning", .key "buffer"], some .int64),
            ([.key "tuning"], none), ([.key "tuning", .key "drop"], none), ([.key "tuning", .key "drop"], some .bool), ([.key "tuning"], none), ([.key "tuning", .key "handles"], none),
            ([.key "tuning", .key "handles"], some .int64), ([.key "tuning"], none), ([.key "tuning", .key "workers"], none), ([.key "tuning", .key "workers"], some .int64)] := ha
          simp only [List.mem_cons, List.not_mem_nil, or_false] at ha
          rcases ha with rfl | rfl | rfl | rfl | rfl | rfl | rfl | rfl | rfl | rfl | rfl | rfl | rfl | rfl | rfl | rfl | rfl | rfl | rfl | rfl
          · exact step h.dir
          · exact ⟨_, entry_exact h.dir⟩
          · exact step h.size
          · exact ⟨_, entry_exact h.size⟩
          · exact step h.cap
          · exact ⟨_, entry_exact h.cap⟩
          · exact step h.files
          · exact ⟨_, entry_exact h.files⟩
          · exact (deep h.buffer).1
          · exact (deep h.buffer).2
          · exact ⟨_, entry_exact h.buffer⟩
          · exact (deep h.drop).1
          · exact (deep h.drop).2
          · exact ⟨_, entry_exact h.drop⟩
          · exact (deep h.handles).1
          · exact (deep h.handles).2
          · exact ⟨_, entry_exact h.handles⟩
          · exact (deep h.workers).1
          · exact (deep h.workers).2
          · exact ⟨_, entry_exact h.workers⟩
        obtain ⟨r, hr⟩ := this
        exact hbad r hr
    obtain ⟨o', h1, h2⟩ := key he
    rw [h1, from_unique h h2]

/-- One call `a.I(key)` and one accessor. -/
theorem single {root : CVal} (key : String) (k : CKind) :
    ((CGroup.new root).run [.index 0 key, .get 1 k]).2.err = false ↔ ∃ v, entry root [key] k = some v := by
  have hnp : ∀ r ∈ ((CGroup.new root).run [.index 0 key, .get 1 k]).1, r ≠ .panics := C52_no_panic root _ (by simp [opsOk])
  have hex := C52_exact root _ hnp
  have hiff := C52_err_iff root _ hnp
  constructor
  · intro he
    obtain ⟨r, _, hx⟩ := allExact_get (hex he) 1 ([key].map .key, some k) rfl
    obtain ⟨v, hv, _⟩ := exact_entry hx
    exact ⟨v, hv⟩
  · rintro ⟨v, hv⟩
    cases he : ((CGroup.new root).run [.index 0 key, .get 1 k]).2.err with
    | false => rfl
    | true =>
      obtain ⟨a, ha, hbad⟩ := hiff.mp he
      have ha : a ∈ [([CStep.key key], none), ([.key key], some k)] := ha
      simp only [List.mem_cons, List.not_mem_nil, or_false] at ha
      rcases ha with rfl | rfl
      · obtain ⟨w, hw⟩ := entry_dig hv
        exact absurd ⟨rfl, w, hw⟩ (hbad .handle)
      · exact absurd (entry_exact hv) (hbad _)

/-- **C78** (distribution). Likewise for the t-digest's compression; without any configuration it is zero. -/
theorem C78_tdigest (root : CVal) (c : F64) : tdigestMaker root = some c ↔ entry root ["compression"] .float = some (.float c) := by
  by_cases hn : root = .nil
  · subst hn
    show some (0#64 : F64) = some c ↔ some (CVal.float 0#64) = some (.float c)
    simp
  · have e : tdigestMaker root = if ((CGroup.new root).run [.index 0 "compression", .get 1 .float]).2.err then none else some (CRes.float ((CGroup.new root).run [.index 0 "compression", .get 1 .float]).1[1]?) := by
      unfold tdigestMaker
      cases root <;> first | rfl | exact absurd rfl hn
    rw [e]
    have hnp : ∀ r ∈ ((CGroup.new root).run [.index 0 "compression", .get 1 .float]).1, r ≠ .panics := C52_no_panic root _ (by simp [opsOk])
    cases he : ((CGroup.new root).run [.index 0 "compression", .get 1 .float]).2.err with
    | true =>
      refine ⟨fun h => (by cases h), fun h => ?_⟩
      rw [(single "compression" .float).mpr ⟨_, h⟩] at he
      cases he
    | false =>
      have := made_float (C52_exact root _ hnp he) 1 ["compression"] rfl
      rw [this]
      simp

/-- **C78** (listener). Likewise for the listener's address. -/
theorem C78_graphite (root : CVal) (a : String) : graphiteMaker root = some a ↔ entry root ["address"] .str = some (.str a) := by
  unfold graphiteMaker
  dsimp only
  have hnp : ∀ r ∈ ((CGroup.new root).run [.index 0 "address", .get 1 .str]).1, r ≠ .panics := C52_no_panic root _ (by simp [opsOk])
  cases he : ((CGroup.new root).run [.index 0 "address", .get 1 .str]).2.err with
  | true =>
    refine ⟨fun h => (by cases h), fun h => ?_⟩
    rw [(single "address" .str).mpr ⟨_, h⟩] at he
    cases he
  | false =>
    have := made_str (C52_exact root _ hnp he) 1 ["address"] rfl
    rw [this]
    simp

/-- What the makers make of the initial configuration; and of one whose size is a float, or whose tuning is not a table. -/
theorem C78_example : filesMaker initialFiles = some ⟨"data", 256, 400, 2, 0, false, 0, 0⟩ ∧ tdigestMaker initialDist = some 0x4014000000000000#64 ∧ graphiteMaker initialListener = some ":1111" ∧
    filesMaker (.map [("size", .float 0#64)]) = none ∧ filesMaker (.map [("tuning", .int64 1)]) = none ∧
    filesMaker (.map [("cap", .int64 4), ("tuning", .map [("drop", .bool true), ("workers", .int64 3)])]) = some ⟨"", 0, 4, 0, 0, true, 0, 3⟩ :=
  ⟨rfl, rfl, rfl, rfl, rfl, rfl⟩

/-! ## C79 -/

/-- **C79** (tuning). A database is made with at least one worker and no negative number of handles, and it is made unless a negative buffer or number of workers is configured, which panics. What is configured is used as it is;
without a number of workers there is one less than `GOMAXPROCS`, but at least one; without a number of handles, 512 less than the limit of open files if that is a positive number, else none. -/
theorem C79_tuning (h : Host) (o : FilesOpts) :
    (newFiles h o = none ↔ o.buffer.toInt < 0 ∨ o.workers.toInt < 0) ∧
    ∀ t, newFiles h o = some t → 1 ≤ t.workers ∧ 0 ≤ t.handles ∧ 0 ≤ t.buffer ∧ t.buffer = o.buffer.toInt ∧ t.drop = o.drop ∧
      (o.workers ≠ 0 → t.workers = o.workers.toInt) ∧ (o.workers = 0 → t.workers = max 1 (h.procs - 1)) ∧
      (0 < o.handles.toInt → t.handles = o.handles.toInt) ∧ (o.handles.toInt < 0 → t.handles = 0) ∧
      (o.handles = 0 → ∀ l, h.limit = some l → l.toNat < 9223372036854775808 → t.handles = max 0 ((l.toNat : Int) - 512)) ∧ (o.handles = 0 → h.limit = none → t.handles = 0) := by
  have hw0 : o.workers = 0 ↔ o.workers.toInt = 0 := ⟨fun h => by rw [h]; rfl, fun h => Int64.toInt_inj.mp (by rw [h]; rfl)⟩
  have hh0 : o.handles = 0 ↔ o.handles.toInt = 0 := ⟨fun h => by rw [h]; rfl, fun h => Int64.toInt_inj.mp (by rw [h]; rfl)⟩
  have hb : o.buffer < 0 ↔ o.buffer.toInt < 0 := Int64.lt_iff_toInt_lt
  have hw : tuneWorkers h o.workers = if o.workers.toInt = 0 then max 1 (h.procs - 1) else o.workers.toInt := by
    unfold tuneWorkers
    by_cases h0 : o.workers.toInt = 0
    · rw [if_pos (hw0.mpr h0), if_pos h0]
      split <;> omega
    · rw [if_neg (fun h => h0 (hw0.mp h)), if_neg h0]
  have hth : tuneHandles h o.handles = max 0 (wantHandles h o.handles) := by
    unfold tuneHandles
    generalize wantHandles h o.handles = n
    split <;> omega
  unfold newFiles
  rw [hth]
  generalize htw : tuneWorkers h o.workers = W at hw
  refine ⟨?_, fun t ht => ?_⟩
  · by_cases h1 : o.buffer.toInt < 0
    · rw [if_pos (hb.mpr h1)]
      simp [h1]
    · rw [if_neg (fun h => h1 (hb.mp h))]
      by_cases h2 : W < 0
      · rw [if_pos h2]
        refine ⟨fun _ => .inr ?_, fun _ => rfl⟩
        split at hw <;> omega
      · rw [if_neg h2]
        refine ⟨fun h => (by cases h), fun h => ?_⟩
        exfalso
        split at hw <;> omega
  · split at ht
    · cases ht
    · rename_i h1
      split at ht
      · cases ht
      · rename_i h2
        injection ht with ht
        subst ht
        dsimp only
        have h1 : ¬ o.buffer.toInt < 0 := fun h => h1 (hb.mpr h)
        refine ⟨?_, Int.le_max_left _ _, by omega, rfl, rfl, fun h => ?_, fun h => ?_, fun hp => ?_, fun hp => ?_, fun hz l hl hs => ?_, fun hz hl => ?_⟩
        · split at hw <;> omega
        · rw [hw, if_neg (fun h' => h (hw0.mpr h'))]
        · rw [hw, if_pos (hw0.mp h)]
        · unfold wantHandles
          rw [if_neg (fun h' => by rw [hh0.mp h'] at hp; omega)]
          omega
        · unfold wantHandles
          rw [if_neg (fun h' => by rw [hh0.mp h'] at hp; omega)]
          omega
        · have e1 : (Int64.ofBitVec l).toInt = l.toNat := by
            show l.toInt = _
            rw [BitVec.toInt_eq_toNat_cond, if_pos (by omega)]
          have e2 : (Int64.ofBitVec l - 512).toInt = (l.toNat : Int) - 512 := by
            rw [Int64.toInt_sub, e1]
            exact Int.bmod_eq_of_le (by show _ ≤ (l.toNat : Int) - 512; omega) (by show (l.toNat : Int) - 512 < _; omega)
          unfold wantHandles
          rw [if_pos hz, hl]
          dsimp only
          rw [e2]
        · unfold wantHandles
          rw [if_pos hz, hl]
          rfl

/-- **C79** (initial). The initial configuration gives a database that works: its files hold records, and a record of 90000 bytes fits one. -/
theorem C79_initial (h : Host) : ∃ o t, filesMaker initialFiles = some o ∧ newFiles h o = some t ∧ GeoOk o.size.toInt.toNat o.cap.toInt.toNat ∧ 0 < o.files.toInt ∧ 90000 / (o.size.toInt.toNat - 24) < o.cap.toInt.toNat := by
  have e := C78_example.1
  cases hn : newFiles h ⟨"data", 256, 400, 2, 0, false, 0, 0⟩ with
  | none => exact absurd ((C79_tuning h _).1.mp hn) (by decide)
  | some t => exact ⟨_, t, e, hn, by unfold GeoOk; decide, by decide, by decide⟩

/-- **C79**, refuted in one point: a configuration without a cap is accepted, and the first write crashes, dividing by zero. -/
theorem C79_cap_refuted : ∃ o, filesMaker (.map [("directory", .str "data"), ("size", .int64 256), ("files", .int64 2)]) = some o ∧ (∀ h, newFiles h o ≠ none) ∧
    ∀ v de hit, (dbWrite ⟨o.size.toInt.toNat, o.cap.toInt.toNat, o.files.toInt⟩ v (Store.fresh de hit)).1 = .failed (.file .panic) := by
  refine ⟨⟨"data", 256, 0, 2, 0, false, 0, 0⟩, rfl, fun h hn => absurd ((C79_tuning h _).1.mp hn) (by decide), fun v de hit => ?_⟩
  cases de <;> rfl

end Rothko
