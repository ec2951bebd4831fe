import Verif.Lemmas.Metric
/-! The write path of one metric. -/
namespace Rothko

/-- Everything writers rely on, except that files are not empty and times increase. -/
structure Core (s : Store) (first last : Int) (H : Int → Handle) (V : Int → List Val) : Prop where
  ex : s.dirExists = true
  rng : 1 ≤ first ∧ first ≤ last
  lookup : ∀ idx, s.lookup idx = if first ≤ idx ∧ idx ≤ last then some (H idx).ino else none
  rep : ∀ i, first ≤ i → i ≤ last → FileRep (s.file (H i)) (V i)
  cache : CacheOk s first last H
  count : s.dir.length = (last - first + 1).toNat
  nodup : (s.dir.map Prod.fst).Nodup
  inj : ∀ i j, first ≤ i → i ≤ last → first ≤ j → j ≤ last → (H i).ino = (H j).ino → i = j
  fresh : ∀ i, first ≤ i → i ≤ last → (H i).ino < s.next

theorem Core.dirInv {s : Store} {first last : Int} {H : Int → Handle} {V : Int → List Val} (h : Core s first last H V) :
    DirInv s first last H (fun i => (V i, smallestEnd (V i))) :=
  ⟨h.ex, h.rng, h.lookup, fun i h1 h2 => (h.rep i h1 h2).view.sees, h.cache⟩

theorem Core.same {s s' : Store} {first last : Int} {H : Int → Handle} {V : Int → List Val} (h : Core s first last H V)
    (hs : SameDisk s s') (hc : CacheOk s' first last H) : Core s' first last H V :=
  ⟨by rw [hs.dirExists]; exact h.ex, h.rng, fun i => by rw [hs.lookup]; exact h.lookup i,
    fun i h1 h2 => by rw [hs.file]; exact h.rep i h1 h2, hc, by rw [hs.dir]; exact h.count, by rw [hs.dir]; exact h.nodup, h.inj,
    fun i h1 h2 => by rw [hs.next]; exact h.fresh i h1 h2⟩

theorem used_zero {size : Nat} {vs : List Val} (h1 : 25 ≤ size) (h2 : size ≤ 24 + 65535) : used size vs = 0 ↔ vs = [] := by
  cases vs with
  | nil => simp [used, allChunks]
  | cons v vs =>
    have := (chunks_spec size v h1 h2).2.2.2.1
    rw [used_cons]
    constructor
    · intro h; omega
    · intro h; cases h

theorem Core.acquireLast {s : Store} {first last : Int} {H : Int → Handle} {V : Int → List Val} (h : Core s first last H V)
    (hne : first < last → V last ≠ []) (cfg : Cfg) :
    ∃ s', Rothko.acquireLast cfg first (last - first + 1).toNat last s =
        (.ok (H last, (H last).cap - used (H last).size (V last) - 1, last), s') ∧ SameDisk s s' ∧ CacheOk s' first last H := by
  have hr := h.rng
  obtain ⟨s1, e1, sd1, c1⟩ := h.dirInv.acquire cfg last hr.2 (by omega)
  have hrep := h.rep last hr.2 (by omega)
  have hg : 25 ≤ (H last).size ∧ (H last).size ≤ 24 + 65535 := geo_size hrep.geo
  refine ⟨s1, ?_, sd1, c1⟩
  rw [show (last - first + 1).toNat = (last - first).toNat + 1 by omega]
  simp only [Rothko.acquireLast, e1, sd1.file, hrep.view.head]
  rw [if_neg]
  · rfl
  · rintro ⟨h1, h2⟩
    have : used (H last).size (V last) = 0 := by
      change ((H last).cap : Int) - used (H last).size (V last) - 1 = _ at h1
      omega
    rw [used_zero hg.1 hg.2] at this
    exact hne (by omega) this

/-- The monotonicity check of `Write`. -/
def monoCheck (f : File) (head : Int) (stop : Int64) : Option WRes :=
  if f.hasRecord head then
    match f.record head with
    | .error e => some (WRes.failed (.file e))
    | .ok r => if r.stop ≥ stop then some .notWritten else none
  else none

/-- The monotonicity check in terms of the stored values. -/
def monoVals : List Val → Int64 → Option WRes
  | [], _ => none
  | w :: _, stop => if w.stop ≥ stop then some .notWritten else none

theorem FileRep.mono {f : File} {vs : List Val} (h : FileRep f vs) (stop : Int64) :
    monoCheck f (f.cap - used f.size vs - 1 + 1) stop = monoVals vs stop := by
  have hg := geo_size h.geo
  rw [show (f.cap : Int) - used f.size vs - 1 + 1 = f.cap - used f.size vs by omega]
  unfold monoCheck
  cases vs with
  | nil =>
    have hz : used f.size [] = 0 := rfl
    have : f.hasRecord (f.cap - used f.size []) = false := by
      unfold File.hasRecord
      rw [if_pos (File.oob_true (by rw [hz]; omega))]
    rw [if_neg (by simp [this])]; rfl
  | cons w ws =>
    have hsp := chunks_spec f.size w hg.1 hg.2
    have hu := used_cons f.size w ws
    have hf := h.fits
    rw [if_pos ((h.has _ (by omega) (by omega)).mpr (by omega))]
    have hrec := h.recs
    rw [recordsFrom_cons _ _ (by omega)] at hrec
    cases hc : chunks f.size w with
    | nil => rw [hc] at hsp; simp at hsp
    | cons c cs =>
      simp only [allChunks, List.flatMap_cons, hc, List.cons_append, List.map_cons, List.cons.injEq] at hrec
      rw [hrec.1]
      have := (hsp.2.2.2.2.fits c (by rw [hc]; simp)).2.2.2.1
      simp only [this, monoVals]

theorem lookup_filter (s : Store) (x idx : Int) : (s.remove x).lookup idx = if idx = x then none else s.lookup idx := by
  unfold Store.lookup Store.remove
  simp only
  generalize s.dir = l
  induction l with
  | nil => simp
  | cons p l ih =>
    by_cases hp : p.1 = x
    · rw [List.filter_cons_of_neg (by simp [hp]), ih]
      by_cases hi : idx = x
      · rw [if_pos hi, if_pos hi]
      · rw [if_neg hi, if_neg hi, List.find?_cons_of_neg (by simp; omega)]
    · rw [List.filter_cons_of_pos (by simp [hp])]
      by_cases hi : p.1 = idx
      · rw [List.find?_cons_of_pos (by simp [hi]), List.find?_cons_of_pos (by simp [hi]), if_neg (by omega)]
      · rw [List.find?_cons_of_neg (by simp [hi]), List.find?_cons_of_neg (by simp [hi]), ih]

/-- Dropping the oldest file. -/
theorem Core.dropFirst {s : Store} {first last : Int} {H : Int → Handle} {V : Int → List Val} (h : Core s first last H V)
    (hlt : first < last) : Core ((s.evict first).remove first) (first + 1) last H V := by
  have hr := h.rng
  refine ⟨h.ex, ⟨by omega, by omega⟩, ?_, fun i h1 h2 => h.rep i (by omega) h2, ?_, ?_, ?_,
    fun i j a b c d => h.inj i j (by omega) b (by omega) d, fun i a b => h.fresh i (by omega) b⟩
  · intro idx
    rw [lookup_filter]
    show (if idx = first then none else s.lookup idx) = _
    rw [h.lookup]
    by_cases h1 : idx = first
    · rw [if_pos h1, if_neg (by omega)]
    · rw [if_neg h1]
      by_cases h2 : first ≤ idx ∧ idx ≤ last
      · rw [if_pos h2, if_pos (by omega)]
      · rw [if_neg h2, if_neg (by omega)]
  · intro i x hx
    have hx' : (if i = first then none else s.cache i) = some x := hx
    split at hx'
    · cases hx'
    · obtain ⟨a, b⟩ := h.cache i x hx'
      exact ⟨by omega, b⟩
  · show (s.dir.filter (fun p => !(p.1 == first))).length = _
    have hmem : first ∈ s.dir.map Prod.fst := by rw [mem_keys, h.lookup, if_pos ⟨by omega, by omega⟩]; rfl
    have hcnt := h.count
    have hnd := h.nodup
    have key : ∀ l : List (Int × Nat), (l.map Prod.fst).Nodup → first ∈ l.map Prod.fst →
        (l.filter (fun p => !(p.1 == first))).length + 1 = l.length := by
      intro l
      induction l with
      | nil => intro _ h; simp at h
      | cons p l ih =>
        intro hn hm
        rw [List.map_cons, List.nodup_cons] at hn
        by_cases hp : p.1 = first
        · rw [List.filter_cons_of_neg (by simp [hp]), List.length_cons]
          congr 2
          rw [List.filter_eq_self]
          intro q hq
          have : q.1 ≠ first := by
            intro hq1; apply hn.1; rw [hp, ← hq1]; exact List.mem_map_of_mem hq
          simp [this]
        · rw [List.filter_cons_of_pos (by simp [hp]), List.length_cons, List.length_cons]
          have : first ∈ l.map Prod.fst := by
            rw [List.map_cons, List.mem_cons] at hm
            rcases hm with hm | hm
            · exact absurd hm.symm hp
            · exact hm
          rw [ih hn.2 this]
    have := key s.dir hnd hmem
    omega
  · show ((s.dir.filter _).map Prod.fst).Nodup
    exact List.Nodup.sublist (List.Sublist.map _ List.filter_sublist) h.nodup

/-- Point update. -/
def upd (F : Int → α) (n : Int) (x : α) : Int → α := fun i => if i = n then x else F i

theorem upd_same (F : Int → α) (n : Int) (x : α) : upd F n x n = x := if_pos rfl
theorem upd_ne (F : Int → α) {n i : Int} (x : α) (h : i ≠ n) : upd F n x i = F i := if_neg h

attribute [local irreducible] createFile openFile

theorem acquire_miss (cfg : Cfg) (s : Store) (idx : Int) (h : s.cache idx = none) :
    s.acquire cfg idx false = ({ s.evict idx with clock := s.clock + 1 } : Store).createAt cfg idx := by
  unfold Store.acquire
  simp only [h, Bool.false_eq_true, if_false]

theorem createAt_new (cfg : Cfg) (s : Store) (idx : Int) (f : File) (ec : createFile cfg.size cfg.cap = (.ok f, f.data)) (h : s.lookup idx = none) :
    s.createAt cfg idx = (.ok { ino := s.next, size := f.size, cap := f.cap },
      { s with dir := (idx, s.next) :: s.dir, next := s.next + 1, disk := fun i => if i = s.next then f.data else s.disk i }) := by
  unfold Store.createAt
  rw [ec]
  unfold Store.install
  simp only [h, Option.isSome_none, Option.getD_none, Bool.false_eq_true, if_false]

/-- Creating the next file. -/
theorem Core.createNext {s : Store} {first last : Int} {H : Int → Handle} {V : Int → List Val} (h : Core s first last H V)
    (cfg : Cfg) (hg : GeoOk cfg.size cfg.cap) :
    ∃ h2 s', s.acquire cfg (last + 1) false = (.ok h2, s') ∧ h2.size = cfg.size ∧ h2.cap = cfg.cap ∧
      Core s' first (last + 1) (upd H (last + 1) h2) (upd V (last + 1) []) ∧ s'.hit = s.hit := by
  have hr := h.rng
  obtain ⟨f, ec, hs, hc, hrep⟩ := create_rep cfg.size cfg.cap hg
  have hnone : s.cache (last + 1) = none := by
    cases hx : s.cache (last + 1) with
    | none => rfl
    | some x => have := (h.cache _ _ hx).1; omega
  let s1 : Store := { s.evict (last + 1) with clock := s.clock + 1 }
  have hlk : s1.lookup (last + 1) = none := by
    show s.lookup (last + 1) = none
    rw [h.lookup, if_neg (by omega)]
  let h2 : Handle := { ino := s.next, size := f.size, cap := f.cap }
  let s2 : Store := { s1 with dir := (last + 1, s.next) :: s.dir, next := s.next + 1, disk := fun i => if i = s.next then f.data else s.disk i }
  have hacq : s.acquire cfg (last + 1) false = (.ok h2, s2) := by
    rw [acquire_miss _ _ _ hnone, createAt_new _ _ _ f ec hlk]; rfl
  have hfile : ∀ x : Handle, x.ino < s.next → s2.file x = s.file x := by
    intro x hx
    unfold Store.file
    have : s2.disk x.ino = s.disk x.ino := if_neg (by omega)
    rw [this]
  refine ⟨h2, s2, hacq, hs, hc, ⟨h.ex, ⟨hr.1, by omega⟩, ?_, ?_, ?_, ?_, ?_, ?_, ?_⟩, rfl⟩
  · intro idx
    by_cases hi : idx = last + 1
    · subst hi
      rw [if_pos ⟨by omega, by omega⟩, upd_same]
      unfold Store.lookup
      rw [show s2.dir = (last + 1, s.next) :: s.dir from rfl, List.find?_cons_of_pos (by simp)]
      rfl
    · rw [upd_ne _ _ hi]
      have : s2.lookup idx = s.lookup idx := by
        unfold Store.lookup
        rw [show s2.dir = (last + 1, s.next) :: s.dir from rfl, List.find?_cons_of_neg (by simp; omega)]
      rw [this, h.lookup]
      by_cases h2 : first ≤ idx ∧ idx ≤ last
      · rw [if_pos h2, if_pos (by omega)]
      · rw [if_neg h2, if_neg (by omega)]
  · intro i a b
    by_cases hi : i = last + 1
    · subst hi
      rw [upd_same, upd_same]
      have : s2.file h2 = f := by
        unfold Store.file
        have : s2.disk h2.ino = f.data := if_pos rfl
        rw [this]
      rw [this]; exact hrep
    · rw [upd_ne _ _ hi, upd_ne _ _ hi, hfile _ (h.fresh i a (by omega))]
      exact h.rep i a (by omega)
  · intro i x hx
    have hx' : (if i = last + 1 then none else s.cache i) = some x := hx
    split at hx'
    · cases hx'
    · rename_i hi
      obtain ⟨a, b⟩ := h.cache i x hx'
      exact ⟨by omega, by rw [upd_ne _ _ hi]; exact b⟩
  · show ((last + 1, s.next) :: s.dir).length = _
    rw [List.length_cons, h.count]; omega
  · show (((last + 1, s.next) :: s.dir).map Prod.fst).Nodup
    rw [List.map_cons, List.nodup_cons]
    refine ⟨?_, h.nodup⟩
    rw [mem_keys, h.lookup, if_neg (by omega)]; simp
  · intro i j a b c d e
    by_cases hi : i = last + 1 <;> by_cases hj : j = last + 1
    · omega
    · subst hi; rw [upd_same, upd_ne _ _ hj] at e
      have := h.fresh j c (by omega)
      have : h2.ino = s.next := rfl
      omega
    · subst hj; rw [upd_same, upd_ne _ _ hi] at e
      have := h.fresh i a (by omega)
      have : h2.ino = s.next := rfl
      omega
    · rw [upd_ne _ _ hi, upd_ne _ _ hj] at e
      exact h.inj i j a (by omega) c (by omega) e
  · intro i a b
    by_cases hi : i = last + 1
    · subst hi; rw [upd_same]; show s.next < s.next + 1; omega
    · rw [upd_ne _ _ hi]
      have := h.fresh i a (by omega)
      show _ < s.next + 1; omega

theorem setFile_same (s : Store) (h : Handle) (f : File) (h1 : f.size = h.size) (h2 : f.cap = h.cap) : (s.setFile h f).file h = f := by
  unfold Store.file Store.setFile
  simp only [if_true]
  cases f; simp_all

theorem setFile_other (s : Store) (h x : Handle) (f : File) (hne : x.ino ≠ h.ino) : (s.setFile h f).file x = s.file x := by
  unfold Store.file Store.setFile
  simp only [if_neg hne]

/-- A store into the newest file that keeps a reader's view. -/
theorem Core.setView {s : Store} {first last : Int} {H : Int → Handle} {V : Int → List Val} (h : Core s first last H V)
    (f' : File) (vs : List Val) (se : Int64) (h1 : f'.size = (H last).size) (h2 : f'.cap = (H last).cap) (hv : FileSees f' vs se) :
    DirInv (s.setFile (H last) f') first last H (upd (fun i => (V i, smallestEnd (V i))) last (vs, se)) := by
  have hr := h.rng
  refine ⟨h.ex, hr, h.lookup, ?_, h.cache⟩
  intro i a b
  by_cases hi : i = last
  · subst hi; rw [setFile_same _ _ _ h1 h2, upd_same]; exact hv
  · rw [setFile_other _ _ _ _ (fun e => hi (h.inj i last a b hr.2 (by omega) e)), upd_ne _ _ hi]
    exact (h.rep i a b).view.sees

/-- A complete write into the newest file. -/
theorem Core.write {s : Store} {first last : Int} {H : Int → Handle} {V : Int → List Val} (h : Core s first last H V)
    (v : Val) (hfit : used (H last).size (v :: V last) ≤ (H last).cap) :
    ∃ f', writeBody (s.file (H last)) ((H last).cap - used (H last).size (v :: V last)) v = (.written, f') ∧
      Core (s.setFile (H last) f') first last H (upd V last (v :: V last)) := by
  have hr := h.rng
  obtain ⟨f', e, hs, hc, hrep⟩ := (h.rep last hr.2 (by omega)).write v hfit
  refine ⟨f', e, h.ex, hr, h.lookup, ?_, h.cache, h.count, h.nodup, h.inj, h.fresh⟩
  intro i a b
  by_cases hi : i = last
  · subst hi; rw [setFile_same _ _ _ hs hc, upd_same]; exact hrep
  · rw [setFile_other _ _ _ _ (fun e => hi (h.inj i last a b hr.2 (by omega) e)), upd_ne _ _ hi]
    exact h.rep i a b

/-- The outcome of the first half of a write. -/
inductive PrepOutcome (cfg : Cfg) (s : Store) (first last : Int) (H : Int → Handle) (V : Int → List Val) (v : Val) :
    Prep × List (Int × Handle) × Store → Prop
  | notLater (w : Val) (ws : List Val) (s' : Store) (hV : V last = w :: ws) (hw : v.stop ≤ w.stop) (sd : SameDisk s s') (c : CacheOk s' first last H) :
      PrepOutcome cfg s first last H V v (.ret .notWritten, [(last, H last)], s')
  | offByOne (s' : Store) (h1 : last = 1) (h2 : used (H last).size (V last) = 1) (h3 : (H last).cap < used (H last).size (v :: V last))
      (hlater : ∀ w ws, V last = w :: ws → w.stop < v.stop) (sd : SameDisk s s') (c : CacheOk s' first last H) :
      PrepOutcome cfg s first last H V v (.ret (.failed .valueTooLarge), [(last, H last)], s')
  | here (s' : Store) (nr : Nat) (hfit : used (H last).size (v :: V last) ≤ (H last).cap)
      (hlater : ∀ w ws, V last = w :: ws → w.stop < v.stop) (sd : SameDisk s s') (c : CacheOk s' first last H) :
      PrepOutcome cfg s first last H V v (.go (H last) ((H last).cap - used (H last).size (v :: V last)) nr, [(last, H last)], s')
  | rotate (s' : Store) (nr : Nat) (h2 : Handle) (hs : h2.size = cfg.size) (hc : h2.cap = cfg.cap)
      (hfull : (H last).cap < used (H last).size (v :: V last))
      (hlater : ∀ w ws, V last = w :: ws → w.stop < v.stop)
      (first' : Int) (hf : first' = if last - first ≥ cfg.max ∧ cfg.max > 0 then first + 1 else first)
      (core : Core s' first' (last + 1) (upd H (last + 1) h2) (upd V (last + 1) [])) (hh : s'.hit = s.hit) :
      PrepOutcome cfg s first last H V v (.go h2 (h2.cap - used h2.size [v]) nr, [(last + 1, h2), (last, H last)], s')
  | tooLarge (s' : Store) (h2 : Handle) (hbig : cfg.cap < needs cfg.size v.data.length)
      (hlater : ∀ w ws, V last = w :: ws → w.stop < v.stop)
      (first' : Int) (hf : first' = if last - first ≥ cfg.max ∧ cfg.max > 0 then first + 1 else first)
      (core : Core s' first' (last + 1) (upd H (last + 1) h2) (upd V (last + 1) [])) :
      PrepOutcome cfg s first last H V v (.ret (.failed .valueTooLarge), [(last + 1, h2), (last, H last)], s')

theorem Core.prep {s : Store} {first last : Int} {H : Int → Handle} {V : Int → List Val} (h : Core s first last H V)
    (hne : first < last → V last ≠ []) (cfg : Cfg) (v : Val) (hg : GeoOk cfg.size cfg.cap) :
    PrepOutcome cfg s first last H V v (writePrep cfg first last v s) := by
  have hr := h.rng
  obtain ⟨s1, e1, sd1, c1⟩ := h.acquireLast hne cfg
  have hrep := h.rep last hr.2 (by omega)
  have hgeo := geo_size hrep.geo
  have hmono := hrep.mono v.stop
  have hu := used_cons (H last).size v (V last)
  have hsp := chunks_spec (H last).size v hgeo.1 hgeo.2
  have hfits : used (H last).size (V last) ≤ (H last).cap := hrep.fits
  unfold writePrep
  simp only [e1]
  rw [sd1.file]
  change PrepOutcome cfg s first last H V v
    (match monoCheck (s.file (H last)) ((H last).cap - used (H last).size (V last) - 1 + 1) v.stop with | some r => _ | none => _)
  change monoCheck (s.file (H last)) ((H last).cap - used (H last).size (V last) - 1 + 1) v.stop = _ at hmono
  rw [hmono]
  have hcont : (∀ w ws, V last = w :: ws → w.stop < v.stop) → PrepOutcome cfg s first last H V v
      (match numRecords v.data.length ((H last).size : Nat) with
      | none => (Prep.ret (.failed (.file .panic)), [(last, H last)], s1)
      | some 0 => (.ret (.failed .numRecords), [(last, H last)], s1)
      | some nr =>
        if (H last).cap - used (H last).size (V last) - 1 + 1 - (nr : Int) < 0 then
          if last = 1 ∧ (H last).cap - used (H last).size (V last) - 1 + 1 = ((H last).cap : Int) - 1 then
            (.ret (.failed .valueTooLarge), [(last, H last)], s1)
          else
            match (if last - first ≥ cfg.max ∧ cfg.max > 0 then (s1.evict first).remove first else s1).acquire cfg (last + 1) false with
            | (.error e, s) => (.ret (.failed e), [(last, H last)], s)
            | (.ok h2, s) =>
              match numRecords v.data.length h2.size with
              | none => (.ret (.failed (.file .panic)), (last + 1, h2) :: [(last, H last)], s)
              | some 0 => (.ret (.failed .numRecords), (last + 1, h2) :: [(last, H last)], s)
              | some nr =>
                if (h2.cap : Int) - nr < 0 then (.ret (.failed .valueTooLarge), (last + 1, h2) :: [(last, H last)], s)
                else (.go h2 (h2.cap - nr) nr, (last + 1, h2) :: [(last, H last)], s)
        else (.go (H last) ((H last).cap - used (H last).size (V last) - 1 + 1 - nr) nr, [(last, H last)], s1)) := by
    intro hlater
    rw [hsp.2.1]
    obtain ⟨k, hk⟩ : ∃ k, (chunks (H last).size v).length = k + 1 := ⟨(chunks (H last).size v).length - 1, by omega⟩
    rw [hk]
    simp only
    by_cases hroom : (H last).cap - used (H last).size (V last) - 1 + 1 - ((k + 1 : Nat) : Int) < 0
    · rw [if_pos hroom]
      by_cases hoff : last = 1 ∧ (H last).cap - used (H last).size (V last) - 1 + 1 = ((H last).cap : Int) - 1
      · rw [if_pos hoff]
        exact .offByOne s1 hoff.1 (by omega) (by omega) hlater sd1 c1
      · rw [if_neg hoff]
        have core1 := h.same sd1 c1
        -- the optional drop of the oldest file
        obtain ⟨sx, hsx, core2, hh2⟩ : ∃ sx, (if last - first ≥ cfg.max ∧ cfg.max > 0 then (s1.evict first).remove first else s1) = sx ∧
            Core sx (if last - first ≥ cfg.max ∧ cfg.max > 0 then first + 1 else first) last H V ∧ sx.hit = s1.hit := by
          by_cases hd : last - first ≥ cfg.max ∧ cfg.max > 0
          · rw [if_pos hd, if_pos hd]; exact ⟨_, rfl, core1.dropFirst (by omega), rfl⟩
          · rw [if_neg hd, if_neg hd]; exact ⟨_, rfl, core1, rfl⟩
        rw [hsx]
        obtain ⟨h2, s3, e3, hs3, hc3, core3, hh3⟩ := core2.createNext cfg hg
        have hgc := geo_size hg
        have hspc := chunks_spec cfg.size v hgc.1 hgc.2
        simp only [e3, hs3]
        rw [hspc.2.1]
        obtain ⟨k2, hk2⟩ : ∃ k2, (chunks cfg.size v).length = k2 + 1 := ⟨(chunks cfg.size v).length - 1, by omega⟩
        rw [hk2]
        simp only
        by_cases hfit : needs cfg.size v.data.length ≤ cfg.cap
        case neg =>
          rw [if_pos (by omega)]
          exact PrepOutcome.tooLarge s3 h2 (by omega) hlater _ rfl core3
        rw [if_neg (by omega)]
        have hu2 : used h2.size [v] = k2 + 1 := by rw [used_cons, hs3, hk2]; simp [used, allChunks]
        have := PrepOutcome.rotate (cfg := cfg) (s := s) (first := first) (last := last) (H := H) (V := V) (v := v)
          s3 (k2 + 1) h2 hs3 hc3 (by omega) hlater _ rfl core3 (by rw [hh3, hh2, sd1.hit])
        rw [hu2] at this
        exact this
    · rw [if_neg hroom]
      have := PrepOutcome.here (cfg := cfg) (s := s) (first := first) (last := last) (H := H) (V := V) (v := v)
        s1 (k + 1) (by omega) hlater sd1 c1
      rw [show ((H last).cap : Int) - used (H last).size (v :: V last) =
        (H last).cap - used (H last).size (V last) - 1 + 1 - ((k + 1 : Nat) : Int) by omega] at this
      exact this
  cases hV : V last with
  | nil =>
    have hm : monoVals (V last) v.stop = none := by rw [hV]; rfl
    rw [← hV, hm]
    exact hcont (fun w ws hx => by rw [hV] at hx; cases hx)
  | cons w ws =>
    by_cases hw : w.stop ≥ v.stop
    · have hm : monoVals (V last) v.stop = some .notWritten := by rw [hV]; exact if_pos hw
      rw [← hV, hm]
      exact .notLater w ws s1 hV hw sd1 c1
    · have hm : monoVals (V last) v.stop = none := by rw [hV]; exact if_neg hw
      rw [← hV, hm]
      exact hcont (fun w' ws' hx => by
        rw [hV] at hx; cases hx
        rw [Int64.lt_iff_toInt_lt]
        have : ¬ (v.stop ≤ w.stop) := hw
        rw [Int64.le_iff_toInt_le] at this
        omega)

end Rothko
