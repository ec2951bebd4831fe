import Verif.Lemmas.Durable
/-! The directory of a metric in histories with crashes. -/
namespace Rothko

/-- A handle that belongs to the numbered file, or (`c = false`) one of a file that no longer has a name. -/
def HandleOk (c : Bool) (next : Nat) (first last : Int) (H : Int → Handle) (i : Int) (h : Handle) : Prop :=
  (first ≤ i ∧ i ≤ last ∧ h = H i) ∨
  (c = false ∧ ¬ (first ≤ i ∧ i ≤ last) ∧ h.ino < next ∧ ∀ j, first ≤ j → j ≤ last → h.ino ≠ (H j).ino)

def CacheG (c : Bool) (s : Store) (first last : Int) (H : Int → Handle) : Prop :=
  ∀ i h, s.cache i = some h → HandleOk c s.next first last H i h

/-- Invariant of a directory. -/
structure CoreG (c : Bool) (P : Int64 → Prop) (s : Store) (first last : Int) (H : Int → Handle) (U : Int → Nat) (V : Int → List Val) : Prop where
  ex : s.dirExists = true
  rng : 1 ≤ first ∧ first ≤ last
  lookup : ∀ idx, s.lookup idx = if first ≤ idx ∧ idx ≤ last then some (H idx).ino else none
  rep : ∀ i, first ≤ i → i ≤ last → FileG c P (s.file (H i)) (U i) (V i)
  cache : CacheG c s first last H
  count : s.dir.length = (last - first + 1).toNat
  nodup : (s.dir.map Prod.fst).Nodup
  inj : ∀ i j, first ≤ i → i ≤ last → first ≤ j → j ≤ last → (H i).ino = (H j).ino → i = j
  fresh : ∀ i, first ≤ i → i ≤ last → (H i).ino < s.next

section
variable {c : Bool} {P Q : Int64 → Prop} {s s' : Store} {first last : Int} {H : Int → Handle} {U : Int → Nat} {V : Int → List Val}

theorem CoreG.same (h : CoreG c P s first last H U V) (hs : SameDisk s s') (hc : CacheG c s' first last H) : CoreG c P s' first last H U V :=
  ⟨by rw [hs.dirExists]; exact h.ex, h.rng, fun i => by rw [hs.lookup]; exact h.lookup i,
    fun i h1 h2 => by rw [hs.file]; exact h.rep i h1 h2, hc, by rw [hs.dir]; exact h.count, by rw [hs.dir]; exact h.nodup, h.inj,
    fun i h1 h2 => by rw [hs.next]; exact h.fresh i h1 h2⟩

theorem CoreG.mono (h : CoreG c P s first last H U V) (hq : ∀ e, P e → Q e) : CoreG c Q s first last H U V :=
  ⟨h.ex, h.rng, h.lookup, fun i a b => (h.rep i a b).mono hq, h.cache, h.count, h.nodup, h.inj, h.fresh⟩

theorem CacheG.release (h : CacheG c s first last H) {i : Int} {x : Handle} (hx : HandleOk c s.next first last H i x) :
    CacheG c (s.release i x) first last H := by
  intro j y hy
  simp only [Store.release] at hy
  split at hy
  · rename_i hj; subst hj; cases hy; exact hx
  · exact h j y hy

theorem CacheG.releaseAll {held : List (Int × Handle)} (h : CacheG c s first last H) (hx : ∀ p ∈ held, HandleOk c s.next first last H p.1 p.2) :
    SameDisk s (s.releaseAll held) ∧ CacheG c (s.releaseAll held) first last H := by
  induction held generalizing s with
  | nil => exact ⟨SameDisk.refl s, h⟩
  | cons p held ih =>
    have h1 := h.release (hx p List.mem_cons_self)
    obtain ⟨a, b⟩ := ih (s := s.release p.1 p.2) h1 (fun q hq => hx q (List.mem_cons_of_mem _ hq))
    exact ⟨(sameDisk_release s p.1 p.2).trans a, b⟩

theorem CoreG.releaseAll {held : List (Int × Handle)} (h : CoreG c P s first last H U V) (hx : ∀ p ∈ held, HandleOk c s.next first last H p.1 p.2) :
    CoreG c P (s.releaseAll held) first last H U V := by
  obtain ⟨a, b⟩ := h.cache.releaseAll hx
  exact h.same a b

theorem CoreG.reopen (h : CoreG c P s first last H U V) : CoreG c P s.reopen first last H U V :=
  ⟨h.ex, h.rng, h.lookup, h.rep, fun i x hx => (by cases hx), h.count, h.nodup, h.inj, h.fresh⟩

theorem CoreG.newMetric (h : CoreG c P s first last H U V) (cfg : Cfg) (ro : Bool) : Rothko.newMetric cfg ro s = (.ok (first, last), s) := by
  unfold Rothko.newMetric
  have hr := h.rng
  rw [h.ex]
  simp only [Bool.not_true, Bool.false_and, Bool.false_eq_true, if_false]
  have hscan := scan_eq (s.dir.map Prod.fst) first last hr.1
    (by rw [mem_keys, h.lookup, if_pos ⟨by omega, hr.2⟩]; rfl)
    (by rw [mem_keys, h.lookup, if_pos ⟨hr.2, by omega⟩]; rfl)
    (fun x hx => by
      rw [mem_keys, h.lookup] at hx
      by_cases hin : first ≤ x ∧ x ≤ last
      · exact hin
      · rw [if_neg hin] at hx; cases hx)
  have hs : ({ s with dirExists := true } : Store) = s := by rw [← h.ex]
  simp only [hs, hscan, if_true]

theorem CoreG.handle (h : CoreG c P s first last H U V) {i : Int} {x : Handle} (hx : s.cache i = some x) (h1 : first ≤ i) (h2 : i ≤ last) : x = H i := by
  rcases h.cache i x hx with ⟨_, _, e⟩ | ⟨_, hn, _⟩
  · exact e
  · exact absurd ⟨h1, h2⟩ hn

theorem CoreG.acquire (h : CoreG c P s first last H U V) (cfg : Cfg) (idx : Int) (h1 : first ≤ idx) (h2 : idx ≤ last) :
    ∃ s', s.acquire cfg idx true = (.ok (H idx), s') ∧ SameDisk s s' ∧ CacheG c s' first last H := by
  let s1 : Store := { s.evict idx with clock := s.clock + 1 }
  have hs1 : SameDisk s s1 := ⟨rfl, rfl, rfl, rfl, rfl⟩
  have hc1 : CacheG c s1 first last H := by
    intro i x hx
    have hx' : (if i = idx then none else s.cache i) = some x := hx
    split at hx'
    · cases hx'
    · exact h.cache i x hx'
  have hopen : s1.openAt idx = (.ok (H idx), s1) := by
    unfold Store.openAt
    rw [hs1.lookup, h.lookup, if_pos ⟨h1, h2⟩]
    simp only
    have hv := (h.rep idx h1 h2).open
    have hd : s1.disk (H idx).ino = (s.file (H idx)).data := rfl
    rw [hd, hv]
    rfl
  refine ⟨s1, ?_, hs1, hc1⟩
  unfold Store.acquire
  cases hcache : s.cache idx with
  | none => simp only [if_true]; exact hopen
  | some x =>
    cases hhit : s.hit s.clock with
    | false => simp only [if_true]; exact hopen
    | true => simp only; rw [h.handle hcache h1 h2]

/-- `Read` over the files, with a bound above everything stored. -/
theorem CoreG.read (h : CoreG c P s first last H U V) {σ : Type} (cfg : Cfg) (bound : Int64) (cb : σ → Val → σ × Cb) (h0 : 0 < bound) (hb : ∀ e, P e → e < bound)
    (k : Nat) (num : Int) (hk : num = first + k - 1) (hl : num ≤ last) (st : σ) :
    ∃ s', metricRead cfg bound cb k num s st =
        (((visit cb (filesDown V k num).flatten st).1, (visit cb (filesDown V k num).flatten st).2.error), s') ∧
      SameDisk s s' ∧ CacheG c s' first last H := by
  induction k generalizing s num st with
  | zero => exact ⟨s, rfl, SameDisk.refl s, h.cache⟩
  | succ k ih =>
    obtain ⟨s1, e1, sd1, c1⟩ := h.acquire cfg num (by omega) hl
    have hv := (h.rep num (by omega) hl).read bound cb st h0 hb
    have hrel : CacheG c (s1.release num (H num)) first last H := c1.release (Or.inl ⟨by omega, hl, rfl⟩)
    simp only [metricRead, e1, sd1.file, hv, filesDown, List.flatten_cons]
    rw [visit_append]
    rcases hvis : visit cb (V num) st with ⟨st', ctl⟩
    cases ctl with
    | more =>
      simp only
      have h2 := h.same (sd1.trans (sameDisk_release _ num (H num))) hrel
      obtain ⟨s3, e3, sd3, c3⟩ := ih h2 (num - 1) (by omega) (by omega) st'
      exact ⟨s3, e3, (sd1.trans (sameDisk_release _ _ _)).trans sd3, c3⟩
    | stop => exact ⟨_, rfl, sd1.trans (sameDisk_release _ _ _), hrel⟩
    | fail e => exact ⟨_, rfl, sd1.trans (sameDisk_release _ _ _), hrel⟩

/-- A query with any bound leaves the directory as it is. -/
theorem CoreG.read_any (h : CoreG c P s first last H U V) {σ : Type} (cfg : Cfg) (bound : Int64) (cb : σ → Val → σ × Cb)
    (k : Nat) (num : Int) (hk : num = first + k - 1) (hl : num ≤ last) (st : σ) :
    SameDisk s (metricRead cfg bound cb k num s st).2 ∧ CacheG c (metricRead cfg bound cb k num s st).2 first last H := by
  induction k generalizing s num st with
  | zero => exact ⟨SameDisk.refl s, h.cache⟩
  | succ k ih =>
    obtain ⟨s1, e1, sd1, c1⟩ := h.acquire cfg num (by omega) hl
    have hrel : CacheG c (s1.release num (H num)) first last H := c1.release (Or.inl ⟨by omega, hl, rfl⟩)
    simp only [metricRead, e1]
    rcases readFile bound cb (s1.file (H num)) st with ⟨st', ctl⟩
    cases ctl with
    | more =>
      simp only
      have h2 := h.same (sd1.trans (sameDisk_release _ num (H num))) hrel
      obtain ⟨a, b⟩ := ih h2 (num - 1) (by omega) (by omega) st'
      exact ⟨(sd1.trans (sameDisk_release _ _ _)).trans a, b⟩
    | stop => exact ⟨sd1.trans (sameDisk_release _ _ _), hrel⟩
    | fail e => exact ⟨sd1.trans (sameDisk_release _ _ _), hrel⟩

theorem CoreG.query_any (h : CoreG c P s first last H U V) {σ : Type} (cfg : Cfg) (bound : Int64) (cb : σ → Val → σ × Cb) (st : σ) :
    SameDisk s (dbQuery cfg bound cb st s).2 ∧ CoreG c P (dbQuery cfg bound cb st s).2 first last H U V := by
  have hr := h.rng
  have hx := h.read_any cfg bound cb (last - first + 1).toNat last (by omega) (by omega) st
  have he : (dbQuery cfg bound cb st s).2 = (metricRead cfg bound cb (last - first + 1).toNat last s st).2 := by
    unfold dbQuery; rw [h.newMetric]
  rw [he]
  exact ⟨hx.1, h.same hx.1 hx.2⟩

theorem CoreG.query (h : CoreG c P s first last H U V) (cfg : Cfg) (bound : Int64) (h0 : 0 < bound) (hb : ∀ e, P e → e < bound) :
    (queryList cfg bound (fun _ _ => .more) s).1 = (valuesOf V first last, none) := by
  have hr := h.rng
  obtain ⟨s2, e, _⟩ := h.read cfg bound (fun (seen : List Val) v => (seen ++ [v], Cb.more)) h0 hb (last - first + 1).toNat last (by omega) (by omega) []
  unfold queryList dbQuery
  rw [h.newMetric]
  simp only [e, visit_collect, List.nil_append]
  rfl

theorem filter_count (x : Int) (l : List (Int × Nat)) (hn : (l.map Prod.fst).Nodup) (hm : x ∈ l.map Prod.fst) :
    (l.filter (fun p => !(p.1 == x))).length + 1 = l.length := by
  induction l with
  | nil => simp at hm
  | cons p l ih =>
    rw [List.map_cons, List.nodup_cons] at hn
    by_cases hp : p.1 = x
    · rw [List.filter_cons_of_neg (by simp [hp]), List.length_cons]
      congr 2
      rw [List.filter_eq_self]
      intro q hq
      have : q.1 ≠ x := by
        intro hq1; apply hn.1; rw [hp, ← hq1]; exact List.mem_map_of_mem hq
      simp [this]
    · rw [List.filter_cons_of_pos (by simp [hp]), List.length_cons, List.length_cons]
      have : x ∈ l.map Prod.fst := by
        rw [List.map_cons, List.mem_cons] at hm
        rcases hm with hm | hm
        · exact absurd hm.symm hp
        · exact hm
      rw [ih hn.2 this]

/-- Removing the oldest or the newest file. -/
theorem CoreG.shrink (h : CoreG c P s first last H U V) (hlt : first < last) (x first' last' : Int)
    (hx : (x = first ∧ first' = first + 1 ∧ last' = last) ∨ (x = last ∧ first' = first ∧ last' = last - 1))
    (hex : s'.dirExists = s.dirExists) (hdir : s'.dir = s.dir.filter (fun p => !(p.1 == x))) (hdisk : s'.disk = s.disk) (hnext : s'.next = s.next)
    (hcache : ∀ i y, s'.cache i = some y → i ≠ x ∧ s.cache i = some y ∨ (c = false ∧ i = x ∧ y = H x)) : CoreG c P s' first' last' H U V := by
  have hr := h.rng
  have hrange : first ≤ x ∧ x ≤ last := by omega
  refine ⟨by rw [hex]; exact h.ex, by omega, ?_, ?_, ?_, ?_, ?_, fun i j a b e d => h.inj i j (by omega) (by omega) (by omega) (by omega),
    fun i a b => by rw [hnext]; exact h.fresh i (by omega) (by omega)⟩
  · intro idx
    have hl := lookup_filter s x idx
    have : s'.lookup idx = (s.remove x).lookup idx := by
      unfold Store.lookup; rw [hdir]; rfl
    rw [this, hl, h.lookup]
    by_cases h1 : idx = x
    · rw [if_pos h1, if_neg (by omega)]
    · rw [if_neg h1]
      by_cases h2 : first ≤ idx ∧ idx ≤ last
      · rw [if_pos h2, if_pos (by omega)]
      · rw [if_neg h2, if_neg (by omega)]
  · intro i a b
    have : s'.file (H i) = s.file (H i) := by unfold Store.file; rw [hdisk]
    rw [this]; exact h.rep i (by omega) (by omega)
  · intro i y hy
    rcases hcache i y hy with ⟨hne, hy⟩ | ⟨hc, rfl, rfl⟩
    · rcases h.cache i y hy with ⟨a, b, e⟩ | ⟨a, b, d, e⟩
      · exact Or.inl ⟨by omega, by omega, e⟩
      · exact Or.inr ⟨a, by omega, by rw [hnext]; exact d, fun j p q => e j (by omega) (by omega)⟩
    · refine Or.inr ⟨hc, by omega, by rw [hnext]; exact h.fresh _ hrange.1 hrange.2, fun j p q e => ?_⟩
      have := h.inj i j hrange.1 hrange.2 (by omega) (by omega) e
      omega
  · have := filter_count x s.dir h.nodup (by rw [mem_keys, h.lookup, if_pos hrange]; rfl)
    rw [hdir]
    have := h.count
    omega
  · rw [hdir]
    exact List.Nodup.sublist (List.Sublist.map _ List.filter_sublist) h.nodup

/-- `acquireLast`: empty files at the end are removed; the newest other file is returned. -/
theorem CoreG.acquireLast (h : CoreG c P s first last H U V) (hne : c = true → first < last → 1 ≤ U last) (cfg : Cfg) (fuel : Nat)
    (hf : fuel = (last - first + 1).toNat) :
    ∃ s' last', Rothko.acquireLast cfg first fuel last s = (.ok (H last', (H last').cap - U last' - 1, last'), s') ∧
      first ≤ last' ∧ last' ≤ last ∧ (c = true → last' = last) ∧ (∀ i, last' < i → i ≤ last → V i = []) ∧ CoreG c P s' first last' H U V := by
  induction fuel generalizing s last with
  | zero => have := h.rng; omega
  | succ fuel ih =>
    have hr := h.rng
    obtain ⟨s1, e1, sd1, c1⟩ := h.acquire cfg last hr.2 (by omega)
    have hrep := h.rep last hr.2 (by omega)
    simp only [Rothko.acquireLast, e1, sd1.file, hrep.head]
    change ∃ s' last', (if ((H last).cap : Int) - U last - 1 = (H last).cap - 1 ∧ last > first then
      Rothko.acquireLast cfg first fuel (last - 1) ((s1.release last (H last)).remove last) else
      (Except.ok (H last, ((H last).cap : Int) - U last - 1, last), s1)) = _ ∧ _
    by_cases hcond : ((H last).cap : Int) - U last - 1 = (H last).cap - 1 ∧ last > first
    · rw [if_pos hcond]
      have hz : U last = 0 := by omega
      have hc : c = false := by
        cases hc : c with
        | false => rfl
        | true => have := hne hc (by omega); omega
      have h2 : CoreG c P ((s1.release last (H last)).remove last) first (last - 1) H U V := by
        refine (h.same sd1 c1).shrink (by omega) last first (last - 1) (Or.inr ⟨rfl, rfl, rfl⟩) rfl rfl rfl rfl ?_
        intro i y hy
        have hy' : (if i = last then some (H last) else s1.cache i) = some y := hy
        split at hy'
        · rename_i hi; cases hy'; exact Or.inr ⟨hc, hi, rfl⟩
        · rename_i hi; exact Or.inl ⟨hi, hy'⟩
      obtain ⟨s', last', e, a1, a2, a3, a4, a5⟩ := ih h2 (fun hx => by rw [hc] at hx; cases hx) (by omega)
      refine ⟨s', last', e, a1, by omega, fun hx => (by rw [hc] at hx; cases hx), ?_, a5⟩
      intro i b1 b2
      by_cases hi : i = last
      · subst hi; exact hrep.zero hz
      · exact a4 i b1 (by omega)
    · rw [if_neg hcond]
      exact ⟨s1, last, rfl, hr.2, by omega, fun _ => rfl, fun i a b => by omega, h.same sd1 c1⟩

attribute [local irreducible] createFile openFile

theorem acquire_create (cfg : Cfg) (s : Store) (idx : Int) : (∃ h, s.cache idx = some h ∧
      s.acquire cfg idx false = (.ok h, { s.evict idx with clock := s.clock + 1 })) ∨
    s.acquire cfg idx false = ({ s.evict idx with clock := s.clock + 1 } : Store).createAt cfg idx := by
  unfold Store.acquire
  cases hc : s.cache idx with
  | none => right; simp only [Bool.false_eq_true, if_false]
  | some h =>
    cases hh : s.hit s.clock with
    | true => left; exact ⟨h, rfl, rfl⟩
    | false => right; simp only [Bool.false_eq_true, if_false]

/-- Acquiring the next file: a new one is created, or a cached handle of a removed file is returned. -/
theorem CoreG.next (h : CoreG c P s first last H U V) (cfg : Cfg) (hg : GeoOk cfg.size cfg.cap) :
    ∃ h2 s', s.acquire cfg (last + 1) false = (.ok h2, s') ∧
      ((c = false ∧ CoreG c P s' first last H U V ∧ HandleOk c s'.next first last H (last + 1) h2) ∨
       (h2.size = cfg.size ∧ h2.cap = cfg.cap ∧ CoreG c P s' first (last + 1) (upd H (last + 1) h2) (upd U (last + 1) 0) (upd V (last + 1) []))) := by
  have hr := h.rng
  let s1 : Store := { s.evict (last + 1) with clock := s.clock + 1 }
  have hs1 : SameDisk s s1 := ⟨rfl, rfl, rfl, rfl, rfl⟩
  have hcache1 : ∀ i x, s1.cache i = some x → i ≠ last + 1 ∧ s.cache i = some x := by
    intro i x hx
    have hx' : (if i = last + 1 then none else s.cache i) = some x := hx
    split at hx'
    · cases hx'
    · rename_i hi; exact ⟨hi, hx'⟩
  rcases acquire_create cfg s (last + 1) with ⟨h2, hc, e⟩ | e
  · refine ⟨h2, s1, e, Or.inl ?_⟩
    have hok := h.cache _ _ hc
    refine ⟨?_, h.same hs1 (fun i x hx => h.cache i x (hcache1 i x hx).2), hok⟩
    rcases hok with ⟨_, hx, _⟩ | ⟨hx, _⟩
    · omega
    · exact hx
  · obtain ⟨f, ec, hs, hc, hrep⟩ := create_g c P cfg.size cfg.cap hg
    have hlk : s1.lookup (last + 1) = none := by
      show s.lookup (last + 1) = none
      rw [h.lookup, if_neg (by omega)]
    let h2 : Handle := { ino := s.next, size := f.size, cap := f.cap }
    let s2 : Store := { s1 with dir := (last + 1, s.next) :: s.dir, next := s.next + 1, disk := fun i => if i = s.next then f.data else s.disk i }
    have hacq : s.acquire cfg (last + 1) false = (.ok h2, s2) := by
      rw [e]
      exact createAt_new cfg s1 (last + 1) f ec hlk
    have hfile : ∀ x : Handle, x.ino < s.next → s2.file x = s.file x := by
      intro x hx
      unfold Store.file
      have : s2.disk x.ino = s.disk x.ino := if_neg (by omega)
      rw [this]
    refine ⟨h2, s2, hacq, Or.inr ⟨hs, hc, ⟨h.ex, ⟨hr.1, by omega⟩, ?_, ?_, ?_, ?_, ?_, ?_, ?_⟩⟩⟩
    · intro idx
      by_cases hi : idx = last + 1
      · subst hi
        rw [if_pos ⟨by omega, by omega⟩, upd_same]
        unfold Store.lookup
        rw [show s2.dir = (last + 1, s.next) :: s.dir from rfl, List.find?_cons_of_pos (by simp)]
        rfl
      · rw [upd_ne _ _ hi]
        have : s2.lookup idx = s.lookup idx := by
          unfold Store.lookup
          rw [show s2.dir = (last + 1, s.next) :: s.dir from rfl, List.find?_cons_of_neg (by simp; omega)]
        rw [this, h.lookup]
        by_cases h2 : first ≤ idx ∧ idx ≤ last
        · rw [if_pos h2, if_pos (by omega)]
        · rw [if_neg h2, if_neg (by omega)]
    · intro i a b
      by_cases hi : i = last + 1
      · subst hi
        rw [upd_same, upd_same, upd_same]
        have : s2.file h2 = f := by
          unfold Store.file
          have : s2.disk h2.ino = f.data := if_pos rfl
          rw [this]
        rw [this]; exact hrep
      · rw [upd_ne _ _ hi, upd_ne _ _ hi, upd_ne _ _ hi, hfile _ (h.fresh i a (by omega))]
        exact h.rep i a (by omega)
    · intro i x hx
      obtain ⟨hi, hx⟩ := hcache1 i x hx
      rcases h.cache i x hx with ⟨a, b, e⟩ | ⟨a, b, d, e⟩
      · exact Or.inl ⟨a, by omega, by rw [upd_ne _ _ hi]; exact e⟩
      · refine Or.inr ⟨a, by omega, by show x.ino < s.next + 1; omega, fun j p q => ?_⟩
        by_cases hj : j = last + 1
        · subst hj; rw [upd_same]; show x.ino ≠ s.next; omega
        · rw [upd_ne _ _ hj]; exact e j p (by omega)
    · show ((last + 1, s.next) :: s.dir).length = _
      rw [List.length_cons, h.count]; omega
    · show (((last + 1, s.next) :: s.dir).map Prod.fst).Nodup
      rw [List.map_cons, List.nodup_cons]
      refine ⟨?_, h.nodup⟩
      rw [mem_keys, h.lookup, if_neg (by omega)]; simp
    · intro i j a b c' d e
      by_cases hi : i = last + 1 <;> by_cases hj : j = last + 1
      · omega
      · subst hi; rw [upd_same, upd_ne _ _ hj] at e
        have := h.fresh j c' (by omega)
        have : h2.ino = s.next := rfl
        omega
      · subst hj; rw [upd_same, upd_ne _ _ hi] at e
        have := h.fresh i a (by omega)
        have : h2.ino = s.next := rfl
        omega
      · rw [upd_ne _ _ hi, upd_ne _ _ hj] at e
        exact h.inj i j a (by omega) c' (by omega) e
    · intro i a b
      by_cases hi : i = last + 1
      · subst hi; rw [upd_same]; show s.next < s.next + 1; omega
      · rw [upd_ne _ _ hi]
        have := h.fresh i a (by omega)
        show _ < s.next + 1; omega

/-- A store through an in-range handle. -/
theorem CoreG.setIn (h : CoreG c P s first last H U V) (hq : ∀ e, P e → Q e) (f' : File) (u' : Nat) (vs' : List Val) (h1 : f'.size = (H last).size) (h2 : f'.cap = (H last).cap)
    (hf : FileG c Q f' u' vs') : CoreG c Q (s.setFile (H last) f') first last H (upd U last u') (upd V last vs') := by
  have hr := h.rng
  refine ⟨h.ex, hr, h.lookup, ?_, h.cache, h.count, h.nodup, h.inj, h.fresh⟩
  intro i a b
  by_cases hi : i = last
  · subst hi; rw [setFile_same _ _ _ h1 h2, upd_same, upd_same]; exact hf
  · rw [setFile_other _ _ _ _ (fun e => hi (h.inj i last a b hr.2 (by omega) e)), upd_ne _ _ hi, upd_ne _ _ hi]
    exact (h.rep i a b).mono hq

/-- A store through a handle of a removed file. -/
theorem CoreG.setOut (h : CoreG c P s first last H U V) (x : Handle) (f' : File) (hx : ∀ j, first ≤ j → j ≤ last → x.ino ≠ (H j).ino) :
    CoreG c P (s.setFile x f') first last H U V := by
  refine ⟨h.ex, h.rng, h.lookup, ?_, h.cache, h.count, h.nodup, h.inj, h.fresh⟩
  intro i a b
  rw [setFile_other _ _ _ _ (fun e => hx i a b e.symm)]
  exact h.rep i a b

end

end Rothko
