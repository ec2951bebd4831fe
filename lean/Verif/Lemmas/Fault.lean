import Verif.Model.Fault
import Verif.Props.Calls
import Verif.Lemmas.History
import Verif.Lemmas.Visible
import Verif.Lemmas.Bricked
/-! Calls during which system calls fail: what they do to the invariant. -/
namespace Rothko

variable {α : Type}

/-- The lookup that precedes opening. -/
def Store.missed (s : Store) (idx : Int) : Store := { s.evict idx with clock := s.clock + 1 }

theorem sameDisk_missed (s : Store) (idx : Int) : SameDisk s (s.missed idx) := ⟨rfl, rfl, rfl, rfl, rfl⟩

theorem CacheOk.missed {s : Store} {first last : Int} {H : Int → Handle} (h : CacheOk s first last H) (idx : Int) : CacheOk (s.missed idx) first last H :=
  fun i x hx => h.evict idx i x hx

attribute [local irreducible] createFile openFile

theorem acquireF_none (flt : Faults) (cfg : Cfg) (s : Store) (idx : Int) (ex : Bool) (h : flt.file s.clock = none) : s.acquireF flt cfg idx ex = s.acquire cfg idx ex := by
  unfold Store.acquireF Store.acquire
  rw [h]
  cases s.cache idx with
  | none => rfl
  | some x => cases s.hit s.clock <;> rfl

theorem acquireF_clean (flt : Faults) (cfg : Cfg) (s : Store) (idx : Int) (ex : Bool) (h : flt.file s.clock = some .clean) :
    s.acquireF flt cfg idx ex = s.acquire cfg idx ex ∨ s.acquireF flt cfg idx ex = (.error .os, s.missed idx) := by
  unfold Store.acquireF Store.acquire
  rw [h]
  cases s.cache idx with
  | none => exact Or.inr rfl
  | some x => cases s.hit s.clock with
    | true => exact Or.inl rfl
    | false => exact Or.inr rfl

/-- An existing file is found as without faults, or the error is reported and nothing changed. -/
theorem acquireF_true (flt : Faults) (cfg : Cfg) (s : Store) (idx : Int) :
    s.acquireF flt cfg idx true = s.acquire cfg idx true ∨ s.acquireF flt cfg idx true = (.error .os, s.missed idx) := by
  cases h : flt.file s.clock with
  | none => exact Or.inl (acquireF_none flt cfg s idx true h)
  | some f =>
    cases f with
    | clean => exact acquireF_clean flt cfg s idx true h
    | partly n =>
      unfold Store.acquireF Store.acquire
      rw [h]
      cases s.cache idx with
      | none => exact Or.inr rfl
      | some x => cases s.hit s.clock with
        | true => exact Or.inl rfl
        | false => exact Or.inr rfl

/-- A new file is made as without faults, or the error is reported and nothing changed, or a useless file is left. -/
theorem acquireF_false (flt : Faults) (cfg : Cfg) (s : Store) (idx : Int) (hc : s.cache idx = none) :
    s.acquireF flt cfg idx false = s.acquire cfg idx false ∨ s.acquireF flt cfg idx false = (.error .os, s.missed idx) ∨
    ∃ n, flt.file s.clock = some (.partly n) ∧ s.acquireF flt cfg idx false = (.error .os, ((s.missed idx).install (.error .panic, List.replicate n 0) idx).2) := by
  cases h : flt.file s.clock with
  | none => exact Or.inl (acquireF_none flt cfg s idx false h)
  | some f =>
    cases f with
    | clean => exact (acquireF_clean flt cfg s idx false h).imp id Or.inl
    | partly n =>
      have key : s.acquireF flt cfg idx false = (s.missed idx).failed cfg idx false (.partly n) := by
        unfold Store.acquireF
        rw [h, hc]
        rfl
      have key2 : s.acquire cfg idx false = (s.missed idx).createAt cfg idx := acquire_miss _ _ _ hc
      rw [key, key2]
      generalize s.missed idx = m
      unfold Store.failed Store.createAt
      generalize createFile cfg.size cfg.cap = c
      generalize createRefused cfg.size cfg.cap = r
      dsimp only
      by_cases hr : r = some false
      · exact Or.inr (Or.inr ⟨n, rfl, by rw [if_pos hr, if_neg (by decide)]⟩)
      · exact Or.inl (by rw [if_neg hr, if_neg (by decide)])

theorem releaseAllP_runF (flt : Faults) (p : FsProg α) (held : List (Int × FsHandle)) : ∀ s : Store,
    (releaseAllP p held).runF flt s = p.runF flt (s.releaseAll (held.map (fun x => (x.1, x.2.geo)))) := by
  induction held with
  | nil => intro s; rfl
  | cons a l ih => intro s; exact ih _

theorem storeP_runF (flt : Faults) (h : FsHandle) (head : Int) (v : Val) (held : List (Int × FsHandle)) (nr : Nat) (s : Store) :
    (storeP h head v held .done).runF flt s = finishWrite v (.go h.geo head nr, held.map (fun x => (x.1, x.2.geo)), s) := by
  unfold storeP
  rw [FsProg.runF, FsProg.runF, releaseAllP_runF]
  rfl

theorem rotateP_runF (flt : Faults) (cfg : Cfg) (last : Int) (h : FsHandle) (v : Val) (s : Store) :
    (s.acquireF flt cfg (last + 1) false = s.acquire cfg (last + 1) false → (rotateP cfg last h v .done).runF flt s = finishWrite v (rotatePrep cfg last h.geo v s)) ∧
    (∀ e s1, s.acquireF flt cfg (last + 1) false = (.error e, s1) → (rotateP cfg last h v .done).runF flt s = (.failed e, s1.release last h.geo)) := by
  rw [rotateP_cases, FsProg.runF]
  constructor
  · intro he
    rw [he]
    unfold rotatePrep
    generalize Store.acquire cfg s (last + 1) false = a
    obtain ⟨e | h2, s1⟩ := a
    · rfl
    · dsimp only
      generalize numRecords v.data.length h2.size = n
      match n with
      | none => simp only [numCases]; rw [releaseAllP_runF]; rfl
      | some 0 => simp only [numCases]; rw [releaseAllP_runF]; rfl
      | some (n + 1) =>
        simp only [numCases]
        split
        · rw [releaseAllP_runF]; rfl
        · rw [storeP_runF flt _ _ _ _ (n + 1)]; rfl
  · intro e s1 he
    rw [he]
    rfl

/-- Dropping the oldest file. -/
theorem MInv.drop {s : Store} {acc : List Val} {first last : Int} {H : Int → Handle} {V : Int → List Val} {d : List Val}
    (h : MInv s acc first last H V d) (hlt : first < last) : MInv ((s.evict first).remove first) acc (first + 1) last H V (V first ++ d) := by
  have hr := h.core.rng
  refine ⟨h.core.dropFirst hlt, fun i a b => h.ne i (by omega) b, ?_, fun h1 => by omega, h.empty, h.sorted⟩
  rw [h.eq, valuesOf_drop V first last hr.2, List.append_assoc]

theorem MInv.evict {s : Store} {acc : List Val} {first last : Int} {H : Int → Handle} {V : Int → List Val} {d : List Val}
    (h : MInv s acc first last H V d) (idx : Int) : MInv (s.evict idx) acc first last H V d :=
  h.same ⟨rfl, rfl, rfl, rfl, rfl⟩ (h.core.cache.evict idx)

/-- Storing in a new file. -/
theorem MInv.rotated {s : Store} {acc : List Val} {first last : Int} {H : Int → Handle} {V : Int → List Val} {d : List Val}
    (h : MInv s acc first last H V d) (cfg : Cfg) (v : Val) (hg : GeoOk cfg.size cfg.cap) (hfit : needs cfg.size v.data.length ≤ cfg.cap)
    (hl : ∀ w ∈ acc, w.stop < v.stop) :
    ∃ s' h2, finishWrite v (rotatePrep cfg last (H last) v s) = (.written, s') ∧
      MInv s' (v :: acc) first (last + 1) (upd H (last + 1) h2) (upd V (last + 1) [v]) d := by
  have hr := h.core.rng
  obtain ⟨h2, s3, e3, hs3, hc3, core3, _⟩ := h.core.createNext cfg hg
  have hgc := geo_size hg
  have hspc := chunks_spec cfg.size v hgc.1 hgc.2
  obtain ⟨k2, hk2⟩ : ∃ k2, (chunks cfg.size v).length = k2 + 1 := ⟨(chunks cfg.size v).length - 1, by omega⟩
  have hu2 : used h2.size [v] = k2 + 1 := by rw [used_cons, hs3, hk2]; simp [used, allChunks]
  have hprep : rotatePrep cfg last (H last) v s = (.go h2 (h2.cap - used h2.size [v]) (k2 + 1), [(last + 1, h2), (last, H last)], s3) := by
    unfold rotatePrep
    rw [e3]
    simp only [hs3]
    rw [hspc.2.1, hk2]
    simp only [numCases]
    rw [if_neg (by omega), ← hs3, hu2]
  rw [hprep]
  obtain ⟨f', e, core2⟩ := core3.write v (by
    rw [upd_same, upd_same, hu2, hc3]
    rw [hspc.2.2.1] at hk2
    omega)
  rw [upd_same, upd_same] at e core2
  have hupd : upd (upd V (last + 1) []) (last + 1) [v] = upd V (last + 1) [v] := by
    funext i; unfold upd; split <;> rfl
  rw [hupd] at core2
  have rel1 := core2.cache.release (idx := last + 1) (by omega) (by omega)
  rw [upd_same] at rel1
  have rel2 := rel1.release (idx := last) hr.2 (by omega)
  rw [upd_ne _ _ (show last ≠ last + 1 by omega)] at rel2
  have core4 := core2.same ((sameDisk_release _ _ _).trans (sameDisk_release _ _ _)) rel2
  refine ⟨_, h2, ?_, ⟨core4, ?_, ?_, h.one, ?_, sorted_cons h.sorted hl⟩⟩
  · simp only [finishWrite, e]
    rfl
  · intro i a b
    by_cases hi : i = last + 1
    · subst hi; rw [upd_same]; simp
    · rw [upd_ne _ _ hi]
      exact h.ne i a (by omega)
  · rw [valuesOf_new _ _ _ (by omega), h.eq]; rfl
  · rw [upd_same]; intro hx; cases hx

/-- A useless file with a new number. -/
theorem Core.spoiled {s : Store} {first last : Int} {H : Int → Handle} {V : Int → List Val} (h : Core s first last H V) (n : Nat) :
    ∃ e, ∀ x, Bricked e (((s.missed (last + 1)).install (.error .panic, List.replicate n 0) (last + 1)).2.release last x) first (last + 1) := by
  obtain ⟨e, he⟩ := openFile_zero n
  have hr := h.rng
  have hkeys : ∀ x, x ∈ s.dir.map Prod.fst ↔ first ≤ x ∧ x ≤ last := by
    intro x
    rw [mem_keys, h.lookup]
    by_cases hx : first ≤ x ∧ x ≤ last
    · rw [if_pos hx]; simp [hx]
    · rw [if_neg hx]; simp [hx]
  have hno : (s.missed (last + 1)).lookup (last + 1) = none := by
    show s.lookup (last + 1) = none
    rw [h.lookup, if_neg (by omega)]
  refine ⟨e, fun x => ?_⟩
  generalize hs' : ((s.missed (last + 1)).install (.error .panic, List.replicate n 0) (last + 1)).2.release last x = s'
  have hdir : s'.dir = (last + 1, s.next) :: s.dir := by
    rw [← hs']; simp [Store.install, Store.release, hno]; exact ⟨rfl, rfl⟩
  refine ⟨?_, ⟨hr.1, by omega⟩, ?_, ?_, ?_, s.next, ?_, ?_⟩
  · rw [← hs']; exact h.ex
  · rw [hdir]; exact List.mem_cons_of_mem _ ((hkeys first).mpr ⟨by omega, hr.2⟩)
  · rw [hdir]
    intro y hy
    rcases List.mem_cons.mp hy with hy | hy
    · have hy : y = last + 1 := hy
      omega
    · have := (hkeys y).mp hy
      omega
  · rw [← hs']
    show (if last + 1 = last then some x else if last + 1 = last + 1 then none else s.cache (last + 1)) = none
    rw [if_neg (by omega), if_pos rfl]
  · unfold Store.lookup; rw [hdir]; simp
  · rw [← hs']
    simp only [Store.install, Store.release, hno, Option.getD_none]
    have : (s.missed (last + 1)).next = s.next := rfl
    simp only [this, if_true]
    exact he

/-- The effect of a write with faults on the invariant. -/
inductive FaultStep (flt : Faults) (cfg : Cfg) (v : Val) (s : Store) (acc : List Val) (first last : Int) (H : Int → Handle) (V : Int → List Val)
    (d : List Val) : WRes × Store → Prop
  | plain (r : WRes × Store) (w : WriteStep cfg v s acc first last H V d r) (hr : r = dbWrite cfg v s) : FaultStep flt cfg v s acc first last H V d r
  | failed (s' : Store) (hsn : s'.next = s.next) (hsf : (flt.file s.clock).isSome = true ∨ (flt.file (s.clock + 1)).isSome = true) (first' : Int) (d' : List Val)
      (hf : (first' = first ∧ d' = d) ∨ (first' = first + 1 ∧ d' = V first ++ d ∧ last - first ≥ cfg.max ∧ cfg.max > 0))
      (inv : MInv s' acc first' last H V d') : FaultStep flt cfg v s acc first last H V d (.failed .os, s')
  | rotated (s' : Store) (h2 : Handle) (hl : ∀ w ∈ acc, w.stop < v.stop) (hw : (dbWrite cfg v s).1 = .written) (first' : Int) (d' : List Val)
      (hf : (first' = first ∧ d' = d ∧ (flt.unlink = false → ¬ (last - first ≥ cfg.max ∧ cfg.max > 0))) ∨
        (first' = first + 1 ∧ d' = V first ++ d ∧ last - first ≥ cfg.max ∧ cfg.max > 0))
      (inv : MInv s' (v :: acc) first' (last + 1) (upd H (last + 1) h2) (upd V (last + 1) [v]) d') : FaultStep flt cfg v s acc first last H V d (.written, s')
  | stuck (s' : Store) (e : FErr) (first' : Int) (hb : Bricked e s' first' (last + 1)) (hp : ∃ c n, flt.file c = some (.partly n)) :
      FaultStep flt cfg v s acc first last H V d (.failed .os, s')

theorem acquire_clock (cfg : Cfg) (s : Store) (idx : Int) : (s.acquire cfg idx true).2.clock = s.clock + 1 := by
  unfold Store.acquire
  have key : ({ s.evict idx with clock := s.clock + 1 } : Store).openAt idx = (({ s.evict idx with clock := s.clock + 1 } : Store).openAt idx |>.1, { s.evict idx with clock := s.clock + 1 }) := by
    generalize ({ s.evict idx with clock := s.clock + 1 } : Store) = m
    unfold Store.openAt
    cases m.lookup idx with
    | none => rfl
    | some ino =>
      dsimp only
      cases openFile (m.disk ino) <;> rfl
  cases s.cache idx with
  | none => simp only [if_true]; rw [key]
  | some x =>
    cases s.hit s.clock with
    | true => rfl
    | false => simp only [if_true]; rw [key]

/-- The part of a write that comes when a new file is needed. -/
theorem MInv.rotateF {s : Store} {acc : List Val} {first last : Int} {H : Int → Handle} {V : Int → List Val} {d : List Val}
    (h : MInv s acc first last H V d) (flt : Faults) (cfg : Cfg) (v : Val) (hg : GeoOk cfg.size cfg.cap) (hfit : needs cfg.size v.data.length ≤ cfg.cap)
    (hl : ∀ w ∈ acc, w.stop < v.stop) (id : Nat) :
    (∃ s' h2, (rotateP cfg last ⟨id, H last⟩ v .done).runF flt s = (.written, s') ∧ MInv s' (v :: acc) first (last + 1) (upd H (last + 1) h2) (upd V (last + 1) [v]) d) ∨
    (∃ s', (rotateP cfg last ⟨id, H last⟩ v .done).runF flt s = (.failed .os, s') ∧ (flt.file s.clock).isSome = true ∧ s'.next = s.next ∧ MInv s' acc first last H V d) ∨
    (∃ s' e, (rotateP cfg last ⟨id, H last⟩ v .done).runF flt s = (.failed .os, s') ∧ (∃ n, flt.file s.clock = some (.partly n)) ∧ Bricked e s' first (last + 1)) := by
  have hr := h.core.rng
  have hnone : s.cache (last + 1) = none := by
    cases hx : s.cache (last + 1) with
    | none => rfl
    | some x => have := (h.core.cache _ _ hx).1; omega
  obtain ⟨hr1, hr2⟩ := rotateP_runF flt cfg last ⟨id, H last⟩ v s
  obtain ⟨s', h2, e, inv⟩ := h.rotated cfg v hg hfit hl
  cases hf : flt.file s.clock with
  | none =>
    left
    rw [hr1 (acquireF_none flt cfg s _ _ hf)]
    exact ⟨s', h2, e, inv⟩
  | some ff =>
    rcases acquireF_false flt cfg s (last + 1) hnone with ha | ha | ⟨n, hn, ha⟩
    · left
      rw [hr1 ha]
      exact ⟨s', h2, e, inv⟩
    · right; left
      refine ⟨_, hr2 _ _ ha, rfl, rfl, ?_⟩
      have c1 : CacheOk (s.missed (last + 1)) first last H := h.core.cache.missed (last + 1)
      exact h.same ((sameDisk_missed _ _).trans (sameDisk_release _ _ _)) (c1.release hr.2 (by omega))
    · right; right
      obtain ⟨e', hb⟩ := h.core.spoiled n
      exact ⟨_, e', hr2 _ _ ha, ⟨n, by rw [← hf]; exact hn⟩, hb _⟩

/-- One write with faults. -/
theorem MInv.writeF {s : Store} {acc : List Val} {first last : Int} {H : Int → Handle} {V : Int → List Val} {d : List Val}
    (h : MInv s acc first last H V d) (flt : Faults) (cfg : Cfg) (v : Val) (hg : GeoOk cfg.size cfg.cap) (hfit : needs cfg.size v.data.length ≤ cfg.cap) :
    FaultStep flt cfg v s acc first last H V d ((writeP cfg first last v .done).runF flt s) := by
  have hr := h.core.rng
  have w := h.write cfg v hg hfit
  have hplain : ∀ r, r = dbWrite cfg v s → FaultStep flt cfg v s acc first last H V d r := fun r hr => .plain r (hr ▸ w) hr
  have hdb : dbWrite cfg v s = finishWrite v (writePrep cfg first last v s) := by
    unfold dbWrite
    rw [h.core.dirInv.newMetric]
    rfl
  obtain ⟨s1, e1, sd1, c1⟩ := h.core.dirInv.acquire cfg last hr.2 (by omega)
  have hclk : s1.clock = s.clock + 1 := by
    have := acquire_clock cfg s last
    rw [e1] at this
    exact this
  have hrep := h.core.rep last hr.2 (by omega)
  have hgeo : 25 ≤ (H last).size ∧ (H last).size ≤ 24 + 65535 := geo_size hrep.geo
  have hhead : (s1.file (H last)).headPointer = .ok ((H last).cap - used (H last).size (V last) - 1) := by
    rw [sd1.file]; exact hrep.view.head
  have hnot : ¬ (((H last).cap : Int) - used (H last).size (V last) - 1 = (H last).cap - 1 ∧ last > first) := by
    rintro ⟨h1, h2⟩
    have : used (H last).size (V last) = 0 := by omega
    rw [used_zero hgeo.1 hgeo.2] at this
    exact h.ne last (by omega) (by omega) this
  have hA : acquireLast cfg first (last - first + 1).toNat last s = (.ok (H last, (H last).cap - used (H last).size (V last) - 1, last), s1) := by
    rw [show (last - first + 1).toNat = (last - first).toNat + 1 by omega]
    simp only [acquireLast, e1, hhead]
    rw [if_neg hnot]
  have hW := writePrep_rotate cfg first last v s
  rw [hA] at hW
  dsimp only at hW
  rw [writeP_found, show (last - first + 1).toNat = (last - first).toNat + 1 by omega]
  unfold acquireLastP
  rw [FsProg.runF]
  rcases acquireF_true flt cfg s last with ha | ha
  case inr =>
    rw [ha]
    refine .failed (s.missed last) rfl ?_ first d (Or.inl ⟨rfl, rfl⟩) (h.same (sameDisk_missed _ _) (h.core.cache.missed last))
    cases hf : flt.file s.clock with
    | none =>
      rw [acquireF_none flt cfg s last true hf, e1] at ha
      cases ha
    | some f => exact Or.inl rfl
  rw [ha, e1]
  dsimp only
  rw [FsProg.runF]
  dsimp only
  rw [hhead]
  dsimp only
  rw [if_neg hnot, writeFound]
  dsimp only
  rw [FsProg.runF]
  dsimp only
  have hearly : writeEarly (s1.file (H last)) (((H last).cap : Int) - used (H last).size (V last) - 1 + 1) v = monoVals (V last) v.stop := by
    rw [sd1.file]
    exact hrep.mono v.stop
  rw [hearly] at hW ⊢
  cases hE : monoVals (V last) v.stop with
  | some r =>
    rw [hE] at hW
    dsimp only at hW ⊢
    apply hplain
    rw [hdb, hW, releaseAllP_runF]
    rfl
  | none =>
    rw [hE] at hW
    dsimp only at hW ⊢
    have hl : ∀ w ∈ acc, w.stop < v.stop := by
      apply h.later v
      intro w ws hV
      rw [hV] at hE
      have hlt : ¬ (w.stop ≥ v.stop) := by
        intro hx
        have : monoVals (w :: ws) v.stop = some .notWritten := if_pos hx
        rw [this] at hE
        cases hE
      rw [Int64.lt_iff_toInt_lt]
      have : ¬ (v.stop ≤ w.stop) := hlt
      rw [Int64.le_iff_toInt_le] at this
      omega
    generalize hn : numRecords v.data.length ((H last).size : Nat) = n at hW ⊢
    match n with
    | none =>
      simp only [numCases] at hW ⊢
      apply hplain
      rw [hdb, hW, releaseAllP_runF]
      rfl
    | some 0 =>
      simp only [numCases] at hW ⊢
      apply hplain
      rw [hdb, hW, releaseAllP_runF]
      rfl
    | some (n + 1) =>
      simp only [numCases] at hW ⊢
      by_cases hroom : ((H last).cap : Int) - used (H last).size (V last) - 1 + 1 - ((n + 1 : Nat) : Int) < 0
      case neg =>
        rw [if_neg hroom] at hW ⊢
        apply hplain
        rw [hdb, hW, storeP_runF flt _ _ _ _ (n + 1)]
        rfl
      rw [if_pos hroom] at hW ⊢
      by_cases hoff : last = 1 ∧ ((H last).cap : Int) - used (H last).size (V last) - 1 + 1 = (H last).cap - 1
      · rw [if_pos hoff] at hW ⊢
        apply hplain
        rw [hdb, hW, releaseAllP_runF]
        rfl
      rw [if_neg hoff]
      have inv1 : MInv s1 acc first last H V d := h.same sd1 c1
      have hwr : (dbWrite cfg v s).1 = .written := by
        rw [hdb, hW, if_neg hoff]
        by_cases hd : last - first ≥ cfg.max ∧ cfg.max > 0
        · rw [if_pos hd]
          obtain ⟨s', h2, e, _⟩ := (inv1.drop (by omega)).rotated cfg v hg hfit hl
          rw [e]
        · rw [if_neg hd]
          obtain ⟨s', h2, e, _⟩ := inv1.rotated cfg v hg hfit hl
          rw [e]
      by_cases hd : last - first ≥ cfg.max ∧ cfg.max > 0
      · rw [if_pos hd, FsProg.runF, FsProg.runF]
        cases hu : flt.unlink with
        | true =>
          simp only [if_true]
          rcases (inv1.evict first).rotateF flt cfg v hg hfit hl s.clock with ⟨s', h2, e, inv⟩ | ⟨s', e, hf, hn, inv⟩ | ⟨s', e', e, hf, hb⟩
          · rw [e]; exact .rotated s' h2 hl hwr first d (Or.inl ⟨rfl, rfl, fun hx => by rw [hu] at hx; cases hx⟩) inv
          · rw [e]; exact .failed s' (by rw [hn]; exact sd1.next) (Or.inr (by rw [← hclk]; exact hf)) first d (Or.inl ⟨rfl, rfl⟩) inv
          · rw [e]; exact .stuck s' e' first hb ⟨_, hf⟩
        | false =>
          simp only [Bool.false_eq_true, if_false]
          rcases (inv1.drop (by omega)).rotateF flt cfg v hg hfit hl s.clock with ⟨s', h2, e, inv⟩ | ⟨s', e, hf, hn, inv⟩ | ⟨s', e', e, hf, hb⟩
          · rw [e]; exact .rotated s' h2 hl hwr (first + 1) (V first ++ d) (Or.inr ⟨rfl, rfl, hd⟩) inv
          · rw [e]; exact .failed s' (by rw [hn]; exact sd1.next) (Or.inr (by rw [← hclk]; exact hf)) (first + 1) (V first ++ d) (Or.inr ⟨rfl, rfl, hd⟩) inv
          · rw [e]; exact .stuck s' e' (first + 1) hb ⟨_, hf⟩
      · rw [if_neg hd]
        rcases inv1.rotateF flt cfg v hg hfit hl s.clock with ⟨s', h2, e, inv⟩ | ⟨s', e, hf, hn, inv⟩ | ⟨s', e', e, hf, hb⟩
        · rw [e]; exact .rotated s' h2 hl hwr first d (Or.inl ⟨rfl, rfl, fun _ => hd⟩) inv
        · rw [e]; exact .failed s' (by rw [hn]; exact sd1.next) (Or.inr (by rw [← hclk]; exact hf)) first d (Or.inl ⟨rfl, rfl⟩) inv
        · rw [e]; exact .stuck s' e' first hb ⟨_, hf⟩

/-- `Read` with faults: all that a query without faults would show, or a part from the newest on and an error. -/
theorem DirInv.readF {s : Store} {first last : Int} {H : Int → Handle} {F : Int → List Val × Int64} (h : DirInv s first last H F) (flt : Faults)
    {σ : Type} (cfg : Cfg) (bound : Int64) (cb : σ → Val → σ × Cb) (k : Nat) (num : Int) (hk : num = first + k - 1) (hl : num ≤ last) (st : σ) :
    ∃ s' r, (readP cfg bound cb .done k num st).runF flt s = (r, s') ∧ SameDisk s s' ∧ CacheOk s' first last H ∧
      (r = ((visit cb (visible bound (filesDown F k num)) st).1, (visit cb (visible bound (filesDown F k num)) st).2.error) ∨
       ∃ L, L <+: visible bound (filesDown F k num) ∧ (visit cb L st).2 = .more ∧ r = ((visit cb L st).1, some .os) ∧ ∃ c, (flt.file c).isSome = true) := by
  induction k generalizing s num st with
  | zero => exact ⟨s, _, rfl, SameDisk.refl s, h.cache, Or.inl rfl⟩
  | succ k ih =>
    obtain ⟨s1, e1, sd1, c1⟩ := h.acquire cfg num (by omega) hl
    have hv := (h.view num (by omega) hl).reads bound cb st
    unfold readP
    rw [FsProg.runF]
    rcases acquireF_true flt cfg s num with ha | ha
    case inr =>
      rw [ha]
      refine ⟨_, _, rfl, sameDisk_missed _ _, h.cache.missed num, Or.inr ⟨[], List.nil_prefix, rfl, rfl, s.clock, ?_⟩⟩
      cases hf : flt.file s.clock with
      | none => rw [acquireF_none flt cfg s num true hf, e1] at ha; cases ha
      | some f => rfl
    rw [ha, e1]
    dsimp only
    rw [FsProg.runF]
    dsimp only
    rw [sd1.file, hv]
    simp only [filesDown, visible]
    by_cases hse : (F num).2 ≥ bound
    · rw [if_pos hse, if_pos hse]
      exact ⟨_, _, rfl, sd1.trans (sameDisk_release _ _ _), c1.release (by omega) hl, Or.inl rfl⟩
    · rw [if_neg hse, if_neg hse, visit_append]
      rcases hvis : visit cb (before bound (F num).1) st with ⟨st', c⟩
      cases c with
      | more =>
        simp only
        have h2 : DirInv (s1.release num (H num)) first last H F :=
          h.same (sd1.trans (sameDisk_release _ _ _)) (c1.release (by omega) hl)
        obtain ⟨s3, r, e3, sd3, c3, hres⟩ := ih h2 (num - 1) (by omega) (by omega) st'
        refine ⟨s3, r, e3, (sd1.trans (sameDisk_release _ _ _)).trans sd3, c3, ?_⟩
        rcases hres with hres | ⟨L, hL, hmore, hr, hc⟩
        · exact Or.inl hres
        · refine Or.inr ⟨before bound (F num).1 ++ L, (List.prefix_append_right_inj _).mpr hL, ?_, ?_, hc⟩
          · rw [visit_append, hvis]; exact hmore
          · rw [visit_append, hvis]; exact hr
      | stop => exact ⟨_, _, rfl, sd1.trans (sameDisk_release _ _ _), c1.release (by omega) hl, Or.inl rfl⟩
      | fail e => exact ⟨_, _, rfl, sd1.trans (sameDisk_release _ _ _), c1.release (by omega) hl, Or.inl rfl⟩

end Rothko
