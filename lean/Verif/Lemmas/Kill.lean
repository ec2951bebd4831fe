import Verif.Spec.Kill
import Verif.Lemmas.DurableRun
import Verif.Props.Handles
import Verif.Lemmas.Shared
/-! What a call that is cut anywhere leaves of its metric. -/
namespace Rothko

variable {α : Type}

/-- At every place of the run the files satisfy `G`, also where the storing of a value is cut. -/
def FsProg.Always (ids : Nat → Nat) (G : Store → Prop) : FsProg α → Store → Prop
  | .done _, s => G s.reopen
  | .acquire cfg idx ex k, s => G s.reopen ∧ (k ((s.acquire cfg idx ex).1.map (fun h => ⟨ids s.clock, h⟩))).Always ids G (s.acquire cfg idx ex).2
  | .release idx h k, s => G s.reopen ∧ k.Always ids G (s.release idx h.geo)
  | .evict idx k, s => G s.reopen ∧ k.Always ids G (s.evict idx)
  | .remove idx k, s => G s.reopen ∧ k.Always ids G (s.remove idx)
  | .load h k, s => G s.reopen ∧ (k (s.file h.geo)).Always ids G s
  | .store h head v f k, s => G s.reopen ∧ (∀ a b, TornFine s h head v a b → G (s.tornAt h head v a b).reopen) ∧ k.Always ids G (s.setFile h.geo f)

theorem FsProg.Always.now {ids : Nat → Nat} {G : Store → Prop} {p : FsProg α} {s : Store} (h : p.Always ids G s) : G s.reopen := by
  cases p with
  | done a => exact h
  | _ => exact h.1

theorem FsProg.Always.step {G : Store → Prop} {p p' : FsProg α} {s s' : Store × (Nat → Nat)} (h : p.Always s.2 G s.1) (hs : p.one s = some (p', s')) : p'.Always s'.2 G s'.1 := by
  cases p with
  | done a => cases hs
  | acquire cfg idx ex k =>
    have h2 := h.2
    rw [FsProg.one] at hs
    revert h2 hs
    generalize Store.acquire cfg s.1 idx ex = a
    intro hs h2
    obtain ⟨e | x, s1⟩ := a
    · cases hs; exact h2
    · cases hs; exact h2
  | release idx x k => cases hs; exact h.2
  | evict idx k => cases hs; exact h.2
  | remove idx k => cases hs; exact h.2
  | load x k => cases hs; exact h.2
  | store x head v f k => cases hs; exact h.2.2

theorem FsProg.Always.cut {ids : Nat → Nat} {G : Store → Prop} {p : FsProg α} {s : Store} (h : p.Always ids G s) (pt : KillPoint) (hp : p.CutOk pt s) : G (p.cut pt s).reopen := by
  have hn := h.now
  cases pt with
  | between => exact hn
  | chunk a b =>
    cases p with
    | store x head v f k => exact h.2.1 a b hp
    | _ => exact hn
  | metadata =>
    cases p with
    | store x head v f k => cases hp
    | _ => exact hn
  | create z =>
    cases p with
    | acquire cfg idx ex k => cases ex with
      | false => cases hp
      | true => exact hn
    | _ => exact hn

theorem reopen_releaseAll (held : List (Int × Handle)) : ∀ s : Store, (s.releaseAll held).reopen = s.reopen := by
  induction held with
  | nil => intro s; rfl
  | cons x l ih => intro s; exact ih _

theorem releaseAllP_done {ids : Nat → Nat} {G : Store → Prop} (a : α) (held : List (Int × FsHandle)) : ∀ s : Store, G s.reopen → (releaseAllP (.done a) held).Always ids G s := by
  induction held with
  | nil => intro s h; exact h
  | cons x l ih => intro s h; exact ⟨h, ih _ h⟩

theorem newMetricP_always (ids : Nat → Nat) (G : Store → Prop) (cfg : Cfg) (ro : Bool) (k : Except MErr (Int × Int) → FsProg α) (s : Store) (h0 : G (dirNames ro s).2.reopen)
    (h1 : (k (newMetric cfg ro s).1).Always ids G (newMetric cfg ro s).2) : (newMetricP cfg (dirNames ro s).1 k).Always ids G (dirNames ro s).2 := by
  revert h0 h1
  unfold dirNames newMetric
  cases hc : (!s.dirExists && ro) with
  | true => exact fun _ h => h
  | false =>
    simp only [Bool.false_eq_true, if_false]
    unfold newMetricP
    dsimp only
    generalize hr : List.foldl scanStep (0, 0, false) (List.map Prod.fst s.dir) = r
    cases hr2 : r.2.2 with
    | true => simp only [if_true]; exact fun _ h => h
    | false =>
      simp only [Bool.false_eq_true, if_false, FsProg.Always]
      generalize Store.acquire cfg { s with dirExists := true } 1 false = a
      obtain ⟨e | h, s'⟩ := a
      · exact fun h0 h => ⟨h0, h⟩
      · exact fun h0 h => ⟨h0, h.now, h⟩

section
variable {P Q : Int64 → Prop} {s : Store} {first last : Int} {H : Int → Handle} {U : Int → Nat} {V : Int → List Val}

theorem readP_always {σ : Type} (ids : Nat → Nat) (G : Store → Prop) (cfg : Cfg) (bound : Int64) (cb : σ → Val → σ × Cb) (mk : σ × Option MErr → α) (hG : ∀ s, CoreG false P s first last H U V → G s) (fuel : Nat) :
    ∀ (num : Int) (st : σ) (s : Store), CoreG false P s first last H U V → num = first + fuel - 1 → num ≤ last → (readP cfg bound cb (fun r => .done (mk r)) fuel num st).Always ids G s := by
  induction fuel with
  | zero => intro num st s h _ _; exact hG _ h.reopen
  | succ fuel ih =>
    intro num st s h hk hl
    obtain ⟨s1, e1, sd1, c1⟩ := h.acquire cfg num (by omega) hl
    have hg1 : G s1.reopen := hG _ (h.same sd1 c1).reopen
    have hrel : CacheG false (s1.release num (H num)) first last H := c1.release (Or.inl ⟨by omega, hl, rfl⟩)
    have h2 := h.same (sd1.trans (sameDisk_release _ num (H num))) hrel
    unfold readP
    refine ⟨hG _ h.reopen, ?_⟩
    rw [e1]
    refine ⟨hg1, ?_⟩
    dsimp only
    rcases readFile bound cb (s1.file (H num)) st with ⟨st', c⟩
    cases c with
    | more => exact ⟨hg1, ih (num - 1) st' _ h2 (by omega) (by omega)⟩
    | stop => exact ⟨hg1, hg1⟩
    | fail e => exact ⟨hg1, hg1⟩

theorem acquireLastP_always (ids : Nat → Nat) (G : Store → Prop) (cfg : Cfg) (k : Except MErr (FsHandle × Int × Int) → FsProg α) (fuel : Nat) :
    ∀ (last : Int) (s : Store), CoreG false P s first last H U V → fuel = (last - first + 1).toNat →
    (∀ s' last', first ≤ last' → last' ≤ last → (∀ i, last' < i → i ≤ last → V i = []) → CoreG false P s' first last' H U V → G s'.reopen ∧
      ∀ id, (k (.ok (⟨id, H last'⟩, (H last').cap - U last' - 1, last'))).Always ids G s') → (acquireLastP cfg first k fuel last).Always ids G s := by
  induction fuel with
  | zero => intro last s h hf _; have := h.rng; omega
  | succ fuel ih =>
    intro last s h hf hk
    have hr := h.rng
    obtain ⟨s1, e1, sd1, c1⟩ := h.acquire cfg last hr.2 (by omega)
    have hrep := h.rep last hr.2 (by omega)
    have h1 := h.same sd1 c1
    have hk1 := hk s1 last hr.2 (by omega) (fun i a b => by omega) h1
    unfold acquireLastP
    refine ⟨(hk s last hr.2 (by omega) (fun i a b => by omega) h).1, ?_⟩
    rw [e1]
    refine ⟨hk1.1, ?_⟩
    dsimp only
    rw [sd1.file, hrep.head]
    dsimp only
    change (if ((H last).cap : Int) - U last - 1 = (H last).cap - 1 ∧ last > first then _ else _ : FsProg α).Always ids G s1
    by_cases hcond : ((H last).cap : Int) - U last - 1 = (H last).cap - 1 ∧ last > first
    · rw [if_pos hcond]
      have hz : U last = 0 := by omega
      have h2 : CoreG false P ((s1.release last (H last)).remove last) first (last - 1) H U V := by
        refine h1.shrink (by omega) last first (last - 1) (Or.inr ⟨rfl, rfl, rfl⟩) rfl rfl rfl rfl ?_
        intro i y hy
        have hy' : (if i = last then some (H last) else s1.cache i) = some y := hy
        split at hy'
        · rename_i hi; cases hy'; exact Or.inr ⟨rfl, hi, rfl⟩
        · rename_i hi; exact Or.inl ⟨hi, hy'⟩
      refine ⟨hk1.1, hk1.1, ih (last - 1) _ h2 (by omega) ?_⟩
      intro s' last' a b c d
      refine hk s' last' a (by omega) ?_ d
      intro i b1 b2
      by_cases hi : i = last
      · subst hi; exact hrep.zero hz
      · exact c i b1 (by omega)
    · rw [if_neg hcond]
      exact hk1.2 _

theorem setRecord_geo {f f' : File} {n : Int} {r : Rec} (h : f.setRecord n r = .ok f') : f'.size = f.size ∧ f'.cap = f.cap := by
  unfold File.setRecord at h
  split at h
  · cases h
  · split at h
    · cases h
    · split at h
      · cases h
      · cases h; exact ⟨rfl, rfl⟩

theorem storeRecs_geo (rs : List Rec) : ∀ (f : File) (n : Int), (storeRecs f n rs).2.size = f.size ∧ (storeRecs f n rs).2.cap = f.cap := by
  induction rs with
  | nil => intro f n; exact ⟨rfl, rfl⟩
  | cons r rs ih =>
    intro f n
    unfold storeRecs
    split
    · exact ⟨rfl, rfl⟩
    · rename_i f' h
      obtain ⟨a, b⟩ := setRecord_geo h
      obtain ⟨c, d⟩ := ih f' (n + 1)
      exact ⟨c.trans a, d.trans b⟩

theorem crashStore_geo (f : File) (n : Int) (rs : List Rec) (k j : Nat) : (crashStore f n rs k j).size = f.size ∧ (crashStore f n rs k j).cap = f.cap := by
  unfold crashStore
  dsimp only
  split
  · exact storeRecs_geo _ _ _
  · exact storeRecs_geo _ _ _

/-- What a write that is cut leaves. -/
def Left (Q : Int64 → Prop) (cfg : Cfg) (v : Val) (first last : Int) (V : Int → List Val) (s : Store) : Prop :=
  ∃ first' last' H' U' V' new kept, CoreG false Q s first' last' H' U' V' ∧ valuesOf V' first' last' = new ++ kept ∧ Kept cfg V first last kept ∧ (new = [] ∨ new = [v])

variable {cfg : Cfg} {v : Val}

theorem Left.same {first' last' : Int} {V' : Int → List Val} {H' : Int → Handle} {U' : Int → Nat} (h : CoreG false P s first' last' H' U' V') (hq : ∀ e, P e → Q e) (hk : Kept cfg V first last (valuesOf V' first' last')) :
    Left Q cfg v first last V s.reopen := ⟨first', last', H', U', V', [], _, h.reopen.mono hq, rfl, hk, Or.inl rfl⟩

/-- The storing of a value, cut or not. -/
theorem storeP_always (ids : Nat → Nat) (mk : WRes → α) (hq : ∀ e, P e → Q e) (hv : Q v.stop) {first' last' : Int} {V' : Int → List Val} {H' : Int → Handle} {U' : Int → Nat}
    (core : CoreG false P s first' last' H' U' V') (hk : Kept cfg V first last (valuesOf V' first' last')) (id : Nat) (held : List (Int × FsHandle))
    (hfit : U' last' + (chunks (H' last').size v).length ≤ (H' last').cap) :
    (storeP ⟨id, H' last'⟩ ((H' last').cap - U' last' - (chunks (H' last').size v).length) v held (fun r => .done (mk r))).Always ids (Left Q cfg v first last V) s := by
  have hnow : Left Q cfg v first last V s.reopen := Left.same core hq hk
  have hr' := core.rng
  have hrep := core.rep last' hr'.2 (by omega)
  have hgeo : 25 ≤ (H' last').size ∧ (H' last').size ≤ 24 + 65535 := geo_size hrep.geo
  have set : ∀ f' u' vs', f'.size = (H' last').size → f'.cap = (H' last').cap → FileG false Q f' u' vs' → (vs' = v :: V' last' ∨ vs' = V' last') → Left Q cfg v first last V (s.setFile (H' last') f').reopen := by
    intro f' u' vs' hs hc hf hvs
    have core2 := (core.setIn hq f' u' vs' hs hc hf).reopen
    obtain ⟨ev1, ev2⟩ := valuesOf_last V' first' last' hr'.2 vs'
    rcases hvs with hvs | hvs
    · exact ⟨first', last', H', _, _, [v], _, core2, by rw [ev1, hvs, ev2]; rfl, hk, Or.inr rfl⟩
    · exact ⟨first', last', H', _, _, [], _, core2, by rw [ev1, hvs, ev2]; rfl, hk, Or.inl rfl⟩
  refine ⟨hnow, hnow, ?_, ?_⟩
  · intro a b htorn
    unfold Store.tornAt
    unfold TornFine Store.tornAt at htorn
    simp only at htorn ⊢
    rw [chunkList_eq v (H' last').size hgeo.1 hgeo.2] at htorn ⊢
    have hcr := hrep.crash hq v hv hfit a b (fun hc => by cases hc) (fun r r' h1 h2 => by
      change (chunks (H' last').size v)[a]? = some r at h1
      change (crashStore (s.file (H' last')) ((H' last').cap - U' last' - (chunks (H' last').size v).length) (chunks (H' last').size v) a b).record
        ((H' last').cap - U' last' - (chunks (H' last').size v).length + a) = .ok r' at h2
      rcases htorn with hj | htorn
      · subst hj
        right
        rw [crashStore_zero hrep.wf _ _ a (by have := (List.getElem?_eq_some_iff.mp h1).1; show (0 : Int) ≤ (H' last').cap - U' last' - (chunks (H' last').size v).length; omega)
          (by show ((H' last').cap : Int) - U' last' - (chunks (H' last').size v).length + (chunks (H' last').size v).length ≤ (H' last').cap; omega)
          (fun r hr => chunks_storable _ v hgeo.1 hgeo.2 r hr)] at h2
        exact h2
      · refine htorn r r' h1 ?_
        rw [setFile_same _ _ _ ?_ ?_]
        · exact h2
        · exact (crashStore_geo _ _ _ _ _).1
        · exact (crashStore_geo _ _ _ _ _).2)
    obtain ⟨f', u', vs', e, hs, hc, hf, hvs, hu, _⟩ := hcr
    change crashStore (s.file (H' last')) ((H' last').cap - U' last' - (chunks (H' last').size v).length) (chunks (H' last').size v) a b = f' at e
    rw [e]
    exact set f' u' vs' hs hc hf hvs
  · obtain ⟨f', u', vs', e, hs, hc, hf, hvs, hcv, hu⟩ := hrep.write hq v hv hfit
    change writeBody (s.file (H' last')) ((H' last').cap - U' last' - (chunks (H' last').size v).length) v = _ at e
    rw [e]
    exact releaseAllP_done _ _ _ (set f' u' vs' hs hc hf hvs)

/-- The storing of a value in a file that has no name any more. -/
theorem storeP_out (ids : Nat → Nat) (mk : WRes → α) (hq : ∀ e, P e → Q e) {first' last' : Int} {V' : Int → List Val} {H' : Int → Handle} {U' : Int → Nat}
    (core : CoreG false P s first' last' H' U' V') (hk : Kept cfg V first last (valuesOf V' first' last')) (x : FsHandle) (head : Int) (held : List (Int × FsHandle))
    (hx : ∀ j, first' ≤ j → j ≤ last' → x.geo.ino ≠ (H' j).ino) :
    (storeP x head v held (fun r => .done (mk r))).Always ids (Left Q cfg v first last V) s := by
  have set : ∀ f', Left Q cfg v first last V (s.setFile x.geo f').reopen := fun f' => Left.same (core.setOut x.geo f' hx) hq hk
  exact ⟨Left.same core hq hk, Left.same core hq hk, fun a b _ => set _, releaseAllP_done _ _ _ (set _)⟩

theorem rotateP_always (ids : Nat → Nat) (mk : WRes → α) (hg : GeoOk cfg.size cfg.cap) (hq : ∀ e, P e → Q e) (hv : Q v.stop) {first' last' : Int} {H' : Int → Handle} {U' : Int → Nat} {V' : Int → List Val}
    (core : CoreG false P s first' last' H' U' V') (hk : Kept cfg V first last (valuesOf V' first' last')) (h : FsHandle) :
    (rotateP cfg last' h v (fun r => .done (mk r))).Always ids (Left Q cfg v first last V) s := by
  have hr := core.rng
  obtain ⟨h2, s3, e3, hnext⟩ := core.next cfg hg
  rw [rotateP_cases]
  refine ⟨Left.same core hq hk, ?_⟩
  rw [e3]
  simp only [Except.map]
  rcases hnext with ⟨_, core3, hok⟩ | ⟨hs3, hc3, core3⟩
  · have hino : ∀ j, first' ≤ j → j ≤ last' → h2.ino ≠ (H' j).ino := by
      rcases hok with ⟨_, hx, _⟩ | ⟨_, _, _, hx⟩
      · omega
      · exact hx
    have hnow : Left Q cfg v first last V s3.reopen := Left.same core3 hq hk
    apply numCases_all (fun p => FsProg.Always ids (Left Q cfg v first last V) p s3)
    · exact releaseAllP_done _ _ _ hnow
    · exact releaseAllP_done _ _ _ hnow
    · intro nr
      split
      · exact releaseAllP_done _ _ _ hnow
      · exact storeP_out ids mk hq core3 hk _ _ _ hino
  · have hvn : valuesOf (upd V' (last' + 1) []) first' (last' + 1) = valuesOf V' first' last' := by
      rw [valuesOf_new V' first' last' (by omega) []]; rfl
    have hk3 : Kept cfg V first last (valuesOf (upd V' (last' + 1) []) first' (last' + 1)) := by rw [hvn]; exact hk
    have hnow : Left Q cfg v first last V s3.reopen := Left.same core3 hq hk3
    have hgc := geo_size hg
    have hspc := chunks_spec cfg.size v hgc.1 hgc.2
    rw [hs3, hspc.2.1]
    obtain ⟨k2, hk2⟩ : ∃ k2, (chunks cfg.size v).length = k2 + 1 := ⟨(chunks cfg.size v).length - 1, by omega⟩
    rw [hk2]
    simp only [numCases]
    by_cases hbig : (h2.cap : Int) - ((k2 + 1 : Nat) : Int) < 0
    · rw [if_pos hbig]
      exact releaseAllP_done _ _ _ hnow
    · rw [if_neg hbig]
      have := storeP_always (s := s3) (V := V) (first := first) (last := last) (cfg := cfg) (v := v) ids mk hq hv core3 hk3 (ids s.clock) [(last' + 1, ⟨ids s.clock, h2⟩), (last', h)]
        (by rw [upd_same, upd_same, hs3, hk2]; omega)
      rw [upd_same, upd_same, hs3, hk2] at this
      rw [show (h2.cap : Int) - ((k2 + 1 : Nat) : Int) = h2.cap - ((0 : Nat) : Int) - ((k2 + 1 : Nat) : Int) by omega]
      exact this

theorem writeP_always (ids : Nat → Nat) (mk : WRes → α) (hg : GeoOk cfg.size cfg.cap) (hq : ∀ e, P e → Q e) (hv : Q v.stop) (core : CoreG false P s first last H U V) :
    (writeP cfg first last v (fun r => .done (mk r))).Always ids (Left Q cfg v first last V) s := by
  have hr := core.rng
  rw [writeP_found]
  refine acquireLastP_always ids _ cfg _ _ last s core rfl ?_
  intro s1 last1 l1 l2 l4 core1
  have hval : valuesOf V first last = valuesOf V first last1 := valuesOf_trim V first last last1 (by omega) l2 l4
  have hk1 : Kept cfg V first last (valuesOf V first last1) := Or.inl hval.symm
  have hnow : Left Q cfg v first last V s1.reopen := Left.same core1 hq hk1
  refine ⟨hnow, fun id => ?_⟩
  have hrep := core1.rep last1 l1 (by omega)
  have hgeo : 25 ≤ (H last1).size ∧ (H last1).size ≤ 24 + 65535 := geo_size hrep.geo
  have hsp := chunks_spec (H last1).size v hgeo.1 hgeo.2
  have hfits : U last1 ≤ (H last1).cap := hrep.fits
  unfold writeFound
  refine ⟨hnow, ?_⟩
  dsimp only
  generalize writeEarly (s1.file (H last1)) ((H last1).cap - U last1 - 1 + 1) v = early
  cases early with
  | some r => exact releaseAllP_done _ _ _ hnow
  | none =>
    dsimp only
    rw [hsp.2.1]
    obtain ⟨k, hk⟩ : ∃ k, (chunks (H last1).size v).length = k + 1 := ⟨(chunks (H last1).size v).length - 1, by omega⟩
    rw [hk]
    simp only [numCases]
    by_cases hroom : ((H last1).cap : Int) - U last1 - 1 + 1 - ((k + 1 : Nat) : Int) < 0
    · rw [if_pos hroom]
      split
      · exact releaseAllP_done _ _ _ hnow
      · split
        · rename_i hd
          have hlt : first < last1 := by omega
          have core2 := core1.drop hlt
          have hk2 : Kept cfg V first last (valuesOf V (first + 1) last1) := Or.inr ⟨(valuesOf_trim V _ last last1 (by omega) l2 l4).symm, hd.2, by omega⟩
          exact ⟨hnow, hnow, rotateP_always ids mk hg hq hv core2 hk2 _⟩
        · exact rotateP_always ids mk hg hq hv core1 hk1 _
    · rw [if_neg hroom]
      have := storeP_always (s := s1) (V := V) (first := first) (last := last) (cfg := cfg) (v := v) ids mk hq hv core1 hk1 id [(last1, ⟨id, H last1⟩)] (by rw [hk]; omega)
      rw [hk] at this
      rw [show ((H last1).cap : Int) - U last1 - 1 + 1 - ((k + 1 : Nat) : Int) = (H last1).cap - U last1 - ((k + 1 : Nat) : Int) by omega]
      exact this

end

/-! ## Calls -/

/-- The values a call may show in addition, and what it keeps. -/
def KeptBy (o : DbCall) (V : Int → List Val) (first last : Int) (kept : List Val) : Prop :=
  kept = valuesOf V first last ∨ (kept = valuesOf V (first + 1) last ∧ ∃ m, o.limit = some m ∧ 0 < m ∧ m ≤ last - first)

/-- What a call that is cut leaves of a directory with data files. -/
def LeftBy (Q : Int64 → Prop) (o : DbCall) (first last : Int) (V : Int → List Val) (s : Store) : Prop :=
  ∃ first' last' H' U' V' new kept, CoreG false Q s first' last' H' U' V' ∧ valuesOf V' first' last' = new ++ kept ∧ KeptBy o V first last kept ∧ (new = [] ∨ new = o.given)

section
variable {P Q : Int64 → Prop} {s : Store} {first last : Int} {H : Int → Handle} {U : Int → Nat} {V : Int → List Val}

theorem FsProg.Always.mono {ids : Nat → Nat} {G G' : Store → Prop} (hG : ∀ s, G s → G' s) {p : FsProg α} : ∀ {s : Store}, p.Always ids G s → p.Always ids G' s := by
  induction p with
  | done a => intro s h; exact hG _ h
  | acquire cfg idx ex k ih => intro s h; exact ⟨hG _ h.1, ih _ h.2⟩
  | release idx x k ih => intro s h; exact ⟨hG _ h.1, ih h.2⟩
  | evict idx k ih => intro s h; exact ⟨hG _ h.1, ih h.2⟩
  | remove idx k ih => intro s h; exact ⟨hG _ h.1, ih h.2⟩
  | load x k ih => intro s h; exact ⟨hG _ h.1, ih _ h.2⟩
  | store x head v f k ih => intro s h; exact ⟨hG _ h.1, fun a b hx => hG _ (h.2.1 a b hx), ih h.2.2⟩

theorem Left.by {cfg : Cfg} {v : Val} (h : Left Q cfg v first last V s) : LeftBy Q (.write cfg v) first last V s := by
  obtain ⟨f, l, H', U', V', new, kept, a, b, c, d⟩ := h
  refine ⟨f, l, H', U', V', new, kept, a, b, ?_, d⟩
  rcases c with c | ⟨c, c1, c2⟩
  · exact Or.inl c
  · exact Or.inr ⟨c, cfg.max, rfl, by omega, by omega⟩

/-- The options of a call. -/
def DbCall.options : DbCall → Cfg
  | .write cfg _ => cfg
  | .query cfg _ _ => cfg
  | .latest cfg => cfg

theorem DbCall.Usable.geo {o : DbCall} (h : o.Usable) : GeoOk o.options.size o.options.cap := by
  cases o <;> exact h

/-- All places of a call, where `s0` is the metric once it is open. -/
theorem call_open (ids : Nat → Nat) (G : Store → Prop) (o : DbCall) (hu : o.Usable) (hq : ∀ e, P e → Q e) (hv : ∀ v ∈ o.given, Q v.stop) {s0 : Store} (hn : newMetric o.options (dbCalls.ro o) s = (.ok (first, last), s0))
    (core : CoreG false P s0 first last H U V) (hG : ∀ s, LeftBy Q o first last V s → G s) (h0 : G (dirNames (dbCalls.ro o) s).2.reopen) :
    (fsMachine.first o (s, ids)).1.Always ids G (fsMachine.first o (s, ids)).2.1 := by
  have hr := core.rng
  have hnow : ∀ s, CoreG false P s first last H U V → G s := fun s h => hG _ ⟨first, last, H, U, V, [], _, h.mono hq, rfl, Or.inl rfl, Or.inl rfl⟩
  have key : ∀ (k : Except MErr (Int × Int) → FsProg DbRes), (k (.ok (first, last))).Always ids G s0 → (newMetricP o.options (dirNames (dbCalls.ro o) s).1 k).Always ids G (dirNames (dbCalls.ro o) s).2 := by
    intro k hk
    refine newMetricP_always ids _ o.options _ k s h0 ?_
    rw [hn]
    exact hk
  cases o with
  | write cfg v =>
    refine key (fun x => match x with | .error e => .done (DbRes.write (.failed e)) | .ok (first, last) => writeP cfg first last v (fun r => .done (DbRes.write r))) ?_
    exact ((writeP_always ids DbRes.write hu hq (hv v List.mem_cons_self) core).mono (fun s h => hG s h.by))
  | query cfg b cb =>
    refine key (fun x => match x with | .error e => .done (DbRes.query [] (some e)) | .ok (first, last) => readP cfg b (fun seen v => (seen ++ [v], cb seen v)) (fun r => .done (DbRes.query r.1 r.2)) (last - first + 1).toNat last []) ?_
    exact (readP_always ids _ cfg b _ (fun r => DbRes.query r.1 r.2) hnow _ last [] s0 core (by omega) (by omega))
  | latest cfg =>
    refine key (fun x => match x with | .error e => .done (DbRes.latest none (some e)) | .ok (first, last) => readP cfg 0x7fffffffffffffff (fun _ v => (some v, .stop)) (fun r => .done (DbRes.latest r.1 r.2)) (last - first + 1).toNat last none) ?_
    exact (readP_always ids _ cfg _ _ (fun r => DbRes.latest r.1 r.2) hnow _ last none s0 core (by omega) (by omega))

theorem CoreG.dirNames (core : CoreG false P s first last H U V) (ro : Bool) : (Rothko.dirNames ro s).2 = s := by
  unfold Rothko.dirNames
  rw [core.ex]
  show ({ s with dirExists := true } : Store) = s
  rw [← core.ex]

theorem runs_always {ids : Nat → Nat} {G : Store → Prop} {o : DbCall} (h : (fsMachine.first o (s, ids)).1.Always ids G (fsMachine.first o (s, ids)).2.1) {l : FsProg DbRes} {u : Store × (Nat → Nat)}
    (hr : fsMachine.Runs o (s, ids) l u) : u.2 = ids ∧ l.Always ids G u.1 := by
  induction hr with
  | first => exact ⟨rfl, h⟩
  | @step l l' t t' _ hs ih =>
    have e : t'.2 = t.2 := (one_run hs).1
    refine ⟨e.trans ih.1, ?_⟩
    have := FsProg.Always.step (G := G) (by rw [ih.1]; exact ih.2) hs
    rw [e, ih.1] at this
    exact this

end

/-! ## What is shown -/

/-- The metric shows these values; all ends stored are among those of `given`. It has data files, or `e` holds. -/
def DurV (e : Prop) (s : Store) (given vs : List Val) : Prop :=
  (e ∧ s.dir = [] ∧ (∀ i, s.cache i = none) ∧ vs = []) ∨ ∃ first last H U V, CoreG false (Ends given) s first last H U V ∧ valuesOf V first last = vs ∧ ∀ w ∈ vs, w ∈ given

theorem Ends.mono {a b : List Val} (h : ∀ w ∈ a, w ∈ b) : ∀ e, Ends a e → Ends b e := fun _ ⟨w, hw, he⟩ => ⟨w, h w hw, he⟩

theorem DurV.mono {e : Prop} {s : Store} {a b vs : List Val} (h : DurV e s a vs) (hab : ∀ w ∈ a, w ∈ b) : DurV e s b vs := by
  rcases h with h | ⟨f, l, H, U, V, h1, h2, h3⟩
  · exact Or.inl h
  · exact Or.inr ⟨f, l, H, U, V, h1.mono (Ends.mono hab), h2, fun w hw => hab w (h3 w hw)⟩

theorem DurV.mem {e : Prop} {s : Store} {given vs : List Val} (h : DurV e s given vs) : ∀ w ∈ vs, w ∈ given := by
  rcases h with ⟨_, _, _, rfl⟩ | ⟨f, l, H, U, V, h1, h2, h3⟩
  · intro w hw; cases hw
  · exact h3

/-- Another process on the same files. -/
theorem DurV.files {e : Prop} {s t : Store} {given vs : List Val} (h : DurV e s given vs) (hs : SameFs t s) (hc : ∀ i, t.cache i = none) : DurV e t given vs := by
  rcases h with ⟨he, h1, h2, h3⟩ | ⟨f, l, H, U, V, h1, h2, h3⟩
  · exact Or.inl ⟨he, by rw [hs.dir]; exact h1, hc, h3⟩
  · refine Or.inr ⟨f, l, H, U, V, ⟨by rw [hs.dirExists]; exact h1.ex, h1.rng, fun i => ?_, fun i a b => ?_, fun i x hx => (by rw [hc] at hx; cases hx), by rw [hs.dir]; exact h1.count, by rw [hs.dir]; exact h1.nodup, h1.inj,
      fun i a b => by rw [hs.next]; exact h1.fresh i a b⟩, h2, h3⟩
    · have := h1.lookup i
      unfold Store.lookup at this ⊢
      rw [hs.dir]; exact this
    · have := h1.rep i a b
      unfold Store.file at this ⊢
      rw [hs.disk]; exact this

theorem DurV.shows {e : Prop} {s : Store} {given vs : List Val} (h : DurV e s given vs) (hd : ¬ e) : ShowsFiles s given vs := by
  intro hit
  have h : DurV e { s.reopen with hit } given vs := h.files ⟨rfl, rfl, rfl, rfl⟩ (fun _ => rfl)
  rcases h with ⟨he, _⟩ | ⟨f, l, H, U, V, h1, h2, h3⟩
  · exact absurd he hd
  · intro cfg bound h0 hb
    rw [← h2]
    exact h1.query cfg bound h0 (fun e ⟨w, hw, he⟩ => he ▸ hb w hw)

/-- What the values shown become: `vs' = new ++ kept`. -/
structure Kept1 (o : DbCall) (vs new kept : List Val) : Prop where
  pre : kept <+: vs
  all : (∀ m, o.limit = some m → m ≤ 0) → kept = vs
  new : new = [] ∨ new = o.given

theorem KeptBy.pre {o : DbCall} {V : Int → List Val} {first last : Int} (hr : first ≤ last) {new kept : List Val} (h : KeptBy o V first last kept) (hn : new = [] ∨ new = o.given) :
    Kept1 o (valuesOf V first last) new kept := by
  rcases h with rfl | ⟨rfl, m, h1, h2, _⟩
  · exact ⟨List.prefix_refl _, fun _ => rfl, hn⟩
  · refine ⟨?_, fun hx => by have := hx m h1; omega, hn⟩
    rw [valuesOf_drop V first last hr]
    exact List.prefix_append _ _

/-- A call cut anywhere. -/
theorem DurV.runs {e : Prop} {t : Store} {given vs : List Val} (h : DurV e t given vs) (o : DbCall) (hu : o.Usable) {ids : Nat → Nat} {l : FsProg DbRes} {u : Store × (Nat → Nat)} (hr : fsMachine.Runs o (t, ids) l u) :
    l.Always ids (fun s => ∃ new kept, Kept1 o vs new kept ∧ DurV e s (o.given ++ given) (new ++ kept)) u.1 := by
  have hq : ∀ e, Ends given e → Ends (o.given ++ given) e := Ends.mono (fun w hw => List.mem_append_right _ hw)
  have hv : ∀ v ∈ o.given, Ends (o.given ++ given) v.stop := fun v hv => ⟨v, List.mem_append_left _ hv, rfl⟩
  have hgive : ∀ (first last : Int) (V : Int → List Val), first ≤ last → valuesOf V first last = vs → (∀ w ∈ vs, w ∈ given) → ∀ s, LeftBy (Ends (o.given ++ given)) o first last V s →
      ∃ new kept, Kept1 o vs new kept ∧ DurV e s (o.given ++ given) (new ++ kept) := by
    intro first last V hle hvs hmem s ⟨f', l', H', U', V', new, kept, core, e, hk, hn⟩
    have hk1 := hk.pre hle hn
    rw [hvs] at hk1
    refine ⟨new, kept, hk1, Or.inr ⟨f', l', H', U', V', core, e, ?_⟩⟩
    intro w hw
    rcases List.mem_append.mp hw with hw | hw
    · rcases hn with rfl | rfl
      · cases hw
      · exact List.mem_append_left _ hw
    · exact List.mem_append_right _ (hmem w (hk1.pre.subset hw))
  rcases h with ⟨he, hd, hc, rfl⟩ | ⟨first, last, H, U, V, core, hvs, hmem⟩
  · have hempty : ∀ s : Store, s.dir = [] → (∀ i, s.cache i = none) → ∃ new kept, Kept1 o [] new kept ∧ DurV e s (o.given ++ given) (new ++ kept) :=
      fun s h1 h2 => ⟨[], [], ⟨List.prefix_refl _, fun _ => rfl, Or.inl rfl⟩, Or.inl ⟨he, h1, h2, rfl⟩⟩
    by_cases hde : dbCalls.ro o = false ∨ t.dirExists = true
    · obtain ⟨s0, H, e, core⟩ := fresh_newMetricG false (Ends given) t hd hc o.options hu.geo (dbCalls.ro o) hde
      refine (runs_always (call_open ids _ o hu hq hv e core (hgive 1 1 _ (by omega) rfl (fun w hw => by cases hw)) (hempty _ ?_ (fun _ => rfl))) hr).2
      unfold Rothko.dirNames
      split <;> exact hd
    · -- nothing there and nothing made
      have hro : dbCalls.ro o = true := by
        cases hx : dbCalls.ro o with
        | true => rfl
        | false => exact absurd (Or.inl hx) hde
      have hex : t.dirExists = false := by
        cases hx : t.dirExists with
        | false => rfl
        | true => exact absurd (Or.inr hx) hde
      refine (runs_always ?_ hr).2
      have hdn : Rothko.dirNames true t = (none, t) := by
        unfold Rothko.dirNames
        rw [hex]; rfl
      have hnow := hempty t.reopen hd (fun _ => rfl)
      cases o with
      | write cfg v => cases hro
      | query cfg b cb =>
        show ((dbCalls.body (.query cfg b cb) (Rothko.dirNames true t).1)).Always ids _ (Rothko.dirNames true t).2
        rw [hdn]; exact hnow
      | latest cfg =>
        show ((dbCalls.body (.latest cfg) (Rothko.dirNames true t).1)).Always ids _ (Rothko.dirNames true t).2
        rw [hdn]; exact hnow
  · have hr1 := core.rng
    refine (runs_always (call_open ids _ o hu hq hv (core.newMetric _ _) core (hgive first last V hr1.2 hvs hmem) ?_) hr).2
    rw [core.dirNames]
    exact hgive first last V hr1.2 hvs hmem _ ⟨first, last, H, U, V, [], _, core.reopen.mono hq, rfl, Or.inl rfl, Or.inl rfl⟩

end Rothko
