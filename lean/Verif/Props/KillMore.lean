import Verif.Props.Kill
import Verif.Props.Process
/-!
# C106: what the next process finds
-/
namespace Rothko

theorem smallestEnd_ends (vs : List Val) : smallestEnd vs = 0 ∨ Ends vs (smallestEnd vs) := by
  induction vs with
  | nil => exact Or.inl rfl
  | cons v vs ih =>
    unfold smallestEnd
    split
    · exact Or.inr ⟨v, List.mem_cons_self, rfl⟩
    · rcases ih with h | ⟨w, hw, e⟩
      · exact Or.inl h
      · exact Or.inr ⟨w, List.mem_cons_of_mem _ hw, e⟩

theorem FileRep.toG {f : File} {vs : List Val} (h : FileRep f vs) : FileG false (Ends vs) f (used f.size vs) vs := by
  have hg := h.geo
  have hfits := h.fits
  obtain ⟨m, m1, m2, m3, m4⟩ := h.md
  have hmem : ∀ (n : Int) (r : Rec), 0 ≤ n → n < f.cap → (f.cap : Int) - used f.size vs ≤ n → f.record n = .ok r → Ends vs r.stop := by
    intro n r h0 h1 h2 hr
    have hlen : (f.recordsFrom (f.cap - used f.size vs)).length = used f.size vs := by
      simp only [File.recordsFrom, List.length_map, List.length_range]
      omega
    obtain ⟨i, hi⟩ : ∃ i : Nat, n = (f.cap : Int) - used f.size vs + i := ⟨(n - (f.cap - used f.size vs)).toNat, by omega⟩
    have hil : i < (f.recordsFrom (f.cap - used f.size vs)).length := by omega
    have e := recordsFrom_get f (f.cap - used f.size vs) i hil
    rw [← hi, hr] at e
    have hin : (.ok r : Except FErr Rec) ∈ f.recordsFrom (f.cap - used f.size vs) := e ▸ List.getElem_mem hil
    rw [h.recs] at hin
    obtain ⟨r', hr', e'⟩ := List.mem_map.mp hin
    cases e'
    obtain ⟨v, hv, hrv⟩ := List.mem_flatMap.mp hr'
    exact ⟨v, hv, (((chunks_spec f.size v (by have := hg.1; omega) (by have := hg.2.1; omega)).2.2.2.2).fits r hrv).2.2.2.1.symm⟩
  have hno : ∀ n : Int, 0 ≤ n → n < (f.cap : Int) - used f.size vs → f.hasRecord n = false := by
    intro n a b
    rw [Bool.eq_false_iff]
    intro hx
    have := (h.has n a (by omega)).mp hx
    omega
  refine ⟨hg, h.len, hfits, fun n a b => (h.has n (by omega) b).mpr a, fun hx => hno _ (by omega) (by omega), ?_, ?_, ⟨m, m1, m2, by rw [m3]; constructor <;> omega, ?_⟩, ?_, ?_⟩
  · intro n a b
    obtain ⟨e, he⟩ := record_of_not_has h.wf n a (by omega) (hno n a b)
    rw [he]; trivial
  · intro n r hr
    by_cases hb : 0 ≤ n ∧ n < f.cap
    · by_cases h2 : (f.cap : Int) - used f.size vs ≤ n
      · exact hmem n r hb.1 hb.2 h2 hr
      · obtain ⟨e, he⟩ := record_of_not_has h.wf n hb.1 hb.2 (hno n hb.1 (by omega))
        rw [he] at hr; cases hr
    · unfold File.record at hr
      rw [if_pos (File.oob_true (by omega))] at hr
      cases hr
  · rw [m4]; exact smallestEnd_ends vs
  · intro σ bound cb st hb
    rw [h.recs]
    show readSlots bound cb none ((vs.flatMap (chunks f.size)).map .ok) st = _
    rw [readSlots_values bound cb f.size (by have := hg.1; omega) (by have := hg.2.1; omega) vs st]
    have : before bound vs = vs := by
      unfold before
      rw [List.filter_eq_self]
      intro v hv
      exact decide_eq_true (hb _ ⟨v, hv, rfl⟩)
    rw [this]
  · intro hz
    exact (used_zero (by have := hg.1; omega) (by have := hg.2.1; omega)).mp hz

/-- Histories without crashes, seen as histories with crashes. -/
theorem MInv.coreG {s : Store} {acc : List Val} {first last : Int} {H : Int → Handle} {V : Int → List Val} {d : List Val} (h : MInv s acc first last H V d) :
    CoreG false (Ends acc) s first last H (fun i => used (s.file (H i)).size (V i)) V ∧ ∀ w ∈ valuesOf V first last, w ∈ acc := by
  have hc := h.core
  have hsub : ∀ w ∈ valuesOf V first last, w ∈ acc := fun w hw => by rw [h.eq]; exact List.mem_append_left _ hw
  refine ⟨⟨hc.ex, hc.rng, hc.lookup, ?_, ?_, hc.count, hc.nodup, hc.inj, hc.fresh⟩, hsub⟩
  · intro i a b
    refine (hc.rep i a b).toG.mono ?_
    intro x ⟨w, hw, e⟩
    exact ⟨w, hsub w (mem_valuesOf a b hw), e⟩
  · intro i x hx
    obtain ⟨⟨a, b⟩, e⟩ := hc.cache i x hx
    exact Or.inl ⟨a, b, e⟩

theorem MInv.durV {e : Prop} {s : Store} {acc : List Val} {first last : Int} {H : Int → Handle} {V : Int → List Val} {d : List Val} (h : MInv s acc first last H V d) : DurV e s acc (valuesOf V first last) :=
  Or.inr ⟨first, last, H, _, V, h.coreG.1, rfl, h.coreG.2⟩

/-- The newest file of a history without crashes is not empty. -/
theorem MInv.some {s : Store} {acc : List Val} {first last : Int} {H : Int → Handle} {V : Int → List Val} {d : List Val} (h : MInv s acc first last H V d) (hne : acc ≠ []) {i : Int} (hi : i ≤ last) : valuesOf V i last ≠ [] := by
  rw [(valuesOf_last V i last hi []).2]
  intro hx
  exact hne (h.empty (List.append_eq_nil_iff.mp hx).1)

/-- A call cut anywhere, on the files of a history without crashes. -/
theorem MInv.runs {e : Prop} {t : Store} {acc : List Val} {first last : Int} {H : Int → Handle} {V : Int → List Val} {d : List Val} (h : MInv t acc first last H V d) (o : DbCall) (hu : o.Usable) {ids : Nat → Nat} {l : FsProg DbRes}
    {u : Store × (Nat → Nat)} (hr : fsMachine.Runs o (t, ids) l u) :
    l.Always ids (fun s => ∃ new kept, Kept1 o (valuesOf V first last) new kept ∧ (acc ≠ [] → kept ≠ []) ∧ DurV e s (o.given ++ acc) (new ++ kept)) u.1 := by
  obtain ⟨core, hmem⟩ := h.coreG
  have hq : ∀ e, Ends acc e → Ends (o.given ++ acc) e := Ends.mono (fun w hw => List.mem_append_right _ hw)
  have hv : ∀ v ∈ o.given, Ends (o.given ++ acc) v.stop := fun v hv => ⟨v, List.mem_append_left _ hv, rfl⟩
  have hr1 := core.rng
  have hgive : ∀ s, LeftBy (Ends (o.given ++ acc)) o first last V s → ∃ new kept, Kept1 o (valuesOf V first last) new kept ∧ (acc ≠ [] → kept ≠ []) ∧ DurV e s (o.given ++ acc) (new ++ kept) := by
    intro s ⟨f', l', H', U', V', new, kept, core, e, hk, hn⟩
    have hk1 := hk.pre hr1.2 hn
    refine ⟨new, kept, hk1, fun hne => ?_, Or.inr ⟨f', l', H', U', V', core, e, ?_⟩⟩
    · rcases hk with rfl | ⟨rfl, m, _, h2, h3⟩
      · exact h.some hne hr1.2
      · exact h.some hne (by omega)
    intro w hw
    rcases List.mem_append.mp hw with hw | hw
    · rcases hn with rfl | rfl
      · cases hw
      · exact List.mem_append_left _ hw
    · exact List.mem_append_right _ (hmem w (hk1.pre.subset hw))
  refine (runs_always (call_open ids _ o hu hq hv (core.newMetric _ _) core hgive ?_) hr).2
  rw [core.dirNames]
  exact hgive _ ⟨first, last, H, _, V, [], _, core.reopen.mono hq, rfl, Or.inl rfl, Or.inl rfl⟩

/-- The files are those left by a history without crashes in which no write had a file limit; these are its acknowledged values, newest first. -/
def AfterUnlimited (s : Store) (acc : List Val) : Prop :=
  ∃ t, SameFs s t ∧ ∃ (de : Bool) (hit : Nat → Bool) (ops : List Op), (∀ o ∈ ops, o.Ok ∧ ∀ l, o.limit = some l → l ≤ 0) ∧ runOps ops (Store.fresh de hit, []) = (t, acc)

theorem AfterUnlimited.after {s : Store} {acc : List Val} (h : AfterUnlimited s acc) : AfterHistory s acc := by
  obtain ⟨t, h1, de, hit, ops, h2, h3⟩ := h
  exact ⟨t, h1, de, hit, ops, fun o ho => (h2 o ho).1, h3⟩

/-- All file numbers start with 1, or nothing is known (`u` false). -/
def FirstOne (u : Prop) (first _last : Int) : Prop := u → first = 1

theorem StInv.mkdir {P : Int → Int → Prop} {s : Store} {acc : List Val} (h : StInv P s acc) : StInv P (mkdirEnv s) acc := by
  rcases h with ⟨hd, hc, ha⟩ | ⟨first, last, H, V, d, inv, hP⟩
  · exact Or.inl ⟨hd, hc, ha⟩
  · have : mkdirEnv s = s := by
      unfold mkdirEnv
      rw [← inv.core.ex]
    rw [this]
    exact Or.inr ⟨first, last, H, V, d, inv, hP⟩

theorem StInv.oracle {P : Int → Int → Prop} {s t : Store} {acc : List Val} (h : StInv P s acc) (hs : SameFs t s) (hc : ∀ i, t.cache i = none) : StInv P t acc := by
  rcases h with ⟨hd, _, ha⟩ | ⟨first, last, H, V, d, inv, hP⟩
  · exact Or.inl ⟨by rw [hs.dir]; exact hd, hc, ha⟩
  · have h1 := inv.core
    refine Or.inr ⟨first, last, H, V, d, ⟨⟨by rw [hs.dirExists]; exact h1.ex, h1.rng, fun i => ?_, fun i a b => ?_, fun i x hx => (by rw [hc] at hx; cases hx), by rw [hs.dir]; exact h1.count, by rw [hs.dir]; exact h1.nodup, h1.inj,
      fun i a b => by rw [hs.next]; exact h1.fresh i a b⟩, inv.ne, inv.eq, inv.one, inv.empty, inv.sorted⟩, hP⟩
    · have := h1.lookup i
      unfold Store.lookup at this ⊢
      rw [hs.dir]; exact this
    · have := h1.rep i a b
      unfold Store.file at this ⊢
      rw [hs.disk]; exact this

theorem keeps_firstOne {u : Prop} (o : Op) (h : u → ∀ l, o.limit = some l → l ≤ 0) : Keeps (FirstOne u) o := by
  cases o with
  | write cfg v =>
    intro first last _ _ hP
    refine ⟨fun hx hu => ?_, fun _ => hP⟩
    have := h hu cfg.max rfl
    omega
  | query => trivial
  | latest => trivial
  | restart => trivial

theorem serial_stInv {u : Prop} {s0 t : Store} {acc : List Val} (h0 : StInv (FirstOne u) s0 acc) {evs : List (Option (Nat × DbCall × DbRes))} (h : Serial DbCall.run mkdirEnv s0 evs t) (hok : ∀ e ∈ evs.filterMap id, e.2.1.Ok)
    (hu : u → ∀ e ∈ evs.filterMap id, ∀ l, e.2.1.limit = some l → l ≤ 0) : StInv (FirstOne u) t ((ackd (evs.filterMap id)).reverse ++ acc) := by
  induction h with
  | nil => exact h0
  | op i o r h1 hf ih =>
    rw [List.filterMap_append] at hok hu ⊢
    have h2 := ih (fun e he => hok e (List.mem_append_left _ he)) (fun hx e he => hu hx e (List.mem_append_left _ he))
    have ho := hok (i, o, r) (by simp)
    have h3 := h2.step (fun _ => rfl) o.toOp (by cases o <;> exact ho) (keeps_firstOne _ (fun hx l hl => hu hx (i, o, r) (by simp) l (by cases o <;> exact hl)))
    rw [run_toOp o _ _ i, hf] at h3
    rw [ackd_append, List.reverse_append, List.append_assoc]
    have e2 : (ackd ([some (i, o, r)].filterMap id)).reverse = ackd [(i, o, r)] := by
      show (ackd [(i, o, r)]).reverse = _
      cases o with
      | write cfg v => cases r with
        | write w => cases w <;> rfl
        | query => rfl
        | latest => rfl
      | query => rfl
      | latest => rfl
    rw [e2]
    exact h3
  | env h1 ih =>
    rw [List.filterMap_append] at hok hu ⊢
    have e2 : ([none] : List (Option (Nat × DbCall × DbRes))).filterMap id = [] := rfl
    rw [e2, List.append_nil] at hok hu ⊢
    exact (ih hok hu).mkdir

section
variable {n : Nat} {d : Bytes} {progs : List (List (Bytes × DbCall))} {fs : Bytes → Store} {s : FsSys DbCall DbRes}

theorem DbCall.Ok.usable {o : DbCall} (h : o.Ok) : o.Usable := by
  cases o with
  | write => exact h.1
  | query => exact h
  | latest => exact h

theorem ack_killed (u : Prop) (hn : n < 2 ^ 63) (h : FsSys.Reach dbCalls (dbPath d) n progs fs s) (hok : ∀ p ∈ progs, ∀ c ∈ p, c.2.Ok) (hu : u → ∀ p ∈ progs, ∀ c ∈ p, ∀ l, c.2.limit = some l → l ≤ 0) (pt : Bytes → KillPoint)
    (hc : s.CutsOk pt) (m : Bytes) {acc : List Val} (h0 : StInv (FirstOne u) (fs m).reopen acc) :
    ∃ new kept, (new = [] ∨ new = s.inFlight m) ∧ kept <+: (ackd (s.finished m)).reverse ++ acc ∧ ((ackd (s.finished m)).reverse ++ acc ≠ [] → kept ≠ []) ∧ (u → kept = (ackd (s.finished m)).reverse ++ acc) ∧
      DurV ((ackd (s.finished m)).reverse ++ acc = []) (s.killed pt m).reopen (s.inFlight m ++ ((ackd (s.finished m)).reverse ++ acc)) (new ++ kept) := by
  obtain ⟨hit, ids, evs, t, _, h1, h2, h3, h4⟩ := present_split hn h m (fs m) ⟨rfl, rfl, rfl, rfl⟩
  have hfl : ∀ o, (m, o) ∈ progs.flatten → ∃ p ∈ progs, (m, o) ∈ p := fun o ho => by
    obtain ⟨p, hp, hm⟩ := List.mem_flatten.mp ho
    exact ⟨p, hp, hm⟩
  have h5 := serial_stInv (u := u) (h0.oracle (t := { (fs m).reopen with hit }) ⟨rfl, rfl, rfl, rfl⟩ (fun _ => rfl)) h1 (fun e he => by
    rw [h2] at he
    obtain ⟨p, hp, hm⟩ := hfl _ (h3 e he)
    exact hok p hp _ hm) (fun hx e he => by
    rw [h2] at he
    obtain ⟨p, hp, hm⟩ := hfl _ (h3 e he)
    exact hu hx p hp _ hm)
  rw [h2] at h5
  generalize (ackd (s.finished m)).reverse ++ acc = acc' at h5 ⊢
  -- what the files show when the call at work begins, and when it is cut
  have h6 : ∃ vs, vs <+: acc' ∧ (acc' ≠ [] → vs ≠ []) ∧ (u → vs = acc') ∧ DurV (acc' = []) t acc' vs ∧
      ∀ (o : DbCall) (l : FsProg DbRes) (w : Store × (Nat → Nat)), o.Usable → fsMachine.Runs o (t, ids) l w →
        l.Always ids (fun s => ∃ new kept, Kept1 o vs new kept ∧ (acc' ≠ [] → kept ≠ []) ∧ DurV (acc' = []) s (o.given ++ acc') (new ++ kept)) w.1 := by
    rcases h5 with ⟨a, b, c⟩ | ⟨first, last, H, V, d', inv, hP⟩
    · have hd : DurV (acc' = []) t acc' [] := Or.inl ⟨c, a, b, rfl⟩
      refine ⟨[], List.nil_prefix, fun hx => absurd c hx, fun _ => c.symm, hd, fun o l w ho hr => (hd.runs o ho hr).mono (fun s ⟨n1, k1, x, y⟩ => ⟨n1, k1, x, fun hx => absurd c hx, y⟩)⟩
    · refine ⟨valuesOf V first last, ?_, fun hx => inv.some hx inv.core.rng.2, fun hx => ?_, inv.durV, fun o l w ho hr => inv.runs o ho hr⟩
      · rw [inv.eq]; exact List.prefix_append _ _
      · rw [inv.eq, inv.one (hP hx), List.append_nil]
  obtain ⟨vs, v1, v1s, v2, hd, hcall⟩ := h6
  rcases h4 with ⟨hw, hsame⟩ | ⟨o, p, u', k, hw, ho, hr, hsame⟩
  · have e1 : s.inFlight m = [] := by unfold FsSys.inFlight; rw [hw]
    have e2 : s.killed pt m = s.g.fs m := by unfold FsSys.killed; rw [hw]
    rw [e1, e2]
    exact ⟨[], vs, Or.inl rfl, v1, v1s, v2, hd.files ⟨hsame.dirExists, hsame.dir, hsame.disk, hsame.next⟩ (fun _ => rfl)⟩
  · have e1 : s.inFlight m = o.given := by unfold FsSys.inFlight; rw [hw]
    have e2 : s.killed pt m = p.cut (pt m) (s.g.fs m) := by unfold FsSys.killed; rw [hw]
    rw [e1, e2]
    obtain ⟨q, hq, hm⟩ := hfl _ ho
    have hcut := hc m o p hw
    have hdisk : ∀ (k : Nat) (u : Store × (Nat → Nat)), (iterN mkdirFs k u).1.disk = u.1.disk := by
      intro k; induction k with
      | zero => intro u; rfl
      | succ k ih => intro u; exact ih u
    have hcu : p.CutOk (pt m) u'.1 := cutOk_same (hsame.disk.trans (hdisk k u')) hcut
    obtain ⟨n1, k1, hk1, hks, hd1⟩ := (hcall o _ _ (hok q hq _ hm).usable hr).cut (pt m) hcu
    refine ⟨n1, k1, hk1.new, hk1.pre.trans v1, hks, fun hx => ?_, ?_⟩
    · rw [hk1.all (fun l hl => hu hx q hq _ hm l hl), v2 hx]
    · have hd2 : DurV (acc' = []) (iterN mkdirFs k ((p.cut (pt m) u'.1).reopen, u'.2)).1 (o.given ++ acc') (n1 ++ k1) := DurV.iter k hd1
      have s1 := cut_same hsame hcut
      have s2 := cut_iter k u' hcu
      have s3 : SameFs (iterN mkdirFs k (p.cut (pt m) u'.1, u'.2)).1 (iterN mkdirFs k ((p.cut (pt m) u'.1).reopen, u'.2)).1 := by
        clear hd2 s2 hsame s1
        induction k with
        | zero => exact ⟨rfl, rfl, rfl, rfl⟩
        | succ k ih => exact ⟨rfl, ih.dir, ih.disk, ih.next⟩
      exact hd2.files ⟨s1.dirExists.trans (s2.dirExists.trans s3.dirExists), s1.dir.trans (s2.dir.trans s3.dir), s1.disk.trans (s2.disk.trans s3.disk), s1.next.trans (s2.next.trans s3.next)⟩ (fun _ => rfl)

/-- **C106, the first crash.** A process with any number of goroutines works on the files of a history without crashes and is killed at any moment, each call at any place (but not where C24 and C61 say that the metric is lost). Then what
the next process shows of a metric is all that was acknowledged, newest first, and before it, possibly, the value of the one write that was at work on it, whole. Oldest values may be missing, but never all, and this only if
some write ever had a file limit. -/
theorem C106_acknowledged_partial (hn : n < 2 ^ 63) (h : FsSys.Reach dbCalls (dbPath d) n progs fs s) (hok : ∀ p ∈ progs, ∀ c ∈ p, c.2.Ok) (pt : Bytes → KillPoint) (hc : s.CutsOk pt) (m : Bytes) (acc : List Val)
    (h0 : AfterHistory (fs m) acc) (hne : (ackd (s.finished m)).reverse ++ acc ≠ []) :
    ∃ new kept, ShowsFiles (s.killed pt m) (s.inFlight m ++ ((ackd (s.finished m)).reverse ++ acc)) (new ++ kept) ∧ (new = [] ∨ new = s.inFlight m) ∧ kept <+: (ackd (s.finished m)).reverse ++ acc ∧ kept ≠ [] ∧
      (AfterUnlimited (fs m) acc → (∀ p ∈ progs, ∀ c ∈ p, ∀ l, c.2.limit = some l → l ≤ 0) → kept = (ackd (s.finished m)).reverse ++ acc) := by
  have conv : ∀ {u : Prop} {x : Store}, SameFs (fs m) x → StInv (FirstOne u) x acc → StInv (FirstOne u) (fs m).reopen acc := fun hs hi => hi.oracle ⟨hs.dirExists, hs.dir, hs.disk, hs.next⟩ (fun _ => rfl)
  by_cases hu : AfterUnlimited (fs m) acc ∧ (∀ p ∈ progs, ∀ c ∈ p, ∀ l, c.2.limit = some l → l ≤ 0)
  · obtain ⟨⟨t, hs, de, hit, ops, ho, hrun⟩, hl⟩ := hu
    have hi := StInv.run (P := FirstOne True) (fun _ => rfl) ops (fun o ho' => ⟨(ho o ho').1, keeps_firstOne o (fun _ => (ho o ho').2)⟩) (Store.fresh de hit) [] (Or.inl ⟨rfl, fun _ => rfl, rfl⟩)
    rw [hrun] at hi
    obtain ⟨new, kept, a1, a2, as, a3, a4⟩ := ack_killed True hn h hok (fun _ => hl) pt hc m (conv hs hi)
    exact ⟨new, kept, fun hit' => a4.shows hne hit', a1, a2, as hne, fun _ _ => a3 trivial⟩
  · obtain ⟨t, hs, de, hit, ops, ho, hrun⟩ := h0
    have hi := StInv.run (P := FirstOne False) (fun _ => rfl) ops (fun o ho' => ⟨ho o ho', keeps_firstOne o (fun hx => hx.elim)⟩) (Store.fresh de hit) [] (Or.inl ⟨rfl, fun _ => rfl, rfl⟩)
    rw [hrun] at hi
    obtain ⟨new, kept, a1, a2, as, a3, a4⟩ := ack_killed False hn h hok (fun hx => hx.elim) pt hc m (conv hs hi)
    exact ⟨new, kept, fun hit' => a4.shows hne hit', a1, a2, as hne, fun x y => absurd ⟨x, y⟩ hu⟩

/-- The first call for a metric that finishes in the next process. -/
theorem C106_next (hn : n < 2 ^ 63) (h : FsSys.Reach dbCalls (dbPath d) n progs fs s) (m : Bytes) (given vs : List Val) (h0 : ShowsFiles (fs m) given vs) (hex : (fs m).dirExists = true) (i : Nat) (cfg : Cfg) (bound : Int64) (r : DbRes)
    (rest : List (Nat × DbCall × DbRes)) (hf : s.finished m = (i, .query cfg bound (fun _ _ => .more), r) :: rest) (hpos : 0 < bound) (hb : ∀ w ∈ given, w.stop < bound) : r = .query vs none := by
  obtain ⟨hit, ids, evs, t, _, h1, h2, _, _⟩ := present_split hn h m (fs m) ⟨rfl, rfl, rfl, rfl⟩
  have key : ∀ {evs : List (Option (Nat × DbCall × DbRes))} {t : Store}, Serial DbCall.run mkdirEnv ({ (fs m).reopen with hit }) evs t →
      (evs.filterMap id = [] → t = { (fs m).reopen with hit }) ∧ ∀ e rest, evs.filterMap id = e :: rest → e.2.2 = (e.2.1.run { (fs m).reopen with hit }).1 := by
    intro evs t hs
    induction hs with
    | nil => exact ⟨fun _ => rfl, fun e rest hx => by cases hx⟩
    | @op evs t u j o r hs hf ih =>
      rw [List.filterMap_append]
      refine ⟨fun hx => ?_, fun e rest hx => ?_⟩
      · have := congrArg List.length hx
        simp at this
      · cases he : evs.filterMap id with
        | nil =>
          rw [he] at hx
          have hx : (j, o, r) :: [] = e :: rest := hx
          injection hx with e1 e2
          subst e1
          rw [ih.1 he] at hf
          show r = _
          rw [hf]
        | cons e0 rest0 =>
          rw [he] at hx
          have hx : e0 :: (rest0 ++ [some (j, o, r)].filterMap id) = e :: rest := hx
          injection hx with e1 e2
          subst e1
          exact ih.2 _ _ he
    | @env evs t hs ih =>
      rw [List.filterMap_append]
      have e2 : ([none] : List (Option (Nat × DbCall × DbRes))).filterMap id = [] := rfl
      rw [e2, List.append_nil]
      refine ⟨fun hx => ?_, ih.2⟩
      rw [ih.1 hx]
      unfold mkdirEnv
      rw [← hex]
      rfl
  rw [hf] at h2
  have h3 := (key h1).2 _ _ h2
  have h4 := h0 hit cfg bound hpos hb
  show r = _
  have h3 : r = (DbCall.run (.query cfg bound (fun _ _ => .more)) { (fs m).reopen with hit }).1 := h3
  rw [h3]
  show DbRes.query (queryList cfg bound _ _).1.1 (queryList cfg bound _ _).1.2 = _
  rw [h4]

end

/-- **C106, any number of crashes.** On files of processes that were killed one after the other, let a metric that has data files show the values `vs`. Then further processes run, with any goroutines and any usable calls (values of any size, in any order
of time), each killed at any moment. In the end the metric shows `new ++ kept`, newest first: `kept` is `vs`, except that oldest values may have been removed if some call has a file limit; and everything in `new` was
given whole to a write of this metric. The places of C24 and C61 are excluded. -/
theorem C106_durable_partial {d : Bytes} {de : Bytes → Bool} {hit : Bytes → Nat → Bool} {fs fs' : Bytes → Store} {given given' : Bytes → List Val} {Q : DbCall → Prop} (h1 : Lives d DbCall.Usable (freshFs de hit) fs given) (h2 : Lives d Q fs fs' given')
    (hq : ∀ o, Q o → o.Usable) (m : Bytes) (hd : (fs m).dir ≠ []) (vs : List Val) (hvs : ShowsFiles (fs m) (given m) vs) :
    ∃ new kept, ShowsFiles (fs' m) (given' m ++ given m) (new ++ kept) ∧ (∀ w ∈ new, w ∈ given' m) ∧ kept <+: vs ∧ ((∀ o, Q o → o.Unlimited) → kept = vs) := by
  have h0 : DurV True (freshFs de hit m).reopen [] [] := Or.inl ⟨trivial, rfl, fun _ => rfl, rfl⟩
  obtain ⟨nw, kp, _, _, _, hD⟩ := lives_durV (fun _ h => h) h1 m h0
  rw [List.append_nil] at hD
  have hD : DurV False (fs m).reopen (given m) (nw ++ kp) := by
    rcases hD with ⟨_, hx, _⟩ | hD
    · exact absurd hx hd
    · exact Or.inr hD
  by_cases hb : ∃ bound : Int64, 0 < bound ∧ ∀ w ∈ given m, w.stop < bound
  · obtain ⟨bound, hp, hb⟩ := hb
    have e1 := hvs (fs m).reopen.hit ⟨0, 0, 0⟩ bound hp hb
    have e2 := hD.shows (fun x => x) (fs m).reopen.hit ⟨0, 0, 0⟩ bound hp hb
    have e : nw ++ kp = vs := by
      have e3 : ((nw ++ kp, none) : List Val × Option MErr) = (vs, none) := e2.symm.trans e1
      injection e3
    rw [e] at hD
    obtain ⟨new, kept, a1, a2, a3, a4⟩ := lives_durV hq h2 m hD
    exact ⟨new, kept, fun hit' => a4.shows (fun x => x) hit', a1, a2, a3⟩
  · refine ⟨[], vs, ?_, fun w hw => (by cases hw), List.prefix_refl _, fun _ => rfl⟩
    intro hit' cfg bound hp hx
    exact absurd ⟨bound, hp, fun w hw => hx w (List.mem_append_right _ hw)⟩ hb

end Rothko
