import Verif.Lemmas.Kill
import Verif.Props.SharedMore
/-!
# C106: a process is killed, with all its goroutines at whatever they are doing
-/
namespace Rothko

/-! ## The call at work -/

section
variable {s : FsSys DbCall DbRes} {m : Bytes}

theorem atWork_some {o : DbCall} {p : FsProg DbRes} (h : s.atWork m = some (o, p)) : ∃ (i : Nat) (rest : List (Bytes × DbCall)), s.cl[i]? = some ⟨(m, o) :: rest, .busy p⟩ := by
  unfold FsSys.atWork at h
  obtain ⟨c, hc, e⟩ := List.exists_of_findSome?_eq_some h
  obtain ⟨i, hi⟩ := List.getElem?_of_mem hc
  obtain ⟨todo, w⟩ := c
  match todo, w, e with
  | (m', o') :: rest, .busy p', e =>
    dsimp only at e
    split at e
    · rename_i hm
      cases e
      exact ⟨i, rest, by rw [hi, hm]⟩
    · cases e

theorem atWork_none (h : s.atWork m = none) : s.quiet m := by
  unfold FsSys.atWork at h
  rw [List.findSome?_eq_none_iff] at h
  intro i o rest p hc
  have := h _ (List.mem_of_getElem? hc)
  simp at this

theorem atWork_busy (h : ∀ i j p q, BusyAt s i m p → BusyAt s j m q → i = j) {i : Nat} {o : DbCall} {rest : List (Bytes × DbCall)} {p : FsProg DbRes} (hc : s.cl[i]? = some ⟨(m, o) :: rest, .busy p⟩) :
    s.atWork m = some (o, p) := by
  cases hw : s.atWork m with
  | none => exact absurd hc (atWork_none hw i o rest p)
  | some x =>
    obtain ⟨o', p'⟩ := x
    obtain ⟨j, rest', hj⟩ := atWork_some hw
    have e := h i j p p' ⟨o, rest, hc⟩ ⟨o', rest', hj⟩
    subst e
    rw [hc] at hj
    cases hj; rfl

end

section
variable {n : Nat} {d : Bytes} {progs : List (List (Bytes × DbCall))} {fs : Bytes → Store} {s : FsSys DbCall DbRes}

/-- A metric in a process that may be killed at any moment: the finished calls one after the other, and then as much of the call at work as is done. -/
theorem present_split (hn : n < 2 ^ 63) (h : FsSys.Reach dbCalls (dbPath d) n progs fs s) (m : Bytes) (base : Store) (hb : SameFs (fs m) base) :
    ∃ (hit : Nat → Bool) (ids : Nat → Nat) (evs : List (Option (Nat × DbCall × DbRes))) (t : Store), (∀ i, i < base.clock → hit i = base.hit i) ∧
      Serial DbCall.run mkdirEnv ({ base.reopen with hit }) evs t ∧ evs.filterMap id = s.finished m ∧ (∀ e ∈ s.finished m, (m, e.2.1) ∈ progs.flatten) ∧
      ((s.atWork m = none ∧ SameFs (s.g.fs m) t) ∨
        ∃ o p u k, s.atWork m = some (o, p) ∧ (m, o) ∈ progs.flatten ∧ fsMachine.Runs o (t, ids) p u ∧ SameFs (s.g.fs m) (iterN mkdirFs k u).1) := by
  obtain ⟨H, ch, hi, hs⟩ := finv_reach (base := fun k' => if k' = m then base else fs k') hn (dbPath_paths d) (fun k' => by
    split
    · rename_i e; rw [e]; exact hb
    · exact ⟨rfl, rfl, rfl, rfl⟩) h
  have alone : ∀ i j p q, BusyAt s i m p → BusyAt s j m q → i = j := fun i j p q a b => hs.alone a b
  obtain ⟨hits, ids, he, hold⟩ := extends_some (fun k' => if k' = m then base else fs k') ch (fun _ => base.hit)
  obtain ⟨st, hr, hk⟩ := hs hits ids he
  have inv := hr.inv fsMachine_implements fsMachine_settled
  have hmem : ∀ i o r, (i, m, o, r) ∈ s.log → (m, o) ∈ progs.flatten := by
    intro i o r hm
    have hlen : i < progs.length := fs_log_lt h _ hm
    have hl : i < s.cl.length := by rw [inv.len]; exact hlen
    have e := inv.order i _ _ (List.getElem?_eq_getElem hlen) (List.getElem?_eq_getElem hl)
    refine List.mem_flatten.mpr ⟨_, List.getElem_mem hlen, ?_⟩
    rw [← e]
    exact List.mem_append_left _ (List.mem_map.mpr ⟨(i, m, o, r), List.mem_filter.mpr ⟨hm, by simp⟩, rfl⟩)
  obtain ⟨evs, t, h1, h2, h3⟩ := inv.serial m
  have ht : t.2 = ids m := by
    clear h2 h3
    induction h1 with
    | nil => rfl
    | op i o r _ e ih =>
      unfold fsRun at e
      injection e with _ e2
      rw [← e2]; exact ih
    | env _ ih => exact ih
  have h1 : Serial DbCall.run mkdirEnv (startOf (if m = m then base else fs m) (hits m)) evs t.1 := serial_pair h1
  rw [if_pos rfl] at h1
  refine ⟨hits m, ids m, evs, t.1, ?_, h1, h2, ?_, ?_⟩
  · intro i hi
    refine hold m i ?_
    show i < (if m = m then base else fs m).clock
    rw [if_pos rfl]
    exact hi
  · intro e he
    unfold FsSys.finished at he
    obtain ⟨⟨i, k', o, r⟩, hf, rfl⟩ := List.mem_map.mp he
    obtain ⟨hlog, hk'⟩ := List.mem_filter.mp hf
    have hk' : k' = m := by simpa using hk'
    rw [hk'] at hlog
    exact hmem i o r hlog
  · rcases h3 with ⟨hq, e⟩ | ⟨i, o, rest, l, u, k, hc, hruns, e⟩
    · left
      refine ⟨?_, ?_⟩
      · cases hw : s.atWork m with
        | none => rfl
        | some x =>
          obtain ⟨o', p'⟩ := x
          obtain ⟨j, rest', hj⟩ := atWork_some hw
          exact absurd hj (hq j o' rest' p')
      · have := (hk m).1
        change st m = t at e
        rw [e] at this; exact this
    · right
      refine ⟨o, l, u, k, atWork_busy alone hc, ?_, ?_, ?_⟩
      · have hl : i < progs.length := by rw [← inv.len]; exact (List.getElem?_eq_some_iff.mp hc).1
        have e := inv.order i _ _ (List.getElem?_eq_getElem hl) hc
        refine List.mem_flatten.mpr ⟨_, List.getElem_mem hl, ?_⟩
        rw [← e]
        exact List.mem_append_right _ List.mem_cons_self
      · have : t = (t.1, ids m) := by rw [← ht]
        rw [← this]; exact hruns
      · have h4 := (hk m).1
        change st m = _ at e
        rw [e] at h4; exact h4

/-! ## Values shown -/

theorem DurV.mkdir {e : Prop} {s : Store} {given vs : List Val} (h : DurV e s given vs) : DurV e (mkdirEnv s) given vs := by
  rcases h with ⟨he, h1, h2, h3⟩ | ⟨f, l, H, U, V, h1, h2, h3⟩
  · exact Or.inl ⟨he, h1, h2, h3⟩
  · have : mkdirEnv s = s := by
      unfold mkdirEnv
      rw [← h1.ex]
    rw [this]
    exact Or.inr ⟨f, l, H, U, V, h1, h2, h3⟩

theorem DurV.step {e : Prop} {s : Store} {given vs : List Val} (h : DurV e s given vs) (o : DbCall) (hu : o.Usable) : ∃ new kept, Kept1 o vs new kept ∧ DurV e (o.run s).2 (o.given ++ given) (new ++ kept) := by
  have hrun : ∀ s, (DOp.op o.toOp).run s = (o.run s).2 := by
    intro s
    show (o.toOp.run (s, [])).1 = _
    rw [run_toOp o s [] 0]
  have hok : (DOp.op o.toOp).Ok s := by cases o <;> exact hu
  have hgiv : (DOp.op o.toOp).given = o.given := by cases o <;> rfl
  have hlim : (DOp.op o.toOp).limit = o.limit := by cases o <;> rfl
  have core : ∀ s0 first last H U V, DurCore false s0 given first last H U V → (DOp.op o.toOp).Ok s0 → (DOp.op o.toOp).run s = (DOp.op o.toOp).run s0 → ∃ new kept, Kept1 o (valuesOf V first last) new kept ∧ DurV e (o.run s).2 (o.given ++ given) (new ++ kept) := by
    intro s0 first last H U V hc hok0 e
    obtain ⟨f', l', H', U', V', new, kept, h', hv, hk, hn, _⟩ := hc.step (.op o.toOp) hok0 (fun hx => by cases hx)
    rw [← e, hrun, hgiv] at h'
    rw [hgiv] at hn
    rw [hlim] at hk
    refine ⟨new, kept, ?_, Or.inr ⟨f', l', H', U', V', h'.core, hv, ?_⟩⟩
    · rcases hk with hk | ⟨hk, m, hm, h0, _⟩
      · exact ⟨by rw [hk]; exact List.prefix_refl _, fun _ => hk, hn⟩
      · refine ⟨?_, fun hx => by have := hx m hm; omega, hn⟩
        rw [hk, filesOf_dropLast _ _ _ hc.core.rng.2, valuesOf_drop V first last hc.core.rng.2]
        exact List.prefix_append _ _
    · rw [← hv]; exact h'.mem
  rcases h with ⟨he, hd, hc, rfl⟩ | ⟨first, last, H, U, V, h1, h2, h3⟩
  · rcases DurInv.first (c := false) (given := given) hd hc (.op o.toOp) hok with ⟨_, _, h1, h2⟩ | hx | ⟨s0, H, e, hcore, ho', _⟩
    · rw [hrun] at h1 h2
      exact ⟨[], [], ⟨List.prefix_refl _, fun _ => rfl, Or.inl rfl⟩, Or.inl ⟨he, h1, h2, rfl⟩⟩
    · cases o <;> cases hx
    · exact core s0 1 1 H _ _ hcore ho' e
  · subst h2
    exact core s first last H U V ⟨h1, fun hx => (by cases hx), h3⟩ hok rfl

theorem prefix_split {a new kept : List Val} (h : a <+: new ++ kept) : ∃ b c, a = b ++ c ∧ b <+: new ∧ c <+: kept ∧ (a = new ++ kept → c = kept) := by
  rcases Nat.le_total a.length new.length with hle | hle
  · refine ⟨a, [], by simp, List.prefix_of_prefix_length_le h (List.prefix_append _ _) hle, List.nil_prefix, ?_⟩
    intro e
    have := congrArg List.length e
    rw [List.length_append] at this
    have : kept.length = 0 := by omega
    exact (List.eq_nil_of_length_eq_zero this).symm
  · obtain ⟨x, hx⟩ := List.prefix_of_prefix_length_le (List.prefix_append new kept) h hle
    refine ⟨new, x, hx.symm, List.prefix_refl _, ?_, ?_⟩
    · obtain ⟨t, ht⟩ := h
      refine ⟨t, ?_⟩
      rw [← hx, List.append_assoc] at ht
      exact List.append_cancel_left ht
    · intro e
      rw [← hx] at e
      exact List.append_cancel_left e

/-- The values given to these calls, newest first. -/
def callsGiven (l : List (Nat × DbCall × DbRes)) : List Val := l.reverse.flatMap (fun e => e.2.1.given)

/-- Of the values `vs`, `kept` are left, and `new` among `given` are shown in addition. -/
structure Keeps1 (unlimited : Prop) (given vs new kept : List Val) : Prop where
  new : new.Sublist given
  pre : kept <+: vs
  all : unlimited → kept = vs

theorem Keeps1.then {A : Prop} {given vs new kept : List Val} (h : Keeps1 A given vs new kept) {o : DbCall} {n1 k1 : List Val} (h1 : Kept1 o (new ++ kept) n1 k1) :
    ∃ new' kept', n1 ++ k1 = new' ++ kept' ∧ Keeps1 (A ∧ ∀ m, o.limit = some m → m ≤ 0) (o.given ++ given) vs new' kept' := by
  obtain ⟨b, c, e, hb, hc, hall⟩ := prefix_split h1.pre
  have hn : n1.Sublist o.given := by
    rcases h1.new with e | e
    · rw [e]; exact List.nil_sublist _
    · rw [e]
  refine ⟨n1 ++ b, c, by rw [e, List.append_assoc], List.Sublist.append hn (hb.sublist.trans h.new), hc.trans h.pre, ?_⟩
  intro ⟨h2, h3⟩
  rw [hall (h1.all h3), h.all h2]

theorem serial_durV {e : Prop} {s0 t : Store} {given vs : List Val} (h0 : DurV e s0 given vs) {evs : List (Option (Nat × DbCall × DbRes))} (h : Serial DbCall.run mkdirEnv s0 evs t) (hu : ∀ e ∈ evs.filterMap id, e.2.1.Usable) :
    ∃ new kept, Keeps1 (∀ e ∈ evs.filterMap id, ∀ m, e.2.1.limit = some m → m ≤ 0) (callsGiven (evs.filterMap id)) vs new kept ∧ DurV e t (callsGiven (evs.filterMap id) ++ given) (new ++ kept) := by
  induction h with
  | nil => exact ⟨[], vs, ⟨List.nil_sublist _, List.prefix_refl _, fun _ => rfl⟩, h0⟩
  | op i o r h1 hf ih =>
    rw [List.filterMap_append] at hu ⊢
    obtain ⟨new, kept, hk, hd⟩ := ih (fun e he => hu e (List.mem_append_left _ he))
    obtain ⟨n1, k1, hk1, hd1⟩ := hd.step o (hu (i, o, r) (by simp))
    rw [hf] at hd1
    obtain ⟨new', kept', e', hk'⟩ := hk.then hk1
    rw [e'] at hd1
    have hg : ∀ l : List (Nat × DbCall × DbRes), callsGiven (l ++ [some (i, o, r)].filterMap id) = o.given ++ callsGiven l := by
      intro l
      show List.flatMap _ (List.reverse (l ++ [(i, o, r)])) = _
      rw [List.reverse_append]; rfl
    refine ⟨new', kept', ⟨by rw [hg]; exact hk'.new, hk'.pre, fun hx => hk'.all ⟨fun e he => hx e (List.mem_append_left _ he), fun m hm => hx (i, o, r) (by simp) m hm⟩⟩, ?_⟩
    rw [hg, List.append_assoc]
    exact hd1
  | env h1 ih =>
    rw [List.filterMap_append] at hu ⊢
    have e2 : ([none] : List (Option (Nat × DbCall × DbRes))).filterMap id = [] := rfl
    rw [e2, List.append_nil] at hu ⊢
    obtain ⟨new, kept, hk, hd⟩ := ih hu
    exact ⟨new, kept, hk, hd.mkdir⟩

/-! ## Cuts -/

theorem file_same {a b : Store} (h : a.disk = b.disk) (x : Handle) : a.file x = b.file x := by
  unfold Store.file; rw [h]

theorem setFile_disk_same {a b : Store} (h : a.disk = b.disk) (x : Handle) (f : File) : (a.setFile x f).disk = (b.setFile x f).disk := by
  unfold Store.setFile
  dsimp only
  rw [h]

theorem tornAt_same {a b : Store} (h : SameFs a b) (x : FsHandle) (head : Int) (v : Val) (i j : Nat) : SameFs (a.tornAt x head v i j) (b.tornAt x head v i j) := by
  unfold Store.tornAt
  rw [file_same h.disk]
  exact ⟨h.dirExists, h.dir, setFile_disk_same h.disk _ _, h.next⟩

theorem cutOk_same {a b : Store} (h : a.disk = b.disk) {p : FsProg DbRes} {pt : KillPoint} (hp : p.CutOk pt a) : p.CutOk pt b := by
  unfold FsProg.CutOk at hp ⊢
  split at hp
  · rename_i i j x head v f k
    unfold TornFine at hp ⊢
    rcases hp with hp | hp
    · exact Or.inl hp
    · right
      intro r r' h1 h2
      have e : (a.tornAt x head v i j).file x.geo = (b.tornAt x head v i j).file x.geo := by
        apply file_same
        unfold Store.tornAt
        rw [file_same h]
        exact setFile_disk_same h _ _
      rw [← e] at h2
      rw [← file_same h]
      exact hp r r' h1 h2
  · exact hp
  · exact hp
  · trivial

theorem cut_same {a b : Store} (h : SameFs a b) {p : FsProg DbRes} {pt : KillPoint} (hp : p.CutOk pt a) : SameFs (p.cut pt a) (p.cut pt b) := by
  unfold FsProg.CutOk at hp
  unfold FsProg.cut
  split at hp
  · exact tornAt_same h _ _ _ _ _
  · cases hp
  · cases hp
  · rename_i h1 h2 h3
    split
    · exact absurd rfl (h1 _ _ _ _ _ _ _ rfl)
    · exact absurd rfl (h2 _ _ _ _ _ rfl)
    · exact absurd rfl (h3 _ _ _ _ rfl)
    · exact h

theorem cut_iter (k : Nat) (u : Store × (Nat → Nat)) {p : FsProg DbRes} {pt : KillPoint} (hp : p.CutOk pt u.1) : SameFs (p.cut pt (iterN mkdirFs k u).1) (iterN mkdirFs k (p.cut pt u.1, u.2)).1 := by
  have hdisk : ∀ (k : Nat) (u : Store × (Nat → Nat)), (iterN mkdirFs k u).1.disk = u.1.disk := by
    intro k; induction k with
    | zero => intro u; rfl
    | succ k ih => intro u; exact ih u
  induction k with
  | zero => exact ⟨rfl, rfl, rfl, rfl⟩
  | succ k ih =>
    have hpk : p.CutOk pt (iterN mkdirFs k u).1 := cutOk_same (hdisk k u).symm hp
    have e : SameFs (p.cut pt (iterN mkdirFs (k + 1) u).1) (mkdirEnv (p.cut pt (iterN mkdirFs k u).1)) := by
      show SameFs (p.cut pt (mkdirEnv (iterN mkdirFs k u).1)) _
      generalize (iterN mkdirFs k u).1 = x at hpk
      unfold FsProg.CutOk at hpk
      unfold FsProg.cut
      split at hpk
      · exact ⟨rfl, rfl, rfl, rfl⟩
      · cases hpk
      · cases hpk
      · rename_i h1 h2 h3
        split
        · exact absurd rfl (h1 _ _ _ _ _ _ _ rfl)
        · exact absurd rfl (h2 _ _ _ _ _ rfl)
        · exact absurd rfl (h3 _ _ _ _ rfl)
        · exact ⟨rfl, rfl, rfl, rfl⟩
    exact ⟨e.dirExists.trans rfl, e.dir.trans ih.dir, e.disk.trans ih.disk, e.next.trans ih.next⟩

theorem DurV.iter {e : Prop} (k : Nat) {u : Store × (Nat → Nat)} {given vs : List Val} (h : DurV e u.1 given vs) : DurV e (iterN mkdirFs k u).1 given vs := by
  induction k with
  | zero => exact h
  | succ k ih => exact ih.mkdir

/-- The value of the write at work on the metric, if any. -/
def FsSys.inFlight (s : FsSys DbCall DbRes) (m : Bytes) : List Val :=
  match s.atWork m with
  | some (o, _) => o.given
  | none => []

/-- One process that is killed, on files that show `vs`. -/
theorem killed_durV {e : Prop} (hn : n < 2 ^ 63) (h : FsSys.Reach dbCalls (dbPath d) n progs fs s) (hu : ∀ p ∈ progs, ∀ c ∈ p, c.2.Usable) (pt : Bytes → KillPoint) (hc : s.CutsOk pt) (m : Bytes) {given vs : List Val}
    (h0 : DurV e (fs m).reopen given vs) :
    ∃ new kept, Keeps1 (∀ p ∈ progs, ∀ c ∈ p, ∀ l, c.2.limit = some l → l ≤ 0) (s.inFlight m ++ callsGiven (s.finished m)) vs new kept ∧
      DurV e (s.killed pt m).reopen (s.inFlight m ++ callsGiven (s.finished m) ++ given) (new ++ kept) := by
  obtain ⟨hit, ids, evs, t, _, h1, h2, h3, h4⟩ := present_split hn h m (fs m) ⟨rfl, rfl, rfl, rfl⟩
  have hfl : ∀ o, (m, o) ∈ progs.flatten → ∃ p ∈ progs, (m, o) ∈ p := fun o ho => by
    obtain ⟨p, hp, hm⟩ := List.mem_flatten.mp ho
    exact ⟨p, hp, hm⟩
  have hstart : DurV e ({ (fs m).reopen with hit }) given vs := h0.files ⟨rfl, rfl, rfl, rfl⟩ (fun _ => rfl)
  obtain ⟨new, kept, hk, hd⟩ := serial_durV hstart h1 (fun e he => by
    rw [h2] at he
    obtain ⟨p, hp, hm⟩ := hfl _ (h3 e he)
    exact hu p hp _ hm)
  rw [h2] at hk hd
  have hlim : (∀ p ∈ progs, ∀ c ∈ p, ∀ l, c.2.limit = some l → l ≤ 0) → ∀ e ∈ s.finished m, ∀ l, e.2.1.limit = some l → l ≤ 0 := by
    intro hx e he
    obtain ⟨p, hp, hm⟩ := hfl _ (h3 e he)
    exact hx p hp _ hm
  rcases h4 with ⟨hw, hsame⟩ | ⟨o, p, u, k, hw, ho, hr, hsame⟩
  · have e1 : s.inFlight m = [] := by unfold FsSys.inFlight; rw [hw]
    have e2 : s.killed pt m = s.g.fs m := by unfold FsSys.killed; rw [hw]
    rw [e1, e2]
    exact ⟨new, kept, ⟨hk.new, hk.pre, fun hx => hk.all (hlim hx)⟩, hd.files ⟨hsame.dirExists, hsame.dir, hsame.disk, hsame.next⟩ (fun _ => rfl)⟩
  · have e1 : s.inFlight m = o.given := by unfold FsSys.inFlight; rw [hw]
    have e2 : s.killed pt m = p.cut (pt m) (s.g.fs m) := by unfold FsSys.killed; rw [hw]
    rw [e1, e2]
    obtain ⟨q, hq, hm⟩ := hfl _ ho
    have hcut := hc m o p hw
    have hdisk : ∀ (k : Nat) (u : Store × (Nat → Nat)), (iterN mkdirFs k u).1.disk = u.1.disk := by
      intro k; induction k with
      | zero => intro u; rfl
      | succ k ih => intro u; exact ih u
    have hcu : p.CutOk (pt m) u.1 := cutOk_same (hsame.disk.trans (hdisk k u)) hcut
    obtain ⟨n1, k1, hk1, hd1⟩ := (hd.runs o (hu q hq _ hm) hr).cut (pt m) hcu
    obtain ⟨new', kept', e', hk'⟩ := hk.then hk1
    rw [e'] at hd1
    refine ⟨new', kept', ⟨hk'.new, hk'.pre, fun hx => hk'.all ⟨hlim hx, hx q hq _ hm⟩⟩, ?_⟩
    have hd2 : DurV e (iterN mkdirFs k ((p.cut (pt m) u.1).reopen, u.2)).1 (o.given ++ (callsGiven (s.finished m) ++ given)) (new' ++ kept') := DurV.iter k hd1
    have s1 := cut_same hsame hcut
    have s2 := cut_iter k u hcu
    have s3 : SameFs (iterN mkdirFs k (p.cut (pt m) u.1, u.2)).1 (iterN mkdirFs k ((p.cut (pt m) u.1).reopen, u.2)).1 := by
      clear hd2 s2 hsame s1
      induction k with
      | zero => exact ⟨rfl, rfl, rfl, rfl⟩
      | succ k ih => exact ⟨rfl, ih.dir, ih.disk, ih.next⟩
    rw [List.append_assoc]
    exact hd2.files ⟨s1.dirExists.trans (s2.dirExists.trans s3.dirExists), s1.dir.trans (s2.dir.trans s3.dir), s1.disk.trans (s2.disk.trans s3.disk), s1.next.trans (s2.next.trans s3.next)⟩ (fun _ => rfl)

theorem inFlight_given (hn : n < 2 ^ 63) (h : FsSys.Reach dbCalls (dbPath d) n progs fs s) (m : Bytes) : ∀ w ∈ s.inFlight m ++ callsGiven (s.finished m), w ∈ progGiven m progs := by
  obtain ⟨_, _, _, _, _, _, _, h3, h4⟩ := present_split hn h m (fs m) ⟨rfl, rfl, rfl, rfl⟩
  have key : ∀ o, (m, o) ∈ progs.flatten → ∀ w ∈ o.given, w ∈ progGiven m progs := by
    intro o ho w hw
    exact List.mem_flatMap.mpr ⟨(m, o), List.mem_filter.mpr ⟨ho, by simp⟩, hw⟩
  intro w hw
  rcases List.mem_append.mp hw with hw | hw
  · rcases h4 with ⟨e, _⟩ | ⟨o, p, u, k, e, ho, _⟩
    · unfold FsSys.inFlight at hw; rw [e] at hw; cases hw
    · unfold FsSys.inFlight at hw; rw [e] at hw; exact key o ho w hw
  · obtain ⟨e, he, hw⟩ := List.mem_flatMap.mp hw
    exact key _ (h3 e (List.mem_reverse.mp he)) w hw

end

/-! ## The property -/

theorem Lives.mono {d : Bytes} {Q R : DbCall → Prop} (hqr : ∀ o, Q o → R o) {fs fs' : Bytes → Store} {given : Bytes → List Val} (h : Lives d Q fs fs' given) : Lives d R fs fs' given := by
  induction h with
  | nil => exact .nil
  | kill pt _ hn hp hr hc ih => exact .kill pt ih hn (fun p hp' c hc' => hqr _ (hp p hp' c hc')) hr hc

/-- What killed processes leave of the values a metric shows. -/
theorem lives_durV {e : Prop} {d : Bytes} {Q : DbCall → Prop} (hq : ∀ o, Q o → o.Usable) {fs fs' : Bytes → Store} {given : Bytes → List Val} (h : Lives d Q fs fs' given) (m : Bytes) {given0 vs : List Val} (h0 : DurV e (fs m).reopen given0 vs) :
    ∃ new kept, (∀ w ∈ new, w ∈ given m) ∧ kept <+: vs ∧ ((∀ o, Q o → o.Unlimited) → kept = vs) ∧ DurV e (fs' m).reopen (given m ++ given0) (new ++ kept) := by
  induction h with
  | nil => exact ⟨[], vs, fun w hw => (by cases hw), List.prefix_refl _, fun _ => rfl, h0⟩
  | @kill fs1 given n progs s pt _ hn hp hr hc ih =>
    obtain ⟨new, kept, a1, a2, a3, a4⟩ := ih
    obtain ⟨n1, k1, hk, hd⟩ := killed_durV hn hr (fun p hp' c hc' => hq _ (hp p hp' c hc')) pt hc m a4
    have hin := inFlight_given hn hr m
    obtain ⟨b, c, e1, hb, hc', hall⟩ := prefix_split hk.pre
    refine ⟨n1 ++ b, c, ?_, hc'.trans a2, ?_, ?_⟩
    · intro w hw
      rcases List.mem_append.mp hw with hw | hw
      · exact List.mem_append_left _ (hin w (hk.new.subset hw))
      · exact List.mem_append_right _ (a1 w (hb.subset hw))
    · intro hx
      rw [hall (hk.all (fun p hp' c hc' => (hx _ (hp p hp' c hc')).2)), a3 hx]
    · rw [List.append_assoc n1, ← e1]
      refine hd.mono ?_
      intro w hw
      rcases List.mem_append.mp hw with hw | hw
      · exact List.mem_append_left _ (List.mem_append_left _ (hin w hw))
      · rcases List.mem_append.mp hw with hw | hw
        · exact List.mem_append_left _ (List.mem_append_right _ hw)
        · exact List.mem_append_right _ hw

end Rothko
