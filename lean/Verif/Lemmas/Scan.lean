import Verif.Model.Scan
/-! The invariant of the scan. -/
namespace Rothko

/-! ## Paths -/

theorem join_cons47 (a b : Bytes) (l : List Bytes) : joinWith 47 (a :: b :: l) = a ++ 47 :: joinWith 47 (b :: l) := rfl

theorem split_join47 (ls : List Bytes) (hne : ls ≠ []) (h : ∀ l ∈ ls, (47 : UInt8) ∉ l) : splitOn 47 (joinWith 47 ls) = ls := by
  induction ls with
  | nil => exact absurd rfl hne
  | cons l ls ih =>
    cases ls with
    | nil => exact splitOn_none 47 l (h l (by simp))
    | cons m ls =>
      rw [join_cons47, splitOn_append, splitOn_none 47 l (h l (by simp)), ih (by simp) (fun x hx => h x (by simp [hx]))]
      rfl

/-- Components of a path that a directory walk can follow. -/
def GoodComps (p : List Bytes) : Prop := ∀ c ∈ p, c ≠ [] ∧ (47 : UInt8) ∉ c

theorem GoodComps.pos {p : List Bytes} (h : GoodComps p) : 0 < (joinWith 47 p).length ↔ p ≠ [] := joinWith_pos fun c hc => (h c hc).1

theorem pathComps_join {p : List Bytes} (h : GoodComps p) : pathComps (joinWith 47 p) = p := by
  unfold pathComps
  by_cases e : p = []
  · subst e; rfl
  · rw [if_neg (by have := h.pos.mpr e; intro h'; rw [h'] at this; simp at this), split_join47 p e fun c hc => (h c hc).2]

theorem join_snoc {p : List Bytes} (h : GoodComps p) (n : Bytes) : joinWith 47 (p ++ [n]) = (if (joinWith 47 p).length > 0 then joinWith 47 p ++ [47] else joinWith 47 p) ++ n := by
  rw [joinWith_snoc]
  by_cases e : p = []
  · subst e; simp [joinWith]
  · rw [if_neg e, if_pos (h.pos.mpr e)]; simp

theorem GoodComps.snoc {p : List Bytes} (h : GoodComps p) {n : Bytes} (h1 : n ≠ []) (h2 : (47 : UInt8) ∉ n) : GoodComps (p ++ [n]) := by
  intro c hc
  rcases List.mem_append.mp hc with hc | hc
  · exact h c hc
  · rw [List.mem_singleton.mp hc]; exact ⟨h1, h2⟩

theorem dirComps_good (m : Bytes) : ∀ c ∈ dirComps m, c ≠ [] ∧ 46 ∉ c := by
  unfold dirComps
  split
  · intro c hc; cases hc
  · rename_i hm; exact metricToDir_good hm

theorem dirComps_inj {m m' : Bytes} (h : dirComps m = dirComps m') : m = m' := by
  have := congrArg (joinWith 47) h
  rw [joinWith_dirComps, joinWith_dirComps] at this
  exact C08_dir_injective _ _ this

theorem not_data {n : Bytes} (h : 46 ∉ n) : dataSuffix.isSuffixOf n = false := by
  cases hs : dataSuffix.isSuffixOf n with
  | false => rfl
  | true =>
    rw [List.isSuffixOf_iff_suffix] at hs
    exact absurd (hs.subset (by decide : (46 : UInt8) ∈ dataSuffix)) h

theorem dataName_suffix (i : Int) : dataSuffix.isSuffixOf (intDec i ++ dataSuffix) = true := by simp

theorem World.Tree.above {w : World} (h : w.Tree) : ∀ (q p : List Bytes), q ≠ [] → w (p ++ q) ≠ none → w p = some .dir := by
  intro q
  induction q with
  | nil => intro p h; exact absurd rfl h
  | cons n q ih =>
    intro p _ hw
    by_cases e : q = []
    · subst e; exact h.parent p n hw
    · have := ih (p ++ [n]) e (by rw [List.append_assoc]; exact hw)
      exact h.parent p n (by rw [this]; intro h; cases h)

/-! ## Buffers -/

/-- The names in a buffer. -/
def bufNames (buf : Bytes) : List Bytes := match readBuf buf [] with | .names l => l | _ => []

theorem bufNames_entries {es : List Entry} (h : ∀ e ∈ es, e.Valid) : bufNames (es.map Entry.bytes).flatten = (es.filter Entry.listed).map Entry.name := by
  unfold bufNames
  rw [readBuf_entries es h]
  rfl

theorem mem_bufNames {es : List Entry} (h : ∀ e ∈ es, e.Valid) (n : Bytes) : n ∈ bufNames (es.map Entry.bytes).flatten ↔ Lists es n := by
  rw [bufNames_entries h]
  simp only [List.mem_map, List.mem_filter, Lists]
  constructor
  · rintro ⟨e, ⟨h1, h2⟩, h3⟩; exact ⟨e, h1, h2, h3⟩
  · rintro ⟨e, h1, h2, h3⟩; exact ⟨e, ⟨h1, h2⟩, h3⟩

theorem bufNames_nil : bufNames [] = [] := by simpa using bufNames_entries (es := []) (by simp)

theorem listed_ever {fd : DirFd} {whole : Prop} {w : World} {es : List Entry} (h : fd.CanRead whole w es) {n : Bytes} (hn : Lists es n) : fd.ever n := by
  obtain ⟨e, he, hl, rfl⟩ := hn
  rcases h.ever e he with hd | hd
  · exfalso
    have d1 : (".".toUTF8.toList : Bytes) = [46] := by decide +kernel
    have d2 : ("..".toUTF8.toList : Bytes) = [46, 46] := by decide +kernel
    unfold Entry.listed at hl
    rw [d1, d2] at hl
    rcases hd with hd | hd <;> rw [hd] at hl <;> simp at hl
  · exact hd

/-! ## The invariant -/

/-- A buffer with entries that were in the directory. -/
def BufOk (f : ScanFrame) (es : List Entry) : Prop := f.buf = (es.map Entry.bytes).flatten ∧ (∀ e ∈ es, e.Valid) ∧ ∀ n, Lists es n → f.fd.ever n

structure FrameOk (seen : List Bytes → Prop) (out : List Bytes) (f : ScanFrame) : Prop where
  good : GoodComps f.fd.path
  len : f.len = (joinWith 47 f.fd.path).length
  ever : ∀ n, f.fd.ever n → seen (f.fd.path ++ [n])
  buf : ∃ es, BufOk f es
  added : f.added = true → ∃ m ∈ out, f.fd.path = dirComps m
  here : seen f.fd.path
  size : f.buf.length ≤ 4096

def Chain : List ScanFrame → Prop
  | [] => True
  | [f] => f.fd.path = []
  | f :: g :: rest => (∃ n, f.fd.path = g.fd.path ++ [n]) ∧ Chain (g :: rest)

/-- What `dirbuf` is when an activation begins or has returned without an error. -/
def AtCall (stack : List ScanFrame) (dirbuf : Bytes) : Prop :=
  match stack with
  | [] => dirbuf = []
  | f :: _ => ∃ n, n ≠ [] ∧ (47 : UInt8) ∉ n ∧ dirbuf = joinWith 47 (f.fd.path ++ [n])

def ModeOk (s : Scan) : Prop :=
  match s.mode with
  | .call => AtCall s.stack s.dirbuf
  | .loop => ∃ f rest, s.stack = f :: rest ∧ s.dirbuf = joinWith 47 f.fd.path
  | .back none => AtCall s.stack s.dirbuf
  | .back (some _) => True
  | .over r st => s.stack = [] ∧ ∀ o, st = some o → r = none ∧ o = s.out
  | .panic => False

/-- Paths that can have been seen. -/
structure SeenOk (seen : List Bytes → Prop) : Prop where
  name : ∀ p n, seen (p ++ [n]) → n ≠ [] ∧ (47 : UInt8) ∉ n
  data : ∀ p n, seen (p ++ [n]) → dataSuffix.isSuffixOf n = true → ∃ m i, p ++ [n] = dataPath m i

structure ScanInv (seen : List Bytes → Prop) (fds0 : List Nat) (s : Scan) : Prop where
  tree : s.w.Tree
  now : ∀ p, s.w p ≠ none → seen p
  ok : SeenOk seen
  frames : ∀ f ∈ s.stack, FrameOk seen s.out.order f
  chain : Chain s.stack
  mode : ModeOk s
  out : s.out.Is s.out.order
  found : ∀ m ∈ s.out.order, ∃ i, seen (dataPath m i)
  fds : s.fds = s.stack.map ScanFrame.num ++ fds0
  nodup : s.fds.Nodup

theorem World.Tree.seenOk {w : World} (h : w.Tree) : SeenOk (fun p => w p ≠ none) :=
  ⟨fun p n hs => ⟨(h.name p n hs).1, (h.name p n hs).2.1⟩, fun p n hs => h.data p n hs⟩

theorem FrameOk.mono {seen seen' : List Bytes → Prop} {out out' : List Bytes} {f : ScanFrame} (h : FrameOk seen out f) (hs : ∀ p, seen p → seen' p) (ho : ∀ m ∈ out, m ∈ out') : FrameOk seen' out' f where
  good := h.good
  len := h.len
  ever := fun n hn => hs _ (h.ever n hn)
  buf := h.buf
  added := fun ha => by obtain ⟨m, hm, e⟩ := h.added ha; exact ⟨m, ho m hm, e⟩
  here := hs _ h.here
  size := h.size

theorem SSet.Is.add_order {s : SSet} (h : s.Is s.order) (x : Bytes) : (s.add x).Is (s.add x).order ∧ ∀ y, y ∈ (s.add x).order ↔ y = x ∨ y ∈ s.order := by
  have := h.add x
  have hm : ∀ y, y ∈ (s.add x).order ↔ y = x ∨ y ∈ s.order := fun y => by rw [this.mem, List.mem_cons]
  exact ⟨this.congr fun y => by rw [hm, List.mem_cons], hm⟩

theorem Chain.tail {f : ScanFrame} {rest : List ScanFrame} (h : Chain (f :: rest)) : Chain rest := by
  cases rest with
  | nil => trivial
  | cons g rest => exact h.2

/-- The chain depends on the paths alone. -/
theorem Chain.congr : ∀ {l l' : List ScanFrame}, l'.map (fun f => f.fd.path) = l.map (fun f => f.fd.path) → Chain l → Chain l' := by
  intro l
  induction l with
  | nil => intro l' h _; cases l' with
    | nil => trivial
    | cons _ _ => cases h
  | cons f l ih =>
    intro l' h hc
    cases l' with
    | nil => cases h
    | cons f' l' =>
      injection h with h1 h2
      have h1 : f'.fd.path = f.fd.path := h1
      cases l with
      | nil => cases l' with
        | nil => show f'.fd.path = []; rw [h1]; exact hc
        | cons _ _ => cases h2
      | cons g l => cases l' with
        | nil => cases h2
        | cons g' l' =>
          refine ⟨?_, ih h2 hc.2⟩
          injection h2 with h2 _
          have h2 : g'.fd.path = g.fd.path := h2
          obtain ⟨n, hn⟩ := hc.1
          exact ⟨n, by rw [h1, h2, hn]⟩

theorem AtCall.congr {l l' : List ScanFrame} {b : Bytes} (h : l'.map (fun f => f.fd.path) = l.map (fun f => f.fd.path)) (hc : AtCall l b) : AtCall l' b := by
  cases l with
  | nil => cases l' with
    | nil => exact hc
    | cons _ _ => cases h
  | cons f l => cases l' with
    | nil => cases h
    | cons f' l' =>
      injection h with h1 _
      have h1 : f'.fd.path = f.fd.path := h1
      obtain ⟨n, a, b, c⟩ := hc
      exact ⟨n, a, b, by rw [h1]; exact c⟩

/-- An activation has returned without an error. -/
theorem atCall_of_chain {f : ScanFrame} {rest : List ScanFrame} (hc : Chain (f :: rest)) (hg : GoodComps f.fd.path) : AtCall rest (joinWith 47 f.fd.path) := by
  cases rest with
  | nil =>
    have : f.fd.path = [] := hc
    show joinWith 47 f.fd.path = []
    rw [this]; rfl
  | cons g rest =>
    obtain ⟨n, hn⟩ := hc.1
    have := hg n (by rw [hn]; simp)
    exact ⟨n, this.1, this.2, by rw [hn]⟩

theorem take_join {p : List Bytes} (hp : GoodComps p) (n : Bytes) : (joinWith 47 (p ++ [n])).take (joinWith 47 p).length = joinWith 47 p := by
  rw [join_snoc hp]
  split
  · rw [List.append_assoc, List.take_left]
  · rw [List.take_left]

/-- `dirToMetric` in a directory with a data file. -/
theorem dirToMetric_data {seen : List Bytes → Prop} (hs : SeenOk seen) {p : List Bytes} {n : Bytes} (h : seen (p ++ [n])) (hd : dataSuffix.isSuffixOf n = true) :
    ∃ m i, p = dirComps m ∧ p ++ [n] = dataPath m i ∧ dirToMetric [] (joinWith 47 p) = some m := by
  obtain ⟨m, i, e⟩ := hs.data p n h hd
  have hp := (dataSuffix_of_file e).2
  exact ⟨m, i, hp, e, by rw [hp, joinWith_dirComps]; exact C08_dir_round_trip m⟩

/-- What the entry at the front of the buffer is. -/
theorem entry_front {seen : List Bytes → Prop} {out : List Bytes} {f : ScanFrame} (h : FrameOk seen out f) (hb : f.buf ≠ []) :
    ∃ (e : Entry) (buf : Bytes) (name : Bytes), nextDirent f.buf = .ret buf name e.listed ∧ (e.listed = true → name = e.name ∧ f.fd.ever e.name) ∧
      (∃ es, BufOk { f with buf } es) ∧ buf.length < f.buf.length ∧ ∀ n, n ∈ bufNames f.buf ↔ (e.listed = true ∧ n = e.name) ∨ n ∈ bufNames buf := by
  obtain ⟨es, h1, h2, h3⟩ := h.buf
  cases es with
  | nil => exact absurd h1 hb
  | cons e es =>
    have hv := h2 e (by simp)
    have hvs : ∀ x ∈ es, x.Valid := fun x hx => h2 x (by simp [hx])
    have hbuf : f.buf = e.bytes ++ (es.map Entry.bytes).flatten := by rw [h1]; simp
    refine ⟨e, (es.map Entry.bytes).flatten, _, by rw [hbuf]; exact nextDirent_entry e hv _, ?_, ⟨es, rfl, hvs, fun n hn => h3 n ?_⟩, (by rw [hbuf, List.length_append, e.length]; omega), fun n => ?_⟩
    · intro hl
      refine ⟨?_, h3 _ ⟨e, by simp, hl, rfl⟩⟩
      rw [if_neg]
      intro h0
      simp [Entry.listed, h0] at hl
    · obtain ⟨x, hx, r⟩ := hn; exact ⟨x, by simp [hx], r⟩
    · rw [h1, mem_bufNames h2, mem_bufNames hvs]
      constructor
      · rintro ⟨x, hx, hl, rfl⟩
        rcases List.mem_cons.mp hx with rfl | hx
        · exact Or.inl ⟨hl, rfl⟩
        · exact Or.inr ⟨x, hx, hl, rfl⟩
      · rintro (⟨hl, rfl⟩ | ⟨x, hx, hl, rfl⟩)
        · exact ⟨e, by simp, hl, rfl⟩
        · exact ⟨x, by simp [hx], hl, rfl⟩

theorem leave_inv {seen : List Bytes → Prop} {fds0 : List Nat} {s : Scan} {f : ScanFrame} {rest : List ScanFrame} (h : ScanInv seen fds0 s) (hst : s.stack = f :: rest) (r : Option ScanErr)
    (hr : r = none → s.dirbuf = joinWith 47 f.fd.path) : ScanInv seen fds0 (s.leave f rest r) where
  tree := h.tree
  now := h.now
  ok := h.ok
  frames := fun g hg => h.frames g (by rw [hst]; simp [show g ∈ rest from hg])
  chain := by have := h.chain; rw [hst] at this; exact this.tail
  mode := by
    cases r with
    | some e => trivial
    | none =>
      show AtCall rest s.dirbuf
      rw [hr rfl]
      have := h.chain
      rw [hst] at this
      exact atCall_of_chain this (h.frames f (by rw [hst]; simp)).good
  out := h.out
  found := h.found
  fds := by
    show s.fds.erase f.num = rest.map ScanFrame.num ++ fds0
    rw [h.fds, hst]
    simp
  nodup := h.nodup.erase _

theorem step_inv {whole : List Bytes → Prop} {seen : List Bytes → Prop} {fds0 : List Nat} {s s' : Scan} (h : ScanInv seen fds0 s) (hs : s.Step whole s') : ScanInv (fun p => seen p ∨ s'.w p ≠ none) fds0 s' := by
  have lift : ∀ {x : Scan}, x.w = s.w → ScanInv seen fds0 x → ScanInv (fun p => seen p ∨ x.w p ≠ none) fds0 x := by
    intro x hw hx
    have e : (fun p => seen p ∨ x.w p ≠ none) = seen := by
      funext p
      refine propext ⟨fun h' => ?_, Or.inl⟩
      rcases h' with h' | h'
      · exact h'
      · exact hx.now p h'
    rw [e]; exact hx
  rcases hs with hs | ⟨w, hw, rfl⟩
  rotate_left
  · have hpaths : (s.stack.map fun f : ScanFrame => { f with fd := f.fd.see w }).map (fun f => f.fd.path) = s.stack.map (fun f => f.fd.path) := by
      rw [List.map_map]; rfl
    exact {
      tree := hw
      now := fun p hp => Or.inr hp
      ok := ⟨fun p n hn => by
          rcases hn with hn | hn
          · exact h.ok.name p n hn
          · exact ⟨(hw.name p n hn).1, (hw.name p n hn).2.1⟩,
        fun p n hn hd => by
          rcases hn with hn | hn
          · exact h.ok.data p n hn hd
          · exact hw.data p n hn hd⟩
      frames := fun f hf => by
        obtain ⟨g, hg, rfl⟩ := List.mem_map.mp hf
        have := h.frames g hg
        exact {
          good := this.good
          len := this.len
          ever := fun n hn => by
            rcases hn with hn | hn
            · exact Or.inl (this.ever n hn)
            · exact Or.inr hn
          buf := by
            obtain ⟨es, a, b, c⟩ := this.buf
            exact ⟨es, a, b, fun n hn => Or.inl (c n hn)⟩
          added := this.added
          here := Or.inl this.here
          size := this.size }
      chain := Chain.congr hpaths h.chain
      mode := by
        have hm := h.mode
        unfold ModeOk at hm ⊢
        show match s.mode with | .call => AtCall _ s.dirbuf | .loop => _ | .back none => _ | .back (some _) => _ | .over r st => _ | .panic => _
        split at hm
        · exact AtCall.congr hpaths hm
        · obtain ⟨f, rest, e1, e2⟩ := hm
          refine ⟨{ f with fd := f.fd.see w }, rest.map fun f : ScanFrame => { f with fd := f.fd.see w }, ?_, e2⟩
          show s.stack.map _ = _
          rw [e1]; rfl
        · exact AtCall.congr hpaths hm
        · trivial
        · refine ⟨?_, hm.2⟩
          show s.stack.map _ = _
          rw [hm.1]; rfl
        · exact hm
      out := h.out
      found := fun m hm => by obtain ⟨i, hi⟩ := h.found m hm; exact ⟨i, Or.inl hi⟩
      fds := by
        show s.fds = (s.stack.map fun f : ScanFrame => { f with fd := f.fd.see w }).map ScanFrame.num ++ fds0
        rw [h.fds, List.map_map]; rfl
      nodup := h.nodup }
  cases hs with
  | done e hm he => exact lift (x := { s with mode := .back (some e) }) rfl { h with mode := trivial }
  | noent hm hw =>
    refine lift (x := { s with mode := .back none }) rfl { h with mode := ?_ }
    have := h.mode
    unfold ModeOk at this
    rw [hm] at this
    exact this
  | openErr hm => exact lift (x := { s with mode := .back (some .os) }) rfl { h with mode := trivial }
  | opened k num hm hk hnum =>
    have hc : AtCall s.stack s.dirbuf := by have := h.mode; unfold ModeOk at this; rw [hm] at this; exact this
    obtain ⟨p, hp, hd, hch⟩ : ∃ p, GoodComps p ∧ s.dirbuf = joinWith 47 p ∧ ∀ f : ScanFrame, f.fd.path = p → Chain (f :: s.stack) := by
      cases hst : s.stack with
      | nil =>
        rw [hst] at hc
        exact ⟨[], (fun c hc => by cases hc), hc, fun f hf => hf⟩
      | cons g rest =>
        rw [hst] at hc
        obtain ⟨n, h1, h2, h3⟩ := hc
        refine ⟨g.fd.path ++ [n], (h.frames g (by rw [hst]; simp)).good.snoc h1 h2, h3, fun f hf => ⟨⟨n, hf⟩, ?_⟩⟩
        have := h.chain
        rw [hst] at this
        exact this
    have hcomps : pathComps s.dirbuf = p := by rw [hd, pathComps_join hp]
    refine lift (x := { s with stack := ⟨DirFd.opened s.w k (pathComps s.dirbuf), num, s.dirbuf.length, false, []⟩ :: s.stack, fds := num :: s.fds, mode := .loop }) rfl { h with frames := ?_, chain := hch _ hcomps, mode := ?_, fds := ?_, nodup := ?_ }
    · intro f hf
      rcases List.mem_cons.mp hf with rfl | hf
      · exact {
          good := by show GoodComps (pathComps s.dirbuf); rw [hcomps]; exact hp
          len := by show s.dirbuf.length = (joinWith 47 (pathComps s.dirbuf)).length; rw [hcomps, hd]
          ever := fun n hn => h.now _ hn
          buf := ⟨[], rfl, (by simp), fun n hn => by obtain ⟨e, he, _⟩ := hn; cases he⟩
          added := fun ha => by cases ha
          here := h.now _ (by show s.w (pathComps s.dirbuf) ≠ none; rw [hk]; intro h; cases h)
          size := Nat.zero_le _ }
      · exact h.frames f hf
    · refine ⟨_, _, rfl, ?_⟩
      show s.dirbuf = joinWith 47 (pathComps s.dirbuf)
      rw [hcomps, hd]
    · show num :: s.fds = num :: (s.stack.map ScanFrame.num) ++ fds0
      rw [h.fds]; rfl
    · exact List.nodup_cons.mpr ⟨hnum, h.nodup⟩
  | notDir f rest hm hst hb hk =>
    refine lift rfl (leave_inv h hst none fun _ => ?_)
    have := h.mode
    unfold ModeOk at this
    rw [hm] at this
    obtain ⟨f', rest', e1, e2⟩ := this
    rw [hst] at e1
    cases e1
    exact e2
  | readErr f rest hm hst hb => exact lift rfl (leave_inv h hst _ fun e => by cases e)
  | eof f rest hm hst hb hk he =>
    refine lift rfl (leave_inv h hst none fun _ => ?_)
    have := h.mode
    unfold ModeOk at this
    rw [hm] at this
    obtain ⟨f', rest', e1, e2⟩ := this
    rw [hst] at e1
    cases e1
    exact e2
  | read f rest es hm hst hb hk hr =>
    have hfr := h.frames f (by rw [hst]; simp)
    have hpaths : ({ f with fd := f.fd.returned es, buf := (es.map Entry.bytes).flatten } :: rest).map (fun f : ScanFrame => f.fd.path) = s.stack.map (fun f => f.fd.path) := by rw [hst]; rfl
    refine lift (x := { s with stack := { f with fd := f.fd.returned es, buf := (es.map Entry.bytes).flatten } :: rest }) rfl { h with frames := ?_, chain := Chain.congr hpaths h.chain, mode := ?_, fds := ?_ }
    · intro g hg
      rcases List.mem_cons.mp hg with rfl | hg
      · exact { good := hfr.good, len := hfr.len, ever := hfr.ever, buf := ⟨es, rfl, hr.valid, fun n hn => listed_ever hr hn⟩, added := hfr.added, here := hfr.here, size := hr.fits }
      · exact h.frames g (by rw [hst]; simp [hg])
    · have := h.mode
      unfold ModeOk at this ⊢
      rw [hm] at this
      dsimp only
      rw [hm]
      obtain ⟨f', rest', e1, e2⟩ := this
      rw [hst] at e1
      cases e1
      exact ⟨_, _, rfl, e2⟩
    · show s.fds = _
      rw [h.fds, hst]; rfl
  | entry f rest hm hst hb =>
    have hfr := h.frames f (by rw [hst]; simp)
    have hd : s.dirbuf = joinWith 47 f.fd.path := by
      have := h.mode
      unfold ModeOk at this
      rw [hm] at this
      obtain ⟨f', rest', e1, e2⟩ := this
      rw [hst] at e1
      cases e1
      exact e2
    obtain ⟨e, buf, name, hn, hl, hbuf, hlt, _⟩ := entry_front hfr hb
    have hpaths : ∀ f' : ScanFrame, f'.fd.path = f.fd.path → (f' :: rest).map (fun f : ScanFrame => f.fd.path) = s.stack.map (fun f => f.fd.path) := by intro f' e; rw [hst]; simp [e]
    -- the activation goes on
    have goOn : ScanInv seen fds0 { s with stack := { f with buf } :: rest } := { h with
      frames := fun g hg => by
        rcases List.mem_cons.mp hg with rfl | hg
        · exact { good := hfr.good, len := hfr.len, ever := hfr.ever, buf := hbuf, added := hfr.added, here := hfr.here, size := Nat.le_trans (Nat.le_of_lt hlt) hfr.size }
        · exact h.frames g (by rw [hst]; simp [hg])
      chain := Chain.congr (hpaths _ rfl) h.chain
      mode := by
        unfold ModeOk
        dsimp only
        rw [hm]
        exact ⟨_, _, rfl, hd⟩
      fds := by show s.fds = _; rw [h.fds, hst]; rfl }
    unfold Scan.entry
    rw [hn]
    dsimp only
    cases hok : e.listed with
    | false => exact lift (x := { s with stack := { f with buf } :: rest }) rfl goOn
    | true =>
      obtain ⟨rfl, hev⟩ := hl hok
      have hseen := hfr.ever _ hev
      cases hsuf : dataSuffix.isSuffixOf e.name with
      | false =>
        refine lift (x := { s with stack := { f with buf } :: rest, dirbuf := (if f.len > 0 then s.dirbuf ++ [47] else s.dirbuf) ++ e.name, mode := .call }) rfl { goOn with mode := ?_ }
        refine ⟨e.name, (h.ok.name _ _ hseen).1, (h.ok.name _ _ hseen).2, ?_⟩
        show _ = joinWith 47 (f.fd.path ++ [e.name])
        rw [join_snoc hfr.good, hfr.len, hd]
      | true =>
        cases hadd : f.added with
        | true =>
          simp only [Bool.not_true, Bool.false_eq_true, if_false, if_true]
          have g := goOn
          rw [hadd] at g
          exact lift (x := { s with stack := { f with buf, added := true } :: rest }) rfl g
        | false =>
          simp only [Bool.not_true, Bool.false_eq_true, if_false]
          obtain ⟨m, i, hp, hdp, hdm⟩ := dirToMetric_data h.ok hseen hsuf
          rw [← hd] at hdm
          rw [hdm]
          obtain ⟨o1, o2⟩ := h.out.add_order m
          refine lift (x := { s with stack := { f with buf, added := true } :: rest, out := s.out.add m }) rfl { goOn with frames := ?_, chain := Chain.congr (hpaths _ rfl) h.chain, mode := ?_, out := o1, found := ?_ }
          · intro g hg
            rcases List.mem_cons.mp hg with rfl | hg
            · exact { good := hfr.good, len := hfr.len, ever := hfr.ever, buf := hbuf, added := fun _ => ⟨m, (o2 m).mpr (Or.inl rfl), hp⟩, here := hfr.here, size := Nat.le_trans (Nat.le_of_lt hlt) hfr.size }
            · exact (h.frames g (by rw [hst]; simp [hg])).mono (fun _ h => h) fun x hx => (o2 x).mpr (Or.inr hx)
          · unfold ModeOk
            dsimp only
            rw [hm]
            exact ⟨_, _, rfl, hd⟩
          · intro x hx
            rcases (o2 x).mp hx with rfl | hx
            · exact ⟨i, by rw [← hdp]; exact hseen⟩
            · exact h.found x hx
  | failed f rest e hm hst => exact lift rfl (leave_inv h hst _ fun e => by cases e)
  | resume f rest hm hst =>
    refine lift (x := { s with dirbuf := s.dirbuf.take f.len, mode := .loop }) rfl { h with mode := ?_ }
    have := h.mode
    unfold ModeOk at this
    rw [hm, hst] at this
    obtain ⟨n, h1, h2, h3⟩ := this
    have hfr := h.frames f (by rw [hst]; simp)
    refine ⟨f, rest, hst, ?_⟩
    show s.dirbuf.take f.len = _
    rw [h3, hfr.len, take_join hfr.good]
  | canceled hm hst => exact lift (x := { s with mode := .over none none }) rfl { h with mode := ⟨hst, fun o ho => by cases ho⟩ }
  | error e hm he hst => exact lift (x := { s with mode := .over (some e) none }) rfl { h with mode := ⟨hst, fun o ho => by cases ho⟩ }
  | store hm hst => exact lift (x := { s with mode := .over none (some s.out) }) rfl { h with mode := ⟨hst, fun o ho => by cases ho; exact ⟨rfl, rfl⟩⟩ }

end Rothko
