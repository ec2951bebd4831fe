import Verif.Props.SharedMore
import Verif.Props.Metric
/-!
# C96: a process that was never interrupted loses no mapping
-/
namespace Rothko

theorem visit_error {σ : Type} (cb : σ → Val → σ × Cb) (e : MErr) : ∀ (L : List Val) (st : σ), (visit cb L st).2.error = some e → e = .callback ∨ e = .cancelled := by
  intro L
  induction L with
  | nil => intro st h; cases h
  | cons v L ih =>
    intro st h
    unfold visit at h
    rcases hc : cb st v with ⟨st', c⟩
    rw [hc] at h
    cases c with
    | more => exact ih st' h
    | stop => cases h
    | err => injection h with h; exact Or.inl h.symm
    | cancel => injection h with h; exact Or.inr h.symm

theorem query_errors {s : Store} {acc : List Val} (h : Reach s acc) {σ : Type} (cfg : Cfg) (hg : GeoOk cfg.size cfg.cap) (bound : Int64) (cb : σ → Val → σ × Cb) (st : σ) (e : FErr) :
    (dbQuery cfg bound cb st s).1.2 ≠ some (.file e) := by
  obtain ⟨h1, h2⟩ := C15_query_sound h cfg hg bound
  cases hd : s.dirExists with
  | false =>
    rw [(h1 hd).2 σ cb st]
    intro h; injection h with h; cases h
  | true =>
    obtain ⟨L, _, _, _, hL⟩ := h2 hd
    rw [hL σ cb st]
    intro h
    rcases visit_error cb _ _ _ h with h | h <;> cases h

theorem write_errors {s : Store} {acc : List Val} (h : Reach s acc) (cfg : Cfg) (v : Val) (hg : GeoOk cfg.size cfg.cap) (hfit : needs cfg.size v.data.length ≤ cfg.cap) (e : FErr) :
    (dbWrite cfg v s).1 ≠ .failed (.file e) := by
  have key : ∀ {s : Store} {acc : List Val} {first last : Int} {H : Int → Handle} {V : Int → List Val} {d : List Val} (x : WRes × Store), WriteStep cfg v s acc first last H V d x → x.1 ≠ .failed (.file e) := by
    intro s acc first last H V d x hx
    cases hx <;> (intro h; injection h)
    rename_i h; cases h
  rcases h.inv with ⟨hd, hc, ha⟩ | ⟨first, last, H, V, d, inv, _⟩
  · obtain ⟨s', H, e', inv⟩ := fresh_newMetric s hd hc cfg hg false (Or.inl rfl)
    have hw := inv.write cfg v hg hfit
    have he : dbWrite cfg v s' = dbWrite cfg v s := by
      unfold dbWrite; rw [e', inv.core.dirInv.newMetric]
    rw [he] at hw
    exact key _ hw
  · exact key _ (inv.write cfg v hg hfit)

/-- After an uninterrupted history no call fails because of a file. -/
theorem call_whole {s : Store} {acc : List Val} (h : Reach s acc) (o : DbCall) (ho : o.Ok) : (o.run s).1.broken = false := by
  cases o with
  | write cfg v =>
    have := write_errors h cfg v ho.1 ho.2
    unfold DbCall.run
    dsimp only
    generalize (dbWrite cfg v s).1 = r at this
    cases r with
    | written => rfl
    | notWritten => rfl
    | failed e => cases e <;> first | rfl | exact absurd rfl (this _)
  | query cfg b cb =>
    have := query_errors h cfg ho b (fun seen v => (seen ++ [v], cb seen v)) []
    unfold DbCall.run queryList
    dsimp only
    generalize (dbQuery cfg b (fun seen v => (seen ++ [v], cb seen v)) [] s).1 = r at this
    obtain ⟨l, e⟩ := r
    cases e with
    | none => rfl
    | some e => cases e <;> first | rfl | exact absurd rfl (this _)
  | latest cfg =>
    have := query_errors h cfg ho 0x7fffffffffffffff (fun (_ : Option Val) v => (some v, Cb.stop)) none
    unfold DbCall.run dbQueryLatest
    dsimp only
    generalize (dbQuery cfg 0x7fffffffffffffff (fun (_ : Option Val) v => (some v, Cb.stop)) none s).1 = r at this
    obtain ⟨l, e⟩ := r
    cases e with
    | none => rfl
    | some e => cases e <;> first | rfl | exact absurd rfl (this _)

theorem serial_whole {s0 t : Store} {acc : List Val} (h0 : Reach s0 acc) {evs : List (Option (Nat × DbCall × DbRes))} (h : Serial DbCall.run mkdirEnv s0 evs t) (hok : ∀ e ∈ evs.filterMap id, e.2.1.Ok) :
    ∀ e ∈ evs.filterMap id, e.2.2.broken = false := by
  induction h with
  | nil => intro e he; cases he
  | op i o r h1 hf ih =>
    rw [List.filterMap_append] at hok ⊢
    have hok' := fun e he => hok e (List.mem_append_left _ he)
    intro e he
    rcases List.mem_append.mp he with he | he
    · exact ih hok' e he
    · have he : e ∈ [(i, o, r)] := he
      rw [List.mem_singleton.mp he]
      have := call_whole (serial_reach h0 h1 hok') o (hok (i, o, r) (by simp))
      rw [hf] at this
      exact this
  | env h1 ih =>
    rw [List.filterMap_append] at hok ⊢
    intro e he
    rcases List.mem_append.mp he with he | he
    · exact ih (fun e he => hok e (List.mem_append_left _ he)) e he
    · cases he

section
variable {n : Nat} {d : Bytes} {progs : List (List (Bytes × DbCall))} {fs : Bytes → Store} {s : FsSys DbCall DbRes}

theorem log_ok (hn : n < 2 ^ 63) (h : FsSys.Reach dbCalls (dbPath d) n progs fs s) (hok : ∀ p ∈ progs, ∀ c ∈ p, c.2.Ok) : ∀ e ∈ s.log, e.2.2.1.Ok := by
  intro ⟨i, k', o, r⟩ hm
  obtain ⟨H, ch, hi, hs⟩ := handles_reach hn h
  obtain ⟨hits, ids, hext, _⟩ := extends_some fs ch (fun _ _ => false)
  obtain ⟨st, hr, _⟩ := hs hits ids hext
  have hlen : i < progs.length := fs_log_lt h _ hm
  obtain ⟨rest, e⟩ := C59_order fsMachine_implements fsMachine_settled hr i progs[i] (List.getElem?_eq_getElem hlen)
  have : (k', o) ∈ progs[i] := by
    rw [← e]
    refine List.mem_append_left _ (List.mem_map.mpr ⟨(i, k', o, r), List.mem_filter.mpr ⟨hm, by simp⟩, rfl⟩)
  exact hok _ (List.getElem_mem hlen) _ this

theorem finished_whole (hn : n < 2 ^ 63) (h : FsSys.Reach dbCalls (dbPath d) n progs fs s) (hok : ∀ p ∈ progs, ∀ c ∈ p, c.2.Ok) (k : Bytes) (acc : List Val) (h0 : AfterHistory (fs k) acc) (hq : s.quiet k) :
    ∀ e ∈ s.log, e.2.1 = k → e.2.2.2.broken = false := by
  obtain ⟨t0, hsame, hr0⟩ := h0
  obtain ⟨hit, evs, t, e1, e2, e3, e4⟩ := C96_serial hn h k hq t0 hsame
  have hall := serial_whole (reach_restart (reach_oracle hr0 hit e1)) e2 (by
    rw [e3]
    intro e he
    unfold FsSys.finished at he
    obtain ⟨e', hm, rfl⟩ := List.mem_map.mp he
    exact log_ok hn h hok e' (List.mem_filter.mp hm).1)
  rw [e3] at hall
  intro e he hk
  exact hall (e.1, e.2.2.1, e.2.2.2) (List.mem_map.mpr ⟨e, List.mem_filter.mpr ⟨he, by simp [hk]⟩, rfl⟩)

/-- The goroutine that finishes a call was the only one at work on the metric. -/
theorem finish_quiet (hn : n < 2 ^ 63) (h : FsSys.Reach dbCalls (dbPath d) n progs fs s) {j : Nat} {m : Bytes} {o : DbCall} {rest : List (Bytes × DbCall)} {p : FsProg DbRes} {pool : LPool} {log : List (Nat × Bytes × DbCall × DbRes)}
    (h1 : s.cl[j]? = some ⟨(m, o) :: rest, .busy p⟩) : FsSys.quiet { s with pool, cl := s.cl.set j ⟨rest, .out⟩, log } m := by
  intro i o' rest' p' hc
  obtain ⟨H, ch, hi, hs⟩ := handles_reach hn h
  rcases client_set_cases hc with ⟨rfl, hw⟩ | ⟨hne, hc⟩
  · cases hw
  · exact hne (hs.alone ⟨o', rest', hc⟩ ⟨o, rest, h1⟩)

theorem log_whole (hn : n < 2 ^ 63) (h : FsSys.Reach dbCalls (dbPath d) n progs fs s) (hok : ∀ p ∈ progs, ∀ c ∈ p, c.2.Ok) (h0 : ∀ k, ∃ acc, AfterHistory (fs k) acc) :
    ∀ e ∈ s.log, e.2.2.2.broken = false := by
  induction h with
  | init => intro e he; cases he
  | step hr hst ih =>
    cases hst with
    | finish j m o rest r a a' q h1 h2 h3 =>
      intro e he
      rcases List.mem_append.mp he with he | he
      · exact ih e he
      · obtain ⟨acc, hacc⟩ := h0 m
        refine finished_whole hn (FsSys.Reach.step hr (.finish j m o rest r a a' q h1 h2 h3)) hok m acc hacc (finish_quiet hn hr h1) e (List.mem_append_right _ he) ?_
        rw [List.mem_singleton.mp he]
    | _ => exact ih

/-- A goroutine that only releases handles can go on until it has finished. -/
theorem failing_finishes (hn : n < 2 ^ 63) (p : FsProg DbRes) : ∀ (s : FsSys DbCall DbRes), FsSys.Reach dbCalls (dbPath d) n progs fs s → p.failing = true → ∀ (j : Nat) (m : Bytes) (o : DbCall) (rest : List (Bytes × DbCall)),
    s.cl[j]? = some ⟨(m, o) :: rest, .busy p⟩ → ∃ s', FsSys.Reach dbCalls (dbPath d) n progs fs s' ∧ ∃ e ∈ s'.log, e.2.2.2.broken = true := by
  induction p with
  | done r =>
    intro s h hf j m o rest hc
    obtain ⟨H, ch, hi, hs⟩ := handles_reach hn h
    obtain ⟨hits, ids, hext, _⟩ := extends_some fs ch (fun _ _ => false)
    obtain ⟨st, hr, _⟩ := hs hits ids hext
    have hinv := hr.inv fsMachine_implements fsMachine_settled
    obtain ⟨a, ha⟩ := hinv.holds (w := .busy (.done r)) (fun h => by cases h) hc
    have ha : s.pool.pcs[j]? = some (.holding m a) := ha
    have hl : s.pool.locks m = some a := hinv.pool.ok.key _ (List.mem_of_getElem? ha) m a (Or.inr rfl)
    have hu : ∃ a' q, s.pool.unlockFirst m = some (a', q) := by
      unfold LPool.unlockFirst
      rw [hl]
      exact ⟨_, _, rfl⟩
    obtain ⟨a', q, hu⟩ := hu
    exact ⟨_, .step h (.finish j m o rest r a a' q hc ha hu), (j, m, o, r), List.mem_append_right _ (List.mem_singleton.mpr rfl), hf⟩
  | release idx x k ih =>
    intro s h hf j m o rest hc
    rcases C96_never_stuck hn h j m o rest _ hc with ⟨r, e⟩ | ⟨p', g, e⟩
    · cases e
    · have hp : p' = k := by
        rw [FsProg.exec] at e
        split at e
        · cases e
        · cases e; rfl
      subst hp
      refine ih _ (.step h (.work j m o rest _ _ g hc e)) hf j m o rest ?_
      have hl := (List.getElem?_eq_some_iff.mp hc).1
      exact List.getElem?_set_self hl
  | acquire cfg idx ex k ih => intro s h hf; cases hf
  | evict idx k ih => intro s h hf; cases hf
  | remove idx k ih => intro s h hf; cases hf
  | load x k ih => intro s h hf; cases hf
  | store x head v f k ih => intro s h hf; cases hf

/-- **C96** (nothing lost). If the files of every metric were left by uninterrupted histories (or there are none) and every call is one that can be accepted, then, whatever the schedule, no mapping is ever lost: at any moment the
process has at most as many mappings as the configured number of handles and two for each goroutine in the middle of a call, and none when the cache is closed at rest. -/
theorem C96_none_lost (hn : n < 2 ^ 63) (h : FsSys.Reach dbCalls (dbPath d) n progs fs s) (hok : ∀ p ∈ progs, ∀ c ∈ p, c.2.Ok) (h0 : ∀ k, ∃ acc, AfterHistory (fs k) acc) :
    s.g.mappings ≤ n + 2 * s.active ∧ (s.active = 0 → ∀ r w, s.g.w.step .close = some (r, w) → ({ s.g with w } : FsState).mappings = 0) := by
  have hl : s.g.leaked = 0 := by
    have h1 := (leak_inv h).2
    have h2 : s.log.countP (fun e => e.2.2.2.broken) = 0 := by
      rw [List.countP_eq_zero]
      intro e he
      rw [log_whole hn h hok h0 e he]
      decide
    have h3 : s.cl.countP isFailing = 0 := by
      rw [List.countP_eq_zero]
      intro c hc hf
      obtain ⟨j, hj⟩ := List.mem_iff_getElem?.mp hc
      unfold isFailing at hf
      split at hf
      · rename_i p e
        obtain ⟨m, o, rest, hb⟩ := busy_call h j c p hj e
        obtain ⟨s', hr', x, hx, hbr⟩ := failing_finishes hn p s h hf j m o rest hb
        rw [log_whole hn hr' hok h0 x hx] at hbr
        cases hbr
      · cases hf
    omega
  have hb := C96_bound hn h
  refine ⟨by omega, fun ha r w hw => ?_⟩
  rw [(C96_rest hn h ha).2 r w hw, hl]

end

end Rothko
