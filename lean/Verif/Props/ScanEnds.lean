import Verif.Props.Scan
/-!
# C114: a scan ends
-/
namespace Rothko

/-! ## A measure -/

/-- The number with these digits, the first the most significant. -/
def digitNum (B : Nat) (d : Nat → Nat) : Nat → Nat
  | 0 => d 0
  | n + 1 => digitNum B d n * B + d (n + 1)

theorem digitNum_congr {B : Nat} {d d' : Nat → Nat} : ∀ n, (∀ j, j ≤ n → d' j = d j) → digitNum B d' n = digitNum B d n := by
  intro n
  induction n with
  | zero => intro h; exact h 0 (Nat.le_refl _)
  | succ n ih => intro h; rw [digitNum, digitNum, ih fun j hj => h j (by omega), h (n + 1) (Nat.le_refl _)]

theorem digitNum_lt {B : Nat} {d d' : Nat → Nat} (hb : ∀ j, d' j < B) : ∀ n k, k ≤ n → (∀ j, j < k → d' j = d j) → d' k < d k → digitNum B d' n < digitNum B d n := by
  intro n
  induction n with
  | zero =>
    intro k hk _ h
    have : k = 0 := by omega
    subst this
    exact h
  | succ n ih =>
    intro k hk hj h
    rw [digitNum, digitNum]
    by_cases e : k = n + 1
    · subst e
      rw [digitNum_congr n fun j hj' => hj j (by omega)]
      omega
    · have := ih k (by omega) hj h
      have h2 : (digitNum B d' n + 1) * B ≤ digitNum B d n * B := Nat.mul_le_mul_right B this
      rw [Nat.add_mul, Nat.one_mul] at h2
      have := hb (n + 1)
      omega

section
variable (L : List (List Bytes))

/-- The names that entries can have. -/
def entryNames : List Bytes := [46] :: [46, 46] :: L.map fun p => p.getLastD []

open Classical in
/-- How many of them are still to come. -/
noncomputable def DirFd.left (fd : DirFd) : Nat := (entryNames L).countP fun n => decide (¬ fd.given n)

noncomputable def ScanFrame.rank (f : ScanFrame) : Nat := 4097 * f.fd.left L + f.buf.length + 1

/-- More than any rank. -/
def rankTop : Nat := 4097 * (L.length + 2) + 4098

noncomputable def scanDigit (st : List ScanFrame) (pend j : Nat) : Nat :=
  match st.reverse[j]? with
  | some f => f.rank L
  | none => if j = st.length then pend else 0

def ScanMode.pend : ScanMode → Nat
  | .call => rankTop L
  | _ => 0

def ScanMode.rank : ScanMode → Nat
  | .back _ => 1
  | _ => 0

/-- No path is longer. -/
def pathMax : Nat := (L.map List.length).foldr max 0 + 1

noncomputable def Scan.measure (s : Scan) : Nat := 2 * digitNum (rankTop L + 1) (scanDigit L s.stack (s.mode.pend L)) (pathMax L) + s.mode.rank
end

section
variable {L : List (List Bytes)}

theorem left_le (fd : DirFd) : fd.left L ≤ L.length + 2 := by
  unfold DirFd.left
  refine Nat.le_trans List.countP_le_length ?_
  simp [entryNames]

theorem rank_lt {f : ScanFrame} (h : f.buf.length ≤ 4096) : f.rank L < rankTop L := by
  unfold ScanFrame.rank rankTop
  have := Nat.mul_le_mul_left 4097 (left_le (L := L) f.fd)
  omega

theorem pathMax_lt {p : List Bytes} (h : p ∈ L) : p.length < pathMax L := by
  unfold pathMax
  refine Nat.lt_succ_of_le ?_
  induction L with
  | nil => cases h
  | cons q L ih =>
    rw [List.map_cons, List.foldr_cons]
    rcases List.mem_cons.mp h with rfl | h
    · exact Nat.le_max_left _ _
    · exact Nat.le_trans (ih h) (Nat.le_max_right _ _)

theorem scanDigit_below (f : ScanFrame) (rest : List ScanFrame) (a b j : Nat) (h : j < rest.length) : scanDigit L (f :: rest) a j = scanDigit L rest b j := by
  unfold scanDigit
  rw [List.reverse_cons, List.getElem?_append_left (by rw [List.length_reverse]; exact h), List.getElem?_eq_getElem (by rw [List.length_reverse]; exact h)]

theorem scanDigit_top (f : ScanFrame) (rest : List ScanFrame) (a : Nat) : scanDigit L (f :: rest) a rest.length = f.rank L := by
  unfold scanDigit
  rw [List.reverse_cons, List.getElem?_append_right (by rw [List.length_reverse]; exact Nat.le_refl _)]
  simp

theorem scanDigit_pend (st : List ScanFrame) (a : Nat) : scanDigit L st a st.length = a := by
  unfold scanDigit
  rw [List.getElem?_eq_none (by rw [List.length_reverse]; exact Nat.le_refl _)]
  simp

theorem scanDigit_same (st : List ScanFrame) (a b j : Nat) (h : j < st.length) : scanDigit L st a j = scanDigit L st b j := by
  unfold scanDigit
  rw [List.getElem?_eq_getElem (by rw [List.length_reverse]; exact h)]

theorem scanDigit_lt {st : List ScanFrame} {a : Nat} (hs : ∀ f ∈ st, f.buf.length ≤ 4096) (ha : a ≤ rankTop L) (j : Nat) : scanDigit L st a j < rankTop L + 1 := by
  unfold scanDigit
  split
  · rename_i f hf
    have := rank_lt (L := L) (hs f (List.mem_reverse.mp (List.mem_of_getElem? hf)))
    omega
  · split <;> omega

theorem scanPend_le (m : ScanMode) : m.pend L ≤ rankTop L := by
  cases m <;> simp [ScanMode.pend]

theorem left_returned {fd : DirFd} {whole : Prop} {w : World} {es : List Entry} (hr : fd.CanRead whole w es) (he : ∀ n, fd.ever n → fd.path ++ [n] ∈ L) : (fd.returned es).left L < fd.left L := by
  classical
  obtain ⟨e, hmem⟩ : ∃ e, e ∈ es := by
    cases hes : es with
    | nil => exact absurd hes hr.some
    | cons e es => exact ⟨e, by simp⟩
  have hin : e.name ∈ entryNames L := by
    unfold entryNames
    rcases hr.ever e hmem with (hd | hd) | hd
    · rw [hd]; simp
    · rw [hd]; simp
    · refine List.mem_cons_of_mem _ (List.mem_cons_of_mem _ (List.mem_map.mpr ⟨_, he _ hd, ?_⟩))
      simp [List.getLastD_eq_getLast?]
  have hnew := hr.new e hmem
  unfold DirFd.left
  obtain ⟨a, b, hab⟩ := List.append_of_mem hin
  rw [hab, List.countP_append, List.countP_append, List.countP_cons, List.countP_cons]
  have mono : ∀ l : List Bytes, l.countP (fun n => decide (¬ (fd.returned es).given n)) ≤ l.countP (fun n => decide (¬ fd.given n)) := by
    intro l
    refine List.countP_mono_left fun n _ hn => ?_
    rw [decide_eq_true_iff] at hn ⊢
    exact fun h => hn (Or.inl h)
  have h1 := mono a
  have h2 := mono b
  rw [if_neg (by rw [decide_eq_true_iff]; exact fun h => h (Or.inr ⟨e, hmem, rfl⟩)), if_pos (by rw [decide_eq_true_iff]; exact hnew)]
  omega

/-- Each step of the scan lowers the measure. -/
theorem go_down {whole : List Bytes → Prop} {seen : List Bytes → Prop} {fds : List Nat} {s s' : Scan} (hL : ∀ p, seen p → p ∈ L) (h : ScanInv seen fds s) (h' : ∀ f ∈ s'.stack, f.buf.length ≤ 4096) (hs : s.Go whole s') : s'.measure L < s.measure L := by
  have hlen : s.stack.length ≤ pathMax L := by
    cases hst : s.stack with
    | nil => exact Nat.zero_le _
    | cons f rest =>
      rw [chain_length (by rw [← hst]; exact h.chain)]
      exact pathMax_lt (hL _ (h.frames f (by rw [hst]; simp)).here)
  have hD : ∀ {f : ScanFrame} {rest : List ScanFrame}, s.stack = f :: rest → rest.length ≤ pathMax L := by
    intro f rest e
    rw [e, List.length_cons] at hlen
    omega
  -- how digits give the measure
  have down : ∀ k, k ≤ pathMax L → (∀ j, j < k → scanDigit L s'.stack (s'.mode.pend L) j = scanDigit L s.stack (s.mode.pend L) j) → scanDigit L s'.stack (s'.mode.pend L) k < scanDigit L s.stack (s.mode.pend L) k → s'.measure L < s.measure L := by
    intro k hk hj hd
    have := digitNum_lt (scanDigit_lt h' (scanPend_le s'.mode)) (pathMax L) k hk hj hd
    have hm : s'.mode.rank ≤ 1 := by cases s'.mode <;> simp [ScanMode.rank]
    unfold Scan.measure
    omega
  -- a call that comes to nothing
  have nothing : s.mode = .call → ∀ r, s'.stack = s.stack → s'.mode = .back r → s'.measure L < s.measure L := by
    intro hm r e1 e2
    refine down s.stack.length hlen (fun j hj => ?_) ?_
    · rw [e1]; exact scanDigit_same _ _ _ _ hj
    · rw [e1, scanDigit_pend, scanDigit_pend, hm, e2]
      show 0 < rankTop L
      unfold rankTop
      omega
  -- an activation returns
  have back : ∀ {f : ScanFrame} {rest : List ScanFrame}, s.stack = f :: rest → s'.stack = rest → s'.mode.pend L = 0 → s'.measure L < s.measure L := by
    intro f rest e1 e2 e3
    refine down rest.length (hD e1) (fun j hj => ?_) ?_
    · rw [e1, e2]; exact (scanDigit_below f rest _ _ j hj).symm
    · rw [e1, e2, scanDigit_top, scanDigit_pend, e3]
      unfold ScanFrame.rank
      omega
  -- an activation goes on
  have on : ∀ {f f' : ScanFrame} {rest : List ScanFrame}, s.stack = f :: rest → s'.stack = f' :: rest → f'.rank L < f.rank L → s'.measure L < s.measure L := by
    intro f f' rest e1 e2 e3
    refine down rest.length (hD e1) (fun j hj => ?_) ?_
    · rw [e1, e2, scanDigit_below f' rest _ 0 j hj, scanDigit_below f rest _ 0 j hj]
    · rw [e1, e2, scanDigit_top, scanDigit_top]
      exact e3
  cases hs with
  | done e hm he => exact nothing hm _ rfl rfl
  | noent hm hw => exact nothing hm _ rfl rfl
  | openErr hm => exact nothing hm _ rfl rfl
  | opened k num hm hk hnum =>
    refine down s.stack.length hlen (fun j hj => ?_) ?_
    · exact scanDigit_below _ _ _ _ j hj
    · dsimp only
      rw [scanDigit_top, scanDigit_pend, hm]
      exact rank_lt (Nat.zero_le _)
  | notDir f rest hm hst hb hk => exact back hst rfl rfl
  | readErr f rest hm hst hb => exact back hst rfl rfl
  | eof f rest hm hst hb hk he => exact back hst rfl rfl
  | read f rest es hm hst hb hk hr =>
    refine on hst rfl ?_
    have hf := h.frames f (by rw [hst]; simp)
    have := left_returned (L := L) hr (fun n hn => hL _ (hf.ever n hn))
    have hfit := hr.fits
    unfold ScanFrame.rank
    dsimp only
    have := Nat.mul_le_mul_left 4097 (Nat.succ_le_of_lt this)
    rw [Nat.mul_succ] at this
    omega
  | entry f rest hm hst hb =>
    have hfr := h.frames f (by rw [hst]; simp)
    obtain ⟨e, buf, name, hn, hl, hbuf, hlt, _⟩ := entry_front hfr hb
    have hrank : ∀ b, ({ f with buf, added := b } : ScanFrame).rank L < f.rank L := by
      intro b
      unfold ScanFrame.rank
      dsimp only
      omega
    have hcase : (∃ b, (s.entry f rest).stack = { f with buf, added := b } :: rest) ∨ ∃ r, s.entry f rest = s.leave f rest r := by
      unfold Scan.entry
      rw [hn]
      dsimp only
      split
      · exact Or.inl ⟨_, rfl⟩
      · split
        · exact Or.inl ⟨_, rfl⟩
        · split
          · exact Or.inl ⟨_, rfl⟩
          · split
            · exact Or.inr ⟨_, rfl⟩
            · exact Or.inl ⟨_, rfl⟩
    rcases hcase with ⟨b, hc⟩ | ⟨r, hc⟩
    · exact on hst hc (hrank b)
    · exact back hst (by rw [hc]; rfl) (by rw [hc]; rfl)
  | failed f rest e hm hst => exact back hst rfl rfl
  | resume f rest hm hst =>
    unfold Scan.measure
    dsimp only
    rw [hm]
    show _ < 2 * digitNum _ (scanDigit L s.stack 0) _ + 1
    exact Nat.lt_succ_self _
  | canceled hm hst =>
    unfold Scan.measure
    dsimp only
    rw [hm]
    show _ < 2 * digitNum _ (scanDigit L s.stack 0) _ + 1
    exact Nat.lt_succ_self _
  | error e hm he hst =>
    unfold Scan.measure
    dsimp only
    rw [hm]
    show _ < 2 * digitNum _ (scanDigit L s.stack 0) _ + 1
    exact Nat.lt_succ_self _
  | store hm hst =>
    unfold Scan.measure
    dsimp only
    rw [hm]
    show _ < 2 * digitNum _ (scanDigit L s.stack 0) _ + 1
    exact Nat.lt_succ_self _

/-- **C114** (a scan ends). If there are finitely many paths at which there ever is something, and changes in the file system end some time, and the scan is not kept waiting for ever by a system call or the scheduler, then it is over some time: `PopulateMetrics`
returns. -/
theorem C114_ends {whole : List Bytes → Prop} {fds : List Nat} {σ : Nat → Scan} (hr : Scan.Run whole fds σ) (hL : ∀ t p, (σ t).w p ≠ none → p ∈ L) (hq : ∃ T, ∀ t, T ≤ t → (σ t).Go whole (σ (t + 1)) ∨ σ (t + 1) = σ t)
    (hf : ∀ t, (∀ r st, (σ t).mode ≠ .over r st) → ∃ t', t ≤ t' ∧ (σ t').Go whole (σ (t' + 1))) : ∃ T r st, (σ T).mode = .over r st := by
  obtain ⟨T, hT⟩ := hq
  refine Classical.byContradiction fun hno => ?_
  have hseen : ∀ t p, SeenBy σ t p → p ∈ L := fun t p ⟨t', _, h⟩ => hL t' p h
  have mono : ∀ t, T ≤ t → ∀ t', t ≤ t' → (σ t').measure L ≤ (σ t).measure L := by
    intro t ht t' htt
    induction htt with
    | refl => exact Nat.le_refl _
    | @step u hu ih =>
      rcases hT u (Nat.le_trans ht hu) with h | h
      · exact Nat.le_trans (Nat.le_of_lt (go_down (hseen u) (run_inv hr u) (fun f hf => ((run_inv hr (u + 1)).frames f hf).size) h)) ih
      · rw [h]; exact ih
  have key : ∀ k t, T ≤ t → (σ t).measure L ≤ k → False := by
    intro k
    induction k with
    | zero =>
      intro t ht hk
      obtain ⟨t', h1, h2⟩ := hf t fun r st e => hno ⟨t, r, st, e⟩
      have := go_down (hseen t') (run_inv hr t') (fun f hf => ((run_inv hr (t' + 1)).frames f hf).size) h2
      have := mono t ht t' h1
      omega
    | succ k ih =>
      intro t ht hk
      obtain ⟨t', h1, h2⟩ := hf t fun r st e => hno ⟨t, r, st, e⟩
      have := go_down (hseen t') (run_inv hr t') (fun f hf => ((run_inv hr (t' + 1)).frames f hf).size) h2
      have := mono t ht t' h1
      exact ih (t' + 1) (by omega) (by omega)
  exact key _ T (Nat.le_refl _) (Nat.le_refl _)
end

end Rothko
