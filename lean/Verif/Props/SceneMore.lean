import Verif.Props.Scene
import Verif.Model.Viridis
/-!
# What the colours tell (C87), and examples for C86 and C87
-/
namespace Rothko

/-! ## The colours of viridis -/

/-- The estimated shares: 0, 1, and the odd multiples of 1/128. -/
theorem cdf_values (Q : Rat → F64) (x : F64) : ∃ k : ℕ, k ≤ 128 ∧ (k = 0 ∨ k = 128 ∨ k % 2 = 1) ∧ cdfOf Q x = (k : ℚ) / 128 := by
  unfold cdfOf
  split
  · exact ⟨0, by norm_num, Or.inl rfl, by norm_num⟩
  · split
    · exact ⟨128, by norm_num, Or.inr (Or.inl rfl), by norm_num⟩
    · obtain ⟨c, h1, h2, h3⟩ := bis_grid Q x 6 0 0
      norm_num at h1 h3
      exact ⟨2 * c + 1, by omega, Or.inr (Or.inr (by omega)), by rw [h1]; push_cast; ring⟩

theorem viridis_length : viridis.length = 256 := by decide +kernel

/-- The colour a share is drawn in. -/
theorem share_colour (k : ℕ) : viridis[⌊(k : ℚ) / 128 * ((viridis.length - 1 : ℕ) : ℚ)⌋₊]? = viridis[k * 255 / 128]? := by
  rw [viridis_length, show (k : ℚ) / 128 * ((256 - 1 : ℕ) : ℚ) = ((k * 255 : ℕ) : ℚ) / ((128 : ℕ) : ℚ) by push_cast; ring, floor_div_nat (by norm_num)]

theorem viridis_plain : ∀ c ∈ viridis, c ≠ white ∧ c ≠ black ∧ ¬ (c.r = c.g ∧ c.g = c.b) := by decide +kernel

theorem viridis_apart : ∀ i : Fin 129, ∀ j : Fin 129, (i.val = 0 ∨ i.val = 128 ∨ i.val % 2 = 1) → (j.val = 0 ∨ j.val = 128 ∨ j.val % 2 = 1) → viridis[i.val * 255 / 128]? = viridis[j.val * 255 / 128]? → i = j := by
  decide +kernel

/-- **C87** (white). A pixel of the heatmap in the colours of the API has not the colour of the background, nor a grey one, where there is an interval over it: with `C87_shown`, white pixels are exactly those without observations. -/
theorem C87_white {e : Outside} {state : List Obs → List F64} {n h : ℕ} {newest : List Obs} {over : List (List Obs)} {row : ℕ} {c : Color} (hc : RowColour e state viridis n h newest over row c) :
    c ≠ white ∧ c ≠ black ∧ ¬ (c.r = c.g ∧ c.g = c.b) := by
  obtain ⟨_, _, _, _, _, _, h⟩ := hc
  exact viridis_plain c (List.mem_of_getElem? h)

/-- **C87** (distinct). Two values are drawn in the same colour of the API's only if the estimated share of the newest interval's observations below them is the same: the colour tells the share. -/
theorem C87_distinct (Q Q' : Rat → F64) (v v' : F64) (h : viridis[⌊cdfOf Q v * ((viridis.length - 1 : ℕ) : ℚ)⌋₊]? = viridis[⌊cdfOf Q' v' * ((viridis.length - 1 : ℕ) : ℚ)⌋₊]?) : cdfOf Q v = cdfOf Q' v' := by
  obtain ⟨k, k1, k2, e⟩ := cdf_values Q v
  obtain ⟨j, j1, j2, e'⟩ := cdf_values Q' v'
  rw [e, e', share_colour, share_colour] at h
  have := viridis_apart ⟨k, by omega⟩ ⟨j, by omega⟩ k2 j2 h
  have : k = j := congrArg Fin.val this
  rw [e, e', this]

/-! ## Example -/

/-- Eight bytes each. -/
def packF (l : List F64) : Bytes := (l.map (fun v => leBytes 8 v.toNat)).flatten

/-- The other way. -/
def unpackF : ℕ → Bytes → List F64
  | 0, _ => []
  | n + 1, b => BitVec.ofNat 64 (leNat (b.take 8)) :: unpackF n (b.drop 8)

theorem unpack_pack (l : List F64) : unpackF ((packF l).length / 8) (packF l) = l := by
  have hlen : ∀ l : List F64, (packF l).length = 8 * l.length := by
    intro l
    induction l with
    | nil => rfl
    | cons a l ih =>
      have : packF (a :: l) = leBytes 8 a.toNat ++ packF l := rfl
      rw [this, List.length_append, ih, leBytes_length, List.length_cons]
      omega
  rw [hlen, Nat.mul_div_cancel_left _ (by norm_num)]
  induction l with
  | nil => rfl
  | cons a l ih =>
    have : packF (a :: l) = leBytes 8 a.toNat ++ packF l := rfl
    have h8 := leBytes_length 8 a.toNat
    rw [this, List.length_cons]
    unfold unpackF
    rw [show (leBytes 8 a.toNat ++ packF l).take 8 = leBytes 8 a.toNat by
      have := List.take_left (l₁ := leBytes 8 a.toNat) (l₂ := packF l)
      rwa [h8] at this, show (leBytes 8 a.toNat ++ packF l).drop 8 = packF l by
      have := List.drop_left (l₁ := leBytes 8 a.toNat) (l₂ := packF l)
      rwa [h8] at this, ih, leNat_leBytes, Nat.mod_eq_of_lt (by have := a.isLt; norm_num at this ⊢; exact this), BitVec.ofNat_toNat, BitVec.setWidth_eq]

/-- A digest that is the first four values it was given, two of another one merged into it; the quantiles are those values in their order. Texts are not drawn. -/
def exOut : Outside where
  fromBytes b := some (unpackF (b.length / 8) b)
  empty := []
  merge a b := some (a ++ b)
  marshal := packF
  quant t q := t.getD ⌊q * (t.length - 1 : ℕ)⌋₊ 0
  half v := v
  rankText _ := [48, 46, 53, 48]
  valueText _ := [49, 46, 48, 48]
  rateText _ := [111]
  timeText _ := [49, 47, 50, 32, 64, 32, 49, 50, 58, 48, 48]
  ink _ _ _ _ pix := pix
  junk _ := 7

theorem exOut_ok : exOut.Ok := ⟨fun _ => (by intro h; cases h), fun _ _ _ _ _ _ _ _ him => ⟨him, fun _ _ _ _ _ => rfl⟩⟩

/-- The first four values. -/
def firstFour (vals : List Obs) : List F64 := (vals.take 4).map Obs.val

/-- A database of four slots with these digests. -/
def exPipeT : PipeCfg := { cfg := exCfg4, d := { kind := tdigestKind, marshal := fun vals => packF (firstFour vals) } }

theorem exLibrary : Library exOut exPipeT.d firstFour := ⟨rfl, fun vals => congrArg some (unpack_pack _), fun t => congrArg some (unpack_pack t), fun _ _ => (by intro h; cases h)⟩

set_option maxRecDepth 100000 in
/-- **C86 example.** The hypotheses of `C86_times` and `C86_ranks` are met by a graph of a day. -/
theorem C86_example : triedSizes (graphMeasure (sceneStyle exOut { obs := [0x3ff0000000000000#64, 0x4000000000000000#64] }) (exGraph 1)) = some (41, 25, 911, 300) := by decide +kernel

set_option maxRecDepth 100000 in
theorem exMeasuredT : triedSizes (graphMeasure (sceneStyle exOut { obs := [0x4008000000000000#64] }) { earliest := true, now := 41, duration := 110, width := 100, height := 53, padding := 1 }) = some (38, 22, 11, 3) := by decide +kernel

/-- **C87 example.** Metric "a" was observed and dumped at 20 and at 30. The middle row of the picture of the 110 nanoseconds before 41, with ten nanoseconds a pixel, shows, from right to left: nothing, three colours of the newest
record's, nothing. -/
theorem C87_example : ∃ c pix, (servePng (theScene exOut (2 : ℕ) viridis) exCfg4 41 110 100 53 1 ((exPOps.foldl (POp.run exPipeT) (Pipe.start (fun _ => false) (fun _ _ => true))).db [97])).1 = .png c pix ∧ c.width.toNat = 102 ∧
    pixel pix 102 48 23 = some (white, 255) ∧ (∀ x ∈ [45, 46, 47], ∃ k, pixel pix 102 x 23 = some (k, 255) ∧ k ≠ white) ∧ pixel pix 102 44 23 = some (white, 255) := by
  obtain ⟨_, f2, f3, f4⟩ := C70_example_hyps
  obtain ⟨newest, stored, dropped, hk, hnew, hdrop, key⟩ := C87_shown exOut_ok (n := 2) (by norm_num) (by norm_num) (colors := viridis) (by rw [viridis_length]; norm_num) (by rw [viridis_length]; norm_num) exPipeT exLibrary 1 rfl f4
    (C70_fits exPipeT 1 32 (by decide) (fun vals => by
      show (packF (firstFour vals)).length ≤ 32
      unfold packF firstFour
      rw [List.length_flatten, List.map_map]
      have : (List.length ∘ fun v : F64 => leBytes 8 v.toNat) = fun _ => 8 := by funext v; exact leBytes_length 8 _
      rw [this, List.map_const', List.sum_replicate, List.length_map, List.length_take]
      show min 4 vals.length * 8 ≤ 32
      omega) (by decide)) (fun _ => false) (fun _ _ => true) exPOps f2 (by decide) f3 [97] (by rw [exKept]; simp) 41 110 (by decide) 100 53 1 (by rw [exKept]; decide) (by decide) (by decide) (by decide) (by decide)
  have hd0 : dropped = [] := hdrop (by decide)
  rw [hd0, List.append_nil, exKept] at hk
  subst hk
  injection hnew with hnew
  subst hnew
  have hm := exMeasuredT
  have hobs : firstFour (obsOf [97] [([97], (⟨0x4008000000000000#64, [], 3⟩ : Obs))]) = [0x4008000000000000#64] := by decide +kernel
  dsimp only at key
  rw [hobs] at key
  cases h : graphMeasure (sceneStyle exOut { obs := [0x4008000000000000#64] }) { earliest := true, now := 41, duration := 110, width := 100, height := 53, padding := 1 } with
  | panic => rw [h] at hm; cases hm
  | small => rw [h] at hm; cases hm
  | ok m =>
    rw [h] at hm
    have h1 : some (m.x, m.y, m.width, m.height) = some (38, 22, 11, 3) := hm
    obtain ⟨mx, my, mw, mh⟩ : m.x = 38 ∧ m.y = 22 ∧ m.width = 11 ∧ m.height = 3 := by
      injection h1 with h1; injection h1 with a h1; injection h1 with b h1; injection h1 with c d; exact ⟨a, b, c, d⟩
    obtain ⟨c, pix, hp, hw, _, _, hpix, _, _⟩ := key m h (by omega) (by omega) (by rw [mh]; decide) (by rw [mh, viridis_length]; decide)
    have hw : c.width = 102 := hw
    have e : c.width.toNat = 102 := by rw [hw]; rfl
    refine ⟨c, pix, hp, e, ?_⟩
    rw [e, mx, my, mw, mh] at hpix
    have none_ : ∀ x : ℕ, x < 11 → batchesAt 41 110 11 ((exPOps.foldl PSpec.step {}).kept [97]) x = [] → pixel pix 102 (38 + x) 23 = some (white, 255) := by
      intro x hx hb
      obtain ⟨k, hk, hc⟩ := hpix x 1 (by omega) (by omega)
      rw [exKept] at hb
      rw [if_pos hb] at hc
      rw [← hc]
      exact hk
    have some_ : ∀ x : ℕ, x < 11 → batchesAt 41 110 11 ((exPOps.foldl PSpec.step {}).kept [97]) x ≠ [] → ∃ k, pixel pix 102 (38 + x) 23 = some (k, 255) ∧ k ≠ white := by
      intro x hx hb
      obtain ⟨k, hk, hc⟩ := hpix x 1 (by omega) (by omega)
      rw [exKept] at hb
      rw [if_neg hb] at hc
      exact ⟨k, hk, (C87_white hc).1⟩
    refine ⟨none_ 10 (by decide) (by decide +kernel), fun x hx => ?_, none_ 6 (by decide) (by decide +kernel)⟩
    simp only [List.mem_cons, List.not_mem_nil, or_false] at hx
    rcases hx with rfl | rfl | rfl
    · exact some_ 7 (by decide) (by decide +kernel)
    · exact some_ 8 (by decide) (by decide +kernel)
    · exact some_ 9 (by decide) (by decide +kernel)

end Rothko
