import Verif.Model.Glyph
import Verif.Props.Canvas
import Verif.Props.Picture
/-!
# C95: the texts of a picture can be read
-/
namespace Rothko

/-! ## Specification -/

/-- The characters the font has, but for the carriage return. -/
def Printable (b : UInt8) : Prop := 32 ≤ b.toNat ∧ b.toNat < 127

/-- The mask of a character at row `k / 6`, column `k % 6` of its 14 by 6 pixels. -/
def mask (b : UInt8) (k : Nat) : UInt8 := maskAt (glyphs.getD (b.toNat - 31) 0) k

/-- The grey of a pixel: black through the mask, on white. -/
def grey (v : UInt8) : Color × UInt8 := (⟨255 - v, 255 - v, 255 - v⟩, 255)

/-- The text `t` can be seen in an image of width `W`, the upper left corner of its first character at `(ox, oy)`: the rows from `lo` on and before `hi`, of the 14 rows of each character, 6 pixels wide each. -/
def Seen (pix : Bytes) (W : Nat) (ox oy : Int) (lo hi : Nat) (t : Bytes) : Prop :=
  ∀ (i : Nat) (b : UInt8), t[i]? = some b → ∀ k, 6 * lo ≤ k → k < 6 * hi → pixel pix W (ox + 6 * i + (k % 6 : Nat)).toNat (oy + (k / 6 : Nat)).toNat = some (grey (mask b k))

/-! ## Proof -/

/-- A pixel under a mask's byte. -/
def shade (v : UInt8) (p : Color × UInt8) : Color × UInt8 := (⟨inkByte v p.1.r, inkByte v p.1.g, inkByte v p.1.b⟩, inkAlpha v p.2)

theorem u8_of_toNat {a b : UInt8} (h : a.toNat = b.toNat) : a = b := UInt8.toNat_inj.mp h

theorem div_ink (n : Nat) (h : n < 256) : 257 * n / 256 = n := by
  rw [show 257 * n = n + 256 * n by omega, Nat.add_mul_div_left _ _ (by omega), Nat.div_eq_of_lt h, Nat.zero_add]

theorem inkByte_zero (o : UInt8) : inkByte 0 o = o := by
  apply u8_of_toNat
  have h := o.toNat_lt
  unfold inkByte
  rw [UInt8.toNat_ofNat', show (0 : UInt8).toNat = 0 from rfl, show o.toNat * ((65535 - 0 * 257) * 257) / 65535 = 257 * o.toNat by omega, div_ink _ h, Nat.mod_eq_of_lt h]

theorem inkAlpha_zero (o : UInt8) : inkAlpha 0 o = o := by
  apply u8_of_toNat
  have h := o.toNat_lt
  unfold inkAlpha
  rw [UInt8.toNat_ofNat', show (0 : UInt8).toNat = 0 from rfl, show (o.toNat * ((65535 - 0 * 257) * 257) + 65535 * (0 * 257)) / 65535 = 257 * o.toNat by omega, div_ink _ h, Nat.mod_eq_of_lt h]

theorem shade_zero (p : Color × UInt8) : shade 0 p = p := by
  unfold shade
  rw [inkByte_zero, inkByte_zero, inkByte_zero, inkAlpha_zero]

theorem inkByte_white (v : UInt8) : inkByte v 255 = 255 - v := by
  apply u8_of_toNat
  have := v.toNat_lt
  unfold inkByte
  rw [UInt8.toNat_ofNat', UInt8.toNat_sub, show (255 : UInt8).toNat = 255 from rfl, show 255 * ((65535 - v.toNat * 257) * 257) / 65535 = 257 * (255 - v.toNat) by omega, div_ink _ (by omega)]
  omega

theorem inkAlpha_white (v : UInt8) : inkAlpha v 255 = 255 := by
  apply u8_of_toNat
  have := v.toNat_lt
  unfold inkAlpha
  rw [UInt8.toNat_ofNat', show (255 : UInt8).toNat = 255 from rfl]
  omega

theorem shade_white (v : UInt8) : shade v (white, 255) = grey v := by
  unfold shade grey white
  dsimp only
  rw [inkByte_white, inkAlpha_white]

theorem offset_view {m : Canvas} {W H : Nat} (v : ViewIn m W H) {x y : Int} (hx : -m.x ≤ x ∧ x < m.width) (hy : -m.y ≤ y ∧ y < m.height) :
    ∃ qx qy : Nat, (qx : Int) = m.x + x ∧ (qy : Int) = m.y + y ∧ qx < W ∧ qy < H ∧ m.offset x y = (((qy * W + qx) * 4 : Nat) : Int) := by
  have := v.x; have := v.y
  refine ⟨(m.x + x).toNat, (m.y + y).toNat, by omega, by omega, by omega, by omega, ?_⟩
  have e1 : ((m.x + x).toNat : Int) = m.x + x := by omega
  have e2 : ((m.y + y).toNat : Int) = m.y + y := by omega
  unfold Canvas.offset
  rw [v.stride]
  push_cast
  rw [e1, e2, Int.add_mul ((m.y + y) * ↑W), Int.mul_assoc, Int.mul_comm (W : Int) 4]
  rw [Int.add_comm y, Int.add_comm x]

theorem take_four {l : Bytes} {k : Nat} (h : k + 4 ≤ l.length) : ∃ r g b a, (l.drop k).take 4 = [r, g, b, a] ∧ l[k]? = some r ∧ l[k + 1]? = some g ∧ l[k + 2]? = some b ∧ l[k + 3]? = some a := by
  have e : ∀ j, j < 4 → l[k + j]? = ((l.drop k).take 4)[j]? := by
    intro j hj
    rw [List.getElem?_take_of_lt hj, List.getElem?_drop]
  have hl : ((l.drop k).take 4).length = 4 := by rw [List.length_take, List.length_drop]; omega
  have e0 := e 0 (by omega); have e1 := e 1 (by omega); have e2 := e 2 (by omega); have e3 := e 3 (by omega)
  generalize (l.drop k).take 4 = q at *
  match q, hl with
  | [r, g, b, a], _ => exact ⟨r, g, b, a, rfl, e0, e1, e2, e3⟩

/-- One pixel. -/
theorem inkPixel_spec {c : Canvas} {W H : Nat} {pix : Bytes} (v : ViewIn c W H) (hi : IsImage pix W H) (x y : Int) (m : UInt8) :
    IsImage (inkPixel c x y m pix) W H ∧ ∀ px py : Nat, px < W → py < H → pixel (inkPixel c x y m pix) W px py =
      if (px : Int) = c.x + x ∧ (py : Int) = c.y + y ∧ x < c.width ∧ y < c.height then (pixel pix W px py).map (shade m) else pixel pix W px py := by
  unfold inkPixel
  by_cases h0 : m = 0
  · rw [if_pos (Or.inl h0)]
    refine ⟨hi, fun px py _ _ => ?_⟩
    split
    · rw [h0, show shade 0 = id from funext shade_zero, Option.map_id]; rfl
    · rfl
  by_cases hc : -c.x ≤ x ∧ x < c.width ∧ -c.y ≤ y ∧ y < c.height
  · rw [if_neg (by intro h; rcases h with h | h; exact h0 h; exact h hc)]
    obtain ⟨qx, qy, ex, ey, lx, ly, eo⟩ := offset_view v ⟨hc.1, hc.2.1⟩ ⟨hc.2.2.1, hc.2.2.2⟩
    have hlin := lin_lt lx ly
    have hlen : pix.length = 4 * (W * H) := by unfold IsImage at hi; rw [hi, Nat.mul_assoc]
    have hfit : (qy * W + qx) * 4 + 4 ≤ pix.length := by omega
    obtain ⟨r, g, b, a, e4, er, eg, eb, ea⟩ := take_four hfit
    have hraw : c.raw pix x y = some [r, g, b, a] := by
      unfold Canvas.raw
      rw [eo, if_neg (by omega), Int.toNat_natCast, e4]
    have himg : c.imageOffset x y = (((qy * W + qx) * 4 : Nat) : Int) := by
      rw [← eo]
      unfold Canvas.imageOffset Canvas.offset
      rw [Int.sub_neg, Int.sub_neg]
    rw [hraw]
    dsimp only
    unfold overwrite
    rw [himg, if_neg (by omega), Int.toNat_natCast, Option.getD_some]
    refine ⟨?_, fun px py hpx hpy => ?_⟩
    · unfold IsImage
      rw [List.length_append, List.length_append, List.length_take, List.length_drop, show (4 * W * H) = pix.length by rw [hlen, Nat.mul_assoc]]
      simp only [List.length_cons, List.length_nil]
      omega
    · by_cases hp : px = qx ∧ py = qy
      · obtain ⟨rfl, rfl⟩ := hp
        rw [if_pos ⟨ex, ey, hc.2.1, hc.2.2.2⟩]
        unfold pixel
        have key : ∀ j, j < 4 → (pix.take ((py * W + px) * 4) ++ [inkByte m r, inkByte m g, inkByte m b, inkAlpha m a] ++ pix.drop ((py * W + px) * 4 + [inkByte m r, inkByte m g, inkByte m b, inkAlpha m a].length))[(py * W + px) * 4 + j]? =
            [inkByte m r, inkByte m g, inkByte m b, inkAlpha m a][j]? := by
          intro j hj
          rw [getElem?_over _ _ _ _ (by simpa using hfit), if_pos (by simp; omega)]
          congr 1
          omega
        have k0 := key 0 (by omega); have k1 := key 1 (by omega); have k2 := key 2 (by omega); have k3 := key 3 (by omega)
        rw [Nat.add_zero] at k0
        rw [k0, k1, k2, k3, er, eg, eb, ea]
        rfl
      · rw [if_neg (by rintro ⟨h1, h2, _⟩; exact hp ⟨by omega, by omega⟩)]
        apply pixel_congr
        intro ch hch
        rw [getElem?_over _ _ _ _ (by simpa using hfit), if_neg]
        rintro ⟨h1, h2⟩
        simp only [List.length_cons, List.length_nil] at h2
        have e : py * W + px = qy * W + qx := by omega
        exact hp (lin_inj hpx lx e)
  · rw [if_pos (Or.inr hc)]
    refine ⟨hi, fun px py _ _ => ?_⟩
    rw [if_neg]
    rintro ⟨h1, h2, h3, h4⟩
    exact hc ⟨by omega, h3, by omega, h4⟩

/-- One glyph. -/
theorem inkGlyph_spec {c : Canvas} {W H : Nat} (v : ViewIn c W H) (x y : Int) (g : Nat) (n : Nat) : ∀ (k : Nat) (pix : Bytes), k + n ≤ 84 → IsImage pix W H →
    IsImage (inkGlyph c x y g k n pix) W H ∧ ∀ px py : Nat, px < W → py < H →
      (∀ j, k ≤ j → j < k + n → (px : Int) = c.x + x + (j % 6 : Nat) → (py : Int) = c.y + y - 11 + (j / 6 : Nat) → px < c.x + c.width → py < c.y + c.height →
        pixel (inkGlyph c x y g k n pix) W px py = (pixel pix W px py).map (shade (maskAt g j))) ∧
      ((∀ j, k ≤ j → j < k + n → (px : Int) = c.x + x + (j % 6 : Nat) → (py : Int) = c.y + y - 11 + (j / 6 : Nat) → ¬ (px < c.x + c.width ∧ py < c.y + c.height)) →
        pixel (inkGlyph c x y g k n pix) W px py = pixel pix W px py) := by
  induction n with
  | zero => exact fun k pix _ hi => ⟨hi, fun px py _ _ => ⟨fun j h1 h2 => by omega, fun _ => rfl⟩⟩
  | succ n ih =>
    intro k pix hk hi
    obtain ⟨i1, p1⟩ := inkPixel_spec v hi (x + (k % 6 : Nat)) (y - 11 + (k / 6 : Nat)) (maskAt g k)
    obtain ⟨i2, p2⟩ := ih (k + 1) _ (by omega) i1
    refine ⟨i2, fun px py hpx hpy => ?_⟩
    obtain ⟨a, b⟩ := p2 px py hpx hpy
    have q := p1 px py hpx hpy
    show (∀ j, _) ∧ _
    unfold inkGlyph
    refine ⟨fun j h1 h2 ex ey hw hh => ?_, fun hn => ?_⟩
    · by_cases e : j = k
      · subst e
        rw [b, q, if_pos ⟨by omega, by omega, by omega, by omega⟩]
        intro j' h1' h2' ex' ey'
        omega
      · rw [a j (by omega) (by omega) ex ey hw hh, q, if_neg]
        rintro ⟨e1, e2, _⟩
        omega
    · rw [b (fun j h1 h2 => hn j (by omega) (by omega)), q, if_neg]
      rintro ⟨e1, e2, e3, e4⟩
      exact hn k (by omega) (by omega) (by omega) (by omega) ⟨by omega, by omega⟩

/-- Glyphs one after the other. -/
theorem inkGlyphs_spec {c : Canvas} {W H : Nat} (v : ViewIn c W H) (y : Int) (gs : List Nat) : ∀ (x : Int) (pix : Bytes), IsImage pix W H →
    IsImage (inkGlyphs c y x gs pix) W H ∧ ∀ px py : Nat, px < W → py < H →
      (∀ (i g j : Nat), gs[i]? = some g → j < 84 → (px : Int) = c.x + x + 6 * i + (j % 6 : Nat) → (py : Int) = c.y + y - 11 + (j / 6 : Nat) → px < c.x + c.width → py < c.y + c.height →
        pixel (inkGlyphs c y x gs pix) W px py = (pixel pix W px py).map (shade (maskAt g j))) ∧
      (¬ (c.x + x ≤ px ∧ px < c.x + x + 6 * gs.length ∧ c.y + y - 11 ≤ py ∧ py < c.y + y + 3 ∧ px < c.x + c.width ∧ py < c.y + c.height) →
        pixel (inkGlyphs c y x gs pix) W px py = pixel pix W px py) := by
  induction gs with
  | nil => exact fun x pix hi => ⟨hi, fun px py _ _ => ⟨fun i g j h => by simp at h, fun _ => rfl⟩⟩
  | cons g gs ih =>
    intro x pix hi
    obtain ⟨i1, p1⟩ := inkGlyph_spec v x y g 84 0 pix (by omega) hi
    obtain ⟨i2, p2⟩ := ih (x + 6) _ i1
    refine ⟨i2, fun px py hpx hpy => ?_⟩
    obtain ⟨a, b⟩ := p1 px py hpx hpy
    obtain ⟨a', b'⟩ := p2 px py hpx hpy
    show (∀ i g' j, _) ∧ _
    unfold inkGlyphs
    refine ⟨fun i g' j hg hj ex ey hw hh => ?_, fun hn => ?_⟩
    · cases i with
      | zero =>
        rw [List.getElem?_cons_zero, Option.some.injEq] at hg
        subst hg
        rw [b' (by omega), a j (by omega) (by omega) (by omega) (by omega) hw hh]
      | succ i =>
        rw [List.getElem?_cons_succ] at hg
        rw [a' i g' j hg hj (by omega) (by omega) hw hh, b]
        intro j' _ hj' ex' _
        omega
    · rw [List.length_cons] at hn
      rw [b' (by omega), b]
      intro j _ hj ex ey
      omega

theorem runesLoop_length (fuel : Nat) (s : Bytes) : (runesLoop fuel s).length ≤ fuel := by
  induction fuel generalizing s with
  | zero => unfold runesLoop; simp
  | succ n ih =>
    cases s with
    | nil => simp [runesLoop]
    | cons a s => rw [runesLoop, List.length_cons]; exact Nat.succ_le_succ (ih _)

theorem textGlyphs_length (t : Bytes) : (textGlyphs t).length ≤ t.length :=
  Nat.le_trans (List.length_filterMap_le _ _) (runesLoop_length _ _)

theorem printable_glyph {b : UInt8} (h : Printable b) : glyphOf b.toNat = some (b.toNat - 31) := by
  unfold Printable at h
  unfold glyphOf
  rw [if_neg (by omega), if_pos (by omega)]
  congr 1
  omega

theorem printable_runes (t : Bytes) (h : ∀ b ∈ t, Printable b) (fuel : Nat) (hf : t.length ≤ fuel) : runesLoop fuel t = t.map (fun b => (b.toNat, [b])) := by
  induction t generalizing fuel with
  | nil => cases fuel <;> rfl
  | cons b t ih =>
    cases fuel with
    | zero => simp at hf
    | succ fuel =>
      have hb := h b (by simp)
      unfold Printable at hb
      have hd : decodeRune b t = (b.toNat, [b]) := by
        unfold decodeRune runeClass
        rw [if_pos (by omega)]
        rfl
      rw [runesLoop, hd, List.map_cons]
      simp only [List.length_cons, List.length_nil, Nat.zero_add, Nat.sub_self, List.drop_zero]
      rw [ih (fun x hx => h x (by simp [hx])) fuel (by simpa using hf)]

theorem printable_glyphs (t : Bytes) (h : ∀ b ∈ t, Printable b) : textGlyphs t = t.map (fun b => glyphs.getD (b.toNat - 31) 0) := by
  unfold textGlyphs runes
  rw [printable_runes t h _ (Nat.le_refl _)]
  induction t with
  | nil => rfl
  | cons b t ih =>
    rw [List.map_cons, List.map_cons, List.filterMap_cons]
    dsimp only
    rw [printable_glyph (h b (by simp)), Option.map_some]
    dsimp only
    rw [ih (fun x hx => h x (by simp [hx]))]

/-- **C95**. A text is drawn in its rectangle only, which the layout has measured, clipped at the edges of the view: this is what C76, C77 and C87 ask of the drawing of texts. -/
theorem C95_inside {α : Type} (b : Brush α) (hb : b.ink = inkText) : InkOk iosevka b := by
  intro W H c x y t pix v hi
  rw [hb]
  unfold inkText
  obtain ⟨h1, h2⟩ := inkGlyphs_spec v y (textGlyphs t) x pix hi
  refine ⟨h1, fun px py hpx hpy hn => (h2 px py hpx hpy).2 ?_⟩
  have hl := textGlyphs_length t
  rintro ⟨a1, a2, a3, a4, _, _⟩
  apply hn
  have ht : t ≠ [] := by
    intro e
    rw [e] at hl
    simp at hl
    rw [e, hl] at a2
    simp at a2
    omega
  unfold iosevka
  dsimp only
  rw [if_neg ht, if_neg ht]
  refine ⟨a1, by omega, by omega, by omega⟩

/-- **C95**. A text of printable characters on a white place of a picture is seen there, as many rows as the view has: the others are cut off. -/
theorem C95_seen {c : Canvas} {W H : Nat} {pix : Bytes} (v : ViewIn c W H) (hi : IsImage pix W H) (t : Bytes) (ht : ∀ b ∈ t, Printable b) (x y : Int) (lo n : Nat) (hn : n ≤ 14)
    (hx : 0 ≤ c.x + x ∧ x + 6 * t.length ≤ c.width) (hy : 0 ≤ c.y + y - 11 ∧ y - 11 + n ≤ c.height)
    (hw : ∀ px py : Nat, c.x + x ≤ px → px < c.x + x + 6 * t.length → c.y + y - 11 + lo ≤ py → py < c.y + y - 11 + n → pixel pix W px py = some (white, 255)) :
    Seen (inkText c x y t pix) W (c.x + x) (c.y + y - 11) lo n t := by
  intro i b hb k hl hk
  have hil : i < t.length := (List.getElem?_eq_some_iff.mp hb).1
  have vx := v.x
  have vy := v.y
  have hpx : (c.x + x + 6 * i + (k % 6 : Nat)).toNat < W := by omega
  have hpy : (c.y + y - 11 + (k / 6 : Nat)).toNat < H := by omega
  obtain ⟨_, h2⟩ := inkGlyphs_spec v y (textGlyphs t) x pix hi
  have := (h2 _ _ hpx hpy).1 i (glyphs.getD (b.toNat - 31) 0) k (by rw [printable_glyphs t ht, List.getElem?_map, hb]; rfl) (by omega) (by omega) (by omega) (by omega) (by omega)
  unfold inkText
  rw [this, hw _ _ (by omega) (by omega) (by omega) (by omega), Option.map_some, shade_white]
  rfl

/-! ## Reading -/

theorem digits_inj (n : Nat) (a b : Nat) (h : ∀ j, j < n → a / 256 ^ j % 256 = b / 256 ^ j % 256) : a % 256 ^ n = b % 256 ^ n := by
  induction n with
  | zero => rw [Nat.pow_zero]; omega
  | succ n ih => rw [Nat.mod_pow_succ, Nat.mod_pow_succ, ih (fun j hj => h j (by omega)), h n (by omega)]

theorem mask_toNat (b : UInt8) (k : Nat) : (mask b k).toNat = glyphs.getD (b.toNat - 31) 0 / 256 ^ (83 - k) % 256 := by
  unfold mask maskAt
  rw [UInt8.toNat_ofNat']

set_option maxRecDepth 100000 in
/-- In the rows 1 to 10, only the underscore looks like the space. -/
theorem glyphs_eleven : ∀ i, i < 96 → ∀ j, j < 96 → (1 ≤ i ∧ 1 ≤ j ∧ i ≠ 64 ∧ j ≠ 64 ∧ glyphs.getD i 0 / 256 ^ 18 % 256 ^ 60 = glyphs.getD j 0 / 256 ^ 18 % 256 ^ 60) → i = j := by decide +kernel

set_option maxRecDepth 100000 in
theorem glyphs_all : ∀ i, i < 96 → ∀ j, j < 96 → (1 ≤ i ∧ 1 ≤ j ∧ glyphs.getD i 0 % 256 ^ 78 = glyphs.getD j 0 % 256 ^ 78) → i = j := by decide +kernel

/-- Characters that look alike are the same: in all rows but the first, or in the rows 1 to 10, if none is an underscore. -/
theorem mask_inj {lo n : Nat} {a b : UInt8} (ha : Printable a) (hb : Printable b) (hlo : lo ≤ 1) (hn : n = 14 ∨ 11 ≤ n ∧ a ≠ 95 ∧ b ≠ 95) (h : ∀ k, 6 * lo ≤ k → k < 6 * n → mask a k = mask b k) : a = b := by
  unfold Printable at ha hb
  have hd : ∀ k, 6 * lo ≤ k → k < 6 * n → glyphs.getD (a.toNat - 31) 0 / 256 ^ (83 - k) % 256 = glyphs.getD (b.toNat - 31) 0 / 256 ^ (83 - k) % 256 := by
    intro k hl hk
    rw [← mask_toNat, ← mask_toNat, h k hl hk]
  have hne : ∀ c : UInt8, c ≠ 95 → c.toNat ≠ 95 := fun c hc e => hc (u8_of_toNat e)
  rcases hn with rfl | ⟨hn, na, nb⟩
  · have e := digits_inj 78 (glyphs.getD (a.toNat - 31) 0) (glyphs.getD (b.toNat - 31) 0) (fun j hj => by
      have := hd (83 - j) (by omega) (by omega)
      rwa [show 83 - (83 - j) = j by omega] at this)
    have := glyphs_all _ (by omega) _ (by omega) ⟨by omega, by omega, e⟩
    exact u8_of_toNat (by omega)
  · have e := digits_inj 60 (glyphs.getD (a.toNat - 31) 0 / 256 ^ 18) (glyphs.getD (b.toNat - 31) 0 / 256 ^ 18) (fun j hj => by
      have := hd (65 - j) (by omega) (by omega)
      rw [show 83 - (65 - j) = 18 + j by omega, Nat.pow_add, ← Nat.div_div_eq_div_mul, ← Nat.div_div_eq_div_mul] at this
      exact this)
    have n1 := hne a na
    have n2 := hne b nb
    have := glyphs_eleven _ (by omega) _ (by omega) ⟨by omega, by omega, by omega, by omega, e⟩
    exact u8_of_toNat (by omega)

theorem grey_inj {a b : UInt8} (h : grey a = grey b) : a = b := by
  unfold grey at h
  injection h with h _
  injection h with h _ _
  apply u8_of_toNat
  have := congrArg UInt8.toNat h
  rw [UInt8.toNat_sub, UInt8.toNat_sub, show (255 : UInt8).toNat = 255 from rfl] at this
  have := a.toNat_lt
  have := b.toNat_lt
  omega

/-- **C95**. What is seen can be read: of two texts seen at the same place of a picture, the shorter one is the beginning of the longer one. All rows but the first are to be seen, or those from 1 to 10 for texts without underscores. -/
theorem C95_read {pix : Bytes} {W : Nat} {ox oy : Int} {lo n : Nat} {s t : Bytes} (hs : ∀ b ∈ s, Printable b) (ht : ∀ b ∈ t, Printable b) (hlo : lo ≤ 1) (hn : n = 14 ∨ 11 ≤ n ∧ 95 ∉ s ∧ 95 ∉ t)
    (h1 : Seen pix W ox oy lo n s) (h2 : Seen pix W ox oy lo n t) (hl : s.length ≤ t.length) : s <+: t := by
  rw [List.prefix_iff_eq_take]
  apply List.ext_getElem?
  intro i
  by_cases hi : i < s.length
  · have es : s[i]? = some s[i] := List.getElem?_eq_getElem hi
    have et : t[i]? = some (t[i]'(by omega)) := List.getElem?_eq_getElem (by omega)
    rw [List.getElem?_take_of_lt hi, es, et]
    congr 1
    have ms : s[i] ∈ s := List.getElem_mem hi
    have mt : t[i]'(by omega) ∈ t := List.getElem_mem _
    refine mask_inj (n := n) (hs _ ms) (ht _ mt) hlo ?_ ?_
    · rcases hn with h | ⟨h, a, b⟩
      · exact Or.inl h
      · exact Or.inr ⟨h, fun e => a (e ▸ ms), fun e => b (e ▸ mt)⟩
    · intro k hl' hk
      have a := h1 i _ es k hl' hk
      have b := h2 i _ et k hl' hk
      rw [a] at b
      exact grey_inj (Option.some.inj b)
  · rw [List.getElem?_eq_none (by omega), List.getElem?_eq_none (by rw [List.length_take]; omega)]

/-- **C95** (corollary). Texts of the same length seen at the same place are the same. -/
theorem C95_same {pix : Bytes} {W : Nat} {ox oy : Int} {lo n : Nat} {s t : Bytes} (hs : ∀ b ∈ s, Printable b) (ht : ∀ b ∈ t, Printable b) (hlo : lo ≤ 1) (hn : n = 14 ∨ 11 ≤ n ∧ 95 ∉ s ∧ 95 ∉ t)
    (h1 : Seen pix W ox oy lo n s) (h2 : Seen pix W ox oy lo n t) (hl : s.length = t.length) : s = t :=
  (C95_read hs ht hlo hn h1 h2 (by omega)).eq_of_length hl

set_option maxRecDepth 100000 in
/-- **C95 refuted** where only the rows down to the baseline are seen, as on the side axes: an underscore is as a space there. -/
theorem C95_underscore_refuted : ¬ ∀ a b : UInt8, Printable a → Printable b → (∀ k, k < 66 → mask a k = mask b k) → a = b := by
  intro h
  have := h 95 32 (by unfold Printable; decide) (by unfold Printable; decide) (by decide +kernel)
  cases this

/-- **C95** (limit). Other characters leave no trace, not even a gap ("é" here). -/
theorem C95_left_out (c : Canvas) (x y : Int) (pix : Bytes) : inkText c x y [0xc3, 0xa9] pix = pix := by
  have : textGlyphs [0xc3, 0xa9] = [] := by decide +kernel
  unfold inkText
  rw [this]
  rfl

set_option maxRecDepth 100000 in
/-- **C95 example.** The L of the font stands upright, its foot to the right, on the baseline. -/
theorem C95_shape : ∀ k, k < 84 → mask 76 k = if k / 6 < 2 ∨ 10 < k / 6 ∨ k % 6 = 0 then 0 else if k / 6 = 2 ∧ k % 6 = 1 then 152 else if k / 6 < 10 then (if k % 6 = 1 then 188 else 0) else if k % 6 = 1 then 206 else if k % 6 < 5 then 172 else 56 := by
  decide +kernel

end Rothko
