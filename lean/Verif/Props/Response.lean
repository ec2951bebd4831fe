import Verif.Model.Response
import Verif.Props.Render
import Verif.Props.Pipe
import Verif.Props.Picture
/-!
# C77: what is observed is what the picture shows
-/
namespace Rothko

/-- The colours, labels and fonts of pictures are as expected: text sizes are those of a fixed font, a text stays inside its measures, and there is a colour for each row of a heatmap of two to 2^53 rows. -/
structure Scene.Ok {D α P : Type} (sc : Scene D α P) (H : Int) : Prop where
  style : ∀ d, (sc.style d).Ok H
  ink : ∀ d, InkOk (sc.style d).font (sc.brush d)
  right : ∀ d t, (sc.style d).font.right t ≤ (sc.style d).font.wide t + 13
  label : ∀ d cols, (sc.style d).font.top ((sc.brush d).label cols) + (sc.style d).font.high ((sc.brush d).label cols) ≤ (sc.style d).font.top (sc.style d).obsText + (sc.style d).font.high (sc.style d).obsText + 1
  heat : ∀ d l k h (y : Nat), sc.draw l = some k → 2 ≤ h → h ≤ 9007199254740992 → (y : Int) < h → ((sc.brush d).heat k h y).isSome
  key : ∀ d h (y : Nat), 2 ≤ h → h ≤ 9007199254740992 → (y : Int) < h → ((sc.brush d).key h y).isSome

/-- The colour of a row of a pixel that shows the records: white without records, else that of the row for what is drawn of the records. -/
def colourOf {D α P : Type} (sc : Scene D α P) (d : D) (height : Int) (row : Nat) (rs : List DRec) : Color :=
  (((if rs = [] then none else sc.draw rs).bind (fun k => (sc.brush d).heat k height row)).getD white)

/-- The colour of the bar over a pixel that shows the records, of a graph with the columns. -/
def barOf {D α P : Type} (sc : Scene D α P) (d : D) (cols : List (Col α)) (rs : List DRec) : Color :=
  (((if rs = [] then none else sc.draw rs).map (fun k => (sc.brush d).bar cols k)).getD white)

/-- The columns of a graph: each is over pixels of the graph and has what is drawn of the records over each of these, and each pixel with records over it is in one. -/
structure Columns {D α P : Type} (sc : Scene D α P) (now W ps : Int) (rs : Int → List DRec) (cols : List (Col α)) : Prop where
  inside : ∀ k ∈ cols, 0 ≤ k.x ∧ 1 ≤ k.w ∧ k.x + k.w ≤ W
  apart : cols.Pairwise (fun a b => b.x + b.w ≤ a.x)
  shows : ∀ k ∈ cols, ∀ x, k.Has x → over now W ps (rs x) x ≠ [] ∧ sc.draw (over now W ps (rs x) x) = some k.data
  covers : ∀ x, 0 ≤ x → x < W → over now W ps (rs x) x ≠ [] → ∃ k ∈ cols, k.Has x

/-- A record as it is read back: a zero minimum or maximum has no sign. -/
def DRec.norm (r : DRec) : DRec := { r with min := normZero r.min, max := normZero r.max }

theorem eachOf_norm {d : DistParams} {m : Bytes} {recs : List DRec} {k : List Batch} (h : EachOf (Right d m) recs k) :
    EachOf (fun r b => ∃ r0, RecordOf d b.start b.stop (obsOf m b.obs) r0 ∧ r = r0.norm) (recs.map DRec.norm) k := by
  induction h with
  | nil => exact .nil
  | cons hr _ ih => exact .cons ⟨_, hr, rfl⟩ ih

theorem columnAt_has {α : Type} {cols : List (Col α)} {x : Int} :
    (∀ c, columnAt cols x = some c → c ∈ cols ∧ c.Has x) ∧ (columnAt cols x = none → ¬ ∃ c ∈ cols, c.Has x) := by
  unfold columnAt Col.Has
  refine ⟨fun c h => ⟨List.mem_of_find?_eq_some h, by simpa using List.find?_some h⟩, fun h => ?_⟩
  rw [List.find?_eq_none] at h
  rintro ⟨c, hc, h1, h2⟩
  exact h c hc (by simp [h1, h2])

theorem int64_ofInt_small {n : Int} (h0 : 0 ≤ n) (h1 : n < 9223372036854775808) : (Int64.ofInt n).toInt = n :=
  Int64.toInt_ofInt_of_le (by show -9223372036854775808 ≤ n; omega) (by show n < 9223372036854775808; omega)

/-- **C77** (one store). For a metric with records that decode, all over before the graph's time: the answer is a picture of the size asked for, and each pixel of the heatmap has the colour for
exactly the stored records over it; the leftmost ones for those of them that end in the graph's time and one more. -/
theorem C77_store {D α P : Type} {sc : Scene D α P} {H : Int} (hsc : sc.Ok H) {s : Store} {acc : List Val} (h : Reach s acc) (cfg : Cfg) (hg : GeoOk cfg.size cfg.cap) (now dur : Int64) (hne : acc ≠ []) (width height padding : Int)
    (dec : Val → DRec) (hdec : ∀ v ∈ acc, DRec.decode v.data = .ok (dec v)) (hend : ∀ v ∈ acc, (dec v).endTime = v.stop)
    (htimes : ∀ v ∈ acc, 0 ≤ (dec v).startTime.toInt ∧ (dec v).startTime.toInt + width < 9223372036854775808 ∧ 0 ≤ v.stop.toInt ∧ v.stop < now) (hnow : now.toInt + dur.toInt < 9223372036854775808)
    (hdraw : ∀ l, l ≠ [] → (∀ r ∈ l, ∃ v ∈ acc, r = dec v) → sc.draw l ≠ none) (hpad : 0 ≤ padding) (hwd : width ≤ dur.toInt) (hht : height ≤ 9007199254740992) (d : D) (hl : ∀ v ∈ acc.head?, sc.load (dec v) = some d)
    (gm : GraphM P) (hgm : graphMeasure (sc.style d) { earliest := true, now := now.toInt, duration := dur.toInt, width := width, height := height, padding := padding } = .ok gm)
    (hw : 0 < gm.width) (hh : 2 ≤ gm.height) :
    ∃ (stored dropped : List Val) (c : Canvas) (pix : Bytes), acc = stored ++ dropped ∧ stored ≠ [] ∧ (queryList cfg now (fun _ _ => .more) s).1.1 = stored ∧ (servePng sc cfg now dur width height padding s).1 = .png c pix ∧
      c.width = width + 2 * padding ∧ c.height = height + 2 * padding ∧ IsImage pix c.width.toNat c.height.toNat ∧
      (∀ x y : Nat, x < gm.width → y < gm.height → pixel pix c.width.toNat (gm.x + x).toNat (gm.y + y).toNat =
        some (colourOf sc d gm.height (gm.height - 1 - y).toNat (over now.toInt gm.width (dur.toInt / gm.width) (shownAt (now - dur) (stored.map dec) x) x), 255)) ∧
      (∀ x y : Nat, x < 10 → y < gm.height → pixel pix c.width.toNat (gm.x + gm.width + 5 + x).toNat (gm.y + y).toNat = ((sc.brush d).key gm.height y).map (fun k => (k, 255))) ∧
      ∃ cols : List (Col α), Columns sc now.toInt gm.width (dur.toInt / gm.width) (fun x => shownAt (now - dur) (stored.map dec) x) cols ∧
        ∀ x y : Nat, x < gm.width → y < 5 → pixel pix c.width.toNat (gm.x + x).toNat (gm.y - 5 + y).toNat =
          some (barOf sc d cols (over now.toInt gm.width (dur.toInt / gm.width) (shownAt (now - dur) (stored.map dec) x) x), 255) := by
  have hgw : gm.width ≤ width := by
    obtain ⟨guess, ht⟩ := graphMeasure_try hgm
    obtain ⟨_, _, _, _, _, h6, h7, _, h9, _⟩ := tryMeasure_ok (hsc.style d) ht
    have : 0 ≤ gm.rightWidth := by
      unfold GraphM.rightWidth
      cases hr : gm.right with
      | none => exact Int.le_refl 0
      | some r => have := (h9 r hr).1; show 0 ≤ r.width; omega
    have h7 : gm.width = width - (gm.left.width + 15 + gm.rightWidth) := h7
    omega
  have hgh : gm.height ≤ height := by
    obtain ⟨guess, ht⟩ := graphMeasure_try hgm
    obtain ⟨_, _, _, h4, _, _, _, _, _, _, _, _, _, _, h15⟩ := tryMeasure_ok (hsc.style d) ht
    obtain ⟨_, sumh, _⟩ := C75_layout (hsc.style d) hgm (by omega)
    have sumh : gm.obsHeight + gm.height + gm.bottom.height = height := sumh
    have h0 := (hsc.style d).high (sc.style d).obsText
    have hH : 0 ≤ H := by have := (hsc.style d).high ((sc.style d).timeText 0); rw [(hsc.style d).times] at this; exact this
    have : 13 ≤ gm.bottom.height := by rw [h15]; split <;> omega
    omega
  have hd0 : dur.toInt < 9223372036854775808 := Int64.toInt_lt dur
  have ew : (Int64.ofInt gm.width).toInt = gm.width := int64_ofInt_small (by omega) (by omega)
  have hq : 0 < dur.toInt / gm.width := by
    have := Int.ediv_le_ediv hw (show gm.width ≤ dur.toInt by omega)
    rw [Int.ediv_self (by omega)] at this
    omega
  have hq2 : dur.toInt / gm.width ≤ dur.toInt := Int.ediv_le_self _ (by omega)
  have eq : (dur / Int64.ofInt gm.width).toInt = dur.toInt / gm.width := by
    rw [Int64.toInt_div, ew, Int.tdiv_eq_ediv_of_nonneg (by omega)]
    exact i64_bmod (by omega) (by omega)
  have hmeas : (sc.params { earliest := true, now := now.toInt, duration := dur.toInt, width := width, height := height, padding := padding }).measure d = .ok (Int64.ofInt gm.width) := by
    show measureOf _ _ _ = _
    unfold measureOf
    rw [hgm]
  have hN : 0 ≤ now.toInt := by
    obtain ⟨v, hv⟩ := List.exists_mem_of_ne_nil _ hne
    have := htimes v hv
    have h2 := Int64.lt_iff_toInt_lt.mp this.2.2.2
    omega
  have hpx : ∀ T : Int64, 0 ≤ T.toInt → T.toInt + width < 9223372036854775808 → PixOk now (Int64.ofInt gm.width) (dur / Int64.ofInt gm.width) T := by
    intro T h0 h1
    refine ⟨by rw [eq]; exact hq, by rw [ew]; omega, by rw [eq]; omega, by rw [ew]; omega⟩
  obtain ⟨newest, rest, dropped, cols, ha, hqs, hres, hord, hin, hcol⟩ := C69_pixels (sc.params { earliest := true, now := now.toInt, duration := dur.toInt, width := width, height := height, padding := padding }) h cfg hg now dur hne
    (fun v hv => (htimes v hv).2.2.2) dec hdec hend d (Int64.ofInt gm.width) hl hmeas (by rw [ew]; exact hw) (by rw [eq]; exact hq) ⟨by omega, by omega⟩
    (fun v hv => ⟨hpx _ (htimes v hv).1 (htimes v hv).2.1, by rw [hend v hv]; exact hpx _ (htimes v hv).2.2.1 (by have := Int64.lt_iff_toInt_lt.mp (htimes v hv).2.2.2; omega), by rw [hend v hv]; exact (htimes v hv).2.2.2⟩) hdraw
  rw [ew] at hin
  rw [ew, eq] at hcol
  have hnew : newest ∈ acc := by rw [ha]; exact List.mem_append_left _ List.mem_cons_self
  have hld : sc.load (dec newest) = some d := hl newest (by rw [ha]; rfl)
  obtain ⟨c, pix, hdg, hcw, hch, him, hpix, hkeyp, hbarp⟩ := C76_picture (hsc.style d) (sc.brush d) (hsc.ink d) (hsc.right d) hgm (by omega) (by omega) hpad rfl cols
    (fun k hk => by obtain ⟨h1, h2, h3, _⟩ := hin k hk; exact ⟨h1, by omega, h3⟩) hord
    (fun k hk y hy => by obtain ⟨_, _, _, l, _, _, hl⟩ := hin k hk; exact hsc.heat d l k.data gm.height y hl hh (by omega) (by omega)) (fun y hy => hsc.key d gm.height y hh (by omega) (by omega)) (hsc.label d cols)
  have hcolour : ∀ {β : Type} (f : α → Option β) (w : β) (x : Nat), (x : Int) < gm.width → ((columnAt cols (x : Int)).bind (fun k => f k.data)).getD w =
      (((if over now.toInt gm.width (dur.toInt / gm.width) (shownAt (now - dur) ((newest :: rest).map dec) x) x = [] then none else
        sc.draw (over now.toInt gm.width (dur.toInt / gm.width) (shownAt (now - dur) ((newest :: rest).map dec) x) x)).bind f).getD w) := by
    intro β f w x hx
    obtain ⟨hiff, hdata⟩ := hcol x (by omega) hx
    cases hc : columnAt cols (x : Int) with
    | none =>
      have hno : over now.toInt gm.width (dur.toInt / gm.width) (shownAt (now - dur) ((newest :: rest).map dec) x) x = [] := by
        by_cases he : over now.toInt gm.width (dur.toInt / gm.width) (shownAt (now - dur) ((newest :: rest).map dec) x) x = []
        · exact he
        · exact absurd (hiff.mp he) (columnAt_has.2 hc)
      rw [hno]
      rfl
    | some k =>
      obtain ⟨hk, hx'⟩ := columnAt_has.1 k hc
      have hno := hiff.mpr ⟨k, hk, hx'⟩
      have hdt : sc.draw _ = some k.data := hdata k hk hx'
      rw [if_neg hno, hdt]
      rfl
  refine ⟨newest :: rest, dropped, c, pix, ha, by simp, hqs, ?_, hcw, hch, him, fun x y hx hy => ?_, hkeyp, cols, ⟨fun k hk => ?_, hord, fun k hk x hx => ?_, fun x h0 h1 hn => ((hcol x h0 h1).1).mp hn⟩, fun x y hx hy => ?_⟩
  · unfold servePng pngOf pngOpts
    dsimp only
    rw [hres]
    dsimp only
    rw [hdec newest hnew]
    dsimp only
    rw [hld]
    dsimp only
    rw [hgm]
    dsimp only
    rw [hdg]
  · rw [hpix x y hx hy]
    unfold colourOf
    rw [hcolour (fun k => (sc.brush d).heat k gm.height (gm.height - 1 - y).toNat) white x hx]
  · obtain ⟨h1, h2, h3, _⟩ := hin k hk
    exact ⟨h1, h2, h3⟩
  · obtain ⟨h1, h2, h3, _⟩ := hin k hk
    have hx' : k.x ≤ x ∧ x < k.x + k.w := hx
    obtain ⟨hiff, hdata⟩ := hcol x (by omega) (by omega)
    exact ⟨hiff.mpr ⟨k, hk, hx⟩, hdata k hk hx⟩
  · rw [hbarp x y hx hy]
    unfold barOf
    have := hcolour (fun k => some ((sc.brush d).bar cols k)) white x hx
    rw [Option.map_eq_bind, Option.map_eq_bind]
    exact congrArg (fun z => some (z, (255 : UInt8))) this

/-- The same for the records of the intervals `kept` of a metric, newest first. -/
theorem C77_records {D α P : Type} {sc : Scene D α P} {H : Int} (hsc : sc.Ok H) (o : PipeCfg) (hg : GeoOk o.cfg.size o.cfg.cap) {m : Bytes} {recs : List DRec} {kept : List Batch} {s : Store} (h1 : EachOf (Right o.d m) recs kept)
    (h3 : ∀ r ∈ recs, needs o.cfg.size r.encode.length < o.cfg.cap) (h2 : ReachCfg o.cfg s (recs.map valOf)) (hne : kept ≠ []) (now dur : Int64) (hnow : ∀ b ∈ kept, 0 ≤ b.stop.toInt ∧ b.stop < now)
    (width height padding : Int) (hstart : ∀ b ∈ kept, 0 ≤ b.start.toInt ∧ b.start.toInt + width < 9223372036854775808) (hfar : now.toInt + dur.toInt < 9223372036854775808)
    (hdraw : ∀ l, l ≠ [] → (∀ r ∈ l, ∃ start stop vals r0, RecordOf o.d start stop vals r0 ∧ r = r0.norm) → sc.draw l ≠ none) (hload : ∀ start stop vals r, RecordOf o.d start stop vals r → sc.load r.norm ≠ none)
    (hpad : 0 ≤ padding) (hwd : width ≤ dur.toInt) (hht : height ≤ 9007199254740992) :
    ∃ recs stored dropped : List DRec, EachOf (fun r b => ∃ r0, RecordOf o.d b.start b.stop (obsOf m b.obs) r0 ∧ r = r0.norm) recs kept ∧
      recs = stored ++ dropped ∧ (o.cfg.max ≤ 0 → dropped = []) ∧ (∃ r ∈ stored.head?, ∃ d, sc.load r = some d ∧
        ∀ gm, graphMeasure (sc.style d) { earliest := true, now := now.toInt, duration := dur.toInt, width := width, height := height, padding := padding } = .ok gm → 0 < gm.width → 2 ≤ gm.height →
          ∃ c pix, (servePng sc o.cfg now dur width height padding s).1 = .png c pix ∧
            c.width = width + 2 * padding ∧ c.height = height + 2 * padding ∧ IsImage pix c.width.toNat c.height.toNat ∧
            (∀ x y : Nat, x < gm.width → y < gm.height → pixel pix c.width.toNat (gm.x + x).toNat (gm.y + y).toNat =
              some (colourOf sc d gm.height (gm.height - 1 - y).toNat (over now.toInt gm.width (dur.toInt / gm.width) (shownAt (now - dur) stored x) x), 255)) ∧
            (∀ x y : Nat, x < 10 → y < gm.height → pixel pix c.width.toNat (gm.x + gm.width + 5 + x).toNat (gm.y + y).toNat = ((sc.brush d).key gm.height y).map (fun k => (k, 255))) ∧
            ∃ cols : List (Col α), Columns sc now.toInt gm.width (dur.toInt / gm.width) (fun x => shownAt (now - dur) stored x) cols ∧
              ∀ x y : Nat, x < gm.width → y < 5 → pixel pix c.width.toNat (gm.x + x).toNat (gm.y - 5 + y).toNat =
                some (barOf sc d cols (over now.toInt gm.width (dur.toInt / gm.width) (shownAt (now - dur) stored x) x), 255)) := by
  have hE := h1
  have hsmall := fits_small hg h3
  have hreach := h2.reach
  obtain ⟨S, dr, ha, hSne, hq⟩ := C13_acknowledged_stored hreach
  have hrne : recs ≠ [] := by
    rintro rfl
    refine hne ?_
    cases h1
    rfl
  have hacc : recs.map valOf ≠ [] := fun h => hrne (List.map_eq_nil_iff.mp h)
  have hstops : ∀ r ∈ recs, 0 ≤ r.endTime.toInt ∧ r.endTime < now := by
    intro r hr
    obtain ⟨b, hb, hrb⟩ := eachOf_left h1 r hr
    rw [hrb.stop]
    exact hnow b hb
  have hbound : ∀ v ∈ recs.map valOf, v.stop < now := by
    intro v hv
    obtain ⟨r, hr, rfl⟩ := List.mem_map.mp hv
    exact (hstops r hr).2
  have hqn := (hq o.cfg now hg hbound).1
  have hmax : o.cfg.max ≤ 0 → dr = [] := by
    intro hmax
    have hall := (C18_retention h2.reachMax).2 hmax o.cfg now hg hbound
    rw [hqn, ha] at hall
    exact List.self_eq_append_right.mp hall
  obtain ⟨R1, R2, hR, e1, e2⟩ := List.map_eq_append_iff.mp ha
  have hdec : ∀ r ∈ recs, DRec.decode (valOf r).data = .ok r.norm := fun r hr => (C06_record_round_trip r (hsmall r hr)).1
  let dec : Val → DRec := fun v => match DRec.decode v.data with
    | .ok r => r
    | _ => {}
  have hdv : ∀ r ∈ recs, dec (valOf r) = r.norm := by
    intro r hr
    simp only [dec]
    rw [hdec r hr]
  have hR1 : ∀ r ∈ R1, r ∈ recs := fun r hr => by rw [hR]; exact List.mem_append_left _ hr
  obtain ⟨r0, R1', hR1c⟩ : ∃ a l, R1 = a :: l := by
    cases R1 with
    | nil => exact absurd (by rw [← e1]; rfl) (hSne hacc)
    | cons a l => exact ⟨a, l, rfl⟩
  have hr0 : r0 ∈ recs := hR1 r0 (by rw [hR1c]; exact List.mem_cons_self)
  obtain ⟨b0, _, hb0⟩ := eachOf_left h1 r0 hr0
  obtain ⟨d, hld⟩ := Option.ne_none_iff_exists'.mp (hload _ _ _ _ hb0)
  refine ⟨recs.map DRec.norm, R1.map DRec.norm, R2.map DRec.norm, ?_, by rw [hR, List.map_append], fun h => ?_, r0.norm, by rw [hR1c]; rfl, d, hld, fun gm hgm hw hh => ?_⟩
  · exact eachOf_norm h1
  · have := hmax h
    rw [← e2] at this
    rw [List.map_eq_nil_iff.mp this]
    rfl
  · obtain ⟨S', dr', c, pix, ha', _, hq', hpng, hcw, hch, him, hpix, hkeyp, cols, hcols, hbars⟩ := C77_store hsc hreach o.cfg hg now dur hacc width height padding dec
      (by
        intro v hv
        obtain ⟨r, hr, rfl⟩ := List.mem_map.mp hv
        rw [hdv r hr, hdec r hr])
      (by
        intro v hv
        obtain ⟨r, hr, rfl⟩ := List.mem_map.mp hv
        rw [hdv r hr]
        rfl)
      (by
        intro v hv
        obtain ⟨r, hr, rfl⟩ := List.mem_map.mp hv
        obtain ⟨b, hb, hrb⟩ := eachOf_left h1 r hr
        have hs := hstart b hb
        have hn := hstops r hr
        rw [hdv r hr]
        refine ⟨?_, ?_, hn.1, hn.2⟩
        · show 0 ≤ r.startTime.toInt
          rw [hrb.start]; exact hs.1
        · show r.startTime.toInt + width < 9223372036854775808
          rw [hrb.start]; exact hs.2)
      hfar (fun l h1 h2 => hdraw l h1 (fun r hr => by
        obtain ⟨v, hv, rfl⟩ := h2 r hr
        obtain ⟨r0, hr0, rfl⟩ := List.mem_map.mp hv
        obtain ⟨b, _, hb⟩ := eachOf_left hE r0 hr0
        exact ⟨_, _, _, r0, hb, hdv r0 hr0⟩)) hpad hwd hht d
      (by
        intro v hv
        rw [hR, hR1c] at hv
        have hv : some (valOf r0) = some v := hv
        injection hv with hv
        rw [← hv, hdv r0 hr0]
        exact hld)
      gm hgm hw hh
    have hS : S' = S := by rw [← hq', hqn]
    have hmap : S'.map dec = R1.map DRec.norm := by
      rw [hS, ← e1, List.map_map]
      exact List.map_congr_left (fun r hr => hdv r (hR1 r hr))
    rw [← hmap]
    exact ⟨c, pix, hpng, hcw, hch, him, hpix, hkeyp, cols, hcols, hbars⟩

/-- **C77.** Observations are added, dumps are made, metrics queried and the program restarted, in any order, as for C70. Then a request for the graph of a metric that was stored, up to a time after the last dump, is answered with
a picture of the size asked for in which each pixel of the heatmap has the colour for exactly the records over its time, one record for each interval between dumps in which the metric was observed
(up to whole oldest files dropped by rotation), each record having the count, minimum, maximum, ids and distribution of exactly the metric's observations in the interval; and is white if there is none. -/
theorem C77_shown {D α P : Type} {sc : Scene D α P} {H : Int} (hsc : sc.Ok H) (o : PipeCfg) (K : Nat) (hd : o.d.newOk = true) (hg : GeoOk o.cfg.size o.cfg.cap) (hfit : Fits o K) (de : Bytes → Bool) (hit : Bytes → Nat → Bool)
    (ops : List POp) (hops : ∀ op ∈ ops, op.Fair K) (hlen : ops.length < 9223372036854775808) (hinc : (dumpTimes ops).Pairwise (· < ·)) (m : Bytes)
    (hne : (ops.foldl PSpec.step {}).kept m ≠ []) (now dur : Int64) (hnow : ∀ t ∈ dumpTimes ops, 0 ≤ t.toInt ∧ t < now)
    (width height padding : Int) (hstart : ∀ b ∈ (ops.foldl PSpec.step {}).kept m, 0 ≤ b.start.toInt ∧ b.start.toInt + width < 9223372036854775808) (hfar : now.toInt + dur.toInt < 9223372036854775808)
    (hdraw : ∀ l, l ≠ [] → (∀ r ∈ l, ∃ start stop vals r0, RecordOf o.d start stop vals r0 ∧ r = r0.norm) → sc.draw l ≠ none) (hload : ∀ start stop vals r, RecordOf o.d start stop vals r → sc.load r.norm ≠ none)
    (hpad : 0 ≤ padding) (hwd : width ≤ dur.toInt) (hht : height ≤ 9007199254740992) :
    ∃ recs stored dropped : List DRec, EachOf (fun r b => ∃ r0, RecordOf o.d b.start b.stop (obsOf m b.obs) r0 ∧ r = r0.norm) recs ((ops.foldl PSpec.step {}).kept m) ∧
      recs = stored ++ dropped ∧ (o.cfg.max ≤ 0 → dropped = []) ∧ (∃ r ∈ stored.head?, ∃ d, sc.load r = some d ∧
        ∀ gm, graphMeasure (sc.style d) { earliest := true, now := now.toInt, duration := dur.toInt, width := width, height := height, padding := padding } = .ok gm → 0 < gm.width → 2 ≤ gm.height →
          ∃ c pix, (servePng sc o.cfg now dur width height padding ((ops.foldl (POp.run o) (Pipe.start de hit)).db m)).1 = .png c pix ∧
            c.width = width + 2 * padding ∧ c.height = height + 2 * padding ∧ IsImage pix c.width.toNat c.height.toNat ∧
            (∀ x y : Nat, x < gm.width → y < gm.height → pixel pix c.width.toNat (gm.x + x).toNat (gm.y + y).toNat =
              some (colourOf sc d gm.height (gm.height - 1 - y).toNat (over now.toInt gm.width (dur.toInt / gm.width) (shownAt (now - dur) stored x) x), 255)) ∧
            (∀ x y : Nat, x < 10 → y < gm.height → pixel pix c.width.toNat (gm.x + gm.width + 5 + x).toNat (gm.y + y).toNat = ((sc.brush d).key gm.height y).map (fun k => (k, 255))) ∧
            ∃ cols : List (Col α), Columns sc now.toInt gm.width (dur.toInt / gm.width) (fun x => shownAt (now - dur) stored x) cols ∧
              ∀ x y : Nat, x < gm.width → y < 5 → pixel pix c.width.toNat (gm.x + x).toNat (gm.y - 5 + y).toNat =
                some (barOf sc d cols (over now.toInt gm.width (dur.toInt / gm.width) (shownAt (now - dur) stored x) x), 255)) := by
  have inv := pinv_run hd hg hfit ops hops (pinv_start o K de hit) (by simpa using hlen) hinc (fun _ _ _ b hb => (by cases hb))
  obtain ⟨recs, h1, h3, h2⟩ := inv.db m
  refine C77_records hsc o hg h1 h3 h2 hne now dur (fun b hb => hnow _ ?_) width height padding hstart hfar hdraw hload hpad hwd hht
  simpa using kept_stops m ops {} [] (fun _ h => (by cases h)) b hb

/-! ## Example -/

/-- The colour tells how many records a pixel shows, and the row. -/
def exScene : Scene Unit Nat (Int × Int) := ⟨fun _ => some (), fun rs => some rs.length, fun _ => exStyle, fun _ => exBrush⟩

theorem exScene_ok : exScene.Ok 14 where
  style _ := exStyle_ok
  ink _ := exBrush_ink
  right _ t := C76_example_hyps.2.1 t
  label _ cols := by show iosevka.top [111] + iosevka.high [111] ≤ iosevka.top exStyle.obsText + iosevka.high exStyle.obsText + 1; decide
  heat _ l k h y _ hh _ _ := by show (if 2 ≤ h then _ else none).isSome = true; rw [if_pos hh]; rfl
  key _ h y hh _ _ := by show (if 2 ≤ h then _ else none).isSome = true; rw [if_pos hh]; rfl

/-- The two intervals of metric "a" that were dumped. -/
theorem exKept : (exPOps.foldl PSpec.step {}).kept [97] =
    [⟨20, 30, [([97], ⟨0x4008000000000000#64, [], 3⟩)]⟩, ⟨10, 20, [([97], ⟨0x4000000000000000#64, [1], 0⟩), ([98], ⟨0x3ff0000000000000#64, [2], 1⟩), ([97], ⟨0x3ff0000000000000#64, [3], 2⟩)]⟩] := by
  rfl

set_option maxRecDepth 100000 in
/-- A graph of the 110 nanoseconds before 41, 100 by 53 pixels. -/
theorem exMeasured : triedSizes (graphMeasure exStyle { earliest := true, now := 41, duration := 110, width := 100, height := 53, padding := 1 }) = some (38, 22, 11, 3) := by decide +kernel

/-- Metric "a" was observed and dumped at 20 and at 30: with ten nanoseconds a pixel, the lowest row of the picture shows, from right to left: nothing, the record of (20, 30), both records, that of (10, 20), nothing. -/
theorem C77_example : ∃ c pix, (servePng exScene exCfg4 41 110 100 53 1 ((exPOps.foldl (POp.run exPipe) (Pipe.start (fun _ => false) (fun _ _ => true))).db [97])).1 = .png c pix ∧ c.width.toNat = 102 ∧
    [pixel pix 102 48 24, pixel pix 102 47 24, pixel pix 102 46 24, pixel pix 102 45 24, pixel pix 102 44 24] =
      [some (white, 255), some (⟨1, 0, 0⟩, 255), some (⟨2, 0, 0⟩, 255), some (⟨1, 0, 0⟩, 255), some (white, 255)] := by
  obtain ⟨f1, f2, f3, f4⟩ := C70_example_hyps
  obtain ⟨recs, stored, dropped, hr, hs, hdr, r0, hr0, d, hld, key⟩ := C77_shown exScene_ok exPipe 1 rfl f4 f1 (fun _ => false) (fun _ _ => true) exPOps f2 (by decide) f3 [97] (by rw [exKept]; simp) 41 110
    (by decide) 100 53 1 (by rw [exKept]; decide) (by decide) (fun l _ _ => by simp [exScene]) (fun _ _ _ _ _ => by simp [exScene]) (by decide) (by decide) (by decide)
  have hd0 : dropped = [] := hdr (by decide)
  subst hd0
  rw [exKept] at hr
  obtain ⟨r1, r2, e, a1, a2, b1, b2⟩ : ∃ r1 r2, recs = [r1, r2] ∧ r1.startTime = 20 ∧ r1.endTime = 30 ∧ r2.startTime = 10 ∧ r2.endTime = 20 := by
    cases hr with
    | cons h1 hr => cases hr with
      | cons h2 hr =>
        cases hr
        obtain ⟨x1, g1, rfl⟩ := h1
        obtain ⟨x2, g2, rfl⟩ := h2
        exact ⟨_, _, rfl, g1.start, g1.stop, g2.start, g2.stop⟩
  have hst : stored = [r1, r2] := by rw [← e, hs, List.append_nil]
  have hm := exMeasured
  cases h : graphMeasure exStyle { earliest := true, now := 41, duration := 110, width := 100, height := 53, padding := 1 } with
  | panic => rw [h] at hm; cases hm
  | small => rw [h] at hm; cases hm
  | ok m =>
    rw [h] at hm
    have h1 : some (m.x, m.y, m.width, m.height) = some (38, 22, 11, 3) := hm
    obtain ⟨mx, my, mw, mh⟩ : m.x = 38 ∧ m.y = 22 ∧ m.width = 11 ∧ m.height = 3 := by
      injection h1 with h1; injection h1 with a h1; injection h1 with b h1; injection h1 with c d; exact ⟨a, b, c, d⟩
    obtain ⟨c, pix, hp, hw, _, _, hpix, _, _⟩ := key m h (by omega) (by omega)
    have hw : c.width = 102 := hw
    have e : c.width.toNat = 102 := by rw [hw]; rfl
    refine ⟨c, pix, hp, e, ?_⟩
    rw [e, mx, my, mw, mh, hst] at hpix
    have ov : ∀ x : Int, over (41 : Int64).toInt 11 ((110 : Int64).toInt / 11) [r1, r2] x =
        (if 20 < 41 - (11 - x) * 10 + 10 ∧ (x = 0 ∨ 41 - (11 - x) * 10 ≤ 30) then [r1] else []) ++ (if 10 < 41 - (11 - x) * 10 + 10 ∧ (x = 0 ∨ 41 - (11 - x) * 10 ≤ 20) then [r2] else []) := by
      intro x
      unfold over
      rw [List.filter_cons, List.filter_cons, List.filter_nil]
      have e2 : (110 : Int64).toInt / 11 = 10 := by decide
      have o1 : Overlaps (41 : Int64).toInt 11 ((110 : Int64).toInt / 11) r1 x ↔ (20 < 41 - (11 - x) * 10 + 10 ∧ (x = 0 ∨ 41 - (11 - x) * 10 ≤ 30)) := by
        unfold Overlaps
        rw [a1, a2, e2]
        exact Iff.rfl
      have o2 : Overlaps (41 : Int64).toInt 11 ((110 : Int64).toInt / 11) r2 x ↔ (10 < 41 - (11 - x) * 10 + 10 ∧ (x = 0 ∨ 41 - (11 - x) * 10 ≤ 20)) := by
        unfold Overlaps
        rw [b1, b2, e2]
        exact Iff.rfl
      simp only [decide_eq_true_eq, o1, o2]
      split <;> split <;> rfl
    have c10 := hpix 10 2 (by decide) (by decide)
    have c9 := hpix 9 2 (by decide) (by decide)
    have c8 := hpix 8 2 (by decide) (by decide)
    have c7 := hpix 7 2 (by decide) (by decide)
    have c6 := hpix 6 2 (by decide) (by decide)
    have sh : ∀ x : Int, x ≠ 0 → shownAt (41 - 110) [r1, r2] x = [r1, r2] := fun x hx => if_neg hx
    rw [sh _ (by decide), ov] at c10 c9 c8 c7 c6
    exact List.cons_eq_cons.mpr ⟨c10, List.cons_eq_cons.mpr ⟨c9, List.cons_eq_cons.mpr ⟨c8, List.cons_eq_cons.mpr ⟨c7, List.cons_eq_cons.mpr ⟨c6, rfl⟩⟩⟩⟩⟩

end Rothko
