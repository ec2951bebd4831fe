import Verif.Model.Site
import Verif.Props.Tgzfs
import Verif.Props.Url
/-!
# C94: the files of the site
-/
namespace Rothko

/-- **C94** A file of the archive, under any spelling of its path: unless its name ends in `.html` it is sent as it is; otherwise what is sent is what its template writes, all of it, whatever the size of the template was. If the template fails, nothing
is sent and the file is closed; otherwise it is left open for whoever asked for it. -/
theorem C94_stored (template : Bytes → SiteParams → Option Bytes) (q : Bytes) (dev : Bool) (pre post : List (TEntry Nat)) (e : TEntry Nat) (path : Bytes) (hp : cleanParts path = cleanParts e.name)
    (hl : ∀ e' ∈ post, cleanParts e'.name ≠ cleanParts e.name) (hsize : e.info = e.data.length) :
    (¬ htmlSuffix <:+ path → (siteOpen template (TFs.new 0 (pre ++ e :: post)) q dev path).sent = some e.data ∧ (siteOpen template (TFs.new 0 (pre ++ e :: post)) q dev path).closed = 0) ∧
    (htmlSuffix <:+ path → (siteOpen template (TFs.new 0 (pre ++ e :: post)) q dev path).sent = template e.data ⟨q, formValue (goForm q) "metric", dev⟩ ∧
      (siteOpen template (TFs.new 0 (pre ++ e :: post)) q dev path).closed = if template e.data ⟨q, formValue (goForm q) "metric", dev⟩ = none then 1 else 0) := by
  obtain ⟨n, h1, h2, h3⟩ := C58_stored 0 pre post e path hp hl
  have hb : tarOpen (TFs.new 0 (pre ++ e :: post)) path = some (e.data, e.data.length) := by
    unfold tarOpen
    rw [h1]
    simp only
    rw [h2, h3, hsize]
  unfold siteOpen tmplOpen
  rw [hb]
  constructor
  · intro h
    simp only [if_pos h]
    exact ⟨by unfold SiteFile.sent; simp, trivial⟩
  · intro h
    simp only [if_neg (show ¬ ¬ htmlSuffix <:+ path from fun hh => hh h)]
    show SiteFile.sent (match template e.data ⟨q, formValue (goForm q) "metric", dev⟩ with | none => _ | some out => _) = _ ∧ _
    unfold siteParams
    cases template e.data ⟨q, formValue (goForm q) "metric", dev⟩ with
    | none => exact ⟨rfl, rfl⟩
    | some out => exact ⟨by unfold SiteFile.sent; simp, rfl⟩

/-- **C94** A missing file whose name ends in `.html` is answered with the page of the site, its template filled in. -/
theorem C94_missing (template : Bytes → SiteParams → Option Bytes) (q : Bytes) (dev : Bool) (pre post : List (TEntry Nat)) (e : TEntry Nat) (path : Bytes) (hp : cleanParts path ≠ [])
    (hn : ∀ e' ∈ pre ++ e :: post, ¬ cleanParts path <+: cleanParts e'.name) (hx : ∃ e' ∈ pre ++ e :: post, e'.name = indexName ∨ e'.name = dotIndexName)
    (hi : cleanParts e.name = [indexName]) (hl : ∀ e' ∈ post, cleanParts e'.name ≠ [indexName]) (hsize : e.info = e.data.length) :
    (siteOpen template (TFs.new 0 (pre ++ e :: post)) q dev path).sent = if htmlSuffix <:+ path then template e.data ⟨q, formValue (goForm q) "metric", dev⟩ else some e.data := by
  obtain ⟨n, h1, h2, h3⟩ := C58_default 0 pre post e path hp hn hx hi hl
  have hb : tarOpen (TFs.new 0 (pre ++ e :: post)) path = some (e.data, e.data.length) := by
    unfold tarOpen
    rw [h1]
    simp only
    rw [h2, h3, hsize]
  unfold siteOpen tmplOpen
  rw [hb]
  by_cases h : htmlSuffix <:+ path
  · simp only [if_neg (show ¬ ¬ htmlSuffix <:+ path from fun hh => hh h), if_pos h]
    unfold siteParams
    cases template e.data ⟨q, formValue (goForm q) "metric", dev⟩ with
    | none => rfl
    | some out => unfold SiteFile.sent; simp
  · simp only [if_pos h, if_neg h]
    unfold SiteFile.sent
    simp

/-- A template that writes `x` for the text `{{}}`. -/
def exTemplate (s : Bytes) (_ : SiteParams) : Option Bytes := if s = "{{}}".toUTF8.toList then some "x".toUTF8.toList else if s = [] then none else some s

/-- **C94** is false for other missing paths: the page is sent with its template as it stands, not filled in. -/
theorem C94_raw_refuted : ∃ (fs : TFs Nat) (path : Bytes), cleanParts path ≠ [indexName] ∧ (siteOpen exTemplate fs [] false path).sent = some "{{}}".toUTF8.toList ∧
    (siteOpen exTemplate fs [] false (47 :: indexName)).sent = some "x".toUTF8.toList :=
  ⟨TFs.new 0 [⟨dotIndexName, 4, "{{}}".toUTF8.toList⟩], "/dashboard".toUTF8.toList, by decide +kernel, by decide +kernel, by decide +kernel⟩

/-- Test of C94: a page that becomes shorter, a template that fails, another file. -/
theorem C94_example :
    let fs := TFs.new 0 [⟨dotIndexName, 4, "{{}}".toUTF8.toList⟩, ⟨"./bad.html".toUTF8.toList, 0, []⟩, ⟨"./js/main.js".toUTF8.toList, 4, "{{}}".toUTF8.toList⟩]
    siteOpen exTemplate fs [] false "/index.html".toUTF8.toList = ⟨some ("x".toUTF8.toList, 1), 0⟩ ∧ siteOpen exTemplate fs [] false "/bad.html".toUTF8.toList = ⟨none, 1⟩ ∧
    siteOpen exTemplate fs [] false "/js/main.js".toUTF8.toList = ⟨some ("{{}}".toUTF8.toList, 4), 0⟩ := by decide +kernel

/-! ## The preview -/

theorem go_append (q : Bytes) : goForm (q ++ [38, 112, 97, 100, 100, 105, 110, 103, 61, 53]) = goForm q ++ [("padding", [53])] := by
  unfold goForm
  rw [List.map_append]
  rw [show List.map (fun b : UInt8 => if b = 59 then 38 else b) [38, 112, 97, 100, 100, 105, 110, 103, 61, 53] = 38 :: [112, 97, 100, 100, 105, 110, 103, 61, 53] by decide,
    splitOn_append, List.filterMap_append]
  congr 1

theorem form_append (f g : List (String × Bytes)) (key : String) : formValue (f ++ g) key = if key ∈ f.map Prod.fst then formValue f key else formValue g key := by
  induction f with
  | nil => simp
  | cons p f ih =>
    obtain ⟨k, v⟩ := p
    by_cases h : k = key
    · subst h
      simp [formValue]
    · rw [List.cons_append, formValue, if_neg h, ih, formValue, if_neg h]
      have : (key ∈ ((k, v) :: f).map Prod.fst) ↔ key ∈ f.map Prod.fst := by
        rw [List.map_cons, List.mem_cons]
        exact ⟨fun hh => hh.resolve_left (fun e => h e.symm), .inr⟩
      by_cases hc : key ∈ f.map Prod.fst
      · rw [if_pos hc, if_pos (this.mpr hc)]
      · rw [if_neg hc, if_neg (fun h => hc (this.mp h))]

/-- **C94** The image of the page's preview is that of the metric the page's title gives, with the other parameters of the page's address; the padding is 5 unless the address has one. -/
theorem C94_preview (q : Bytes) (dev : Bool) (key : String) :
    formValue (goForm (previewQuery (siteParams q dev))) "metric" = (siteParams q dev).metric ∧
    (key ≠ "padding" → formValue (goForm (previewQuery (siteParams q dev))) key = formValue (goForm q) key) ∧
    ((∀ v, ("padding", v) ∉ goForm q) → formValue (goForm (previewQuery (siteParams q dev))) "padding" = [53]) := by
  have hf : goForm (previewQuery (siteParams q dev)) = goForm q ++ [("padding", [53])] := go_append q
  have hk : ∀ key : String, key ≠ "padding" → formValue (goForm q ++ [("padding", [53])]) key = formValue (goForm q) key := by
    intro key hne
    rw [form_append]
    split
    · rfl
    · rename_i h
      have h1 : formValue [("padding", ([53] : Bytes))] key = [] := by
        rw [formValue, if_neg (fun e => hne e.symm)]
        rfl
      rw [h1, formValue_find]
      have : (goForm q).find? (fun p => p.1 = key) = none := by
        rw [List.find?_eq_none]
        rintro ⟨k, v⟩ hp hkk
        simp only [decide_eq_true_eq] at hkk
        subst hkk
        exact h (List.mem_map.mpr ⟨_, hp, rfl⟩)
      rw [this]
      rfl
  rw [hf]
  refine ⟨hk "metric" (by decide), hk key, ?_⟩
  intro h
  rw [form_append, if_neg]
  · rfl
  · intro hmem
    obtain ⟨⟨k, v⟩, hv, rfl⟩ := List.mem_map.mp hmem
    exact h v hv

/-- Test of C94_preview, for an address of the interface. -/
theorem C94_preview_example : (siteParams (browserQuery (toQuery [(metricKey, exOdd)])) false).metric = exOdd ∧
    formValue (goForm (previewQuery (siteParams (browserQuery (toQuery [(metricKey, exOdd)])) false))) "metric" = exOdd := by decide +kernel

end Rothko
