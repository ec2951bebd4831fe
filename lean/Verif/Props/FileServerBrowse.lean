import Verif.Props.FileServer
/-!
# C117: every address of the site gives its page (theorems)
-/
namespace Rothko

variable {es : List (TEntry SInfo)} (template : Bytes → SiteParams → Option Bytes) (dev : Bool) (rawQuery : Bytes)

/-- **C117** (a file). A request for the path of a file gets its bytes; pages, whose names end in .html, are filled in. -/
theorem C117_file (h : SiteOk es) (q : List Bytes) (last : Bytes) (hq : ∀ x ∈ q ++ [last], PathElem x) (hx : last ≠ indexName) (e : TEntry SInfo) (he : EntryAt es (q ++ [last]) e) (hd : e.info.dir = false) :
    serveSite template (TFs.new siteRoot es) dev rawQuery (urlOf (q ++ [last])) = if htmlSuffix <:+ last then filledIn template dev rawQuery e.data else .page e.data := by
  have hl := hq last (by simp)
  rw [serve_file template dev rawQuery h _ (url_head (by simp)) (not_index_url hl hx) (by rw [clean_url _ hq (by simp)]; exact .entry e (by simp) he) hd, if_neg (url_getLast hl), clean_text_url hq (by simp)]
  simp only [html_url]
  split
  · next g =>
    rw [if_pos g.1]
    unfold filledIn
    rw [show (⟨rawQuery, formValue (goForm rawQuery) "metric", dev⟩ : SiteParams) = siteParams rawQuery dev from rfl, g.2]
  · rfl

/-- **C117** (other paths). A request for a path that is not in the archive gets the site's index.html, which is filled in only if the path ends in .html. -/
theorem C117_missing (h : SiteOk es) (q : List Bytes) (last : Bytes) (hq : ∀ x ∈ q ++ [last], PathElem x) (hx : last ≠ indexName) (hn : ∀ e, ¬ EntryAt es (q ++ [last]) e) (e : TEntry SInfo)
    (he : EntryAt es [indexName] e) :
    serveSite template (TFs.new siteRoot es) dev rawQuery (urlOf (q ++ [last])) = if htmlSuffix <:+ last then filledIn template dev rawQuery e.data else .page e.data := by
  have hl := hq last (by simp)
  have hd := index_file h (q := []) he
  rw [serve_file template dev rawQuery h _ (url_head (by simp)) (not_index_url hl hx) (by rw [clean_url _ hq (by simp)]; exact .missing e (by simp) hn he) hd, if_neg (url_getLast hl), clean_text_url hq (by simp)]
  simp only [html_url]
  split
  · next g =>
    rw [if_pos g.1]
    unfold filledIn
    rw [show (⟨rawQuery, formValue (goForm rawQuery) "metric", dev⟩ : SiteParams) = siteParams rawQuery dev from rfl, g.2]
  · rfl

/-- **C117** (a directory). With a slash at its end, the path of a directory gives the directory's index.html, filled in, or else the site's. -/
theorem C117_dir (h : SiteOk es) (q : List Bytes) (last : Bytes) (hq : ∀ x ∈ q ++ [last], PathElem x) (hs : ¬ htmlSuffix <:+ last) (d : TEntry SInfo) (he : EntryAt es (q ++ [last]) d) (hd : d.info.dir = true)
    (e : TEntry SInfo) (hi : IndexFor es (q ++ [last]) e) (out : Bytes) (ht : template e.data (siteParams rawQuery dev) = some out) :
    serveSite template (TFs.new siteRoot es) dev rawQuery (urlOf (q ++ [last]) ++ [47]) = .page out := by
  have hc := clean_url_slash _ hq
  rw [serve_dir template dev rawQuery h _ (url_head_slash _) (not_index_slash _) (by rw [hc]; exact .entry d (by simp) he) hd (by rw [clean_text_slash hq (by simp), html_url]; exact hs) (by rw [hc]; exact hi) ht,
    if_pos (by simp)]

/-- **C117** (the root). The address of the server gives the site's index.html, filled in. -/
theorem C117_root (h : SiteOk es) (e : TEntry SInfo) (he : EntryAt es [indexName] e) (out : Bytes) (ht : template e.data (siteParams rawQuery dev) = some out) (url : Bytes) (hu : url = [] ∨ url = [47]) :
    serveSite template (TFs.new siteRoot es) dev rawQuery url = .page out := by
  have h1 : serveSite template (TFs.new siteRoot es) dev rawQuery url = serveSite template (TFs.new siteRoot es) dev rawQuery [47] := by
    rcases hu with rfl | rfl <;> rfl
  rw [h1, serve_dir template dev rawQuery h [47] rfl (by decide) (.root (by decide)) rfl (by decide) (show IndexFor es (cleanParts [47]) e from .inl he) ht, if_pos (by decide)]

/-- **C117** (the address of an index). It leads to its directory. -/
theorem C117_index (fs : TFs SInfo) (url : Bytes) (hu : (47 :: indexName) <:+ url) : serveSite template fs dev rawQuery url = .moved (if rawQuery = [] then [46, 47] else [46, 47] ++ 63 :: rawQuery) := by
  unfold serveSite fileServer localRedirect
  simp only
  rw [if_pos]
  split
  · exact hu
  · exact hu.trans (List.suffix_cons _ _)

/-- **C117** (a directory without its slash). The answer leads to the address with the slash. -/
theorem C117_noslash (h : SiteOk es) (q : List Bytes) (last : Bytes) (hq : ∀ x ∈ q ++ [last], PathElem x) (hs : ¬ htmlSuffix <:+ last) (d : TEntry SInfo) (he : EntryAt es (q ++ [last]) d) (hd : d.info.dir = true) :
    serveSite template (TFs.new siteRoot es) dev rawQuery (urlOf (q ++ [last])) = .moved (if rawQuery = [] then last ++ [47] else (last ++ [47]) ++ 63 :: rawQuery) := by
  have hl := hq last (by simp)
  have hx : last ≠ indexName := fun g => h.plain d he.1 hd (by rw [he.2, g]; simp)
  unfold serveSite fileServer
  simp only [url_head (show q ++ [last] ≠ [] by simp), if_true]
  rw [if_neg (not_index_url hl hx)]
  obtain ⟨k, h2⟩ := openSite_raw template dev rawQuery h (cleanText (urlOf (q ++ [last]))) (i := d.info) (d := d.data) (by rw [clean_text_url hq (by simp), clean_url _ hq (by simp)]; exact .entry d (by simp) he)
    (by rw [clean_text_url hq (by simp), html_url]; exact hs)
  rw [h2]
  simp only [hd]
  rw [if_pos ⟨trivial, url_getLast hl⟩, base_url hq]
  rfl

/-- **C117** (a file with a slash). The answer leads to the address without the slash, also if there is no such file. -/
theorem C117_slash (h : SiteOk es) (q : List Bytes) (last : Bytes) (hq : ∀ x ∈ q ++ [last], PathElem x) (i : SInfo) (d : Bytes) (ha : SiteAt es (q ++ [last]) i d) (hd : i.dir = false)
    (ht : htmlSuffix <:+ last → template d (siteParams rawQuery dev) ≠ none) :
    serveSite template (TFs.new siteRoot es) dev rawQuery (urlOf (q ++ [last]) ++ [47]) = .moved (if rawQuery = [] then [46, 46, 47] ++ last else ([46, 46, 47] ++ last) ++ 63 :: rawQuery) := by
  rw [serve_file template dev rawQuery h _ (url_head_slash _) (not_index_slash _) (by rw [clean_url_slash _ hq]; exact ha) hd, clean_text_slash hq (by simp),
    if_neg (fun g => ht (html_url.mp g.1) g.2), if_pos (by simp), base_slash hq]
  rfl

/-! ## Browsers -/

theorem dots_elems (q done rest : List Bytes) (hq : ∀ x ∈ q, PathElem x) : removeDots done (q ++ rest) = removeDots (q.reverse ++ done) rest := by
  induction q generalizing done with
  | nil => rfl
  | cons a q ih =>
    obtain ⟨_, h2, h3, _⟩ := hq a (by simp)
    rw [List.cons_append, removeDots, if_neg h2, if_neg h3, ih _ (fun x hx => hq x (by simp [hx]))]
    simp

theorem take_query (ref q : Bytes) (h : ∀ b ∈ ref, b ≠ 63) : (if q = [] then ref else ref ++ 63 :: q).takeWhile (· ≠ 63) = ref ∧ ((if q = [] then ref else ref ++ 63 :: q).dropWhile (· ≠ 63)).tail = q := by
  have h1 : ∀ r : Bytes, (ref ++ r).takeWhile (· ≠ 63) = ref ++ r.takeWhile (· ≠ 63) := fun r => List.takeWhile_append_of_pos (by simpa using h)
  have h2 : ∀ r : Bytes, (ref ++ r).dropWhile (· ≠ 63) = r.dropWhile (· ≠ 63) := fun r => List.dropWhile_append_of_pos (by simpa using h)
  split
  · next g =>
    have a := h1 []
    have b := h2 []
    rw [List.append_nil] at a b
    rw [a, b, g]
    simp
  · rw [h1, h2]
    simp

theorem urlOf_append (a b : List Bytes) : urlOf (a ++ b) = urlOf a ++ urlOf b := by simp [urlOf]

/-- **C117** (the slash is added). -/
theorem C117_follow_noslash (q : List Bytes) (last : Bytes) (hq : ∀ x ∈ q ++ [last], PlainElem x) :
    follow (urlOf (q ++ [last])) (if rawQuery = [] then last ++ [47] else (last ++ [47]) ++ 63 :: rawQuery) = (urlOf (q ++ [last]) ++ [47], rawQuery) := by
  have hp : ∀ x ∈ q ++ [last], PathElem x := fun x hx => (hq x hx).1
  have hl := hq last (by simp)
  obtain ⟨t1, t2⟩ := take_query (last ++ [47]) rawQuery (by
    intro b hb
    rcases List.mem_append.mp hb with g | g
    · exact (hl.2 b g).2.2.1
    · rw [List.mem_singleton.mp g]; decide)
  unfold follow
  simp only
  rw [t1, t2, splitSlash_url' _ (fun x hx => (hp x hx).2.2.2) (by simp), splitSlash_cut last [] hl.1.2.2.2]
  have e1 : ([] :: (q ++ [last])).tail.dropLast ++ last :: splitSlash [] = (q ++ [last]) ++ [[]] := by simp [splitSlash]
  rw [e1, dots_elems _ _ _ hp]
  have e2 : removeDots ((q ++ [last]).reverse ++ []) [[]] = (q ++ [last]) ++ [[]] := by
    simp [removeDots]
  rw [e2]
  show (urlOf ((q ++ [last]) ++ [[]]), rawQuery) = _
  rw [urlOf_append (q ++ [last])]
  rfl

/-- **C117** (the slash is removed). -/
theorem C117_follow_slash (q : List Bytes) (last : Bytes) (hq : ∀ x ∈ q ++ [last], PlainElem x) :
    follow (urlOf (q ++ [last]) ++ [47]) (if rawQuery = [] then [46, 46, 47] ++ last else ([46, 46, 47] ++ last) ++ 63 :: rawQuery) = (urlOf (q ++ [last]), rawQuery) := by
  have hp : ∀ x ∈ q ++ [last], PathElem x := fun x hx => (hq x hx).1
  have hl := hq last (by simp)
  obtain ⟨t1, t2⟩ := take_query ([46, 46, 47] ++ last) rawQuery (by
    intro b hb
    rcases List.mem_append.mp hb with g | g
    · clear hb; revert b; decide
    · exact (hl.2 b g).2.2.1)
  unfold follow
  simp only
  rw [t1, t2, splitSlash_url _ (fun x hx => (hp x hx).2.2.2)]
  have e0 : splitSlash ([46, 46, 47] ++ last) = [[46, 46], last] := by
    rw [show [46, 46, 47] ++ last = [46, 46] ++ 47 :: last from rfl, splitSlash_cut _ _ (by decide), splitSlash_elem last hl.1.2.2.2]
  have e1 : ([] :: ((q ++ [last]) ++ splitSlash [])).tail.dropLast = q ++ [last] := by simp [splitSlash]
  rw [e0, e1, dots_elems _ _ _ hp]
  have e2 : removeDots ((q ++ [last]).reverse ++ []) [[46, 46], last] = q ++ [last] := by
    obtain ⟨_, h2, h3, _⟩ := hl.1
    simp [removeDots, h2, h3]
  rw [e2]
  rfl

/-- **C117** (the name of the index is removed). -/
theorem C117_follow_index (q : List Bytes) (hq : ∀ x ∈ q, PlainElem x) :
    follow (urlOf q ++ 47 :: indexName) (if rawQuery = [] then [46, 47] else [46, 47] ++ 63 :: rawQuery) = (urlOf q ++ [47], rawQuery) := by
  have hp : ∀ x ∈ q, PathElem x := fun x hx => (hq x hx).1
  obtain ⟨t1, t2⟩ := take_query [46, 47] rawQuery (by decide)
  unfold follow
  simp only
  rw [t1, t2, splitSlash_url _ (fun x hx => (hp x hx).2.2.2)]
  have e1 : ([] :: (q ++ splitSlash indexName)).tail.dropLast = q := by
    rw [splitSlash_elem _ (by decide)]; simp
  rw [e1, show splitSlash [46, 47] = [[46], []] by decide, dots_elems _ _ _ hp]
  have e2 : removeDots (q.reverse ++ []) [[46], []] = q ++ [[]] := by simp [removeDots]
  rw [e2]
  show (urlOf (q ++ [[]]), rawQuery) = _
  rw [urlOf_append q]
  rfl

/-- **C117** (browsing). Whatever is at a path, a browser shows it within one redirect, whether or not the address ends in a slash, and the query is kept. -/
theorem C117_browse (h : SiteOk es) (q : List Bytes) (last : Bytes) (hq : ∀ x ∈ q ++ [last], PlainElem x) (hx : last ≠ indexName) (url : Bytes) (hu : url = urlOf (q ++ [last]) ∨ url = urlOf (q ++ [last]) ++ [47]) :
    (∀ e, EntryAt es (q ++ [last]) e → e.info.dir = false → ¬ htmlSuffix <:+ last → visitPage (serveSite template (TFs.new siteRoot es) dev) rawQuery url = .page e.data) ∧
    (∀ e out, EntryAt es (q ++ [last]) e → e.info.dir = false → htmlSuffix <:+ last → template e.data (siteParams rawQuery dev) = some out →
      visitPage (serveSite template (TFs.new siteRoot es) dev) rawQuery url = .page out) ∧
    (∀ d e out, EntryAt es (q ++ [last]) d → d.info.dir = true → ¬ htmlSuffix <:+ last → IndexFor es (q ++ [last]) e → template e.data (siteParams rawQuery dev) = some out →
      visitPage (serveSite template (TFs.new siteRoot es) dev) rawQuery url = .page out) ∧
    (∀ e, (∀ e', ¬ EntryAt es (q ++ [last]) e') → EntryAt es [indexName] e → ¬ htmlSuffix <:+ last → visitPage (serveSite template (TFs.new siteRoot es) dev) rawQuery url = .page e.data) := by
  have hp : ∀ x ∈ q ++ [last], PathElem x := fun x hx => (hq x hx).1
  refine ⟨?_, ?_, ?_, ?_⟩
  · intro e he hd hs
    have h1 := C117_file template dev rawQuery h q last hp hx e he hd
    rw [if_neg hs] at h1
    rcases hu with rfl | rfl
    · unfold visitPage; rw [h1]
    · unfold visitPage
      rw [C117_slash template dev rawQuery h q last hp e.info e.data (.entry e (by simp) he) hd (fun g => absurd g hs)]
      simp only
      rw [C117_follow_slash rawQuery q last hq, h1]
  · intro e out he hd hs ht
    have h1 := C117_file template dev rawQuery h q last hp hx e he hd
    have hf : filledIn template dev rawQuery e.data = .page out := by
      unfold filledIn
      rw [show (⟨rawQuery, formValue (goForm rawQuery) "metric", dev⟩ : SiteParams) = siteParams rawQuery dev from rfl, ht]
    rw [if_pos hs, hf] at h1
    rcases hu with rfl | rfl
    · unfold visitPage; rw [h1]
    · unfold visitPage
      rw [C117_slash template dev rawQuery h q last hp e.info e.data (.entry e (by simp) he) hd (fun _ g => by rw [ht] at g; cases g)]
      simp only
      rw [C117_follow_slash rawQuery q last hq, h1]
  · intro d e out he hd hs hi ht
    have h1 := C117_dir template dev rawQuery h q last hp hs d he hd e hi out ht
    rcases hu with rfl | rfl
    · unfold visitPage
      rw [C117_noslash template dev rawQuery h q last hp hs d he hd]
      simp only
      rw [C117_follow_noslash rawQuery q last hq, h1]
    · unfold visitPage; rw [h1]
  · intro e hn he hs
    have h1 := C117_missing template dev rawQuery h q last hp hx hn e he
    rw [if_neg hs] at h1
    rcases hu with rfl | rfl
    · unfold visitPage; rw [h1]
    · unfold visitPage
      rw [C117_slash template dev rawQuery h q last hp e.info e.data (.missing e (by simp) hn he) (index_file h (q := []) he) (fun g => absurd g hs)]
      simp only
      rw [C117_follow_slash rawQuery q last hq, h1]

/-- **C117** (browsing to an index by its name). -/
theorem C117_browse_index (h : SiteOk es) (q : List Bytes) (last : Bytes) (hq : ∀ x ∈ q ++ [last], PlainElem x) (hs : ¬ htmlSuffix <:+ last) (d : TEntry SInfo) (hd : EntryAt es (q ++ [last]) d) (hdir : d.info.dir = true)
    (e : TEntry SInfo) (hi : IndexFor es (q ++ [last]) e) (out : Bytes) (ht : template e.data (siteParams rawQuery dev) = some out) :
    visitPage (serveSite template (TFs.new siteRoot es) dev) rawQuery (urlOf (q ++ [last]) ++ 47 :: indexName) = .page out := by
  unfold visitPage
  rw [C117_index template dev rawQuery _ _ (List.suffix_append _ _)]
  simp only
  rw [C117_follow_index rawQuery _ hq]
  exact C117_dir template dev rawQuery h q last (fun x hx => (hq x hx).1) hs d hd hdir e hi out ht

/-! ## Any address -/

/-- **C117** (any address). With templates that do not fail, every request is answered with a page of the archive, filled in or not, or with a redirect: never with an error, a listing of a directory, or a panic.
Directories are not called something.html. -/
theorem C117_total (h : SiteOk es) (hdirs : ∀ e ∈ es, e.info.dir = true → ¬ htmlSuffix <:+ ((cleanParts e.name).getLast?.getD [])) (ht : ∀ d p, template d p ≠ none) (url : Bytes) :
    (∃ loc, serveSite template (TFs.new siteRoot es) dev rawQuery url = .moved loc) ∨
    ∃ e ∈ es, e.info.dir = false ∧ (serveSite template (TFs.new siteRoot es) dev rawQuery url = .page e.data ∨ ∃ out, template e.data (siteParams rawQuery dev) = some out ∧ serveSite template (TFs.new siteRoot es) dev rawQuery url = .page out) := by
  obtain ⟨u, hu, hs⟩ : ∃ u : Bytes, u.head? = some 47 ∧ serveSite template (TFs.new siteRoot es) dev rawQuery url = serveSite template (TFs.new siteRoot es) dev rawQuery u := by
    by_cases g : url.head? = some 47
    · exact ⟨url, g, rfl⟩
    · refine ⟨47 :: url, rfl, ?_⟩
      unfold serveSite fileServer
      simp only [if_neg g, List.head?_cons, if_true]
  rw [hs]
  by_cases hx : (47 :: indexName) <:+ u
  · exact .inl ⟨_, C117_index template dev rawQuery _ u hx⟩
  obtain ⟨i, d, ha⟩ := site_at h (cleanParts u)
  cases hd : i.dir with
  | false =>
    rw [serve_file template dev rawQuery h u hu hx ha hd, if_neg (fun g => ht _ _ g.2)]
    by_cases hl : u.getLast? = some 47
    · rw [if_pos hl]; exact .inl ⟨_, rfl⟩
    · rw [if_neg hl]
      obtain ⟨e, he, hed, hdata⟩ : ∃ e ∈ es, e.info.dir = false ∧ e.data = d := by
        cases ha with
        | root _ => cases hd
        | entry e _ he => exact ⟨e, he.1, hd, rfl⟩
        | missing e _ _ he => exact ⟨e, he.1, hd, rfl⟩
      refine .inr ⟨e, he, hed, ?_⟩
      rw [hdata]
      split
      · right
        unfold filledIn
        rw [show (⟨rawQuery, formValue (goForm rawQuery) "metric", dev⟩ : SiteParams) = siteParams rawQuery dev from rfl]
        cases hout : template d (siteParams rawQuery dev) with
        | none => exact absurd hout (ht _ _)
        | some out => exact ⟨out, rfl, rfl⟩
      · exact .inl rfl
  | true =>
    have hns : ¬ htmlSuffix <:+ cleanText u := by
      unfold cleanText
      by_cases hq : cleanParts u = []
      · rw [if_pos hq]; decide
      · rw [if_neg hq]
        cases ha with
        | root g => exact absurd g hq
        | entry e _ he =>
          have := hdirs e he.1 hd
          rw [he.2, List.getLast?_eq_some_getLast hq] at this
          intro g
          apply this
          have e1 : cleanParts u = (cleanParts u).dropLast ++ [(cleanParts u).getLast hq] := (List.dropLast_concat_getLast hq).symm
          have g' : htmlSuffix <:+ urlOf ((cleanParts u).dropLast ++ [(cleanParts u).getLast hq]) := by rw [← e1]; exact g
          exact html_url.mp g'
        | missing e _ _ he =>
          have := index_file h (q := []) he
          rw [hd] at this; cases this
    obtain ⟨i', d', hi'⟩ := site_at h (cleanParts u ++ [indexName])
    obtain ⟨hd', e, he, hed⟩ := at_index h hi'
    have hef : e ∈ es ∧ e.info.dir = false := by
      rcases he with he | he
      · exact ⟨he.1, index_file h he⟩
      · exact ⟨he.2.1, index_file h (q := []) he.2⟩
    cases hout : template e.data (siteParams rawQuery dev) with
    | none => exact absurd hout (ht _ _)
    | some out =>
      rw [serve_dir template dev rawQuery h u hu hx ha hd hns he hout]
      split
      · exact .inr ⟨e, hef.1, hef.2, .inr ⟨out, hout, rfl⟩⟩
      · exact .inl ⟨_, rfl⟩

/-- **C117** (a build without a user interface). The warning is shown where the index would be, and nothing else exists. -/
theorem C117_warning (warning url : Bytes) :
    (url ∈ ["/index.html".toUTF8.toList, "index.html".toUTF8.toList, "/".toUTF8.toList, []] → serveWarning warning url = .page warning) ∧
    (url ∉ ["/index.html".toUTF8.toList, "index.html".toUTF8.toList, "/".toUTF8.toList, []] → serveWarning warning url = .notFound) := by
  have e1 : "/index.html".toUTF8.toList = 47 :: indexName := by decide +kernel
  have e2 : "index.html".toUTF8.toList = indexName := by decide +kernel
  have e3 : "/".toUTF8.toList = [47] := by decide +kernel
  rw [e1, e2, e3]
  unfold serveWarning
  simp only [List.mem_cons, List.not_mem_nil, or_false]
  exact ⟨fun h => if_pos h, fun h => if_neg h⟩

end Rothko
