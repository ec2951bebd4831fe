import Verif.Lemmas.FileServer
/-!
# C117: every address of the site gives its page
-/
namespace Rothko

variable {es : List (TEntry SInfo)} (template : Bytes → SiteParams → Option Bytes) (dev : Bool) (rawQuery : Bytes)

/-! ## Opening -/

theorem entry_cut (h : SiteOk es) {e : TEntry SInfo} (he : e ∈ es) : ∃ a b, es = a ++ e :: b ∧ ∀ e' ∈ b, cleanParts e'.name ≠ cleanParts e.name := by
  obtain ⟨a, b, rfl⟩ := List.append_of_mem he
  exact ⟨a, b, rfl, fun e' he' => h.once a b e e' rfl he'⟩

theorem index_parts {e : TEntry SInfo} (h : e.name = indexName ∨ e.name = dotIndexName) : cleanParts e.name = [indexName] := by
  rcases h with h | h <;> rw [h] <;> decide

/-- The site has an index. -/
theorem site_index (h : SiteOk es) : ∃ e, EntryAt es [indexName] e := by
  obtain ⟨e, he, hn, _⟩ := h.index
  exact ⟨e, he, index_parts hn⟩

theorem index_file (h : SiteOk es) {q : List Bytes} {e : TEntry SInfo} (he : EntryAt es (q ++ [indexName]) e) : e.info.dir = false := by
  cases hd : e.info.dir with
  | false => rfl
  | true => exact absurd (by rw [he.2]; simp) (h.plain e he.1 hd)

/-- There is something at every path. -/
theorem site_at (h : SiteOk es) (q : List Bytes) : ∃ i d, SiteAt es q i d := by
  by_cases hq : q = []
  · exact ⟨_, _, .root hq⟩
  · by_cases he : ∃ e, EntryAt es q e
    · obtain ⟨e, he⟩ := he
      exact ⟨_, _, .entry e hq he⟩
    · obtain ⟨e, hi⟩ := site_index h
      exact ⟨_, _, .missing e hq (fun e' g => he ⟨e', g⟩) hi⟩

theorem open_at (h : SiteOk es) (path : Bytes) {i : SInfo} {d : Bytes} (ha : SiteAt es (cleanParts path) i d) :
    ∃ n, (TFs.new siteRoot es).open path = some n ∧ n.fi = some i ∧ n.data = d := by
  cases ha with
  | root hq => exact C58_root siteRoot es path hq h.root
  | entry e hq he =>
    obtain ⟨a, b, hab, hl⟩ := entry_cut h he.1
    rw [hab]
    exact C58_stored siteRoot a b e path he.2.symm hl
  | missing e hq hn hi =>
    obtain ⟨a, b, hab, hl⟩ := entry_cut h hi.1
    have hd := h.dirs
    obtain ⟨x, hx, hxn, _⟩ := h.index
    rw [hi.2] at hl
    have hp : ∀ e' ∈ es, ¬ cleanParts path <+: cleanParts e'.name := by
      intro e' he' hp
      obtain ⟨d, hd, hdq, _⟩ := h.dirs e' he' _ hq hp
      exact hn d ⟨hd, hdq⟩
    rw [hab] at hp hx ⊢
    exact C58_default siteRoot a b e path hq hp ⟨x, hx, hxn⟩ hi.2 hl

/-- A file that is not filled in. -/
theorem openSite_raw (h : SiteOk es) (path : Bytes) {i : SInfo} {d : Bytes} (ha : SiteAt es (cleanParts path) i d) (hs : ¬ htmlSuffix <:+ path) :
    ∃ k, openSite template (TFs.new siteRoot es) rawQuery dev path = .file (some i) d k := by
  obtain ⟨n, h1, h2, h3⟩ := open_at h path ha
  exact ⟨n.children.length, by unfold openSite; rw [h1]; simp only; rw [if_pos hs, h2, h3]⟩

/-- A file that is filled in. -/
theorem openSite_html (h : SiteOk es) (path : Bytes) {i : SInfo} {d : Bytes} (ha : SiteAt es (cleanParts path) i d) (hs : htmlSuffix <:+ path) :
    (template d (siteParams rawQuery dev) = none ∧ openSite template (TFs.new siteRoot es) rawQuery dev path = .failed) ∨
    ∃ out k, template d (siteParams rawQuery dev) = some out ∧ openSite template (TFs.new siteRoot es) rawQuery dev path = .file (some { i with size := out.length }) out k := by
  obtain ⟨n, h1, h2, h3⟩ := open_at h path ha
  unfold openSite
  rw [h1]
  simp only
  rw [if_neg (by simpa using hs), h2, h3]
  cases ht : template d (siteParams rawQuery dev) with
  | none => exact .inl ⟨rfl, rfl⟩
  | some out => exact .inr ⟨out, n.children.length, rfl, rfl⟩

theorem at_size (h : SiteOk es) {q : List Bytes} {i : SInfo} {d : Bytes} (ha : SiteAt es q i d) (hd : i.dir = false) : i.size = d.length := by
  cases ha with
  | root _ => cases hd
  | entry e _ he => exact h.size e he.1 hd
  | missing e _ _ he => exact h.size e he.1 hd

theorem at_index (h : SiteOk es) {q : List Bytes} {i : SInfo} {d : Bytes} (ha : SiteAt es (q ++ [indexName]) i d) : i.dir = false ∧ ∃ e, IndexFor es q e ∧ e.data = d := by
  generalize hq : q ++ [indexName] = q1 at ha
  cases ha with
  | root g => rw [← hq] at g; simp at g
  | entry e _ he => rw [← hq] at he; exact ⟨index_file h he, e, .inl he, rfl⟩
  | missing e _ hn he => rw [← hq] at hn; exact ⟨index_file h (q := []) he, e, .inr ⟨hn, he⟩, rfl⟩

theorem at_for {q : List Bytes} {e : TEntry SInfo} (he : IndexFor es q e) : SiteAt es (q ++ [indexName]) e.info e.data := by
  rcases he with he | ⟨hn, he⟩
  · exact .entry e (by simp) he
  · exact .missing e (by simp) hn he

/-! ## Answers -/

theorem served_file (i : SInfo) (d : Bytes) (k : Nat) (hd : i.dir = false) (hs : i.size = d.length) : serveOpened (some i) d k = .page d := by
  unfold serveOpened
  simp only
  rw [hd, hs]
  simp

/-- Of a file. -/
theorem serve_file (h : SiteOk es) (u : Bytes) (hu : u.head? = some 47) (hx : ¬ (47 :: indexName) <:+ u) {i : SInfo} {d : Bytes} (ha : SiteAt es (cleanParts u) i d) (hd : i.dir = false) :
    serveSite template (TFs.new siteRoot es) dev rawQuery u =
      if htmlSuffix <:+ cleanText u ∧ template d (siteParams rawQuery dev) = none then .error
      else if u.getLast? = some 47 then localRedirect rawQuery ([46, 46, 47] ++ pathBase u)
      else if htmlSuffix <:+ cleanText u then filledIn template dev rawQuery d else .page d := by
  unfold serveSite fileServer
  simp only [hu, if_true]
  rw [if_neg hx]
  rw [← cleanText_parts u hu] at ha
  by_cases hs : htmlSuffix <:+ cleanText u
  · rcases openSite_html template dev rawQuery h _ ha hs with ⟨h1, h2⟩ | ⟨out, k, h1, h2⟩
    · rw [h2, if_pos ⟨hs, h1⟩]
    · rw [h2, if_neg (fun g => by rw [h1] at g; cases g.2)]
      simp only [hd]
      rw [if_neg (by rintro ⟨g, _⟩; cases g), if_pos hs]
      by_cases hl : u.getLast? = some 47
      · rw [if_pos ⟨trivial, hl⟩, if_pos hl]
      · rw [if_neg (fun g => hl g.2), if_neg hl]
        unfold serveIndex
        simp only
        rw [if_neg (by simp), served_file _ _ _ rfl rfl]
        unfold filledIn
        rw [show (⟨rawQuery, formValue (goForm rawQuery) "metric", dev⟩ : SiteParams) = siteParams rawQuery dev from rfl, h1]
  · obtain ⟨k, h2⟩ := openSite_raw template dev rawQuery h _ ha hs
    rw [h2, if_neg (fun g => hs g.1)]
    simp only [hd]
    rw [if_neg (by rintro ⟨g, _⟩; cases g), if_neg hs]
    by_cases hl : u.getLast? = some 47
    · rw [if_pos ⟨trivial, hl⟩, if_pos hl]
    · rw [if_neg (fun g => hl g.2), if_neg hl]
      unfold serveIndex
      rw [if_neg (by simp [hd]), served_file _ _ _ hd (at_size h ha hd)]

/-- Of a directory. -/
theorem serve_dir (h : SiteOk es) (u : Bytes) (hu : u.head? = some 47) (hx : ¬ (47 :: indexName) <:+ u) {i : SInfo} {d : Bytes} (ha : SiteAt es (cleanParts u) i d) (hd : i.dir = true)
    (hs : ¬ htmlSuffix <:+ cleanText u) {e : TEntry SInfo} (he : IndexFor es (cleanParts u) e) {out : Bytes} (ht : template e.data (siteParams rawQuery dev) = some out) :
    serveSite template (TFs.new siteRoot es) dev rawQuery u = if u.getLast? = some 47 then .page out else localRedirect rawQuery (pathBase u ++ [47]) := by
  unfold serveSite fileServer
  simp only [hu, if_true]
  rw [if_neg hx]
  rw [← cleanText_parts u hu] at ha
  obtain ⟨k, h2⟩ := openSite_raw template dev rawQuery h _ ha hs
  rw [h2]
  simp only [hd]
  by_cases hl : u.getLast? = some 47
  · rw [if_pos hl, if_neg (fun g => g.2 hl), if_neg (by rintro ⟨g, _⟩; cases g)]
    unfold serveIndex
    rw [if_pos hd, indexPath u hu]
    have hc : cleanParts (urlOf (cleanParts u ++ [indexName])) = cleanParts u ++ [indexName] := clean_url _ (by
      intro x hx
      rcases List.mem_append.mp hx with g | g
      · exact clean_elems u hu x g
      · rw [List.mem_singleton.mp g]; exact pathElem_index) (by simp)
    have hi : SiteAt es (cleanParts (urlOf (cleanParts u ++ [indexName]))) e.info e.data := by rw [hc]; exact at_for he
    have hsx : htmlSuffix <:+ urlOf (cleanParts u ++ [indexName]) := by
      have : urlOf (cleanParts u ++ [indexName]) = (urlOf (cleanParts u) ++ 47 :: [105, 110, 100, 101, 120]) ++ htmlSuffix := by simp [urlOf, indexName, htmlSuffix]
      rw [this]; exact List.suffix_append _ _
    rcases openSite_html template dev rawQuery h _ hi hsx with ⟨h1, _⟩ | ⟨out', k', h1, h3⟩
    · rw [ht] at h1; cases h1
    · rw [ht] at h1
      injection h1 with h1
      subst h1
      rw [h3]
      simp only
      exact served_file ⟨e.info.dir, out.length⟩ out k' (show e.info.dir = false from (at_index h (hc ▸ hi)).1) rfl
  · rw [if_neg hl, if_pos ⟨trivial, hl⟩]

/-! ## Addresses -/

theorem suffix_cut {s a b : Bytes} (hs : 47 ∉ s) : s <:+ a ++ 47 :: b ↔ s <:+ b := by
  constructor
  · rintro ⟨t, ht⟩
    rw [List.append_eq_append_iff] at ht
    rcases ht with ⟨x, _, h2⟩ | ⟨x, _, h2⟩
    · exact absurd (by rw [h2]; simp) hs
    · cases x with
      | nil => rw [List.nil_append] at h2; exact absurd (by rw [← h2]; simp) hs
      | cons y x =>
        injection h2 with _ h2
        exact ⟨x, h2.symm⟩
  · rintro ⟨t, rfl⟩
    exact ⟨a ++ 47 :: t, by simp⟩

theorem url_last (q : List Bytes) (last : Bytes) : urlOf (q ++ [last]) = urlOf q ++ 47 :: last := by simp [urlOf]

theorem url_head {q : List Bytes} (h : q ≠ []) : (urlOf q).head? = some 47 := by
  cases q with
  | nil => exact absurd rfl h
  | cons a q => rfl

theorem url_head_slash (q : List Bytes) : (urlOf q ++ [47]).head? = some 47 := by
  cases q with
  | nil => rfl
  | cons a q => rfl

theorem url_getLast {q : List Bytes} {last : Bytes} (hl : PathElem last) : (urlOf (q ++ [last])).getLast? ≠ some 47 := by
  intro g
  rw [url_last] at g
  obtain ⟨h1, _, _, h4⟩ := hl
  have : (urlOf q ++ 47 :: last).getLast? = last.getLast? := by
    rw [show urlOf q ++ 47 :: last = (urlOf q ++ [47]) ++ last by simp]
    rw [List.getLast?_append]
    cases last with
    | nil => exact absurd rfl h1
    | cons b l => rw [List.getLast?_eq_some_getLast (by simp)]; rfl
  rw [this] at g
  exact h4 (List.mem_of_getLast? g)

theorem clean_text_url {q : List Bytes} (hq : ∀ e ∈ q, PathElem e) (hne : q ≠ []) : cleanText (urlOf q) = urlOf q := by
  unfold cleanText
  rw [clean_url q hq hne, if_neg hne]
  rfl

theorem clean_text_slash {q : List Bytes} (hq : ∀ e ∈ q, PathElem e) (hne : q ≠ []) : cleanText (urlOf q ++ [47]) = urlOf q := by
  unfold cleanText
  rw [clean_url_slash q hq, if_neg hne]
  rfl

theorem filter_elems {q : List Bytes} (hq : ∀ e ∈ q, PathElem e) : q.filter (fun e => e ≠ []) = q :=
  List.filter_eq_self.mpr (fun e he => by simpa using (hq e he).1)

theorem base_url {q : List Bytes} {last : Bytes} (hq : ∀ e ∈ q ++ [last], PathElem e) : pathBase (urlOf (q ++ [last])) = last := by
  unfold pathBase
  rw [if_neg (by rw [url_last]; simp), splitSlash_url' _ (fun e he => (hq e he).2.2.2) (by simp)]
  have h := filter_elems hq
  have : ([] :: (q ++ [last])).filter (fun e => e ≠ []) = q ++ [last] := by
    rw [List.filter_cons_of_neg (by simp), h]
  split
  · next g => rw [this] at g; simp at g
  · next a l g =>
    rw [this] at g
    simp [← g]

theorem base_slash {q : List Bytes} {last : Bytes} (hq : ∀ e ∈ q ++ [last], PathElem e) : pathBase (urlOf (q ++ [last]) ++ [47]) = last := by
  unfold pathBase
  rw [if_neg (by simp), splitSlash_url _ (fun e he => (hq e he).2.2.2)]
  have h := filter_elems hq
  have : ([] :: ((q ++ [last]) ++ splitSlash [])).filter (fun e => e ≠ []) = q ++ [last] := by
    rw [List.filter_cons_of_neg (by simp), List.filter_append, h]
    simp [splitSlash]
  split
  · next g => rw [this] at g; simp at g
  · next a l g =>
    rw [this] at g
    simp [← g]

theorem html_url {q : List Bytes} {last : Bytes} : htmlSuffix <:+ urlOf (q ++ [last]) ↔ htmlSuffix <:+ last := by
  rw [url_last]; exact suffix_cut (by decide)

theorem not_index_url {q : List Bytes} {last : Bytes} (hl : PathElem last) (hx : last ≠ indexName) : ¬ (47 :: indexName) <:+ urlOf (q ++ [last]) := by
  rw [suffix_index]
  rintro (g | g)
  · exact hx g.symm
  · exact hl.2.2.2 (g.subset (by simp))

theorem not_index_slash (p : Bytes) : ¬ (47 :: indexName) <:+ p ++ [47] := by
  rintro ⟨t, ht⟩
  have := congrArg List.getLast? ht
  simp [indexName] at this

end Rothko
