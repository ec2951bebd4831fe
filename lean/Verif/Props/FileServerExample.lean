import Verif.Props.FileServerBrowse
/-!
# C117: what is false, and an example
-/
namespace Rothko

/-- A template that writes `<`, the query, `>` and the text, and fails on an empty text. -/
def exFill (text : Bytes) (p : SiteParams) : Option Bytes := if text = [] then none else some (60 :: p.query ++ 62 :: text)

/-- An archive of a site as tar writes it. -/
def exSite : List (TEntry SInfo) :=
  [⟨"./".toUTF8.toList, ⟨true, 0⟩, []⟩, ⟨"./index.html".toUTF8.toList, ⟨false, 2⟩, "hi".toUTF8.toList⟩, ⟨"./js/".toUTF8.toList, ⟨true, 0⟩, []⟩,
   ⟨"./js/main.js".toUTF8.toList, ⟨false, 3⟩, "elm".toUTF8.toList⟩, ⟨"./doc/".toUTF8.toList, ⟨true, 0⟩, []⟩, ⟨"./doc/index.html".toUTF8.toList, ⟨false, 3⟩, "doc".toUTF8.toList⟩]

theorem exSite_names : exSite.map (fun e => cleanParts e.name) = [[[46]], [indexName], ["js".toUTF8.toList], ["js".toUTF8.toList, "main.js".toUTF8.toList], ["doc".toUTF8.toList], ["doc".toUTF8.toList, indexName]] := by decide +kernel

theorem ok_of_lists (es : List (TEntry SInfo)) (h1 : (es.map (fun e => cleanParts e.name)).Nodup) (h2 : ∀ e ∈ es, cleanParts e.name ≠ [])
    (h3 : ∃ e ∈ es, (e.name = indexName ∨ e.name = dotIndexName) ∧ e.info.dir = false)
    (h4 : ∀ e ∈ es, ∀ k ∈ List.range ((cleanParts e.name).length + 1), (cleanParts e.name).take k ≠ [] →
      ∃ d ∈ es, cleanParts d.name = (cleanParts e.name).take k ∧ ((cleanParts e.name).take k ≠ cleanParts e.name → d.info.dir = true))
    (h5 : ∀ e ∈ es, e.info.dir = false → e.info.size = e.data.length) (h6 : ∀ e ∈ es, e.info.dir = true → (cleanParts e.name).getLast? ≠ some indexName) : SiteOk es where
  once := by
    intro a b e e' hes he' g
    rw [hes, List.map_append, List.map_cons] at h1
    have := (List.nodup_append.mp h1).2.1
    exact (List.nodup_cons.mp this).1 (by rw [← g]; exact List.mem_map_of_mem (f := fun e => cleanParts e.name) he')
  root := h2
  index := h3
  dirs := fun e he q hq hp => by
    rw [List.prefix_iff_eq_take] at hp
    by_cases hk : q.length < (cleanParts e.name).length + 1
    · rw [hp] at hq ⊢
      exact h4 e he q.length (List.mem_range.mpr hk) hq
    · have := congrArg List.length hp
      rw [List.length_take] at this
      omega
  size := h5
  plain := h6

theorem exSite_ok : SiteOk exSite :=
  ok_of_lists _ (by decide +kernel) (by decide +kernel) (by decide +kernel) (by decide +kernel) (by decide +kernel) (by decide +kernel)

/-- Test of C117: a file, the root, a directory with and without an index of its own, with and without the slash, an unknown address, and dots. -/
theorem C117_example :
    let get := fun u : String => serveSite exFill (TFs.new siteRoot exSite) false "a=1".toUTF8.toList u.toUTF8.toList
    let show_ := fun u : String => visitPage (serveSite exFill (TFs.new siteRoot exSite) false) "a=1".toUTF8.toList u.toUTF8.toList
    SiteOk exSite ∧
    get "/js/main.js" = .page "elm".toUTF8.toList ∧ get "/" = .page "<a=1>hi".toUTF8.toList ∧ get "/index.html" = .moved "./?a=1".toUTF8.toList ∧ get "/js" = .moved "js/?a=1".toUTF8.toList ∧
    get "/js/" = .page "<a=1>hi".toUTF8.toList ∧ get "/doc/" = .page "<a=1>doc".toUTF8.toList ∧ get "/js/main.js/" = .moved "../main.js?a=1".toUTF8.toList ∧ get "/x/y" = .page "hi".toUTF8.toList ∧
    get "/../js//./main.js" = .page "elm".toUTF8.toList ∧ show_ "/js" = .page "<a=1>hi".toUTF8.toList ∧ show_ "/js/main.js/" = .page "elm".toUTF8.toList ∧ show_ "/doc/index.html" = .page "<a=1>doc".toUTF8.toList :=
  ⟨exSite_ok, by decide +kernel, by decide +kernel, by decide +kernel, by decide +kernel, by decide +kernel, by decide +kernel, by decide +kernel, by decide +kernel, by decide +kernel, by decide +kernel,
    by decide +kernel, by decide +kernel⟩

/-- **C117** is false for a site whose index cannot be filled in: the request panics in the listing of the directory, where the page itself is answered with an error. -/
theorem C117_fails_refuted : ¬ ∀ (es : List (TEntry SInfo)) (url : Bytes), SiteOk es → serveSite exFill (TFs.new siteRoot es) false [] url ≠ .panic := by
  intro h
  refine h [⟨dotIndexName, ⟨false, 0⟩, []⟩] [47] (ok_of_lists _ ?_ ?_ ?_ ?_ ?_ ?_) ?_ <;> decide +kernel

/-- **C117** is false for an archive without an index.html: the root panics. -/
theorem C117_noindex_refuted : ¬ ∀ (es : List (TEntry SInfo)), es ≠ [] → serveSite exFill (TFs.new siteRoot es) false [] [47] ≠ .panic := by
  intro h
  exact h [⟨[97], ⟨false, 1⟩, [7]⟩] (by simp) (by decide +kernel)

/-- **C117** is false for an archive without entries for its directories: such a directory panics. -/
theorem C117_nodirs_refuted : ¬ ∀ (es : List (TEntry SInfo)) (url : Bytes), (∃ e ∈ es, e.name = indexName) → serveSite exFill (TFs.new siteRoot es) false [] url ≠ .panic := by
  intro h
  exact h [⟨indexName, ⟨false, 1⟩, [7]⟩, ⟨[97, 47, 98], ⟨false, 1⟩, [7]⟩] [47, 97] ⟨_, List.mem_cons_self, rfl⟩ (by decide +kernel)

end Rothko
