import Verif.Lemmas.Convert
/-!
# C08–C10: metric names, directories and file names
-/
namespace Rothko

/-- **C08.** A metric name is recovered from its directory (below the database directory), for every byte string. -/
theorem C08_dir_round_trip (m : Bytes) : dirToMetric [] (metricToDir [] m) = some m := by
  unfold dirToMetric
  rcases metricToDir_spec [] m with ⟨k, hm, he⟩ | ⟨b0, p0, k, hm, hg, hp0, hd, he⟩
  · rw [he, List.nil_append]
    by_cases hk : k = 0
    · subst hk; subst hm; rfl
    · rw [decLoop_escDots k _ (Or.inr (by omega))]
      simp [hm]
  · rw [he, List.nil_append]
    by_cases hk : k = 0
    · subst hk
      rw [if_pos rfl, List.append_nil, hd]
      simp [hm, dots]
    · rw [if_neg hk, decLoop_append (hd []), List.singleton_append]
      conv => lhs; unfold decLoop
      simp only [if_true, Bool.false_eq_true, if_false]
      rw [decLoop_escDots k _ (Or.inl rfl)]
      have hlen : 0 < (b0 ++ 47 :: escDots k).length := by simp; omega
      simp only [Bool.true_and, hlen, decide_true, if_true, List.nil_append]
      congr 1
      rw [hm]
      have : p0 ++ [46] ++ dots k = p0 ++ dots k ++ [46] := by
        rw [List.append_assoc, List.append_assoc]
        congr 1
        rw [← dots_succ]; rfl
      rw [this, List.length_append, show (p0 ++ dots k).length + [(46 : UInt8)].length - 1 = (p0 ++ dots k).length by simp, List.take_left]

/-- **C08.** Two metrics never share a directory. -/
theorem C08_dir_injective (m m' : Bytes) (h : metricToDir [] m = metricToDir [] m') : m = m' := by
  have h1 := C08_dir_round_trip m
  rw [h, C08_dir_round_trip m'] at h1
  exact (Option.some.inj h1).symm

/-- Test: two names that a naive "dots become slashes" would confuse with each other or with `..`. -/
example : metricToDir [] "a/../b.c".toUTF8.toList = "a%2f/%2e%2fb/c".toUTF8.toList ∧
    metricToDir [] "..a".toUTF8.toList = "%2e%2e/a".toUTF8.toList ∧
    metricToDir [] "a..".toUTF8.toList = "a/%2e%2e".toUTF8.toList ∧
    dirToMetric [] "a/%2e%2e".toUTF8.toList = some "a..".toUTF8.toList := by decide +kernel

/-- **C09.** The directory of a non-empty name lies below the database directory: it is the database directory (with its slash) followed by
components that are non-empty and have no dot. So no component is `.`, `..` or the name of a data file, and there is no empty component that would begin or end the path with a slash. -/
theorem C09_path_safe (dbDir m : Bytes) (hm : m ≠ []) :
    ∃ d, metricDir dbDir m = addSlash dbDir ++ d ∧ ∀ c ∈ splitOn 47 d, c ≠ [] ∧ 46 ∉ c := by
  exact ⟨metricToDir [] m, metricToDir_base _ _, metricToDir_good hm⟩

/-- **C08.** In any database directory, two metrics with the same directory are the same metric. -/
theorem C08_any_database (dbDir m m' : Bytes) (h : metricDir dbDir m = metricDir dbDir m') : m = m' := by
  unfold metricDir at h
  rw [metricToDir_base, metricToDir_base (addSlash dbDir) m'] at h
  exact C08_dir_injective m m' (List.append_cancel_left h)

/-- **C09.** The empty name uses the database directory itself. -/
theorem C09_empty (dbDir : Bytes) : metricDir dbDir [] = addSlash dbDir := rfl

/-- Test of C09. -/
example : metricDir "/db".toUTF8.toList "../../etc".toUTF8.toList = "/db/%2e%2e/%2f/%2e%2fetc".toUTF8.toList := by decide +kernel

/-- **C10.** The path of a data file determines the metric and the number (numbers are Go `int`s). -/
theorem C10_paths_distinct (dbDir m m' : Bytes) (i i' : Int) (hi : -2 ^ 63 ≤ i ∧ i < 2 ^ 63) (hi' : -2 ^ 63 ≤ i' ∧ i' < 2 ^ 63)
    (h : metricFilenameAt (metricDir dbDir m) i = metricFilenameAt (metricDir dbDir m') i') : m = m' ∧ i = i' := by
  unfold metricFilenameAt at h
  rw [List.append_assoc, List.append_assoc] at h
  obtain ⟨h1, h2⟩ := split_last (addSlash_ends _) (addSlash_ends _) (name_noSlash i) (name_noSlash i') h
  refine ⟨?_, ?_⟩
  · rw [addSlash_metricDir, addSlash_metricDir] at h1
    have h1 := List.append_cancel_left h1
    by_cases hm : m = [] <;> by_cases hm' : m' = []
    · rw [hm, hm']
    · simp [hm, hm'] at h1
    · simp [hm, hm'] at h1
    · rw [if_neg hm, if_neg hm'] at h1
      exact C08_dir_injective m m' (List.append_cancel_right h1)
  · have h3 := List.append_cancel_right h2
    have := parseInt_intDec i hi
    rw [h3, parseInt_intDec i' hi'] at this
    exact (Option.some.inj this).symm

/-- **C10.** The scan of a metric's directory: whatever the order of the listing and whatever else is in it that is not named like a data file, if the
data files there are exactly the numbers `first..last` (positive), the scan finds that range. -/
theorem C10_scan (names : List Bytes) (first last : Int) (h1 : 1 ≤ first) (h2 : first ≤ last)
    (h : ∀ i, (∃ n ∈ names, dataFileIndex n = some i) ↔ first ≤ i ∧ i ≤ last) :
    scanNames names = (first, last, true) := by
  rw [scanNames_eq]
  have hmem : ∀ i, i ∈ names.filterMap dataFileIndex ↔ first ≤ i ∧ i ≤ last := by
    intro i; rw [← h i, List.mem_filterMap]
  exact scan_eq _ first last h1 ((hmem first).mpr ⟨by omega, h2⟩) ((hmem last).mpr ⟨h2, by omega⟩) (fun x hx => (hmem x).mp hx)

/-- **C10.** The names the database gives to data files are recognised by the scan with their number; other metrics' directories (C09: components
without dots) are not. -/
theorem C10_names (i : Int) (hi : -2 ^ 63 ≤ i ∧ i < 2 ^ 63) : dataFileIndex (intDec i ++ dataSuffix) = some i ∧ ∀ c : Bytes, 46 ∉ c → dataFileIndex c = none := by
  refine ⟨?_, ?_⟩
  · unfold dataFileIndex
    rw [if_pos (by simp)]
    rw [show (intDec i ++ dataSuffix).length - 5 = (intDec i).length by simp [dataSuffix], List.take_left, parseInt_intDec i hi]
  · intro c hc
    unfold dataFileIndex
    rw [if_neg]
    intro h
    rw [List.isSuffixOf_iff_suffix] at h
    exact hc (h.subset (by decide))

/-- Test of C10: listing in some order, with a sub directory of another metric and junk. -/
example : scanNames ["3.data".toUTF8.toList, "sub".toUTF8.toList, "2.data".toUTF8.toList, "x.data".toUTF8.toList, "4.data".toUTF8.toList] = (2, 4, true) ∧
    metricFilenameAt (metricDir "/db".toUTF8.toList "a.b".toUTF8.toList) 12 = "/db/a/b/12.data".toUTF8.toList := by decide +kernel

/-- `metricToPath` agrees with the path `newMetric` uses, relative to an empty database directory. -/
theorem C10_metricToPath (m : Bytes) (i : Int) : metricToPath [] m i = metricFilenameAt (metricDir [] m) i := by
  unfold metricToPath metricFilenameAt metricDir
  rw [show addSlash [] = [] from rfl]
  by_cases hm : m = []
  · subst hm; rfl
  · obtain ⟨d, e, h⟩ := C09_path_safe [] m hm
    have hd : metricToDir [] m = d := by
      have : metricDir [] m = d := by rw [e]; rfl
      exact this
    rw [hd]
    have ⟨h1, h2⟩ := goodPath_ends h
    unfold addSlash
    have : 0 < d.length := List.length_pos_iff.mpr h1
    simp [this, h2]

end Rothko
