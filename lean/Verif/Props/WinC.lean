import Verif.Path.WinAppend

/-!
# C57: the path grammar on Windows

The specification (`Spec.winRootLen`, `Spec.winElements`, … in `Verif/Path/WinSpec.lean`) reads the text only.
All theorems are about paths made from an arbitrary text.
-/

namespace Asap
open Spec

namespace Spec

/-- A text as an element, if not empty. -/
def winOne (x : Str) : List Str := if x = [] then [] else [x]

end Spec

/-- **C57**: parsing is defined for every text, and iteration yields the elements of the grammar. -/
theorem c57_parse (s : Str) : (∃ p, splitComponents .windows s = .ok p) ∧ (mkPath .windows s).names = winElements s :=
  ⟨splitComponents_total .windows s, win_names s⟩

example : winElements "C:/a\\b/".toList = ["C:".toList, "\\".toList, "a".toList, "b".toList, []] := by decide
example : winElements "//srv\\x".toList = ["\\\\srv".toList, "\\".toList, "x".toList] := by decide
example : winElements "C:a".toList = ["C:".toList, "a".toList] := by decide
example : winElements "///a".toList = ["\\".toList, "a".toList] := by decide
example : winElements "/\\a".toList = ["\\".toList, "a".toList] := by decide

/-- **C57**: root name, root directory, root path, filename and absoluteness are those of the text, and nothing
is undefined. -/
theorem c57_decompose (s : Str) :
    hasRootName (mkPath .windows s) = decide (winRootName s ≠ []) ∧
    (rootName (mkPath .windows s)).pathname = winRootName s ∧
    (∃ q, rootDirectory .windows (mkPath .windows s) = .ok q ∧ q.pathname = if winHasDir s then ['\\'] else []) ∧
    (rootPath .windows (mkPath .windows s)).names =
      winOne (winRootName s) ++ winOne (if winHasDir s then ['\\'] else []) ∧
    (∃ q, relativePath .windows (mkPath .windows s) = .ok q ∧ q.pathname = winRelative s ∧
      q.names = winElements (winRelative s)) ∧
    (∃ q, filename .windows (mkPath .windows s) = .ok q ∧ q.pathname = winFile s) ∧
    isAbsolute .windows (mkPath .windows s) = .ok (winUnc s || winHasDir s) := by
  refine ⟨?_, win_rootName s, win_rootDirectory s, ?_, ?_, win_filename s, win_isAbsolute s⟩
  · rw [win_hasRootName]
    have := winRootName_nil s
    simp only [ne_eq, this]
  · have hp : (winElements (winRootPath s)) = winOne (winRootName s) ++ winOne (if winHasDir s then ['\\'] else []) := by
      have hlen : winRootLen (winRootName s ++ (if winHasDir s then ['\\'] else [])) = (winRootName s).length := by
        by_cases hn : winRootLen s = 0
        · rw [(winRootName_nil s).mpr hn]
          cases winHasDir s <;> rfl
        · refine (isRoot_take hn).1.prefer.len _ (.inr ?_)
          cases winHasDir s
          · simp
          · simp [winSep]
      rw [winRootPath, winElements_parts hlen, show winPrefer (winRootName s) = winRootName s from winPrefer_idem _]
      cases winHasDir s <;> simp [winOne, winSep, winNames, winPieces]
    rcases win_rootPath s with h | ⟨h1, h2⟩
    · rw [h, win_names, hp]
    · rw [h1, ← hp, h2]; rfl
  · obtain ⟨q, h1, h2⟩ := win_relativePath s
    refine ⟨q, h1, ?_⟩
    rcases h2 with rfl | ⟨rfl, h⟩
    · exact ⟨win_pathname_rel (winRelative_start s), win_names _⟩
    · rw [h]; exact ⟨rfl, rfl⟩

example : winRootName "c:/x".toList = "c:".toList ∧ winHasDir "c:/x".toList = true ∧
    winRelative "c://x/y".toList = "x/y".toList ∧ winFile "c:/x/y".toList = "y".toList ∧
    winFile "c:/".toList = [] ∧ winFile "c:".toList = [] ∧ winUnc "//h".toList = true ∧ winUnc "c:/".toList = false := by
  decide

/-- The elements of the relative part. -/
theorem winElements_relative {s : Str} (h : winRootLen (winRelative s) = 0) : winElements (winRelative s) =
    winNames (winTail s) ++ (if winEndsSep s ∧ winNames (winTail s) ≠ [] then [[]] else []) := by
  have hdir : winHasDir (winRelative s) = false := by
    rw [winHasDir, winTail_of_zero h]
    cases hh : (winRelative s).head? with
    | none => rfl
    | some c => simp [winRelative_start s c hh]
  have hnm : winNames (winRelative s) = winNames (winTail s) := winNames_dropWhile _
  rw [winElements, if_pos h, hdir, winTail_of_zero h, hnm]
  simp only [Bool.false_eq_true, if_false, List.nil_append]
  by_cases hn : winNames (winTail s) = []
  · simp [hn]
  · have : winEndsSep (winRelative s) = winEndsSep s := by
      have hne : winRelative s ≠ [] := by rw [ne_eq, winRelative_nil]; exact hn
      have e : s = s.take (winRootLen s) ++ ((winTail s).takeWhile winSep ++ winRelative s) := by
        rw [winRelative, List.takeWhile_append_dropWhile, winTail, List.take_append_drop]
      conv => rhs; rw [e]
      rw [← List.append_assoc, winEndsSep_append hne]
    rw [this]

/-- **C57**, partial: `root_name`, `root_directory` and `relative_path` partition the elements — unless what
follows the root looks like a drive itself (see `c57_violated`). -/
theorem c57_partition_partial (s : Str) (h : winRootLen (winRelative s) = 0) :
    ∃ d r, rootDirectory .windows (mkPath .windows s) = .ok d ∧ relativePath .windows (mkPath .windows s) = .ok r ∧
      (mkPath .windows s).names = winOne (rootName (mkPath .windows s)).pathname ++ winOne d.pathname ++ r.names := by
  obtain ⟨_, h2, ⟨d, h3, h4⟩, _, ⟨r, h5, _, h6⟩, _⟩ := c57_decompose s
  refine ⟨d, r, h3, h5, ?_⟩
  rw [h2, h4, h6, win_names, winElements_relative h, winElements]
  have := winRootName_nil s
  simp only [winOne, this]
  cases winHasDir s <;> simp

example : winRootLen (winRelative "C:\\a\\b".toList) = 0 := by decide
example : winRootLen (winRelative "//host/a:".toList) ≠ 0 := by decide

/-- **C57**: append. A different root name replaces everything, a root directory everything but the root name,
and otherwise the names follow. -/
theorem c57_append (s t : Str) : ∃ q, append .windows (mkPath .windows s) (mkPath .windows t) = .ok q ∧
    q.names = winAppended s t := by
  obtain ⟨u, h1, h2⟩ := win_append s t
  exact ⟨_, h1, by rw [win_names, h2]⟩

example : winAppended "C:\\a".toList "D:b".toList = ["D:".toList, "b".toList] := by decide
example : winAppended "C:\\a".toList "C:b".toList = ["C:".toList, "\\".toList, "a".toList, "b".toList] := by decide
example : winAppended "C:\\a".toList "\\b".toList = ["C:".toList, "\\".toList, "b".toList] := by decide
example : winAppended "C:".toList "b".toList = ["C:".toList, "b".toList] := by decide
example : winAppended "//h".toList "b".toList = ["\\\\h".toList, "\\".toList, "b".toList] := by decide
example : winAppended "a".toList "".toList = ["a".toList, []] := by decide

/-- **C57**: two paths are equal iff they have the same elements. -/
theorem c57_equal (s t : Str) : (mkPath .windows s).eqv (mkPath .windows t) = true ↔ winElements s = winElements t := by
  rw [win_eqv, decide_eq_true_eq]

/-- **C57**, partial: `root_path() / relative_path() == p`, unless the relative part looks like a drive or the
path is a bare network name (see `c57_violated`). -/
theorem c57_rejoin_partial (s : Str) (h : winRootLen (winRelative s) = 0) (hu : winUnc s = true → winHasDir s = true) :
    ∃ r q, relativePath .windows (mkPath .windows s) = .ok r ∧
      append .windows (rootPath .windows (mkPath .windows s)) r = .ok q ∧ q.eqv (mkPath .windows s) = true := by
  obtain ⟨r, h1, h2⟩ := win_relativePath s
  have hr : append .windows (rootPath .windows (mkPath .windows s)) r =
      append .windows (mkPath .windows (winRootPath s)) (mkPath .windows (winRelative s)) := by
    rcases win_rootPath s with h3 | ⟨h3, h4⟩ <;> rcases h2 with rfl | ⟨rfl, h5⟩
    · rw [h3]
    · rw [h3, h5, append_default_right]
    · rw [h3, h4, append_default_left]
    · rw [h3, h4, h5]; rfl
  obtain ⟨u, h6, h7⟩ := win_append (winRootPath s) (winRelative s)
  refine ⟨r, _, h1, hr.trans h6, ?_⟩
  rw [win_eqv, decide_eq_true_eq, h7]
  -- the parts of the root path
  have hlen : winRootLen (winRootPath s) = winRootLen s := by
    rw [← winRootName_length s]
    by_cases hn : winRootLen s = 0
    · rw [winRootPath, (winRootName_nil s).mpr hn]
      cases winHasDir s <;> rfl
    · refine (isRoot_take hn).1.prefer.len _ (.inr ?_)
      cases winHasDir s
      · simp
      · simp [winSep]
  have htail : winTail (winRootPath s) = if winHasDir s then ['\\'] else [] := by
    rw [winTail, hlen, winRootPath, ← winRootName_length s]; simp
  have hname : winRootName (winRootPath s) = winRootName s := by
    rw [winRootName, hlen, winRootPath, ← winRootName_length s, List.take_left]
    exact winPrefer_idem _
  have hdir : winHasDir (winRootPath s) = winHasDir s := by
    rw [winHasDir, htail]; cases winHasDir s <;> rfl
  have hunc : winUnc (winRootPath s) = winUnc s := by rw [winUnc, hlen]; rfl
  have hnm : winNames (winTail (winRootPath s)) = [] := by rw [htail]; cases winHasDir s <;> rfl
  have hrd : winHasDir (winRelative s) = false := by
    rw [winHasDir, winTail_of_zero h]
    cases hh : (winRelative s).head? with
    | none => rfl
    | some c => simp [winRelative_start s c hh]
  have hrn : winNames (winTail (winRelative s)) = winNames (winTail s) := by
    rw [winTail_of_zero h]; exact winNames_dropWhile _
  have hre := winElements_relative h
  rw [winElements, if_pos h, hrd, hrn] at hre
  simp only [Bool.false_eq_true, if_false, List.nil_append, List.append_cancel_left_eq] at hre
  rw [winAppended, if_neg (by simp [(winRootName_nil _).mpr h]), hrd, if_neg (by simp), hlen, hname, hdir, hunc, hnm, hrn,
    winElements, ← hre]
  have : (winHasDir s = true ∨ winUnc s = true) ↔ winHasDir s = true :=
    ⟨fun h => h.elim id hu, .inl⟩
  simp only [this, List.append_nil, ne_eq, not_true, and_false, or_false]
  congr 1
  simp only [and_comm]

example : winRootLen (winRelative "//h/a".toList) = 0 ∧ winHasDir "//h/a".toList = true := by decide

/-- **C57** is violated: in `C:D:x` the relative part is taken for another drive, so the parts are not the elements
and joining them loses the root; joining the parts of a bare network name adds a root directory. -/
theorem c57_violated :
    ((mkPath .windows "C:D:x".toList).names = ["C:".toList, "D:x".toList] ∧
      ∃ r q, relativePath .windows (mkPath .windows "C:D:x".toList) = .ok r ∧ r.names = ["D:".toList, "x".toList] ∧
        append .windows (rootPath .windows (mkPath .windows "C:D:x".toList)) r = .ok q ∧
        q.eqv (mkPath .windows "C:D:x".toList) = false) ∧
    (∃ r q, relativePath .windows (mkPath .windows "//host".toList) = .ok r ∧
      append .windows (rootPath .windows (mkPath .windows "//host".toList)) r = .ok q ∧
      q.names = ["\\\\host".toList, "\\".toList] ∧ q.eqv (mkPath .windows "//host".toList) = false) := by
  refine ⟨⟨by decide, mkPath .windows "D:x".toList, mkPath .windows "D:x".toList, by decide, by decide, by decide, by decide⟩,
    .default, mkPath .windows "\\\\host\\".toList, by decide, by decide, by decide, by decide⟩

end Asap
