import Verif.Path.WinGeneric
import Verif.Path.Ext

/-!
# Re-parsing, stems and extensions on Windows
-/

namespace Asap
open Spec

/-- Parsing the stored text again gives the same object. -/
theorem win_reparse (s : Str) : mkPath .windows (mkPath .windows s).pathname = mkPath .windows s := by
  by_cases hs : s = []
  · subst hs; rfl
  by_cases hsing : ∃ c, winComps s = [c]
  · obtain ⟨c, hc⟩ := hsing
    rw [win_single hc hs]
    obtain ⟨h1, h2, h3, h4⟩ := winComps_single hc
    have hmem : c ∈ winComps s := by rw [hc]; simp
    rw [winComps_eq, winRootComps, winTrail, List.mem_append, List.mem_append, List.mem_append] at hmem
    rcases hmem with ((hm | hm) | hm) | hm
    · split at hm
      · cases hm
      · rename_i hz
        rw [List.mem_singleton] at hm
        subst hm
        have hR : IsRoot (winRootName s) := (isRoot_take hz).1.prefer
        rw [mkPath_root hR]
        show Path.mk (winPrefer (winRootName s)) _ _ = _
        rw [show winPrefer (winRootName s) = winRootName s from winPrefer_idem _]
    · split at hm
      · rw [List.mem_singleton] at hm
        subst hm
        exact mkPath_sep
      · cases hm
    · have ht := (toks_mem _ _ _ hm).1
      have := h4 ht
      show mkPath .windows c.name = _
      rw [this, win_single hc hs, this]
    · split at hm
      · rw [List.mem_singleton] at hm
        subst hm
        exact absurd rfl h1
      · cases hm
  · rw [win_multi (fun c hc => hsing ⟨c, hc⟩) hs]
    show mkPath .windows s = _
    rw [win_multi (fun c hc => hsing ⟨c, hc⟩) hs]

/-- A piece that does not look like a drive is a filename. -/
theorem mkPath_winName {w : Str} (h : WinName w) (h0 : winRootLen w = 0) : mkPath .windows w = ⟨w, [], .filename⟩ := by
  have ht := winTail_of_zero h0
  have hns : NoSep .windows w := noSep_win.mpr h.2
  have hcomps : winComps w = [⟨w, .filename, 0⟩] := by
    have hd : winHasDir w = false := by
      rw [winHasDir, ht]
      cases hw : w.head? with
      | none => rfl
      | some c => exact h.2 c (List.mem_of_head? hw)
    have he : winEndsSep w = false := by
      rw [winEndsSep]
      cases hw : w.getLast? with
      | none => rfl
      | some c => exact h.2 c (List.mem_of_getLast? hw)
    rw [winComps_eq, winRootComps, winTrail, if_pos h0, hd, he, ht, h0, toks_noSep 0 hns, tok1, if_neg h.1]
    rfl
  rw [win_single hcomps h.1]

/-- Elements of a parsed path re-parse to themselves if no piece looks like a drive. -/
theorem win_reparse_elem {s : Str} (h : ∀ n ∈ winNames (winTail s), winRootLen n = 0) :
    ∀ e ∈ (mkPath .windows s).elems, e.moved .windows = e := by
  intro e he
  by_cases hs : s = []
  · subst hs; cases he
  rw [win_elems hs, winComps_eq] at he
  obtain ⟨c, hc, rfl⟩ := List.mem_map.mp he
  rw [List.mem_append, List.mem_append, winRootComps, List.mem_append] at hc
  rcases hc with ((hm | hm) | hm) | hm
  · split at hm
    · cases hm
    · rename_i hz
      rw [List.mem_singleton] at hm
      subst hm
      have hR : IsRoot (winRootName s) := (isRoot_take hz).1.prefer
      show mkPath .windows (winRootName s) = _
      rw [mkPath_root hR, show winPrefer (winRootName s) = winRootName s from winPrefer_idem _]
      rfl
  · split at hm
    · rw [List.mem_singleton] at hm
      subst hm
      exact mkPath_sep
    · cases hm
  · have hn : c.name ∈ winNames (winTail s) := by
      rw [← toks_winNames _ (winRootLen s)]; exact List.mem_map_of_mem hm
    show mkPath .windows c.name = ⟨c.name, [], c.type⟩
    rw [mkPath_winName (winName_mem hn) (h _ hn), (toks_mem _ _ _ hm).1]
  · rw [winTrail] at hm
    split at hm
    · rw [List.mem_singleton] at hm
      subst hm
      rfl
    · cases hm

/-- The last element, when there is a filename. -/
theorem winComps_dir_file {s : Str} (hf : winFile s ≠ []) : ∃ init, winComps s = init ++
      [⟨winFile s, .filename, (winDirText s).length⟩] ∧ (init = [] → winDirText s = []) := by
  have hf' := mt (winFile_eq_nil s).mpr hf
  have hn : winNames (winTail s) ≠ [] := fun h => hf' (.inl h)
  have he : winEndsSep s = false := by
    cases h : winEndsSep s with
    | false => rfl
    | true => exact absurd (.inr h) hf'
  obtain ⟨b, g1, g2, g3, g4, g5, g6, g7, g8, g9, g10, g11⟩ := win_dir_file hn he
  refine ⟨winRootComps s ++ toks .windows (winRootLen s) b, ?_, ?_⟩
  · rw [winComps_eq, winTrail, he, if_neg (by simp), List.append_nil, g1, toks_end g5 g4 g3, ← List.append_assoc]
    congr 3
    rw [g2, List.length_append, List.length_take]
    have := winRootLen_le s
    rw [Nat.min_eq_left this]
  · intro hsing
    have hroot : winRootComps (winDirText s) = winRootComps s := by
      rw [winRootComps, winRootComps, g8, g9, g10]
    have htoks : toks .windows (winRootLen (winDirText s)) (winTail (winDirText s)) = toks .windows (winRootLen s) b := by
      rw [g7, g8]
    have h1 := winComps_eq (winDirText s)
    rw [hroot, htoks, hsing, winTrail, if_neg, List.append_nil] at h1
    · apply Classical.byContradiction
      intro h
      exact winComps_ne h h1
    · rintro ⟨_, h⟩
      rw [ne_eq, ← toks_win_nil _ (winRootLen (winDirText s)), htoks] at h
      exact h (List.append_eq_nil_iff.mp hsing).2

theorem winDirText_append {s : Str} : winDirText s ++ winFile s = s := by
  by_cases hf : winFile s = []
  · rw [winDirText, hf]; simp
  · have hf' := mt (winFile_eq_nil s).mpr hf
    have hn : winNames (winTail s) ≠ [] := fun h => hf' (.inl h)
    have he : winEndsSep s = false := by
      cases h : winEndsSep s with
      | false => rfl
      | true => exact absurd (.inr h) hf'
    obtain ⟨b, g1, g2, _⟩ := win_dir_file hn he
    rw [g2, List.append_assoc, ← g1]
    exact List.take_append_drop _ _

theorem winFile_noSep (s : Str) : ∀ c ∈ winFile s, winSep c = false := by
  by_cases hf : winFile s = []
  · rw [hf]; simp
  · have hf' := mt (winFile_eq_nil s).mpr hf
    have hn : winNames (winTail s) ≠ [] := fun h => hf' (.inl h)
    have he : winEndsSep s = false := by
      cases h : winEndsSep s with
      | false => rfl
      | true => exact absurd (.inr h) hf'
    obtain ⟨b, _, _, _, _, g5, _⟩ := win_dir_file hn he
    exact g5

theorem win_findExtension (s : Str) : findExtension (mkPath .windows s) =
    if winFile s = [] then none else some (winFile s, extPos (winFile s)) := by
  by_cases hs : s = []
  · subst hs; rfl
  by_cases hf : winFile s = []
  · rw [if_pos hf]
    obtain ⟨l, h1, h2, h3⟩ := winComps_last s hs
    have key : extSource (mkPath .windows s) = none ∨ extSource (mkPath .windows s) = some [] := by
      by_cases hsing : ∃ c, winComps s = [c]
      · obtain ⟨c, hc⟩ := hsing
        rw [hc, List.getLast?_singleton, Option.some.injEq] at h1
        subst h1
        rw [win_single hc hs, extSource]
        cases ht : c.type with
        | multi => simp
        | rootName => simp
        | rootDir => simp
        | filename =>
          right
          rw [h3 (h2.mp ht), hf]
      · rw [win_multi (fun c hc => hsing ⟨c, hc⟩) hs, extSource]
        simp only [h1]
        by_cases ht : l.type = .filename
        · right; rw [if_pos ht, h3 (h2.mp ht), hf]
        · left; rw [if_neg ht]
    rw [findExtension]
    rcases key with h | h <;> rw [h]
  · rw [if_neg hf]
    obtain ⟨init, h1, _⟩ := winComps_dir_file hf
    have key : extSource (mkPath .windows s) = some (winFile s) := by
      by_cases hsing : ∃ c, winComps s = [c]
      · obtain ⟨c, hc⟩ := hsing
        rw [win_single hc hs, extSource]
        rw [hc] at h1
        have : c = ⟨winFile s, .filename, (winDirText s).length⟩ := by
          have := congrArg List.getLast? h1
          simpa using this
        rw [this]
      · rw [win_multi (fun c hc => hsing ⟨c, hc⟩) hs, extSource]
        simp [h1]
    rw [findExtension, key]
    cases hw : winFile s with
    | nil => exact absurd hw hf
    | cons c w =>
      simp only [extPos, List.head?_cons, Option.some.injEq]
      split <;> rfl

theorem stemOf_sub {w : Str} : ∀ c ∈ stemOf w, c ∈ w := by
  intro c hc
  rw [← stemOf_append_extOf w]; simp [hc]

theorem extOf_sub {w : Str} : ∀ c ∈ extOf w, c ∈ w := by
  intro c hc
  rw [← stemOf_append_extOf w]; simp [hc]

theorem mkPath_text {w : Str} (h : ∀ c ∈ w, winSep c = false) : (mkPath .windows w).pathname = w :=
  win_pathname_rel (fun c hc => h c (List.mem_of_head? hc))

theorem win_stem (s : Str) : (stem .windows (mkPath .windows s)).pathname = stemOf (winFile s) := by
  rw [stem, win_findExtension]
  by_cases hf : winFile s = []
  · rw [if_pos hf, hf]; rfl
  · rw [if_neg hf]
    have hns := winFile_noSep s
    by_cases he : HasExt (winFile s)
    · obtain ⟨a, b, hb, ha, hw, hp⟩ := extPos_some he
      rw [hp]
      have hst : stemOf (winFile s) = a := by rw [hw] at he ⊢; exact stemOf_dot hb he
      dsimp only
      rw [if_neg (by simpa using ha), hst, show (winFile s).take a.length = a by rw [hw]; simp]
      exact mkPath_text (fun c hc => hns c (by rw [hw]; simp [hc]))
    · rw [extPos_none he, stemOf_none he]
      exact mkPath_text hns

theorem win_extension (s : Str) : (extension .windows (mkPath .windows s)).pathname = extOf (winFile s) := by
  rw [extension, win_findExtension]
  by_cases hf : winFile s = []
  · rw [if_pos hf, hf]; rfl
  · rw [if_neg hf]
    have hns := winFile_noSep s
    by_cases he : HasExt (winFile s)
    · obtain ⟨a, b, hb, ha, hw, hp⟩ := extPos_some he
      rw [hp]
      have hst : extOf (winFile s) = '.' :: b := by rw [hw] at he ⊢; exact extOf_dot hb he
      dsimp only
      rw [if_pos (by simpa using ha), hst, show (winFile s).drop a.length = '.' :: b by rw [hw]; simp]
      exact mkPath_text (fun c hc => hns c (by rw [hw]; simp only [List.mem_append]; exact .inr hc))
    · rw [extPos_none he, extOf_none he]; rfl

/-- The text without its extension. -/
theorem win_eraseExtension (s : Str) : ∃ base, eraseExtension (mkPath .windows s) = .ok base ∧
    base ++ extOf (winFile s) = (mkPath .windows s).pathname ∧
    (winFile s ≠ [] → base = winDirText s ++ stemOf (winFile s)) := by
  by_cases hf : winFile s = []
  · refine ⟨(mkPath .windows s).pathname, ?_, ?_, fun h => absurd hf h⟩
    · rw [eraseExtension, win_findExtension, if_pos hf]
    · rw [hf, show extOf [] = [] from rfl, List.append_nil]
  · have hs : s ≠ [] := by rintro rfl; exact hf rfl
    have htext : (mkPath .windows s).pathname = s := by
      by_cases hsing : ∃ c, winComps s = [c]
      · obtain ⟨c, hc⟩ := hsing
        obtain ⟨init, h1, h2⟩ := winComps_dir_file hf
        rw [win_single hc hs]
        rw [hc] at h1
        have : c = ⟨winFile s, .filename, (winDirText s).length⟩ := by
          have := congrArg List.getLast? h1
          simpa using this
        exact (winComps_single hc).2.2.2 (by rw [this])
      · rw [win_multi (fun c hc => hsing ⟨c, hc⟩) hs]
    refine ⟨winDirText s ++ stemOf (winFile s), ?_, ?_, fun _ => rfl⟩
    · rw [eraseExtension, win_findExtension, if_neg hf]
      by_cases he : HasExt (winFile s)
      · obtain ⟨a, b, hb, ha, hw, hp⟩ := extPos_some he
        have hst : stemOf (winFile s) = a := by rw [hw] at he ⊢; exact stemOf_dot hb he
        rw [hp, hst]
        have hsw : s = winDirText s ++ (a ++ '.' :: b) := by rw [← hw]; exact winDirText_append.symm
        have herase : ∀ k, k = (winDirText s).length + a.length → eraseFrom s k = .ok (winDirText s ++ a) := by
          rintro k rfl
          have hle : (winDirText s).length + a.length ≤ s.length := by
            have := congrArg List.length hsw
            simp only [List.length_append] at this
            omega
          have htk : s.take ((winDirText s).length + a.length) = winDirText s ++ a := by
            generalize winDirText s = d at hsw
            rw [hsw, ← List.length_append, ← List.append_assoc]
            exact List.take_left
          rw [eraseFrom, if_pos hle, htk]
        obtain ⟨init, h1, h2⟩ := winComps_dir_file hf
        by_cases hsing : ∃ c, winComps s = [c]
        · obtain ⟨c, hc⟩ := hsing
          have hc' := hc
          rw [hc] at h1
          have hi : init = [] := by
            have := congrArg List.length h1
            simpa using this
          have hcc : c = ⟨winFile s, .filename, (winDirText s).length⟩ := by
            rw [hi] at h1; simpa using h1
          have hd := h2 hi
          have hcs : c.name = s := (winComps_single hc').2.2.2 (by rw [hcc])
          rw [win_single hc' hs]
          dsimp only
          rw [if_pos (by rw [hcc]), hcs]
          exact herase _ (by rw [hd]; simp)
        · rw [win_multi (fun c hc => hsing ⟨c, hc⟩) hs]
          dsimp only
          rw [if_neg (by simp)]
          simp only [h1, List.getLast?_append, List.getLast?_singleton, Option.some_or]
          exact herase _ rfl
      · rw [extPos_none he, stemOf_none he, winDirText_append]
        dsimp only
        rw [htext]
    · rw [htext, List.append_assoc, stemOf_append_extOf, winDirText_append]

/-- A text beginning with a text that does not end with a separator has the root name of any other such text. -/
theorem winRootLen_change {y a b : Str} (hy : winEndsSep y = false) (hne : y ≠ []) (hb : b = [] ∨ b.head? = some '.')
    (h : winRootLen (y ++ a) = 0) : winRootLen (y ++ b) = 0 := by
  have hdot : winSep '.' = false := rfl
  match y with
  | [] => exact absurd rfl hne
  | [x] =>
    have hx : winSep x = false := by simpa [winEndsSep] using hy
    match b, hb with
    | [], _ => rfl
    | [c], hb =>
      have : c = '.' := by simpa using hb
      subst this
      simp [winRootLen]
    | c :: d :: b, hb =>
      have : c = '.' := by simpa using hb
      subst this
      simp [winRootLen, hx]
  | [x, z] =>
    have hz : winSep z = false := by simpa [winEndsSep] using hy
    have hdr : ¬ (winSep x = false ∧ z = ':') := by
      rintro ⟨h1, rfl⟩
      cases a with
      | nil => simp [winRootLen, h1] at h
      | cons c a => simp [winRootLen, h1] at h
    have hun : ¬ (winSep x = true ∧ z = x) := by
      rintro ⟨h1, rfl⟩; rw [hz] at h1; cases h1
    cases b with
    | nil => simp [winRootLen]; simpa using hdr
    | cons c b =>
      simp only [List.cons_append, List.nil_append, winRootLen]
      rw [if_neg, if_neg]
      · simpa using hdr
      · intro hc
        simp only [Bool.and_eq_true, beq_iff_eq] at hc
        exact hun hc.1
  | x :: z :: w :: y =>
    simp only [List.cons_append, winRootLen] at h ⊢
    split at h
    · omega
    · rename_i hc
      rw [if_neg hc]
      exact h

/-- Changing what follows the stem changes the filename only. -/
theorem win_change_ext {s b : Str} (hf : winFile s ≠ []) (hb : b = [] ∨ b.head? = some '.') (hbs : ∀ c ∈ b, winSep c = false) :
    winFile (winDirText s ++ stemOf (winFile s) ++ b) = stemOf (winFile s) ++ b ∧
    winDirText (winDirText s ++ stemOf (winFile s) ++ b) = winDirText s := by
  have hf' := mt (winFile_eq_nil s).mpr hf
  have hn : winNames (winTail s) ≠ [] := fun h => hf' (.inl h)
  have he : winEndsSep s = false := by
    cases h : winEndsSep s with
    | false => rfl
    | true => exact absurd (.inr h) hf'
  obtain ⟨d, g1, g2, g3, g4, g5, g6, g7, g8, g9, g10, g11⟩ := win_dir_file hn he
  have hst : stemOf (winFile s) ≠ [] := stemOf_ne_nil hf
  have hsts : ∀ c ∈ stemOf (winFile s), winSep c = false := fun c hc => g5 c (stemOf_sub c hc)
  have hw : ∀ c ∈ stemOf (winFile s) ++ b, winSep c = false := by
    intro c hc
    rcases List.mem_append.mp hc with hc | hc
    · exact hsts c hc
    · exact hbs c hc
  have hwne : stemOf (winFile s) ++ b ≠ [] := by simp [hst]
  have hsw : s = winDirText s ++ stemOf (winFile s) ++ extOf (winFile s) := by
    rw [List.append_assoc, stemOf_append_extOf]; exact winDirText_append.symm
  have hroot : winRootLen (winDirText s ++ stemOf (winFile s) ++ b) = winRootLen s := by
    by_cases hz : winRootLen s = 0
    · rw [hz]
      rw [hsw] at hz
      refine winRootLen_change ?_ (by simp [hst]) hb hz
      rw [winEndsSep_append hst, winEndsSep]
      cases hl : (stemOf (winFile s)).getLast? with
      | none => rfl
      | some c => exact hsts c (List.mem_of_getLast? hl)
    · obtain ⟨hR, hx⟩ := isRoot_take hz
      have hlen : (s.take (winRootLen s)).length = winRootLen s := by
        rw [List.length_take]; have := winRootLen_le s; omega
      rw [g2, List.append_assoc, List.append_assoc, hR.len, hlen]
      rcases hx with hx | hx
      · left; rw [hlen, hx]
      · right
        have hdne : d ≠ [] := by
          rintro rfl
          cases hw : winFile s with
          | nil => exact hf hw
          | cons c w =>
            have h1 := hx c (by rw [g1, hw]; rfl)
            have h2 := g5 c (by rw [hw]; simp)
            rw [h1] at h2; cases h2
        intro c hc
        apply hx
        rw [g1, List.head?_append]
        cases d with
        | nil => exact absurd rfl hdne
        | cons x d => simpa using hc
  have hp : winTail (winDirText s ++ stemOf (winFile s) ++ b) = d ++ (stemOf (winFile s) ++ b) := by
    rw [winTail, hroot, g2]
    have hlen : (s.take (winRootLen s)).length = winRootLen s := by
      rw [List.length_take]; have := winRootLen_le s; omega
    rw [List.append_assoc, List.append_assoc]
    generalize s.take (winRootLen s) = r at hlen
    rw [← hlen]; simp
  have hends : winEndsSep (winDirText s ++ stemOf (winFile s) ++ b) = false := by
    rw [List.append_assoc, winEndsSep_append hwne, winEndsSep]
    cases hl : (stemOf (winFile s) ++ b).getLast? with
    | none => rfl
    | some c => exact hw c (List.mem_of_getLast? hl)
  have hfile : winFile (winDirText s ++ stemOf (winFile s) ++ b) = stemOf (winFile s) ++ b := by
    rw [winFile, hends, hp, winNames_append_end g3, winNames_noSep hw, if_neg hwne]
    simp
  refine ⟨hfile, ?_⟩
  have h1 : winDirText (winDirText s ++ stemOf (winFile s) ++ b) ++ (stemOf (winFile s) ++ b) =
      winDirText s ++ (stemOf (winFile s) ++ b) := by
    have h0 := winDirText_append (s := winDirText s ++ stemOf (winFile s) ++ b)
    rw [hfile] at h0
    rw [h0, List.append_assoc]
  exact List.append_cancel_right h1

end Asap
