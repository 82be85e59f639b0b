import Verif.Path.WinParentRel

/-!
# `remove_filename()` on Windows
-/

namespace Asap
open Spec

/-- What precedes the filename. -/
def Spec.winDirText (s : Str) : Str := s.take (s.length - (winFile s).length)

/-- A text is what ends with a separator, if anything, and the rest. -/
theorem win_last_sep : ∀ s : Str, ∃ b w, s = b ++ w ∧ (∀ c ∈ w, winSep c = false) ∧ (b = [] ∨ winEndsSep b = true) := by
  intro s
  induction s using win_induction with
  | h0 w hw => exact ⟨[], w, rfl, hw, .inl rfl⟩
  | h1 w d b hw hd ih =>
    obtain ⟨b', w', rfl, h1, h2⟩ := ih
    refine ⟨w ++ d :: b', w', by simp, h1, .inr ?_⟩
    rcases h2 with rfl | h2
    · simp [winEndsSep, hd]
    · rw [winEndsSep, List.getLast?_append, List.getLast?_cons]
      rw [winEndsSep] at h2
      cases hl : b'.getLast? with
      | none => rw [hl] at h2; cases h2
      | some c => rw [hl] at h2; simpa using h2

theorem toks_end {b w : Str} (hw : ∀ c ∈ w, winSep c = false) (hne : w ≠ []) (hb : b = [] ∨ winEndsSep b = true) (off : Nat) :
    toks .windows off (b ++ w) = toks .windows off b ++ [⟨w, .filename, off + b.length⟩] := by
  have hw' : NoSep .windows w := noSep_win.mpr hw
  rcases hb with rfl | hb
  · rw [List.nil_append, toks_noSep off hw', tok1, if_neg hne, toks_nil]; rfl
  · rcases List.eq_nil_or_concat b with rfl | ⟨b', d, rfl⟩
    · cases hb
    · have hd : winSep d = true := by simpa [winEndsSep] using hb
      have hd' : isSep .windows d = true := by rw [isSep_windows]; exact hd
      rw [List.concat_eq_append, List.append_assoc, List.singleton_append, toks_append_sep hd', toks_noSep _ hw', tok1, if_neg hne,
        show b' ++ [d] = b' ++ d :: [] from rfl, toks_append_sep hd', toks_nil]
      simp [Nat.add_assoc]

theorem winRootLen_prefix {b w : Str} (h : winRootLen (b ++ w) = 0) : winRootLen b = 0 := by
  match b with
  | [] => rfl
  | [_] => rfl
  | [x, y] =>
    cases w with
    | nil => simpa using h
    | cons c w =>
      simp only [List.cons_append, List.nil_append, winRootLen] at h ⊢
      split at h
      · omega
      · exact h
  | x :: y :: z :: b =>
    simp only [List.cons_append, winRootLen] at h ⊢
    split at h
    · omega
    · rename_i hc
      rw [if_neg hc]
      exact h

/-- The filename and what precedes it. -/
theorem win_dir_file {s : Str} (hn : winNames (winTail s) ≠ []) (he : winEndsSep s = false) :
    ∃ b, winTail s = b ++ winFile s ∧ winDirText s = s.take (winRootLen s) ++ b ∧ (b = [] ∨ winEndsSep b = true) ∧
      winFile s ≠ [] ∧ (∀ c ∈ winFile s, winSep c = false) ∧ winNames (winTail s) = winNames b ++ [winFile s] ∧
      winTail (winDirText s) = b ∧ winRootLen (winDirText s) = winRootLen s ∧ winRootName (winDirText s) = winRootName s ∧
      winHasDir (winDirText s) = winHasDir s ∧ (winNames b ≠ [] → winEndsSep (winDirText s) = true) := by
  obtain ⟨b, w, h1, h2, h3⟩ := win_last_sep (winTail s)
  have hts : s = s.take (winRootLen s) ++ winTail s := (List.take_append_drop _ _).symm
  have htne : winTail s ≠ [] := by rintro h; rw [h] at hn; exact hn rfl
  have het : winEndsSep (winTail s) = false := by
    rw [hts, winEndsSep_append htne] at he; exact he
  have hw : w ≠ [] := by
    rintro rfl
    rw [List.append_nil] at h1
    rcases h3 with rfl | h3
    · exact htne h1
    · rw [h1, h3] at het; cases het
  have hnames : winNames (winTail s) = winNames b ++ [w] := by
    rw [h1, winNames_append_end h3, winNames_noSep h2, if_neg hw]
  have hfile : winFile s = w := by rw [winFile, he, hnames]; simp
  have hlen : (s.take (winRootLen s)).length = winRootLen s := by
    rw [List.length_take]; have := winRootLen_le s; omega
  have hdir : winDirText s = s.take (winRootLen s) ++ b := by
    rw [winDirText, hfile]
    have hl : s.length - w.length = (s.take (winRootLen s) ++ b).length := by
      have := congrArg List.length hts
      rw [h1] at this
      simp only [List.length_append] at this ⊢
      omega
    rw [hl]
    have hs' : s = (s.take (winRootLen s) ++ b) ++ w := by rw [List.append_assoc, ← h1]; exact hts
    generalize s.take (winRootLen s) ++ b = y at hs'
    rw [hs']
    simp
  have hroot : winRootLen (s.take (winRootLen s) ++ b) = winRootLen s := by
    by_cases hz : winRootLen s = 0
    · rw [hz, List.take_zero, List.nil_append]
      have := hts
      rw [hz, List.take_zero, List.nil_append, h1] at this
      rw [this] at hz
      exact winRootLen_prefix hz
    · obtain ⟨hR, hx⟩ := isRoot_take hz
      rw [hR.len b, hlen]
      rcases hx with hx | hx
      · left; rw [hlen, hx]
      · right
        intro c hc
        apply hx
        rw [h1, List.head?_append, hc]; rfl
  have hp : winRootLen (s.take (winRootLen s) ++ b) = (s.take (winRootLen s)).length := by rw [hroot, hlen]
  obtain ⟨p1, p2, p3, p4⟩ := parts_facts hp
  refine ⟨b, by rw [hfile]; exact h1, hdir, h3, by rw [hfile]; exact hw, by rw [hfile]; exact h2, by rw [hfile]; exact hnames,
    by rw [hdir]; exact p1, by rw [hdir]; exact hroot, by rw [hdir, p2]; rfl, ?_, ?_⟩
  · rw [hdir, p3, winHasDir, h1]
    cases b with
    | cons c b => rfl
    | nil =>
      cases w with
      | nil => exact absurd rfl hw
      | cons c w => simp [h2 c (by simp)]
  · intro hb
    have hbn : b ≠ [] := by rintro rfl; exact hb winNames_nil
    rw [hdir, p4 hbn]
    rcases h3 with h | h
    · exact absurd h hbn
    · exact h

/-- `remove_filename()` leaves what precedes the filename. -/
theorem win_removeFilename (s : Str) : removeFilename .windows (mkPath .windows s) = .ok (mkPath .windows (winDirText s)) := by
  by_cases hs : s = []
  · subst hs; decide
  have hnofile : winFile s = [] → winDirText s = s := by
    intro h; rw [winDirText, h]; simp
  by_cases hn : winNames (winTail s) = []
  · -- only a root
    have hf : winFile s = [] := by rw [winFile, hn]; simp
    rw [hnofile hf]
    obtain ⟨l, h1, h2, _⟩ := winComps_last s hs
    have hl : l.type ≠ .filename := fun h => h2.mp h hn
    by_cases hsing : ∃ c, winComps s = [c]
    · obtain ⟨c, hc⟩ := hsing
      rw [hc, List.getLast?_singleton, Option.some.injEq] at h1
      subst h1
      rw [win_single hc hs, removeFilename]
      have := (winComps_single hc).2.1
      cases ht : c.type with
      | multi => exact absurd ht this
      | filename => exact absurd ht hl
      | rootName => rfl
      | rootDir => rfl
    · rw [win_multi (fun c hc => hsing ⟨c, hc⟩) hs, removeFilename]
      simp only [h1]
      rw [if_neg (fun h => hl h.1)]
  by_cases he : winEndsSep s = true
  · -- an empty filename
    have hf : winFile s = [] := by rw [winFile, he]; rfl
    rw [hnofile hf]
    obtain ⟨l, h1, h2, h3⟩ := winComps_last s hs
    by_cases hsing : ∃ c, winComps s = [c]
    · obtain ⟨c, hc⟩ := hsing
      exfalso
      have h4 := congrArg List.length hc
      rw [winComps_eq, winTrail, if_pos ⟨he, hn⟩] at h4
      have h5 : (toks .windows (winRootLen s) (winTail s)).length = (winNames (winTail s)).length := by
        rw [← toks_winNames _ (winRootLen s), List.length_map]
      have h6 : (winNames (winTail s)).length ≠ 0 := by simpa using hn
      simp only [List.length_append, h5, List.length_singleton] at h4
      omega
    · rw [win_multi (fun c hc => hsing ⟨c, hc⟩) hs, removeFilename]
      simp only [h1]
      rw [if_neg (fun h => h.2 (by rw [h3 hn, hf]))]
  · -- a filename
    have he : winEndsSep s = false := by simpa using he
    obtain ⟨b, g1, g2, g3, g4, g5, g6, g7, g8, g9, g10, g11⟩ := win_dir_file hn he
    have hcomps : winComps s = (winRootComps s ++ toks .windows (winRootLen s) b) ++
        [⟨winFile s, .filename, (winDirText s).length⟩] := by
      rw [winComps_eq, winTrail, he, if_neg (by simp), List.append_nil, g1, toks_end g5 g4 g3, ← List.append_assoc]
      congr 3
      rw [g2, List.length_append, List.length_take]
      have := winRootLen_le s
      rw [Nat.min_eq_left this]
    have hroot : winRootComps (winDirText s) = winRootComps s := by
      rw [winRootComps, winRootComps, g8, g9, g10]
    have htoks : toks .windows (winRootLen (winDirText s)) (winTail (winDirText s)) = toks .windows (winRootLen s) b := by
      rw [g7, g8]
    by_cases hsing : winRootComps s ++ toks .windows (winRootLen s) b = []
    · -- nothing but a filename
      have hc : winComps s = [⟨winFile s, .filename, (winDirText s).length⟩] := by rw [hcomps, hsing]; rfl
      rw [win_single hc hs, removeFilename]
      have : winDirText s = [] := by
        have h1 := winComps_eq (winDirText s)
        rw [hroot, htoks, hsing, winTrail, if_neg, List.append_nil] at h1
        · apply Classical.byContradiction
          intro h
          exact winComps_ne h h1
        · rintro ⟨_, h⟩
          rw [ne_eq, ← toks_win_nil _ (winRootLen (winDirText s)), htoks] at h
          exact h (List.append_eq_nil_iff.mp hsing).2
      rw [this]
      rfl
    · have hmulti : ∀ c, winComps s ≠ [c] := by
        intro c hc
        have := congrArg List.length hc
        rw [hcomps, List.length_append] at this
        have h0 : (winRootComps s ++ toks .windows (winRootLen s) b).length ≠ 0 := by
          rw [ne_eq, List.length_eq_zero_iff]; exact hsing
        rw [List.length_singleton, List.length_singleton] at this
        omega
      have hdne : winDirText s ≠ [] := by
        intro h
        rw [h] at hroot htoks
        rw [← hroot, ← htoks] at hsing
        exact hsing rfl
      rw [win_multi hmulti hs, removeFilename]
      simp only [hcomps, List.getLast?_append, List.getLast?_singleton, Option.some_or, List.dropLast_concat]
      rw [if_pos ⟨trivial, g4⟩]
      have herase : eraseFrom s (winDirText s).length = .ok (winDirText s) := by
        have hle : (winDirText s).length ≤ s.length := by rw [winDirText, List.length_take]; omega
        have : s.take (winDirText s).length = winDirText s := by
          rw [winDirText, List.length_take, ← List.take_take]; simp
        rw [eraseFrom]
        simp [hle, this]
      rw [herase]
      obtain ⟨pr, hpr⟩ : ∃ pr, (winRootComps s ++ toks .windows (winRootLen s) b).getLast? = some pr := by
        exact ⟨_, List.getLast?_eq_some_getLast hsing⟩
      rw [List.getLast?_append] at hpr
      rw [hpr]
      show (if _ then _ else _) = _
      rw [mkPath_windows, if_neg hdne, winComps_eq, hroot, htoks]
      by_cases hb : winNames b = []
      · have htk : toks .windows (winRootLen s) b = [] := (toks_win_nil _ _).mpr hb
        rw [htk] at hpr
        have : pr.type = .rootDir ∨ pr.type = .rootName := by
          have hm := List.mem_of_getLast? (l := winRootComps s) (by simpa using hpr)
          rw [winRootComps, List.mem_append] at hm
          rcases hm with hm | hm
          · split at hm
            · cases hm
            · rw [List.mem_singleton.mp hm]; exact .inr rfl
          · split at hm
            · rw [List.mem_singleton.mp hm]; exact .inl rfl
            · cases hm
        rw [if_pos this, winTrail, if_neg (by rw [g7]; simp [hb]), List.append_nil]
        rfl
      · have htk : toks .windows (winRootLen s) b ≠ [] := fun h => hb ((toks_win_nil _ _).mp h)
        have : ¬ (pr.type = .rootDir ∨ pr.type = .rootName) := by
          obtain ⟨l, hl⟩ : ∃ l, (toks .windows (winRootLen s) b).getLast? = some l := by
            rw [← Option.isSome_iff_exists]; simpa using htk
          rw [hl, Option.some_or, Option.some.injEq] at hpr
          subst hpr
          rw [(toks_mem _ _ l (List.mem_of_getLast? hl)).1]
          simp
        rw [if_neg this, winTrail, if_pos ⟨g11 hb, by rw [g7]; exact hb⟩, trim]
        have : ∀ c, winRootComps s ++ toks .windows (winRootLen s) b ++ [(⟨[], .filename, (winDirText s).length⟩ : Comp)] ≠ [c] := by
          intro c hc
          have := congrArg List.length hc
          have h0 : (toks .windows (winRootLen s) b).length ≠ 0 := by rw [ne_eq, List.length_eq_zero_iff]; exact htk
          rw [List.length_append, List.length_append, List.length_singleton, List.length_singleton] at this
          omega
        match hc : winRootComps s ++ toks .windows (winRootLen s) b ++ [(⟨[], .filename, (winDirText s).length⟩ : Comp)] with
        | [] => simp at hc
        | [c] => exact absurd hc (this c)
        | _ :: _ :: _ => rfl

end Asap
