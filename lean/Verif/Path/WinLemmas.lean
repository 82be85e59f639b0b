import Verif.Path.WinSplit

/-!
# Windows paths: texts and observers
-/

namespace Asap
open Spec

theorem noSep_win {w : Str} : NoSep .windows w ↔ ∀ c ∈ w, winSep c = false := by
  simp only [NoSep, isSep_windows]

theorem winPieces_noSep : ∀ {w : Str}, (∀ c ∈ w, winSep c = false) → winPieces w = [w]
  | [], _ => rfl
  | c :: w, h => by
    simp only [List.mem_cons, forall_eq_or_imp] at h
    simp [winPieces, winPieces_noSep h.2, h.1]

theorem winPieces_seg : ∀ {w : Str} {d : Char} (b : Str), (∀ c ∈ w, winSep c = false) → winSep d = true →
    winPieces (w ++ d :: b) = w :: winPieces b
  | [], d, b, _, hd => by simp [winPieces, hd]
  | c :: w, d, b, h, hd => by
    simp only [List.mem_cons, forall_eq_or_imp] at h
    simp [winPieces, winPieces_seg b h.2 hd, h.1]

theorem winNames_noSep {w : Str} (h : ∀ c ∈ w, winSep c = false) : winNames w = if w = [] then [] else [w] := by
  rw [winNames, winPieces_noSep h]
  by_cases hw : w = [] <;> simp [hw]

theorem winNames_seg {w : Str} {d : Char} (b : Str) (h : ∀ c ∈ w, winSep c = false) (hd : winSep d = true) :
    winNames (w ++ d :: b) = (if w = [] then [] else [w]) ++ winNames b := by
  rw [winNames, winPieces_seg b h hd, winNames]
  by_cases hw : w = [] <;> simp [hw]

theorem win_induction {P : Str → Prop} (h0 : ∀ w, (∀ c ∈ w, winSep c = false) → P w)
    (h1 : ∀ w d b, (∀ c ∈ w, winSep c = false) → winSep d = true → P b → P (w ++ d :: b)) : ∀ s, P s := by
  intro s
  refine seg_induction (pl := .windows) (P := P) ?_ ?_ s
  · intro w hw; exact h0 w (noSep_win.mp hw)
  · intro w d b hw hd hb; exact h1 w d b (noSep_win.mp hw) (by rw [← isSep_windows]; exact hd) hb

theorem winNames_append_sep {d : Char} (hd : winSep d = true) (a b : Str) :
    winNames (a ++ d :: b) = winNames a ++ winNames b := by
  induction a using win_induction with
  | h0 w hw => rw [winNames_seg b hw hd, winNames_noSep hw]
  | h1 w e a hw he ih =>
    rw [List.append_assoc, List.cons_append, winNames_seg _ hw he, winNames_seg _ hw he, ih]
    simp

theorem winNames_nil : winNames [] = [] := by simp [winNames, winPieces]

theorem winNames_sep_cons {d : Char} (hd : winSep d = true) (b : Str) : winNames (d :: b) = winNames b := by
  simpa [winNames_nil] using winNames_append_sep hd [] b

theorem winNames_sep_end {d : Char} (hd : winSep d = true) (a : Str) : winNames (a ++ [d]) = winNames a := by
  simpa [winNames_nil] using winNames_append_sep hd a []

theorem toks_winNames (s : Str) : ∀ off, (toks .windows off s).map Comp.name = winNames s := by
  induction s using win_induction with
  | h0 w hw =>
    intro off
    rw [toks_noSep off (noSep_win.mpr hw), winNames_noSep hw, tok1]; split <;> simp
  | h1 w d b hw hd ih =>
    intro off
    rw [toks_seg (by rw [isSep_windows]; exact hd) (noSep_win.mpr hw), winNames_seg b hw hd, List.map_append, ih]
    congr 1
    rw [tok1]; split <;> simp

theorem toks_win_nil (s : Str) (off : Nat) : toks .windows off s = [] ↔ winNames s = [] := by
  rw [← toks_winNames s off, List.map_eq_nil_iff]

theorem winNames_mem {s w : Str} (h : w ∈ winNames s) : w ≠ [] ∧ ∀ c ∈ w, winSep c = false := by
  rw [← toks_winNames s 0, List.mem_map] at h
  obtain ⟨c, hc, rfl⟩ := h
  have := toks_mem s 0 c hc
  exact ⟨this.2.1, noSep_win.mp this.2.2.1⟩

/-- The names of a text are those of its part after the leading separators. -/
theorem winNames_dropWhile : ∀ s : Str, winNames (s.dropWhile winSep) = winNames s
  | [] => rfl
  | c :: s => by
    by_cases h : winSep c = true
    · rw [List.dropWhile_cons, if_pos h, winNames_dropWhile s, winNames_sep_cons h]
    · rw [List.dropWhile_cons, if_neg h]

theorem winNames_eq_nil : ∀ s : Str, winNames s = [] ↔ s.dropWhile winSep = []
  | [] => by simp [winNames_nil]
  | c :: s => by
    by_cases h : winSep c = true
    · rw [winNames_sep_cons h, winNames_eq_nil s, List.dropWhile_cons, if_pos h]
    · rw [List.dropWhile_cons, if_neg h]
      constructor
      · intro h'
        exfalso
        have h' := (toks_win_nil (c :: s) 0).mpr h'
        have : ∀ (s cur : Str) off, cur ≠ [] → toksGo .windows s off cur ≠ [] := by
          intro s
          induction s with
          | nil => intro cur off hc; simp [toksGo, hc]
          | cons d s ih =>
            intro cur off hc
            by_cases hd : isSep .windows d = true
            · simp [toksGo, hc, hd]
            · simp only [toksGo, hd]; exact ih _ _ (by simp)
        rw [toks, toksGo, if_neg (by rw [isSep_windows]; exact h)] at h'
        exact this _ _ _ (by simp) h'
      · intro h'; cases h'

theorem toksGo_head {pl : Plat} : ∀ (s cur : Str) (off : Nat) , cur ≠ [] →
    ∃ c cs, toksGo pl s off cur = c :: cs ∧ c.pos = off
  | [], cur, off, h => by simp [toksGo, h]
  | d :: s, cur, off, h => by
    by_cases hd : isSep pl d = true
    · simp [toksGo, h, hd]
    · simp only [toksGo, hd]
      exact toksGo_head s _ off (by simp)

/-- Where the first token is. -/
theorem toks_head : ∀ (s : Str) (off : Nat) (c : Comp) (cs : List Comp), toks .windows off s = c :: cs →
    c.pos = off + (s.takeWhile winSep).length
  | [], off, c, cs, h => by rw [toks_nil] at h; cases h
  | d :: s, off, c, cs, h => by
    by_cases hd : winSep d = true
    · rw [toks_sep_cons (by rw [isSep_windows]; exact hd)] at h
      rw [toks_head s _ c cs h]
      simp [hd]; omega
    · rw [toks, toksGo, if_neg (by rw [isSep_windows]; exact hd)] at h
      obtain ⟨c', cs', h1, h2⟩ := toksGo_head (pl := .windows) s ([] ++ [d]) off (by simp)
      rw [h1] at h
      cases h
      simp [hd, h2]

/-! ## Observers of a parsed text -/

theorem trim_names {s : Str} {cs : List Comp} (h : ∀ c, cs = [c] → c.name ≠ [] ∧ c.type ≠ .multi) :
    (trim ⟨s, cs, .multi⟩).names = cs.map Comp.name := by
  match cs, h with
  | [], _ => rfl
  | [c], h =>
    obtain ⟨h1, h2⟩ := h c rfl
    obtain ⟨n, t, p⟩ := c
    simp only at h1 h2
    cases t with
    | multi => exact absurd rfl h2
    | rootName => simp [trim, Path.names, Path.elems, Path.isEmpty, h1]
    | rootDir => simp [trim, Path.names, Path.elems, Path.isEmpty, h1]
    | filename => simp [trim, Path.names, Path.elems, Path.isEmpty, h1]
  | c :: d :: cs, _ => simp [trim, Path.names, Path.elems, Comp.toPath]

theorem trim_hasRootName {s : Str} {cs : List Comp} :
    hasRootName (trim ⟨s, cs, .multi⟩) = cs.head?.any (·.type == .rootName) := by
  match cs with
  | [] => rfl
  | [c] => simp [trim, hasRootName]
  | c :: d :: cs => simp [trim, hasRootName]

theorem trim_rootName {s : Str} {cs : List Comp} : (rootName (trim ⟨s, cs, .multi⟩)).pathname =
    match cs with
    | c :: _ => if c.type = .rootName then c.name else []
    | [] => [] := by
  match cs with
  | [] => rfl
  | [c] =>
    by_cases h : c.type = .rootName
    · simp [trim, rootName, h]
    · simp [trim, rootName, h, Path.default]
  | c :: d :: cs =>
    by_cases h : c.type = .rootName
    · simp [trim, rootName, h, Comp.toPath]
    · simp [trim, rootName, h, Path.default]

theorem trim_rootDirectory {s : Str} {cs : List Comp} (h : ∀ c, cs = [c] → c.type ≠ .multi)
    (h2 : ∀ c, cs = [c] → c.type = .rootName → 2 ≤ c.name.length) :
    ∃ q, rootDirectory .windows (trim ⟨s, cs, .multi⟩) = .ok q ∧ q.pathname =
      match (skipType .rootName cs) with
      | c :: _ => if c.type = .rootDir then c.name else []
      | [] => [] := by
  match cs, h, h2 with
  | [], _, _ => exact ⟨_, rfl, rfl⟩
  | [c], h, h2 =>
    obtain ⟨n, t, p⟩ := c
    cases t with
    | multi => exact absurd rfl (h _ rfl)
    | rootName =>
      have h2 := h2 _ rfl rfl
      simp only at h2
      match n, h2 with
      | a :: b :: n, _ =>
        by_cases hb : b = ':'
        · subst hb
          exact ⟨mkPath .windows [], rfl, by simp [skipType, mkPath, splitComponents]⟩
        · exact ⟨Path.default, if_neg hb, by simp [skipType, Path.default]⟩
    | rootDir => exact ⟨_, rfl, rfl⟩
    | filename => exact ⟨_, rfl, rfl⟩
  | c :: d :: cs, _, _ =>
    simp only [trim, rootDirectory]
    cases hk : skipType .rootName (c :: d :: cs) with
    | nil => exact ⟨_, rfl, rfl⟩
    | cons e es =>
      refine ⟨_, rfl, ?_⟩
      dsimp only
      split <;> rfl

/-- The trailing empty element of a Windows text. -/
def winTrail (s : Str) : List Comp :=
  if winEndsSep s = true ∧ winNames (winTail s) ≠ [] then [⟨[], .filename, s.length⟩] else []

theorem winComps_eq (s : Str) : winComps s = winRootComps s ++ toks .windows (winRootLen s) (winTail s) ++ winTrail s := by
  simp only [winComps, winTrail, ne_eq, toks_win_nil]

theorem winRootLen_ge {s : Str} (h : winRootLen s ≠ 0) : 2 ≤ winRootLen s := by
  match s with
  | [] => exact absurd rfl h
  | [_] => exact absurd rfl h
  | [a, b] =>
    simp only [winRootLen] at h ⊢
    split at h
    · rw [if_pos (by assumption)]; exact Nat.le_refl _
    · exact absurd rfl h
  | a :: b :: c :: rest =>
    simp only [winRootLen] at h ⊢
    split at h
    · rw [if_pos (by assumption)]; omega
    · split at h
      · rw [if_neg (by assumption), if_pos (by assumption)]; exact Nat.le_refl _
      · exact absurd rfl h

theorem winRootName_length (s : Str) : (winRootName s).length = winRootLen s := by
  simp only [winRootName, winPrefer, List.length_map, List.length_take]
  have := winRootLen_le s
  omega

theorem winRootName_ne {s : Str} (h : winRootLen s ≠ 0) : winRootName s ≠ [] := by
  intro h'
  have := winRootName_length s
  rw [h'] at this
  exact h this.symm

/-- A text with neither root nor names is empty. -/
theorem winComps_ne {s : Str} (hs : s ≠ []) : winComps s ≠ [] := by
  intro h
  rw [winComps_eq] at h
  simp only [List.append_eq_nil_iff, toks_win_nil] at h
  obtain ⟨⟨h1, h2⟩, h3⟩ := h
  simp only [winRootComps, List.append_eq_nil_iff] at h1
  have hn : winRootLen s = 0 := by
    apply Classical.byContradiction
    intro hn
    rw [if_neg hn] at h1
    cases h1.1
  have hd : winHasDir s = false := by
    cases hd : winHasDir s
    · rfl
    · rw [hd] at h1; cases h1.2
  rw [winNames_eq_nil, winTail, hn, List.drop_zero] at h2
  rw [winHasDir, winTail, hn, List.drop_zero] at hd
  cases s with
  | nil => exact hs rfl
  | cons c s =>
    simp only [List.head?_cons, Option.any_some] at hd
    rw [List.dropWhile_cons, if_neg (by rw [hd]; simp)] at h2
    cases h2

theorem winComps_single {s : Str} {c : Comp} (h : winComps s = [c]) :
    c.name ≠ [] ∧ c.type ≠ .multi ∧ (c.type = .rootName → 2 ≤ c.name.length) ∧
      (c.type = .filename → c.name = s) := by
  rw [winComps_eq] at h
  by_cases ht : winNames (winTail s) = []
  · rw [(toks_win_nil _ _).mpr ht, winTrail, if_neg (by simp [ht])] at h
    simp only [winRootComps, List.append_nil] at h
    by_cases hn : winRootLen s = 0
    · rw [if_pos hn, List.nil_append] at h
      split at h
      · cases h; simp
      · cases h
    · rw [if_neg hn] at h
      split at h
      · cases h
      · cases h
        refine ⟨winRootName_ne hn, by simp, fun _ => ?_, by simp⟩
        show 2 ≤ (winRootName s).length
        rw [winRootName_length]
        exact winRootLen_ge hn
  · have hne : toks .windows (winRootLen s) (winTail s) ≠ [] := by rw [ne_eq, toks_win_nil]; exact ht
    have hlen := congrArg List.length h
    simp only [List.length_append, List.length_cons, List.length_nil] at hlen
    have := List.length_pos_iff.mpr hne
    have hr : winRootComps s = [] := by rw [← List.length_eq_zero_iff]; omega
    have htr : winTrail s = [] := by rw [← List.length_eq_zero_iff]; omega
    rw [hr, htr, List.nil_append, List.append_nil] at h
    have hm := toks_mem (winTail s) (winRootLen s) c (by rw [h]; simp)
    refine ⟨hm.2.1, by rw [hm.1]; simp, by rw [hm.1]; simp, fun _ => ?_⟩
    simp only [winRootComps, List.append_eq_nil_iff] at hr
    have hn : winRootLen s = 0 := by
      apply Classical.byContradiction
      intro hn
      rw [if_neg hn] at hr
      cases hr.1
    have hes : winEndsSep s = false := by
      cases he : winEndsSep s
      · rfl
      · rw [winTrail, if_pos ⟨he, ht⟩] at htr; cases htr
    have hd : winHasDir s = false := by
      cases hd : winHasDir s
      · rfl
      · rw [hd] at hr; cases hr.2
    rw [hn, winTail, hn, List.drop_zero] at h
    rw [winHasDir, winTail, hn, List.drop_zero] at hd
    -- no separator at all
    rcases last_seg .windows s with hns | ⟨a, d, w, hd1, hw, rfl⟩
    · rw [toks_noSep 0 hns, tok1] at h
      split at h
      · cases h
      · cases h; rfl
    · exfalso
      rw [isSep_windows] at hd1
      have hlen := congrArg (fun l => (l.map Comp.name).length) h
      simp only [toks_winNames, winNames_append_sep hd1, List.length_append] at hlen
      have h1 : winNames a ≠ [] := by
        intro ha
        rw [winNames_eq_nil] at ha
        cases a with
        | nil => simp [hd1] at hd
        | cons x a =>
          simp only [List.cons_append, List.head?_cons, Option.any_some] at hd
          rw [List.dropWhile_cons, if_neg (by rw [hd]; simp)] at ha
          cases ha
      have h2 : winNames w ≠ [] := by
        rw [winNames_noSep (noSep_win.mp hw)]
        split
        · rename_i hw0
          subst hw0
          simp [winEndsSep, hd1] at hes
        · simp
      have h1 := List.length_pos_iff.mpr h1
      have h2 := List.length_pos_iff.mpr h2
      simp at hlen
      omega

section
variable (s : Str)

theorem win_names : (mkPath .windows s).names = winElements s := by
  rw [mkPath_windows]
  by_cases hs : s = []
  · subst hs; rfl
  · rw [if_neg hs, trim_names (fun c hc => ⟨(winComps_single hc).1, (winComps_single hc).2.1⟩), winComps_eq]
    simp only [List.map_append, toks_winNames, winElements, winRootComps, winTrail]
    congr 1
    · congr 1
      congr 1 <;> split <;> rfl
    · split <;> rfl

theorem winComps_head : (winComps s).head?.any (·.type == .rootName) = decide (winRootLen s ≠ 0) := by
  rw [winComps_eq, winRootComps]
  by_cases hn : winRootLen s = 0
  · simp only [hn, if_true, List.nil_append]
    by_cases hd : winHasDir s = true
    · simp [hd]
    · simp only [hd]
      cases ht : toks .windows 0 (winTail s) with
      | nil => simp [winTrail]; split <;> simp
      | cons c cs =>
        have := (toks_mem (winTail s) 0 c (by rw [ht]; simp)).1
        simp [this]
  · simp [hn]

theorem win_hasRootName : hasRootName (mkPath .windows s) = decide (winRootLen s ≠ 0) := by
  rw [mkPath_windows]
  by_cases hs : s = []
  · subst hs; rfl
  · rw [if_neg hs, trim_hasRootName, winComps_head]

theorem win_rootName : (rootName (mkPath .windows s)).pathname = winRootName s := by
  rw [mkPath_windows]
  by_cases hs : s = []
  · subst hs; rfl
  · rw [if_neg hs, trim_rootName]
    have hh := winComps_head s
    by_cases hn : winRootLen s = 0
    · have : winRootName s = [] := by rw [winRootName, hn]; rfl
      rw [this]
      cases hc : winComps s with
      | nil => rfl
      | cons c cs =>
        rw [hc] at hh
        simp only [hn, List.head?_cons, Option.any_some] at hh
        dsimp only
        rw [if_neg (by simpa using hh)]
    · rw [winComps_eq, winRootComps, if_neg hn]
      rfl

/-- What follows an optional root name. -/
theorem skip_rootName : skipType .rootName (winComps s) =
    (if winHasDir s then [⟨['\\'], .rootDir, winRootLen s⟩] else []) ++
      toks .windows (winRootLen s) (winTail s) ++ winTrail s := by
  rw [winComps_eq, winRootComps]
  by_cases hn : winRootLen s = 0
  · simp only [hn, if_true, List.nil_append]
    by_cases hd : winHasDir s = true
    · simp [hd, skipType]
    · simp only [hd]
      cases ht : toks .windows 0 (winTail s) with
      | nil =>
        have : winTrail s = [] := by rw [winTrail, if_neg]; simp [(toks_win_nil _ _).mp ht]
        simp [this, skipType]
      | cons c cs =>
        have := (toks_mem (winTail s) 0 c (by rw [ht]; simp)).1
        simp [skipType, this]
  · simp [hn, skipType]

theorem skip_rootDir : skipType .rootDir (skipType .rootName (winComps s)) =
      toks .windows (winRootLen s) (winTail s) ++ winTrail s := by
  rw [skip_rootName]
  by_cases hd : winHasDir s = true
  · simp [hd, skipType]
  · simp only [hd]
    cases ht : toks .windows (winRootLen s) (winTail s) with
    | nil =>
      have : winTrail s = [] := by rw [winTrail, if_neg]; simp [(toks_win_nil _ _).mp ht]
      simp [this, skipType]
    | cons c cs =>
      have := (toks_mem (winTail s) _ c (by rw [ht]; simp)).1
      simp [skipType, this]

theorem win_rootDirectory : ∃ q, rootDirectory .windows (mkPath .windows s) = .ok q ∧
    q.pathname = if winHasDir s then ['\\'] else [] := by
  rw [mkPath_windows]
  by_cases hs : s = []
  · subst hs; exact ⟨_, rfl, rfl⟩
  · rw [if_neg hs]
    obtain ⟨q, h1, h2⟩ := trim_rootDirectory (s := s) (cs := winComps s)
      (fun c hc => (winComps_single hc).2.1) (fun c hc => (winComps_single hc).2.2.1)
    refine ⟨q, h1, ?_⟩
    rw [h2, skip_rootName]
    by_cases hd : winHasDir s = true
    · simp [hd]
    · simp only [hd]
      cases ht : toks .windows (winRootLen s) (winTail s) with
      | nil =>
        have : winTrail s = [] := by rw [winTrail, if_neg]; simp [(toks_win_nil _ _).mp ht]
        simp [this]
      | cons c cs =>
        have := (toks_mem (winTail s) _ c (by rw [ht]; simp)).1
        simp [this]

theorem win_hasRootDirectory : hasRootDirectory .windows (mkPath .windows s) = .ok (winHasDir s) := by
  obtain ⟨q, h1, h2⟩ := win_rootDirectory s
  simp only [hasRootDirectory, h1]
  show Except.ok (!q.isEmpty) = _
  rw [Path.isEmpty, h2]
  cases winHasDir s <;> rfl

/-- The text of a sole element, or another text. -/
def soleOr (s : Str) : List Comp → Str
  | [c] => c.name
  | _ => s

/-- Text of a parsed path: itself unless it is a single element. -/
theorem win_pathname_eq {s : Str} : (mkPath .windows s).pathname = soleOr s (winComps s) := by
  rw [mkPath_windows]
  by_cases hs : s = []
  · subst hs; rfl
  · rw [if_neg hs, trim]
    dsimp only
    match winComps s with
    | [] => rfl
    | [_] => rfl
    | _ :: _ :: _ => rfl

end

end Asap
