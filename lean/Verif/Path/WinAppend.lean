import Verif.Path.WinLemmas
import Verif.Path.Compare

/-!
# Windows paths: append
-/

namespace Asap
open Spec

theorem winPrefer_append (a b : Str) : winPrefer (a ++ b) = winPrefer a ++ winPrefer b := by simp [winPrefer]

theorem winSep_prefer (c : Char) : winSep (if c = '/' then '\\' else c) = winSep c := by
  by_cases h : c = '/'
  · subst h; rfl
  · rw [if_neg h]

theorem winPrefer_idem (a : Str) : winPrefer (winPrefer a) = winPrefer a := by
  simp only [winPrefer, List.map_map]
  apply List.map_congr_left
  intro c _
  by_cases h : c = '/'
  · subst h; rfl
  · simp [h]

/-- A complete root name. -/
inductive IsRoot : Str → Prop where
  | drive (a : Char) (h : winSep a = false) : IsRoot [a, ':']
  | unc (a c : Char) (w : Str) (h : winSep a = true) (hc : winSep c = false) (hw : ∀ c ∈ w, winSep c = false) :
      IsRoot (a :: a :: c :: w)

theorem IsRoot.prefer {r : Str} (h : IsRoot r) : IsRoot (winPrefer r) := by
  cases h with
  | drive a h => exact .drive _ (by rw [winSep_prefer]; exact h)
  | unc a c w h hc hw =>
    refine .unc _ _ _ (by rw [winSep_prefer]; exact h) (by rw [winSep_prefer]; exact hc) ?_
    intro d hd
    simp only [List.mem_map] at hd
    obtain ⟨e, he, rfl⟩ := hd
    rw [winSep_prefer]
    exact hw e he

theorem takeWhile_all {q : Char → Bool} : ∀ {w x : Str}, (∀ c ∈ w, q c = true) → (∀ c, x.head? = some c → q c = false) →
    (w ++ x).takeWhile q = w
  | [], [], _, _ => rfl
  | [], d :: x, _, h => by simp [h d rfl]
  | c :: w, x, hw, h => by
    simp only [List.mem_cons, forall_eq_or_imp] at hw
    simp [hw.1, takeWhile_all hw.2 h]

theorem mem_takeWhile_imp {q : Char → Bool} {d : Char} : ∀ {s : Str}, d ∈ s.takeWhile q → q d = true
  | [], h => by cases h
  | c :: s, h => by
    rw [List.takeWhile_cons] at h
    split at h
    · rcases List.mem_cons.mp h with rfl | h
      · assumption
      · exact mem_takeWhile_imp h
    · cases h

/-- Where the root name ends. -/
theorem IsRoot.len {r : Str} (h : IsRoot r) (x : Str) (hx : r.length = 2 ∨ ∀ c, x.head? = some c → winSep c = true) :
    winRootLen (r ++ x) = r.length := by
  cases h with
  | drive a h =>
    cases x with
    | nil => simp [winRootLen, h]
    | cons c x => simp [winRootLen, h]
  | unc a c w h hc hw =>
    have hx : ∀ c, x.head? = some c → winSep c = true := by
      rcases hx with hx | hx
      · simp at hx
      · exact hx
    have := takeWhile_all (q := (!winSep ·)) (w := w) (x := x) (by simpa using hw) (by simpa using hx)
    simp only [List.cons_append, winRootLen, h, hc, this]
    simp; omega

/-- The root name of a text. -/
theorem isRoot_take {s : Str} (h : winRootLen s ≠ 0) : IsRoot (s.take (winRootLen s)) ∧
    (winRootLen s = 2 ∨ ∀ c, (winTail s).head? = some c → winSep c = true) := by
  match s with
  | [] => exact absurd rfl h
  | [_] => exact absurd rfl h
  | [a, b] =>
    by_cases hc : (!winSep a && b == ':') = true
    · have hl : winRootLen [a, b] = 2 := by simp only [winRootLen]; rw [if_pos hc]
      simp only [Bool.and_eq_true, Bool.not_eq_true', beq_iff_eq] at hc
      obtain ⟨h1, rfl⟩ := hc
      rw [hl]
      exact ⟨.drive a h1, .inl rfl⟩
    · simp only [winRootLen] at h; rw [if_neg hc] at h; exact absurd rfl h
  | a :: b :: c :: rest =>
    by_cases hu : (winSep a && b == a && !winSep c) = true
    · have hl : winRootLen (a :: b :: c :: rest) = 3 + (rest.takeWhile (!winSep ·)).length := by
        simp only [winRootLen]; rw [if_pos hu]
      simp only [Bool.and_eq_true, Bool.not_eq_true', beq_iff_eq] at hu
      obtain ⟨⟨h1, rfl⟩, h3⟩ := hu
      rw [hl]
      have e : 3 + (rest.takeWhile (!winSep ·)).length = (rest.takeWhile (!winSep ·)).length + 1 + 1 + 1 := by omega
      constructor
      · rw [e]
        simp only [List.take_succ_cons]
        refine .unc b c _ h1 h3 ?_
        intro d hd
        rw [show rest.take (rest.takeWhile (!winSep ·)).length = rest.takeWhile (!winSep ·) from
          (List.prefix_iff_eq_take.mp (List.takeWhile_prefix _)).symm] at hd
        have := mem_takeWhile_imp hd
        simpa using this
      · right
        rw [winTail, hl, e]
        simp only [List.drop_succ_cons]
        rw [drop_takeWhile_length]
        intro d hd
        cases hdw : rest.dropWhile (!winSep ·) with
        | nil => rw [hdw] at hd; cases hd
        | cons x xs =>
          have := List.head_dropWhile_not (p := (!winSep ·)) (l := rest) (by rw [hdw]; simp)
          rw [hdw] at hd
          cases hd
          simpa [hdw] using this
    · by_cases hc : (!winSep a && b == ':') = true
      · have hl : winRootLen (a :: b :: c :: rest) = 2 := by simp only [winRootLen]; rw [if_neg hu, if_pos hc]
        simp only [Bool.and_eq_true, Bool.not_eq_true', beq_iff_eq] at hc
        obtain ⟨h1, rfl⟩ := hc
        rw [hl]
        exact ⟨.drive a h1, .inl rfl⟩
      · simp only [winRootLen] at h; rw [if_neg hu, if_neg hc] at h; exact absurd rfl h

/-- The elements of a text cut after its root name. -/
theorem winElements_parts {r x : Str} (h : winRootLen (r ++ x) = r.length) : winElements (r ++ x) =
    (if r = [] then [] else [winPrefer r]) ++ (if x.head?.any winSep then [['\\']] else []) ++ winNames x ++
      (if winEndsSep x ∧ winNames x ≠ [] then [[]] else []) := by
  have ht : winTail (r ++ x) = x := by rw [winTail, h]; simp
  have hr : winRootName (r ++ x) = winPrefer r := by rw [winRootName, h]; simp
  have he : winNames x ≠ [] → winEndsSep (r ++ x) = winEndsSep x := by
    intro hx
    have hx : x ≠ [] := by rintro rfl; exact hx winNames_nil
    rw [winEndsSep, winEndsSep, List.getLast?_append]
    cases hl : x.getLast? with
    | none => simp [hx] at hl
    | some c => rfl
  rw [winElements, ht, hr, h, winHasDir, ht]
  simp only [List.length_eq_zero_iff]
  congr 1
  by_cases hx : winNames x = []
  · simp [hx]
  · rw [he hx]

/-- The root name as stored. -/
def winStoredRoot (s : Str) : Str :=
  if winHasDir s = false ∧ winNames (winTail s) = [] then winRootName s else s.take (winRootLen s)

/-- What follows the root name, as stored. -/
def winStoredRest (s : Str) : Str :=
  if winRootLen s = 0 ∧ winNames (winTail s) = [] ∧ s ≠ [] then ['\\'] else winTail s

theorem head_of_names_nil {x : Str} (h : winNames x = []) (hd : x.head?.any winSep = false) : x = [] := by
  cases x with
  | nil => rfl
  | cons c x =>
    simp only [List.head?_cons, Option.any_some] at hd
    rw [winNames_eq_nil, List.dropWhile_cons, if_neg (by rw [hd]; simp)] at h
    cases h

theorem winStoredRest_facts (s : Str) : winNames (winStoredRest s) = winNames (winTail s) ∧
    (winStoredRest s).head?.any winSep = winHasDir s ∧
    (winNames (winTail s) ≠ [] → winStoredRest s = winTail s) := by
  unfold winStoredRest
  split
  · rename_i h
    obtain ⟨h1, h2, h3⟩ := h
    refine ⟨by rw [h2]; rfl, ?_, fun h => absurd h2 h⟩
    cases hd : winHasDir s with
    | true => rfl
    | false =>
      rw [winHasDir] at hd
      have := head_of_names_nil h2 hd
      rw [winTail, h1] at this
      exact absurd (by simpa using this) h3
  · exact ⟨rfl, rfl, fun _ => rfl⟩

theorem winStoredRoot_facts (s : Str) : winPrefer (winStoredRoot s) = winRootName s ∧
    (winStoredRoot s).length = winRootLen s ∧ (winRootLen s ≠ 0 → IsRoot (winStoredRoot s)) := by
  have hl : (s.take (winRootLen s)).length = winRootLen s := by
    rw [List.length_take]; have := winRootLen_le s; omega
  unfold winStoredRoot
  split
  · refine ⟨winPrefer_idem _, winRootName_length s, fun h => ?_⟩
    exact (isRoot_take h).1.prefer
  · exact ⟨rfl, hl, fun h => (isRoot_take h).1⟩

theorem win_pathname (s : Str) : (mkPath .windows s).pathname = winStoredRoot s ++ winStoredRest s := by
  have hsplit : s.take (winRootLen s) ++ winTail s = s := List.take_append_drop _ _
  rw [win_pathname_eq]
  by_cases hs : s = []
  · subst hs; rfl
  by_cases hsing : ∃ c, winComps s = [c]
  · obtain ⟨c, hc⟩ := hsing
    rw [hc]
    show c.name = _
    have h4 := (winComps_single hc).2.2.2
    rw [winComps_eq] at hc
    by_cases ht : winNames (winTail s) = []
    · rw [(toks_win_nil _ _).mpr ht, winTrail, if_neg (by simp [ht])] at hc
      simp only [winRootComps, List.append_nil] at hc
      by_cases hn : winRootLen s = 0
      · rw [if_pos hn, List.nil_append] at hc
        split at hc
        · rename_i hd
          cases hc
          rw [winStoredRoot, if_neg (by simp [hd]), hn, winStoredRest, if_pos ⟨hn, ht, hs⟩]
          rfl
        · cases hc
      · rw [if_neg hn] at hc
        split at hc
        · cases hc
        · rename_i hd
          cases hc
          have hd : winHasDir s = false := by simpa using hd
          rw [winStoredRoot, if_pos ⟨hd, ht⟩, winStoredRest, if_neg (by simp [hn])]
          rw [winHasDir] at hd
          rw [head_of_names_nil ht hd, List.append_nil]
    · have hf : c.type = .filename := by
        have hne : toks .windows (winRootLen s) (winTail s) ≠ [] := by rw [ne_eq, toks_win_nil]; exact ht
        cases htk : toks .windows (winRootLen s) (winTail s) with
        | nil => exact absurd htk hne
        | cons d ds =>
          have hmem : d ∈ winRootComps s ++ toks .windows (winRootLen s) (winTail s) ++ winTrail s := by
            simp [htk]
          rw [hc] at hmem
          simp only [List.mem_singleton] at hmem
          subst hmem
          exact (toks_mem _ _ _ (by rw [htk]; simp)).1
      rw [h4 hf, winStoredRoot, if_neg (by simp [ht]), winStoredRest, if_neg (by simp [ht]), hsplit]
  · have h1 : soleOr s (winComps s) = s := by
      match hc : winComps s with
      | [] => rfl
      | [c] => exact absurd ⟨c, hc⟩ hsing
      | _ :: _ :: _ => rfl
    rw [h1]
    have h2 : ¬ (winHasDir s = false ∧ winNames (winTail s) = []) := by
      rintro ⟨hd, ht⟩
      apply hsing
      have hne := winComps_ne hs
      rw [winComps_eq, (toks_win_nil _ _).mpr ht, winTrail, if_neg (by simp [ht]), winRootComps, hd] at hne ⊢
      simp only [List.append_nil] at hne ⊢
      by_cases hn : winRootLen s = 0
      · simp [hn] at hne
      · rw [if_neg hn]
        exact ⟨_, rfl⟩
    have h3 : ¬ (winRootLen s = 0 ∧ winNames (winTail s) = [] ∧ s ≠ []) := by
      rintro ⟨hn, ht, _⟩
      apply hsing
      have hd : winHasDir s = true := by
        cases hd : winHasDir s
        · exact absurd ⟨hd, ht⟩ h2
        · rfl
      rw [winComps_eq, (toks_win_nil _ _).mpr ht, winTrail, if_neg (by simp [ht]), winRootComps, hd, if_pos hn]
      exact ⟨_, rfl⟩
    rw [winStoredRoot, if_neg h2, winStoredRest, if_neg h3, hsplit]


section
variable (s : Str)

/-- Root name and rest of a stored text. -/
theorem winRootLen_stored_root {x : Str} (hx : ∀ c, x.head? = some c → winSep c = true) (hn : winRootLen s ≠ 0) :
    winRootLen (winStoredRoot s ++ x) = (winStoredRoot s).length :=
  ((winStoredRoot_facts s).2.2 hn).len x (.inr hx)

theorem win_multi {s : Str} (h : ∀ c, winComps s ≠ [c]) (hs : s ≠ []) :
    mkPath .windows s = ⟨s, winComps s, .multi⟩ := by
  rw [mkPath_windows, if_neg hs, trim]
  match hc : winComps s with
  | [] => rfl
  | [c] => exact absurd hc (h c)
  | _ :: _ :: _ => rfl

theorem win_single {s : Str} {c : Comp} (h : winComps s = [c]) (hs : s ≠ []) :
    mkPath .windows s = ⟨c.name, [], c.type⟩ := by
  rw [mkPath_windows, if_neg hs, trim, h]

theorem winComps_last (hs : s ≠ []) : ∃ l, (winComps s).getLast? = some l ∧
    (l.type = .filename ↔ winNames (winTail s) ≠ []) ∧
    (winNames (winTail s) ≠ [] → l.name = winFile s) := by
  rw [winComps_eq]
  by_cases ht : winNames (winTail s) = []
  · have htk := (toks_win_nil (winTail s) (winRootLen s)).mpr ht
    have htr : winTrail s = [] := by rw [winTrail, if_neg]; simp [ht]
    have hne := winComps_ne hs
    rw [winComps_eq] at hne
    rw [htk, htr, List.append_nil, List.append_nil] at hne ⊢
    obtain ⟨l, hl⟩ : ∃ l, (winRootComps s).getLast? = some l := by
      rw [← Option.isSome_iff_exists]; simp [hne]
    refine ⟨l, hl, ?_, fun h => absurd ht h⟩
    have := winRootComps_type s l (List.mem_of_getLast? hl)
    simp [this, ht]
  · by_cases he : winEndsSep s = true
    · have htr : winTrail s = [⟨[], .filename, s.length⟩] := by rw [winTrail, if_pos ⟨he, ht⟩]
      refine ⟨⟨[], .filename, s.length⟩, by rw [htr, List.getLast?_append]; rfl, by simp [ht], fun _ => ?_⟩
      simp [winFile, he]
    · have htr : winTrail s = [] := by rw [winTrail, if_neg]; simp [he]
      have hne : toks .windows (winRootLen s) (winTail s) ≠ [] := by rw [ne_eq, toks_win_nil]; exact ht
      obtain ⟨l, hl⟩ : ∃ l, (toks .windows (winRootLen s) (winTail s)).getLast? = some l := by
        rw [← Option.isSome_iff_exists]; simp [hne]
      refine ⟨l, by rw [htr, List.append_nil, List.getLast?_append, hl]; rfl, ?_, fun _ => ?_⟩
      · have := (toks_mem _ _ l (List.mem_of_getLast? hl)).1
        simp [this, ht]
      · simp only [winFile, he]
        rw [← toks_winNames (winTail s) (winRootLen s), List.getLastD_eq_getLast?, List.getLast?_map, hl]
        rfl

theorem winFile_nil (h : winNames (winTail s) = []) : winFile s = [] := by
  simp [winFile, h]

theorem win_filename : ∃ q, filename .windows (mkPath .windows s) = .ok q ∧ q.pathname = winFile s := by
  by_cases hs : s = []
  · subst hs; exact ⟨_, rfl, rfl⟩
  obtain ⟨l, h1, h2, h3⟩ := winComps_last s hs
  by_cases hsing : ∃ c, winComps s = [c]
  · obtain ⟨c, hc⟩ := hsing
    rw [hc, List.getLast?_singleton, Option.some.injEq] at h1
    subst h1
    rw [win_single hc hs]
    obtain ⟨f1, f2, _, f4⟩ := winComps_single hc
    obtain ⟨n, t, p⟩ := c
    simp only at f1 f2 f4 h2 h3
    obtain ⟨lc, hlc⟩ : ∃ lc, n.getLast? = some lc := by
      rw [← Option.isSome_iff_exists]; simp [f1]
    simp only [filename, hlc]
    by_cases ht : winNames (winTail s) = []
    · have : t ≠ .filename := by rw [ne_eq, h2]; simp [ht]
      cases t with
      | multi => exact absurd rfl f2
      | rootName => exact ⟨_, rfl, (winFile_nil s ht).symm⟩
      | rootDir => exact ⟨_, rfl, (winFile_nil s ht).symm⟩
      | filename => exact absurd rfl this
    · have : t = .filename := h2.mpr ht
      subst this
      exact ⟨_, rfl, h3 ht⟩
  · have hm := win_multi (fun c hc => hsing ⟨c, hc⟩) hs
    rw [hm]
    obtain ⟨lc, hlc⟩ : ∃ lc, s.getLast? = some lc := by
      rw [← Option.isSome_iff_exists]; simp [hs]
    simp only [filename, hlc]
    by_cases hp : lc = prefSep .windows
    · rw [if_pos hp]
      refine ⟨_, rfl, ?_⟩
      have : winEndsSep s = true := by rw [winEndsSep, hlc, hp]; rfl
      simp [winFile, this, Path.default]
    · rw [if_neg hp, h1]
      refine ⟨_, rfl, ?_⟩
      by_cases ht : winNames (winTail s) = []
      · rw [if_neg (by rw [h2]; simp [ht]), winFile_nil s ht]; rfl
      · rw [if_pos (h2.mpr ht), ← h3 ht]; rfl

theorem winFile_eq_nil : winFile s = [] ↔ winNames (winTail s) = [] ∨ winEndsSep s = true := by
  by_cases ht : winNames (winTail s) = []
  · simp [winFile_nil s ht, ht]
  · by_cases he : winEndsSep s = true
    · simp [winFile, he]
    · simp only [winFile, he, ht]
      obtain ⟨l, hl⟩ : ∃ l, (winNames (winTail s)).getLast? = some l := by
        rw [← Option.isSome_iff_exists]; simp [ht]
      have := (winNames_mem (List.mem_of_getLast? hl)).1
      simp [List.getLastD_eq_getLast?, hl, this]

theorem win_hasFilename : hasFilename .windows (mkPath .windows s) =
    .ok (decide (winNames (winTail s) ≠ [] ∧ winEndsSep s = false)) := by
  obtain ⟨q, h1, h2⟩ := win_filename s
  simp only [hasFilename, h1]
  show Except.ok (!q.isEmpty) = _
  rw [Path.isEmpty, h2]
  congr 1
  have := winFile_eq_nil s
  rw [Bool.eq_iff_iff]
  simp only [Bool.not_eq_true', List.isEmpty_eq_false_iff, ne_eq, this, decide_eq_true_eq]
  simp

theorem win_isAbsolute : isAbsolute .windows (mkPath .windows s) = .ok (winUnc s || winHasDir s) := by
  simp only [isAbsolute, win_hasRootName, win_rootName, win_hasRootDirectory]
  by_cases hn : winRootLen s = 0
  · simp only [hn, ne_eq, not_true, decide_false, winUnc]
    rfl
  · simp only [hn, ne_eq, not_false_eq_true, decide_true, if_true]
    have hr := (isRoot_take hn).1.prefer
    have hl : winRootLen s = (winRootName s).length := (winRootName_length s).symm
    rw [winUnc, hl]
    change IsRoot (winRootName s) at hr
    generalize winRootName s = r at hr
    cases hr with
    | drive a h =>
      have : isSep .windows a = false := by rw [isSep_windows]; exact h
      show (if (isSep .windows a && isSep .windows ':') = true then _ else _) = _
      rw [this, Bool.false_and, if_neg (by simp)]
      rfl
    | unc a c w h hc hw =>
      have : isSep .windows a = true := by rw [isSep_windows]; exact h
      show (if (isSep .windows a && isSep .windows a) = true then _ else _) = _
      rw [this, Bool.true_and, if_pos rfl]
      simp
      rfl


end

theorem head?_dropWhile_sep {q : Char → Bool} {c : Char} : ∀ {s : Str}, (s.dropWhile q).head? = some c → q c = false
  | [], h => by cases h
  | d :: s, h => by
    rw [List.dropWhile_cons] at h
    split at h
    · exact head?_dropWhile_sep h
    · rename_i hq; cases h; simpa using hq

/-- Text of a path that does not start with a separator. -/
theorem win_pathname_rel {t : Str} (h : ∀ c, t.head? = some c → winSep c = false) : (mkPath .windows t).pathname = t := by
  rw [win_pathname]
  have hrest : winStoredRest t = winTail t := by
    rw [winStoredRest, if_neg]
    rintro ⟨h1, h2, h3⟩
    rw [winTail, h1, List.drop_zero] at h2
    refine h3 (head_of_names_nil h2 ?_)
    cases t with
    | nil => rfl
    | cons c t => simp [h c rfl]
  have hroot : winStoredRoot t = t.take (winRootLen t) := by
    rw [winStoredRoot]
    split
    · by_cases hn : winRootLen t = 0
      · rw [winRootName, hn]; rfl
      · have hr := (isRoot_take hn).1
        have hh : ∀ c, (t.take (winRootLen t)).head? = some c → winSep c = false := by
          intro c hc
          apply h
          cases t with
          | nil => simp at hc
          | cons x t =>
            match hm : winRootLen (x :: t) with
            | 0 => exact absurd hm hn
            | m + 1 => rw [hm] at hc; simpa using hc
        rw [winRootName]
        generalize t.take (winRootLen t) = r at hr hh
        cases hr with
        | drive a ha =>
          have : a ≠ '/' := by rintro rfl; cases ha
          simp [winPrefer, this]
        | unc a c w ha _ _ => rw [hh a rfl] at ha; cases ha
    · rfl
  rw [hrest, hroot]
  exact List.take_append_drop _ _

theorem winRelative_start (s : Str) : ∀ c, (winRelative s).head? = some c → winSep c = false :=
  fun _ hc => head?_dropWhile_sep hc

theorem winRelative_nil (s : Str) : winRelative s = [] ↔ winNames (winTail s) = [] := by
  rw [winNames_eq_nil]; rfl

/-- A sole filename. -/
theorem winComps_file {s : Str} {c : Comp} (h : winComps s = [c]) (hf : c.type = .filename) :
    winRootLen s = 0 ∧ winHasDir s = false := by
  constructor
  · have := winComps_head s
    rw [h] at this
    simp only [List.head?_cons, Option.any_some, hf] at this
    exact Classical.byContradiction fun hn => by simp [hn] at this
  · have := skip_rootName s
    rw [h] at this
    cases hd : winHasDir s with
    | false => rfl
    | true =>
      rw [hd] at this
      simp [skipType, hf] at this
      rw [this.1] at hf
      cases hf

/-- `relative_path()`. -/
theorem win_relativePath (s : Str) : ∃ q, relativePath .windows (mkPath .windows s) = .ok q ∧
    (q = mkPath .windows (winRelative s) ∨ (q = .default ∧ winRelative s = [])) := by
  by_cases hs : s = []
  · subst hs; exact ⟨_, rfl, .inl rfl⟩
  by_cases hsing : ∃ c, winComps s = [c]
  · obtain ⟨c, hc⟩ := hsing
    obtain ⟨l, h1, h2, _⟩ := winComps_last s hs
    rw [hc, List.getLast?_singleton, Option.some.injEq] at h1
    subst h1
    by_cases hf : c.type = .filename
    · obtain ⟨g1, g2⟩ := winComps_file hc hf
      have hrel : winRelative s = s := by
        rw [winHasDir, winTail, g1, List.drop_zero] at g2
        rw [winRelative, winTail, g1, List.drop_zero]
        cases s with
        | nil => exact absurd rfl hs
        | cons x s =>
          simp only [List.head?_cons, Option.any_some] at g2
          rw [List.dropWhile_cons, if_neg (by rw [g2]; simp)]
      refine ⟨mkPath .windows s, ?_, .inl (by rw [hrel])⟩
      rw [win_single hc hs, hf]; rfl
    · have hn : winNames (winTail s) = [] := by
        apply Classical.byContradiction
        intro h
        exact hf (h2.mpr h)
      have hrel : winRelative s = [] := (winRelative_nil s).mpr hn
      refine ⟨Path.default, ?_, .inr ⟨rfl, hrel⟩⟩
      rw [win_single hc hs]
      have := (winComps_single hc).2.1
      obtain ⟨n, t, p⟩ := c
      cases t with
      | multi => exact absurd rfl this
      | rootName => rfl
      | rootDir => rfl
      | filename => exact absurd rfl hf
  · rw [win_multi (fun c hc => hsing ⟨c, hc⟩) hs]
    simp only [relativePath, skip_rootDir]
    cases htk : toks .windows (winRootLen s) (winTail s) with
    | nil =>
      have hn := (toks_win_nil _ _).mp htk
      have hrel : winRelative s = [] := (winRelative_nil s).mpr hn
      have htr : winTrail s = [] := by rw [winTrail, if_neg]; simp [hn]
      rw [htr]
      exact ⟨Path.default, rfl, .inr ⟨rfl, hrel⟩⟩
    | cons c cs =>
      have hpos := toks_head _ _ c cs htk
      have hdrop : s.drop c.pos = winRelative s := by
        rw [hpos, ← List.drop_drop]
        exact drop_takeWhile_length winSep (winTail s)
      have hle : c.pos ≤ s.length := by
        have h1 := winRootLen_le s
        have h2 : ((winTail s).takeWhile winSep).length ≤ (winTail s).length := (List.takeWhile_prefix _).length_le
        rw [winTail, List.length_drop] at h2
        rw [← winTail] at h2
        omega
      refine ⟨mkPath .windows (winRelative s), ?_, .inl rfl⟩
      simp only [List.cons_append, List.head?_cons]
      show (do let s' ← substrFrom s c.pos; return mkPath .windows s') = _
      rw [substrFrom, if_pos hle, hdrop]
      rfl


/-- The text of `root_path()`. -/
def winRootPath (s : Str) : Str := winRootName s ++ (if winHasDir s then ['\\'] else [])

theorem mkPath_root {r : Str} (h : IsRoot r) : mkPath .windows r = ⟨winPrefer r, [], .rootName⟩ := by
  have hl : winRootLen r = r.length := by simpa using h.len [] (.inr (by simp))
  have hne : r ≠ [] := by rintro rfl; cases h
  have htl : winTail r = [] := by rw [winTail, hl]; simp
  have : winComps r = [⟨winPrefer r, .rootName, 0⟩] := by
    rw [winComps_eq, htl, toks_nil, winRootComps, hl, if_neg (by simpa using hne), winHasDir, htl, winTrail, htl,
      winNames_nil, winRootName, hl]
    simp
  exact win_single this hne

theorem mkPath_sep : mkPath .windows ['\\'] = ⟨['\\'], [], .rootDir⟩ := by decide

/-- `root_path()`. -/
theorem win_rootPath (s : Str) : rootPath .windows (mkPath .windows s) = mkPath .windows (winRootPath s) ∨
    (rootPath .windows (mkPath .windows s) = .default ∧ winRootPath s = []) := by
  by_cases hs : s = []
  · subst hs; exact .inr ⟨rfl, rfl⟩
  have hsk := skip_rootName s
  have hhead := winComps_head s
  by_cases hn : winRootLen s = 0
  · have hrn : winRootName s = [] := by rw [winRootName, hn]; rfl
    cases hd : winHasDir s with
    | true =>
      left
      rw [winRootPath, hd, hrn, if_pos rfl, List.nil_append, mkPath_sep]
      have hc : ∃ cs, winComps s = ⟨['\\'], .rootDir, 0⟩ :: cs := by
        rw [winComps_eq, winRootComps, if_pos hn, hd, hn]; exact ⟨_, rfl⟩
      obtain ⟨cs, hc⟩ := hc
      cases cs with
      | nil => rw [win_single hc hs]; rfl
      | cons d cs =>
        rw [win_multi (fun c h => by rw [hc] at h; simp at h) hs, rootPath, hc]
        rfl
    | false =>
      right
      refine ⟨?_, by rw [winRootPath, hd, hrn]; rfl⟩
      cases hc : winComps s with
      | nil => exact absurd hc (winComps_ne hs)
      | cons c cs =>
        have hty : c.type = .filename := by
          rw [winComps_eq, winRootComps, if_pos hn, hd] at hc
          simp only [List.nil_append, Bool.false_eq_true, if_false] at hc
          cases htk : toks .windows (winRootLen s) (winTail s) with
          | nil =>
            have : winTrail s = [] := by rw [winTrail, if_neg]; simp [(toks_win_nil _ _).mp htk]
            rw [htk, this] at hc; cases hc
          | cons x xs =>
            rw [htk] at hc
            cases hc
            exact (toks_mem _ _ c (by rw [htk]; simp)).1
        cases cs with
        | nil => rw [win_single hc hs, hty]; rfl
        | cons d cs =>
          rw [win_multi (fun c h => by rw [hc] at h; simp at h) hs, rootPath, hc]
          simp [hty]
  · left
    have hr : IsRoot (winRootName s) := (isRoot_take hn).1.prefer
    have hidem : winPrefer (winRootName s) = winRootName s := winPrefer_idem _
    cases hd : winHasDir s with
    | true =>
      rw [winRootPath, hd, if_pos rfl]
      have hc : ∃ cs, winComps s = ⟨winRootName s, .rootName, 0⟩ :: ⟨['\\'], .rootDir, winRootLen s⟩ :: cs := by
        rw [winComps_eq, winRootComps, if_neg hn, hd]; exact ⟨_, rfl⟩
      obtain ⟨cs, hc⟩ := hc
      rw [win_multi (fun c h => by rw [hc] at h; simp at h) hs, rootPath, hc]
      simp [prefSep]
    | false =>
      rw [winRootPath, hd, if_neg (by simp), List.append_nil, mkPath_root hr, hidem]
      have hc : ∃ cs, winComps s = ⟨winRootName s, .rootName, 0⟩ :: cs ∧ ∀ d, cs.head? = some d → d.type = .filename := by
        rw [winComps_eq, winRootComps, if_neg hn, hd]
        refine ⟨_, rfl, ?_⟩
        intro d hd'
        simp only [Bool.false_eq_true, if_false, List.nil_append] at hd'
        cases htk : toks .windows (winRootLen s) (winTail s) with
        | nil =>
          have : winTrail s = [] := by rw [winTrail, if_neg]; simp [(toks_win_nil _ _).mp htk]
          rw [htk, this] at hd'; cases hd'
        | cons x xs =>
          rw [htk] at hd'
          cases hd'
          exact (toks_mem _ _ _ (by rw [htk]; simp)).1
      obtain ⟨cs, hc, hcs⟩ := hc
      cases cs with
      | nil => rw [win_single hc hs]; rfl
      | cons d cs =>
        rw [win_multi (fun c h => by rw [hc] at h; simp at h) hs, rootPath, hc]
        have := hcs d rfl
        simp [this, Comp.toPath]

/-! ## Append -/

theorem win_appendRootOnly (s : Str) : appendRootOnly (mkPath .windows s) = winRootName s := by
  have h := win_rootName s
  rw [← h, appendRootOnly, rootName]
  split
  · rfl
  · split
    · split <;> rfl
    · rfl

theorem win_appendRhs (s : Str) : appendRhs (mkPath .windows s) = winStoredRest s := by
  by_cases hs : s = []
  · subst hs; rfl
  have hp := win_pathname s
  have hlen := (winStoredRoot_facts s).2.1
  by_cases hn : winRootLen s = 0
  · have h0 : winStoredRoot s = [] := by rw [← List.length_eq_zero_iff, hlen, hn]
    rw [h0, List.nil_append] at hp
    have hh := win_hasRootName s
    rw [hasRootName] at hh
    simp only [hn, ne_eq, not_true, decide_false, Bool.or_eq_false_iff] at hh
    rw [appendRhs, if_neg (by simpa using hh.1), ← hp]
    cases hc : (mkPath .windows s).comps.head? with
    | none => rfl
    | some c =>
      have := hh.2
      rw [hc] at this
      dsimp only at this ⊢
      rw [if_neg (by simpa using this)]
  · have hc : ∃ cs, winComps s = ⟨winRootName s, .rootName, 0⟩ :: cs := by
      rw [winComps_eq, winRootComps, if_neg hn]; exact ⟨_, rfl⟩
    obtain ⟨cs, hc⟩ := hc
    cases cs with
    | nil =>
      rw [win_single hc hs] at hp ⊢
      have h2 := congrArg List.length hp
      simp only [List.length_append, hlen, winRootName_length] at h2
      have : winStoredRest s = [] := by rw [← List.length_eq_zero_iff]; omega
      rw [this]; rfl
    | cons d cs =>
      have hm := win_multi (fun c h => by rw [hc] at h; simp at h) hs
      rw [hm] at hp
      rw [hm, appendRhs, hc]
      simp only [List.head?_cons, if_true]
      rw [if_neg (by simp)]
      simp only at hp
      rw [winRootName_length, ← hlen]
      have : ∀ a b : Str, s = a ++ b → s.drop a.length = b := by rintro a b rfl; simp
      exact this _ _ hp

/-- Comparison of root names. -/
theorem win_rootName_eqv (s t : Str) :
    (rootName (mkPath .windows s)).eqv (rootName (mkPath .windows t)) = decide (winRootName s = winRootName t) := by
  have key : ∀ s, (rootName (mkPath .windows s)) = .default ∧ winRootName s = [] ∨
      (rootName (mkPath .windows s)) = ⟨winRootName s, [], .rootName⟩ ∧ winRootName s ≠ [] := by
    intro s
    by_cases hs : s = []
    · subst hs; left; exact ⟨rfl, rfl⟩
    have h1 := win_rootName s
    by_cases hn : winRootLen s = 0
    · left
      have hrn : winRootName s = [] := by rw [winRootName, hn]; rfl
      refine ⟨?_, hrn⟩
      have hh := win_hasRootName s
      rw [hasRootName] at hh
      simp only [hn, ne_eq, not_true, decide_false, Bool.or_eq_false_iff] at hh
      rw [rootName, if_neg (by simpa using hh.1)]
      cases hc : (mkPath .windows s).comps.head? with
      | none => rfl
      | some c =>
        have := hh.2
        rw [hc] at this
        dsimp only at this ⊢
        rw [if_neg (by simpa using this)]
    · right
      refine ⟨?_, winRootName_ne hn⟩
      have hc : ∃ cs, winComps s = ⟨winRootName s, .rootName, 0⟩ :: cs := by
        rw [winComps_eq, winRootComps, if_neg hn]; exact ⟨_, rfl⟩
      obtain ⟨cs, hc⟩ := hc
      cases cs with
      | nil => rw [win_single hc hs]; rfl
      | cons d cs =>
        rw [win_multi (fun c h => by rw [hc] at h; simp at h) hs, rootName, hc]
        rfl
  rcases key s with ⟨h1, h2⟩ | ⟨h1, h2⟩ <;> rcases key t with ⟨h3, h4⟩ | ⟨h3, h4⟩
  · rw [h1, h2, h3, h4]; rfl
  · rw [h1, h2, h3, Bool.eq_iff_iff]
    have := (doCompare_spec [] [winRootName t] 1 (by omega)).2.1
    simp [Path.eqv, Path.compare, Path.isEmpty, Path.default, h4, compareTypes, this, Ne.symm h4]
  · rw [h1, h3, h4, Bool.eq_iff_iff]
    have := (doCompare_spec [winRootName s] [] 1 (by omega)).2.1
    simp [Path.eqv, Path.compare, Path.isEmpty, Path.default, h2, compareTypes, this]
  · rw [h1, h3, Bool.eq_iff_iff]
    have := (strCompare_spec (winRootName s) (winRootName t)).2.1
    simp [Path.eqv, Path.compare, Path.isEmpty, h2, compareTypes, this]


/-- `s / t` on texts. -/
def winAppendText (s t : Str) : Str :=
  if winHasDir t then winRootName s ++ winStoredRest t
  else winStoredRoot s ++ winStoredRest s ++
    (if winFile s ≠ [] ∨ (winHasDir s = false ∧ winUnc s = true) then ['\\'] else []) ++ winStoredRest t

theorem win_append_cases (s t : Str) : append .windows (mkPath .windows s) (mkPath .windows t) = .ok (
    if ((winUnc t || winHasDir t) ∧ winRootLen s = 0) ∨ (winRootLen t ≠ 0 ∧ winRootName t ≠ winRootName s) then mkPath .windows t
    else mkPath .windows (winAppendText s t)) := by
  rw [append, appendWith]
  simp only [win_isAbsolute, win_hasRootName, win_rootName_eqv, win_hasRootDirectory, win_appendRootOnly, win_appendRhs,
    win_hasFilename, win_pathname]
  show (if _ then _ else _) = _
  by_cases hc : ((winUnc t || winHasDir t) ∧ winRootLen s = 0) ∨ (winRootLen t ≠ 0 ∧ winRootName t ≠ winRootName s)
  · rw [if_pos, if_pos hc]; · rfl
    simpa using hc
  · rw [if_neg, if_neg hc]
    · show (if _ then _ else _) = _
      cases hd : winHasDir t with
      | true =>
        simp only [if_true, winAppendText, hd, appendFinish]
        rfl
      | false =>
        simp only [winAppendText, hd, Bool.false_eq_true, if_false]
        have hfile : (winNames (winTail s) ≠ [] ∧ winEndsSep s = false) ↔ winFile s ≠ [] := by
          rw [ne_eq, ne_eq, winFile_eq_nil]; simp
        by_cases hf : winFile s ≠ []
        · have : decide (winNames (winTail s) ≠ [] ∧ winEndsSep s = false) = true := by simp only [hfile, hf, decide_true, ne_eq, not_false_eq_true]
          rw [this, if_pos (.inl hf)]
          rfl
        · have : decide (winNames (winTail s) ≠ [] ∧ winEndsSep s = false) = false := by simp only [hfile, hf, decide_false]
          rw [this]
          cases hds : winHasDir s with
          | true =>
            rw [if_neg (by simp [hf])]
            simp only [List.append_nil]
            rfl
          | false =>
            cases hu : winUnc s with
            | true => rw [if_pos (.inr ⟨rfl, rfl⟩)]; rfl
            | false => rw [if_neg (by simp [hf])]; simp only [List.append_nil]; rfl
    · simpa using hc


theorem winRootName_nil (s : Str) : winRootName s = [] ↔ winRootLen s = 0 := by
  rw [← winRootName_length, List.length_eq_zero_iff]

theorem winEndsSep_append {a b : Str} (h : b ≠ []) : winEndsSep (a ++ b) = winEndsSep b := by
  rw [winEndsSep, winEndsSep, List.getLast?_append]
  cases hl : b.getLast? with
  | none => simp [h] at hl
  | some c => rfl

theorem winEndsSep_rest {t : Str} (h : winNames (winTail t) ≠ []) : winEndsSep (winStoredRest t) = winEndsSep t := by
  rw [(winStoredRest_facts t).2.2 h]
  have : winTail t ≠ [] := by intro h'; rw [h'] at h; exact h winNames_nil
  conv => rhs; rw [← List.take_append_drop (winRootLen t) t]
  rw [winEndsSep_append (b := t.drop (winRootLen t)) this]
  rfl

/-- Without a filename the stored text ends with a separator, or there is nothing after the root name. -/
theorem winFile_nil_rest {s : Str} (h : winFile s = []) : winStoredRest s = [] ∨ winEndsSep (winStoredRest s) = true := by
  by_cases ht : winNames (winTail s) = []
  · have hnm := (winStoredRest_facts s).1
    rw [ht] at hnm
    generalize winStoredRest s = x at hnm
    rcases last_seg .windows x with h | ⟨a, d, w, hd, hw, rfl⟩
    · rw [winNames_noSep (noSep_win.mp h)] at hnm
      split at hnm
      · exact .inl (by assumption)
      · cases hnm
    · rw [isSep_windows] at hd
      rw [winNames_append_sep hd, List.append_eq_nil_iff, winNames_noSep (noSep_win.mp hw)] at hnm
      have hw0 : w = [] := by
        apply Classical.byContradiction
        intro h
        rw [if_neg h] at hnm
        cases hnm.2
      subst hw0
      right
      simp [winEndsSep, hd]
  · right
    rw [winEndsSep_rest ht]
    rcases (winFile_eq_nil s).mp h with h | h
    · exact absurd h ht
    · exact h

theorem winNames_append_end {a : Str} (h : a = [] ∨ winEndsSep a = true) (b : Str) :
    winNames (a ++ b) = winNames a ++ winNames b := by
  rcases h with rfl | h
  · rw [winNames_nil]; rfl
  · rcases List.eq_nil_or_concat a with rfl | ⟨a, d, rfl⟩
    · cases h
    · have hd : winSep d = true := by simpa [winEndsSep] using h
      rw [List.concat_eq_append, List.append_assoc, List.singleton_append, winNames_append_sep hd, winNames_sep_end hd]

theorem winTail_of_zero {s : Str} (h : winRootLen s = 0) : winTail s = s := by rw [winTail, h]; rfl

/-- Appending to a text without root name makes none. -/
theorem winRootLen_join {s t : Str} (hs : winRootLen s = 0) (ht : winRootLen t = 0) (hd : winHasDir t = false) :
    winRootLen (winStoredRest s ++ (if winFile s ≠ [] then ['\\'] else []) ++ winStoredRest t) = 0 := by
  have hrt : winStoredRest t = t := by
    rw [winStoredRest, if_neg, winTail_of_zero ht]
    rintro ⟨_, h2, h3⟩
    rw [winHasDir] at hd
    exact h3 ((winTail_of_zero ht) ▸ head_of_names_nil h2 hd)
  rw [hrt]
  rw [winHasDir, winTail_of_zero ht] at hd
  by_cases hs0 : s = []
  · subst hs0
    exact ht
  by_cases hn : winNames (winTail s) = []
  · have h1 : winStoredRest s = ['\\'] := by rw [winStoredRest, if_pos ⟨hs, hn, hs0⟩]
    rw [h1, if_neg (by simp [winFile_nil s hn])]
    match t with
    | [] => rfl
    | [c] =>
      simp [winRootLen, winSep]
    | c :: e :: t =>
      simp only [List.head?_cons, Option.any_some] at hd
      have : c ≠ '\\' := by rintro rfl; cases hd
      simp [winRootLen, this, show winSep '\\' = true from rfl]
  · have h1 : winStoredRest s = s := by rw [(winStoredRest_facts s).2.2 hn, winTail_of_zero hs]
    rw [h1]
    rw [winTail_of_zero hs] at hn
    match s, hs0 with
    | [a], _ =>
      have ha : winSep a = false := by
        cases h : winSep a
        · rfl
        · exfalso; apply hn; rw [winNames_sep_cons h, winNames_nil]
      have hf : winFile [a] ≠ [] := by
        rw [ne_eq, winFile_eq_nil, winTail_of_zero hs]
        simp [hn, winEndsSep, ha]
      rw [if_pos hf]
      match t with
      | [] => simp [winRootLen]
      | c :: t => simp [winRootLen, ha]
    | [a, b], _ =>
      simp only [winRootLen] at hs
      have hs : ¬ (!winSep a && b == ':') = true := by
        intro h; rw [if_pos h] at hs; cases hs
      generalize (if winFile [a, b] ≠ [] then ['\\'] else []) = m
      rw [List.append_assoc]
      cases m ++ t with
      | nil => simp only [List.append_nil, winRootLen]; rw [if_neg hs]
      | cons c y =>
        simp only [List.cons_append, List.nil_append, winRootLen]
        rw [if_neg, if_neg hs]
        intro h
        simp only [Bool.and_eq_true, beq_iff_eq] at h
        obtain ⟨⟨h1, rfl⟩, _⟩ := h
        apply hn
        rw [winNames_sep_cons h1, winNames_sep_cons h1, winNames_nil]
    | a :: b :: c :: r, _ =>
      simp only [winRootLen] at hs
      by_cases h1 : (winSep a && b == a && !winSep c) = true
      · rw [if_pos h1] at hs; omega
      · by_cases h2 : (!winSep a && b == ':') = true
        · rw [if_neg h1, if_pos h2] at hs; cases hs
        · simp only [List.cons_append, winRootLen]
          rw [if_neg h1, if_neg h2]

theorem head_any_append {a b : Str} : (a ++ b).head?.any winSep = if a = [] then b.head?.any winSep else a.head?.any winSep := by
  cases a <;> simp

/-- The parts of `s / t` for a `t` without root directory. -/
theorem winAppendText_parts {s t : Str} (hd : winHasDir t = false) (ht0 : winRootLen s = 0 → winRootLen t = 0) :
    ∃ R X : Str, winAppendText s t = R ++ X ∧ winRootLen (R ++ X) = R.length ∧ winPrefer R = winRootName s ∧
      R.length = winRootLen s ∧ X.head?.any winSep = decide (winHasDir s = true ∨ winUnc s = true) ∧
      winNames X = winNames (winTail s) ++ winNames (winTail t) ∧
      ((winEndsSep X = true ∧ winNames (winTail s) ++ winNames (winTail t) ≠ []) ↔
        ((winNames (winTail t) ≠ [] ∧ winEndsSep t = true) ∨ (winNames (winTail t) = [] ∧ winNames (winTail s) ≠ []))) := by
  obtain ⟨f1, f2, f3⟩ := winStoredRest_facts s
  obtain ⟨g1, g2, g3⟩ := winStoredRest_facts t
  obtain ⟨r1, r2, r3⟩ := winStoredRoot_facts s
  have hparts : winRootLen (winStoredRoot s ++ (winStoredRest s ++
      ((if winFile s ≠ [] ∨ winHasDir s = false ∧ winUnc s = true then ['\\'] else []) ++ winStoredRest t))) =
      (winStoredRoot s).length := by
    by_cases hn : winRootLen s = 0
    · have h0 : winStoredRoot s = [] := by rw [← List.length_eq_zero_iff, r2, hn]
      have ht0 := ht0 hn
      have hu : winUnc s = false := by simp [winUnc, hn]
      have := winRootLen_join hn ht0 hd
      rw [h0, List.nil_append, hu]
      simp only [Bool.false_eq_true, and_false, or_false, List.length_nil]
      rw [← List.append_assoc]
      exact this
    · refine (r3 hn).len _ ?_
      rw [r2]
      rcases (isRoot_take hn).2 with h | h
      · exact .inl h
      · by_cases hu : winRootLen s = 2
        · exact .inl hu
        right
        intro c hc
        have hu : winUnc s = true := by
          have := winRootLen_ge hn
          simp [winUnc]; omega
        cases hds : winHasDir s with
        | true =>
          rw [hds] at f2
          cases hx : winStoredRest s with
          | nil => rw [hx] at f2; cases f2
          | cons x xs =>
            rw [hx] at hc f2
            cases hc
            exact f2
        | false =>
          have htl : winTail s = [] := by
            cases htl : winTail s with
            | nil => rfl
            | cons x xs =>
              rw [winHasDir, htl] at hds
              rw [htl] at h
              rw [List.head?_cons, Option.any_some, h x rfl] at hds
              cases hds
          have hx : winStoredRest s = [] := by rw [winStoredRest, if_neg (by simp [hn]), htl]
          rw [hx, hds, hu, if_pos (.inr ⟨rfl, rfl⟩)] at hc
          cases hc
          rfl
  have e2 : (winStoredRest s ++ ((if winFile s ≠ [] ∨ winHasDir s = false ∧ winUnc s = true then ['\\'] else []) ++
      winStoredRest t)).head?.any winSep = decide (winHasDir s = true ∨ winUnc s = true) := by
    rw [head_any_append]
    by_cases hx : winStoredRest s = []
    · rw [if_pos hx]
      rw [hx] at f2 f1
      have hds : winHasDir s = false := f2.symm
      have hnf : winFile s = [] := winFile_nil s (by rw [← f1]; exact winNames_nil)
      rw [hds, hnf]
      cases hu : winUnc s with
      | true => simp [winSep]
      | false => simp [g2, hd]
    · rw [if_neg hx, f2]
      cases hds : winHasDir s with
      | true => simp
      | false =>
        cases hu : winUnc s with
        | false => simp
        | true =>
          exfalso
          have hn : winRootLen s ≠ 0 := by intro h; simp [winUnc, h] at hu
          rcases (isRoot_take hn).2 with h | h
          · simp [winUnc, h] at hu
          · rw [winStoredRest, if_neg (by simp [hn])] at hx
            cases htl : winTail s with
            | nil => exact hx htl
            | cons x xs =>
              rw [winHasDir, htl] at hds
              rw [htl] at h
              rw [List.head?_cons, Option.any_some, h x rfl] at hds
              cases hds
  have e3 : winNames (winStoredRest s ++ ((if winFile s ≠ [] ∨ winHasDir s = false ∧ winUnc s = true then ['\\'] else []) ++
      winStoredRest t)) = winNames (winTail s) ++ winNames (winTail t) := by
    by_cases hsep : winFile s ≠ [] ∨ winHasDir s = false ∧ winUnc s = true
    · rw [if_pos hsep, List.singleton_append, winNames_append_sep (by rfl), f1, g1]
    · rw [if_neg hsep, List.nil_append, winNames_append_end, f1, g1]
      apply winFile_nil_rest
      exact Classical.byContradiction fun h => hsep (.inl h)
  have e4 : (winEndsSep (winStoredRest s ++ ((if winFile s ≠ [] ∨ winHasDir s = false ∧ winUnc s = true then ['\\'] else []) ++
      winStoredRest t)) = true ∧ winNames (winTail s) ++ winNames (winTail t) ≠ []) ↔
      ((winNames (winTail t) ≠ [] ∧ winEndsSep t = true) ∨ (winNames (winTail t) = [] ∧ winNames (winTail s) ≠ [])) := by
    by_cases hnt : winNames (winTail t) = []
    · have hx : winStoredRest t = [] := head_of_names_nil (by rw [g1]; exact hnt) (by rw [g2]; exact hd)
      rw [hx, hnt, List.append_nil, List.append_nil]
      simp only [ne_eq, not_true, false_and, true_and, false_or]
      constructor
      · exact fun h => h.2
      · intro hns
        refine ⟨?_, hns⟩
        by_cases hsep : winFile s ≠ [] ∨ winHasDir s = false ∧ winUnc s = true
        · rw [if_pos hsep, winEndsSep_append (by simp)]; rfl
        · rw [if_neg hsep, List.append_nil, winEndsSep_rest hns]
          have : winFile s = [] := Classical.byContradiction fun h => hsep (.inl h)
          rcases (winFile_eq_nil s).mp this with h | h
          · exact absurd h hns
          · exact h
    · have hx : winStoredRest t ≠ [] := by
        intro h; rw [h] at g1; exact hnt (g1.symm.trans winNames_nil)
      rw [← List.append_assoc, winEndsSep_append hx, winEndsSep_rest hnt]
      simp [hnt]
  refine ⟨_, _, ?_, hparts, r1, r2, e2, e3, e4⟩
  rw [winAppendText, hd, if_neg (by simp), List.append_assoc, List.append_assoc]

/-- Append on Windows. -/
theorem win_append (s t : Str) : ∃ u, append .windows (mkPath .windows s) (mkPath .windows t) = .ok (mkPath .windows u) ∧
    winElements u = winAppended s t := by
  refine ⟨_, (win_append_cases s t).trans (congrArg _ (apply_ite _ _ _ _).symm), ?_⟩
  have hrt := winRootName_nil t
  have hrs := winRootName_nil s
  by_cases hdiff : winRootLen t ≠ 0 ∧ winRootName t ≠ winRootName s
  · rw [if_pos (.inr hdiff), winAppended, if_pos ⟨by rw [ne_eq, hrt]; exact hdiff.1, hdiff.2⟩]
  have hdiff' : ¬ (winRootName t ≠ [] ∧ winRootName t ≠ winRootName s) := by
    rintro ⟨h1, h2⟩; exact hdiff ⟨by rw [ne_eq, ← hrt]; exact h1, h2⟩
  rw [winAppended, if_neg hdiff']
  obtain ⟨f1, f2, f3⟩ := winStoredRest_facts s
  obtain ⟨g1, g2, g3⟩ := winStoredRest_facts t
  obtain ⟨r1, r2, r3⟩ := winStoredRoot_facts s
  by_cases hroot : (winUnc t || winHasDir t) = true ∧ winRootLen s = 0
  · rw [if_pos (.inl hroot)]
    have ht0 : winRootLen t = 0 := by
      apply Classical.byContradiction
      intro h
      refine hdiff ⟨h, ?_⟩
      rw [hrs.mpr hroot.2, ne_eq, hrt]
      exact h
    have hd : winHasDir t = true := by
      have := hroot.1
      rw [winUnc, ht0] at this
      simpa using this
    rw [if_pos hd, winElements, if_pos ht0, if_pos hroot.2, if_pos hd]
  · rw [if_neg (fun h => h.elim (fun h => hroot h) (fun h => hdiff h))]
    cases hd : winHasDir t with
    | true =>
      have hn : winRootLen s ≠ 0 := fun h => hroot ⟨by simp [hd], h⟩
      have hR : IsRoot (winRootName s) := (isRoot_take hn).1.prefer
      rw [winAppendText, hd, if_pos rfl, winElements_parts, if_neg (winRootName_ne hn), g2, hd, g1, if_neg hn, if_pos rfl,
        if_pos rfl]
      · congr 1
        · rw [show winPrefer (winRootName s) = winRootName s from winPrefer_idem _]
        · by_cases hnt : winNames (winTail t) = []
          · simp [hnt]
          · rw [winEndsSep_rest hnt]
      · apply hR.len
        right
        intro c hc
        rw [hd, hc] at g2
        exact g2
    | false =>
      rw [if_neg (by simp)]
      obtain ⟨R, X, q1, q2, q3, q4, q5, q6, q7⟩ := winAppendText_parts (s := s) (t := t) hd (fun hn => by
        apply Classical.byContradiction
        intro h
        refine hdiff ⟨h, ?_⟩
        rw [hrs.mpr hn, ne_eq, hrt]
        exact h)
      rw [q1, winElements_parts q2, q3, q5, q6]
      have e1 : (if R = [] then ([] : List Str) else [winRootName s]) = if winRootLen s = 0 then [] else [winRootName s] := by
        by_cases hn : winRootLen s = 0
        · rw [if_pos hn, if_pos (by rw [← List.length_eq_zero_iff, q4, hn])]
        · rw [if_neg hn, if_neg (by rw [← List.length_eq_zero_iff, q4]; exact hn)]
      rw [e1]
      simp only [q7, List.append_assoc, decide_eq_true_eq]


theorem winElements_head_ne (s : Str) : (winElements s).head? ≠ some [] := by
  rw [winElements]
  by_cases hn : winRootLen s = 0
  · rw [if_pos hn, List.nil_append]
    cases hd : winHasDir s with
    | true => simp
    | false =>
      simp only [Bool.false_eq_true, if_false, List.nil_append]
      cases hnm : winNames (winTail s) with
      | nil => simp
      | cons x xs =>
        have := (winNames_mem (s := winTail s) (w := x) (by rw [hnm]; simp)).1
        simpa using this
  · rw [if_neg hn]
    simp [winRootName_ne hn]

/-- What `compare` looks at. -/
def compareKeys (p : Path) : List Str := if p.type = .multi then p.comps.map Comp.name else [p.pathname]

theorem compareTypes_zero (p q : Path) : compareTypes p q = 0 ↔ compareKeys p = compareKeys q := by
  obtain ⟨n, cs, t⟩ := p
  obtain ⟨n', cs', t'⟩ := q
  have h1 := fun a b => (doCompare_spec a b 1 (by omega)).2.1
  have h2 := (strCompare_spec n n').2.1
  cases t <;> cases t' <;> simp only [compareTypes, compareKeys, h1, h2] <;> simp

theorem compareKeys_names (p : Path) (h : p.pathname ≠ []) : compareKeys p = p.names := by
  obtain ⟨n, cs, t⟩ := p
  simp only at h
  cases t <;> simp [compareKeys, Path.names, Path.elems, Path.isEmpty, h, Comp.toPath]

theorem compareKeys_empty {p : Path} (h : p.pathname = []) (hn : p.names = []) : compareKeys p = [] ∨ compareKeys p = [[]] := by
  obtain ⟨n, cs, t⟩ := p
  simp only at h
  subst h
  cases t with
  | multi => left; simpa [compareKeys, Path.names, Path.elems] using hn
  | rootName => right; rfl
  | rootDir => right; rfl
  | filename => right; rfl

theorem win_eqv (s t : Str) : (mkPath .windows s).eqv (mkPath .windows t) = decide (winElements s = winElements t) := by
  have key : ∀ s, (mkPath .windows s).pathname = [] ↔ winElements s = [] := by
    intro s
    rw [← win_names]
    by_cases hs : s = []
    · subst hs; exact ⟨fun _ => rfl, fun _ => rfl⟩
    · constructor
      · intro h
        exfalso
        rw [win_pathname_eq] at h
        match hc : winComps s with
        | [] => exact winComps_ne hs hc
        | [c] => rw [hc] at h; exact (winComps_single hc).1 h
        | _ :: _ :: _ => rw [hc] at h; exact hs h
      · intro h
        exfalso
        rw [mkPath_windows, if_neg hs, trim_names (fun c hc => ⟨(winComps_single hc).1, (winComps_single hc).2.1⟩)] at h
        exact winComps_ne hs (by simpa using h)
  have ks := key s
  have kt := key t
  have hs := winElements_head_ne s
  have ht := winElements_head_ne t
  rw [← win_names] at ks hs ⊢
  rw [← win_names] at kt ht ⊢
  generalize mkPath .windows s = p at *
  generalize mkPath .windows t = q at *
  rw [Bool.eq_iff_iff]
  simp only [Path.eqv, beq_iff_eq, decide_eq_true_eq, Path.compare]
  have kp := compareKeys_names p
  have kq := compareKeys_names q
  by_cases hp : p.pathname = []
  · by_cases hq : q.pathname = []
    · rw [if_pos (by simp [Path.isEmpty, hp, hq]), ks.mp hp, kt.mp hq]; simp
    · rw [if_neg (by simp [Path.isEmpty, hq]), compareTypes_zero, kq hq, ks.mp hp]
      have hqn : q.names ≠ [] := fun h => hq (kt.mpr h)
      constructor
      · intro h
        exfalso
        rcases compareKeys_empty hp (ks.mp hp) with h' | h'
        · rw [h'] at h; exact hqn h.symm
        · rw [h'] at h; rw [← h] at ht; exact ht rfl
      · intro h; exact absurd h.symm hqn
  · rw [if_neg (by simp [Path.isEmpty, hp]), compareTypes_zero, kp hp]
    have hpn : p.names ≠ [] := fun h => hp (ks.mpr h)
    by_cases hq : q.pathname = []
    · rw [kt.mp hq]
      constructor
      · intro h
        exfalso
        rcases compareKeys_empty hq (kt.mp hq) with h' | h'
        · rw [h'] at h; exact hpn h
        · rw [h'] at h; rw [h] at hs; exact hs rfl
      · intro h; exact absurd h hpn
    · rw [kq hq]

theorem append_default_left (t : Path) : append .windows .default t = append .windows (mkPath .windows []) t := rfl

theorem append_default_right (p : Path) : append .windows p .default = append .windows p (mkPath .windows []) := rfl

end Asap
