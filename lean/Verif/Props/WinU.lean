import Verif.Path.WinRel
import Verif.Props.PathB
import Verif.Props.WinT

/-!
# Windows paths: lexical normalisation, relative paths (C94, C95)
-/

namespace Asap
open Spec

/-! ## C94 -/

/-- Spelling of a normalised Windows path: the root name, the root directory, the names with one preferred separator
between them (a final empty entry stands for a trailing separator); `.` if nothing is left. -/
def Spec.winSpell (r : Str) (abs : Bool) (l : List Str) : Str :=
  if r = [] ∧ abs = false ∧ l = [] then dot else r ++ (if abs then ['\\'] else []) ++ List.intercalate ['\\'] l

/-- The elements of a normalised Windows path. -/
def Spec.winSpelled (r : Str) (abs : Bool) (l : List Str) : List Str :=
  if r = [] ∧ abs = false ∧ l = [] then [dot]
  else (if r = [] then [] else [r]) ++ (if abs then [['\\']] else []) ++ l

/-- The rules of C94 for a text. -/
structure WinNormalFacts (s : Str) (l : List Str) : Prop where
  rws : Rws (winHasDir s) (winRel s) l
  reduced : Reduced (winHasDir s) l
  unique : ∀ l', Rws (winHasDir s) (winRel s) l' → Reduced (winHasDir s) l' → l' = l
  text : winNormalText s = winSpell (winRootName s) (winHasDir s) l
  elements : winElements (winNormalText s) = winSpelled (winRootName s) (winHasDir s) l
  plain : ∀ n ∈ winNames (winTail (winNormalText s)), PlainName n
  spelled : (winNormalText s = ['.'] ∧ winRootName s = [] ∧ winHasDir s = false ∧ l = []) ∨ (winRootName (winNormalText s) = winRootName s ∧
    winHasDir (winNormalText s) = winHasDir s ∧ winRel (winNormalText s) = l)

theorem winNormal_facts {s : Str} (hs : s ≠ []) (hp : ∀ n ∈ winNames (winTail s), PlainName n) :
    WinNormalFacts s (run (winHasDir s) (winRel s)).finish.rel := by
  have hw := winRel_wf s
  obtain ⟨_, _, hwf, _⟩ := win_normal_fold hs hp
  have hwf := winWf_finish hwf
  have hrel := hwf.winRel
  have habs : (run (winHasDir s) (winRel s)).finish.abs = winHasDir s := by rw [NSt.finish_abs, run_abs _ hw]
  have ht : winNormalText s = if winText (winRootName s) (run (winHasDir s) (winRel s)).finish = [] then ['.']
      else winText (winRootName s) (run (winHasDir s) (winRel s)).finish := by rw [winNormalText, if_neg hs]
  have hnil := winText_nil hwf
  have hrn : (run (winHasDir s) (winRel s)).finish.rel = [] ↔ (run (winHasDir s) (winRel s)).finish.ns = [] := by
    rw [NSt.rel]
    constructor
    · intro h; exact (List.append_eq_nil_iff.mp h).1
    · intro h
      have : (run (winHasDir s) (winRel s)).finish.tr = false := by
        cases h' : (run (winHasDir s) (winRel s)).finish.tr with
        | false => rfl
        | true => exact absurd h (hwf.trail h')
      simp [h, this]
  rw [habs, ← hrn] at hnil
  refine ⟨rws_run _ hw, run_reduced _ hw, ?_, ?_, ?_, ?_, ?_⟩
  · intro l' hl hr
    rw [← reduced_run (hl.wf hw) hr, ← rws_run_eq hl]
  · rw [ht, winSpell]
    by_cases h : winText (winRootName s) (run (winHasDir s) (winRel s)).finish = []
    · rw [if_pos h, if_pos (hnil.mp h)]
    · rw [if_neg h, if_neg (fun h' => h (hnil.mpr h')), winText, winRest_rel hwf.trail, habs, List.append_assoc]
  · rw [ht, winSpelled]
    by_cases h : winText (winRootName s) (run (winHasDir s) (winRel s)).finish = []
    · rw [if_pos h, if_pos (hnil.mp h)]; rfl
    · rw [if_neg h, if_neg (fun h' => h (hnil.mpr h')), winElements_rel, hwf.facts.dir, habs, hrel, hwf.facts.root,
        hwf.facts.len]
      simp only [List.length_eq_zero_iff]
  · rw [ht]
    by_cases h : winText (winRootName s) (run (winHasDir s) (winRel s)).finish = []
    · rw [if_pos h]
      intro n hn
      have : winNames (winTail ['.']) = [['.']] := by decide
      rw [this] at hn
      simp only [List.mem_singleton] at hn
      subst hn
      exact ⟨by simp, by simp [winSep], by simp⟩
    · rw [if_neg h, hwf.facts.names]
      exact hwf.plain
  · rw [ht]
    by_cases h : winText (winRootName s) (run (winHasDir s) (winRel s)).finish = []
    · exact .inl ⟨if_pos h, hnil.mp h⟩
    · rw [if_neg h]
      exact .inr ⟨hwf.facts.root, by rw [hwf.facts.dir, habs], hrel⟩

theorem winPlain {s : Str} (hp : ∀ n ∈ winNames (winTail s), ':' ∉ n) : ∀ n ∈ winNames (winTail s), PlainName n :=
  fun n hn => ⟨(winName_mem hn).1, (winName_mem hn).2, hp n hn⟩

/-- **C94**, partial: on Windows, `lexically_normal` of a text without drive-like names yields the unique result of rewriting
the elements after the root by the C++17 rules, spelled with one backslash between elements, behind the unchanged root.
Missing: names containing a colon (see `c94_violated`). -/
theorem c94_normal_partial (s : Str) (el : Bool) (hp : ∀ n ∈ winNames (winTail s), ':' ∉ n) :
    ∃ q, lexicallyNormal .windows el (mkPath .windows s) = .ok q ∧
      (s = [] → q.pathname = [] ∧ q.names = []) ∧
      (s ≠ [] → ∃ l, Rws (winHasDir s) (winRel s) l ∧ Reduced (winHasDir s) l ∧
        (∀ l', Rws (winHasDir s) (winRel s) l' → Reduced (winHasDir s) l' → l' = l) ∧
        q.pathname = winSpell (winRootName s) (winHasDir s) l ∧
        q.names = winSpelled (winRootName s) (winHasDir s) l) ∧
      (mkPath .windows q.pathname).pathname = q.pathname ∧ (mkPath .windows q.pathname).names = q.names := by
  obtain ⟨q, h1, h2, h3, h4⟩ := win_normal s el (winPlain hp)
  have hn : q.names = winElements (winNormalText s) := by
    rw [← win_names, Path.names, h3, Path.names]
  refine ⟨q, h1, ?_, ?_, by rw [h2, h4], by rw [h2, win_names, hn]⟩
  · rintro rfl
    rw [hn, h2]
    exact ⟨rfl, rfl⟩
  · intro hs
    have f := winNormal_facts hs (winPlain hp)
    exact ⟨_, f.rws, f.reduced, f.unique, by rw [h2, f.text], by rw [hn, f.elements]⟩

/-- **C94**, partial: normalising twice is normalising once. Missing: as in `c94_normal_partial`. -/
theorem c94_idempotent_partial (s : Str) (el el' : Bool) (hp : ∀ n ∈ winNames (winTail s), ':' ∉ n) :
    ∃ q r, lexicallyNormal .windows el (mkPath .windows s) = .ok q ∧ lexicallyNormal .windows el' q = .ok r ∧
      r.pathname = q.pathname ∧ r.names = q.names := by
  obtain ⟨q, h1, h2, h3, h4⟩ := win_normal s el (winPlain hp)
  have hpl : ∀ n ∈ winNames (winTail (winNormalText s)), PlainName n := by
    by_cases hs : s = []
    · subst hs; simp [winNormalText, winTail, winNames, winPieces]
    · exact (winNormal_facts hs (winPlain hp)).plain
  have hidem : winNormalText (winNormalText s) = winNormalText s := by
    by_cases hs : s = []
    · subst hs; rfl
    · have f := winNormal_facts hs (winPlain hp)
      have hs' : winNormalText s ≠ [] := by
        rw [winNormalText, if_neg hs]
        split
        · simp
        · assumption
      have f' := winNormal_facts hs' f.plain
      rcases f.spelled with ⟨h, _⟩ | ⟨e1, e2, e3⟩
      · rw [h]; decide
      · have hu := f'.unique
        rw [e2, e3] at hu
        have hu := hu _ (.refl _) f.reduced
        have ht := f'.text
        rw [e1, e2, e3, ← hu, ← f.text] at ht
        exact ht
  obtain ⟨r, r1, r2, r3, _⟩ := win_normal (winNormalText s) el' hpl
  have hsame : lexicallyNormal .windows el' q = lexicallyNormal .windows el' (mkPath .windows (winNormalText s)) := by
    have he : q.isEmpty = (mkPath .windows (winNormalText s)).isEmpty := by
      simp only [Path.isEmpty, h2, h4]
    rw [lexicallyNormal, lexicallyNormal, he, h3]
  refine ⟨q, r, h1, by rw [hsame, r1], by rw [r2, hidem, h2], ?_⟩
  rw [Path.names, r3, hidem, Path.names, h3]

/-- Drives, each with its own tree and current directory. -/
structure Spec.WinDrives where
  drive : Str → World
  cwd : ∀ r, (drive r).Node
  cwd_dir : ∀ r, (drive r).isDir (cwd r) = true

/-- What a text denotes: a node of the drive named by its root name, found from the root directory or from the current
directory of that drive. -/
def Spec.winWalk (D : WinDrives) (s : Str) : Option (Σ r, (D.drive r).Node) :=
  (walk (D.drive (winRootName s)) (if winHasDir s then (D.drive (winRootName s)).root else D.cwd (winRootName s)) (winRel s)).map
    fun n => ⟨winRootName s, n⟩

/-- **C94**, partial: without symbolic links the normal form denotes the same file. Missing: as in `c94_normal_partial`. -/
theorem c94_denotation_partial (s : Str) (el : Bool) (hp : ∀ n ∈ winNames (winTail s), ':' ∉ n) (hs : s ≠ [])
    (D : WinDrives) (n : Σ r, (D.drive r).Node) (hn : winWalk D s = some n) :
    ∃ q, lexicallyNormal .windows el (mkPath .windows s) = .ok q ∧ winWalk D q.pathname = some n := by
  obtain ⟨q, h1, h2, h3, h4⟩ := win_normal s el (winPlain hp)
  refine ⟨q, h1, ?_⟩
  have f := winNormal_facts hs (winPlain hp)
  rw [winWalk, Option.map_eq_some_iff] at hn
  obtain ⟨m, hm, rfl⟩ := hn
  have hw := rws_walk _ f.rws (by intro h; rw [if_pos h]) hm
  rw [h2]
  rcases f.spelled with ⟨ht, d1, d2, d3⟩ | ⟨e1, e2, e3⟩
  · rw [ht]
    rw [d3] at hw
    simp only [walk, Option.some.injEq] at hw
    rw [d2] at hw
    subst hw
    rw [d1]
    have e1 : winRootName ['.'] = [] := by decide
    have e2 : winHasDir ['.'] = false := by decide
    have e3 : winRel ['.'] = [dot] := by decide
    rw [winWalk, e1, e2, e3]
    simp [walk, D.cwd_dir]
  · rw [winWalk, e1, e2, e3, hw]; rfl

/-- **C94** is violated for drive-like names: `a\..\D:x` normalises to `D:x`, a file of another drive. -/
theorem c94_violated : ∃ q, lexicallyNormal .windows true (mkPath .windows "a\\..\\D:x".toList) = .ok q ∧
    q.names = ["D:".toList, "x".toList] ∧ hasRootName q = true ∧
    hasRootName (mkPath .windows "a\\..\\D:x".toList) = false := ⟨_, rfl, by decide⟩

example : ∃ q, lexicallyNormal .windows true (mkPath .windows "c:/a/.//b\\..\\..\\../c/.".toList) = .ok q ∧
    q.pathname = "c:\\c\\".toList ∧
    ∀ n ∈ winNames (winTail "c:/a/.//b\\..\\..\\../c/.".toList), ':' ∉ n := ⟨_, rfl, by decide⟩

/-- Every drive has a directory `a`, which is the current one. -/
def exampleDrives : WinDrives := ⟨fun _ => exampleWorld, fun _ => true, fun _ => rfl⟩

example : winWalk exampleDrives "c:..\\a/./../a".toList = some ⟨"c:".toList, true⟩ := rfl

/-! ## C95 -/

/-- The number of `..` needed to leave the given elements: one for each name or trailing separator, less the `..`. -/
def Spec.winUps (bs : List Str) : Int :=
  ((bs.filter fun b => b ≠ dot ∧ b ≠ dotdot).length : Int) - ((bs.filter (· = dotdot)).length : Int)

/-- **C95**, partial: what `lexically_relative` on Windows returns when the operands have different roots, when they are equal,
and what its elements are otherwise. Missing: names of the first path that contain a colon (see `c95_violated`). -/
theorem c95_relative_partial (s t : Str) (hp : ∀ n ∈ winNames (winTail s), ':' ∉ n) :
    ∃ r, lexicallyRelative .windows (mkPath .windows s) (mkPath .windows t) = .ok r ∧ (r.pathname = [] ↔ r.names = []) ∧
      (winRootName s ≠ winRootName t → r.names = []) ∧
      (winHasDir s = false → winHasDir t = true → r.names = []) ∧
      (winHasDir s = true → winHasDir t = false → winUnc s = false → r.names = []) ∧
      (winRootName s = winRootName t → winHasDir s = true → winHasDir t = false → winUnc s = true →
        r.names = ['\\'] :: winRel s) ∧
      (winElements s = winElements t → r.names = [dot]) ∧
      ∀ c as bs, winRootName s = winRootName t → winHasDir s = winHasDir t → winRel s = c ++ as → winRel t = c ++ bs →
        as.head? ≠ bs.head? →
        r.names = if winUps bs < 0 then [] else
          if List.replicate (winUps bs).toNat dotdot ++ as = [[]] then [] else List.replicate (winUps bs).toNat dotdot ++ as := by
  have hp := winPlain hp
  have hmem : ∀ w ∈ winRel s, w = [] ∨ PlainName w := by
    intro n hn
    rw [winRel, List.mem_append] at hn
    rcases hn with hn | hn
    · exact .inr (hp n hn)
    · split at hn <;> simp at hn; exact .inl hn
  -- equal elements mean equal roots
  have hee : winElements s = winElements t → winRootName s = winRootName t ∧ winHasDir s = winHasDir t ∧ winRel s = winRel t := by
    intro h
    obtain ⟨a, b, c, d⟩ := winElements_inj h
    refine ⟨a, b, ?_⟩
    rw [winRel, winRel, c]
    rw [c] at d
    congr 1
    simp only [d]
  by_cases hr : winRootName s = winRootName t
  · by_cases hd : winHasDir s = winHasDir t
    · obtain ⟨r, h1, h2, h3⟩ := win_relative hr hd hp
      have hgood : WinGood r := by
        rcases h3 with ⟨rfl, _⟩ | ⟨st, _, _, _, h⟩
        · exact winGood_default
        · rw [h]; exact winGood_mkPath _
      refine ⟨r, h1, hgood.empty, fun h => absurd hr h, ?_, ?_, ?_, ?_, ?_⟩
      · intro a b; rw [a, b] at hd; cases hd
      · intro a b; rw [a, b] at hd; cases hd
      · intro _ a b; rw [a, b] at hd; cases hd
      · intro h
        rw [h2, (hee h).2.2, strip_self]; rfl
      · intro c as bs _ _ e1 e2 hne
        have hst : strip (winRel s) (winRel t) = (as, bs) := by
          rw [e1, e2, strip_suffix]
          cases as with
          | nil => cases bs <;> rfl
          | cons a as =>
            cases bs with
            | nil => rfl
            | cons b bs => rw [strip, if_neg (by simpa using hne)]
        rw [h2, hst, winRelElems, if_neg (by rintro ⟨rfl, rfl⟩; exact hne rfl), upCount_filter]
        rfl
    · by_cases hu : winUnc s = true ∧ winHasDir s = true
      · obtain ⟨hu, hs⟩ := hu
        have ht : winHasDir t = false := by
          cases h : winHasDir t with
          | false => rfl
          | true => rw [hs, h] at hd; exact absurd rfl hd
        have hl : winRootLen s = winRootLen t := by rw [← winRootName_length, ← winRootName_length, hr]
        have hn : winRootLen s ≠ 0 := by intro h; rw [winUnc, h] at hu; cases hu
        have htl : winTail t = [] := by
          rcases (isRoot_take (s := t) (by rw [← hl]; exact hn)).2 with h | h
          · rw [winUnc, hl, h] at hu; cases hu
          · cases htl : winTail t with
            | nil => rfl
            | cons x xs =>
              rw [winHasDir, htl] at ht
              rw [htl] at h
              rw [List.head?_cons, Option.any_some, h x rfl] at ht
              cases ht
        have hrt : winRel t = [] := by
          have : winNames [] = [] := by decide
          rw [winRel, htl, this]; simp
        have hmm : mismatch (mkPath .windows s).elems (mkPath .windows t).elems =
            (⟨['\\'], [], .rootDir⟩ :: (winRel s).map fileP, []) := by
          have e : (winRootComps t).map Comp.toPath ++ ([] : List Path) = [⟨winRootName s, [], .rootName⟩] ++ [] := by
            rw [winRootComps, ht, ← hl, if_neg hn, hr]; rfl
          have e' : (winRootComps s).map Comp.toPath = [⟨winRootName s, [], .rootName⟩] ++ [⟨['\\'], [], .rootDir⟩] := by
            rw [winRootComps, hs, if_neg hn]; rfl
          have hg := winRootElems_good s
          rw [e'] at hg
          rw [win_elems_split, win_elems_split, hrt, List.map_nil, e, e', List.append_assoc,
            mismatch_common _ _ _ (fun a ha => (hg a (by simp at ha; simp [ha])).eqv_self)]
          rfl
        obtain ⟨q, st, h1, h2, h3, h4, h5, h6⟩ := WinSim.initDir.appends rfl (winRel_wf s) hmem
        have hrun : lexicallyRelative .windows (mkPath .windows s) (mkPath .windows t) = .ok q := by
          rw [win_relative_cases, if_neg (by simp [hr, hu, hs]), hmm]
          show (append .windows .default ⟨['\\'], [], .rootDir⟩ >>= fun u => ((winRel s).map fileP).foldlM (append .windows) u) = _
          have : append .windows .default ⟨['\\'], [], .rootDir⟩ = .ok (mkPath .windows ['\\']) := rfl
          rw [this]
          exact h1
        have hgood : WinGood q := by
          by_cases hl : winRel s = []
          · rw [h5 hl]; exact winGood_mkPath _
          · rw [h6 hl]; exact winGood_mkPath _
        refine ⟨q, hrun, hgood.empty, fun h => absurd hr h, ?_, ?_, ?_, fun h => absurd (hee h).2.1 hd, fun _ _ _ _ h => absurd h hd⟩
        · intro a; rw [hs] at a; cases a
        · intro _ _ a; rw [hu] at a; cases a
        · intro _ _ _ _
          by_cases hl : winRel s = []
          · rw [h5 hl, hl]; decide
          · dsimp only at h3 h4
            have hx : ¬ winRel s = [[]] := by
              intro h
              have : winNames (winTail s) ++ (if winEndsSep s ∧ winNames (winTail s) ≠ [] then [[]] else []) = [[]] := h
              cases hy : winNames (winTail s) with
              | nil => simp [hy] at this
              | cons w ws =>
                rw [hy] at this
                simp at this
                exact (hp w (by rw [hy]; simp)).1 this.1
            rw [List.nil_append, if_neg hx] at h4
            rw [h6 hl, win_names, winElements_rel, h2.wf.facts.len, h2.wf.facts.dir, h2.wf.winRel, h3, h4]
            rfl
      · refine ⟨.default, ?_, winGood_default.empty, fun h => absurd hr h, fun _ _ => rfl, fun _ _ _ => rfl, ?_, ?_, ?_⟩
        · rw [win_relative_cases, if_pos]
          right
          cases h1 : winHasDir s <;> cases h2 : winHasDir t <;> cases h3 : winUnc s <;> simp_all
        · intro _ a _ b; exact absurd ⟨b, a⟩ hu
        · intro h; exact absurd (hee h).2.1 hd
        · intro _ _ _ _ h; exact absurd h hd
  · refine ⟨.default, by rw [win_relative_cases, if_pos (.inl hr)], winGood_default.empty, fun _ => rfl, fun _ _ => rfl, fun _ _ _ => rfl,
      fun h => absurd h hr, fun h => absurd (hee h).1 hr, fun _ _ _ h => absurd h hr⟩

example : ∃ r, lexicallyRelative .windows (mkPath .windows "c:/a/d".toList) (mkPath .windows "c:\\a/b\\c".toList) = .ok r ∧
    r.pathname = "..\\..\\d".toList ∧ winRel "c:/a/d".toList = ["a".toList] ++ ["d".toList] ∧
    winRel "c:\\a/b\\c".toList = ["a".toList] ++ ["b".toList, "c".toList] := ⟨_, rfl, by decide⟩

example : ∃ r, lexicallyRelative .windows (mkPath .windows "//h/a".toList) (mkPath .windows "//h".toList) = .ok r ∧
    r.pathname = "\\a".toList := ⟨_, rfl, by decide⟩

theorem winSpelled_filter {r : Str} {abs : Bool} {st : NSt} (hp : ∀ w ∈ st.ns, w ≠ []) (ht : st.tr = true → st.ns ≠ []) :
    (winSpelled r abs st.rel).filter (· ≠ []) = winSpelled r abs st.ns := by
  have e1 : st.ns.filter (· ≠ []) = st.ns := by
    rw [List.filter_eq_self]; intro w hw; simpa using hp w hw
  have e2 : st.rel.filter (· ≠ []) = st.ns := by
    rw [NSt.rel, List.filter_append, e1]
    cases st.tr <;> simp
  have e3 : st.rel = [] ↔ st.ns = [] := by
    rw [NSt.rel]
    cases h : st.tr with
    | false => simp
    | true => simp [ht h]
  simp only [winSpelled, e3]
  split
  · rfl
  · rw [List.filter_append, List.filter_append, e2]
    congr 2
    · by_cases hr : r = [] <;> simp [hr]
    · cases abs <;> rfl

/-- **C95**, partial: appending the result to the base leads back to the path: `base / r` and `p` have normal forms with the same root
and names, and the same text unless the elements of `p` are a prefix of those of the base. Missing: as above, and bases
with a trailing separator, a `..` after the common elements, or a network name without root directory, where this is
false (`c95_violated`). -/
theorem c95_inverts_partial (s t : Str) (hp : ∀ n ∈ winNames (winTail s), ':' ∉ n) (hq : ∀ n ∈ winNames (winTail t), ':' ∉ n)
    (hs : s ≠ []) (hr : winRootName s = winRootName t) (hd : winHasDir s = winHasDir t) (hu : winUnc t = true → winHasDir t = true)
    (c as bs : List Str) (h1 : winRel s = c ++ as) (h2 : winRel t = c ++ bs) (hdd : dotdot ∉ bs) (he : [] ∉ bs) :
    ∃ r, lexicallyRelative .windows (mkPath .windows s) (mkPath .windows t) = .ok r ∧
      (r.pathname ≠ [] → ∃ a na np, append .windows (mkPath .windows t) r = .ok a ∧
        lexicallyNormal .windows true a = .ok na ∧ lexicallyNormal .windows true (mkPath .windows s) = .ok np ∧
        na.names.filter (· ≠ []) = np.names.filter (· ≠ []) ∧
        (¬ winElements s <+: winElements t → na.pathname = np.pathname ∧ na.names = np.names)) := by
  have hp := winPlain hp
  have hq := winPlain hq
  obtain ⟨r, r1, r2, r3⟩ := win_relative hr hd hp
  refine ⟨r, r1, fun hne => ?_⟩
  rcases r3 with ⟨rfl, _⟩ | ⟨st, w1, w2, w3, w4⟩
  · exact absurd rfl hne
  obtain ⟨c', e1, e2⟩ := strip_spec (winRel s) (winRel t)
  have hsub : ∀ w ∈ (strip (winRel s) (winRel t)).2, w ∈ bs := by
    rw [h1, h2, strip_suffix]
    obtain ⟨d, _, e4⟩ := strip_spec as bs
    intro w hw
    rw [e4]; simp [hw]
  have hpre : (strip (winRel s) (winRel t)).1 = [] → winElements s <+: winElements t := by
    intro h
    rw [h, List.append_nil] at e1
    have hl : winRootLen s = winRootLen t := by rw [← winRootName_length, ← winRootName_length, hr]
    rw [winElements_rel, winElements_rel, hr, hd, hl, e2, ← e1, ← List.append_assoc]
    exact List.prefix_append _ _
  have hwa := relWf_suffix (winRel_wf s) e1
  have hmem : ∀ w ∈ (strip (winRel s) (winRel t)).1, w = [] ∨ IsName w := fun w hw => hwa.mem hw
  generalize strip (winRel s) (winRel t) = ab at *
  obtain ⟨as', bs'⟩ := ab
  simp only at *
  have hdd' : dotdot ∉ bs' := fun h => hdd (hsub _ h)
  have he' : [] ∉ bs' := fun h => he (hsub _ h)
  -- the appended text
  have hfacts := w1.wf.facts
  have hnn : winNames (winTail (winText [] st)) ≠ [] := by
    rw [hfacts.names]
    intro h
    have : winText [] st = [] := (winText_nil w1.wf).mpr ⟨rfl, w2, h⟩
    rw [w4, this] at hne
    exact hne rfl
  obtain ⟨v, v1, v2, v3, v4, v5, v6⟩ := win_append_rel (t := t) hfacts.len (by rw [hfacts.dir, w2]) hnn
  have hvp : ∀ n ∈ winNames (winTail v), PlainName n := by
    intro n hn
    rw [v5, hfacts.names] at hn
    rcases List.mem_append.mp hn with h | h
    · exact hq n h
    · exact w1.wf.plain n h
  have hvd : winHasDir v = winHasDir s := by
    rw [v4, hd]
    cases h : winUnc t with
    | false => simp
    | true => rw [hu h]; rfl
  rw [w1.wf.winRel, w3, r2] at v6
  obtain ⟨na, n1, n2, n3, _⟩ := win_normal v true hvp
  obtain ⟨np, m1, m2, m3, _⟩ := win_normal s true hp
  have f := winNormal_facts v2 hvp
  have g := winNormal_facts hs hp
  have hna : na.names = winElements (winNormalText v) := by rw [← win_names, Path.names, n3, Path.names]
  have hnp : np.names = winElements (winNormalText s) := by rw [← win_names, Path.names, m3, Path.names]
  -- the two machine runs
  have hrun : (run (winHasDir s) (winRel v)).ns = (run (winHasDir s) (winRel s)).ns ∧
      (as' ≠ [] → run (winHasDir s) (winRel v) = run (winHasDir s) (winRel s)) := by
    rw [v6]
    by_cases h0 : as' = [] ∧ bs' = []
    · obtain ⟨rfl, rfl⟩ := h0
      refine ⟨?_, fun h => absurd rfl h⟩
      have hst : winRel s = winRel t := by rw [e1, e2]
      rw [winRelElems, if_pos ⟨rfl, rfl⟩, hst]
      unfold run
      rw [List.foldl_append]
      simp only [List.foldl_cons, List.foldl_nil, step_dot]
      conv => rhs; rw [winRel, List.foldl_append]
      split <;> simp [step_empty]
    · have hup := upCount_plain bs' hdd'
      obtain ⟨k1, k2, k3⟩ := rel_run (winHasDir s) (winRel_wf s) (winRel_wf t) e1 e2 hdd' he' h0
      have hnt : winNames (winTail t) = c' ++ bs' := by
        rw [← e2, winRel]
        split
        · rename_i htr
          exfalso
          exact k1 [] (by rw [← e2, winRel, if_pos htr]; simp) rfl
        · simp
      have hel : winRelElems as' bs' = List.replicate (bs'.filter (· ≠ dot)).length dotdot ++ as' := by
        have hel : r.names ≠ [] := by
          rw [← w3, NSt.rel]
          rw [hfacts.names] at hnn
          simp [hnn]
        rw [r2] at hel
        rw [winRelElems, if_neg h0, if_neg (by omega), hup] at hel ⊢
        simp only [Int.toNat_natCast] at hel ⊢
        rw [if_neg]
        intro h
        rw [if_pos h] at hel
        exact hel rfl
      rw [hel, hnt]
      exact ⟨k2, k3⟩
  have fin : ∀ st : NSt, st.finish.ns = st.ns := by intro st; unfold NSt.finish; split <;> rfl
  refine ⟨mkPath .windows v, na, np, by rw [w4]; exact v1, n1, m1, ?_, ?_⟩
  · have hwv := run_wf (winHasDir v) (winRel_wf v)
    have hws := run_wf (winHasDir s) (winRel_wf s)
    rw [hna, hnp, f.elements, g.elements, winSpelled_filter, winSpelled_filter, v3, hvd, hr, fin, fin, hrun.1]
    · exact fun w hw => (hws.finish.names w hw).1
    · exact hws.finish.trail
    · exact fun w hw => (hwv.finish.names w hw).1
    · exact hwv.finish.trail
  · intro hx
    have := hrun.2 (fun h => hx (hpre h))
    rw [n2, m2, hna, hnp, f.elements, g.elements, f.text, g.text, v3, hvd, hr, this]
    exact ⟨rfl, rfl⟩

/-- **C95** is violated for bases that end with a separator or that leave a network name without root directory, and for
drive-like names, which end up on another drive. -/
theorem c95_violated :
    (∃ r a na, lexicallyRelative .windows (mkPath .windows "c:\\a\\b".toList) (mkPath .windows "c:\\a\\".toList) = .ok r ∧
      r.pathname = "..\\b".toList ∧ append .windows (mkPath .windows "c:\\a\\".toList) r = .ok a ∧
      lexicallyNormal .windows true a = .ok na ∧ na.pathname = "c:\\b".toList) ∧
    (∃ r a na, lexicallyRelative .windows (mkPath .windows "//h".toList) (mkPath .windows "//h".toList) = .ok r ∧
      append .windows (mkPath .windows "//h".toList) r = .ok a ∧
      lexicallyNormal .windows true a = .ok na ∧ na.pathname = "\\\\h\\".toList) ∧
    (∃ r, lexicallyRelative .windows (mkPath .windows "a\\D:x".toList) (mkPath .windows "a".toList) = .ok r ∧
      hasRootName r = true ∧ ∃ a, append .windows (mkPath .windows "a".toList) r = .ok a ∧ a.pathname = "D:x".toList) := by
  refine ⟨⟨_, _, _, rfl, by decide, rfl, rfl, by decide⟩, ⟨_, _, _, rfl, rfl, rfl, by decide⟩, ⟨_, rfl, by decide, _, rfl, by decide⟩⟩

/-- **C95**: `lexically_proximate` is the relative path if there is one and otherwise the path itself. -/
theorem c95_proximate_partial (s t : Str) (hp : ∀ n ∈ winNames (winTail s), ':' ∉ n) :
    ∃ r q, lexicallyRelative .windows (mkPath .windows s) (mkPath .windows t) = .ok r ∧
      lexicallyProximate .windows (mkPath .windows s) (mkPath .windows t) = .ok q ∧
      q = (if r.names = [] then mkPath .windows s else r) ∧ (q.names = [] → s = []) := by
  obtain ⟨r, h1, hgood, _⟩ := c95_relative_partial s t hp
  refine ⟨r, if r.names = [] then mkPath .windows s else r, h1, ?_, rfl, ?_⟩
  · simp only [lexicallyProximate, h1, bind, Except.bind, pure, Except.pure, hgood]
    split <;> rfl
  · split
    · intro h
      apply Classical.byContradiction
      intro hs
      rw [Path.names, win_elems hs, List.map_map] at h
      exact winComps_ne hs (List.map_eq_nil_iff.mp h)
    · rename_i h; intro h'; exact absurd h' h

end Asap
