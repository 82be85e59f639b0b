import Verif.Path.WinExt
import Verif.Path.Quoted
import Verif.Props.WinC

/-!
# Windows path values: order, hash, re-parsing, spelling, filename, extension (C89–C93)
-/

namespace Asap
open Spec

/-- The path objects a program gets on Windows: built from a text (the members that return a path parse its text, except
`parent_path` if the copy of the result is elided), elements seen while iterating, and either of them after `make_preferred`. -/
inductive Spec.WinValue : Path → Prop where
  | dflt : WinValue .default
  | parsed (s : Str) : WinValue (mkPath .windows s)
  | element {p e : Path} : WinValue p → e ∈ p.elems → WinValue e
  | preferred {p : Path} : WinValue p → WinValue (makePreferred .windows p)

theorem Spec.WinValue.good {p : Path} (h : WinValue p) : WinGood p := by
  induction h with
  | dflt => exact winGood_default
  | parsed s => exact winGood_mkPath s
  | element _ he ih => exact ih.element he
  | preferred _ ih => exact ih.preferred

/-! ## C89 -/

/-- **C89**: `compare` on Windows is the lexicographic order of the elements. -/
theorem c89_compare {p q : Path} (hp : WinValue p) (hq : WinValue q) :
    (p.compare q < 0 ↔ lexLt textLt p.names q.names) ∧ (p.compare q = 0 ↔ p.names = q.names) ∧
    (0 < p.compare q ↔ lexLt textLt q.names p.names) := hp.good.compare hq.good

/-- **C89**: of parsed texts, in terms of the grammar. -/
theorem c89_texts (s t : Str) :
    ((mkPath .windows s).lt (mkPath .windows t) = true ↔ lexLt textLt (winElements s) (winElements t)) ∧
    ((mkPath .windows s).eqv (mkPath .windows t) = true ↔ winElements s = winElements t) := by
  have := c89_compare (.parsed s) (.parsed t)
  rw [win_names, win_names] at this
  refine ⟨?_, ?_⟩
  · rw [Path.lt, decide_eq_true_eq]; exact this.1
  · rw [Path.eqv, beq_iff_eq]; exact this.2.1

/-- **C89**: the comparison operators form a total order consistent with `==`. -/
theorem c89_total_order {p q r : Path} (hp : WinValue p) (hq : WinValue q) (hr : WinValue r) :
    p.eqv p = true ∧ p.eqv q = q.eqv p ∧ (p.eqv q = true → q.eqv r = true → p.eqv r = true) ∧
    (p.eqv q = true ↔ p.names = q.names) ∧
    p.lt p = false ∧ (p.lt q = true → q.lt r = true → p.lt r = true) ∧
    (p.lt q = true → q.lt p = false) ∧
    (p.lt q = true ∨ p.eqv q = true ∨ q.lt p = true) ∧
    (p.le q = (p.lt q || p.eqv q)) ∧ (p.gt q = q.lt p) ∧ (p.ge q = q.le p) ∧
    (p.le q = true → q.le p = true → p.eqv q = true) ∧
    (p.le q = true → q.le r = true → p.le r = true) ∧ (p.le q = true ∨ q.le p = true) ∧
    (p.eqv q = true → p.lt r = q.lt r ∧ r.lt p = r.lt q) := by
  have st := seqLt_strictTotal
  have e : ∀ {a b : Path}, WinValue a → WinValue b → (a.eqv b = true ↔ a.names = b.names) := by
    intro a b ha hb; rw [Path.eqv, beq_iff_eq]; exact (c89_compare ha hb).2.1
  have l : ∀ {a b : Path}, WinValue a → WinValue b → (a.lt b = true ↔ seqLt a.names b.names) := by
    intro a b ha hb; rw [Path.lt, decide_eq_true_eq]; exact (c89_compare ha hb).1
  have lf : ∀ {a b : Path}, WinValue a → WinValue b → (a.lt b = false ↔ ¬ seqLt a.names b.names) := by
    intro a b ha hb; rw [← l ha hb]; simp
  have tri := fun a b => st.tri a b
  have hle : ∀ {a b : Path}, WinValue a → WinValue b → (a.le b = true ↔ ¬ seqLt b.names a.names) := by
    intro a b ha hb; simp only [Path.le, Bool.not_eq_true']; exact lf hb ha
  refine ⟨(e hp hp).mpr rfl, ?_, ?_, e hp hq, ?_, ?_, ?_, ?_, ?_, rfl, rfl, ?_, ?_, ?_, ?_⟩
  · rw [Bool.eq_iff_iff, e hp hq, e hq hp]; exact eq_comm
  · rw [e hp hq, e hq hr, e hp hr]; exact Eq.trans
  · rw [lf hp hp]; exact st.irrefl _
  · rw [l hp hq, l hq hr, l hp hr]; exact st.trans _ _ _
  · rw [l hp hq, lf hq hp]; exact st.asymm
  · rw [l hp hq, e hp hq, l hq hp]; exact tri _ _
  · rw [Bool.eq_iff_iff, hle hp hq, Bool.or_eq_true, l hp hq, e hp hq]
    constructor
    · intro h
      rcases tri p.names q.names with h1 | h1 | h1
      · exact Or.inl h1
      · exact Or.inr h1
      · exact absurd h1 h
    · rintro (h | h)
      · exact st.asymm h
      · rw [h]; exact st.irrefl _
  · rw [hle hp hq, hle hq hp, e hp hq]
    intro h1 h2
    rcases tri p.names q.names with h | h | h
    · exact absurd h h2
    · exact h
    · exact absurd h h1
  · rw [hle hp hq, hle hq hr, hle hp hr]
    intro h1 h2 h3
    rcases tri p.names q.names with h | h | h
    · exact h2 (st.trans _ _ _ h3 h)
    · rw [h] at h3; exact h2 h3
    · exact h1 h
  · rw [hle hp hq, hle hq hp]
    by_cases h : seqLt q.names p.names
    · exact Or.inr (st.asymm h)
    · exact Or.inl h
  · rw [e hp hq]
    intro h
    constructor
    · rw [Bool.eq_iff_iff, l hp hr, l hq hr, h]
    · rw [Bool.eq_iff_iff, l hr hp, l hr hq, h]

/-- **C89**: equal paths hash equally, whatever the hash function on texts. -/
theorem c89_hash {p q : Path} (hp : WinValue p) (hq : WinValue q) (h : Str → UInt64) (heq : p.eqv q = true) :
    hashValue h p = hashValue h q := by
  rw [Path.eqv, beq_iff_eq, (c89_compare hp hq).2.1] at heq
  rw [hashValue, hashValue, heq]

example : (mkPath .windows "c:\\a/b".toList).eqv (mkPath .windows "c:/a//b".toList) = true ∧
    (mkPath .windows "c:\\a".toList).lt (mkPath .windows "c:\\b".toList) = true ∧
    (mkPath .windows "//h".toList).eqv (mkPath .windows "\\\\h".toList) = true ∧
    (mkPath .windows "c:a".toList).eqv (mkPath .windows "c:\\a".toList) = false := by decide

/-! ## C90 -/

/-- **C90**, partial: parsing the stored text again, copying by moving, and move assignment give the same object; the elements
survive being moved if none of the names looks like a drive. Missing: such names, see `c90_violated`. -/
theorem c90_reparse_partial (s : Str) :
    mkPath .windows (mkPath .windows s).pathname = mkPath .windows s ∧
    (mkPath .windows s).moved .windows = mkPath .windows s ∧
    (∀ q : Path, (q.moveAssign .windows (mkPath .windows s)).1 = mkPath .windows s ∧
      (q.moveAssign .windows (mkPath .windows s)).2.pathname = [] ∧
      (q.moveAssign .windows (mkPath .windows s)).2.names = []) ∧
    ((∀ n ∈ winNames (winTail s), n[1]? ≠ some ':') → ∀ e ∈ (mkPath .windows s).elems, e.moved .windows = e) := by
  refine ⟨win_reparse s, win_reparse s, fun q => ⟨rfl, rfl, rfl⟩, fun h => win_reparse_elem (fun n hn => ?_)⟩
  have h1 := h n hn
  have h2 := winName_mem hn
  match n with
  | [] => rfl
  | [_] => rfl
  | [a, b] => simp at h1; simp [winRootLen, h1]
  | a :: b :: c :: n =>
    have ha := h2.2 a (by simp)
    simp at h1
    simp [winRootLen, h1, ha]

/-- **C90** is violated: moving the element `D:x` of `a\D:x\b` — which `std::vector` does when it grows — makes it a
path of two elements. -/
theorem c90_violated : ∃ e ∈ (mkPath .windows "a\\D:x\\b".toList).elems, e.type = .filename ∧
    e.names = ["D:x".toList] ∧ (e.moved .windows).type = .multi ∧
    (e.moved .windows).names = ["D:".toList, "x".toList] := by
  refine ⟨⟨"D:x".toList, [], .filename⟩, by decide, rfl, by decide, by decide, by decide⟩

example : ∀ n ∈ winNames (winTail "C:\\dir/file.txt".toList), n[1]? ≠ some ':' := by decide

/-! ## C91 -/

/-- **C91**: the generic string on Windows is a faithful spelling with slashes only: it parses to the same elements, has no
backslash, no two slashes in a row except at the start of a network name, and is the same exactly for equal paths. -/
theorem c91_generic (s : Str) :
    (mkPath .windows (genericString (mkPath .windows s))).names = (mkPath .windows s).names ∧
    (mkPath .windows (genericString (mkPath .windows s))).eqv (mkPath .windows s) = true ∧
    '\\' ∉ genericString (mkPath .windows s) ∧
    ¬ ['/', '/'] <:+: (genericString (mkPath .windows s)).tail ∧
    (['/', '/'] <+: genericString (mkPath .windows s) ↔ winUnc s = true) ∧
    ∀ t, (mkPath .windows s).eqv (mkPath .windows t) = true ↔
      genericString (mkPath .windows s) = genericString (mkPath .windows t) := by
  simp only [win_genericString, win_names]
  refine ⟨winElements_generic s, ?_, winGeneric_slashes s |>.1, (winGeneric_slashes s).2.1, (winGeneric_slashes s).2.2, fun t => ?_⟩
  · rw [(c89_texts _ _).2, winElements_generic]
  · rw [(c89_texts _ _).2, winGeneric_eq]

/-- **C91**: what `<<` writes, `>>` reads back as the same object, leaving exactly what followed. -/
theorem c91_stream (s : Str) (old : Path) (ws rest : Str) (hws : ∀ c ∈ ws, c = ' ' ∨ c = '\n' ∨ c = '\t') :
    streamIn .windows old (ws ++ streamOut (mkPath .windows s) ++ rest) = (mkPath .windows s, true, rest) := by
  rw [stream_roundtrip .windows (mkPath .windows s) old ws rest
    (fun c hc => by rcases hws c hc with rfl | rfl | rfl <;> decide), win_reparse]

example : genericString (mkPath .windows "\\\\host\\a\\\\b\\".toList) = "//host/a/b/".toList ∧
    genericString (mkPath .windows "C:x\\y".toList) = "C:x/y".toList ∧
    streamOut (mkPath .windows "C:\\a b".toList) = "\"C:\\\\a b\"".toList := by decide

/-! ## C92 -/

/-- `parent_path()`, elided or not. -/
theorem win_parent_cases {s : Str} (el : Bool) (hn : winNames (winTail s) ≠ []) :
    (∃ t, parentPath .windows el (mkPath .windows s) =
      .ok (returned .windows el ⟨t, winRootComps s ++ (toks .windows (winRootLen s) (winTail s)).dropLast, .multi⟩)) ∨
    (parentPath .windows el (mkPath .windows s) = .ok .default ∧ winRootLen s = 0 ∧ winHasDir s = false ∧
      (winNames (winTail s)).dropLast = []) := by
  have hs : s ≠ [] := by rintro rfl; exact hn rfl
  by_cases hsing : ∃ c, winComps s = [c]
  · right
    obtain ⟨c, hc⟩ := hsing
    obtain ⟨l, h1, h2, _⟩ := winComps_last s hs
    rw [hc, List.getLast?_singleton, Option.some.injEq] at h1
    subst h1
    have hf := h2.mpr hn
    refine ⟨?_, (winComps_file hc hf).1, (winComps_file hc hf).2, ?_⟩
    · rw [parentPath, win_hasRelative]
      show (if _ then _ else _) = _
      rw [if_neg (by simp [hn]), win_single hc hs]
      show (if _ then _ else _) = _
      rw [if_neg (by rw [hf]; simp)]
      rfl
    · have h3 := congrArg List.length hc
      rw [winComps_eq] at h3
      have h4 : (toks .windows (winRootLen s) (winTail s)).length = (winNames (winTail s)).length := by
        rw [← toks_winNames _ (winRootLen s), List.length_map]
      have h5 : (winNames (winTail s)).length ≠ 0 := by simpa using hn
      simp only [List.length_append, h4, List.length_singleton] at h3
      apply List.eq_nil_of_length_eq_zero
      rw [List.length_dropLast]
      omega
  · left
    refine ⟨rejoin .windows (winRootComps s ++ (toks .windows (winRootLen s) (winTail s)).dropLast) [], ?_⟩
    rw [parentPath, win_hasRelative]
    show (if _ then _ else _) = _
    rw [if_neg (by simp [hn]), win_multi (fun c hc => hsing ⟨c, hc⟩) hs]
    show (if _ then _ else _) = _
    rw [if_pos rfl, win_parentComps hn]
    rfl

/-- **C92**, partial: `parent_path()` on Windows drops exactly the last name (and a trailing empty one), if the names have no colon
or the returned object is not moved; without a name it is the path itself; and appending the filename gives the path back.
Missing: names with a colon, see `c92_violated`. -/
theorem c92_parent_partial (s : Str) (el : Bool) :
    ∃ q, parentPath .windows el (mkPath .windows s) = .ok q ∧
      (winNames (winTail s) = [] → q = mkPath .windows s) ∧
      (winNames (winTail s) ≠ [] → (el = true ∨ ∀ n ∈ winNames (winTail s), ':' ∉ n) →
        q.names = winOne (winRootName s) ++ winOne (if winHasDir s then ['\\'] else []) ++ (winNames (winTail s)).dropLast) ∧
      (winNames (winTail s) ≠ [] → winEndsSep s = false → el = false → (∀ n ∈ winNames (winTail s), ':' ∉ n) →
        ∃ f r, filename .windows (mkPath .windows s) = .ok f ∧ append .windows q f = .ok r ∧
          r.names = (mkPath .windows s).names ∧ r.eqv (mkPath .windows s) = true) := by
  by_cases hn : winNames (winTail s) = []
  · exact ⟨_, win_parent_root el hn, fun _ => rfl, fun h => absurd hn h, fun h => absurd hn h⟩
  have hroot : (if winRootLen s = 0 then [] else [winRootName s]) = winOne (winRootName s) := by
    rw [winOne]
    by_cases hz : winRootLen s = 0
    · rw [if_pos hz, if_pos ((winRootName_nil s).mpr hz)]
    · rw [if_neg hz, if_neg (fun h => hz ((winRootName_nil s).mp h))]
  have hdir : (if winHasDir s then [['\\']] else []) = winOne (if winHasDir s then ['\\'] else []) := by
    cases winHasDir s <;> rfl
  cases el with
  | true =>
    rcases win_parent_cases true hn with ⟨t, h⟩ | ⟨h, h1, h2, h3⟩
    · refine ⟨_, h, fun h => absurd h hn, fun _ _ => ?_, fun _ _ h => by cases h⟩
      rw [returned, if_pos rfl]
      simp only [Path.names, Path.elems, List.map_map]
      have : (Path.pathname ∘ Comp.toPath) = Comp.name := rfl
      rw [this, List.map_append, List.map_dropLast, toks_winNames, ← hroot, ← hdir, winRootComps, List.map_append]
      congr 2
      · split <;> rfl
      · split <;> rfl
    · refine ⟨_, h, fun h => absurd h hn, fun _ _ => ?_, fun _ _ h => by cases h⟩
      rw [h3, h2, (winRootName_nil s).mpr h1]; rfl
  | false =>
    have hex : ∃ q, parentPath .windows false (mkPath .windows s) = .ok q := by
      rcases win_parent_cases false hn with ⟨t, h⟩ | ⟨h, _⟩ <;> exact ⟨_, h⟩
    by_cases hcol : ∀ n ∈ winNames (winTail s), ':' ∉ n
    · have hp : ∀ n ∈ winNames (winTail s), PlainName n := fun n h => ⟨(winName_mem h).1, (winName_mem h).2, hcol n h⟩
      obtain ⟨v, h1, h2, h3, h4, h5⟩ := win_parent_any hn hp
      have hv : ∃ q, parentPath .windows false (mkPath .windows s) = .ok q ∧ (q = mkPath .windows v ∨ (q = .default ∧ v = [])) := by
        rcases h1 with h1 | ⟨h1, h1'⟩
        · exact ⟨_, h1, .inl rfl⟩
        · exact ⟨_, h1, .inr ⟨rfl, h1'⟩⟩
      obtain ⟨q, hq, hqv⟩ := hv
      have hqn : q.names = winElements v := by
        rcases hqv with rfl | ⟨rfl, rfl⟩
        · exact win_names v
        · rfl
      have hvz : winRootLen v = winRootLen s := by rw [← winRootName_length, ← winRootName_length, h2]
      have hvn : winElements v = winOne (winRootName s) ++ winOne (if winHasDir s then ['\\'] else []) ++ (winNames (winTail s)).dropLast := by
        have ht : ¬ (winEndsSep v = true ∧ winNames (winTail v) ≠ []) := fun h => h.2 (h5 h.1)
        rw [winElements, if_neg ht, List.append_nil, h2, h3, h4, ← hroot, ← hdir, hvz]
      refine ⟨q, hq, fun h => absurd h hn, fun _ _ => by rw [hqn, hvn], fun _ he _ _ => ?_⟩
      obtain ⟨b, g1, g2, g3, g4, g5, g6, g7, g8, g9, g10, g11⟩ := win_dir_file hn he
      have hlast : winNames (winTail s) = (winNames (winTail s)).dropLast ++ [winFile s] := by
        conv => lhs; rw [g6]
        rw [g6, List.dropLast_concat]
      have hpl : PlainName (winFile s) := hp _ (by rw [hlast]; simp)
      obtain ⟨f, hf1, hf2⟩ := win_filename s
      have hff : f = mkPath .windows (winFile s) := by
        have hs : s ≠ [] := by rintro rfl; exact hn rfl
        rw [mkPath_winName ⟨hpl.1, hpl.2.1⟩ hpl.rootLen]
        obtain ⟨init, hc, _⟩ := winComps_dir_file (s := s) g4
        by_cases hsing : ∃ c, winComps s = [c]
        · obtain ⟨c, hc'⟩ := hsing
          have hcc : c = ⟨winFile s, .filename, (winDirText s).length⟩ := by
            rw [hc'] at hc
            have := congrArg List.getLast? hc
            simpa using this
          rw [win_single hc' hs, hcc] at hf1
          rw [filename] at hf1
          simp only [List.getLast?_eq_some_getLast g4] at hf1
          exact (Except.ok.inj hf1).symm
        · rw [win_multi (fun c hc => hsing ⟨c, hc⟩) hs, filename] at hf1
          simp only [List.getLast?_eq_some_getLast hs, hc, List.getLast?_append, List.getLast?_singleton, Option.some_or] at hf1
          split at hf1
          · rw [← Except.ok.inj hf1] at hf2; exact absurd hf2.symm g4
          · exact (Except.ok.inj hf1).symm
      subst hff
      obtain ⟨a1, a2, a3, a4, a5, a6⟩ := win_append_plain v hpl
      have happ : append .windows q (mkPath .windows (winFile s)) = .ok (mkPath .windows (winAppendText v (winFile s))) := by
        rcases hqv with rfl | ⟨rfl, rfl⟩
        · exact a1
        · rw [append_default_left]; exact a1
      have hnames : winElements (winAppendText v (winFile s)) = winElements s := by
        rw [winElements, winElements, a2, a3, a4, a5, a6, h4, ← hlast, h2, h3, he, hvz]
        have hd : decide (winHasDir s = true ∨ winUnc v = true) = winHasDir s := by
          cases hd : winHasDir s with
          | true => simp
          | false =>
            have : winUnc v = false := by
              rw [winUnc, hvz, decide_eq_false_iff_not]
              intro hlt
              rcases (isRoot_take (s := s) (by omega)).2 with h | h
              · omega
              · cases hx : winTail s with
                | nil => rw [hx] at hn; exact hn rfl
                | cons c x =>
                  have := h c (by rw [hx]; rfl)
                  rw [winHasDir, hx] at hd
                  simp [this] at hd
            simp [this]
        rw [hd]
      refine ⟨_, _, hf1, happ, by rw [win_names, win_names, hnames], by rw [(c89_texts _ _).2, hnames]⟩
    · obtain ⟨q, hq⟩ := hex
      refine ⟨q, hq, fun h => absurd h hn, fun _ h => ?_, fun _ _ _ h => absurd h hcol⟩
      rcases h with h | h
      · cases h
      · exact absurd h hcol

/-- **C92** is violated: `parent_path` puts no separator after a name ending with a colon, so two names become one. -/
theorem c92_violated : ∃ q, parentPath .windows false (mkPath .windows "x\\y:\\z\\w".toList) = .ok q ∧
    (mkPath .windows "x\\y:\\z\\w".toList).names = ["x".toList, "y:".toList, "z".toList, "w".toList] ∧
    q.names = ["x".toList, "y:z".toList] := ⟨_, rfl, by decide, by decide⟩

/-- **C92**: `remove_filename` on Windows leaves the text before the filename, nothing to remove, and `replace_filename` with a
relative path without root puts its names there. -/
theorem c92_remove (s : Str) :
    ∃ q, removeFilename .windows (mkPath .windows s) = .ok q ∧
      q = mkPath .windows (winDirText s) ∧ winDirText s ++ winFile s = s ∧
      hasFilename .windows q = .ok false ∧ removeFilename .windows q = .ok q ∧
      q.names = winOne (winRootName s) ++ winOne (if winHasDir s then ['\\'] else []) ++
        (if winFile s = [] then winNames (winTail s) else (winNames (winTail s)).dropLast) ++
        (if (if winFile s = [] then winNames (winTail s) else (winNames (winTail s)).dropLast) = [] then [] else [[]]) ∧
      ∀ t, winRootLen t = 0 → winHasDir t = false → winNames t ≠ [] →
        ∃ r, replaceFilename .windows (mkPath .windows s) (mkPath .windows t) = .ok r ∧
          r.names = winOne (winRootName s) ++ winOne (if winHasDir s ∨ winUnc s then ['\\'] else []) ++
            (if winFile s = [] then winNames (winTail s) else (winNames (winTail s)).dropLast) ++ winNames t ++
            (if winEndsSep t then [[]] else []) := by
  have hroot : ∀ u, (if winRootLen u = 0 then [] else [winRootName u]) = winOne (winRootName u) := by
    intro u
    rw [winOne]
    by_cases hz : winRootLen u = 0
    · rw [if_pos hz, if_pos ((winRootName_nil u).mpr hz)]
    · rw [if_neg hz, if_neg (fun h => hz ((winRootName_nil u).mp h))]
  have hdir : ∀ b : Bool, (if b then [['\\']] else []) = winOne (if b then ['\\'] else []) := by
    intro b; cases b <;> rfl
  -- the parts of the directory
  have parts : winRootName (winDirText s) = winRootName s ∧ winHasDir (winDirText s) = winHasDir s ∧
      winRootLen (winDirText s) = winRootLen s ∧
      winNames (winTail (winDirText s)) = (if winFile s = [] then winNames (winTail s) else (winNames (winTail s)).dropLast) ∧
      (winNames (winTail (winDirText s)) ≠ [] → winEndsSep (winDirText s) = true) := by
    by_cases hf : winFile s = []
    · have : winDirText s = s := by rw [winDirText, hf]; simp
      rw [this, if_pos hf]
      refine ⟨rfl, rfl, rfl, rfl, fun h => ?_⟩
      rcases (winFile_eq_nil s).mp hf with h' | h'
      · exact absurd h' h
      · exact h'
    · have hf' := mt (winFile_eq_nil s).mpr hf
      have hn : winNames (winTail s) ≠ [] := fun h => hf' (.inl h)
      have he : winEndsSep s = false := by
        cases h : winEndsSep s with
        | false => rfl
        | true => exact absurd (.inr h) hf'
      obtain ⟨b, g1, g2, g3, g4, g5, g6, g7, g8, g9, g10, g11⟩ := win_dir_file hn he
      rw [if_neg hf, g7, g6, List.dropLast_concat]
      exact ⟨g9, g10, g8, rfl, g11⟩
  obtain ⟨p1, p2, p3, p4, p5⟩ := parts
  have hfile : winFile (winDirText s) = [] := by
    rw [winFile_eq_nil]
    by_cases h : winNames (winTail (winDirText s)) = []
    · exact .inl h
    · exact .inr (p5 h)
  have hidem : winDirText (winDirText s) = winDirText s := by
    rw [winDirText, hfile]; simp
  refine ⟨_, win_removeFilename s, rfl, winDirText_append, ?_, ?_, ?_, ?_⟩
  · rw [win_hasFilename]
    congr 1
    rw [decide_eq_false_iff_not]
    rintro ⟨h1, h2⟩
    rw [p5 h1] at h2; cases h2
  · rw [win_removeFilename, hidem]
  · rw [win_names, winElements, hroot, hdir, p1, p2, ← p4]
    congr 1
    by_cases h : winNames (winTail (winDirText s)) = []
    · simp [h]
    · rw [if_pos ⟨p5 h, h⟩, if_neg h]
  · intro t ht hd hn
    obtain ⟨u, h1, h2⟩ := win_append (winDirText s) t
    refine ⟨_, ?_, (win_names u).trans (h2.trans ?_)⟩
    · rw [replaceFilename, win_removeFilename]; exact h1
    · have htt := winTail_of_zero ht
      rw [winAppended, if_neg (fun h => h.1 ((winRootName_nil t).mpr ht)), hd, if_neg (by simp), hroot, p1, p2, htt, p4, winUnc, p3]
      have hd2 : (if winHasDir s = true ∨ decide (2 < winRootLen s) = true then [['\\']] else []) =
          winOne (if winHasDir s = true ∨ winUnc s = true then ['\\'] else []) := by
        rw [winUnc]
        by_cases h : winHasDir s = true ∨ decide (2 < winRootLen s) = true
        · rw [if_pos h, if_pos h]; rfl
        · rw [if_neg h, if_neg h]; rfl
      rw [hd2]
      congr 1
      by_cases he : winEndsSep t = true
      · rw [if_pos (.inl ⟨hn, he⟩), if_pos he]
      · rw [if_neg he, if_neg]
        rintro (h | h)
        · exact he h.2
        · exact hn h.1

example : removeFilename .windows (mkPath .windows "C:\\a/b.txt".toList) = .ok (mkPath .windows "C:\\a/".toList) := by decide
example : ∃ r, replaceFilename .windows (mkPath .windows "C:\\a/b.txt".toList) (mkPath .windows "c.d".toList) = .ok r ∧
    r.names = ["C:".toList, "\\".toList, "a".toList, "c.d".toList] := ⟨_, rfl, by decide⟩

/-! ## C93 -/

/-- **C93**: stem and extension on Windows split the filename at its last dot, unless the filename is `..` or its only dot is
the first character. -/
theorem c93_stem_extension (s : Str) :
    ∃ f, filename .windows (mkPath .windows s) = .ok f ∧ f.pathname = winFile s ∧
      (stem .windows (mkPath .windows s)).pathname ++ (extension .windows (mkPath .windows s)).pathname = f.pathname ∧
      ((extension .windows (mkPath .windows s)).pathname = [] ∨
        ∃ b, (extension .windows (mkPath .windows s)).pathname = '.' :: b ∧ '.' ∉ b) ∧
      ((stem .windows (mkPath .windows s)).pathname = [] → f.pathname = []) ∧
      ((extension .windows (mkPath .windows s)).pathname ≠ [] ↔ f.pathname ≠ "..".toList ∧ '.' ∈ f.pathname.tail) ∧
      hasStem (mkPath .windows s) = decide ((stem .windows (mkPath .windows s)).pathname ≠ []) ∧
      hasExtension (mkPath .windows s) = decide ((extension .windows (mkPath .windows s)).pathname ≠ []) := by
  obtain ⟨f, hf1, hf2⟩ := win_filename s
  have hext : (extOf (winFile s) = [] ∧ ¬ HasExt (winFile s)) ∨ (∃ b, extOf (winFile s) = '.' :: b ∧ '.' ∉ b ∧ HasExt (winFile s)) := by
    by_cases he : HasExt (winFile s)
    · obtain ⟨a, b, hb, ha, hw, hp⟩ := extPos_some he
      right
      exact ⟨b, by rw [hw] at he ⊢; exact extOf_dot hb he, hb, he⟩
    · exact .inl ⟨extOf_none he, he⟩
  have hhas : HasExt (winFile s) ↔ winFile s ≠ "..".toList ∧ '.' ∈ (winFile s).tail := Iff.rfl
  refine ⟨f, hf1, hf2, ?_, ?_, ?_, ?_, ?_, ?_⟩
  · rw [win_stem, win_extension, hf2, stemOf_append_extOf]
  · rw [win_extension]
    rcases hext with ⟨h, _⟩ | ⟨b, h, hb, _⟩
    · exact .inl h
    · exact .inr ⟨b, h, hb⟩
  · rw [win_stem, hf2]
    intro h
    apply Classical.byContradiction
    intro hn
    exact stemOf_ne_nil hn h
  · rw [win_extension, hf2, ← hhas]
    rcases hext with ⟨h, h'⟩ | ⟨b, h, hb, h'⟩
    · rw [h]; simp [h']
    · rw [h]; simp [h']
  · rw [hasStem, win_findExtension, win_stem]
    by_cases hf : winFile s = []
    · rw [if_pos hf, hf]; rfl
    · rw [if_neg hf]; simp [stemOf_ne_nil hf]
  · rw [hasExtension, win_findExtension, win_extension]
    by_cases hf : winFile s = []
    · rw [if_pos hf, hf]; rfl
    · rw [if_neg hf]
      by_cases he : HasExt (winFile s)
      · obtain ⟨a, b, hb, ha, hw, hp⟩ := extPos_some he
        rw [hp]
        have : extOf (winFile s) ≠ [] := by rw [hw] at he ⊢; rw [extOf_dot hb he]; simp
        simp [this, ha]
      · rw [extPos_none he, extOf_none he]; rfl

/-- **C93**: `replace_extension` on Windows, by another object: the old extension is removed and the new one, with a dot unless
it has one or is empty, is put in its place; a plain new one leaves stem and directory alone. -/
theorem c93_replace_extension (s : Str) (e : Path) :
    ∃ base, base ++ (extension .windows (mkPath .windows s)).pathname = (mkPath .windows s).pathname ∧
      replaceExtension .windows (mkPath .windows s) e = .ok (mkPath .windows (base ++ (if e.pathname = [] then []
        else if e.pathname.head? = some '.' then e.pathname else '.' :: e.pathname))) ∧
      (e.pathname = (extension .windows (mkPath .windows s)).pathname →
        replaceExtension .windows (mkPath .windows s) e = .ok (mkPath .windows s)) ∧
      ∀ b, winFile s ≠ [] → b ≠ [] → '.' ∉ b → (∀ c ∈ b, winSep c = false) → (e.pathname = b ∨ e.pathname = '.' :: b) →
        ∃ u, replaceExtension .windows (mkPath .windows s) e = .ok (mkPath .windows u) ∧
          (extension .windows (mkPath .windows u)).pathname = '.' :: b ∧
          (stem .windows (mkPath .windows u)).pathname = (stem .windows (mkPath .windows s)).pathname ∧
          winDirText u = winDirText s := by
  obtain ⟨base, h1, h2, h3⟩ := win_eraseExtension s
  have hrep : replaceExtension .windows (mkPath .windows s) e = .ok (mkPath .windows (base ++ (if e.pathname = [] then []
        else if e.pathname.head? = some '.' then e.pathname else '.' :: e.pathname))) := by
    rw [replaceExtension, h1]
    show Except.ok _ = _
    congr 2
    cases he : e.pathname with
    | nil => simp
    | cons c x =>
      by_cases hc : c = '.'
      · subst hc; simp
      · simp [hc]
  refine ⟨base, by rw [win_extension]; exact h2, hrep, ?_, ?_⟩
  · intro he
    rw [win_extension] at he
    rw [hrep]
    congr 1
    have : (if e.pathname = [] then [] else if e.pathname.head? = some '.' then e.pathname else '.' :: e.pathname) =
        extOf (winFile s) := by
      rw [he]
      by_cases hx : HasExt (winFile s)
      · obtain ⟨a, b, hb, ha, hw, hp⟩ := extPos_some hx
        rw [show extOf (winFile s) = '.' :: b by rw [hw] at hx ⊢; exact extOf_dot hb hx]
        simp
      · rw [extOf_none hx]; rfl
    rw [this, h2, win_reparse]
  · intro b hf hb hdot hsep he
    have hd : (if e.pathname = [] then [] else if e.pathname.head? = some '.' then e.pathname else '.' :: e.pathname) = '.' :: b := by
      rcases he with he | he
      · rw [he, if_neg hb, if_neg]
        intro h
        exact hdot (List.mem_of_head? h)
      · rw [he]; simp
    rw [hd, h3 hf] at hrep
    have hsep' : ∀ c ∈ '.' :: b, winSep c = false := by
      intro c hc
      rcases List.mem_cons.mp hc with rfl | hc
      · rfl
      · exact hsep c hc
    obtain ⟨c1, c2⟩ := win_change_ext hf (.inr (by rfl : ('.' :: b).head? = some '.')) hsep'
    have hst := stemOf_ne_nil hf
    have hx : HasExt (stemOf (winFile s) ++ '.' :: b) := by
      refine ⟨?_, ?_⟩
      · intro h
        have hl := congrArg List.length h
        have h0 : (stemOf (winFile s)).length ≠ 0 := by simpa using hst
        have h0' : b.length ≠ 0 := by simpa using hb
        simp at hl
        omega
      · cases hs : stemOf (winFile s) with
        | nil => exact absurd hs hst
        | cons c x => simp
    refine ⟨_, hrep, ?_, ?_, c2⟩
    · rw [win_extension, c1, extOf_dot hdot hx]
    · rw [win_stem, c1, stemOf_dot hdot hx, win_stem]

example : replaceExtension .windows (mkPath .windows "C:\\a.d\\b.txt".toList) (mkPath .windows "md".toList) =
    .ok (mkPath .windows "C:\\a.d\\b.md".toList) := by decide

end Asap
