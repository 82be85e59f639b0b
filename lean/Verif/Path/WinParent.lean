import Verif.Path.WinAppend

/-!
# Windows paths: parents, and appending a name
-/

namespace Asap
open Spec

/-- A name that is not taken for anything else. -/
def PlainName (w : Str) : Prop := w ≠ [] ∧ (∀ c ∈ w, winSep c = false) ∧ ':' ∉ w

theorem parts_facts {R X : Str} (h : winRootLen (R ++ X) = R.length) : winTail (R ++ X) = X ∧
    winRootName (R ++ X) = winPrefer R ∧ winHasDir (R ++ X) = X.head?.any winSep ∧
    (X ≠ [] → winEndsSep (R ++ X) = winEndsSep X) := by
  have ht : winTail (R ++ X) = X := by rw [winTail, h]; simp
  refine ⟨ht, by rw [winRootName, h]; simp, by rw [winHasDir, ht], fun hx => winEndsSep_append hx⟩

theorem PlainName.rootLen {w : Str} (h : PlainName w) : winRootLen w = 0 := by
  obtain ⟨_, h2, h3⟩ := h
  match w with
  | [] => rfl
  | [_] => rfl
  | [a, b] =>
    have : b ≠ ':' := by rintro rfl; exact h3 (by simp)
    simp [winRootLen, this]
  | a :: b :: c :: r =>
    have : b ≠ ':' := by rintro rfl; exact h3 (by simp)
    have h4 := h2 a (by simp)
    simp [winRootLen, this, h4]

theorem PlainName.facts {w : Str} (h : PlainName w) : winTail w = w ∧ winHasDir w = false ∧ winNames w = [w] ∧
    winEndsSep w = false ∧ winRootName w = [] ∧ winUnc w = false := by
  have hl := h.rootLen
  obtain ⟨h1, h2, h3⟩ := h
  have ht := winTail_of_zero hl
  refine ⟨ht, ?_, by rw [winNames_noSep h2, if_neg h1], ?_, (winRootName_nil w).mpr hl, by rw [winUnc, hl]; rfl⟩
  · rw [winHasDir, ht]
    cases w with
    | nil => rfl
    | cons c w => simp [h2 c (by simp)]
  · rw [winEndsSep]
    cases hg : w.getLast? with
    | none => rfl
    | some c => simp [h2 c (List.mem_of_getLast? hg)]

/-- Appending a plain name. -/
theorem win_append_plain (s : Str) {w : Str} (h : PlainName w) :
    append .windows (mkPath .windows s) (mkPath .windows w) = .ok (mkPath .windows (winAppendText s w)) ∧
    winRootName (winAppendText s w) = winRootName s ∧ winRootLen (winAppendText s w) = winRootLen s ∧
    winHasDir (winAppendText s w) = decide (winHasDir s = true ∨ winUnc s = true) ∧
    winNames (winTail (winAppendText s w)) = winNames (winTail s) ++ [w] ∧
    winEndsSep (winAppendText s w) = false := by
  obtain ⟨w1, w2, w3, w4, w5, w6⟩ := h.facts
  refine ⟨?_, ?_⟩
  · rw [win_append_cases, if_neg]
    rw [w2, w6, h.rootLen]
    simp
  · obtain ⟨R, X, q1, q2, q3, q4, q5, q6, q7⟩ := winAppendText_parts (s := s) (t := w) w2 (fun _ => h.rootLen)
    obtain ⟨p1, p2, p3, p4⟩ := parts_facts q2
    rw [w1, w3] at q6 q7
    have hX : X ≠ [] := by
      rintro rfl
      rw [winNames_nil] at q6
      simp at q6
    rw [q1]
    refine ⟨p2.trans q3, q2.trans q4, p3.trans q5, by rw [p1, q6], ?_⟩
    rw [p4 hX]
    simpa [w4] using q7

/-! ## Parents -/

/-- Names joined by backslashes. -/
def winJoin : List Str → Str
  | [] => []
  | [w] => w
  | w :: ws => w ++ '\\' :: winJoin ws

theorem winNames_winJoin : ∀ {ns : List Str}, (∀ n ∈ ns, PlainName n) → winNames (winJoin ns) = ns
  | [], _ => winNames_nil
  | [w], h => (h w (by simp)).facts.2.2.1
  | w :: v :: ns, h => by
    have hw := h w (by simp)
    rw [winJoin, winNames_seg _ hw.2.1 (by rfl), if_neg hw.1, winNames_winJoin (fun n hn => h n (by simp [hn]))]
    · rfl
    · simp

theorem winJoin_ends : ∀ {ns : List Str}, (∀ n ∈ ns, PlainName n) → winEndsSep (winJoin ns) = false
  | [], _ => rfl
  | [w], h => (h w (by simp)).facts.2.2.2.1
  | w :: v :: ns, h => by
    have ih := winJoin_ends (ns := v :: ns) (fun n hn => h n (by simp [hn]))
    have hne : winJoin (v :: ns) ≠ [] := by
      intro h'
      have := winNames_winJoin (ns := v :: ns) (fun n hn => h n (by simp [hn]))
      rw [h', winNames_nil] at this
      cases this
    rw [winJoin, show w ++ '\\' :: winJoin (v :: ns) = (w ++ ['\\']) ++ winJoin (v :: ns) by simp, winEndsSep_append hne, ih]
    simp

theorem winJoin_head {ns : List Str} (h : ∀ n ∈ ns, PlainName n) : ∀ c, (winJoin ns).head? = some c → winSep c = false := by
  intro c hc
  match ns with
  | [] => cases hc
  | [w] => exact (h w (by simp)).2.1 c (List.mem_of_head? hc)
  | w :: v :: ns =>
    have hw := h w (by simp)
    cases w with
    | nil => exact absurd rfl hw.1
    | cons x w =>
      rw [winJoin] at hc
      · simp at hc; subst hc; exact hw.2.1 x (by simp)
      · simp

theorem appendSep_plain {acc w : Str} (h : PlainName w) : appendSepIfNeeded .windows (acc ++ w) = acc ++ w ++ ['\\'] := by
  obtain ⟨h1, h2, h3⟩ := h
  obtain ⟨c, hc⟩ : ∃ c, w.getLast? = some c := by rw [← Option.isSome_iff_exists]; simp [h1]
  have hl : (acc ++ w).getLast? = some c := by rw [List.getLast?_append, hc]; rfl
  have hm := List.mem_of_getLast? hc
  have hcol : c ≠ ':' := by rintro rfl; exact h3 hm
  rw [appendSepIfNeeded, hl]
  dsimp only
  rw [if_neg (by simp [hcol, isSep_windows, h2 c hm])]
  rfl

theorem rejoin_plain : ∀ (cs : List Comp) (acc : Str), (∀ c ∈ cs, PlainName c.name) →
    rejoin .windows cs acc = acc ++ winJoin (cs.map Comp.name)
  | [], acc, _ => by simp [rejoin, winJoin]
  | [c], acc, _ => by simp [rejoin, winJoin]
  | c :: d :: cs, acc, h => by
    rw [rejoin, appendSep_plain (h c (by simp)), rejoin_plain (d :: cs) _ (fun c hc => h c (by simp [hc]))]
    · simp [winJoin]
    · simp

/-- The kept elements of the parent. -/
theorem win_parentComps {s : Str} (hn : winNames (winTail s) ≠ []) :
    parentComps (winComps s) = .ok (winRootComps s ++ (toks .windows (winRootLen s) (winTail s)).dropLast) := by
  have htk : toks .windows (winRootLen s) (winTail s) ≠ [] := by rw [ne_eq, toks_win_nil]; exact hn
  rw [winComps_eq, parentComps, winTrail]
  by_cases he : winEndsSep s = true
  · rw [if_pos ⟨he, hn⟩, List.getLast?_append]
    have hne : winRootComps s ++ toks .windows (winRootLen s) (winTail s) ≠ [] := by simp [htk]
    simp only [List.getLast?_singleton, Option.some_or, if_true, List.dropLast_concat]
    rw [if_neg hne, List.dropLast_append_of_ne_nil htk]
  · rw [if_neg (by simp [he]), List.append_nil, List.getLast?_append]
    obtain ⟨l, hl⟩ : ∃ l, (toks .windows (winRootLen s) (winTail s)).getLast? = some l := by
      rw [← Option.isSome_iff_exists]; simp [htk]
    have := (toks_mem _ _ l (List.mem_of_getLast? hl)).2.1
    rw [hl]
    simp only [Option.some_or]
    rw [if_neg this, List.dropLast_append_of_ne_nil htk]

theorem win_hasRelative (s : Str) : hasRelativePath .windows (mkPath .windows s) = .ok (decide (winNames (winTail s) ≠ [])) := by
  obtain ⟨q, h1, h2⟩ := win_relativePath s
  simp only [hasRelativePath, h1]
  show Except.ok (!q.isEmpty) = _
  have : q.pathname = winRelative s := by
    rcases h2 with rfl | ⟨rfl, h⟩
    · exact win_pathname_rel (winRelative_start s)
    · rw [h]; rfl
  rw [Path.isEmpty, this]
  congr 1
  have := winRelative_nil s
  rw [Bool.eq_iff_iff]
  simp [this]

/-- `parent_path()` without a relative part is the path itself. -/
theorem win_parent_root (el : Bool) {s : Str} (hn : winNames (winTail s) = []) :
    parentPath .windows el (mkPath .windows s) = .ok (mkPath .windows s) := by
  rw [parentPath, win_hasRelative, hn]
  rfl

/-- A path with a root directory and a name has several elements. -/
theorem win_multi_of_dir {s : Str} (hd : winHasDir s = true) (hn : winNames (winTail s) ≠ []) :
    mkPath .windows s = ⟨s, winComps s, .multi⟩ := by
  have hs : s ≠ [] := by rintro rfl; exact hn rfl
  refine win_multi (fun c hc => ?_) hs
  obtain ⟨l, h1, h2, _⟩ := winComps_last s hs
  rw [hc, List.getLast?_singleton, Option.some.injEq] at h1
  subst h1
  have := (winComps_file hc (h2.mpr hn)).2
  rw [hd] at this
  cases this

/-- `parent_path()` of a path with root directory and plain names drops the last name. -/
theorem win_parent {s : Str} (hd : winHasDir s = true) (hn : winNames (winTail s) ≠ [])
    (hp : ∀ n ∈ winNames (winTail s), PlainName n) :
    ∃ v, parentPath .windows false (mkPath .windows s) = .ok (mkPath .windows v) ∧ winRootName v = winRootName s ∧
      winHasDir v = true ∧ winNames (winTail v) = (winNames (winTail s)).dropLast ∧
      (winEndsSep v = true → winNames (winTail v) = []) := by
  have hpar : parentPath .windows false (mkPath .windows s) = .ok (mkPath .windows (rejoin .windows
      (winRootComps s ++ (toks .windows (winRootLen s) (winTail s)).dropLast) [])) := by
    rw [parentPath, win_hasRelative]
    show (if _ then _ else _) = _
    rw [if_neg (by simp [hn]), win_multi_of_dir hd hn]
    show (if _ then _ else _) = _
    rw [if_pos rfl, win_parentComps hn]
    rfl
  refine ⟨_, hpar, ?_⟩
  -- the text
  have hnames : ((toks .windows (winRootLen s) (winTail s)).dropLast).map Comp.name = (winNames (winTail s)).dropLast := by
    rw [List.map_dropLast, toks_winNames]
  have hplain : ∀ c ∈ (toks .windows (winRootLen s) (winTail s)).dropLast, PlainName c.name := by
    intro c hc
    apply hp
    rw [← toks_winNames _ (winRootLen s)]
    exact List.mem_map_of_mem (List.dropLast_subset _ hc)
  have hplain' : ∀ n ∈ (winNames (winTail s)).dropLast, PlainName n := fun n h => hp n (List.dropLast_subset _ h)
  generalize (toks .windows (winRootLen s) (winTail s)).dropLast = ts at hnames hplain
  have hrd : ∀ acc : Str, (∀ c, acc.getLast? = some c → c = ':' ∨ winSep c = true) →
      rejoin .windows (⟨['\\'], .rootDir, winRootLen s⟩ :: ts) acc = acc ++ '\\' :: winJoin (winNames (winTail s)).dropLast := by
    intro acc _
    rw [← hnames]
    cases ts with
    | nil => simp [rejoin, winJoin]
    | cons t ts =>
      have : appendSepIfNeeded .windows (acc ++ ['\\']) = acc ++ ['\\'] := by
        rw [appendSepIfNeeded, List.getLast?_append]; simp [isSep]
      rw [rejoin, this, rejoin_plain (t :: ts) _ hplain]
      · simp
      · simp
  by_cases hz : winRootLen s = 0
  · have e : rejoin .windows (winRootComps s ++ ts) [] = [] ++ '\\' :: winJoin (winNames (winTail s)).dropLast := by
      rw [winRootComps, if_pos hz, hd]
      exact hrd [] (by simp)
    rw [e]
    have hlen : winRootLen ([] ++ '\\' :: winJoin (winNames (winTail s)).dropLast) = ([] : Str).length := by
      have hh := winJoin_head hplain'
      rw [List.nil_append, List.length_nil]
      match winJoin (winNames (winTail s)).dropLast, hh with
      | [], _ => rfl
      | [c], _ => simp [winRootLen, winSep]
      | c :: d :: x, hh =>
        have := hh c rfl
        have : c ≠ '\\' := by rintro rfl; cases this
        simp [winRootLen, this, show winSep '\\' = true from rfl]
    obtain ⟨p1, p2, p3, p4⟩ := parts_facts hlen
    refine ⟨by rw [p2, (winRootName_nil s).mpr hz]; rfl, by rw [p3]; rfl, ?_, ?_⟩
    · rw [p1, winNames_sep_cons (by rfl), winNames_winJoin hplain']
    · rw [p1, p4 (by simp), winNames_sep_cons (by rfl), winNames_winJoin hplain']
      intro he
      apply Classical.byContradiction
      intro hne
      have : winJoin (winNames (winTail s)).dropLast ≠ [] := by
        intro h
        have := winNames_winJoin hplain'
        rw [h, winNames_nil] at this
        exact hne this.symm
      rw [show '\\' :: winJoin (winNames (winTail s)).dropLast = ['\\'] ++ winJoin (winNames (winTail s)).dropLast from rfl,
        winEndsSep_append this, winJoin_ends hplain'] at he
      cases he
  · have hR : IsRoot (winRootName s) := (isRoot_take hz).1.prefer
    have hA : ∃ y : Str, appendSepIfNeeded .windows (winRootName s) = winRootName s ++ y ∧ (y = [] ∨ y = ['\\']) := by
      rw [appendSepIfNeeded]
      split
      · exact ⟨[], by simp, .inl rfl⟩
      · split
        · exact ⟨[], by simp, .inl rfl⟩
        · exact ⟨['\\'], rfl, .inr rfl⟩
    obtain ⟨y, hy1, hy2⟩ := hA
    have e : rejoin .windows (winRootComps s ++ ts) [] = winRootName s ++ (y ++ '\\' :: winJoin (winNames (winTail s)).dropLast) := by
      rw [winRootComps, if_neg hz, hd]
      show rejoin .windows (⟨winRootName s, .rootName, 0⟩ :: (⟨['\\'], .rootDir, winRootLen s⟩ :: ts)) [] = _
      rw [rejoin]
      · rw [List.nil_append, hy1]
        rw [← List.append_assoc]
        apply hrd
        intro c hc
        rcases hy2 with rfl | rfl
        · rw [List.append_nil] at hc hy1
          rw [appendSepIfNeeded, hc] at hy1
          dsimp only at hy1
          split at hy1
          · rename_i hcc
            rcases hcc with hcc | hcc
            · exact .inl hcc.2
            · right; rw [← isSep_windows]; exact hcc
          · have := congrArg List.length hy1
            simp at this
        · simp at hc; subst hc; right; rfl
      · simp
    rw [e]
    have hlen : winRootLen (winRootName s ++ (y ++ '\\' :: winJoin (winNames (winTail s)).dropLast)) = (winRootName s).length := by
      apply hR.len
      right
      intro c hc
      rcases hy2 with rfl | rfl
      · simp at hc; subst hc; rfl
      · simp at hc; subst hc; rfl
    obtain ⟨p1, p2, p3, p4⟩ := parts_facts hlen
    have hy : ∀ x, winNames (y ++ '\\' :: x) = winNames x := by
      intro x
      rcases hy2 with rfl | rfl
      · rw [List.nil_append, winNames_sep_cons (by rfl)]
      · rw [List.singleton_append, winNames_sep_cons (by rfl), winNames_sep_cons (by rfl)]
    refine ⟨by rw [p2]; exact winPrefer_idem _, ?_, ?_, ?_⟩
    · rw [p3]; rcases hy2 with rfl | rfl <;> rfl
    · rw [p1, hy, winNames_winJoin hplain']
    · rw [p1, p4 (by simp), hy, winNames_winJoin hplain']
      intro he
      apply Classical.byContradiction
      intro hne
      have : winJoin (winNames (winTail s)).dropLast ≠ [] := by
        intro h
        have := winNames_winJoin hplain'
        rw [h, winNames_nil] at this
        exact hne this.symm
      rw [show y ++ '\\' :: winJoin (winNames (winTail s)).dropLast = (y ++ ['\\']) ++ winJoin (winNames (winTail s)).dropLast by simp,
        winEndsSep_append this, winJoin_ends hplain'] at he
      cases he

/-- A value made by the constructors. -/
def Made (q : Path) : Prop := q = .default ∨ ∃ u, q = mkPath .windows u

theorem made_append {p q : Path} (hp : Made p) (hq : Made q) : ∃ r, append .windows p q = .ok r ∧ Made r := by
  have key : ∀ s t, ∃ r, append .windows (mkPath .windows s) (mkPath .windows t) = .ok r ∧ Made r := by
    intro s t
    obtain ⟨u, h, _⟩ := win_append s t
    exact ⟨_, h, .inr ⟨u, rfl⟩⟩
  rcases hp with rfl | ⟨s, rfl⟩ <;> rcases hq with rfl | ⟨t, rfl⟩
  · exact key [] []
  · rw [append_default_left]; exact key [] t
  · rw [append_default_right]; exact key s []
  · exact key s t

/-- `parent_path()` is always defined. -/
theorem made_parent {p : Path} (hp : Made p) : ∃ r, parentPath .windows false p = .ok r ∧ Made r := by
  rcases hp with rfl | ⟨s, rfl⟩
  · exact ⟨.default, rfl, .inl rfl⟩
  · by_cases hn : winNames (winTail s) = []
    · exact ⟨_, win_parent_root false hn, .inr ⟨s, rfl⟩⟩
    · have hif : parentPath .windows false (mkPath .windows s) =
          if (mkPath .windows s).type = .multi then
            (parentComps (mkPath .windows s).comps >>= fun kept => .ok (mkPath .windows (rejoin .windows kept [])))
          else .ok .default := by
        rw [parentPath, win_hasRelative]
        show (if _ then _ else _) = _
        rw [if_neg (by simp [hn])]
        rfl
      rw [hif]
      by_cases hm : (mkPath .windows s).type = .multi
      · rw [if_pos hm]
        have hs : s ≠ [] := by rintro rfl; exact hn rfl
        have hcomps : (mkPath .windows s).comps = winComps s := by
          by_cases hsing : ∃ c, winComps s = [c]
          · obtain ⟨c, hc⟩ := hsing
            rw [win_single hc hs] at hm
            exact absurd hm (winComps_single hc).2.1
          · rw [win_multi (fun c hc => hsing ⟨c, hc⟩) hs]
        rw [hcomps, win_parentComps hn]
        exact ⟨_, rfl, .inr ⟨_, rfl⟩⟩
      · rw [if_neg hm]
        exact ⟨_, rfl, .inl rfl⟩

theorem made_rootPath (s : Str) : Made (rootPath .windows (mkPath .windows s)) := by
  rcases win_rootPath s with h | ⟨h, _⟩
  · exact .inr ⟨_, h⟩
  · exact .inl h

end Asap
