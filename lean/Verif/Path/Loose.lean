import Verif.Path.Ext

/-!
# Operations that use the recorded offsets: closed forms for `Loose` paths (POSIX)
-/

namespace Asap
open Spec

/-! ### Offsets of the first and last filename -/

theorem dropSlashes_noSlash {w : Str} (h : '/' ∉ w) : dropSlashes w = w := by
  cases w with
  | nil => rfl
  | cons c w => simp at h; simp [dropSlashes, Ne.symm h.1]

theorem toks_head_pos (s : Str) : ∀ (off : Nat) (c : Comp), (toks .posix off s).head? = some c →
    off ≤ c.pos ∧ c.pos ≤ off + s.length ∧ s.drop (c.pos - off) = dropSlashes s := by
  induction s using slash_induction with
  | h0 w hw =>
    intro off c hc
    rw [toks_noSep off (noSep_posix.mpr hw), tok1] at hc
    split at hc
    · simp at hc
    · simp at hc; subst hc
      simp [dropSlashes_noSlash hw]
  | h1 w b hw ih =>
    intro off c hc
    rw [toks_seg (isSep_slash .posix) (noSep_posix.mpr hw), tok1] at hc
    split at hc
    · rename_i hw0
      subst hw0
      simp at hc
      obtain ⟨h1, h2, h3⟩ := ih (off + 1) c hc
      refine ⟨by omega, by simp; omega, ?_⟩
      have e : c.pos - off = (c.pos - (off + 1)) + 1 := by omega
      rw [e]
      simpa [dropSlashes] using h3
    · rename_i hw0
      simp at hc; subst hc
      refine ⟨Nat.le_refl _, by simp, ?_⟩
      cases w with
      | nil => exact absurd rfl hw0
      | cons x w => simp at hw; simp [dropSlashes, Ne.symm hw.1]

theorem toks_dir_file (s : Str) (h : filePart s ≠ []) :
    toks .posix 0 s = toks .posix 0 (dirPart s) ++ [⟨filePart s, .filename, (dirPart s).length⟩] := by
  rcases last_slash s with h' | ⟨a, w, hw, rfl⟩
  · rw [filePart_noSlash h'] at h ⊢
    rw [dirPart_noSlash h', toks_noSep 0 (noSep_posix.mpr h'), tok1, if_neg h]
    simp [toks_nil]
  · rw [filePart_slash a hw] at h ⊢
    rw [dirPart_slash a hw, toks_append_sep (isSep_slash .posix), toks_append_sep (isSep_slash .posix),
      toks_noSep _ (noSep_posix.mpr hw), tok1, if_neg h]
    simp [toks_nil]

theorem rootComps_dirPart (s : Str) (h : '/' ∈ s) : rootComps (dirPart s) = rootComps s := by
  rcases last_slash s with h' | ⟨a, w, hw, rfl⟩
  · exact absurd h h'
  · rw [dirPart_slash a hw]
    cases a <;> simp [rootComps]

theorem getLast?_dirPart (s : Str) (h : '/' ∈ s) : (dirPart s).getLast? = some '/' := by
  rcases last_slash s with h' | ⟨a, w, hw, rfl⟩
  · exact absurd h h'
  · rw [dirPart_slash a hw]; simp

theorem getLast?_filePart {s : Str} (h : filePart s ≠ []) : s.getLast? ≠ some '/' := by
  intro h'
  exact h ((filePart_eq_nil_iff s).mpr (Or.inr (endsSlash_iff.mpr h')))

/-- Elements of a text whose last piece is a filename. -/
theorem rawCompsK_file (k : Nat) {s : Str} (h : filePart s ≠ []) :
    rawCompsK k s = (rootComps s ++ toks .posix 0 (dirPart s)) ++
      [⟨filePart s, .filename, (dirPart s).length⟩] := by
  simp [rawCompsK, getLast?_filePart h, toks_dir_file s h]

theorem rootComps_filename {s : Str} : ∀ c ∈ rootComps s, c.type = .rootDir := by
  intro c hc
  unfold rootComps at hc
  split at hc <;> simp at hc
  subst hc; rfl

/-! ### relative_path -/

section
variable {p q : Path}

theorem skipRoot_rawCompsK (k : Nat) (s : Str) :
    skipType .rootDir (skipType .rootName (rawCompsK k s)) =
      toks .posix 0 s ++
        (if s.getLast? = some '/' ∧ toks .posix 0 s ≠ [] then [⟨[], .filename, k⟩] else []) := by
  unfold rawCompsK rootComps
  by_cases hst : s.head? = some '/'
  · simp [hst, skipType]
  · simp only [hst, if_false, List.nil_append]
    cases ht : toks .posix 0 s with
    | nil => simp; rfl
    | cons c cs =>
      have := (toks_mem (pl := .posix) s 0 c (by simp [ht])).1
      simp [skipType, this]

theorem filenames_dropSlashes (s : Str) : filenames (dropSlashes s) = filenames s := by
  induction s with
  | nil => rfl
  | cons c s ih =>
    by_cases hc : c = '/'
    · subst hc
      rw [filenames_slash_cons, ← ih]
      simp [dropSlashes]
    · simp [dropSlashes, hc]

theorem dropSlashes_eq_nil_iff (s : Str) : dropSlashes s = [] ↔ filenames s = [] := by
  constructor
  · intro h; rw [← filenames_dropSlashes, h]; rfl
  · intro h
    rw [filenames_eq_nil_iff] at h
    induction s with
    | nil => rfl
    | cons c s ih =>
      simp only [List.all_cons, Bool.and_eq_true, beq_iff_eq] at h
      rw [h.1]
      simpa [dropSlashes] using ih h.2

theorem dropSlashes_head (s : Str) : startsSlash (dropSlashes s) = false := by
  induction s with
  | nil => rfl
  | cons c s ih =>
    by_cases hc : c = '/'
    · subst hc; simpa [dropSlashes] using ih
    · simp [dropSlashes, hc, startsSlash]

theorem stored_of_not_starts {s : Str} (h : startsSlash s = false) : stored s = s := by
  apply stored_eq_self
  intro hn
  left
  rw [filenames_eq_nil_iff] at hn
  cases s with
  | nil => rfl
  | cons c s => simp at hn; simp [startsSlash, hn.1] at h

/-- `relative_path`: the text without leading slashes. -/
theorem Loose.relativePath (h : Loose p) :
    ∃ q, relativePath .posix p = .ok q ∧ Loose q ∧ q.pathname = dropSlashes p.pathname ∧
      (q = .default ∨ q = mkPath .posix (dropSlashes p.pathname)) := by
  cases h with
  | dflt => exact ⟨_, rfl, .dflt, rfl, Or.inl rfl⟩
  | empt => exact ⟨_, rfl, .empt, rfl, Or.inr rfl⟩
  | file s hs =>
    exact ⟨_, rfl, .file s hs, (dropSlashes_noSlash hs.2).symm,
      Or.inr (by simp only [dropSlashes_noSlash hs.2]; exact (mkPath_name hs).symm)⟩
  | root => exact ⟨_, rfl, .dflt, rfl, Or.inl rfl⟩
  | multi s k h1 h2 =>
    simp only [Asap.relativePath, skipRoot_rawCompsK]
    cases ht : toks .posix 0 s with
    | nil =>
      simp only [ne_eq, not_true_eq_false, and_false, if_false, List.append_nil, List.head?_nil]
      refine ⟨_, rfl, .dflt, ?_, Or.inl rfl⟩
      exact ((dropSlashes_eq_nil_iff s).mpr ((toks_nil_iff_filenames s 0).mp ht)).symm
    | cons c cs =>
      have hp := toks_head_pos s 0 c (by simp [ht])
      simp only [List.cons_append, List.head?_cons]
      refine ⟨mkPath .posix (dropSlashes s), ?_, mkPath_loose _, ?_, Or.inr rfl⟩
      · have : c.pos ≤ s.length := by have := hp.2.1; omega
        have e := hp.2.2
        simp at e
        simp [substrFrom, this, e, bind, Except.bind, pure, Except.pure]
      · rw [mkPath_pathname, stored_of_not_starts (dropSlashes_head s)]

theorem Loose.hasRelativePath (h : Loose p) :
    hasRelativePath .posix p = .ok (!(filenames p.pathname).isEmpty) := by
  obtain ⟨q, h1, _, h3, _⟩ := h.relativePath
  simp only [Asap.hasRelativePath, h1, Path.isEmpty, bind, Except.bind, pure, Except.pure, h3]
  congr 2
  rw [Bool.eq_iff_iff]
  simp [dropSlashes_eq_nil_iff]

/-! ### parent_path -/

theorem appendSep_ne {s : Str} (h1 : s ≠ []) (h2 : s.getLast? ≠ some '/') :
    appendSepIfNeeded .posix s = s ++ ['/'] := by
  unfold appendSepIfNeeded
  cases hl : s.getLast? with
  | none => rw [List.getLast?_eq_none_iff] at hl; exact absurd hl h1
  | some c =>
    have : c ≠ '/' := by rintro rfl; exact h2 hl
    simp [this]

theorem appendSep_slash {s : Str} (h2 : s.getLast? = some '/') :
    appendSepIfNeeded .posix s = s := by
  simp [appendSepIfNeeded, h2]

theorem getLast?_append_name {a w : Str} (h : IsName w) : (a ++ w).getLast? ≠ some '/' := by
  have := endsSlash_of_noSlash (a := a) h.2 h.1
  intro h'
  rw [endsSlash_iff.mpr h'] at this
  cases this

theorem rejoin_names : ∀ (cs : List Comp) (acc : Str), (∀ c ∈ cs, IsName c.name) →
    rejoin .posix cs acc = acc ++ join (cs.map Comp.name)
  | [], acc, _ => by simp [rejoin, join]
  | [c], acc, _ => by simp [rejoin, join]
  | c :: d :: cs, acc, h => by
    have hc := h c (by simp)
    have ih := rejoin_names (d :: cs) (acc ++ c.name ++ ['/']) (fun x hx => h x (by simp at hx ⊢; right; exact hx))
    rw [rejoin, appendSep_ne (by simp [hc.1]) (getLast?_append_name hc), ih]
    · simp [join]
    · simp

theorem rejoin_root (cs : List Comp) (h : ∀ c ∈ cs, IsName c.name) (pos : Nat) :
    rejoin .posix (⟨['/'], .rootDir, pos⟩ :: cs) [] = '/' :: join (cs.map Comp.name) := by
  cases cs with
  | nil => rfl
  | cons c cs =>
    rw [rejoin, appendSep_slash (by simp), rejoin_names _ _ h]
    · rfl
    · simp

/-- Text of the parent. -/
def parentText (s : Str) : Str :=
  if filenames s = [] then s else render (startsSlash s) (filenames s).dropLast false

theorem dropLast_names {s w : Str} (h : w ∈ (filenames s).dropLast) : IsName w :=
  filenames_mem (List.dropLast_subset _ h)

theorem keysOf_render {abs : Bool} {ns : List Str} (h : ∀ w ∈ ns, IsName w) :
    keysOf (render abs ns false) =
      (if abs then [(['/'], .rootDir)] else []) ++ ns.map (·, .filename) := by
  unfold keysOf
  rw [filenames_render h, startsSlash_render h (by simp)]
  by_cases hn : ns = []
  · subst hn; simp
  · rw [endsSlash_render h hn]; simp

theorem toks_key_mem {s : Str} {off : Nat} : ∀ c ∈ toks .posix off s, IsName c.name := by
  intro c hc
  have := toks_mem s off c hc
  exact ⟨this.2.1, noSep_posix.mp this.2.2.1⟩

theorem parentComps_rawCompsK (k : Nat) {s : Str} (hn : filenames s ≠ []) :
    parentComps (rawCompsK k s) = .ok (rootComps s ++ (toks .posix 0 s).dropLast) := by
  have ht : toks .posix 0 s ≠ [] := by rw [ne_eq, toks_nil_iff_filenames]; exact hn
  have hdl : (rootComps s ++ toks .posix 0 s).dropLast = rootComps s ++ (toks .posix 0 s).dropLast := by
    rw [List.dropLast_append_of_ne_nil ht]
  have hne : rootComps s ++ toks .posix 0 s ≠ [] := by simp [ht]
  by_cases hl : s.getLast? = some '/'
  · simp only [rawCompsK, hl, ht, ne_eq, not_false_eq_true, and_self, if_true, parentComps,
      List.getLast?_append, List.getLast?_singleton, Option.some_or, List.dropLast_concat, hne, if_false, hdl]
  · simp only [rawCompsK, hl, false_and, if_false, List.append_nil, parentComps]
    cases hx : (rootComps s ++ toks .posix 0 s).getLast? with
    | none => rw [List.getLast?_eq_none_iff] at hx; exact absurd hx hne
    | some c =>
      have hc : c ∈ toks .posix 0 s := by
        rw [List.getLast?_append] at hx
        cases hy : (toks .posix 0 s).getLast? with
        | none => rw [List.getLast?_eq_none_iff] at hy; exact absurd hy ht
        | some d =>
          rw [hy] at hx
          simp at hx
          subst hx
          exact List.mem_of_getLast? hy
      have := (toks_key_mem c hc).1
      simp [this, hdl]

theorem rejoin_parent (s : Str) :
    rejoin .posix (rootComps s ++ (toks .posix 0 s).dropLast) [] =
      render (startsSlash s) (filenames s).dropLast false := by
  have hnames : (toks .posix 0 s).dropLast.map Comp.name = (filenames s).dropLast := by
    rw [← toks_names s 0, List.map_dropLast]
  have hmem : ∀ c ∈ (toks .posix 0 s).dropLast, IsName c.name :=
    fun c hc => toks_key_mem c (List.dropLast_subset _ hc)
  by_cases hst : s.head? = some '/'
  · have := startsSlash_iff.mpr hst
    simp only [rootComps, hst, if_true, List.cons_append, List.nil_append]
    rw [rejoin_root _ hmem, hnames, this]
    simp [render]
  · have hst' : startsSlash s = false := by
      rw [Bool.eq_false_iff, ne_eq, startsSlash_iff]; exact hst
    simp only [rootComps, hst, if_false, List.nil_append]
    rw [rejoin_names _ _ hmem, hnames, hst']
    simp [render]

/-- The parent object before it is returned. -/
theorem Loose.parentPath (h : Loose p) (elide : Bool) :
    ∃ q, parentPath .posix elide p = .ok q ∧ Shape q ∧ q.pathname = parentText p.pathname ∧
      (elide = false → Loose q) := by
  simp only [Asap.parentPath, h.hasRelativePath, bind, Except.bind, pure, Except.pure]
  by_cases hn : filenames p.pathname = []
  · simp only [hn]
    exact ⟨p, rfl, h.shape, by simp [parentText, hn], fun _ => h⟩
  · have hn' : (filenames p.pathname).isEmpty = false := by simpa using hn
    simp only [hn']
    cases h with
    | dflt => exact absurd rfl hn
    | empt => exact absurd rfl hn
    | file s hs =>
      refine ⟨.default, rfl, .dflt, ?_, fun _ => .dflt⟩
      simp [parentText, startsSlash_name hs.2, filenames_noSlash hs.2, hs.1, render, join, Path.default]
    | root => exact absurd rfl hn
    | multi s k h1 h2 =>
      simp only at hn
      simp only [parentComps_rawCompsK k hn, rejoin_parent]
      have hpt : parentText s = render (startsSlash s) (filenames s).dropLast false := by
        simp [parentText, hn]
      have hnames : ∀ w ∈ (filenames s).dropLast, IsName w := fun w hw => dropLast_names hw
      have hfr := filenames_render (abs := startsSlash s) (tr := false) hnames
      have hkeys : (rootComps s ++ (toks .posix 0 s).dropLast).map Comp.key = keysOf (parentText s) := by
        rw [hpt, keysOf_render hnames, List.map_append, List.map_dropLast, toks_keys,
          ← List.map_dropLast]
        congr 1
        by_cases hst : s.head? = some '/'
        · simp [rootComps, hst, startsSlash_iff.mpr hst, Comp.key]
        · have hst' : startsSlash s = false := by
            rw [Bool.eq_false_iff, ne_eq, startsSlash_iff]; exact hst
          simp [rootComps, hst, hst']
      refine ⟨_, rfl, ?_, ?_, ?_⟩
      · cases elide
        · exact mkPath_shape _
        · simp only [returned, if_true]
          rw [← hpt]
          by_cases hpn : parentText s = []
          · rw [hpn, keysOf_nil, List.map_eq_nil_iff] at hkeys
            rw [hpn, hkeys]; exact .dflt
          · refine .multi _ _ hpn ?_ hkeys
            rw [hpt, hfr]
            intro he
            rw [he] at hpt
            rw [he]
            rw [hpt] at hpn
            cases hst : startsSlash s
            · simp [hst, render, join] at hpn
            · rfl
      · cases elide
        · simp only [returned, Path.moved]
          rw [← hpt, if_neg (by simp), mkPath_pathname]
          apply stored_eq_self
          rw [hpt, hfr]
          intro he
          rw [he]
          cases hst : startsSlash s
          · left; rfl
          · right; rfl
        · simp [returned, hpt]
      · intro he
        subst he
        exact mkPath_loose _

/-! ### remove_filename -/

/-- The object is not the degenerate `MULTI` with a single filename. -/
def Safe (p : Path) : Prop := ¬ (p.type = .multi ∧ IsName p.pathname)

theorem filenames_single {s : Str} (h : s ≠ []) (hn : rootComps s ++ toks .posix 0 (dirPart s) = []) :
    '/' ∉ s := by
  intro hm
  simp at hn
  have h1 := hn.1
  unfold rootComps at h1
  have h2 := (toks_eq_nil_iff _ _).mp hn.2
  rcases last_slash s with h' | ⟨a, w, hw, rfl⟩
  · exact h' hm
  · rw [dirPart_slash a hw] at h2
    cases a with
    | nil => simp at h1
    | cons c a =>
      simp at h2
      simp [h2.1] at h1

theorem eraseFrom_append {a b s : Str} (h : a ++ b = s) : eraseFrom s a.length = .ok a := by
  subst h; simp [eraseFrom]

theorem Loose.removeFilename (h : Loose p) (hs : Safe p) :
    ∃ q, removeFilename .posix p = .ok q ∧ Loose q ∧ Safe q ∧
      q.pathname = stored (dirPart p.pathname) := by
  cases h with
  | dflt => exact ⟨_, rfl, .dflt, hs, rfl⟩
  | empt => exact ⟨_, rfl, .empt, by simp [Safe, Path.clear, mkPath_nil], rfl⟩
  | file s h =>
    refine ⟨_, rfl, mkPath_loose _, by simp [Safe, Path.clear, mkPath_nil], ?_⟩
    simp [dirPart_noSlash h.2, Path.clear, mkPath_nil, stored]
  | root => exact ⟨_, rfl, .root, hs, rfl⟩
  | multi s k h1 h2 =>
    by_cases hf : filePart s = []
    · have he : endsSlash s = true := by
        rcases (filePart_eq_nil_iff s).mp hf with h | h
        · exact absurd h h1
        · exact h
      have hd : dirPart s = s := by
        have := dirPart_append_filePart s
        rwa [hf, List.append_nil] at this
      have hk := getLast?_key (rawCompsK_keys k s)
      rw [keysOf_getLast h1] at hk
      have hst : stored s = s := Shape.stored (Loose.multi s k h1 h2).shape
      refine ⟨⟨s, rawCompsK k s, .multi⟩, ?_, .multi s k h1 h2, hs, ?_⟩
      · simp only [Asap.removeFilename]
        cases hc : (rawCompsK k s).getLast? with
        | none => rfl
        | some c =>
          rw [hc] at hk
          by_cases hn : filenames s = []
          · simp [hf, hn, Comp.key] at hk
            simp [hk.2]
          · simp [hf, hn, Comp.key] at hk
            simp [hk.1]
      · rw [hd, hst]
    · have hm : '/' ∈ s := by
        false_or_by_contra
        rename_i hm
        exact hs ⟨rfl, h1, hm⟩
      have hne : rootComps s ++ toks .posix 0 (dirPart s) ≠ [] := by
        intro h; exact filenames_single h1 h hm
      have her : eraseFrom s (dirPart s).length = .ok (dirPart s) := by
        exact eraseFrom_append (dirPart_append_filePart s)
      have hlast := getLast?_dirPart s hm
      simp only [Asap.removeFilename, rawCompsK_file k hf, List.getLast?_append,
        List.getLast?_singleton, Option.some_or, List.dropLast_concat]
      simp only [hf, ne_eq, not_false_eq_true, and_self, if_true, her, bind, Except.bind, pure, Except.pure]
      by_cases ht : toks .posix 0 (dirPart s) = []
      · have hroot : s.head? = some '/' := by
          false_or_by_contra
          rename_i hr
          simp [ht, rootComps, hr] at hne
        have hall := (toks_eq_nil_iff _ _).mp ht
        simp only [ht, List.append_nil, rootComps, hroot, if_true, List.getLast?_singleton]
        refine ⟨_, rfl, .root, by simp [Safe, trim], ?_⟩
        have hdne : dirPart s ≠ [] := by intro h; rw [h] at hlast; simp at hlast
        rw [stored, if_pos ⟨hdne, hall⟩]
        rfl
      · cases hx : ((toks .posix 0 (dirPart s)).getLast?.or (rootComps s).getLast?) with
        | none =>
          simp at hx
          exact absurd hx.1 ht
        | some c =>
          have hc : c ∈ toks .posix 0 (dirPart s) := by
            cases hy : (toks .posix 0 (dirPart s)).getLast? with
            | none => rw [List.getLast?_eq_none_iff] at hy; exact absurd hy ht
            | some d =>
              rw [hy] at hx
              simp at hx
              subst hx
              exact List.mem_of_getLast? hy
          have hct := (toks_mem _ _ c hc).1
          simp only [hct, reduceCtorEq, or_self, if_false]
          have hfn : filenames (dirPart s) ≠ [] := by rwa [ne_eq, ← toks_nil_iff_filenames _ 0]
          have hdne : dirPart s ≠ [] := by intro h; rw [h] at hlast; simp at hlast
          have hraw : rootComps s ++ toks .posix 0 (dirPart s) ++ [⟨[], .filename, (dirPart s).length⟩]
              = rawCompsK (dirPart s).length (dirPart s) := by
            simp [rawCompsK, rootComps_dirPart s hm, hlast, ht]
          rw [hraw]
          refine ⟨_, rfl, .multi _ _ hdne (fun h => absurd h hfn), ?_, ?_⟩
          · rintro ⟨_, _, h⟩
            exact h (List.mem_of_getLast? hlast)
          · symm; apply stored_eq_self; intro h; exact absurd h hfn

/-- The degenerate object is the only one on which `remove_filename` is undefined. -/
theorem Loose.removeFilename_ub (h : Loose p) (hs : ¬ Safe p) :
    Asap.removeFilename .posix p = .error .ub := by
  simp only [Safe, Classical.not_not] at hs
  cases h with
  | multi s k h1 h2 =>
    have hn := hs.2
    simp only at hn
    have hf : filePart s ≠ [] := by rw [filePart_noSlash hn.2]; exact hn.1
    have hh : s.head? ≠ some '/' := fun h' => hn.2 (List.mem_of_head? h')
    simp only [Asap.removeFilename, rawCompsK_file k hf, dirPart_noSlash hn.2, toks_nil, rootComps, hh]
    simp [hf, eraseFrom, bind, Except.bind]
  | dflt => exact absurd rfl hs.2.1
  | empt => exact absurd rfl hs.2.1
  | file s h => simp at hs
  | root => simp at hs

theorem mkPath_safe (s : Str) : Safe (mkPath .posix s) := by
  by_cases hs : s = []
  · subst hs; rw [mkPath_nil]; simp [Safe]
  · by_cases hall : s.all (· == '/') = true
    · rw [mkPath_slashes hs hall]; simp [Safe]
    · by_cases hm : '/' ∈ s
      · rw [mkPath_multi hall hm]; rintro ⟨_, _, h⟩; exact h hm
      · rw [mkPath_name ⟨hs, hm⟩]; simp [Safe]

/-! ### replace_extension -/

theorem Loose.eraseExtension (h : Loose p) :
    Asap.eraseExtension p = .ok (dirPart p.pathname ++ stemOf (filePart p.pathname)) := by
  have hdf := dirPart_append_filePart p.pathname
  rw [Asap.eraseExtension, h.shape.findExtension]
  by_cases hf : filePart p.pathname = []
  · simp only [hf, if_true]
    rw [hf, List.append_nil] at hdf
    rw [hdf]
    simp [stemOf]
  · simp only [hf, if_false]
    by_cases he : HasExt (filePart p.pathname)
    · obtain ⟨a, b, hb, ha, hw, hpos⟩ := extPos_some he
      have hstem : stemOf (filePart p.pathname) = a := by
        rw [hw] at he ⊢; exact stemOf_dot hb he
      rw [hpos]
      simp only [hstem]
      cases h with
      | dflt => exact absurd rfl hf
      | empt => exact absurd rfl hf
      | root => exact absurd rfl hf
      | file s hs =>
        simp only [filePart_noSlash hs.2] at hw
        rw [dirPart_noSlash hs.2]
        exact eraseFrom_append hw.symm
      | multi s k h1 h2 =>
        simp only at hf hw hdf
        rw [rawCompsK_file k hf]
        rw [hw] at hdf
        have := eraseFrom_append (a := dirPart s ++ a) (b := '.' :: b) (s := s) (by simpa using hdf)
        simp only [reduceCtorEq, if_false, List.getLast?_append, List.getLast?_singleton, Option.some_or]
        rw [List.length_append] at this
        exact this
    · rw [extPos_none he, stemOf_none he]
      simp [hdf]

/-- Text of the replacement extension. -/
def dotted (t : Str) : Str := if t = [] ∨ t.head? = some '.' then t else '.' :: t

theorem Loose.replaceExtension (h : Loose p) (r : Path) :
    Asap.replaceExtension .posix p r = .ok (mkPath .posix
      (dirPart p.pathname ++ stemOf (filePart p.pathname) ++ dotted r.pathname)) := by
  simp only [Asap.replaceExtension, h.eraseExtension, bind, Except.bind, pure, Except.pure]
  cases hr : r.pathname with
  | nil => simp [dotted]
  | cons c t =>
    by_cases hc : c = '.'
    · simp [dotted, hc]
    · simp [dotted, hc]

end

end Asap
