import Verif.Path.Hist
import Verif.Path.WinNormal

/-!
# Histories of path operations on Windows

The public operations of `class path` with the platform as a parameter, and an
invariant of the Windows representation under which none of them faults.
-/

namespace Asap
open Spec

/-- Execute one operation (`include/filesystem/fs_path.h:53-280` and the functions
of `src/fs_path.cpp` modelled in `Verif/Path/Model.lean`) in the build for the
platform `pl`; for POSIX this is `Op.exec` (`exec_posix`). `el`: does `parent_path`
elide its return move. -/
def Op.execOn (pl : Plat) (el : Bool) (op : Op) (σ : Store) : Res Store :=
  match op with
  | .dflt d => .ok (σ.set d .default)
  | .ctor d s => .ok (σ.set d (mkPath pl s))
  | .copy d s => .ok (σ.set d (σ s))
  | .moveCtor d s => .ok ((σ.set s ((σ s).clear pl)).set d ((σ s).moved pl))
  | .moveAssign d s =>
    if d = s then .ok (σ.set d ((σ d).selfMoveAssign pl))
    else
      let r := Path.moveAssign pl (σ d) (σ s)
      .ok ((σ.set d r.1).set s r.2)
  | .swap a b => .ok ((σ.set a (σ b)).set b (σ a))
  | .rootName d s => .ok (σ.set d (Asap.rootName (σ s)))
  | .rootDirectory d s => do return σ.set d (← Asap.rootDirectory pl (σ s))
  | .rootPath d s => .ok (σ.set d (Asap.rootPath pl (σ s)))
  | .relativePath d s => do return σ.set d (← Asap.relativePath pl (σ s))
  | .parentPath d s => do return σ.set d (← Asap.parentPath pl el (σ s))
  | .filename d s => do return σ.set d (← Asap.filename pl (σ s))
  | .stem d s => .ok (σ.set d (Asap.stem pl (σ s)))
  | .extension d s => .ok (σ.set d (Asap.extension pl (σ s)))
  | .element d s i => .ok (match (σ s).elems[i]? with
      | some e => σ.set d e
      | none => σ)
  | .append d s => do return σ.set d (← Asap.append pl (σ d) (σ s))
  | .concat d s => .ok (σ.set d (Asap.concat pl (σ d) s))
  | .concatPath d s => .ok (σ.set d (Asap.concat pl (σ d) (σ s).pathname))
  | .clear d => .ok (σ.set d ((σ d).clear pl))
  | .makePreferred d => .ok (σ.set d (Asap.makePreferred pl (σ d)))
  | .removeFilename d => do return σ.set d (← Asap.removeFilename pl (σ d))
  | .replaceFilename d s =>
    if d = s then do return σ.set d (← Asap.replaceFilenameSelf pl (σ d))
    else do return σ.set d (← Asap.replaceFilename pl (σ d) (σ s))
  | .replaceExtension d s =>
    if d = s then do return σ.set d (← Asap.replaceExtensionSelf pl (σ d))
    else do return σ.set d (← Asap.replaceExtension pl (σ d) (σ s))
  | .normal d s => do return σ.set d (← lexicallyNormal pl true (σ s))
  | .relative d a b => do return σ.set d (← lexicallyRelative pl (σ a) (σ b))
  | .proximate d a b => do return σ.set d (← lexicallyProximate pl (σ a) (σ b))

/-- Execute a whole history, one operation of `include/filesystem/fs_path.h:53-280`
after the other. -/
def execAllOn (pl : Plat) (el : Bool) : List Op → Store → Res Store
  | [], σ => .ok σ
  | op :: ops, σ => do execAllOn pl el ops (← op.execOn pl el σ)

theorem exec_posix (el : Bool) (op : Op) (σ : Store) : op.execOn .posix el σ = op.exec el σ := by
  cases op <;> rfl

/-! ### Invariant -/

/-- The root elements of a Windows path. -/
inductive Roots : List Comp → Prop where
  | none : Roots []
  | name (n : Comp) : n.type = .rootName → 2 ≤ n.name.length → Roots [n]
  | dir (d : Comp) : d.type = .rootDir → d.name ≠ [] → Roots [d]
  | both (n d : Comp) : n.type = .rootName → 2 ≤ n.name.length → d.type = .rootDir → d.name ≠ [] → Roots [n, d]

/-- The names of a Windows path whose text has `n` characters. -/
structure Files (n : Nat) (fs : List Comp) : Prop where
  file : ∀ c ∈ fs, c.type = .filename ∧ c.name ≠ []
  fits : ∀ c ∈ fs, c.pos + c.name.length ≤ n
  order : fs.Pairwise fun c d => c.pos + c.name.length < d.pos

/-- The representation of a Windows path: good enough for every operation, except that
if `b` a lone `..` may be stored as `MULTI`. -/
inductive Firm (b : Bool) : Path → Prop where
  | dflt : Firm b .default
  | sole (s : Str) (t : PType) : t ≠ .multi → (t = .rootName → 2 ≤ s.length) → Firm b ⟨s, [], t⟩
  | rows (s : Str) (rs fs tr : List Comp) : Roots rs → Files s.length fs →
      (∀ c ∈ tr, c.type = .filename ∧ c.name = [] ∧ tr = [c] ∧ fs ≠ [] ∧ ∀ f ∈ fs, f.pos + f.name.length < s.length) →
      rs ++ fs ++ tr ≠ [] →
      (∀ c, rs ++ fs ++ tr = [c] → c.type = .filename → b = true ∧ c.name = ['.', '.']) →
      (b = false → fs ≠ [] → tr = [] → winEndsSep s = false) →
      Firm b ⟨s, rs ++ fs ++ tr, .multi⟩

variable {b : Bool} {p q : Path}

theorem Firm.weaken (h : Firm b p) : Firm true p := by
  cases h with
  | dflt => exact .dflt
  | sole s t h1 h2 => exact .sole s t h1 h2
  | rows s rs fs tr h1 h2 h3 h4 h5 h6 =>
    exact .rows s rs fs tr h1 h2 h3 h4 (fun c e t => ⟨rfl, (h5 c e t).2⟩) (fun e => by cases e)

theorem toks_within {pl : Plat} (s : Str) : ∀ off, ∀ c ∈ toks pl off s, c.pos + c.name.length ≤ off + s.length := by
  induction s using seg_induction (pl := pl) with
  | h0 w hw =>
    intro off c hc
    rw [toks_noSep off hw, tok1] at hc
    split at hc
    · simp at hc
    · simp at hc; subst hc; exact Nat.le_refl _
  | h1 w d b hw hd ih =>
    intro off c hc
    rw [toks_seg hd hw, List.mem_append] at hc
    rcases hc with hc | hc
    · rw [tok1] at hc
      split at hc
      · simp at hc
      · simp at hc; subst hc; simp only [List.length_append, List.length_cons]; omega
    · have := ih _ c hc
      simp only [List.length_append, List.length_cons]; omega

theorem toks_order {pl : Plat} (s : Str) : ∀ off,
    (toks pl off s).Pairwise fun c d => c.pos + c.name.length < d.pos := by
  induction s using seg_induction (pl := pl) with
  | h0 w hw =>
    intro off
    rw [toks_noSep off hw, tok1]
    split <;> simp
  | h1 w d b hw hd ih =>
    intro off
    rw [toks_seg hd hw, List.pairwise_append]
    refine ⟨?_, ih _, ?_⟩
    · rw [tok1]; split <;> simp
    · intro c hc d' hd'
      have := (toks_mem _ _ _ hd').2.2.2
      rw [tok1] at hc
      split at hc
      · simp at hc
      · simp at hc; subst hc; simp; omega

theorem toks_before_sep {pl : Plat} {s : Str} (h : s.getLast?.any (isSep pl) = true) (off : Nat) :
    ∀ c ∈ toks pl off s, c.pos + c.name.length < off + s.length := by
  obtain ⟨a, d, rfl⟩ : ∃ a d, s = a ++ [d] := by
    cases hs : s.getLast? with
    | none => rw [hs] at h; cases h
    | some d =>
      obtain ⟨a, ha⟩ := List.getLast?_eq_some_iff.mp hs
      exact ⟨a, d, ha⟩
  rw [List.getLast?_append] at h
  have hd : isSep pl d = true := by simpa using h
  intro c hc
  rw [toks_append_sep hd, toks_nil, List.append_nil] at hc
  have := toks_within _ _ c hc
  simp; omega

theorem roots_winRootComps (s : Str) : Roots (winRootComps s) := by
  rw [winRootComps]
  by_cases hn : winRootLen s = 0
  · rw [if_pos hn, List.nil_append]
    split
    · exact .dir _ rfl (by simp)
    · exact .none
  · have h2 : 2 ≤ (winRootName s).length := by rw [winRootName_length]; exact winRootLen_ge hn
    rw [if_neg hn]
    split
    · exact .both _ _ rfl h2 rfl (by simp)
    · exact .name _ rfl h2

theorem firm_mkPath (s : Str) : Firm b (mkPath .windows s) := by
  by_cases hs : s = []
  · subst hs; exact .sole [] .filename (by simp) (by simp)
  by_cases hsing : ∃ c, winComps s = [c]
  · obtain ⟨c, hc⟩ := hsing
    rw [win_single hc hs]
    have := winComps_single hc
    exact .sole _ _ this.2.1 this.2.2.1
  · have hsing : ∀ c, winComps s ≠ [c] := fun c hc => hsing ⟨c, hc⟩
    rw [win_multi hsing hs]
    have hne := winComps_ne hs
    rw [winComps_eq] at hsing hne ⊢
    have hlen : winRootLen s + (winTail s).length = s.length := by
      have := winRootLen_le s
      rw [winTail, List.length_drop]; omega
    refine .rows _ _ _ _ (roots_winRootComps s) ⟨fun c hc => ?_, fun c hc => ?_, toks_order _ _⟩ ?_ hne ?_ ?_
    · have := toks_mem _ _ _ hc; exact ⟨this.1, this.2.1⟩
    · have := toks_within _ _ _ hc; omega
    · intro c hc
      rw [winTrail] at hc ⊢
      split at hc
      · rename_i hw
        rw [if_pos hw]
        rw [List.mem_singleton] at hc
        subst hc
        refine ⟨rfl, rfl, rfl, by rw [ne_eq, toks_win_nil]; exact hw.2, fun f hf => ?_⟩
        have ht : winTail s ≠ [] := by intro h; rw [h] at hw; exact hw.2 winNames_nil
        have hg : (winTail s).getLast?.any (isSep .windows) = true := by
          have := hw.1
          rw [winEndsSep, ← List.take_append_drop (winRootLen s) s, List.getLast?_append] at this
          rw [winTail] at ht ⊢
          cases hl : (s.drop (winRootLen s)).getLast? with
          | none => exact absurd (List.getLast?_eq_none_iff.mp hl) ht
          | some x =>
            rw [hl] at this
            simpa [isSep_windows] using this
        have := toks_before_sep hg _ f hf
        omega
      · cases hc
    · intro c hc; exact absurd hc (hsing c)
    · intro _ h1 h2
      rw [ne_eq, toks_win_nil] at h1
      rw [winTrail] at h2
      split at h2
      · cases h2
      · rename_i hw
        cases he : winEndsSep s with
        | false => rfl
        | true => exact absurd ⟨he, h1⟩ hw

theorem Roots.mem {rs : List Comp} (h : Roots rs) : ∀ c ∈ rs, c.type ≠ .multi ∧ c.type ≠ .filename ∧
    (c.type = .rootName → 2 ≤ c.name.length) := by
  cases h with
  | none => intro c hc; cases hc
  | name n h1 h2 => intro c hc; simp at hc; subst hc; simp [h1, h2]
  | dir d h1 h2 => intro c hc; simp at hc; subst hc; simp [h1]
  | both n d h1 h2 h3 h4 => intro c hc; simp at hc; rcases hc with rfl | rfl <;> simp [*]

theorem Firm.comp (h : Firm b p) : ∀ c ∈ p.comps, c.type ≠ .multi ∧ (c.type = .rootName → 2 ≤ c.name.length) := by
  cases h with
  | dflt => intro c hc; cases hc
  | sole => intro c hc; cases hc
  | rows s rs fs tr h1 h2 h3 h4 h5 h6 =>
    intro c hc
    simp only [List.mem_append] at hc
    rcases hc with (hc | hc) | hc
    · have := h1.mem c hc; exact ⟨this.1, this.2.2⟩
    · simp [(h2.file c hc).1]
    · simp [(h3 c hc).1]

theorem Firm.toPath (h : Firm b p) {c : Comp} (hc : c ∈ p.comps) {b' : Bool} : Firm b' c.toPath :=
  .sole _ _ (h.comp c hc).1 (h.comp c hc).2

theorem Firm.rootName (h : Firm b p) : Firm b (rootName p) := by
  unfold Asap.rootName
  split
  · exact h
  · split
    · rename_i c hc
      split
      · exact h.toPath (List.mem_of_head? hc)
      · exact .dflt
    · exact .dflt

theorem Firm.rootName_len (h : Firm b p) (hr : hasRootName p = true) : 2 ≤ (Asap.rootName p).pathname.length := by
  unfold hasRootName at hr
  unfold Asap.rootName
  split
  · rename_i ht
    cases h with
    | dflt => cases ht
    | sole s t h1 h2 => exact h2 ht
    | rows => cases ht
  · rename_i ht
    cases hc : p.comps.head? with
    | none => rw [hc] at hr; simp [ht] at hr
    | some c =>
      rw [hc] at hr
      have hr : c.type = .rootName := by simpa [ht] using hr
      simp only [hr, if_true]
      exact (h.comp c (List.mem_of_head? hc)).2 hr

theorem charAt_ok {s : Str} {i : Nat} (h : i ≤ s.length) : ∃ c, charAt s i = .ok c := by
  unfold charAt
  split
  · exact ⟨_, rfl⟩
  · rw [if_pos (by omega)]; exact ⟨_, rfl⟩

theorem Firm.rootDirectory (h : Firm b p) : ∃ q, rootDirectory .windows p = .ok q ∧ Firm b q := by
  unfold Asap.rootDirectory
  split
  · exact ⟨_, rfl, h⟩
  · rename_i ht
    have : 1 ≤ p.pathname.length := by
      cases h with
      | dflt => cases ht
      | sole s t h1 h2 => have := h2 ht; dsimp only; omega
      | rows => cases ht
    obtain ⟨c, hc⟩ := charAt_ok this
    rw [hc]
    simp only [bind, Except.bind]
    split
    · exact ⟨_, rfl, firm_mkPath _⟩
    · exact ⟨_, rfl, .dflt⟩
  · split
    · rename_i c hc
      refine ⟨_, rfl, ?_⟩
      split
      · refine h.toPath ?_
        have := List.mem_of_head? hc
        unfold skipType at this
        split at this
        · cases this
        · rename_i c' cs he
          split at this
          · rw [he]; exact List.mem_cons_of_mem _ this
          · rw [he]; exact this
      · exact .dflt
    · exact ⟨_, rfl, .dflt⟩

theorem Firm.hasRootDirectory (h : Firm b p) : ∃ r, hasRootDirectory .windows p = .ok r := by
  obtain ⟨q, hq, _⟩ := h.rootDirectory
  exact ⟨_, by simp only [Asap.hasRootDirectory, hq, bind, Except.bind]; rfl⟩

theorem Firm.rootPath (h : Firm b p) : Firm b (rootPath .windows p) := by
  unfold Asap.rootPath
  split
  · exact h
  · exact h
  · split
    · exact .dflt
    · rename_i c cs he
      have hc : c ∈ p.comps := by rw [he]; simp
      split
      · split
        · split
          · exact firm_mkPath _
          · exact h.toPath hc
        · exact h.toPath hc
      · split
        · exact h.toPath hc
        · exact .dflt

theorem Roots.skip {rs : List Comp} (h : Roots rs) (fs : List Comp) (hf : ∀ c ∈ fs, c.type = .filename) :
    skipType .rootDir (skipType .rootName (rs ++ fs)) = fs := by
  have h1 : ∀ t, t ≠ PType.filename → skipType t fs = fs := by
    intro t ht
    cases fs with
    | nil => rfl
    | cons c cs =>
      have : ¬ c.type = t := by rw [hf c (by simp)]; exact fun e => ht e.symm
      simp [skipType, this]
  cases h with
  | none => simp [h1]
  | name n g1 g2 =>
    have : skipType .rootName ([n] ++ fs) = fs := by simp [skipType, g1]
    rw [this, h1 _ (by simp)]
  | dir d g1 g2 => simp [skipType, g1]
  | both n d g1 g2 g3 g4 => simp [skipType, g1, g3]

theorem files_trail {s : Str} {fs tr : List Comp} (h2 : Files s.length fs)
    (h3 : ∀ c ∈ tr, c.type = .filename ∧ c.name = [] ∧ tr = [c] ∧ fs ≠ [] ∧ ∀ f ∈ fs, f.pos + f.name.length < s.length) :
    ∀ c ∈ fs ++ tr, c.type = .filename := by
  intro c hc
  rw [List.mem_append] at hc
  rcases hc with hc | hc
  · exact (h2.file c hc).1
  · exact (h3 c hc).1

theorem Firm.relativePath (h : Firm b p) : ∃ q, relativePath .windows p = .ok q ∧ Firm b q := by
  cases h with
  | dflt => exact ⟨_, rfl, .dflt⟩
  | sole s t h1 h2 =>
    cases t with
    | multi => exact absurd rfl h1
    | filename => exact ⟨_, rfl, .sole _ _ h1 h2⟩
    | rootName => exact ⟨_, rfl, .dflt⟩
    | rootDir => exact ⟨_, rfl, .dflt⟩
  | rows s rs fs tr h1 h2 h3 h4 h5 h6 =>
    simp only [Asap.relativePath]
    rw [List.append_assoc, h1.skip _ (files_trail h2 h3)]
    cases hh : (fs ++ tr).head? with
    | none => exact ⟨_, rfl, .dflt⟩
    | some c =>
      have hc : c ∈ fs := by
        cases fs with
        | nil =>
          have := List.mem_of_head? hh
          rw [List.nil_append] at this
          exact absurd rfl (h3 c this).2.2.2.1
        | cons f fs => simp at hh; subst hh; simp
      have := h2.fits c hc
      have hs : substrFrom s c.pos = .ok (s.drop c.pos) := by rw [substrFrom, if_pos (by omega)]
      refine ⟨mkPath .windows (s.drop c.pos), ?_, firm_mkPath _⟩
      simp only [hs, bind, Except.bind]; rfl

theorem Firm.hasRelativePath (h : Firm b p) : ∃ r, hasRelativePath .windows p = .ok r := by
  obtain ⟨q, hq, _⟩ := h.relativePath
  exact ⟨_, by simp only [Asap.hasRelativePath, hq, bind, Except.bind]; rfl⟩

/-- Only paths with names have a relative part. -/
theorem Firm.relative_rows (h : Firm b p) (hr : Asap.hasRelativePath .windows p = .ok true) :
    (∃ s, p = ⟨s, [], .filename⟩ ∧ s ≠ []) ∨ ∃ rs fs tr, p.comps = rs ++ fs ++ tr ∧ p.type = .multi ∧ fs ≠ [] := by
  cases h with
  | dflt => cases hr
  | sole s t h1 h2 =>
    cases t with
    | multi => exact absurd rfl h1
    | filename =>
      left
      refine ⟨s, rfl, ?_⟩
      rintro rfl
      cases hr
    | rootName => cases hr
    | rootDir => cases hr
  | rows s rs fs tr h1 h2 h3 h4 h5 h6 =>
    right
    refine ⟨rs, fs, tr, rfl, rfl, ?_⟩
    rintro rfl
    have ht : tr = [] := by
      cases tr with
      | nil => rfl
      | cons c tr => exact absurd rfl (h3 c (by simp)).2.2.2.1
    subst ht
    have := h1.skip [] (by simp)
    rw [List.append_nil] at this
    simp only [Asap.hasRelativePath, Asap.relativePath, List.append_nil, this, List.head?_nil, bind, Except.bind] at hr
    cases hr

theorem Firm.parentPath (h : Firm b p) : ∃ q, parentPath .windows false p = .ok q ∧ Firm b q := by
  obtain ⟨r, hr⟩ := h.hasRelativePath
  simp only [Asap.parentPath, hr, bind, Except.bind]
  cases r with
  | false => exact ⟨p, rfl, h⟩
  | true =>
    simp only [Bool.not_true, Bool.false_eq_true, if_false]
    by_cases ht : p.type = .multi
    · rw [if_pos ht]
      have hk : ∃ kept, parentComps p.comps = .ok kept := by
        cases h with
        | dflt => cases hr
        | sole s t h1 h2 => exact absurd ht h1
        | rows s rs fs tr h1 h2 h3 h4 h5 h6 =>
          simp only [parentComps]
          cases hl : (rs ++ fs ++ tr).getLast? with
          | none => exact absurd (List.getLast?_eq_none_iff.mp hl) h4
          | some l =>
            dsimp only
            split
            · rename_i hn
              split
              · rename_i hd
                exfalso
                have hm := List.mem_of_getLast? hl
                have he : rs ++ fs ++ tr = [l] := by
                  obtain ⟨x, hx⟩ := List.getLast?_eq_some_iff.mp hl
                  rw [hx, List.dropLast_concat] at hd
                  rw [hx, hd]; rfl
                simp only [List.mem_append] at hm
                rcases hm with (hm | hm) | hm
                · cases h1 with
                  | none => cases hm
                  | name n g1 g2 => simp at hm; subst hm; rw [hn] at g2; simp at g2
                  | dir d g1 g2 => simp at hm; subst hm; exact g2 hn
                  | both n d g1 g2 g3 g4 => simp at he
                · exact (h2.file l hm).2 hn
                · have := h3 l hm
                  have hfs := this.2.2.2.1
                  rw [this.2.2.1] at he
                  cases fs with
                  | nil => exact hfs rfl
                  | cons x xs =>
                    have := congrArg List.length he
                    simp only [List.length_append, List.length_cons, List.length_nil] at this
                    omega
              · exact ⟨_, rfl⟩
            · exact ⟨_, rfl⟩
      obtain ⟨kept, hk⟩ := hk
      rw [hk]
      exact ⟨_, rfl, firm_mkPath _⟩
    · rw [if_neg ht]; exact ⟨_, rfl, .dflt⟩

theorem Firm.filename (h : Firm b p) : ∃ q, filename .windows p = .ok q ∧ Firm b q := by
  unfold Asap.filename
  split
  · exact ⟨_, rfl, .dflt⟩
  · rename_i c hc
    split
    · exact ⟨_, rfl, h⟩
    · rename_i ht
      split
      · exact ⟨_, rfl, .dflt⟩
      · split
        · rename_i hl
          exfalso
          cases h with
          | dflt => cases hc
          | sole s t h1 h2 => exact absurd ht h1
          | rows s rs fs tr h1 h2 h3 h4 h5 h6 => exact h4 (List.getLast?_eq_none_iff.mp hl)
        · rename_i l hl
          refine ⟨_, rfl, ?_⟩
          split
          · exact h.toPath (List.mem_of_getLast? hl)
          · exact .dflt
    · exact ⟨_, rfl, .dflt⟩

theorem Firm.hasFilename (h : Firm b p) : ∃ r, hasFilename .windows p = .ok r := by
  obtain ⟨q, hq, _⟩ := h.filename
  exact ⟨_, by simp only [Asap.hasFilename, hq, bind, Except.bind]; rfl⟩

theorem Firm.isAbsolute (h : Firm b p) : ∃ r, isAbsolute .windows p = .ok r := by
  unfold Asap.isAbsolute
  dsimp only
  obtain ⟨r, hr⟩ := h.hasRootDirectory
  split
  · rename_i hn
    have hl := h.rootName_len hn
    obtain ⟨c0, h0⟩ := charAt_ok (s := (Asap.rootName p).pathname) (i := 0) (by omega)
    obtain ⟨c1, h1⟩ := charAt_ok (s := (Asap.rootName p).pathname) (i := 1) (by omega)
    simp only [h0, h1, bind, Except.bind]
    split
    · exact ⟨_, rfl⟩
    · exact ⟨r, hr⟩
  · exact ⟨r, hr⟩

theorem Firm.append (hp : Firm b p) (hq : Firm b q) : ∃ r, append .windows p q = .ok r ∧ Firm b r := by
  obtain ⟨a, ha⟩ := hq.isAbsolute
  obtain ⟨rd, hrd⟩ := hq.hasRootDirectory
  obtain ⟨hf, hhf⟩ := hp.hasFilename
  obtain ⟨sd, hsd⟩ := hp.hasRootDirectory
  obtain ⟨sa, hsa⟩ := hp.isAbsolute
  simp only [Asap.append, appendWith, ha, bind, Except.bind]
  split
  · exact ⟨_, rfl, hq⟩
  · simp only [hrd]
    simp only [hhf, hsd, hsa]
    split
    · exact ⟨_, rfl, firm_mkPath _⟩
    · split
      · exact ⟨_, rfl, firm_mkPath _⟩
      · split
        · exact ⟨_, rfl, firm_mkPath _⟩
        · exact ⟨_, rfl, firm_mkPath _⟩

theorem prefer_len (s : Str) : (preferSlashes .windows s).length = s.length := by simp [preferSlashes]

theorem prefer_ends (s : Str) : winEndsSep (preferSlashes .windows s) = winEndsSep s := by
  simp only [preferSlashes, winEndsSep, List.getLast?_map]
  cases s.getLast? with
  | none => rfl
  | some c => simp only [Option.map_some, Option.any_some]; exact winSep_prefer c

theorem Firm.makePreferred (h : Firm b p) : Firm b (makePreferred .windows p) := by
  cases h with
  | dflt => exact .dflt
  | sole s t h1 h2 => exact .sole _ _ h1 (by rw [prefer_len]; exact h2)
  | rows s rs fs tr h1 h2 h3 h4 h5 h6 =>
    refine .rows _ _ _ _ h1 (by rw [prefer_len]; exact h2) ?_ h4 h5 (by rw [prefer_ends]; exact h6)
    rw [prefer_len]; exact h3

theorem Firm.element (h : Firm b p) {e : Path} (he : e ∈ p.elems) {b' : Bool} : Firm b' e := by
  unfold Path.elems at he
  split at he
  · rw [List.mem_map] at he
    obtain ⟨c, hc, rfl⟩ := he
    exact h.toPath hc
  · rename_i ht
    split at he
    · cases he
    · rw [List.mem_singleton] at he
      subst he
      cases h with
      | dflt => exact .dflt
      | sole s t h1 h2 => exact .sole s t h1 h2
      | rows => exact absurd rfl ht

/-- Elements are not `MULTI`. -/
theorem Firm.element_type (h : Firm b p) {e : Path} (he : e ∈ p.elems) : e.type ≠ .multi := by
  unfold Path.elems at he
  split at he
  · rw [List.mem_map] at he
    obtain ⟨c, hc, rfl⟩ := he
    exact (h.comp c hc).1
  · rename_i ht
    split at he
    · cases he
    · rw [List.mem_singleton] at he
      subst he; exact ht

/-- The last element of a path with names and no trailing separator. -/
theorem rows_last {s : Str} {rs fs tr : List Comp} (h1 : Roots rs) (h2 : Files s.length fs)
    (h3 : ∀ c ∈ tr, c.type = .filename ∧ c.name = [] ∧ tr = [c] ∧ fs ≠ [] ∧ ∀ f ∈ fs, f.pos + f.name.length < s.length)
    {c : Comp} (hl : (rs ++ fs ++ tr).getLast? = some c) (hf : c.type = .filename) (hn : c.name ≠ []) :
    ∃ fs', fs = fs' ++ [c] ∧ tr = [] := by
  have htr : tr = [] := by
    cases tr with
    | nil => rfl
    | cons x xs =>
      have hx := h3 x (by simp)
      rw [hx.2.2.1, List.getLast?_append] at hl
      simp at hl
      subst hl
      exact absurd hx.2.1 hn
  subst htr
  rw [List.append_nil, List.getLast?_append] at hl
  cases hfs : fs.getLast? with
  | none =>
    rw [hfs] at hl
    exact absurd hf (h1.mem c (List.mem_of_getLast? hl)).2.1
  | some x =>
    rw [hfs] at hl
    simp at hl
    subst hl
    obtain ⟨fs', h⟩ := List.getLast?_eq_some_iff.mp hfs
    exact ⟨fs', h, rfl⟩

/-- `Trim` of root elements. -/
theorem firm_trim_roots {rs : List Comp} (h : Roots rs) (hne : rs ≠ []) (s : Str) : Firm b (trim ⟨s, rs, .multi⟩) := by
  have hr : (∀ c, rs ≠ [c]) → Firm b ⟨s, rs, .multi⟩ := by
    intro hs
    have := Firm.rows (b := b) s rs [] [] h ⟨by simp, by simp, by simp⟩ (by simp) (by simpa using hne)
      (fun c hc => absurd (by simpa using hc) (hs c)) (by simp)
    simpa using this
  cases h with
  | none => exact absurd rfl hne
  | name n g1 g2 => exact .sole _ _ (by simp [g1]) (fun _ => g2)
  | dir d g1 g2 => exact .sole _ _ (by simp [g1]) (by simp [g1])
  | both n d g1 g2 g3 g4 => exact hr (by simp)

theorem Firm.removeFilename (h : Firm b p) : (∃ q, removeFilename .windows p = .ok q ∧ Firm b q) ∨
    (Asap.removeFilename .windows p = .error .ub ∧ b = true ∧ p.type = .multi ∧ p.names = [['.', '.']]) := by
  cases h with
  | dflt => exact .inl ⟨_, rfl, .dflt⟩
  | sole s t h1 h2 =>
    cases t with
    | multi => exact absurd rfl h1
    | filename => exact .inl ⟨_, rfl, firm_mkPath _⟩
    | rootName => exact .inl ⟨_, rfl, .sole _ _ h1 h2⟩
    | rootDir => exact .inl ⟨_, rfl, .sole _ _ h1 h2⟩
  | rows s rs fs tr h1 h2 h3 h4 h5 h6 =>
    have hself := Firm.rows s rs fs tr h1 h2 h3 h4 h5 h6
    simp only [Asap.removeFilename]
    cases hl : (rs ++ fs ++ tr).getLast? with
    | none => exact absurd (List.getLast?_eq_none_iff.mp hl) h4
    | some c =>
      dsimp only
      split
      · rename_i hc
        obtain ⟨fs', rfl, rfl⟩ := rows_last h1 h2 h3 hl hc.1 hc.2
        have hfit := h2.fits c (by simp)
        have he : eraseFrom s c.pos = .ok (s.take c.pos) := by rw [eraseFrom, if_pos (by omega)]
        have hlen : (s.take c.pos).length = c.pos := by rw [List.length_take]; omega
        have hdl : (rs ++ (fs' ++ [c]) ++ []).dropLast = rs ++ fs' := by
          rw [List.append_nil, ← List.append_assoc, List.dropLast_concat]
        have ho := h2.order
        rw [List.pairwise_append] at ho
        rw [he, hdl]
        simp only [bind, Except.bind]
        cases hp : (rs ++ fs').getLast? with
        | none =>
          right
          have hn := List.getLast?_eq_none_iff.mp hp
          rw [List.append_eq_nil_iff] at hn
          obtain ⟨rfl, rfl⟩ := hn
          have := h5 c (by simp) hc.1
          exact ⟨rfl, this.1, trivial, by simp [Path.names, Path.elems, Comp.toPath, this.2]⟩
        | some pr =>
          left
          dsimp only
          by_cases hfs : fs' = []
          · subst hfs
            rw [List.append_nil] at hp ⊢
            have hm := h1.mem pr (List.mem_of_getLast? hp)
            have ht : pr.type = .rootDir ∨ pr.type = .rootName := by
              cases hpt : pr.type with
              | multi => exact absurd hpt hm.1
              | filename => exact absurd hpt hm.2.1
              | rootName => exact .inr rfl
              | rootDir => exact .inl rfl
            rw [if_pos ht]
            refine ⟨_, rfl, firm_trim_roots h1 ?_ _⟩
            rintro rfl; cases hp
          · have hpr : pr ∈ fs' := by
              rw [List.getLast?_append] at hp
              cases hx : fs'.getLast? with
              | none => exact absurd (List.getLast?_eq_none_iff.mp hx) hfs
              | some x => rw [hx] at hp; simp at hp; subst hp; exact List.mem_of_getLast? hx
            have ht : ¬ (pr.type = .rootDir ∨ pr.type = .rootName) := by
              rw [(h2.file pr (by simp [hpr])).1]; simp
            rw [if_neg ht]
            refine ⟨_, rfl, ?_⟩
            have hlt : ∀ f ∈ fs', f.pos + f.name.length < c.pos := fun f hf => ho.2.2 f hf c (by simp)
            refine .rows _ _ _ _ h1 ⟨fun f hf => h2.file f (by simp [hf]), fun f hf => ?_, ho.1⟩ ?_ (by simp) ?_ (by simp)
            · rw [hlen]; exact Nat.le_of_lt (hlt f hf)
            · intro x hx
              rw [List.mem_singleton] at hx
              subst hx
              rw [hlen]
              exact ⟨rfl, rfl, rfl, hfs, hlt⟩
            · intro x hx
              have := congrArg List.length hx
              have := List.length_pos_iff.mpr hfs
              simp at *
              omega
      · exact .inl ⟨_, rfl, hself⟩

theorem Firm.replaceFilename {r : Path} (h : Firm b p) (hr : Firm b r) :
    (∃ q, replaceFilename .windows p r = .ok q ∧ Firm b q) ∨
    (Asap.replaceFilename .windows p r = .error .ub ∧ b = true ∧ p.type = .multi ∧ p.names = [['.', '.']]) := by
  rcases h.removeFilename with ⟨q, h1, h2⟩ | ⟨h1, h2⟩
  · obtain ⟨x, h3, h4⟩ := h2.append hr
    exact .inl ⟨x, by simp only [Asap.replaceFilename, h1, bind, Except.bind, h3], h4⟩
  · exact .inr ⟨by simp only [Asap.replaceFilename, h1, bind, Except.bind], h2⟩

theorem Firm.replaceFilenameSelf (h : Firm b p) :
    (∃ q, replaceFilenameSelf .windows p = .ok q ∧ Firm b q) ∨
    (Asap.replaceFilenameSelf .windows p = .error .ub ∧ b = true ∧ p.type = .multi ∧ p.names = [['.', '.']]) := by
  rcases h.removeFilename with ⟨q, h1, h2⟩ | ⟨h1, h2⟩
  · obtain ⟨x, h3, h4⟩ := h2.append h2
    exact .inl ⟨x, by simp only [Asap.replaceFilenameSelf, h1, bind, Except.bind, h3], h4⟩
  · exact .inr ⟨by simp only [Asap.replaceFilenameSelf, h1, bind, Except.bind], h2⟩

theorem rfindDot_lt {s : Str} {i : Nat} (h : rfindDot s = some i) : i < s.length := by
  unfold rfindDot at h
  split at h
  · cases h
  · rename_i j hj
    cases h
    have := (List.findIdx?_eq_some_iff_getElem.mp hj).1
    rw [List.length_reverse] at this
    omega

theorem findExtension_lt {s : Str} {i : Nat} (h : findExtension p = some (s, some i)) :
    extSource p = some s ∧ i < s.length := by
  unfold findExtension at h
  split at h
  · cases h
  · rename_i s' hs
    split at h
    · cases h
    · split at h
      · cases h
      · simp only [Option.some.injEq, Prod.mk.injEq] at h
        obtain ⟨h1, h2⟩ := h
        refine ⟨by rw [hs, h1], ?_⟩
        split at h2
        · cases h2
        · rename_i r hr
          rw [← h1]
          exact rfindDot_lt h2

theorem Firm.eraseExtension (h : Firm b p) : ∃ s, eraseExtension p = .ok s := by
  unfold Asap.eraseExtension
  split
  · rename_i x i hx
    obtain ⟨h1, h2⟩ := findExtension_lt hx
    unfold extSource at h1
    split
    · rename_i ht
      rw [ht] at h1
      cases h1
      exact ⟨_, by rw [eraseFrom, if_pos (Nat.le_of_lt h2)]⟩
    · rename_i ht
      cases hpt : p.type with
      | filename => exact absurd hpt ht
      | rootName => rw [hpt] at h1; cases h1
      | rootDir => rw [hpt] at h1; cases h1
      | multi =>
        rw [hpt] at h1
        cases hl : p.comps.getLast? with
        | none => rw [hl] at h1; cases h1
        | some c =>
          rw [hl] at h1
          simp only [Option.ite_none_right_eq_some, Option.some.injEq] at h1
          obtain ⟨hf, rfl⟩ := h1
          have hn : c.name ≠ [] := by intro e; rw [e] at h2; cases h2
          cases h with
          | dflt => cases hl
          | sole s t g1 g2 => cases hl
          | rows s rs fs tr g1 g2 g3 g4 g5 g6 =>
            obtain ⟨fs', rfl, rfl⟩ := rows_last g1 g2 g3 hl hf hn
            have := g2.fits c (by simp)
            exact ⟨_, by dsimp only; rw [eraseFrom, if_pos (by omega)]⟩
  · exact ⟨_, rfl⟩

theorem Firm.replaceExtension (h : Firm b p) (r : Path) : ∃ q, replaceExtension .windows p r = .ok q ∧ Firm b q := by
  obtain ⟨s, hs⟩ := h.eraseExtension
  exact ⟨_, by simp only [Asap.replaceExtension, hs, bind, Except.bind]; rfl, firm_mkPath _⟩

theorem Firm.replaceExtensionSelf (h : Firm b p) : ∃ q, replaceExtensionSelf .windows p = .ok q ∧ Firm b q := by
  obtain ⟨s, hs⟩ := h.eraseExtension
  exact ⟨_, by simp only [Asap.replaceExtensionSelf, hs, bind, Except.bind]; rfl, firm_mkPath _⟩

theorem firm_stem (p : Path) : Firm b (stem .windows p) := by
  unfold stem
  split
  · exact .dflt
  · exact firm_mkPath _
  · split <;> exact firm_mkPath _

theorem firm_extension (p : Path) : Firm b (extension .windows p) := by
  unfold extension
  split
  · split
    · exact firm_mkPath _
    · exact .dflt
  · exact .dflt

theorem Firm.fold_append (as : List Path) (ha : ∀ a ∈ as, Firm b a) : ∀ {p : Path}, Firm b p →
    ∃ q, as.foldlM (Asap.append .windows) p = .ok q ∧ Firm b q := by
  induction as with
  | nil => intro p h; exact ⟨p, rfl, h⟩
  | cons a as ih =>
    intro p h
    obtain ⟨q, h1, h2⟩ := h.append (ha a (by simp))
    obtain ⟨r, h3, h4⟩ := ih (fun x hx => ha x (by simp [hx])) h2
    exact ⟨r, by simp only [List.foldlM_cons, h1, bind, Except.bind]; exact h3, h4⟩

theorem mismatch_sub : ∀ as bs : List Path, ∀ x ∈ (mismatch as bs).1, x ∈ as
  | [], bs => by simp [mismatch]
  | a :: as, [] => by simp [mismatch]
  | a :: as, b :: bs => by
    intro x hx
    rw [mismatch] at hx
    split at hx
    · exact List.mem_cons_of_mem _ (mismatch_sub as bs x hx)
    · exact hx

theorem Firm.lexicallyRelative {base : Path} (h : Firm b p) (hb : Firm b base) :
    ∃ q, lexicallyRelative .windows p base = .ok q ∧ Firm b q := by
  obtain ⟨pa, h1⟩ := h.isAbsolute
  obtain ⟨ba, h2⟩ := hb.isAbsolute
  obtain ⟨pd, h3⟩ := h.hasRootDirectory
  obtain ⟨bd, h4⟩ := hb.hasRootDirectory
  simp only [Asap.lexicallyRelative, h1, h2, h3, h4, bind, Except.bind]
  split
  · exact ⟨_, rfl, .dflt⟩
  split
  · exact ⟨_, rfl, .dflt⟩
  split
  · exact ⟨_, rfl, .dflt⟩
  split
  · exact ⟨_, rfl, firm_mkPath _⟩
  · split
    · rename_i as bs he _ _
      obtain ⟨ups, g1, g2⟩ := Firm.fold_append (b := b)
        (List.replicate (relCount (mismatch p.elems base.elems).2).toNat (mkPath .windows ['.', '.']))
        (fun a ha => by rw [List.eq_of_mem_replicate ha]; exact firm_mkPath _) .dflt
      rw [g1]
      exact Firm.fold_append _ (fun a ha => h.element (mismatch_sub _ _ _ ha)) g2
    · exact ⟨_, rfl, .dflt⟩

theorem Firm.lexicallyProximate {base : Path} (h : Firm b p) (hb : Firm b base) :
    ∃ q, lexicallyProximate .windows p base = .ok q ∧ Firm b q := by
  obtain ⟨q, h1, h2⟩ := h.lexicallyRelative hb
  simp only [Asap.lexicallyProximate, h1, bind, Except.bind]
  split
  · exact ⟨_, rfl, h⟩
  · exact ⟨_, rfl, h2⟩

/-! ### `lexically_normal` -/

theorem ends_last {s : Str} (h : winEndsSep s = false) : s.getLast? ≠ some '\\' := by
  intro e
  rw [winEndsSep, e] at h
  cases h

/-- A path with names in the last place has a filename. -/
theorem firm_hasFilename {s : Str} {rs fs : List Comp} {c : Comp} (h1 : winEndsSep s = false)
    (h2 : Files s.length (fs ++ [c])) : Asap.hasFilename .windows ⟨s, rs ++ (fs ++ [c]) ++ [], .multi⟩ = .ok true := by
  have hfit := h2.fits c (by simp)
  have hf := h2.file c (by simp)
  have hlen := List.length_pos_iff.mpr hf.2
  have hl : (rs ++ (fs ++ [c]) ++ []).getLast? = some c := by
    rw [List.append_nil, ← List.append_assoc, List.getLast?_concat]
  simp only [Asap.hasFilename, Asap.filename]
  cases hs : s.getLast? with
  | none => rw [List.getLast?_eq_none_iff.mp hs, List.length_nil] at hfit; omega
  | some ch =>
    have : ¬ ch = prefSep .windows := by
      intro e
      exact ends_last h1 (by rw [hs, e]; rfl)
    dsimp only
    rw [if_neg this, hl]
    simp only [hf.1, if_true, bind, Except.bind, pure, Except.pure]
    simp [Path.isEmpty, Comp.toPath, hf.2]

theorem Firm.normalDotDotSlash {ret e : Path} (h : Firm false ret) (he : Firm false e)
    (hf : Asap.hasFilename .windows ret = .ok false) (hr : Asap.hasRelativePath .windows ret = .ok true) :
    ∃ q, normalDotDotSlash .windows ret e = .ok q ∧ Firm false q := by
  have happ := h.append he
  rcases h.relative_rows hr with ⟨s, rfl, hs⟩ | ⟨_, _, _, _, ht, _⟩
  · exfalso
    simp only [Asap.hasFilename, Asap.filename] at hf
    cases hl : s.getLast? with
    | none => exact hs (List.getLast?_eq_none_iff.mp hl)
    | some c =>
      rw [hl] at hf
      simp [bind, Except.bind, pure, Except.pure, Path.isEmpty, hs] at hf
  cases h with
  | dflt => cases hr
  | sole s t h1 h2 => exact absurd ht h1
  | rows s rs fs tr h1 h2 h3 h4 h5 h6 =>
    have hfs : fs ≠ [] := by
      rintro rfl
      have htr : tr = [] := by
        cases tr with
        | nil => rfl
        | cons c tr => exact absurd rfl (h3 c (by simp)).2.2.2.1
      subst htr
      have := h1.skip [] (by simp)
      rw [List.append_nil] at this
      simp only [Asap.hasRelativePath, Asap.relativePath, List.append_nil, this, List.head?_nil, bind, Except.bind] at hr
      cases hr
    obtain ⟨fs', x, rfl⟩ : ∃ fs' x, fs = fs' ++ [x] := by
      cases hx : fs.getLast? with
      | none => exact absurd (List.getLast?_eq_none_iff.mp hx) hfs
      | some x => obtain ⟨fs', e⟩ := List.getLast?_eq_some_iff.mp hx; exact ⟨fs', x, e⟩
    obtain ⟨t, rfl⟩ : ∃ t, tr = [t] := by
      cases tr with
      | nil =>
        rw [firm_hasFilename (h6 rfl hfs rfl) h2] at hf
        cases hf
      | cons t ts => exact ⟨t, (h3 t (by simp)).2.2.1⟩
    have h3t := h3 t (by simp)
    have hrev : (rs ++ (fs' ++ [x]) ++ [t]).reverse = t :: x :: (rs ++ fs').reverse := by simp
    have hx : Firm false x.toPath := by
      refine .sole _ _ ?_ ?_ <;> simp [(h2.file x (by simp)).1]
    obtain ⟨hfx, hhf⟩ := hx.hasFilename
    have hfit := h2.fits x (by simp)
    have hlen : (s.take x.pos).length = x.pos := by rw [List.length_take]; omega
    have ho := h2.order
    rw [List.pairwise_append] at ho
    simp only [Asap.normalDotDotSlash, ne_eq, not_true_eq_false, if_false, hrev, hhf, bind, Except.bind]
    split
    · have hers : eraseFrom s x.pos = .ok (s.take x.pos) := by rw [eraseFrom, if_pos (by omega)]
      split
      · exact ⟨_, rfl, firm_mkPath _⟩
      · rename_i pr prs hpr
        simp only [hers]
        have hrr : prs.reverse ++ [pr] = rs ++ fs' := by
          have := congrArg List.reverse hpr
          simpa using this.symm
        have hpl : (rs ++ fs').getLast? = some pr := by rw [← hrr, List.getLast?_concat]
        have hlt : ∀ f ∈ fs', f.pos + f.name.length < x.pos := fun f hf => ho.2.2 f hf x (by simp)
        have hfiles : Files (s.take x.pos).length fs' :=
          ⟨fun f hf => h2.file f (by simp [hf]), fun f hf => by rw [hlen]; exact Nat.le_of_lt (hlt f hf), ho.1⟩
        split
        · rename_i hpf
          refine ⟨_, rfl, ?_⟩
          have hne : fs' ≠ [] := by
            rintro rfl
            rw [List.append_nil] at hpl
            exact (h1.mem pr (List.mem_of_getLast? hpl)).2.1 hpf
          have := Firm.rows (b := false) (s.take x.pos) rs fs' [t] h1 hfiles (by
            intro c hc
            rw [List.mem_singleton] at hc
            subst hc
            exact ⟨h3t.1, h3t.2.1, rfl, hne, by rw [hlen]; exact hlt⟩) (by simp) (by
            intro c hc
            have := congrArg List.length hc
            have := List.length_pos_iff.mpr hne
            simp at *
            omega) (by simp)
          rw [List.reverse_reverse]
          exact this
        · rename_i hpf
          refine ⟨_, rfl, ?_⟩
          have hnil : fs' = [] := by
            cases hl : fs'.getLast? with
            | none => exact List.getLast?_eq_none_iff.mp hl
            | some y =>
              rw [List.getLast?_append, hl] at hpl
              simp at hpl
              subst hpl
              exact absurd (h2.file y (by simp [List.mem_of_getLast? hl])).1 hpf
          subst hnil
          have := Firm.rows (b := false) (s.take x.pos) rs [] [] h1 ⟨by simp, by simp, by simp⟩ (by simp)
            (by rw [List.append_nil, List.append_nil]; rintro rfl; cases hpl) (by
            intro c hc hcf
            rw [List.append_nil, List.append_nil] at hc
            exact absurd hcf (h1.mem c (by rw [hc]; simp)).2.1) (by simp)
          rw [List.reverse_reverse]
          simpa using this
    · exact happ

theorem Firm.normalStep {ret e : Path} (h : Firm false ret) (he : Firm false e) :
    ∃ q, normalStep .windows ret e = .ok q ∧ Firm false q := by
  unfold Asap.normalStep
  split
  · exact h.append (firm_mkPath _)
  split
  · obtain ⟨hf, hhf⟩ := h.hasFilename
    obtain ⟨f, hff, _⟩ := h.filename
    obtain ⟨hr, hhr⟩ := h.hasRelativePath
    obtain ⟨rd, hrd⟩ := h.hasRootDirectory
    simp only [hhf, hff, hhr, hrd, bind, Except.bind]
    cases hf with
    | true =>
      simp only [if_true]
      split
      · rcases h.removeFilename with g | ⟨_, g, _⟩
        · exact g
        · cases g
      · exact h.append he
    | false =>
      simp only [Bool.false_eq_true, if_false]
      cases hr with
      | false =>
        simp only [Bool.not_false, if_true]
        split
        · exact h.append he
        · exact ⟨_, rfl, h⟩
      | true =>
        simp only [Bool.not_true, Bool.false_eq_true, if_false]
        exact h.normalDotDotSlash he hhf hhr
  split
  · exact h.append .dflt
  · exact h.append he

theorem Firm.normalFold (es : List Path) (hes : ∀ e ∈ es, Firm false e) : ∀ {ret : Path}, Firm false ret →
    ∃ q, es.foldlM (Asap.normalStep .windows) ret = .ok q ∧ Firm false q := by
  induction es with
  | nil => intro ret h; exact ⟨ret, rfl, h⟩
  | cons e es ih =>
    intro ret h
    obtain ⟨q, h1, h2⟩ := h.normalStep (hes e (by simp))
    obtain ⟨r, h3, h4⟩ := ih (fun x hx => hes x (by simp [hx])) h2
    exact ⟨r, by simp only [List.foldlM_cons, h1, bind, Except.bind]; exact h3, h4⟩

theorem Firm.normalFinish {ret : Path} (h : Firm false ret) : Firm true (normalFinish .windows ret) := by
  have hw := h.weaken
  cases h with
  | dflt => exact firm_mkPath ['.']
  | sole s t h1 h2 =>
    simp only [Asap.normalFinish, List.reverse_nil]
    split
    · exact firm_mkPath _
    · exact hw
  | rows s rs fs tr h1 h2 h3 h4 h5 h6 =>
    unfold Asap.normalFinish
    split
    · rename_i back pr before hrev
      split
      · rename_i hb
        have hc : rs ++ fs ++ tr = before.reverse ++ [pr] ++ [back] := by
          have := congrArg List.reverse hrev
          simpa using this
        have htr : tr = [back] := by
          cases tr with
          | nil =>
            exfalso
            rw [List.append_nil] at hc
            have hl : (rs ++ fs).getLast? = some back := by rw [hc, List.getLast?_concat]
            cases hfs : fs.getLast? with
            | some y =>
              rw [List.getLast?_append, hfs] at hl
              simp at hl
              subst hl
              exact (h2.file y (List.mem_of_getLast? hfs)).2 hb.1
            | none =>
              have := List.getLast?_eq_none_iff.mp hfs
              subst this
              rw [List.append_nil] at hl hc
              have hpd : pr.name = ['.', '.'] := by simpa [isDotDot] using hb.2
              cases h1 with
              | none => simp at hc
              | name n g1 g2 =>
                have := congrArg List.length hc
                simp at this
              | dir d g1 g2 =>
                have := congrArg List.length hc
                simp at this
              | both n d g1 g2 g3 g4 => simp at hl; subst hl; exact g4 hb.1
          | cons t ts =>
            have := (h3 t (by simp)).2.2.1
            rw [this] at hc ⊢
            have hl := congrArg List.getLast? hc
            rw [List.getLast?_concat, List.getLast?_concat] at hl
            rw [Option.some.inj hl]
        subst htr
        have h3t := h3 back (by simp)
        have hc' : rs ++ fs = before.reverse ++ [pr] := List.append_cancel_right hc
        have hpd : pr.name = ['.', '.'] := by simpa [isDotDot] using hb.2
        have hlen : s.dropLast.length = s.length - 1 := List.length_dropLast
        have := Firm.rows (b := true) s.dropLast rs fs [] h1
          ⟨h2.file, fun c hc => by have := h3t.2.2.2.2 c hc; rw [hlen]; omega, h2.order⟩ (by simp)
          (by rw [List.append_nil, hc']; simp) (by
          intro c hcs _
          rw [List.append_nil, hc'] at hcs
          refine ⟨rfl, ?_⟩
          have hl := congrArg List.getLast? hcs
          rw [List.getLast?_concat] at hl
          have hl : pr = c := Option.some.inj hl
          rw [← hl]; exact hpd) (by simp)
        rw [show (pr :: before).reverse = rs ++ fs ++ [] by rw [List.append_nil, hc']; simp]
        exact this
      · exact hw
    · split
      · exact firm_mkPath _
      · exact hw

theorem Firm.returned (h : Firm b p) (el : Bool) : Firm b (returned .windows el p) := by
  unfold Asap.returned
  split
  · exact h
  · exact firm_mkPath _

theorem Firm.lexicallyNormal (h : Firm b p) (el : Bool) : ∃ q, lexicallyNormal .windows el p = .ok q ∧ Firm true q := by
  unfold Asap.lexicallyNormal
  split
  · exact ⟨_, rfl, Firm.returned .dflt el⟩
  · obtain ⟨r, h1, h2⟩ := Firm.normalFold p.elems (fun e he => h.element he) .dflt
    exact ⟨_, by simp only [h1, bind, Except.bind]; rfl, h2.normalFinish.returned el⟩

/-- `lexically_normal` without elision: the parse of a text. -/
theorem Firm.lexicallyNormal_parsed (h : Firm b p) : ∃ s, Asap.lexicallyNormal .windows false p = .ok (mkPath .windows s) := by
  unfold Asap.lexicallyNormal
  split
  · exact ⟨[], rfl⟩
  · obtain ⟨r, h1, h2⟩ := Firm.normalFold p.elems (fun e he => h.element he) .dflt
    exact ⟨_, by simp only [h1, bind, Except.bind]; rfl⟩

/-! ### Histories -/

/-- All variables hold consistent paths. -/
def AllFirm (b : Bool) (σ : Store) : Prop := ∀ v, Firm b (σ v)

theorem AllFirm.set {σ : Store} (h : AllFirm b σ) {d : Nat} {p : Path} (hp : Firm b p) : AllFirm b (σ.set d p) := by
  intro v
  unfold Store.set
  split
  · exact hp
  · exact h v

/-- One operation: with `b` (after `lexically_normal`) `remove_filename` and `replace_filename` may fault. -/
theorem execOn_firm {el : Bool} {op : Op} {σ : Store} (h : AllFirm b σ)
    (hel : el = false ∨ ∀ d s, op ≠ .parentPath d s) (hb : b = true ∨ ∀ d s, op ≠ .normal d s) :
    (∃ σ', op.execOn .windows el σ = .ok σ' ∧ AllFirm b σ') ∨
    (op.execOn .windows el σ = .error .ub ∧ ∃ d, (op = .removeFilename d ∨ ∃ s, op = .replaceFilename d s) ∧
      b = true ∧ (σ d).type = .multi ∧ (σ d).names = [['.', '.']]) := by
  have ok : ∀ (d : Nat) {r : Res Path}, (∃ q, r = .ok q ∧ Firm b q) →
      ∃ σ', (do return σ.set d (← r) : Res Store) = .ok σ' ∧ AllFirm b σ' := by
    rintro d r ⟨q, rfl, hq⟩
    exact ⟨_, rfl, h.set hq⟩
  cases op with
  | dflt d => exact Or.inl ⟨_, rfl, h.set .dflt⟩
  | ctor d s => exact Or.inl ⟨_, rfl, h.set (firm_mkPath _)⟩
  | copy d s => exact Or.inl ⟨_, rfl, h.set (h s)⟩
  | moveCtor d s => exact Or.inl ⟨_, rfl, AllFirm.set (h.set (firm_mkPath _)) (firm_mkPath _)⟩
  | moveAssign d s =>
    left
    by_cases hd : d = s
    · refine ⟨σ.set d ((σ d).selfMoveAssign .windows), by simp [Op.execOn, hd], ?_⟩
      exact h.set (p := (σ d).selfMoveAssign .windows) (firm_mkPath [])
    · refine ⟨(σ.set d (σ s)).set s ((σ s).clear .windows), by simp [Op.execOn, hd, Path.moveAssign], ?_⟩
      exact (h.set (h s)).set (firm_mkPath _)
  | swap a b => exact Or.inl ⟨_, rfl, (h.set (h b)).set (h a)⟩
  | rootName d s => exact Or.inl ⟨_, rfl, h.set (h s).rootName⟩
  | rootDirectory d s => exact Or.inl (ok d (h s).rootDirectory)
  | rootPath d s => exact Or.inl ⟨_, rfl, h.set (h s).rootPath⟩
  | relativePath d s => exact Or.inl (ok d (h s).relativePath)
  | parentPath d s =>
    rcases hel with hel | hel
    · subst hel; exact Or.inl (ok d (h s).parentPath)
    · exact absurd rfl (hel d s)
  | filename d s => exact Or.inl (ok d (h s).filename)
  | stem d s => exact Or.inl ⟨_, rfl, h.set (firm_stem _)⟩
  | extension d s => exact Or.inl ⟨_, rfl, h.set (firm_extension _)⟩
  | element d s i =>
    refine Or.inl ⟨_, rfl, ?_⟩
    cases he : (σ s).elems[i]? with
    | none => exact h
    | some e => exact h.set ((h s).element (List.mem_of_getElem? he))
  | append d s => exact Or.inl (ok d ((h d).append (h s)))
  | concat d s => exact Or.inl ⟨_, rfl, h.set (firm_mkPath _)⟩
  | concatPath d s => exact Or.inl ⟨_, rfl, h.set (firm_mkPath _)⟩
  | clear d => exact Or.inl ⟨_, rfl, h.set (firm_mkPath _)⟩
  | makePreferred d => exact Or.inl ⟨_, rfl, h.set (h d).makePreferred⟩
  | removeFilename d =>
    rcases (h d).removeFilename with h1 | ⟨h1, h2⟩
    · exact Or.inl (ok d h1)
    · refine Or.inr ⟨?_, d, Or.inl rfl, h2⟩
      simp only [Op.execOn, h1]; rfl
  | replaceFilename d s =>
    by_cases hd : d = s
    · rcases (h d).replaceFilenameSelf with h1 | ⟨h1, h2⟩
      · left; simp only [Op.execOn, hd, if_true]; rw [← hd]; exact ok d h1
      · refine Or.inr ⟨?_, d, Or.inr ⟨s, rfl⟩, h2⟩
        simp only [Op.execOn, hd, if_true]; rw [← hd, h1]; rfl
    · rcases (h d).replaceFilename (h s) with h1 | ⟨h1, h2⟩
      · left; simp only [Op.execOn, hd, if_false]; exact ok d h1
      · refine Or.inr ⟨?_, d, Or.inr ⟨s, rfl⟩, h2⟩
        simp only [Op.execOn, hd, if_false, h1]; rfl
  | replaceExtension d s =>
    left
    by_cases hd : d = s
    · simp only [Op.execOn, hd, if_true]; rw [← hd]; exact ok d (h d).replaceExtensionSelf
    · simp only [Op.execOn, hd, if_false]; exact ok d ((h d).replaceExtension _)
  | normal d s =>
    rcases hb with rfl | hb
    · exact Or.inl (ok d ((h s).lexicallyNormal true))
    · exact absurd rfl (hb d s)
  | relative d a b => exact Or.inl (ok d ((h a).lexicallyRelative (h b)))
  | proximate d a b => exact Or.inl (ok d ((h a).lexicallyProximate (h b)))

end Asap
