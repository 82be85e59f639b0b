import Verif.Props.PathA

/-!
# Property theorems C13 to C21 (paths)
-/

namespace Asap
open Spec

/-! ## C13 -/

/-- C13. `lexically_normal` succeeds and yields a normal form, and its text is the
spelling of the unique result of rewriting the elements by the C++17 rules. -/
theorem c13_normal {p : Path} (h : Value p) (el : Bool) :
    ∃ q, lexicallyNormal .posix el p = .ok q ∧
      IsNormal q.pathname ∧
      (q.pathname.head? = some '/' ↔ p.pathname.head? = some '/') ∧
      (q.pathname = [] ↔ p.pathname = []) ∧
      q.names = elements q.pathname ∧
      (p.pathname ≠ [] → ∃ l,
        Rws (startsSlash p.pathname) (relElements p.pathname) l ∧
        Reduced (startsSlash p.pathname) l ∧
        q.pathname = spell (startsSlash p.pathname) l ∧
        ∀ l', Rws (startsSlash p.pathname) (relElements p.pathname) l' →
          Reduced (startsSlash p.pathname) l' → l' = l) := by
  obtain ⟨q, h1, h2, h3⟩ := h.shape.lexicallyNormal el
  refine ⟨q, h1, ?_, ?_, ?_, h2.shape.names, ?_⟩
  · rw [h3]; exact normalText_isNormal _
  · rw [h3]
    by_cases hp : p.pathname = []
    · rw [hp]; simp [normalText]
    · rw [← startsSlash_iff, ← startsSlash_iff, (normalText_names hp).1]
  · rw [h3]
    constructor
    · intro hn
      by_cases hp : p.pathname = []
      · exact hp
      · exfalso
        simp only [normalText, hp, if_false] at hn
        split at hn
        · simp at hn
        · exact absurd hn (by assumption)
    · intro hp; rw [hp]; simp [normalText]
  · intro hp
    have hw := relElements_wf p.pathname
    refine ⟨_, rws_run _ hw, run_reduced _ hw, ?_, ?_⟩
    · rw [h3]; exact normalText_spell hp
    · intro l' hl hr
      rw [← reduced_run (hl.wf hw) hr, ← rws_run_eq hl]

example : ∃ q, lexicallyNormal .posix true (mkPath .posix "a/./b/../../..//c/.".toList) = .ok q ∧
    q.pathname = "../c/".toList := ⟨_, rfl, by decide⟩

/-! ## C14 -/

/-- C14. Normalising twice gives the same text as normalising once. -/
theorem c14_idempotent {p : Path} (h : Value p) (el el' : Bool) :
    ∃ q r, lexicallyNormal .posix el p = .ok q ∧ lexicallyNormal .posix el' q = .ok r ∧
      r.pathname = q.pathname ∧ r.names = q.names := by
  obtain ⟨q, h1, h2, h3⟩ := h.shape.lexicallyNormal el
  obtain ⟨r, h4, h5, h6⟩ := h2.shape.lexicallyNormal el'
  have : r.pathname = q.pathname := by rw [h6, h3, normalText_idem]
  exact ⟨q, r, h1, h4, this, by rw [h5.shape.names, h2.shape.names, this]⟩

/-! ## C15 -/

/-- C15. In a world without symbolic links, whatever a path resolves to from a
directory, its normal form resolves to as well. -/
theorem c15_denotation {p : Path} (h : Value p) (el : Bool) (W : World) (cwd n : W.Node)
    (hcwd : W.isDir cwd = true) (hne : p.pathname ≠ []) (hp : walk W cwd p.names = some n) :
    ∃ q, lexicallyNormal .posix el p = .ok q ∧ walk W cwd q.names = some n := by
  obtain ⟨q, h1, h2, h3⟩ := h.shape.lexicallyNormal el
  refine ⟨q, h1, ?_⟩
  rw [h2.shape.names, h3]
  rw [h.shape.names] at hp
  exact walk_normal W hne hcwd hp

/-- A world with a directory `a` in the root. -/
def exampleWorld : World where
  Node := Bool
  root := false
  child := fun n w => if n = false ∧ w = ['a'] then some true else none
  parent := fun _ => false
  isDir := fun _ => true
  child_dir := by intros; rfl
  parent_child := by
    intro n w m h
    by_cases hh : n = false ∧ w = ['a']
    · exact hh.1.symm
    · simp [hh] at h
  parent_root := rfl
  root_dir := rfl

example : walk exampleWorld true (mkPath .posix "../a/./../a".toList).names = some true := rfl

/-! ## C16 -/

/-- The full statement of C16 fails: a trailing slash in the base, and `..` in the
base, give wrong results. -/
theorem c16_violated :
    (∃ r a np, lexicallyRelative .posix (mkPath .posix "a/b".toList) (mkPath .posix "a/".toList) = .ok r ∧
      r.pathname = "../b".toList ∧
      append .posix (mkPath .posix "a/".toList) r = .ok a ∧
      lexicallyNormal .posix true a = .ok np ∧ np.pathname = "b".toList) ∧
    (∃ r a np, lexicallyRelative .posix (mkPath .posix "x".toList) (mkPath .posix "../a".toList) = .ok r ∧
      r.pathname = "x".toList ∧
      append .posix (mkPath .posix "../a".toList) r = .ok a ∧
      lexicallyNormal .posix true a = .ok np ∧ np.pathname = "../a/x".toList) ∧
    (∃ r a np, lexicallyRelative .posix (mkPath .posix "a".toList) (mkPath .posix "a/b".toList) = .ok r ∧
      r.pathname = "..".toList ∧
      append .posix (mkPath .posix "a/b".toList) r = .ok a ∧
      lexicallyNormal .posix true a = .ok np ∧ np.pathname = "a/".toList) := by
  refine ⟨⟨_, _, _, rfl, by decide, rfl, rfl, by decide⟩, ⟨_, _, _, rfl, by decide, rfl, rfl, by decide⟩,
    ⟨_, _, _, rfl, by decide, rfl, rfl, by decide⟩⟩

/-- C16, partial. `lexically_relative` never faults; it is empty when exactly one operand
is absolute and `.` when the operands are the same. If, after a common prefix, the base
has no `..` and no trailing separator, a non-empty result `r` satisfies: `base / r` and `p`
normalise to the same root and filenames, and to the same text unless all of `p`'s
elements are a prefix of the base's.
Missing: bases with a trailing separator or `..` after the common prefix, and
the trailing separator in the last case; there the property is false (`c16_violated`). -/
theorem c16_relative_partial {p base : Path} (hp : Value p) (hb : Value base) :
    ∃ r, lexicallyRelative .posix p base = .ok r ∧
      (¬ (p.pathname.head? = some '/' ↔ base.pathname.head? = some '/') → r.pathname = []) ∧
      (p.names = base.names → r.pathname = dot) ∧
      ∀ c as bs, p.pathname ≠ [] → p.names = c ++ as → base.names = c ++ bs →
        dotdot ∉ bs → [] ∉ bs → r.pathname ≠ [] →
        ∃ a na np, append .posix base r = .ok a ∧ lexicallyNormal .posix true a = .ok na ∧
          lexicallyNormal .posix true p = .ok np ∧
          (na.pathname.head? = some '/' ↔ np.pathname.head? = some '/') ∧
          na.names.filter (· ≠ []) = np.names.filter (· ≠ []) ∧
          (¬ p.names <+: base.names → na.pathname = np.pathname) := by
  obtain ⟨r, h1, h2, _, h4⟩ := hp.shape.lexicallyRelative hb.shape
  refine ⟨r, h1, ?_, ?_, ?_⟩
  · intro hne
    rw [h4, relText, if_neg]
    intro he
    rw [← startsSlash_iff, ← startsSlash_iff, he] at hne
    exact hne Iff.rfl
  · intro he
    rw [hp.shape.names, hb.shape.names] at he
    have hst : startsSlash p.pathname = startsSlash base.pathname := by
      have key : ∀ s, startsSlash s = ((elements s).head? == some ['/']) := by
        intro s
        unfold elements
        cases hs : startsSlash s
        · simp only [Bool.false_eq_true, if_false, List.nil_append]
          symm
          rw [beq_eq_false_iff_ne]
          intro hh
          cases hf : filenames s with
          | nil => rw [hf] at hh; simp at hh
          | cons w ws =>
            rw [hf] at hh
            simp at hh
            have : IsName w := filenames_mem (by rw [hf]; simp)
            exact this.ne_slash hh
        · simp
      rw [key, key, he]
    rw [h4, relText, if_pos hst, he, strip_self]
  · intro c as bs hpne hpe hbe hdd hemp hr
    rw [hp.shape.names] at hpe
    rw [hb.shape.names] at hbe
    have hst : startsSlash p.pathname = startsSlash base.pathname := by
      by_cases h : startsSlash p.pathname = startsSlash base.pathname
      · exact h
      · rw [h4, relText, if_neg h] at hr; exact absurd rfl hr
    obtain ⟨c', e1, e2⟩ := strip_spec (relElements p.pathname) (relElements base.pathname)
    -- the stripped base is a suffix of `bs`
    have hsub : ∀ w ∈ (strip (relElements p.pathname) (relElements base.pathname)).2, w ∈ bs := by
      rw [← strip_rel hst, hpe, hbe, strip_suffix]
      obtain ⟨d, _, e4⟩ := strip_spec as bs
      intro w hw
      rw [e4]; simp [hw]
    have key := rel_inverts (c := c') (as := (strip (relElements p.pathname) (relElements base.pathname)).1)
      (bs := (strip (relElements p.pathname) (relElements base.pathname)).2) hpne hst e1 e2 rfl
      (fun h => hdd (hsub _ h)) (fun h => hemp (hsub _ h)) (by rw [← h4]; exact hr)
    have hrs : startsSlash r.pathname = false := by
      rw [h4]; unfold relText
      rw [if_pos hst, strip_rel hst]
      have hwf := relWf_suffix (relElements_wf p.pathname) e1
      split
      · rfl
      · rename_i as' bs' _ heq
        have : as' = (strip (relElements p.pathname) (relElements base.pathname)).1 := by rw [heq]
        split
        · rfl
        · rename_i as'' _ _ 
          by_cases hj : join (List.replicate (upCount bs').toNat dotdot ++ as') = []
          · rw [hj]; rfl
          · exact (relElements_join (relWf_ups (this ▸ hwf) _) hj).1
    have ha : ∃ a, append .posix base r = .ok a ∧ Shape a ∧
        a.pathname = appendText base.pathname (relText p.pathname base.pathname) := by
      rw [hb.shape.append h2.shape, hrs, if_neg (by simp)]
      refine ⟨_, rfl, mkPath_shape _, ?_⟩
      rw [mkPath_pathname, h4, stored_appendText _ _ (by rw [← h4]; exact hrs) hb.shape.stored]
    obtain ⟨a, a1, a2, a3⟩ := ha
    obtain ⟨na, n1, n2, n3⟩ := a2.lexicallyNormal true
    obtain ⟨np, m1, m2, m3⟩ := hp.shape.lexicallyNormal true
    refine ⟨a, na, np, a1, n1, m1, ?_, ?_, ?_⟩
    · rw [← startsSlash_iff, ← startsSlash_iff, n3, m3, a3, key.1]
    · have hfil : ∀ s : Str, (elements s).filter (· ≠ []) =
          (if startsSlash s then [['/']] else []) ++ filenames s := by
        intro s
        unfold elements
        rw [List.filter_append, List.filter_append]
        have h1 : (filenames s).filter (· ≠ []) = filenames s := by
          rw [List.filter_eq_self]; intro w hw; simpa using (filenames_mem hw).1
        rw [h1]
        have h2 : (if endsSlash s = true ∧ filenames s ≠ [] then [([] : Str)] else []).filter (· ≠ []) = [] := by
          split <;> simp
        rw [h2, List.append_nil]
        congr 1
        split <;> simp
      rw [n2.shape.names, m2.shape.names, hfil, hfil, n3, m3, a3, key.1, key.2.1]
    · intro hpre
      rw [n3, m3, a3]
      apply key.2.2
      intro has
      apply hpre
      rw [hp.shape.names, hb.shape.names, elements_rel, elements_rel, hst]
      rw [has, List.append_nil] at e1
      rw [e2, ← e1, ← List.append_assoc]
      exact List.prefix_append _ _

example : ∃ r, lexicallyRelative .posix (mkPath .posix "/a/d".toList) (mkPath .posix "/a/b/c".toList) = .ok r ∧
    r.pathname = "../../d".toList ∧
    (mkPath .posix "/a/d".toList).names = ["/".toList, "a".toList] ++ ["d".toList] ∧
    (mkPath .posix "/a/b/c".toList).names = ["/".toList, "a".toList] ++ ["b".toList, "c".toList] :=
  ⟨_, rfl, by decide⟩

/-! ## C17 -/

/-- C17. `lexically_proximate` is `lexically_relative` if that is non-empty, else the
path itself; so it is empty only for an empty path. -/
theorem c17_proximate {p base : Path} (hp : Value p) (hb : Value base) :
    ∃ r q, lexicallyRelative .posix p base = .ok r ∧ lexicallyProximate .posix p base = .ok q ∧
      q = (if r.pathname = [] then p else r) ∧ (q.pathname = [] → p.pathname = []) := by
  obtain ⟨r, h1, _⟩ := hp.shape.lexicallyRelative hb.shape
  refine ⟨r, if r.pathname = [] then p else r, h1, ?_, rfl, ?_⟩
  · simp only [lexicallyProximate, h1, bind, Except.bind, pure, Except.pure]
    split <;> rfl
  · split
    · exact id
    · rename_i h; intro h'; exact absurd h' h

example : ∃ q, lexicallyProximate .posix (mkPath .posix "a".toList) (mkPath .posix "/b".toList) = .ok q ∧
    q.pathname = "a".toList := ⟨_, rfl, by decide⟩

/-! ## C18 -/

/-- The full statement of C18 fails: normalising `../` gives a value on which
`remove_filename` has undefined behaviour. -/
theorem c18_violated : ∃ p, Reach p ∧ p.pathname = "..".toList ∧
    removeFilename .posix p = .error .ub ∧
    ∀ f, replaceFilename .posix p f = .error .ub :=
  ⟨_, ⟨false, [.ctor 0 "../".toList, .normal 1 0], _, 1, Or.inl rfl, rfl, rfl⟩, by decide, rfl, fun _ => rfl⟩

/-- C18, partial: for every obtainable value other than a `..` that came out of
`lexically_normal`. `stored` only matters for a text of slashes: `//a` becomes `/`.
Missing: that one value, where the calls are undefined (`c18_violated`). -/
theorem c18_remove_filename_partial {p : Path} (h : Reach p)
    (hp : p.pathname ≠ "..".toList ∨ ∃ s, p = mkPath .posix s) :
    ∃ q, removeFilename .posix p = .ok q ∧
      q.pathname = stored (dirPart p.pathname) ∧
      q.names = elements (dirPart p.pathname) ∧
      hasFilename .posix q = .ok false ∧
      (∃ q', removeFilename .posix q = .ok q' ∧ q'.pathname = q.pathname ∧ q'.names = q.names) ∧
      ∀ f, Value f → f.pathname.head? ≠ some '/' →
        ∃ r, replaceFilename .posix p f = .ok r ∧ r.pathname = stored (dirPart p.pathname) ++ f.pathname := by
  have hsafe : Safe p := by
    rcases hp with hp | ⟨s, rfl⟩
    · by_cases hs : Safe p
      · exact hs
      · exact absurd (h.good.odd hs).2 hp
    · exact mkPath_safe s
  obtain ⟨q, h1, h2, h3, h4⟩ := h.loose.removeFilename hsafe
  have hfile : filePart q.pathname = [] := by
    rw [h4, filePart_eq_nil_iff]
    rcases dirPart_nil_or_slash p.pathname with hd | ⟨a, ha⟩
    · left; rw [hd]; rfl
    · right
      unfold stored
      split
      · rfl
      · rw [ha]; exact endsSlash_append_slash a
  have hdir : dirPart q.pathname = q.pathname := by
    have := dirPart_append_filePart q.pathname
    rw [hfile, List.append_nil] at this; exact this
  refine ⟨q, h1, h4, ?_, ?_, ?_, ?_⟩
  · rw [h2.shape.names, h4, elements_stored]
  · rw [h2.shape.hasFilename, hfile]; rfl
  · obtain ⟨q', g1, g2, _, g4⟩ := h2.removeFilename h3
    have : q'.pathname = q.pathname := by rw [g4, hdir, h2.shape.stored]
    exact ⟨q', g1, this, by rw [g2.shape.names, h2.shape.names, this]⟩
  · intro f hf hfs
    have hfs' : startsSlash f.pathname = false := by
      rw [Bool.eq_false_iff, ne_eq, startsSlash_iff]; exact hfs
    simp only [replaceFilename, h1, bind, Except.bind]
    rw [h2.shape.append hf.shape, hfs', if_neg (by simp)]
    refine ⟨_, rfl, ?_⟩
    rw [mkPath_pathname, stored_appendText _ _ hfs' h2.shape.stored, appendText_dir hfile, h4]

example : ∃ p q, Reach p ∧ p.pathname = "a/b".toList ∧ removeFilename .posix p = .ok q ∧
    q.pathname = "a/".toList := ⟨mkPath .posix "a/b".toList, _, reach_mkPath _, by decide, rfl, by decide⟩

/-! ## C19 -/

/-- The statement fails when the replacement is the path itself. -/
theorem c19_violated_alias :
    (∃ q, replaceExtensionSelf .posix (mkPath .posix "a.b".toList) = .ok q ∧ q.pathname = "a.a.".toList) ∧
    (∃ q, replaceExtension .posix (mkPath .posix "a.b".toList) (mkPath .posix "a.b".toList) = .ok q ∧
      q.pathname = "a.a.b".toList) :=
  ⟨⟨_, rfl, by decide⟩, ⟨_, rfl, by decide⟩⟩

theorem parentText_file (d : Str) {v w : Str} (hd : d = [] ∨ ∃ a, d = a ++ ['/']) (hv : IsName v) (hw : IsName w) :
    parentText (d ++ v) = parentText (d ++ w) := by
  have key : ∀ {x : Str}, IsName x → parentText (d ++ x) = render (startsSlash d) (filenames d) false := by
    intro x hx
    have hf : filenames (d ++ x) = filenames d ++ [x] := by
      rcases hd with rfl | ⟨a, rfl⟩
      · simp [filenames_noSlash hx.2, hx.1, filenames_nil]
      · rw [List.append_assoc, List.singleton_append, filenames_append_slash, filenames_slash_end,
          filenames_noSlash hx.2, if_neg hx.1]
    have hs : startsSlash (d ++ x) = startsSlash d := by
      rcases hd with rfl | ⟨a, rfl⟩
      · simp [startsSlash_name hx.2, startsSlash_nil]
      · cases a <;> simp [startsSlash]
    rw [parentText, hf, hs]
    simp
  rw [key hv, key hw]

/-- C19, partial: the replacement is another object than the path. The old extension
is removed and the new one, with a dot unless it has one or is empty, is appended.
Missing: `p.replace_extension(p)`, see `c19_violated_alias`. -/
theorem c19_replace_extension_partial {p : Path} (h : Reach p) (e : Path) :
    ∃ r base, replaceExtension .posix p e = .ok r ∧
      p.pathname = base ++ (extension .posix p).pathname ∧
      r.pathname = base ++ (if e.pathname = [] then []
        else if e.pathname.head? = some '.' then e.pathname else '.' :: e.pathname) ∧
      (∀ f b, filename .posix p = .ok f → f.pathname ≠ [] → b ≠ [] → '.' ∉ b → '/' ∉ b →
        (e.pathname = b ∨ e.pathname = '.' :: b) →
        (extension .posix r).pathname = '.' :: b ∧
        (stem .posix r).pathname = (stem .posix p).pathname ∧
        ∀ el, textOf (parentPath .posix el r) = textOf (parentPath .posix el p)) ∧
      (e.pathname = (extension .posix p).pathname → r.pathname = p.pathname ∧ r.names = p.names) := by
  have hs := h.shape
  have hdf := dirPart_append_filePart p.pathname
  have hse := stemOf_append_extOf (filePart p.pathname)
  have hdot : dotted e.pathname = (if e.pathname = [] then []
        else if e.pathname.head? = some '.' then e.pathname else '.' :: e.pathname) := by
    unfold dotted
    by_cases h1 : e.pathname = []
    · simp [h1]
    · by_cases h2 : e.pathname.head? = some '.' <;> simp [h1, h2]
  have htext : stored (dirPart p.pathname ++ stemOf (filePart p.pathname) ++ dotted e.pathname) =
      dirPart p.pathname ++ stemOf (filePart p.pathname) ++ dotted e.pathname := by
    apply stored_eq_self
    intro hf
    rw [filenames_eq_nil_iff, List.all_append, List.all_append] at hf
    simp only [Bool.and_eq_true] at hf
    have hd0 : dotted e.pathname = [] := by
      have := hf.2
      unfold dotted at this ⊢
      split
      · rename_i hc
        rcases hc with hc | hc
        · exact hc
        · rw [if_pos (Or.inr hc)] at this
          cases hep : e.pathname with
          | nil => rfl
          | cons c cs => rw [hep] at hc this; simp at hc this; rw [hc] at this; exact absurd this.1 (by decide)
      · rename_i hc; rw [if_neg hc] at this; simp at this
    have hst0 : stemOf (filePart p.pathname) = [] := by
      have h1 := hf.1.2
      have h2 := stemOf_noSlash (filePart_noSlash' p.pathname)
      cases hx : stemOf (filePart p.pathname) with
      | nil => rfl
      | cons c cs => rw [hx] at h1 h2; simp at h1 h2; exact absurd h1.1.symm h2.1
    have hfp : filePart p.pathname = [] := by
      by_cases hx : filePart p.pathname = []
      · exact hx
      · exact absurd hst0 (stemOf_ne_nil hx)
    rw [hd0, hst0, List.append_nil, List.append_nil]
    rw [hfp, List.append_nil] at hdf
    rw [hdf] at hf ⊢
    have := hs.stored
    unfold stored at this
    by_cases h0 : p.pathname = []
    · exact Or.inl h0
    · rw [if_pos ⟨h0, hf.1.1⟩] at this; exact Or.inr this.symm
  refine ⟨_, dirPart p.pathname ++ stemOf (filePart p.pathname), h.loose.replaceExtension e, ?_, ?_, ?_, ?_⟩
  · rw [hs.extension_pathname, List.append_assoc, hse, hdf]
  · rw [mkPath_pathname, htext, hdot]
  · intro f b hf hfne hb hbd hbs he
    rw [hs.filename] at hf
    cases hf
    rw [fileOf_pathname] at hfne
    have hde : dotted e.pathname = '.' :: b := by
      unfold dotted
      rcases he with he | he
      · rw [he, if_neg]
        rintro (hc | hc)
        · exact hb hc
        · exact hbd (List.mem_of_head? hc)
      · rw [he]; simp
    have hstem := stemOf_ne_nil hfne
    have hns : '/' ∉ stemOf (filePart p.pathname) ++ '.' :: b := by
      simp only [List.mem_append, List.mem_cons, not_or]
      exact ⟨stemOf_noSlash (filePart_noSlash' _), by decide, hbs⟩
    have hnm : IsName (stemOf (filePart p.pathname) ++ '.' :: b) := ⟨by simp, hns⟩
    have hfp : filePart (dirPart p.pathname ++ (stemOf (filePart p.pathname) ++ '.' :: b)) =
        stemOf (filePart p.pathname) ++ '.' :: b := by
      rcases dirPart_nil_or_slash p.pathname with hd | ⟨a, ha⟩
      · rw [hd, List.nil_append, filePart_noSlash hns]
      · rw [ha, List.append_assoc, List.singleton_append, filePart_slash _ hns]
    have hx : HasExt (stemOf (filePart p.pathname) ++ '.' :: b) := by
      refine ⟨?_, ?_⟩
      · intro hc
        cases hx : stemOf (filePart p.pathname) with
        | nil => exact hstem hx
        | cons c cs =>
          rw [hx] at hc
          cases cs with
          | nil => simp at hc; exact hb hc.2
          | cons d ds => simp at hc
      · cases hx : stemOf (filePart p.pathname) with
        | nil => exact absurd hx hstem
        | cons c cs => simp
    have hrt : (mkPath .posix (dirPart p.pathname ++ stemOf (filePart p.pathname) ++ dotted e.pathname)).pathname =
        dirPart p.pathname ++ (stemOf (filePart p.pathname) ++ '.' :: b) := by
      rw [mkPath_pathname, htext, hde, List.append_assoc]
    refine ⟨?_, ?_, ?_⟩
    · rw [(mkPath_shape _).extension_pathname, hrt, hfp, extOf_dot hbd hx]
    · rw [(mkPath_shape _).stem_pathname, hrt, hfp, stemOf_dot hbd hx, hs.stem_pathname]
    · intro el
      obtain ⟨q, q1, _, q3, _⟩ := (mkPath_loose (dirPart p.pathname ++ stemOf (filePart p.pathname) ++
        dotted e.pathname)).parentPath el
      obtain ⟨q', q1', _, q3', _⟩ := h.loose.parentPath el
      rw [q1, q1']
      simp only [textOf, Except.map]
      rw [q3, q3', hrt]
      conv => rhs; rw [← hdf]
      exact congrArg _ (parentText_file _ (dirPart_nil_or_slash _) hnm ⟨hfne, filePart_noSlash' _⟩)
  · intro he
    have hde : dotted e.pathname = extOf (filePart p.pathname) := by
      rw [he, hs.extension_pathname]
      by_cases hx : HasExt (filePart p.pathname)
      · simp [extOf, hx, dotted]
      · simp [extOf, hx, dotted]
    have : (mkPath .posix (dirPart p.pathname ++ stemOf (filePart p.pathname) ++ dotted e.pathname)).pathname =
        p.pathname := by
      rw [mkPath_pathname, htext, hde, List.append_assoc, hse, hdf]
    exact ⟨this, by rw [(mkPath_shape _).names, hs.names, this]⟩

example : ∃ r, replaceExtension .posix (mkPath .posix "/d/a.tar.gz".toList) (mkPath .posix "xz".toList) = .ok r ∧
    r.pathname = "/d/a.tar.xz".toList := ⟨_, rfl, by decide⟩

/-! ## C20 -/

/-- The full statement of C20 fails. With every compiler: `../` normalised, then
`remove_filename`. With copy elision in `parent_path`: `foo/bar` gives undefined
behaviour in `remove_filename`, and `///a/b` makes `relative_path` throw. -/
theorem c20_violated :
    (∀ el, execAll el [.ctor 0 "../".toList, .normal 0 0, .removeFilename 0] (fun _ => .default) = .error .ub) ∧
    (execAll true [.ctor 0 "foo/bar".toList, .parentPath 0 0, .removeFilename 0] (fun _ => .default) = .error .ub) ∧
    (execAll true [.ctor 0 "///a/b".toList, .parentPath 0 0, .relativePath 0 0] (fun _ => .default)
      = .error .outOfRange) := by
  refine ⟨?_, ?_, ?_⟩
  · intro el; cases el <;> rfl
  · rfl
  · rfl

theorem execAll_safe {el b : Bool} : ∀ {ops : List Op} {σ : Store},
    (el = false ∨ ∀ d s, Op.parentPath d s ∉ ops) →
    (b = true ∨ ∀ d s, Op.normal d s ∉ ops) →
    (b = false ∨ ∀ d s, Op.removeFilename d ∉ ops ∧ Op.replaceFilename d s ∉ ops) →
    AllGood b σ → ∃ σ', execAll el ops σ = .ok σ' ∧ AllGood b σ'
  | [], σ, _, _, _, h => ⟨σ, rfl, h⟩
  | op :: ops, σ, h1, h2, h3, h => by
    rcases exec_good (op := op) (el := el) h (by
      rcases h1 with h1 | h1
      · exact Or.inl h1
      · exact Or.inr (fun d s e => h1 d s (by simp [e]))) (by
      rcases h2 with h2 | h2
      · exact Or.inl h2
      · exact Or.inr (fun d s e => h2 d s (by simp [e]))) with ⟨σ1, g1, g2⟩ | ⟨_, d, hop, hb, _⟩
    · simp only [execAll, g1, bind, Except.bind]
      refine execAll_safe ?_ ?_ ?_ g2
      · rcases h1 with h1 | h1
        · exact Or.inl h1
        · exact Or.inr (fun d s hm => h1 d s (by simp [hm]))
      · rcases h2 with h2 | h2
        · exact Or.inl h2
        · exact Or.inr (fun d s hm => h2 d s (by simp [hm]))
      · rcases h3 with h3 | h3
        · exact Or.inl h3
        · exact Or.inr (fun d s => ⟨fun hm => (h3 d s).1 (by simp [hm]), fun hm => (h3 d s).2 (by simp [hm])⟩)
    · exfalso
      rcases h3 with h3 | h3
      · rw [h3] at hb; cases hb
      · rcases hop with rfl | ⟨s, rfl⟩
        · exact (h3 d 0).1 (by simp)
        · exact (h3 d s).2 (by simp)

/-- C20, partial: a history runs without fault if `parent_path` does not elide its
return (or is not used), and `lexically_normal` is not combined with
`remove_filename`/`replace_filename`; all values behave like the re-parse of
their text. Missing: the excluded combinations, where the property is false
(`c20_violated`); `c20_fault_partial` bounds what can go wrong. -/
theorem c20_no_fault_partial (el : Bool) (ops : List Op)
    (h1 : el = false ∨ ∀ d s, Op.parentPath d s ∉ ops)
    (h2 : (∀ d s, Op.normal d s ∉ ops) ∨ ∀ d s, Op.removeFilename d ∉ ops ∧ Op.replaceFilename d s ∉ ops) :
    ∃ σ, execAll el ops (fun _ => .default) = .ok σ ∧
      ∀ v, Alike (σ v) (mkPath .posix (σ v).pathname) := by
  have : ∃ b, ∃ σ, execAll el ops (fun _ => .default) = .ok σ ∧ AllGood b σ := by
    rcases h2 with h2 | h2
    · exact ⟨false, execAll_safe h1 (Or.inr h2) (Or.inl rfl) (fun _ => good_default)⟩
    · exact ⟨true, execAll_safe h1 (Or.inl rfl) (Or.inr h2) (fun _ => good_default)⟩
  obtain ⟨b, σ, e, hg⟩ := this
  refine ⟨σ, e, fun v => ?_⟩
  exact alike_of_text (hg v).loose (mkPath_loose _) (by rw [mkPath_pathname, (hg v).shape.stored])

/-- C20, partial: without elision, the only fault any history can run into is
`remove_filename` or `replace_filename` on a `..` that is not the parse of `..`. -/
theorem c20_fault_partial (el : Bool) (ops : List Op) (e : Fault)
    (h1 : el = false ∨ ∀ d s, Op.parentPath d s ∉ ops)
    (he : execAll el ops (fun _ => .default) = .error e) :
    e = .ub ∧ ∃ pre op post σ d, ops = pre ++ op :: post ∧ execAll el pre (fun _ => .default) = .ok σ ∧
      (op = .removeFilename d ∨ ∃ s, op = .replaceFilename d s) ∧
      (σ d).pathname = "..".toList ∧ σ d ≠ mkPath .posix "..".toList := by
  have key : ∀ (ops : List Op) (σ : Store), (el = false ∨ ∀ d s, Op.parentPath d s ∉ ops) →
      AllGood true σ → execAll el ops σ = .error e →
      e = .ub ∧ ∃ pre op post σ' d, ops = pre ++ op :: post ∧ execAll el pre σ = .ok σ' ∧
      (op = .removeFilename d ∨ ∃ s, op = .replaceFilename d s) ∧
      (σ' d).pathname = "..".toList ∧ σ' d ≠ mkPath .posix "..".toList := by
    intro ops
    induction ops with
    | nil => intro σ _ _ h; cases h
    | cons op ops ih =>
      intro σ h1 hg h
      rcases exec_good (op := op) (el := el) hg (by
        rcases h1 with h1 | h1
        · exact Or.inl h1
        · exact Or.inr (fun d s e => h1 d s (by simp [e]))) (Or.inl rfl) with ⟨σ1, g1, g2⟩ | ⟨g1, d, hop, _, ht, hx⟩
      · simp only [execAll, g1, bind, Except.bind] at h
        obtain ⟨k1, pre, op', post, σ', d, k2, k3, k4⟩ := ih σ1 (by
          rcases h1 with h1 | h1
          · exact Or.inl h1
          · exact Or.inr (fun d s hm => h1 d s (by simp [hm]))) g2 h
        refine ⟨k1, op :: pre, op', post, σ', d, by rw [k2]; rfl, ?_, k4⟩
        simp only [execAll, g1, bind, Except.bind]; exact k3
      · simp only [execAll, g1, bind, Except.bind] at h
        cases h
        refine ⟨rfl, [], op, ops, σ, d, rfl, rfl, hop, hx, ?_⟩
        intro hc
        rw [hc] at ht
        exact absurd ht (by decide)
  exact key ops _ h1 (fun _ => good_default) he

example : ∃ σ, execAll false [.ctor 0 "a/b".toList, .copy 1 0, .append 0 0, .parentPath 2 0, .removeFilename 2,
    .concatPath 1 2, .relative 3 0 1, .moveAssign 4 3] (fun _ => .default) = .ok σ ∧
    (σ 4).pathname = "../../../b/a/b".toList ∧ (σ 3).pathname = [] := ⟨_, rfl, by decide⟩

/-! ## C21 -/

/-- Apply `parent_path` `n` times. -/
def parentIter (el : Bool) : Nat → Path → Res Path
  | 0, p => .ok p
  | n + 1, p => do parentIter el n (← parentPath .posix el p)

/-- With copy elision the full statement fails: the second call throws. -/
theorem c21_violated : parentIter true 2 (mkPath .posix "///a/b".toList) = .error .outOfRange := rfl

/-- C21, partial: without copy elision, after at most as many steps as the path has
elements, `parent_path` reaches a path without filename, and from there on stays.
Missing: compilers that elide the return, see `c21_violated`. -/
theorem c21_parent_terminates_partial {p : Path} (h : Reach p) :
    ∃ n q, n ≤ p.names.length ∧ parentIter false n p = .ok q ∧
      hasFilename .posix q = .ok false ∧
      ∀ m, ∃ q', parentIter false m q = .ok q' ∧ q'.pathname = q.pathname := by
  have stay : ∀ (m : Nat) (q : Path), Loose q → filenames q.pathname = [] →
      ∃ q', parentIter false m q = .ok q' ∧ q'.pathname = q.pathname := by
    intro m
    induction m with
    | zero => intro q _ _; exact ⟨q, rfl, rfl⟩
    | succ m ih =>
      intro q hq hf
      obtain ⟨r, h1, _, h3, h4⟩ := hq.parentPath false
      have hr : r.pathname = q.pathname := by rw [h3]; simp [parentText, hf]
      obtain ⟨q', e1, e2⟩ := ih r (h4 rfl) (by rw [hr]; exact hf)
      exact ⟨q', by simp only [parentIter, h1, bind, Except.bind]; exact e1, by rw [e2, hr]⟩
  have key : ∀ (k : Nat) (p : Path), Loose p → (filenames p.pathname).length = k →
      ∃ q, parentIter false k p = .ok q ∧ Loose q ∧ filenames q.pathname = [] := by
    intro k
    induction k with
    | zero => intro p hp hk; exact ⟨p, rfl, hp, by simpa using hk⟩
    | succ k ih =>
      intro p hp hk
      obtain ⟨r, h1, _, h3, h4⟩ := hp.parentPath false
      have hne : filenames p.pathname ≠ [] := by intro h0; rw [h0] at hk; simp at hk
      have hr : (filenames r.pathname).length = k := by
        rw [h3, parentText, if_neg hne, filenames_render (fun w hw => dropLast_names hw)]
        simp [hk]
      obtain ⟨q, e1, e2⟩ := ih r (h4 rfl) hr
      exact ⟨q, by simp only [parentIter, h1, bind, Except.bind]; exact e1, e2⟩
  obtain ⟨q, e1, e2, e3⟩ := key _ p h.loose rfl
  refine ⟨_, q, ?_, e1, ?_, fun m => stay m q e2 e3⟩
  · rw [h.shape.names]; unfold elements; simp; omega
  · rw [e2.shape.hasFilename]
    have : filePart q.pathname = [] := by
      by_cases hf : filePart q.pathname = []
      · exact hf
      · have := filenames_dir_file q.pathname
        rw [e3, if_neg hf] at this; simp at this
    rw [this]; rfl

example : ∃ q, parentIter false 3 (mkPath .posix "//a//b/c".toList) = .ok q ∧ q.pathname = "/".toList :=
  ⟨_, rfl, by decide⟩

end Asap
