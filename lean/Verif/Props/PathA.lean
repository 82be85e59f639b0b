import Verif.Props.Reach

/-!
# Property theorems C01 to C12 (paths)
-/

namespace Asap
open Spec

/-! ## C01 -/

theorem join_pieces (s : Str) : join (pieces s) = s ∧ ∀ w ∈ pieces s, '/' ∉ w := by
  induction s with
  | nil => simp [pieces, join]
  | cons c s ih =>
    have hne : pieces s ≠ [] := by
      cases s with
      | nil => simp [pieces]
      | cons d s => simp only [pieces]; split <;> (try split) <;> simp
    by_cases hc : c = '/'
    · subst hc
      simp only [pieces, if_true]
      refine ⟨?_, ?_⟩
      · rw [join_cons hne, ih.1]; rfl
      · intro w hw
        simp at hw
        rcases hw with rfl | hw
        · simp
        · exact ih.2 w hw
    · simp only [pieces, hc, if_false]
      cases hp : pieces s with
      | nil => exact absurd hp hne
      | cons g gs =>
        rw [hp] at ih
        simp only
        refine ⟨?_, ?_⟩
        · rw [← ih.1]
          cases gs with
          | nil => rfl
          | cons x xs => simp [join]
        · intro w hw
          simp at hw
          rcases hw with rfl | hw
          · intro h; simp at h
            rcases h with h | h
            · exact hc h.symm
            · exact ih.2 g (by simp) h
          · exact ih.2 w (by simp [hw])

theorem elements_stored (s : Str) : elements (stored s) = elements s := by
  unfold stored
  split
  · rename_i h
    have hn := (filenames_eq_nil_iff s).mpr h.2
    have hst : startsSlash s = true := by
      cases s with
      | nil => exact absurd rfl h.1
      | cons c s => have := h.2; simp at this; simp [startsSlash, this.1]
    have e1 : elements s = [['/']] := by unfold elements; simp [hn, hst]
    have e2 : elements ['/'] = [['/']] := by decide
    rw [e1, e2]
  · rfl

/-- C01. Parsing succeeds for every text; iterating from `begin()` to `end()` yields
the elements of the POSIX grammar, and the text is kept except that a text of
slashes only becomes one slash. `pieces s` cuts `s` at every slash. -/
theorem c01_parse (s : Str) :
    splitComponents .posix s = .ok (mkPath .posix s) ∧
    (mkPath .posix s).pathname = (if s ≠ [] ∧ s.all (· == '/') then ['/'] else s) ∧
    (∃ n es, Iter.collect (mkPath .posix s) n (mkPath .posix s).begin = some (.ok es) ∧
      es.map Path.pathname =
        (if s.head? = some '/' then [['/']] else []) ++
        (pieces s).filter (· ≠ []) ++
        (if s.getLast? = some '/' ∧ ∃ c ∈ s, c ≠ '/' then [[]] else [])) ∧
    join (pieces s) = s ∧ (∀ w ∈ pieces s, '/' ∉ w) := by
  refine ⟨mkPath_spec _ _, mkPath_pathname s, ⟨_, _, collect_elems _, ?_⟩, join_pieces s⟩
  have h := (mkPath_shape s).names
  rw [mkPath_pathname, elements_stored] at h
  show (mkPath .posix s).names = _
  rw [h]
  unfold elements
  congr 1
  · congr 1
    simp only [startsSlash_iff]
  · have : (filenames s ≠ []) ↔ ∃ c ∈ s, c ≠ '/' := by
      rw [ne_eq, filenames_eq_nil_iff]; simp
    simp only [endsSlash_iff, this]

example : (mkPath .posix "//a//b.c/".toList).names = ["/".toList, "a".toList, "b.c".toList, []] ∧
    (mkPath .posix "///".toList).pathname = "/".toList := by decide

/-! ## C02 -/

/-- Two paths that no observer or operation of the interface tells apart. Results
that are paths are compared by text. -/
structure Alike (p q : Path) : Prop where
  text : p.pathname = q.pathname
  names : p.names = q.names
  rootName : (rootName p).pathname = (rootName q).pathname
  rootDirectory : textOf (rootDirectory .posix p) = textOf (rootDirectory .posix q)
  rootPath : (rootPath .posix p).pathname = (rootPath .posix q).pathname
  relativePath : textOf (relativePath .posix p) = textOf (relativePath .posix q)
  parentPath : ∀ e e', textOf (parentPath .posix e p) = textOf (parentPath .posix e' q)
  filename : textOf (filename .posix p) = textOf (filename .posix q)
  stem : (stem .posix p).pathname = (stem .posix q).pathname
  extension : (extension .posix p).pathname = (extension .posix q).pathname
  hasRootName : hasRootName p = hasRootName q
  hasStem : hasStem p = hasStem q
  hasExtension : hasExtension p = hasExtension q
  isAbsolute : isAbsolute .posix p = isAbsolute .posix q
  compare : ∀ r, Value r → ((p.compare r < 0 ↔ q.compare r < 0) ∧ (p.compare r = 0 ↔ q.compare r = 0) ∧
    (r.compare p < 0 ↔ r.compare q < 0) ∧ (r.compare p = 0 ↔ r.compare q = 0))
  hash : ∀ h, hashValue h p = hashValue h q
  generic : genericString p = genericString q
  appendLeft : ∀ r, Value r → textOf (append .posix p r) = textOf (append .posix q r)
  appendRight : ∀ r, Value r → textOf (append .posix r p) = textOf (append .posix r q)
  concat : ∀ s, concat .posix p s = concat .posix q s
  replaceExtension : ∀ r, replaceExtension .posix p r = replaceExtension .posix q r
  normal : ∀ e e', textOf (lexicallyNormal .posix e p) = textOf (lexicallyNormal .posix e' q)
  relativeTo : ∀ r, Value r → textOf (lexicallyRelative .posix p r) = textOf (lexicallyRelative .posix q r)
  relativeFrom : ∀ r, Value r → textOf (lexicallyRelative .posix r p) = textOf (lexicallyRelative .posix r q)
  stream : streamOut p = streamOut q

theorem alike_of_text {p q : Path} (hp : Loose p) (hq : Loose q) (h : p.pathname = q.pathname) : Alike p q where
  text := h
  names := by rw [hp.shape.names, hq.shape.names, h]
  rootName := by rw [hp.shape.rootName, hq.shape.rootName]
  rootDirectory := by rw [hp.shape.rootDirectory, hq.shape.rootDirectory, h]
  rootPath := by rw [hp.shape.rootPath, hq.shape.rootPath, h]
  relativePath := by
    obtain ⟨a, h1, _, h3, _⟩ := hp.relativePath
    obtain ⟨b, h4, _, h6, _⟩ := hq.relativePath
    rw [h1, h4]; simp only [textOf, Except.map, h3, h6, h]
  parentPath := by
    intro e e'
    obtain ⟨a, h1, _, h3, _⟩ := hp.parentPath e
    obtain ⟨b, h4, _, h6, _⟩ := hq.parentPath e'
    rw [h1, h4]; simp only [textOf, Except.map, h3, h6, h]
  filename := by rw [hp.shape.filename, hq.shape.filename, h]
  stem := by rw [hp.shape.stem, hq.shape.stem, h]
  extension := by rw [hp.shape.extension, hq.shape.extension, h]
  hasRootName := by rw [hp.shape.hasRootName, hq.shape.hasRootName]
  hasStem := by unfold Asap.hasStem; rw [hp.shape.findExtension, hq.shape.findExtension, h]
  hasExtension := by unfold Asap.hasExtension; rw [hp.shape.findExtension, hq.shape.findExtension, h]
  isAbsolute := by rw [hp.shape.isAbsolute, hq.shape.isAbsolute, h]
  compare := by
    intro r hr
    have h1 := hp.shape.compare hr.shape
    have h2 := hq.shape.compare hr.shape
    have h3 := hr.shape.compare hp.shape
    have h4 := hr.shape.compare hq.shape
    rw [h] at h1 h3
    exact ⟨h1.1.trans h2.1.symm, h1.2.1.trans h2.2.1.symm, h3.1.trans h4.1.symm, h3.2.1.trans h4.2.1.symm⟩
  hash := by intro f; unfold hashValue; rw [hp.shape.names, hq.shape.names, h]
  generic := by rw [hp.shape.genericString, hq.shape.genericString, h]
  appendLeft := by
    intro r hr
    rw [hp.shape.append hr.shape, hq.shape.append hr.shape, h]
  appendRight := by
    intro r hr
    rw [hr.shape.append hp.shape, hr.shape.append hq.shape, h]
    by_cases hs : startsSlash q.pathname = true
    · simp [hs, textOf, Except.map, h]
    · simp [hs]
  concat := by intro s; simp [Asap.concat, h]
  replaceExtension := by intro r; rw [hp.replaceExtension, hq.replaceExtension, h]
  normal := by
    intro e e'
    obtain ⟨a, h1, _, h3⟩ := hp.shape.lexicallyNormal e
    obtain ⟨b, h4, _, h6⟩ := hq.shape.lexicallyNormal e'
    rw [h1, h4]; simp only [textOf, Except.map, h3, h6, h]
  relativeTo := by
    intro r hr
    obtain ⟨a, h1, _, _, h3⟩ := hp.shape.lexicallyRelative hr.shape
    obtain ⟨b, h4, _, _, h6⟩ := hq.shape.lexicallyRelative hr.shape
    rw [h1, h4]; simp only [textOf, Except.map, h3, h6, h]
  relativeFrom := by
    intro r hr
    obtain ⟨a, h1, _, _, h3⟩ := hr.shape.lexicallyRelative hp.shape
    obtain ⟨b, h4, _, _, h6⟩ := hr.shape.lexicallyRelative hq.shape
    rw [h1, h4]; simp only [textOf, Except.map, h3, h6, h]
  stream := by unfold streamOut; rw [h]

/-- C02. A string-built path is exactly what its native text re-parses to; move
construction and moving an element (vector reallocation) change nothing, the
moved-from path is empty, and move assignment transfers the value. Any reachable
value is indistinguishable from the re-parse of its text. -/
theorem c02_reparse (s : Str) :
    (mkPath .posix (mkPath .posix s).pathname = mkPath .posix s) ∧
    ((mkPath .posix s).moved .posix = mkPath .posix s) ∧
    (∀ e ∈ (mkPath .posix s).elems, e.moved .posix = e) ∧
    (∀ q : Path, (q.moveAssign .posix (mkPath .posix s)).1 = mkPath .posix s ∧
      (q.moveAssign .posix (mkPath .posix s)).2.pathname = [] ∧
      (q.moveAssign .posix (mkPath .posix s)).2.names = []) ∧
    (∀ q : Path, (q.clear .posix).pathname = [] ∧ (q.clear .posix).names = []) :=
  ⟨mkPath_idem s, mkPath_idem s, reparse_elem s, fun _ => ⟨rfl, rfl, rfl⟩, fun _ => ⟨rfl, rfl⟩⟩

theorem c02_alike {p : Path} (h : Reach p) : Alike p (mkPath .posix p.pathname) ∧
    Alike p (p.moved .posix) := by
  have : Alike p (mkPath .posix p.pathname) := by
    refine alike_of_text h.loose (mkPath_loose _) ?_
    rw [mkPath_pathname, h.shape.stored]
  exact ⟨this, this⟩

/-- The hypothesis covers values whose representation differs from the re-parse. -/
example : Reach .default ∧ Path.default ≠ mkPath .posix [] ∧ Alike .default (mkPath .posix []) :=
  ⟨reach_default, by decide, (c02_alike reach_default).1⟩

/-! ## C03 -/

theorem elements_root_rel (s : Str) :
    elements ((if startsSlash s then ['/'] else []) ++ dropSlashes s) = elements s := by
  have h1 : filenames ((if startsSlash s then ['/'] else []) ++ dropSlashes s) = filenames s := by
    split
    · rw [List.singleton_append, filenames_slash_cons, filenames_dropSlashes]
    · rw [List.nil_append, filenames_dropSlashes]
  by_cases hn : filenames s = []
  · have hd := (dropSlashes_eq_nil_iff s).mpr hn
    rw [hd] at h1 ⊢
    unfold elements
    cases hst : startsSlash s
    · simp [hn, startsSlash, filenames_nil]
    · simp [hn, startsSlash, filenames_slash_cons, filenames_nil]
  · have hd : dropSlashes s ≠ [] := fun h => hn ((dropSlashes_eq_nil_iff s).mp h)
    have hends : endsSlash (dropSlashes s) = endsSlash s := by
      have : s = s.takeWhile (· == '/') ++ dropSlashes s := (List.takeWhile_append_dropWhile).symm
      conv => rhs; rw [this]
      rw [endsSlash_append hd]
    unfold elements
    rw [h1, endsSlash_append hd, hends]
    congr 2
    cases hst : startsSlash s
    · have hs : startsSlash (dropSlashes s) = false := dropSlashes_head s
      simp only [Bool.false_eq_true, if_false, List.nil_append, hs]
    · simp only [if_true, List.singleton_append, startsSlash, List.head?_cons, beq_self_eq_true]

/-- C03. The root parts and the relative part reassemble the path, every `has_X`
agrees with `X`, and absoluteness is a leading slash. -/
theorem c03_decomposition {p : Path} (h : Reach p) :
    ∃ rd rel, rootDirectory .posix p = .ok rd ∧ relativePath .posix p = .ok rel ∧
      (rootName p).pathname ++ rd.pathname = (rootPath .posix p).pathname ∧
      rd.pathname = (if p.pathname.head? = some '/' then ['/'] else []) ∧
      rel.pathname = p.pathname.dropWhile (· == '/') ∧
      (∃ w, append .posix (rootPath .posix p) rel = .ok w ∧ w.eqv p = true ∧ w.names = p.names) ∧
      hasRootDirectory .posix rel = .ok false ∧
      hasRootName p = decide ((rootName p).pathname ≠ []) ∧
      hasRootDirectory .posix p = .ok (decide (rd.pathname ≠ [])) ∧
      hasRootPath .posix p = decide ((rootPath .posix p).pathname ≠ []) ∧
      hasRelativePath .posix p = .ok (decide (rel.pathname ≠ [])) ∧
      (∀ e, ∃ q, parentPath .posix e p = .ok q ∧ hasParentPath .posix e p = .ok (decide (q.pathname ≠ []))) ∧
      (∃ f, filename .posix p = .ok f ∧ hasFilename .posix p = .ok (decide (f.pathname ≠ []))) ∧
      hasStem p = decide ((stem .posix p).pathname ≠ []) ∧
      hasExtension p = decide ((extension .posix p).pathname ≠ []) ∧
      isAbsolute .posix p = .ok (decide (p.pathname.head? = some '/')) := by
  have hs := h.shape
  obtain ⟨rel, r1, r2, r3, _⟩ := h.loose.relativePath
  have hdec : ∀ s : Str, (!s.isEmpty) = decide (s ≠ []) := by intro s; cases s <;> simp
  have hst : startsSlash p.pathname = decide (p.pathname.head? = some '/') := by
    rw [Bool.eq_iff_iff]; simp [startsSlash_iff]
  have hrd : (rootDirOf p.pathname).pathname = (if p.pathname.head? = some '/' then ['/'] else []) := by
    unfold rootDirOf; rw [hst]; by_cases hh : p.pathname.head? = some '/' <;> simp [hh, Path.default]
  refine ⟨rootDirOf p.pathname, rel, hs.rootDirectory, r1, ?_, hrd, r3, ?_, ?_, ?_, ?_, ?_, ?_, ?_, ?_, ?_, ?_, ?_⟩
  · rw [hs.rootName, hs.rootPath]; rfl
  · have hrs : Shape (rootDirOf p.pathname) := by
      unfold rootDirOf; split
      · exact .root
      · exact .dflt
    rw [hs.rootPath, hrs.append r2.shape, r3]
    have hnd : startsSlash (dropSlashes p.pathname) = false := dropSlashes_head _
    rw [hnd]
    simp only [Bool.false_eq_true, if_false]
    refine ⟨_, rfl, ?_⟩
    have he : elements (mkPath .posix (appendText (rootDirOf p.pathname).pathname (dropSlashes p.pathname))).pathname
        = elements p.pathname := by
      rw [mkPath_pathname, elements_stored]
      have : appendText (rootDirOf p.pathname).pathname (dropSlashes p.pathname) =
          (if startsSlash p.pathname then ['/'] else []) ++ dropSlashes p.pathname := by
        unfold appendText rootDirOf
        split <;> rfl
      rw [this, elements_root_rel]
    refine ⟨((mkPath_shape _).eqv hs).mpr he, ?_⟩
    rw [(mkPath_shape _).names, hs.names, he]
  · rw [r2.shape.hasRootDirectory, r3, dropSlashes_head]
  · rw [hs.hasRootName, hs.rootName]; rfl
  · rw [hs.hasRootDirectory, hrd, hst]
    by_cases hh : p.pathname.head? = some '/' <;> simp [hh]
  · unfold Asap.hasRootPath Path.isEmpty; rw [hdec]
  · rw [Asap.hasRelativePath, r1]; simp [bind, Except.bind, pure, Except.pure, Path.isEmpty, hdec]
  · intro e
    obtain ⟨q, h1, _⟩ := h.loose.parentPath e
    refine ⟨q, h1, ?_⟩
    rw [Asap.hasParentPath, h1]; simp [bind, Except.bind, pure, Except.pure, Path.isEmpty, hdec]
  · refine ⟨_, hs.filename, ?_⟩
    rw [hs.hasFilename, hdec]; simp
  · rw [hs.stem_pathname, Asap.hasStem, hs.findExtension]
    by_cases hf : filePart p.pathname = []
    · simp [hf, stemOf]
    · simp [hf, stemOf_ne_nil hf]
  · rw [hs.extension_pathname, Asap.hasExtension, hs.findExtension]
    by_cases hf : filePart p.pathname = []
    · simp [hf, extOf, HasExt]
    · simp only [hf, if_false]
      by_cases hx : HasExt (filePart p.pathname)
      · obtain ⟨a, b, hb, ha, hw, hp⟩ := extPos_some hx
        rw [hp, hw]
        rw [hw] at hx
        rw [extOf_dot hb hx]; simp [ha]
      · rw [extPos_none hx, extOf_none hx]; simp
  · rw [hs.isAbsolute, hst]

example : ∃ p rel, Reach p ∧ relativePath .posix p = .ok rel ∧ rel.pathname = "a/b".toList ∧
    (rootPath .posix p).pathname = "/".toList ∧ p.pathname = "//a/b".toList :=
  ⟨mkPath .posix "//a/b".toList, mkPath .posix "a/b".toList, reach_mkPath _, by decide⟩

/-! ## C04 -/

theorem parentText_elements (s : Str) :
    elements (parentText s) =
      if filenames s = [] then elements s
      else (if startsSlash s then [['/']] else []) ++ (filenames s).dropLast := by
  unfold parentText
  split
  · rfl
  · rw [elements_render (fun w hw => dropLast_names hw) (by simp)]
    simp

/-- C04. `parent_path`, with or without copy elision: it succeeds, drops exactly the
last filename (and the trailing empty element), is the identity when there is no
filename, and appending the filename restores the path. -/
theorem c04_parent {p : Path} (h : Reach p) (el : Bool) :
    ∃ q, parentPath .posix el p = .ok q ∧
      (∀ pre w tl, p.names = pre ++ w :: tl → IsName w → (tl = [] ∨ tl = [[]]) → q.names = pre) ∧
      ((∀ w ∈ p.names, ¬ IsName w) → q.names = p.names ∧ q.pathname = p.pathname ∧ q.eqv p = true) ∧
      (p.pathname.getLast? ≠ some '/' →
        ∃ f r, filename .posix p = .ok f ∧ append .posix q f = .ok r ∧ r.names = p.names ∧ r.eqv p = true) := by
  obtain ⟨q, h1, h2, h3, _⟩ := h.loose.parentPath el
  have hs := h.shape
  have hq : q.names = if filenames p.pathname = [] then elements p.pathname
      else (if startsSlash p.pathname then [['/']] else []) ++ (filenames p.pathname).dropLast := by
    rw [h2.names, h3, parentText_elements]
  refine ⟨q, h1, ?_, ?_, ?_⟩
  · intro pre w tl hn hw htl
    rw [hs.names] at hn
    have hmem : w ∈ filenames p.pathname := by
      have : w ∈ elements p.pathname := by rw [hn]; simp
      unfold elements at this
      simp only [List.mem_append] at this
      rcases this with (h' | h') | h'
      · split at h' <;> simp at h'; subst h'; exact absurd hw.2 (by simp)
      · exact h'
      · split at h' <;> simp at h'; subst h'; exact absurd rfl hw.1
    have hne : filenames p.pathname ≠ [] := List.ne_nil_of_mem hmem
    rw [hq, if_neg hne]
    have hfl : filenames p.pathname = (filenames p.pathname).dropLast ++ [(filenames p.pathname).getLast hne] :=
      (List.dropLast_concat_getLast hne).symm
    have hgl : IsName ((filenames p.pathname).getLast hne) := filenames_mem (List.getLast_mem hne)
    unfold elements at hn
    rcases htl with rfl | rfl
    · by_cases he : endsSlash p.pathname = true ∧ filenames p.pathname ≠ []
      · rw [if_pos he] at hn
        have := congrArg List.getLast? hn
        simp at this
        exact absurd this hw.1
      · rw [if_neg he, List.append_nil, hfl, ← List.append_assoc] at hn
        exact (List.append_inj' hn rfl).1
    · by_cases he : endsSlash p.pathname = true ∧ filenames p.pathname ≠ []
      · rw [if_pos he] at hn
        have hn2 : ((if startsSlash p.pathname then [['/']] else []) ++ filenames p.pathname) ++ [[]] =
            (pre ++ [w]) ++ [[]] := by rw [hn]; simp
        have hn3 := (List.append_inj' hn2 rfl).1
        rw [hfl, ← List.append_assoc] at hn3
        exact (List.append_inj' hn3 rfl).1
      · rw [if_neg he, List.append_nil, hfl, ← List.append_assoc] at hn
        have hn2 : ((if startsSlash p.pathname then [['/']] else []) ++ (filenames p.pathname).dropLast) ++
            [(filenames p.pathname).getLast hne] = (pre ++ [w]) ++ [[]] := by rw [hn]; simp
        have := (List.append_inj' hn2 rfl).2
        simp at this
        exact absurd this hgl.1
  · intro hall
    have hne : filenames p.pathname = [] := by
      by_cases hn : filenames p.pathname = []
      · exact hn
      · exfalso
        obtain ⟨w, hw⟩ := List.exists_mem_of_ne_nil _ hn
        refine hall w ?_ (filenames_mem hw)
        rw [hs.names]; unfold elements; simp [hw]
    have hpt : q.pathname = p.pathname := by rw [h3]; simp [parentText, hne]
    refine ⟨?_, hpt, ?_⟩
    · rw [h2.names, hs.names, hpt]
    · rw [h2.eqv hs, hpt]
  · intro hl
    refine ⟨_, mkPath .posix (appendText (parentText p.pathname) (filePart p.pathname)), hs.filename, ?_, ?_⟩
    · have hfs : Shape (fileOf (filePart p.pathname)) := (good_fileOf (b := true) (filePart_noSlash' _)).shape
      rw [h2.append hfs, fileOf_pathname, startsSlash_name (filePart_noSlash' _), h3]
      simp
    · have hel : elements (appendText (parentText p.pathname) (filePart p.pathname)) = elements p.pathname := by
        by_cases hp : p.pathname = []
        · rw [hp]; decide
        · have hf : filePart p.pathname ≠ [] := by
            rw [ne_eq, filePart_eq_nil_iff, endsSlash_iff]
            simp [hp, hl]
          have hfn : IsName (filePart p.pathname) := ⟨hf, filePart_noSlash' _⟩
          have hfe := filenames_dir_file p.pathname
          rw [if_neg hf] at hfe
          have hne : filenames p.pathname ≠ [] := by rw [hfe]; simp
          have hdl : (filenames p.pathname).dropLast = filenames (dirPart p.pathname) := by rw [hfe]; simp
          have hre : relElements (filePart p.pathname) = [filePart p.pathname] := by
            simp [relElements, filenames_noSlash hfn.2, hf, endsSlash_name hfn.2]
          rw [elements_rel, elements_rel, startsSlash_appendText (startsSlash_name hfn.2),
            relElements_appendText (startsSlash_name hfn.2) hf, hre]
          have hps : startsSlash (parentText p.pathname) = startsSlash p.pathname := by
            rw [parentText, if_neg hne, startsSlash_render (fun w hw => dropLast_names hw) (by simp)]
          have hpf : filenames (parentText p.pathname) = filenames (dirPart p.pathname) := by
            rw [parentText, if_neg hne, filenames_render (fun w hw => dropLast_names hw), hdl]
          have hes : endsSlash p.pathname = false := by
            rw [Bool.eq_false_iff, ne_eq, endsSlash_iff]; exact hl
          rw [hps, hpf, relElements, hes, hfe]
          simp
      have hms := mkPath_shape (appendText (parentText p.pathname) (filePart p.pathname))
      have hme : elements (mkPath .posix (appendText (parentText p.pathname) (filePart p.pathname))).pathname =
          elements p.pathname := by rw [mkPath_pathname, elements_stored, hel]
      exact ⟨by rw [hms.names, hs.names, hme], (hms.eqv hs).mpr hme⟩

example : ∀ el, ∃ q, parentPath .posix el (mkPath .posix "/a//b/".toList) = .ok q ∧
    q.names = ["/".toList, "a".toList] := by
  intro el
  cases el <;> exact ⟨_, rfl, by decide⟩

/-! ## C05 -/

/-- C05. Stem and extension split the filename at its last dot, unless the filename
is `..` or its only dot is the first character. -/
theorem c05_stem_extension {p : Path} (h : Value p) :
    ∃ f, filename .posix p = .ok f ∧
      (stem .posix p).pathname ++ (extension .posix p).pathname = f.pathname ∧
      ((extension .posix p).pathname = [] ∨
        ∃ b, (extension .posix p).pathname = '.' :: b ∧ '.' ∉ b) ∧
      ((stem .posix p).pathname = [] → f.pathname = []) ∧
      ((extension .posix p).pathname ≠ [] ↔ f.pathname ≠ "..".toList ∧ '.' ∈ f.pathname.tail) ∧
      f.pathname = (p.pathname.reverse.takeWhile (· != '/')).reverse := by
  have hs := h.shape
  refine ⟨_, hs.filename, ?_, ?_, ?_, ?_, ?_⟩
  · rw [hs.stem_pathname, hs.extension_pathname, stemOf_append_extOf, fileOf_pathname]
  · rw [hs.extension_pathname]
    by_cases hx : HasExt (filePart p.pathname)
    · obtain ⟨a, b, hb, ha, hw, _⟩ := extPos_some hx
      rw [hw] at hx ⊢
      rw [extOf_dot hb hx]
      exact Or.inr ⟨b, rfl, hb⟩
    · exact Or.inl (extOf_none hx)
  · rw [hs.stem_pathname, fileOf_pathname]
    intro h0
    by_cases hf : filePart p.pathname = []
    · exact hf
    · exact absurd h0 (stemOf_ne_nil hf)
  · rw [hs.extension_pathname, fileOf_pathname]
    show _ ↔ HasExt (filePart p.pathname)
    by_cases hx : HasExt (filePart p.pathname)
    · simp [extOf, hx]
    · simp [extOf, hx]
  · rw [fileOf_pathname]; rfl

example : (stem .posix (mkPath .posix "x/.a.tar.gz".toList)).pathname = ".a.tar".toList ∧
    (extension .posix (mkPath .posix "x/.a.tar.gz".toList)).pathname = ".gz".toList ∧
    (extension .posix (mkPath .posix "x/..".toList)).pathname = [] ∧
    (extension .posix (mkPath .posix "x/.a".toList)).pathname = [] ∧
    (extension .posix (mkPath .posix "...".toList)).pathname = ".".toList := by decide

/-! ## C06 -/

theorem appendText_dir {s : Str} (h : filePart s = []) (t : Str) : appendText s t = s ++ t := by
  simp [appendText, h]

theorem appendText_file {s : Str} (h : filePart s ≠ []) (t : Str) : appendText s t = s ++ '/' :: t := by
  simp [appendText, h]

theorem filePart_appendText (s t : Str) :
    filePart (appendText s t) = [] ↔ (t = [] ∨ filePart t = []) := by
  have key : ∀ u : Str, (filePart (u ++ t) = [] ↔ (u ++ t = [] ∨ endsSlash (u ++ t) = true)) :=
    fun u => filePart_eq_nil_iff _
  by_cases ht : t = []
  · subst ht
    simp only [true_or, iff_true]
    by_cases h : filePart s = []
    · rw [appendText_dir h, List.append_nil, h]
    · rw [appendText_file h, filePart_eq_nil_iff]; right; exact endsSlash_append_slash s
  · by_cases h : filePart s = []
    · rw [appendText_dir h, key, endsSlash_append ht, filePart_eq_nil_iff]; simp [ht]
    · rw [appendText_file h, List.append_cons, key, endsSlash_append ht, filePart_eq_nil_iff]; simp [ht]

theorem appendText_assoc (s t u : Str) :
    appendText (appendText s t) u = appendText s (appendText t u) := by
  have hft := filePart_appendText s t
  by_cases ht0 : t = []
  · subst ht0
    rw [appendText_dir (hft.mpr (Or.inl rfl)), appendText_dir (s := []) rfl]
    by_cases h : filePart s = []
    · rw [appendText_dir h, appendText_dir h]; simp
    · rw [appendText_file h, appendText_file h]; simp
  · by_cases h2 : filePart t = []
    · rw [appendText_dir (hft.mpr (Or.inr h2)), appendText_dir h2]
      by_cases h : filePart s = []
      · rw [appendText_dir h, appendText_dir h]; simp
      · rw [appendText_file h, appendText_file h]; simp
    · rw [appendText_file (fun h => (hft.mp h).elim ht0 h2), appendText_file h2]
      by_cases h : filePart s = []
      · rw [appendText_dir h, appendText_dir h]; simp
      · rw [appendText_file h, appendText_file h]; simp

theorem stored_appendText (s t : Str) (ht : startsSlash t = false) (hs : stored s = s) :
    stored (appendText s t) = appendText s t := by
  apply stored_eq_self
  intro hf
  rw [filenames_appendText] at hf
  simp at hf
  have ht0 : t = [] := by
    have := hf.2
    rw [filenames_eq_nil_iff] at this
    cases t with
    | nil => rfl
    | cons c t => simp at this; simp [startsSlash, this.1] at ht
  subst ht0
  have hfp : filePart s = [] := by
    by_cases h : filePart s = []
    · exact h
    · have := filenames_dir_file s
      rw [hf.1, if_neg h] at this
      simp at this
  simp only [appendText, hfp, if_true, List.append_nil]
  unfold stored at hs
  by_cases h0 : s = []
  · exact Or.inl h0
  · right
    rw [if_pos ⟨h0, (filenames_eq_nil_iff s).mp hf.1⟩] at hs
    exact hs.symm

/-- C06. Text of `p / q`. -/
theorem c06_append_text {p q : Path} (hp : Value p) (hq : Value q) (bigEnough : Bool) :
    ∃ r, appendWith .posix bigEnough p q = .ok r ∧
      (q.pathname.head? = some '/' → r = q) ∧
      (q.pathname.head? ≠ some '/' → ∃ f, filename .posix p = .ok f ∧
        r.pathname = p.pathname ++ (if f.pathname = [] then [] else ['/']) ++ q.pathname) := by
  rw [hp.shape.appendWith hq.shape]
  refine ⟨_, rfl, ?_, ?_⟩
  · intro h
    rw [if_pos (startsSlash_iff.mpr h)]
  · intro h
    have h' : startsSlash q.pathname = false := by
      rw [Bool.eq_false_iff, ne_eq, startsSlash_iff]; exact h
    refine ⟨_, hp.shape.filename, ?_⟩
    rw [h', if_neg (by simp), mkPath_pathname, stored_appendText _ _ h' hp.shape.stored]
    simp [appendText]

/-- C06. The elements of `p / q` for relative non-empty `q`. -/
theorem c06_append_elements {p q : Path} (hp : Value p) (hq : Value q)
    (h1 : q.pathname.head? ≠ some '/') (h2 : q.pathname ≠ []) :
    ∃ r, append .posix p q = .ok r ∧
      r.names = (if p.names.getLast? = some [] then p.names.dropLast else p.names) ++ q.names := by
  have h' : startsSlash q.pathname = false := by
    rw [Bool.eq_false_iff, ne_eq, startsSlash_iff]; exact h1
  rw [hp.shape.append hq.shape, h', if_neg (by simp)]
  refine ⟨_, rfl, ?_⟩
  rw [(mkPath_shape _).names, mkPath_pathname, elements_stored, hp.shape.names, hq.shape.names,
    elements_rel, startsSlash_appendText h', relElements_appendText h' h2]
  have hqe : elements q.pathname = relElements q.pathname := by rw [elements_rel, h']; simp
  rw [hqe, ← List.append_assoc]
  congr 1
  unfold elements
  by_cases he : endsSlash p.pathname = true ∧ filenames p.pathname ≠ []
  · rw [if_pos he]; simp
  · rw [if_neg he, List.append_nil]
    have hl : ¬ ((if startsSlash p.pathname = true then [['/']] else []) ++ filenames p.pathname).getLast? = some [] := by
     intro hl
     have hm := List.mem_of_getLast? hl
     simp only [List.mem_append] at hm
     rcases hm with hm | hm
     · split at hm <;> simp at hm
     · exact (filenames_mem hm).1 rfl
    rw [if_neg hl]

/-- C06. The empty path is a left identity (up to `==`, with the same text), and
`operator/` is associative: all three results exist and `(p/q)/r` has the text
of `p/(q/r)`. Operands may be the same object. -/
theorem c06_append_assoc {p q r : Path} (hp : Value p) (hq : Value q) (hr : Value r) :
    (∃ e, append .posix .default p = .ok e ∧ e.pathname = p.pathname ∧ e.eqv p = true) ∧
    ∃ pq qr l rr, append .posix p q = .ok pq ∧ append .posix q r = .ok qr ∧
      append .posix pq r = .ok l ∧ append .posix p qr = .ok rr ∧ l.pathname = rr.pathname := by
  constructor
  · rw [reach_default.shape.append hp.shape]
    refine ⟨_, rfl, ?_⟩
    have ht : (if startsSlash p.pathname = true then p
        else mkPath .posix (appendText Path.default.pathname p.pathname)).pathname = p.pathname := by
      split
      · rfl
      · rw [mkPath_pathname]
        show stored p.pathname = _
        exact hp.shape.stored
    refine ⟨ht, ?_⟩
    have hsh : Shape (if startsSlash p.pathname = true then p
        else mkPath .posix (appendText Path.default.pathname p.pathname)) := by
      split
      · exact hp.shape
      · exact mkPath_shape _
    rw [hsh.eqv hp.shape, ht]
  · have key : ∀ {a b : Path}, Shape a → Shape b → ∃ c, append .posix a b = .ok c ∧ Shape c ∧
        c.pathname = (if startsSlash b.pathname then b.pathname else appendText a.pathname b.pathname) := by
      intro a b ha hb
      rw [ha.append hb]
      refine ⟨_, rfl, ?_⟩
      split
      · exact ⟨hb, rfl⟩
      · rename_i hst
        refine ⟨mkPath_shape _, ?_⟩
        rw [mkPath_pathname, stored_appendText _ _ (by simpa using hst) ha.stored]
    obtain ⟨pq, a1, a2, a3⟩ := key hp.shape hq.shape
    obtain ⟨qr, b1, b2, b3⟩ := key hq.shape hr.shape
    obtain ⟨l, c1, c2, c3⟩ := key a2 hr.shape
    obtain ⟨rr, d1, d2, d3⟩ := key hp.shape b2
    refine ⟨pq, qr, l, rr, a1, b1, c1, d1, ?_⟩
    rw [c3, d3, a3, b3]
    cases hr' : startsSlash r.pathname
    · simp only [Bool.false_eq_true, if_false]
      cases hq' : startsSlash q.pathname
      · rw [startsSlash_appendText hr', hq']
        simp only [Bool.false_eq_true, if_false]
        exact appendText_assoc _ _ _
      · rw [startsSlash_appendText hr', hq']
        simp
    · simp [hr']

example : ∃ r, append .posix (mkPath .posix "a//b".toList) (mkPath .posix "c/".toList) = .ok r ∧
    r.pathname = "a//b/c/".toList ∧ r.names = ["a".toList, "b".toList, "c".toList, []] := ⟨_, rfl, by decide⟩

/-! ## C07 -/

/-- C07. `compare` decides the lexicographic order of the element sequences, for
every representation of the operands. -/
theorem c07_compare {p q : Path} (hp : Value p) (hq : Value q) :
    (p.compare q < 0 ↔ lexLt textLt p.names q.names) ∧
    (p.compare q = 0 ↔ p.names = q.names) ∧
    (0 < p.compare q ↔ lexLt textLt q.names p.names) := by
  rw [hp.shape.names, hq.shape.names]
  exact hp.shape.compare hq.shape

/-- C07. The comparison operators form a total order that is consistent with `==`. -/
theorem c07_total_order {p q r : Path} (hp : Value p) (hq : Value q) (hr : Value r) :
    p.eqv p = true ∧ p.eqv q = q.eqv p ∧ (p.eqv q = true → q.eqv r = true → p.eqv r = true) ∧
    (p.eqv q = true ↔ p.names = q.names) ∧
    p.lt p = false ∧ (p.lt q = true → q.lt r = true → p.lt r = true) ∧
    (p.lt q = true → q.lt p = false) ∧
    (p.lt q = true ∨ p.eqv q = true ∨ q.lt p = true) ∧
    (p.le q = (p.lt q || p.eqv q)) ∧ (p.gt q = q.lt p) ∧ (p.ge q = q.le p) ∧
    (p.le q = true → q.le p = true → p.eqv q = true) ∧
    (p.le q = true → q.le r = true → p.le r = true) ∧ (p.le q = true ∨ q.le p = true) ∧
    (p.eqv q = true → p.lt r = q.lt r ∧ r.lt p = r.lt q) := by
  have st := seqLt_strictTotal
  have e : ∀ {a b : Path}, Value a → Value b → (a.eqv b = true ↔ elements a.pathname = elements b.pathname) :=
    fun ha hb => ha.shape.eqv hb.shape
  have l : ∀ {a b : Path}, Value a → Value b →
      (a.lt b = true ↔ seqLt (elements a.pathname) (elements b.pathname)) := fun ha hb => ha.shape.lt hb.shape
  have lf : ∀ {a b : Path}, Value a → Value b →
      (a.lt b = false ↔ ¬ seqLt (elements a.pathname) (elements b.pathname)) := by
    intro a b ha hb; rw [← l ha hb]; simp
  have tri := fun a b => st.tri a b
  have hle : ∀ {a b : Path}, Value a → Value b →
      (a.le b = true ↔ ¬ seqLt (elements b.pathname) (elements a.pathname)) := by
    intro a b ha hb; simp only [Path.le, Bool.not_eq_true']; exact lf hb ha
  refine ⟨(e hp hp).mpr rfl, ?_, ?_, ?_, ?_, ?_, ?_, ?_, ?_, rfl, rfl, ?_, ?_, ?_, ?_⟩
  · rw [Bool.eq_iff_iff, e hp hq, e hq hp]; exact eq_comm
  · rw [e hp hq, e hq hr, e hp hr]; exact Eq.trans
  · rw [e hp hq, hp.shape.names, hq.shape.names]
  · rw [lf hp hp]; exact st.irrefl _
  · rw [l hp hq, l hq hr, l hp hr]; exact st.trans _ _ _
  · rw [l hp hq, lf hq hp]; exact st.asymm
  · rw [l hp hq, e hp hq, l hq hp]; exact tri _ _
  · rw [Bool.eq_iff_iff, hle hp hq, Bool.or_eq_true, l hp hq, e hp hq]
    constructor
    · intro h
      rcases tri (elements p.pathname) (elements q.pathname) with h1 | h1 | h1
      · exact Or.inl h1
      · exact Or.inr h1
      · exact absurd h1 h
    · rintro (h | h)
      · exact st.asymm h
      · rw [h]; exact st.irrefl _
  · rw [hle hp hq, hle hq hp, e hp hq]
    intro h1 h2
    rcases tri (elements p.pathname) (elements q.pathname) with h | h | h
    · exact absurd h h2
    · exact h
    · exact absurd h h1
  · rw [hle hp hq, hle hq hr, hle hp hr]
    intro h1 h2 h3
    rcases tri (elements p.pathname) (elements q.pathname) with h | h | h
    · exact h2 (st.trans _ _ _ h3 h)
    · rw [h] at h3; exact h2 h3
    · exact h1 h
  · rw [hle hp hq, hle hq hp]
    by_cases h : seqLt (elements q.pathname) (elements p.pathname)
    · exact Or.inr (st.asymm h)
    · exact Or.inl h
  · rw [e hp hq]
    intro h
    constructor
    · rw [Bool.eq_iff_iff, l hp hr, l hq hr, h]
    · rw [Bool.eq_iff_iff, l hr hp, l hr hq, h]

example : (mkPath .posix "a/b".toList).lt (mkPath .posix "a//c".toList) = true ∧
    (mkPath .posix "a/b".toList).eqv (mkPath .posix "a///b".toList) = true ∧
    Path.default.eqv (mkPath .posix []) = true ∧ Path.default.lt (mkPath .posix "/".toList) = true := by decide

/-! ## C08 -/

/-- C08. Equal paths hash equally, for every hash function on texts. -/
theorem c08_hash {p q : Path} (hp : Value p) (hq : Value q) (h : Str → UInt64)
    (heq : p.eqv q = true) : hashValue h p = hashValue h q := by
  rw [hp.shape.eqv hq.shape] at heq
  unfold hashValue
  rw [hp.shape.names, hq.shape.names, heq]

example : ∃ p q, Value p ∧ Value q ∧ p ≠ q ∧ p.eqv q = true :=
  ⟨mkPath .posix "/a//b".toList, mkPath .posix "/a/b".toList, .reach (reach_mkPath _), .reach (reach_mkPath _), by decide⟩

/-! ## C09 -/

/-- C09. After `p += s` the path is the parse of the concatenated text. -/
theorem c09_concat (p : Path) (s : Str) :
    splitComponents .posix (p.pathname ++ s) = .ok (concat .posix p s) ∧
    (concat .posix p s).pathname = stored (p.pathname ++ s) ∧
    (concat .posix p s).names = elements (p.pathname ++ s) := by
  refine ⟨mkPath_spec _ _, mkPath_pathname _, ?_⟩
  show (mkPath .posix _).names = _
  rw [(mkPath_shape _).names, mkPath_pathname, elements_stored]

example : (concat .posix (mkPath .posix "a/b".toList) ".c/d".toList).names =
    ["a".toList, "b.c".toList, "d".toList] := by decide

/-! ## C10 -/

/-- C10. The generic string is a faithful spelling without repeated slashes. -/
theorem c10_generic {p : Path} (h : Value p) :
    (mkPath .posix (genericString p)).eqv p = true ∧
    (mkPath .posix (genericString p)).names = p.names ∧
    ¬ ['/', '/'] <:+: genericString p ∧
    (∀ q, Value q → (p.eqv q = true ↔ genericString p = genericString q)) := by
  have hs := h.shape
  have he : elements (mkPath .posix (genericString p)).pathname = elements p.pathname := by
    rw [mkPath_pathname, elements_stored, hs.genericString, elements_genericText]
  refine ⟨((mkPath_shape _).eqv hs).mpr he, ?_, ?_, ?_⟩
  · rw [(mkPath_shape _).names, hs.names, he]
  · rw [hs.genericString]; exact noDouble_genericText _
  · intro q hq
    rw [hs.eqv hq.shape, hs.genericString, hq.shape.genericString, genericText_eq_iff]

example : genericString (mkPath .posix "//a///b//".toList) = "/a/b/".toList := by decide

/-! ## C11 -/

/-- C11. Reading back what was written gives the same path and leaves exactly what
followed; leading white space is skipped. -/
theorem c11_stream {p old : Path} (h : Value p) (ws rest : Str)
    (hws : ∀ c ∈ ws, c = ' ' ∨ c = '\n' ∨ c = '\t') :
    ∃ q, streamIn .posix old (ws ++ streamOut p ++ rest) = (q, true, rest) ∧
      q.pathname = p.pathname ∧ q.eqv p = true := by
  refine ⟨_, stream_roundtrip .posix p old ws rest ?_, ?_⟩
  · intro c hc
    rcases hws c hc with rfl | rfl | rfl <;> decide
  · have ht : (mkPath .posix p.pathname).pathname = p.pathname := by
      rw [mkPath_pathname, h.shape.stored]
    exact ⟨ht, by rw [(mkPath_shape _).eqv h.shape, ht]⟩

example : streamOut (mkPath .posix "a \"b\\/c".toList) = "\"a \\\"b\\\\/c\"".toList ∧
    (streamIn .posix .default ("\"a \\\"b\\\\/c\"x".toList)).2 = (true, ['x']) := by decide

/-! ## C12 -/

/-- C12. The positions of a path: `pos 0` is `begin()`, `pos n` is `end()` where `n`
is the number of elements; `++` and `--` move between neighbours, dereferencing
before the end is defined and yields the elements in order, and distinct
positions compare different. -/
theorem c12_iterator (p : Path) : ∃ (n : Nat) (pos : Nat → Iter),
    n = p.elems.length ∧ pos 0 = p.begin ∧ pos n = p.end' ∧
    (∀ i, i < n → (pos i).incr p = .ok (pos (i + 1)) ∧ (pos (i + 1)).decr p = .ok (pos i)) ∧
    (∀ i (h : i < p.elems.length), (pos i).deref p = .ok p.elems[i]) ∧
    (∀ i j, i ≤ n → j ≤ n → ((pos i).equals p (pos j) = true ↔ i = j)) ∧
    Iter.collect p (n + 1) p.begin = some (.ok p.elems) :=
  ⟨_, p.iterAt, rfl, iterAt_begin p, iterAt_end p, fun _ h => ⟨iterAt_incr p h, iterAt_decr p h⟩,
    fun _ h => iterAt_deref p h, fun _ _ h1 h2 => iterAt_equals p h1 h2, collect_elems p⟩

example : ∃ it, (mkPath .posix "/a/b".toList).begin.incr (mkPath .posix "/a/b".toList) = .ok it ∧
    it.deref (mkPath .posix "/a/b".toList) = .ok (mkPath .posix "a".toList) := ⟨_, rfl, rfl⟩

end Asap
