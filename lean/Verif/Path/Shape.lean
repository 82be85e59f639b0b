import Verif.Path.SpecLemmas

/-!
# Representation invariants of `path` (POSIX) and closed forms of the observers

* `Shape p`: the element texts and types agree with the text; offsets arbitrary.
* `Loose p`: additionally the offsets of non-empty elements are right.
  The type may be `MULTI` although there is a single element.
-/

namespace Asap
open Spec

/-- Text and type of an element. -/
def Comp.key (c : Comp) : Str × PType := (c.name, c.type)

/-- All elements of a POSIX text before `Trim`, with offset `k` for the trailing
empty element. -/
def rawCompsK (k : Nat) (s : Str) : List Comp :=
  rootComps s ++ toks .posix 0 s ++
    (if s.getLast? = some '/' ∧ toks .posix 0 s ≠ [] then [⟨[], .filename, k⟩] else [])

theorem rawComps_eq (s : Str) : rawComps s = rawCompsK s.length s := rfl

/-- Texts and types of all elements of a text, from the grammar. -/
def keysOf (s : Str) : List (Str × PType) :=
  (if startsSlash s then [(['/'], .rootDir)] else []) ++ (filenames s).map (·, .filename) ++
    (if endsSlash s ∧ filenames s ≠ [] then [([], .filename)] else [])

theorem toks_keys (s : Str) (off : Nat) :
    (toks .posix off s).map Comp.key = (filenames s).map (·, PType.filename) := by
  rw [← toks_names s off, List.map_map]
  apply List.map_congr_left
  intro c hc
  have := (toks_mem s off c hc).1
  simp [Comp.key, this]

theorem rawCompsK_keys (k : Nat) (s : Str) : (rawCompsK k s).map Comp.key = keysOf s := by
  simp only [rawCompsK, keysOf, List.map_append, toks_keys, ne_eq, toks_nil_iff_filenames,
    startsSlash_iff, endsSlash_iff, rootComps]
  congr 1
  · congr 1
    split <;> simp [Comp.key]
  · split <;> simp [Comp.key]

theorem keysOf_names (s : Str) : (keysOf s).map Prod.fst = elements s := by
  simp only [keysOf, elements, List.map_append]
  congr 1
  · congr 1
    · split <;> simp
    · simp [List.map_map, Function.comp_def]
  · split <;> simp

/-- Element texts and types agree with the text. -/
inductive Shape : Path → Prop
  | dflt : Shape ⟨[], [], .multi⟩
  | empt : Shape ⟨[], [], .filename⟩
  | file (s : Str) : IsName s → Shape ⟨s, [], .filename⟩
  | root : Shape ⟨['/'], [], .rootDir⟩
  | multi (s : Str) (cs : List Comp) : s ≠ [] → (filenames s = [] → s = ['/']) →
      cs.map Comp.key = keysOf s → Shape ⟨s, cs, .multi⟩

/-- `Shape`, and the offsets of non-empty elements are right. -/
inductive Loose : Path → Prop
  | dflt : Loose ⟨[], [], .multi⟩
  | empt : Loose ⟨[], [], .filename⟩
  | file (s : Str) : IsName s → Loose ⟨s, [], .filename⟩
  | root : Loose ⟨['/'], [], .rootDir⟩
  | multi (s : Str) (k : Nat) : s ≠ [] → (filenames s = [] → s = ['/']) →
      Loose ⟨s, rawCompsK k s, .multi⟩

theorem Loose.shape {p : Path} (h : Loose p) : Shape p := by
  cases h with
  | dflt => exact .dflt
  | empt => exact .empt
  | file s h => exact .file s h
  | root => exact .root
  | multi s k h1 h2 => exact .multi s _ h1 h2 (rawCompsK_keys k s)

/-! ### Small facts about `keysOf` -/

theorem startsSlash_nil : startsSlash [] = false := rfl

theorem startsSlash_name {s : Str} (h : '/' ∉ s) : startsSlash s = false := by
  rw [Bool.eq_false_iff, ne_eq, startsSlash_iff]
  intro h'; exact h (List.mem_of_head? h')

theorem endsSlash_name {s : Str} (h : '/' ∉ s) : endsSlash s = false := by
  rw [Bool.eq_false_iff, ne_eq, endsSlash_iff]
  intro h'; exact h (List.mem_of_getLast? h')

theorem elements_name {s : Str} (h : IsName s) : elements s = [s] := by
  simp [elements, startsSlash_name h.2, endsSlash_name h.2, filenames_noSlash h.2, h.1]

theorem keysOf_name {s : Str} (h : IsName s) : keysOf s = [(s, .filename)] := by
  simp [keysOf, startsSlash_name h.2, endsSlash_name h.2, filenames_noSlash h.2, h.1]

theorem keysOf_root : keysOf ['/'] = [(['/'], .rootDir)] := by decide

theorem elements_nil : elements [] = [] := by decide

theorem keysOf_nil : keysOf [] = [] := by decide

/-- Non-empty text: last key. -/
theorem keysOf_getLast {s : Str} (hs : s ≠ []) :
    (keysOf s).getLast? = some (
      if filePart s ≠ [] then (filePart s, .filename)
      else if filenames s = [] then (['/'], .rootDir) else ([], .filename)) := by
  by_cases hf : filePart s = []
  · have he : endsSlash s = true := by
      rcases (filePart_eq_nil_iff s).mp hf with h | h
      · exact absurd h hs
      · exact h
    simp only [keysOf, he, hf]
    by_cases hn : filenames s = []
    · have hall := (filenames_eq_nil_iff s).mp hn
      have hst : startsSlash s = true := by
        cases s with
        | nil => exact absurd rfl hs
        | cons c s => simp at hall; simp [startsSlash, hall.1]
      simp [hn, hst]
    · simp [hn]
  · have he : endsSlash s = false := by
      rw [Bool.eq_false_iff]
      intro h
      exact hf ((filePart_eq_nil_iff s).mpr (Or.inr h))
    simp only [keysOf, he]
    rw [filenames_dir_file s]
    simp [hf]

theorem keysOf_head (s : Str) :
    (keysOf s).head? = if startsSlash s then some (['/'], .rootDir)
      else (filenames s).head?.map (·, .filename) := by
  simp only [keysOf]
  by_cases h : startsSlash s = true
  · simp [h]
  · simp only [h]
    cases hf : filenames s with
    | nil => simp
    | cons w ws => simp

theorem keysOf_ne_nil {s : Str} (hs : s ≠ []) : keysOf s ≠ [] := by
  intro h
  have := keysOf_getLast hs
  rw [h] at this
  simp at this

/-! ### Closed forms for `Shape` paths -/

section
variable {p q : Path}

theorem head?_key {cs : List Comp} {s : Str} (h : cs.map Comp.key = keysOf s) :
    cs.head?.map Comp.key = (keysOf s).head? := by rw [← h, List.head?_map]

theorem getLast?_key {cs : List Comp} {s : Str} (h : cs.map Comp.key = keysOf s) :
    cs.getLast?.map Comp.key = (keysOf s).getLast? := by rw [← h, List.getLast?_map]

theorem Shape.names (h : Shape p) : p.names = elements p.pathname := by
  cases h with
  | dflt => rfl
  | empt => rfl
  | file s hs => simp [Path.names, Path.elems, Path.isEmpty, hs.1, elements_name hs]
  | root => decide
  | multi s cs h1 h2 h3 =>
    rw [← keysOf_names, ← h3]
    simp [Path.names, Path.elems, Comp.key, Comp.toPath]

theorem Shape.head_not_rootName (h : Shape p) {c : Comp} (hc : p.comps.head? = some c) :
    c.type ≠ .rootName := by
  cases h with
  | multi s cs h1 h2 h3 =>
    have := head?_key h3
    simp only at hc
    rw [hc, keysOf_head] at this
    simp only [Option.map_some, Comp.key] at this
    split at this
    · simp at this; simp [this.2]
    · cases hf : (filenames s).head? with
      | none => rw [hf] at this; simp at this
      | some w => rw [hf] at this; simp at this; simp [this.2]
  | _ => simp at hc

theorem Shape.type_not_rootName (h : Shape p) : p.type ≠ .rootName := by
  cases h <;> simp

theorem Shape.hasRootName (h : Shape p) : hasRootName p = false := by
  simp only [Asap.hasRootName, Bool.or_eq_false_iff, beq_eq_false_iff_ne, ne_eq,
    h.type_not_rootName, not_false_eq_true, true_and]
  cases hc : p.comps.head? with
  | none => rfl
  | some c => simp [h.head_not_rootName hc]

theorem Shape.rootName (h : Shape p) : rootName p = .default := by
  simp only [Asap.rootName, h.type_not_rootName, if_false]
  cases hc : p.comps.head? with
  | none => rfl
  | some c => simp [h.head_not_rootName hc]

theorem Shape.skipRootName (h : Shape p) : skipType .rootName p.comps = p.comps := by
  cases hc : p.comps with
  | nil => rfl
  | cons c cs =>
    have := h.head_not_rootName (c := c) (by simp [hc])
    simp [skipType, this]

/-- The root directory as a path of its own, or the empty path. -/
def rootDirOf (s : Str) : Path := if startsSlash s then ⟨['/'], [], .rootDir⟩ else .default

theorem Shape.rootDirectory (h : Shape p) : rootDirectory .posix p = .ok (rootDirOf p.pathname) := by
  have hsk := h.skipRootName
  cases h with
  | dflt => rfl
  | empt => rfl
  | file s hs => simp [Asap.rootDirectory, skipType, rootDirOf, startsSlash_name hs.2]
  | root => rfl
  | multi s cs h1 h2 h3 =>
    simp only at hsk
    simp only [Asap.rootDirectory, hsk, rootDirOf]
    have hk := head?_key h3
    rw [keysOf_head] at hk
    cases hc : cs.head? with
    | none =>
      rw [hc] at hk
      by_cases hst : startsSlash s = true
      · simp [hst] at hk
      · simp [hst]
    | some c =>
      rw [hc] at hk
      by_cases hst : startsSlash s = true
      · simp [hst, Comp.key] at hk
        simp [hst, hk.2, hk.1, Comp.toPath]
      · simp only [hst] at hk
        cases hf : (filenames s).head? with
        | none => rw [hf] at hk; simp at hk
        | some w =>
          rw [hf] at hk
          simp [Comp.key] at hk
          simp [hst, hk.2]

theorem Shape.hasRootDirectory (h : Shape p) :
    hasRootDirectory .posix p = .ok (startsSlash p.pathname) := by
  simp only [Asap.hasRootDirectory, h.rootDirectory, rootDirOf]
  by_cases hst : startsSlash p.pathname = true
  · simp only [hst, if_true]; rfl
  · simp only [hst]; rfl

theorem Shape.isAbsolute (h : Shape p) : isAbsolute .posix p = .ok (startsSlash p.pathname) := by
  simp only [Asap.isAbsolute, h.hasRootDirectory, h.hasRootName, Bool.or_false]; rfl

theorem Shape.rootPath (h : Shape p) : rootPath .posix p = rootDirOf p.pathname := by
  have hd := h.rootDirectory
  have hsk := h.skipRootName
  cases h with
  | dflt => rfl
  | empt => rfl
  | file s hs => simp [Asap.rootPath, rootDirOf, startsSlash_name hs.2]
  | root => rfl
  | multi s cs h1 h2 h3 =>
    simp only at hsk
    simp only [Asap.rootDirectory, hsk] at hd
    cases cs with
    | nil =>
      simp at hd
      simp [Asap.rootPath, ← hd]
    | cons c cs =>
      have hnr : c.type ≠ .rootName := by
        have := Shape.head_not_rootName (Shape.multi s _ h1 h2 h3) (c := c) rfl
        exact this
      simp at hd
      simp [Asap.rootPath, hnr, ← hd]

/-- A filename text as a path of its own, or the empty path. -/
def fileOf (w : Str) : Path := if w = [] then .default else ⟨w, [], .filename⟩

@[simp] theorem fileOf_pathname (w : Str) : (fileOf w).pathname = w := by
  unfold fileOf; split
  · simp_all [Path.default]
  · rfl

theorem Shape.filename (h : Shape p) : filename .posix p = .ok (fileOf (filePart p.pathname)) := by
  cases h with
  | dflt => rfl
  | empt => rfl
  | file s hs =>
    simp only [Asap.filename, filePart_noSlash hs.2, fileOf, hs.1, if_false]
    cases hl : s.getLast? with
    | none => rw [List.getLast?_eq_none_iff] at hl; exact absurd hl hs.1
    | some c => rfl
  | root => rfl
  | multi s cs h1 h2 h3 =>
    simp only [Asap.filename]
    obtain ⟨lc, hl⟩ : ∃ lc, s.getLast? = some lc := by
      rw [← Option.isSome_iff_exists]; simp [h1]
    simp only [hl, prefSep_posix]
    by_cases hlc : lc = '/'
    · subst hlc
      have : filePart s = [] := (filePart_eq_nil_iff s).mpr (Or.inr (endsSlash_iff.mpr hl))
      simp [this, fileOf]
    · have hf : filePart s ≠ [] := by
        rw [ne_eq, filePart_eq_nil_iff, endsSlash_iff, hl]
        simp [h1, hlc]
      have hk := getLast?_key h3
      rw [keysOf_getLast h1] at hk
      simp only [hf, ne_eq, not_false_eq_true, if_true] at hk
      cases hc : cs.getLast? with
      | none => rw [hc] at hk; simp at hk
      | some c =>
        rw [hc] at hk
        simp [Comp.key] at hk
        simp [hlc, hk.1, hk.2, fileOf, hf, Comp.toPath]

theorem Shape.hasFilename (h : Shape p) :
    hasFilename .posix p = .ok (!(filePart p.pathname).isEmpty) := by
  simp only [Asap.hasFilename, h.filename]
  show Except.ok _ = _
  simp [Path.isEmpty]

/-- Empty iff the text is empty, also in terms of elements. -/
theorem Shape.elements_eq_nil (h : Shape p) : p.names = [] ↔ p.pathname = [] := by
  rw [h.names]
  constructor
  · intro he
    by_cases hs : p.pathname = []
    · exact hs
    · exfalso
      rw [← keysOf_names] at he
      simp at he
      exact keysOf_ne_nil hs he
  · intro he; rw [he]; exact elements_nil

/-! ### Constructors give `Loose` paths -/

theorem stored_eq_self {s : Str} (h : filenames s = [] → s = [] ∨ s = ['/']) : stored s = s := by
  unfold stored
  split
  · rename_i hc
    rcases h ((filenames_eq_nil_iff s).mpr hc.2) with h | h
    · exact absurd h hc.1
    · exact h.symm
  · rfl

theorem rawComps_length {s : Str} (hs : s ≠ []) :
    (rawComps s).length = 1 ↔ (s.all (· == '/') = true ∨ '/' ∉ s) := by
  have hl : (rawComps s).length = (keysOf s).length := by
    rw [rawComps_eq, ← rawCompsK_keys s.length s, List.length_map]
  rw [hl]
  by_cases hall : s.all (· == '/') = true
  · have hn := (filenames_eq_nil_iff s).mpr hall
    have hst : startsSlash s = true := by
      cases s with
      | nil => exact absurd rfl hs
      | cons c s => simp at hall; simp [startsSlash, hall.1]
    simp [keysOf, hn, hst]
    exact Or.inl (by simpa using hall)
  · simp only [hall]
    have hn : filenames s ≠ [] := by rw [ne_eq, filenames_eq_nil_iff]; exact hall
    constructor
    · intro h
      right
      simp only [keysOf, List.length_append, List.length_map] at h
      have hpos : 0 < (filenames s).length := List.length_pos_iff.mpr hn
      rcases last_slash s with h' | ⟨a, w, hw, rfl⟩
      · exact h'
      · exfalso
        by_cases hst : startsSlash (a ++ '/' :: w) = true
        · simp [hst] at h; omega
        · by_cases he : endsSlash (a ++ '/' :: w) = true
          · simp [he, hn] at h
          · simp [hst, he] at h
            have hwne : w ≠ [] := by
              rintro rfl; exact he (endsSlash_append_slash a)
            rw [filenames_append_slash, filenames_noSlash hw] at h
            simp [hwne] at h
            rw [filenames_eq_nil_iff] at h
            cases a with
            | nil => simp [startsSlash] at hst
            | cons c a => simp at h; simp [startsSlash, h.1] at hst
    · rintro (h | h)
      · exact absurd h (by simp)
      · rw [keysOf_name ⟨hs, h⟩]; rfl

/-- The four outcomes of parsing. -/
theorem mkPath_nil : mkPath .posix [] = ⟨[], [], .filename⟩ := by rw [mkPath_posix]; simp

theorem mkPath_slashes {s : Str} (hs : s ≠ []) (h : s.all (· == '/') = true) :
    mkPath .posix s = ⟨['/'], [], .rootDir⟩ := by
  rw [mkPath_posix, if_neg hs]
  have ht := toks_all_slash s 0 h
  have hst : s.head? = some '/' := by
    cases s with
    | nil => exact absurd rfl hs
    | cons c s => simp at h; simp [h.1]
  simp [trim, rawComps, trailComps, ht, rootComps, hst]

theorem mkPath_name {s : Str} (h : IsName s) : mkPath .posix s = ⟨s, [], .filename⟩ := by
  rw [mkPath_posix, if_neg h.1]
  have ht := toks_noSep 0 (noSep_posix.mpr h.2)
  have h1 : s.head? ≠ some '/' := fun h' => h.2 (List.mem_of_head? h')
  have h2 : s.getLast? ≠ some '/' := fun h' => h.2 (List.mem_of_getLast? h')
  simp [trim, rawComps, trailComps, ht, rootComps, h1, h2, tok1, h.1]

theorem mkPath_multi {s : Str} (h1 : ¬ s.all (· == '/') = true) (h2 : '/' ∈ s) :
    mkPath .posix s = ⟨s, rawComps s, .multi⟩ := by
  have hs : s ≠ [] := by rintro rfl; simp at h2
  rw [mkPath_posix, if_neg hs]
  have hl := rawComps_length hs
  unfold trim
  split
  · rename_i c hc
    have : (rawComps s).length = 1 := by simp only at hc; rw [hc]; rfl
    rcases hl.mp this with h | h
    · exact absurd h h1
    · exact absurd h2 h
  · rfl

theorem mkPath_loose (s : Str) : Loose (mkPath .posix s) := by
  by_cases hs : s = []
  · subst hs; rw [mkPath_nil]; exact .empt
  · by_cases hall : s.all (· == '/') = true
    · rw [mkPath_slashes hs hall]; exact .root
    · by_cases hm : '/' ∈ s
      · rw [mkPath_multi hall hm, rawComps_eq]
        exact .multi s _ hs (fun h => absurd ((filenames_eq_nil_iff s).mp h) hall)
      · rw [mkPath_name ⟨hs, hm⟩]; exact .file s ⟨hs, hm⟩

theorem mkPath_shape (s : Str) : Shape (mkPath .posix s) := (mkPath_loose s).shape

theorem mkPath_pathname (s : Str) : (mkPath .posix s).pathname = stored s := by
  by_cases hs : s = []
  · subst hs; rw [mkPath_nil]; rfl
  · by_cases hall : s.all (· == '/') = true
    · rw [mkPath_slashes hs hall]; simp only [stored, hall]; simp [hs]
    · by_cases hm : '/' ∈ s
      · rw [mkPath_multi hall hm]; simp only [stored, hall]; simp
      · rw [mkPath_name ⟨hs, hm⟩]; simp only [stored, hall]; simp

theorem default_loose : Loose .default := .dflt

/-- The text of a `Shape` path is stable under storing. -/
theorem Shape.stored (h : Shape p) : stored p.pathname = p.pathname := by
  apply stored_eq_self
  cases h with
  | dflt => intro _; left; rfl
  | empt => intro _; left; rfl
  | file s hs => intro hn; simp [filenames_noSlash hs.2, hs.1] at hn
  | root => intro _; right; rfl
  | multi s cs h1 h2 h3 => intro hn; right; exact h2 hn

theorem mkPath_stored (s : Str) : mkPath .posix (stored s) = mkPath .posix s := by
  unfold stored
  split
  · rename_i h
    rw [mkPath_slashes h.1 h.2]; decide
  · rfl

theorem mkPath_idem (s : Str) : mkPath .posix (mkPath .posix s).pathname = mkPath .posix s := by
  rw [mkPath_pathname, mkPath_stored]

/-! ### Append -/

/-- Text of `p / q` for relative `q`. -/
def appendText (s t : Str) : Str := s ++ (if filePart s = [] then [] else ['/']) ++ t

theorem rootName_default_eqv : Path.eqv Path.default Path.default = true := by decide

theorem Shape.appendWith (hp : Shape p) (hq : Shape q) (b : Bool) :
    appendWith .posix b p q = .ok (if startsSlash q.pathname then q
      else mkPath .posix (appendText p.pathname q.pathname)) := by
  have hrhs : appendRhs q = q.pathname := by
    rw [appendRhs, if_neg hq.type_not_rootName]
    cases hc : q.comps.head? with
    | none => rfl
    | some c => simp [hq.head_not_rootName hc]
  simp only [Asap.appendWith, hq.isAbsolute, hq.hasRootName, hp.hasRootName, hq.hasRootDirectory,
    hp.hasFilename, hp.hasRootDirectory, hp.isAbsolute, hrhs]
  by_cases hst : startsSlash q.pathname = true
  · simp only [hst]; rfl
  · simp only [Bool.not_eq_true] at hst
    simp only [hst]
    show Except.bind _ _ = _
    by_cases hf : filePart p.pathname = []
    · by_cases hps : startsSlash p.pathname = true
      · simp only [hf, hps, appendText]
        cases b <;> simp [appendFinish, Except.bind, pure, Except.pure, bind]
      · simp only [hf, hps, appendText]
        cases b <;> simp [appendFinish, Except.bind, pure, Except.pure, bind]
    · simp only [hf, appendText]
      cases b <;> simp [hf, appendFinish, Except.bind, pure, Except.pure, bind]

theorem Shape.append (hp : Shape p) (hq : Shape q) :
    append .posix p q = .ok (if startsSlash q.pathname then q
      else mkPath .posix (appendText p.pathname q.pathname)) := hp.appendWith hq false

end

end Asap
