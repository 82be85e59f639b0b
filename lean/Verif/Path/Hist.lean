import Verif.Path.Rel

/-!
# Histories of path operations

A program over path variables: every public operation of `class path` as a
step, with copies, moves and aliasing. Model and its invariant (POSIX).
-/

namespace Asap
open Spec

/-- Variables holding paths. -/
abbrev Store := Nat → Path

/-- Assign a variable. -/
def Store.set (σ : Store) (d : Nat) (p : Path) : Store := fun v => if v = d then p else σ v

/-- One use of the public interface of `class path`
(`include/filesystem/fs_path.h:53-280`). `d` is the variable assigned. -/
inductive Op where
  | dflt (d : Nat)
  | ctor (d : Nat) (s : Str)
  | copy (d s : Nat)
  | moveCtor (d s : Nat)
  | moveAssign (d s : Nat)
  | swap (a b : Nat)
  | rootName (d s : Nat)
  | rootDirectory (d s : Nat)
  | rootPath (d s : Nat)
  | relativePath (d s : Nat)
  | parentPath (d s : Nat)
  | filename (d s : Nat)
  | stem (d s : Nat)
  | extension (d s : Nat)
  | element (d s i : Nat)
  | append (d s : Nat)
  | concat (d : Nat) (s : Str)
  | concatPath (d s : Nat)
  | clear (d : Nat)
  | makePreferred (d : Nat)
  | removeFilename (d : Nat)
  | replaceFilename (d s : Nat)
  | replaceExtension (d s : Nat)
  | normal (d s : Nat)
  | relative (d a b : Nat)
  | proximate (d a b : Nat)
  deriving DecidableEq, Repr

/-- Execute one operation (`include/filesystem/fs_path.h:53-280` and the functions
of `src/fs_path.cpp` modelled in `Verif/Path/Model.lean`). `el`: does `parent_path`
elide its return move. An assignment `d = f(s)` moves the returned temporary
into `d` (`operator=(path&&)`, all fields taken over). For `moveCtor` `d` is a new
object, different from `s`. `element` does nothing if `i` is past the end. -/
def Op.exec (el : Bool) (op : Op) (σ : Store) : Res Store :=
  match op with
  | .dflt d => .ok (σ.set d .default)
  | .ctor d s => .ok (σ.set d (mkPath .posix s))
  | .copy d s => .ok (σ.set d (σ s))
  | .moveCtor d s => .ok ((σ.set s ((σ s).clear .posix)).set d ((σ s).moved .posix))
  | .moveAssign d s =>
    if d = s then .ok (σ.set d ((σ d).selfMoveAssign .posix))
    else
      let r := Path.moveAssign .posix (σ d) (σ s)
      .ok ((σ.set d r.1).set s r.2)
  | .swap a b => .ok ((σ.set a (σ b)).set b (σ a))
  | .rootName d s => .ok (σ.set d (Asap.rootName (σ s)))
  | .rootDirectory d s => do return σ.set d (← Asap.rootDirectory .posix (σ s))
  | .rootPath d s => .ok (σ.set d (Asap.rootPath .posix (σ s)))
  | .relativePath d s => do return σ.set d (← Asap.relativePath .posix (σ s))
  | .parentPath d s => do return σ.set d (← Asap.parentPath .posix el (σ s))
  | .filename d s => do return σ.set d (← Asap.filename .posix (σ s))
  | .stem d s => .ok (σ.set d (Asap.stem .posix (σ s)))
  | .extension d s => .ok (σ.set d (Asap.extension .posix (σ s)))
  | .element d s i => .ok (match (σ s).elems[i]? with
      | some e => σ.set d e
      | none => σ)
  | .append d s => do return σ.set d (← Asap.append .posix (σ d) (σ s))
  | .concat d s => .ok (σ.set d (Asap.concat .posix (σ d) s))
  | .concatPath d s => .ok (σ.set d (Asap.concat .posix (σ d) (σ s).pathname))
  | .clear d => .ok (σ.set d ((σ d).clear .posix))
  | .makePreferred d => .ok (σ.set d (Asap.makePreferred .posix (σ d)))
  | .removeFilename d => do return σ.set d (← Asap.removeFilename .posix (σ d))
  | .replaceFilename d s =>
    if d = s then do return σ.set d (← Asap.replaceFilenameSelf .posix (σ d))
    else do return σ.set d (← Asap.replaceFilename .posix (σ d) (σ s))
  | .replaceExtension d s =>
    if d = s then do return σ.set d (← Asap.replaceExtensionSelf .posix (σ d))
    else do return σ.set d (← Asap.replaceExtension .posix (σ d) (σ s))
  | .normal d s => do return σ.set d (← lexicallyNormal .posix true (σ s))
  | .relative d a b => do return σ.set d (← lexicallyRelative .posix (σ a) (σ b))
  | .proximate d a b => do return σ.set d (← lexicallyProximate .posix (σ a) (σ b))

/-- Execute a whole history, one operation of `include/filesystem/fs_path.h:53-280`
after the other. -/
def execAll (el : Bool) : List Op → Store → Res Store
  | [], σ => .ok σ
  | op :: ops, σ => do execAll el ops (← op.exec el σ)

/-! ### Invariant -/

/-- Consistent representation; the only unusual one is `..` as `MULTI`, and it occurs
only if `b`. -/
structure Good (b : Bool) (p : Path) : Prop where
  loose : Loose p
  odd : ¬ Safe p → b = true ∧ p.pathname = dotdot

variable {b : Bool}

theorem good_of_safe {p : Path} (h1 : Loose p) (h2 : Safe p) : Good b p := ⟨h1, fun h => absurd h2 h⟩

theorem good_mkPath (s : Str) : Good b (mkPath .posix s) := good_of_safe (mkPath_loose s) (mkPath_safe s)

theorem safe_single {w : Str} {t : PType} (h : t ≠ .multi) : Safe ⟨w, [], t⟩ := by
  simp [Safe, h]

theorem good_default : Good b .default := good_of_safe .dflt (by simp [Safe, IsName, Path.default])

theorem good_rootDirOf (s : Str) : Good b (rootDirOf s) := by
  unfold rootDirOf; split
  · exact good_of_safe .root (safe_single (by simp))
  · exact good_default

theorem good_fileOf {w : Str} (h : '/' ∉ w) : Good b (fileOf w) := by
  unfold fileOf; split
  · exact good_default
  · rename_i hw; exact good_of_safe (.file w ⟨hw, h⟩) (safe_single (by simp))

theorem elemPath_good {w : Str} (h : IsElem w) : Good b (elemPath w) := by
  rcases h with h | h | h
  · subst h; exact good_of_safe .root (safe_single (by simp))
  · subst h; exact good_of_safe .empt (safe_single (by simp))
  · have := h.ne_slash
    simp only [elemPath, this, if_false]
    exact good_of_safe (.file w h) (safe_single (by simp))

theorem Good.shape {p : Path} (h : Good b p) : Shape p := h.loose.shape

theorem Good.relativePath {p : Path} (h : Good b p) : ∃ q, relativePath .posix p = .ok q ∧ Good b q := by
  obtain ⟨q, h1, _, _, h4⟩ := h.loose.relativePath
  refine ⟨q, h1, ?_⟩
  rcases h4 with h4 | h4
  · rw [h4]; exact good_default
  · rw [h4]; exact good_mkPath _

theorem Good.parentPath {p : Path} (h : Good b p) : ∃ q, parentPath .posix false p = .ok q ∧ Good b q := by
  obtain ⟨q, h1, _⟩ := h.loose.parentPath false
  refine ⟨q, h1, ?_⟩
  simp only [Asap.parentPath, h.loose.hasRelativePath, bind, Except.bind, pure, Except.pure] at h1
  split at h1
  · cases h1; exact h
  · split at h1
    · split at h1
      · cases h1
      · cases h1; exact good_mkPath _
    · cases h1; exact good_default

theorem Good.append {p q : Path} (hp : Good b p) (hq : Good b q) : ∃ r, append .posix p q = .ok r ∧ Good b r := by
  rw [hp.shape.append hq.shape]
  refine ⟨_, rfl, ?_⟩
  split
  · exact hq
  · exact good_mkPath _

theorem normalFinish_cases (ret : Path) :
    normalFinish .posix ret = ret ∨ normalFinish .posix ret = mkPath .posix ['.'] ∨
    ∃ s pr before, pr.name = dotdot ∧
      normalFinish .posix ret = ⟨s, before ++ [pr], ret.type⟩ := by
  unfold normalFinish
  split
  · rename_i back pr before _
    split
    · rename_i hc
      refine Or.inr (Or.inr ⟨_, pr, before.reverse, ?_, by rw [List.reverse_cons]⟩)
      simpa [isDotDot] using hc.2
    · exact Or.inl rfl
  · split
    · exact Or.inr (Or.inl rfl)
    · exact Or.inl rfl

/-- The result of `lexically_normal` is `..` if it is the unusual representation. -/
theorem Sim.finish_good {ret : Path} {st : NSt} (h : Sim ret st) : Good true (normalFinish .posix ret) := by
  obtain ⟨hl, _⟩ := h.finish
  refine ⟨hl, ?_⟩
  intro hu
  rcases normalFinish_cases ret with he | he | ⟨s, pr, before, hdd, he⟩
  · rw [he] at hu; exact absurd h.safe hu
  · rw [he] at hu; exact absurd (mkPath_safe _) hu
  · rw [he] at hu hl ⊢
    simp only [Safe, Classical.not_not] at hu
    have hn := hu.2
    have hnames := hl.shape.names
    have hne := elements_name hn
    rw [hne] at hnames
    simp only [Path.names, Path.elems, hu.1] at hnames
    rw [List.map_append, List.map_append] at hnames
    have := congrArg List.getLast? hnames
    simp [Comp.toPath, hdd] at this
    exact ⟨rfl, this.symm⟩

theorem Shape.lexicallyNormal_good {p : Path} (h : Shape p) (elide : Bool) :
    ∃ q, Asap.lexicallyNormal .posix elide p = .ok q ∧ Good true q := by
  unfold Asap.lexicallyNormal
  by_cases he : p.pathname = []
  · rw [if_pos (by simp [Path.isEmpty, he])]
    cases elide
    · exact ⟨mkPath .posix [], rfl, good_mkPath _⟩
    · exact ⟨.default, rfl, good_default⟩
  · rw [if_neg (by simpa [Path.isEmpty] using he)]
    obtain ⟨r, h1, h2⟩ := fold_elems h
    simp only [h1, bind, Except.bind]
    cases elide
    · exact ⟨_, rfl, good_mkPath _⟩
    · exact ⟨_, rfl, h2.finish_good⟩

theorem Good.removeFilename {p : Path} (h : Good b p) :
    (∃ q, removeFilename .posix p = .ok q ∧ Good b q ∧ q.pathname = stored (dirPart p.pathname)) ∨
    (removeFilename .posix p = .error .ub ∧ b = true ∧ p.type = .multi ∧ p.pathname = dotdot) := by
  by_cases hs : Safe p
  · obtain ⟨q, h1, h2, h3, h4⟩ := h.loose.removeFilename hs
    exact Or.inl ⟨q, h1, good_of_safe h2 h3, h4⟩
  · right
    refine ⟨h.loose.removeFilename_ub hs, (h.odd hs).1, ?_, (h.odd hs).2⟩
    simp only [Safe, Classical.not_not] at hs
    exact hs.1

/-- All variables are consistent. -/
def AllGood (b : Bool) (σ : Store) : Prop := ∀ v, Good b (σ v)

theorem AllGood.set {σ : Store} (h : AllGood b σ) {d : Nat} {p : Path} (hp : Good b p) : AllGood b (σ.set d p) := by
  intro v
  unfold Store.set
  split
  · exact hp
  · exact h v

/-- Every operation succeeds and keeps the invariant, with one exception. -/
theorem exec_good {el : Bool} {op : Op} {σ : Store} (h : AllGood b σ)
    (hel : el = false ∨ ∀ d s, op ≠ .parentPath d s) (hb : b = true ∨ ∀ d s, op ≠ .normal d s) :
    (∃ σ', op.exec el σ = .ok σ' ∧ AllGood b σ') ∨
    (op.exec el σ = .error .ub ∧ ∃ d, (op = .removeFilename d ∨ ∃ s, op = .replaceFilename d s) ∧
      b = true ∧ (σ d).type = .multi ∧ (σ d).pathname = dotdot) := by
  have ok : ∀ (d : Nat) {r : Res Path}, (∃ q, r = .ok q ∧ Good b q) →
      ∃ σ', (do return σ.set d (← r) : Res Store) = .ok σ' ∧ AllGood b σ' := by
    rintro d r ⟨q, rfl, hq⟩
    exact ⟨_, rfl, h.set hq⟩
  cases op with
  | dflt d => exact Or.inl ⟨_, rfl, h.set good_default⟩
  | ctor d s => exact Or.inl ⟨_, rfl, h.set (good_mkPath _)⟩
  | copy d s => exact Or.inl ⟨_, rfl, h.set (h s)⟩
  | moveCtor d s =>
    refine Or.inl ⟨_, rfl, ?_⟩
    exact AllGood.set (h.set (good_mkPath _)) (good_mkPath _)
  | moveAssign d s =>
    left
    by_cases hd : d = s
    · refine ⟨σ.set d ((σ d).selfMoveAssign .posix), by simp [Op.exec, hd], ?_⟩
      exact h.set (p := (σ d).selfMoveAssign .posix) (good_mkPath [])
    · refine ⟨(σ.set d (σ s)).set s ((σ s).clear .posix), by simp [Op.exec, hd, Path.moveAssign], ?_⟩
      exact (h.set (h s)).set (good_mkPath _)
  | swap a b => exact Or.inl ⟨_, rfl, (h.set (h b)).set (h a)⟩
  | rootName d s =>
    refine Or.inl ⟨_, rfl, h.set ?_⟩
    rw [(h s).shape.rootName]; exact good_default
  | rootDirectory d s =>
    exact Or.inl (ok d ⟨_, (h s).shape.rootDirectory, good_rootDirOf _⟩)
  | rootPath d s =>
    refine Or.inl ⟨_, rfl, h.set ?_⟩
    rw [(h s).shape.rootPath]; exact good_rootDirOf _
  | relativePath d s => exact Or.inl (ok d (h s).relativePath)
  | parentPath d s =>
    rcases hel with hel | hel
    · subst hel; exact Or.inl (ok d (h s).parentPath)
    · exact absurd rfl (hel d s)
  | filename d s => exact Or.inl (ok d ⟨_, (h s).shape.filename, good_fileOf (filePart_noSlash' _)⟩)
  | stem d s =>
    refine Or.inl ⟨_, rfl, h.set ?_⟩
    rw [(h s).shape.stem]
    split
    · exact good_default
    · exact good_mkPath _
  | extension d s =>
    refine Or.inl ⟨_, rfl, h.set ?_⟩
    rw [(h s).shape.extension]
    split
    · exact good_default
    · exact good_mkPath _
  | element d s i =>
    refine Or.inl ⟨_, rfl, ?_⟩
    cases he : (σ s).elems[i]? with
    | none => exact h
    | some e =>
      refine h.set ?_
      have hm := List.mem_of_getElem? he
      rw [(h s).shape.elems] at hm
      simp at hm
      obtain ⟨w, hw, rfl⟩ := hm
      exact elemPath_good (elements_isElem hw)
  | append d s => exact Or.inl (ok d ((h d).append (h s)))
  | concat d s => exact Or.inl ⟨_, rfl, h.set (good_mkPath _)⟩
  | concatPath d s => exact Or.inl ⟨_, rfl, h.set (good_mkPath _)⟩
  | clear d => exact Or.inl ⟨_, rfl, h.set (good_mkPath _)⟩
  | makePreferred d => exact Or.inl ⟨_, rfl, h.set (h d)⟩
  | removeFilename d =>
    rcases (h d).removeFilename with ⟨q, h1, h2, _⟩ | ⟨h1, h2, h3⟩
    · exact Or.inl (ok d ⟨q, h1, h2⟩)
    · right
      refine ⟨?_, d, Or.inl rfl, h2, h3⟩
      simp only [Op.exec, h1]; rfl
  | replaceFilename d s =>
    rcases (h d).removeFilename with ⟨q, h1, h2, _⟩ | ⟨h1, h2, h3⟩
    · left
      by_cases hd : d = s
      · simp only [Op.exec, hd, if_true]
        refine ok s ?_
        rw [← hd]
        simp only [replaceFilenameSelf, h1, bind, Except.bind]
        exact h2.append h2
      · simp only [Op.exec, hd, if_false]
        refine ok d ?_
        simp only [replaceFilename, h1, bind, Except.bind]
        exact h2.append (h s)
    · right
      refine ⟨?_, d, Or.inr ⟨s, rfl⟩, h2, h3⟩
      by_cases hd : d = s
      · simp only [Op.exec, hd, if_true]
        rw [← hd]
        simp only [replaceFilenameSelf, h1]; rfl
      · simp only [Op.exec, hd, if_false]
        simp only [replaceFilename, h1]; rfl
  | replaceExtension d s =>
    left
    by_cases hd : d = s
    · simp only [Op.exec, hd, if_true]
      refine ok s ?_
      simp only [replaceExtensionSelf, (h s).loose.eraseExtension, bind, Except.bind]
      exact ⟨_, rfl, good_mkPath _⟩
    · simp only [Op.exec, hd, if_false]
      refine ok d ?_
      rw [(h d).loose.replaceExtension]
      exact ⟨_, rfl, good_mkPath _⟩
  | normal d s =>
    rcases hb with hb | hb
    · subst hb; exact Or.inl (ok d ((h s).shape.lexicallyNormal_good true))
    · exact absurd rfl (hb d s)
  | relative d a b =>
    obtain ⟨r, h1, h2, h3, _⟩ := (h a).shape.lexicallyRelative (h b).shape
    exact Or.inl (ok d ⟨r, h1, good_of_safe h2 h3⟩)
  | proximate d a b =>
    obtain ⟨r, h1, h2, h3, _⟩ := (h a).shape.lexicallyRelative (h b).shape
    refine Or.inl (ok d ?_)
    simp only [lexicallyProximate, h1, bind, Except.bind, pure, Except.pure]
    split
    · exact ⟨_, rfl, h a⟩
    · exact ⟨_, rfl, good_of_safe h2 h3⟩

theorem execAll_append (el : Bool) (a b : List Op) (σ : Store) :
    execAll el (a ++ b) σ = (do execAll el b (← execAll el a σ)) := by
  induction a generalizing σ with
  | nil => rfl
  | cons op a ih =>
    simp only [List.cons_append, execAll]
    cases op.exec el σ with
    | error e => rfl
    | ok σ' => exact ih σ'

end Asap
