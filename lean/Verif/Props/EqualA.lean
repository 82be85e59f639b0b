import Verif.Props.PathB

/-!
# C122: equal paths are interchangeable (POSIX)
-/

namespace Asap
namespace Spec

/-- Every run of slashes made one slash. -/
def squeeze : Str → Str
  | [] => []
  | c :: s => if c = '/' ∧ s.head? = some '/' then squeeze s else c :: squeeze s

/-- The same operation, but texts may differ in the lengths of runs of slashes. -/
def Variant : Op → Op → Prop
  | .ctor d s, .ctor d' s' => d = d' ∧ squeeze s = squeeze s'
  | .concat d s, .concat d' s' => d = d' ∧ squeeze s = squeeze s'
  | a, b => a = b

/-- The same operations one by one. -/
inductive Variants : List Op → List Op → Prop
  | nil : Variants [] []
  | cons {a b as bs} : Variant a b → Variants as bs → Variants (a :: as) (b :: bs)

end Spec
open Spec

theorem squeeze_head (s : Str) : (squeeze s).head? = s.head? := by
  induction s with
  | nil => rfl
  | cons c s ih =>
    unfold squeeze
    split
    · rename_i h; rw [ih, h.2, h.1]; rfl
    · rfl

theorem squeeze_nil_iff (s : Str) : squeeze s = [] ↔ s = [] := by
  rw [← List.head?_eq_none_iff, squeeze_head, List.head?_eq_none_iff]

theorem squeeze_cons (c : Char) (s : Str) :
    squeeze (c :: s) = if c = '/' ∧ s.head? = some '/' then squeeze s else c :: squeeze s := by rw [squeeze]

theorem squeeze_left : ∀ (a b : Str), squeeze (squeeze a ++ b) = squeeze (a ++ b)
  | [], _ => rfl
  | c :: a, b => by
    rw [squeeze_cons]
    split
    · rename_i h
      rw [squeeze_left a b, List.cons_append, squeeze_cons, if_pos]
      refine ⟨h.1, ?_⟩
      cases a with
      | nil => simp at h
      | cons d a => simpa using h.2
    · rename_i h
      rw [List.cons_append, List.cons_append, squeeze_cons, squeeze_cons, squeeze_left a b]
      have : (squeeze a ++ b).head? = (a ++ b).head? := by
        rw [List.head?_append, List.head?_append, squeeze_head]
      rw [this]

theorem squeeze_right : ∀ (a b : Str), squeeze (a ++ squeeze b) = squeeze (a ++ b)
  | [], b => by have := squeeze_left b []; simpa using this
  | c :: a, b => by
    rw [List.cons_append, List.cons_append, squeeze, squeeze, squeeze_right a b]
    have : (a ++ squeeze b).head? = (a ++ b).head? := by
      rw [List.head?_append, List.head?_append, squeeze_head]
    rw [this]

theorem squeeze_append {a a' b b' : Str} (h1 : squeeze a = squeeze a') (h2 : squeeze b = squeeze b') :
    squeeze (a ++ b) = squeeze (a' ++ b') := by
  rw [← squeeze_left, ← squeeze_right, h1, h2, squeeze_right, squeeze_left]

theorem squeeze_name : ∀ (a : Str) {w : Str}, '/' ∉ w → squeeze (a ++ w) = squeeze a ++ w
  | [], w, h => by
    show squeeze w = w
    induction w with
    | nil => rfl
    | cons c w ih =>
      rw [List.mem_cons, not_or] at h
      rw [squeeze, if_neg (fun e => h.1 e.1.symm), ih h.2]
  | c :: a, w, h => by
    rw [List.cons_append, squeeze, squeeze, squeeze_name a h]
    cases a with
    | nil =>
      have : w.head? ≠ some '/' := fun e => h (List.mem_of_mem_head? e)
      simp [this, squeeze]
    | cons d a => by_cases hd : c = '/' ∧ d = '/' <;> simp [hd]

theorem squeeze_slash_end : ∀ a : Str, ∃ b, squeeze (a ++ ['/']) = b ++ ['/']
  | [] => ⟨[], rfl⟩
  | c :: a => by
    obtain ⟨b, hb⟩ := squeeze_slash_end a
    rw [List.cons_append, squeeze, hb]
    split
    · exact ⟨b, rfl⟩
    · exact ⟨c :: b, rfl⟩

theorem squeeze_parts (s : Str) : filePart (squeeze s) = filePart s ∧ dirPart (squeeze s) = squeeze (dirPart s) := by
  rcases last_slash s with h | ⟨a, w, h, rfl⟩
  · have e : squeeze s = s := squeeze_name [] h
    rw [e, dirPart_noSlash h]
    exact ⟨rfl, rfl⟩
  · obtain ⟨b, hb⟩ := squeeze_slash_end a
    have e : squeeze (a ++ '/' :: w) = b ++ '/' :: w := by
      have := squeeze_name (a ++ ['/']) h
      rw [hb] at this
      simpa using this
    rw [e, filePart_slash _ h, filePart_slash _ h, dirPart_slash _ h, dirPart_slash _ h, hb]
    exact ⟨rfl, rfl⟩

theorem squeeze_dropSlashes (s : Str) : dropSlashes (squeeze s) = squeeze (dropSlashes s) := by
  induction s with
  | nil => rfl
  | cons c s ih =>
    by_cases hc : c = '/'
    · have e : dropSlashes (c :: s) = dropSlashes s := by simp [dropSlashes, hc]
      rw [e, ← ih, squeeze_cons]
      split
      · rfl
      · simp [dropSlashes, hc]
    · have e : dropSlashes (c :: s) = c :: s := by simp [dropSlashes, hc]
      rw [e, squeeze, if_neg (fun h => hc h.1)]
      simp [dropSlashes, hc]

theorem squeeze_stored (s : Str) : squeeze (stored s) = squeeze s := by
  unfold stored
  split
  · rename_i h
    obtain ⟨h1, h2⟩ := h
    induction s with
    | nil => exact absurd rfl h1
    | cons c s ih =>
      simp only [List.all_cons, Bool.and_eq_true, beq_iff_eq] at h2
      cases s with
      | nil => rw [h2.1]
      | cons d s =>
        rw [ih (by simp) h2.2]
        have hd : d = '/' := by have := h2.2; simp at this; exact this.1
        conv => rhs; rw [squeeze]
        rw [if_pos ⟨h2.1, by simp [hd]⟩]
  · rfl

theorem squeeze_seg {w : Str} (t : Str) (h : '/' ∉ w) : squeeze (w ++ t) = w ++ squeeze t := by
  induction w with
  | nil => rfl
  | cons c w ih =>
    rw [List.mem_cons, not_or] at h
    rw [List.cons_append, squeeze_cons, if_neg (fun e => h.1 e.1.symm), ih h.2]
    rfl

theorem filenames_squeeze (s : Str) : filenames (squeeze s) = filenames s := by
  induction s using slash_induction with
  | h0 w h => rw [show squeeze w = w from squeeze_name [] h]
  | h1 w b h ih =>
    rw [squeeze_seg _ h, squeeze_cons, filenames_seg b h, ← ih]
    split
    · rename_i hb
      have hh := squeeze_head b
      rw [hb.2] at hh
      cases hs : squeeze b with
      | nil => rw [hs] at hh; cases hh
      | cons c t =>
        rw [hs] at hh
        simp only [List.head?_cons, Option.some.injEq] at hh
        rw [hh, filenames_seg t h, filenames_slash_cons]
    · rw [filenames_seg _ h]

theorem endsSlash_squeeze (s : Str) : endsSlash (squeeze s) = endsSlash s := by
  by_cases hs : s = []
  · subst hs; rfl
  · have h1 := filePart_eq_nil_iff (squeeze s)
    have h2 := filePart_eq_nil_iff s
    rw [(squeeze_parts s).1, h2, squeeze_nil_iff] at h1
    simp only [hs, false_or] at h1
    exact Bool.eq_iff_iff.mpr h1.symm

theorem elements_squeeze (s : Str) : elements (squeeze s) = elements s := by
  unfold elements startsSlash
  rw [filenames_squeeze, endsSlash_squeeze, squeeze_head]

theorem genericText_seg {w : Str} (t : Str) (h : IsName w) : genericText (w ++ '/' :: t) = w ++ genericText ('/' :: t) := by
  have h1 : startsSlash (w ++ '/' :: t) = false := by
    cases w with
    | nil => exact absurd rfl h.1
    | cons c w =>
      have := h.2
      rw [List.mem_cons, not_or] at this
      simp [startsSlash, Ne.symm this.1]
  have h2 : endsSlash (w ++ '/' :: t) = endsSlash ('/' :: t) := endsSlash_append (by simp)
  have h3 : filenames (w ++ '/' :: t) = w :: filenames t := by rw [filenames_seg t h.2]; simp [h.1]
  unfold genericText
  rw [h1, h2, h3, filenames_slash_cons]
  simp only [render, startsSlash, List.head?_cons, beq_self_eq_true, if_true]
  by_cases hf : filenames t = []
  · have he : endsSlash ('/' :: t) = true := by
      rw [endsSlash_iff]
      have := (filenames_eq_nil_iff t).mp hf
      cases hl : t.getLast? with
      | none => rw [List.getLast?_eq_none_iff] at hl; rw [hl]; rfl
      | some c =>
        have hc := List.mem_of_getLast? hl
        rw [List.getLast?_cons, hl]
        rw [List.all_eq_true] at this
        have := this c hc
        simp at this
        simp [this]
    simp [hf, he, join]
  · rw [join_cons hf]
    simp [hf]

theorem genericText_squeeze (s : Str) : genericText (squeeze s) = squeeze s := by
  have hname : ∀ w : Str, '/' ∉ w → genericText w = w := by
    intro w h
    unfold genericText
    rw [startsSlash_name h, endsSlash_name h, filenames_noSlash h]
    by_cases hw : w = [] <;> simp [hw, render, join]
  have hslash : ∀ b : Str, genericText (squeeze b) = squeeze b → genericText (squeeze ('/' :: b)) = squeeze ('/' :: b) := by
    intro b ih
    rw [squeeze_cons]
    split
    · exact ih
    · rename_i hb
      have hb : b.head? ≠ some '/' := fun e => hb ⟨rfl, e⟩
      by_cases hn : b = []
      · subst hn; decide
      · have hq : squeeze b ≠ [] := fun e => hn ((squeeze_nil_iff b).mp e)
        have h1 : startsSlash (squeeze b) = false := by
          rw [Bool.eq_false_iff, ne_eq, startsSlash_iff, squeeze_head]; exact hb
        have h2 : endsSlash ('/' :: squeeze b) = endsSlash (squeeze b) := by
          cases hs : squeeze b with
          | nil => exact absurd hs hq
          | cons c t => simp [endsSlash]
        conv => rhs; rw [← ih]
        unfold genericText
        rw [h1, h2, filenames_slash_cons]
        simp [render, startsSlash]
  induction s using slash_induction with
  | h0 w h => rw [show squeeze w = w from squeeze_name [] h, hname w h]
  | h1 w b h ih =>
    rw [squeeze_seg _ h]
    by_cases hw : w = []
    · subst hw; exact hslash b ih
    · have hh := squeeze_head ('/' :: b)
      have := hslash b ih
      cases hs : squeeze ('/' :: b) with
      | nil => rw [hs] at hh; cases hh
      | cons c t =>
        rw [hs] at hh this
        simp only [List.head?_cons, Option.some.injEq] at hh
        rw [hh] at this ⊢
        rw [genericText_seg t ⟨hw, h⟩, this]

/-- Two texts have the same elements exactly if they are the same when runs of slashes are made one slash. -/
theorem squeeze_iff (s t : Str) : squeeze s = squeeze t ↔ elements s = elements t := by
  rw [← elements_squeeze s, ← elements_squeeze t, ← genericText_eq_iff, genericText_squeeze, genericText_squeeze]

/-- The texts differ in runs of slashes at most. -/
def Sq (s t : Str) : Prop := squeeze s = squeeze t

theorem Sq.elements {s t : Str} (h : Sq s t) : elements s = elements t := (squeeze_iff s t).mp h

theorem Sq.starts {s t : Str} (h : Sq s t) : startsSlash s = startsSlash t := by
  unfold startsSlash
  rw [← squeeze_head s, ← squeeze_head t, h]

theorem Sq.names {s t : Str} (h : Sq s t) : filenames s = filenames t := by
  rw [← filenames_squeeze s, ← filenames_squeeze t, h]

theorem Sq.file {s t : Str} (h : Sq s t) : filePart s = filePart t := by
  rw [← (squeeze_parts s).1, ← (squeeze_parts t).1, h]

theorem Sq.dir {s t : Str} (h : Sq s t) : Sq (dirPart s) (dirPart t) := by
  unfold Sq
  rw [← (squeeze_parts s).2, ← (squeeze_parts t).2, h]

theorem Sq.drop {s t : Str} (h : Sq s t) : Sq (dropSlashes s) (dropSlashes t) := by
  unfold Sq
  rw [← squeeze_dropSlashes, ← squeeze_dropSlashes, h]

theorem Sq.mk {s t : Str} (h : Sq s t) : Sq (mkPath .posix s).pathname (mkPath .posix t).pathname := by
  unfold Sq
  rw [mkPath_pathname, mkPath_pathname, squeeze_stored, squeeze_stored, h]

theorem Sq.stored {s t : Str} (h : Sq s t) : Sq (stored s) (stored t) := by
  unfold Sq
  rw [squeeze_stored, squeeze_stored, h]

theorem Sq.append {a b c d : Str} (h : Sq a b) (h' : Sq c d) : Sq (a ++ c) (b ++ d) := squeeze_append h h'

theorem Sq.nil {s t : Str} (h : Sq s t) : s = [] ↔ t = [] := by
  rw [← squeeze_nil_iff s, ← squeeze_nil_iff t, h]

theorem Sq.head {s t : Str} (h : Sq s t) : s.head? = t.head? := by
  rw [← squeeze_head s, ← squeeze_head t, h]

theorem Sq.parent {s t : Str} (h : Sq s t) : Sq (parentText s) (parentText t) := by
  unfold parentText
  rw [h.names, h.starts]
  split
  · exact h
  · rfl

theorem Sq.normal {s t : Str} (h : Sq s t) : normalText s = normalText t := by
  unfold normalText
  rw [h.elements]
  simp only [h.nil]

theorem Sq.relative {s t s' t' : Str} (h : Sq s t) (h' : Sq s' t') : relText s s' = relText t t' := by
  unfold relText
  rw [h.elements, h'.elements, h.starts, h'.starts]

theorem Sq.dotted {s t : Str} (h : Sq s t) : Sq (dotted s) (dotted t) := by
  unfold Asap.dotted
  rw [h.head]
  simp only [h.nil]
  split
  · exact h
  · exact squeeze_append (a := ['.']) (a' := ['.']) rfl h

/-- The text in `p.replace_extension(p)` before it is doubled. -/
def selfDot (s : Str) : Str :=
  match s with
  | [] => s
  | c :: _ => if c ≠ '.' then s ++ ['.'] else s

theorem sq_selfDot {s t : Str} (h : Sq s t) : Sq (selfDot s) (selfDot t) := by
  have hh := h.head
  cases s with
  | nil => rw [h.nil.mp rfl]; rfl
  | cons c s =>
    cases t with
    | nil => cases hh
    | cons d t =>
      cases hh
      dsimp only [selfDot]
      split
      · exact h.append rfl
      · exact h

theorem sq_set {σ τ : Store} (h : ∀ v, Sq (σ v).pathname (τ v).pathname) (d : Nat) {p q : Path}
    (hp : Sq p.pathname q.pathname) : ∀ v, Sq (σ.set d p v).pathname (τ.set d q v).pathname := by
  intro v
  unfold Store.set
  split
  · exact hp
  · exact h v

/-- An operation that succeeds on either side gives equal paths for equal paths. -/
theorem exec_sq {el : Bool} {op op' : Op} {σ τ σ' τ' : Store} (hv : Variant op op') (hσ : AllGood true σ)
    (hτ : AllGood true τ) (h : ∀ v, Sq (σ v).pathname (τ v).pathname) (h1 : op.exec el σ = .ok σ')
    (h2 : op'.exec el τ = .ok τ') : ∀ v, Sq (σ' v).pathname (τ' v).pathname := by
  have ret : ∀ (d : Nat) {r r' : Res Path} {p q : Path}, r = .ok p → r' = .ok q → Sq p.pathname q.pathname →
      (do return σ.set d (← r) : Res Store) = .ok σ' → (do return τ.set d (← r') : Res Store) = .ok τ' →
      ∀ v, Sq (σ' v).pathname (τ' v).pathname := by
    rintro d r r' p q rfl rfl hpq e1 e2
    cases e1; cases e2
    exact sq_set h d hpq
  have good : ∀ (d : Nat) {p q : Path}, Sq p.pathname q.pathname →
      (.ok (σ.set d p) : Res Store) = .ok σ' → (.ok (τ.set d q) : Res Store) = .ok τ' →
      ∀ v, Sq (σ' v).pathname (τ' v).pathname := by
    rintro d p q hpq e1 e2
    cases e1; cases e2
    exact sq_set h d hpq
  have same : (∀ d s, op ≠ .ctor d s) → (∀ d s, op ≠ .concat d s) → op' = op := by
    intro n1 n2
    unfold Variant at hv
    split at hv
    · exact absurd rfl (n1 _ _)
    · exact absurd rfl (n2 _ _)
    · exact hv.symm
  have app : ∀ {p q p' q' r r' : Path}, Shape p → Shape q → Shape p' → Shape q' → Sq p.pathname p'.pathname →
      Sq q.pathname q'.pathname → Asap.append .posix p q = .ok r → Asap.append .posix p' q' = .ok r' →
      Sq r.pathname r'.pathname := by
    intro p q p' q' r r' g1 g2 g3 g4 e1 e2 a1 a2
    rw [g1.append g2] at a1
    rw [g3.append g4, ← e2.starts] at a2
    cases a1; cases a2
    split
    · exact e2
    · refine Sq.mk ?_
      unfold appendText
      rw [e1.file]
      exact (e1.append rfl).append e2
  cases op with
  | ctor d s =>
    cases op' <;> simp only [Variant, reduceCtorEq] at hv
    obtain ⟨rfl, hs⟩ := hv
    exact good _ (Sq.mk hs) h1 h2
  | concat d s =>
    cases op' <;> simp only [Variant, reduceCtorEq] at hv
    obtain ⟨rfl, hs⟩ := hv
    exact good _ (Sq.mk ((h _).append hs)) h1 h2
  | dflt d => cases same (by simp) (by simp); exact good d rfl h1 h2
  | copy d s => cases same (by simp) (by simp); exact good d (h s) h1 h2
  | moveCtor d s =>
    cases same (by simp) (by simp)
    cases h1; cases h2
    exact sq_set (sq_set h s rfl) d (Sq.mk (h s))
  | moveAssign d s =>
    cases same (by simp) (by simp)
    by_cases hd : d = s
    · subst hd
      simp only [Op.exec, if_true] at h1 h2
      exact good d rfl h1 h2
    · simp only [Op.exec, hd, if_false] at h1 h2
      cases h1; cases h2
      exact sq_set (sq_set h d (h s)) s rfl
  | swap a b =>
    cases same (by simp) (by simp)
    cases h1; cases h2
    exact sq_set (sq_set h a (h b)) b (h a)
  | rootName d s =>
    cases same (by simp) (by simp)
    refine good d ?_ h1 h2
    rw [(hσ s).shape.rootName, (hτ s).shape.rootName]
    rfl
  | rootDirectory d s =>
    cases same (by simp) (by simp)
    refine ret d (hσ s).shape.rootDirectory (hτ s).shape.rootDirectory ?_ h1 h2
    unfold rootDirOf
    rw [(h s).starts]
    rfl
  | rootPath d s =>
    cases same (by simp) (by simp)
    refine good d ?_ h1 h2
    rw [(hσ s).shape.rootPath, (hτ s).shape.rootPath]
    unfold rootDirOf
    rw [(h s).starts]
    rfl
  | relativePath d s =>
    cases same (by simp) (by simp)
    obtain ⟨p, a1, -, a2, -⟩ := (hσ s).loose.relativePath
    obtain ⟨q, b1, -, b2, -⟩ := (hτ s).loose.relativePath
    refine ret d a1 b1 ?_ h1 h2
    rw [a2, b2]
    exact (h s).drop
  | parentPath d s =>
    cases same (by simp) (by simp)
    obtain ⟨p, a1, -, a2, -⟩ := (hσ s).loose.parentPath el
    obtain ⟨q, b1, -, b2, -⟩ := (hτ s).loose.parentPath el
    refine ret d a1 b1 ?_ h1 h2
    rw [a2, b2]
    exact (h s).parent
  | filename d s =>
    cases same (by simp) (by simp)
    refine ret d (hσ s).shape.filename (hτ s).shape.filename ?_ h1 h2
    rw [(h s).file]
    rfl
  | stem d s =>
    cases same (by simp) (by simp)
    refine good d ?_ h1 h2
    rw [(hσ s).shape.stem, (hτ s).shape.stem, (h s).file]
    rfl
  | extension d s =>
    cases same (by simp) (by simp)
    refine good d ?_ h1 h2
    rw [(hσ s).shape.extension, (hτ s).shape.extension, (h s).file]
    rfl
  | element d s i =>
    cases same (by simp) (by simp)
    simp only [Op.exec] at h1 h2
    rw [(hσ s).shape.elems] at h1
    rw [(hτ s).shape.elems, ← (h s).elements] at h2
    cases he : (List.map elemPath (elements (σ s).pathname))[i]? with
    | none => rw [he] at h1 h2; cases h1; cases h2; exact h
    | some e => rw [he] at h1 h2; exact good d rfl h1 h2
  | append d s =>
    cases same (by simp) (by simp)
    obtain ⟨p, a1, -⟩ := (hσ d).append (hσ s)
    obtain ⟨q, b1, -⟩ := (hτ d).append (hτ s)
    exact ret d a1 b1 (app (hσ d).shape (hσ s).shape (hτ d).shape (hτ s).shape (h d) (h s) a1 b1) h1 h2
  | concatPath d s => cases same (by simp) (by simp); exact good d (Sq.mk ((h d).append (h s))) h1 h2
  | clear d => cases same (by simp) (by simp); exact good d rfl h1 h2
  | makePreferred d => cases same (by simp) (by simp); exact good d (h d) h1 h2
  | removeFilename d =>
    cases same (by simp) (by simp)
    rcases (hσ d).removeFilename with ⟨p, a1, -, a2⟩ | ⟨a1, -⟩
    · rcases (hτ d).removeFilename with ⟨q, b1, -, b2⟩ | ⟨b1, -⟩
      · refine ret d a1 b1 ?_ h1 h2
        rw [a2, b2]
        exact (h d).dir.stored
      · simp [Op.exec, b1, bind, Except.bind] at h2
    · simp [Op.exec, a1, bind, Except.bind] at h1
  | replaceFilename d s =>
    cases same (by simp) (by simp)
    rcases (hσ d).removeFilename with ⟨p, a1, a3, a2⟩ | ⟨a1, -⟩
    · rcases (hτ d).removeFilename with ⟨q, b1, b3, b2⟩ | ⟨b1, -⟩
      · have hpq : Sq p.pathname q.pathname := by
          rw [a2, b2]
          exact (h d).dir.stored
        by_cases hd : d = s
        · subst hd
          simp only [Op.exec, if_true, replaceFilenameSelf, a1, b1, bind, Except.bind] at h1 h2
          obtain ⟨r, c1, -⟩ := a3.append a3
          obtain ⟨r', c2, -⟩ := b3.append b3
          rw [c1] at h1
          rw [c2] at h2
          exact good d (app a3.shape a3.shape b3.shape b3.shape hpq hpq c1 c2) h1 h2
        · simp only [Op.exec, hd, if_false, replaceFilename, a1, b1, bind, Except.bind] at h1 h2
          obtain ⟨r, c1, -⟩ := a3.append (hσ s)
          obtain ⟨r', c2, -⟩ := b3.append (hτ s)
          rw [c1] at h1
          rw [c2] at h2
          exact good d (app a3.shape (hσ s).shape b3.shape (hτ s).shape hpq (h s) c1 c2) h1 h2
      · exfalso
        by_cases hd : d = s
        · subst hd; simp [Op.exec, replaceFilenameSelf, b1, bind, Except.bind] at h2
        · simp [Op.exec, hd, replaceFilename, b1, bind, Except.bind] at h2
    · exfalso
      by_cases hd : d = s
      · subst hd; simp [Op.exec, replaceFilenameSelf, a1, bind, Except.bind] at h1
      · simp [Op.exec, hd, replaceFilename, a1, bind, Except.bind] at h1
  | replaceExtension d s =>
    cases same (by simp) (by simp)
    by_cases hd : d = s
    · subst hd
      simp only [Op.exec, if_true, replaceExtensionSelf, (hσ d).loose.eraseExtension, (hτ d).loose.eraseExtension,
        bind, Except.bind, pure, Except.pure, (h d).file] at h1 h2
      have hb := (h d).dir.append (rfl : Sq (stemOf (filePart (τ d).pathname)) (stemOf (filePart (τ d).pathname)))
      refine good d (Sq.mk ?_) h1 h2
      exact (sq_selfDot hb).append (sq_selfDot hb)
    · simp only [Op.exec, hd, if_false] at h1 h2
      refine ret d ((hσ d).loose.replaceExtension _) ((hτ d).loose.replaceExtension _) ?_ h1 h2
      refine Sq.mk (Sq.append ?_ (h s).dotted)
      rw [(h d).file]
      exact (h d).dir.append rfl
  | normal d s =>
    cases same (by simp) (by simp)
    obtain ⟨p, a1, -, a2⟩ := (hσ s).shape.lexicallyNormal true
    obtain ⟨q, b1, -, b2⟩ := (hτ s).shape.lexicallyNormal true
    refine ret d a1 b1 ?_ h1 h2
    rw [a2, b2, (h s).normal]
    rfl
  | relative d a b =>
    cases same (by simp) (by simp)
    obtain ⟨p, a1, -, -, a2⟩ := (hσ a).shape.lexicallyRelative (hσ b).shape
    obtain ⟨q, b1, -, -, b2⟩ := (hτ a).shape.lexicallyRelative (hτ b).shape
    refine ret d a1 b1 ?_ h1 h2
    rw [a2, b2, (h a).relative (h b)]
    rfl
  | proximate d a b =>
    cases same (by simp) (by simp)
    obtain ⟨p, a1, -, -, a2⟩ := (hσ a).shape.lexicallyRelative (hσ b).shape
    obtain ⟨q, b1, -, -, b2⟩ := (hτ a).shape.lexicallyRelative (hτ b).shape
    have hpq : p.pathname = q.pathname := by rw [a2, b2, (h a).relative (h b)]
    simp only [Op.exec, lexicallyProximate, a1, b1, bind, Except.bind, pure, Except.pure, Path.isEmpty, hpq] at h1 h2
    by_cases hq : q.pathname = []
    · simp only [hq, List.isEmpty_nil, if_true] at h1 h2
      exact good d (h a) h1 h2
    · simp only [hq, List.isEmpty_iff, if_false] at h1 h2
      exact good d (by rw [hpq]; rfl) h1 h2

theorem variant_parent {a b : Op} (h : Variant a b) (d s : Nat) : a = .parentPath d s ↔ b = .parentPath d s := by
  unfold Variant at h
  split at h
  · simp
  · simp
  · rw [h]

theorem variants_parent {as bs : List Op} (h : Variants as bs) (d s : Nat) :
    Op.parentPath d s ∈ as ↔ Op.parentPath d s ∈ bs := by
  induction h with
  | nil => simp
  | cons h _ ih =>
    rw [List.mem_cons, List.mem_cons, ih, eq_comm, variant_parent h, eq_comm]

theorem variants_other {as bs : List Op} (h : Variants as bs) {x : Op} (n1 : ∀ d s, x ≠ .ctor d s)
    (n2 : ∀ d s, x ≠ .concat d s) (hx : x ∉ as) : x ∉ bs := by
  induction h with
  | nil => simp
  | cons hab _ ih =>
    rw [List.mem_cons, not_or] at hx ⊢
    refine ⟨?_, ih hx.2⟩
    rintro rfl
    unfold Variant at hab
    split at hab
    · exact n1 _ _ rfl
    · exact n2 _ _ rfl
    · exact hx.1 hab.symm

theorem execAll_sq {el : Bool} {ops ops' : List Op} (hv : Variants ops ops') (hel : el = false ∨ ∀ d s, Op.parentPath d s ∉ ops) :
    ∀ {σ τ σ' τ' : Store}, AllGood true σ → AllGood true τ → (∀ v, Sq (σ v).pathname (τ v).pathname) →
      execAll el ops σ = .ok σ' → execAll el ops' τ = .ok τ' → ∀ v, Sq (σ' v).pathname (τ' v).pathname := by
  induction hv with
  | nil => intro σ τ σ' τ' _ _ h e1 e2; cases e1; cases e2; exact h
  | @cons a b as bs hab hs ih =>
    intro σ τ σ' τ' g1 g2 h e1 e2
    have hel' : el = false ∨ ∀ d s, Op.parentPath d s ∉ b :: bs := by
      rcases hel with hel | hel
      · exact .inl hel
      · exact .inr fun d s hm => hel d s ((variants_parent (.cons hab hs) d s).mpr hm)
    simp only [execAll] at e1 e2
    cases ha : a.exec el σ with
    | error e => rw [ha] at e1; cases e1
    | ok σ1 =>
      cases hb : b.exec el τ with
      | error e => rw [hb] at e2; cases e2
      | ok τ1 =>
        rw [ha] at e1
        rw [hb] at e2
        have one : ∀ {x : Op} {xs : List Op} {ρ ρ' : Store}, (el = false ∨ ∀ d s, Op.parentPath d s ∉ x :: xs) →
            AllGood true ρ → x.exec el ρ = .ok ρ' → AllGood true ρ' := by
          intro x xs ρ ρ' hx hg he
          refine execAll_good (ops := [x]) (el := el) ?_ hg (by simp [execAll, he, bind, Except.bind])
          rcases hx with hx | hx
          · exact .inl hx
          · refine .inr fun d s hm => hx d s ?_
            rw [List.mem_singleton] at hm
            simp [hm]
        refine ih ?_ (one hel g1 ha) (one hel' g2 hb) (exec_sq hab g1 g2 h ha hb) e1 e2
        rcases hel with hel | hel
        · exact .inl hel
        · exact .inr fun d s hm => hel d s (by simp [hm])

/-- C122. Two paths are equal exactly if their texts are the same once every run of slashes is made one slash. -/
theorem c122_equal {p q : Path} (hp : Value p) (hq : Value q) :
    p.eqv q = true ↔ squeeze p.pathname = squeeze q.pathname := by
  rw [(c07_total_order hp hq hq).2.2.2.1, hp.shape.names, hq.shape.names, squeeze_iff]

/-- C122, partial. Run the same operations twice, with texts that differ in runs of slashes at most; if both runs succeed, the
variables hold equal paths. Both do succeed if `lexically_normal` is not used, or neither `remove_filename` nor
`replace_filename`.
Missing because false (`c122_violated`): `remove_filename` may be undefined for one of two equal paths; and with copy elision
`parent_path` gives paths that behave unlike equal ones. -/
theorem c122_histories_partial (el : Bool) (ops ops' : List Op) (h : Variants ops ops')
    (hel : el = false ∨ ∀ d s, Op.parentPath d s ∉ ops) :
    (∀ σ τ, execAll el ops (fun _ => .default) = .ok σ → execAll el ops' (fun _ => .default) = .ok τ →
      ∀ v, (σ v).eqv (τ v) = true) ∧
    ((∀ d s, Op.normal d s ∉ ops) ∨ (∀ d s, Op.removeFilename d ∉ ops ∧ Op.replaceFilename d s ∉ ops) →
      ∃ σ τ, execAll el ops (fun _ => .default) = .ok σ ∧ execAll el ops' (fun _ => .default) = .ok τ) := by
  have hel' : el = false ∨ ∀ d s, Op.parentPath d s ∉ ops' := by
    rcases hel with hel | hel
    · exact .inl hel
    · exact .inr fun d s hm => hel d s ((variants_parent h d s).mpr hm)
  constructor
  · intro σ τ e1 e2 v
    have hs := execAll_sq h hel (fun _ => good_default) (fun _ => good_default) (fun _ => rfl) e1 e2 v
    exact (c122_equal (.reach ⟨el, ops, σ, v, hel, e1, rfl⟩) (.reach ⟨el, ops', τ, v, hel', e2, rfl⟩)).mpr hs
  · intro hn
    have other := fun x n1 n2 hx => variants_other h (x := x) n1 n2 hx
    obtain ⟨σ, e1, -⟩ := c20_no_fault_partial el ops hel hn
    obtain ⟨τ, e2, -⟩ := c20_no_fault_partial el ops' hel' (by
      rcases hn with hn | hn
      · exact .inl fun d s => other _ (by simp) (by simp) (hn d s)
      · exact .inr fun d s => ⟨other _ (by simp) (by simp) (hn d s).1, other _ (by simp) (by simp) (hn d s).2⟩)
    exact ⟨σ, τ, e1, e2⟩

/-- C122. What the observers say of equal paths is the same; only `native()` and its like tell them apart. -/
theorem c122_observers {p q : Path} (hp : Value p) (hq : Value q) (h : p.eqv q = true) :
    p.names = q.names ∧ p.isEmpty = q.isEmpty ∧ genericString p = genericString q ∧
    isAbsolute .posix p = isAbsolute .posix q ∧ hasRootName p = hasRootName q ∧
    hasRootDirectory .posix p = hasRootDirectory .posix q ∧ hasFilename .posix p = hasFilename .posix q ∧
    hasStem p = hasStem q ∧ hasExtension p = hasExtension q ∧
    filename .posix p = filename .posix q ∧ stem .posix p = stem .posix q ∧ extension .posix p = extension .posix q ∧
    (∀ e e', textOf (lexicallyNormal .posix e p) = textOf (lexicallyNormal .posix e' q)) ∧
    (∀ r, Value r → (p.compare r < 0 ↔ q.compare r < 0) ∧ (p.compare r = 0 ↔ q.compare r = 0) ∧
      textOf (lexicallyRelative .posix p r) = textOf (lexicallyRelative .posix q r) ∧
      textOf (lexicallyRelative .posix r p) = textOf (lexicallyRelative .posix r q)) := by
  have hs : Sq p.pathname q.pathname := (c122_equal hp hq).mp h
  have hn : p.names = q.names := by rw [hp.shape.names, hq.shape.names, hs.elements]
  have ht : ∀ {a b : Res Path} {x y : Path}, a = .ok x → b = .ok y → x.pathname = y.pathname → textOf a = textOf b := by
    rintro a b x y rfl rfl e
    simp only [textOf, Except.map, e]
  have hx : findExtension p = findExtension q := by
    rw [hp.shape.findExtension, hq.shape.findExtension, hs.file]
  refine ⟨hn, ?_, ?_, ?_, ?_, ?_, ?_, ?_, ?_, ?_, ?_, ?_, ?_, ?_⟩
  · unfold Path.isEmpty
    rw [Bool.eq_iff_iff, List.isEmpty_iff, List.isEmpty_iff]
    exact hs.nil
  · rw [hp.shape.genericString, hq.shape.genericString, genericText_eq_iff, hs.elements]
  · rw [hp.shape.isAbsolute, hq.shape.isAbsolute, hs.starts]
  · rw [hp.shape.hasRootName, hq.shape.hasRootName]
  · rw [hp.shape.hasRootDirectory, hq.shape.hasRootDirectory, hs.starts]
  · rw [Asap.hasFilename, Asap.hasFilename, hp.shape.filename, hq.shape.filename, hs.file]
  · rw [hasStem, hasStem, hx]
  · rw [hasExtension, hasExtension, hx]
  · rw [hp.shape.filename, hq.shape.filename, hs.file]
  · rw [hp.shape.stem, hq.shape.stem, hs.file]
  · rw [hp.shape.extension, hq.shape.extension, hs.file]
  · intro e e'
    obtain ⟨x, a1, -, a2⟩ := hp.shape.lexicallyNormal e
    obtain ⟨y, b1, -, b2⟩ := hq.shape.lexicallyNormal e'
    exact ht a1 b1 (by rw [a2, b2, hs.normal])
  · intro r hr
    obtain ⟨x, a1, -, -, a2⟩ := hp.shape.lexicallyRelative hr.shape
    obtain ⟨y, b1, -, -, b2⟩ := hq.shape.lexicallyRelative hr.shape
    obtain ⟨x', c1, -, -, c2⟩ := hr.shape.lexicallyRelative hp.shape
    obtain ⟨y', d1, -, -, d2⟩ := hr.shape.lexicallyRelative hq.shape
    refine ⟨?_, ?_, ht a1 b1 (by rw [a2, b2, hs.relative (rfl : Sq r.pathname r.pathname)]),
      ht c1 d1 (by rw [c2, d2, Sq.relative (rfl : Sq r.pathname r.pathname) hs])⟩
    · rw [(c07_compare hp hr).1, (c07_compare hq hr).1, hn]
    · rw [(c07_compare hp hr).2.1, (c07_compare hq hr).2.1, hn]

/-- Two equal paths, one of which cannot be used with `remove_filename`; and with copy elision one of which cannot be used
with `relative_path`. -/
theorem c122_violated :
    (∃ p q, lexicallyNormal .posix true (mkPath .posix "../".toList) = .ok p ∧ q = mkPath .posix "..".toList ∧
      p.eqv q = true ∧ removeFilename .posix p = .error .ub ∧ ∃ r, removeFilename .posix q = .ok r) ∧
    (∃ p q, parentPath .posix true (mkPath .posix "///a/b".toList) = .ok p ∧ q = mkPath .posix "/a".toList ∧
      p.eqv q = true ∧ relativePath .posix p = .error .outOfRange ∧ ∃ r, relativePath .posix q = .ok r) := by
  refine ⟨⟨_, _, rfl, rfl, rfl, rfl, _, rfl⟩, ⟨_, _, rfl, rfl, rfl, rfl, _, rfl⟩⟩

example : squeeze "//a///b/".toList = "/a/b/".toList ∧
    Variants [.ctor 0 "a//b".toList, .parentPath 1 0, .normal 2 1] [.ctor 0 "a/b".toList, .parentPath 1 0, .normal 2 1] :=
  ⟨by decide, .cons ⟨rfl, by decide⟩ (.cons rfl (.cons rfl .nil))⟩

example : (mkPath .posix "a//b".toList).eqv (mkPath .posix "a/b".toList) = true ∧
    (mkPath .posix "a/b".toList).eqv (mkPath .posix "a/b/".toList) = false := by decide

end Asap
