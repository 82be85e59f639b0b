import Verif.Path.Chars

/-!
# C119: path operations invent no characters
-/

namespace Asap
open Spec

namespace Spec

/-- The texts the program hands to a path operation. -/
def textGiven : Op → Str
  | .ctor _ s => s
  | .concat _ s => s
  | _ => []

/-- The operations that may write a dot of their own: the one that puts it before a new
extension and the ones that answer `.` or `..`. -/
def writesDot : Op → Bool
  | .replaceExtension _ _ => true
  | .normal _ _ => true
  | .relative _ _ _ => true
  | .proximate _ _ _ => true
  | _ => false

/-- A character that was given to the program, is the separator of the platform or, after
an operation that writes one, a dot. -/
def Accounted (sep : Char) (ops : List Op) (c : Char) : Prop :=
  (∃ op ∈ ops, c ∈ textGiven op) ∨ c = sep ∨ (c = '.' ∧ ∃ op ∈ ops, writesDot op = true)

end Spec

theorem over_set {A : Char → Prop} {σ : Store} {d : Nat} {p : Path} (h : ∀ v, Over A (σ v)) (hp : Over A p) : ∀ v, Over A (σ.set d p v) := by
  intro v
  unfold Store.set
  split
  · exact hp
  · exact h v

theorem over_exec {A : Char → Prop} {pl : Plat} {el : Bool} {op : Op} {σ σ' : Store} (hp : A (prefSep pl))
    (hd : writesDot op = true → A '.') (ht : ∀ c ∈ textGiven op, A c) (h : ∀ v, Over A (σ v))
    (e : op.execOn pl el σ = .ok σ') : ∀ v, Over A (σ' v) := by
  have ok : ∀ (d : Nat) {r : Res Path}, (do return σ.set d (← r) : Res Store) = .ok σ' →
      (∀ q, r = .ok q → Over A q) → ∀ v, Over A (σ' v) := by
    intro d r e hr
    cases r with
    | error x => cases e
    | ok q => cases e; exact over_set h (hr q rfl)
  cases op with
  | dflt d => cases e; exact over_set h over_default
  | ctor d s => cases e; exact over_set h (over_mkPath hp ht)
  | copy d s => cases e; exact over_set h (h s)
  | moveCtor d s => cases e; exact over_set (over_set h (over_clear hp _)) ((h s).moved hp)
  | moveAssign d s =>
    simp only [Op.execOn] at e
    split at e
    · cases e; exact over_set h (over_mkPath hp .nil)
    · cases e; exact over_set (p := (σ s).clear pl) (over_set h (h s)) (over_clear hp (σ s))
  | swap a b => cases e; exact over_set (over_set h (h b)) (h a)
  | rootName d s => cases e; exact over_set h (h s).rootName
  | rootDirectory d s => exact ok d e fun q hq => (h s).rootDirectory hp hq
  | rootPath d s => cases e; exact over_set h ((h s).rootPath hp)
  | relativePath d s => exact ok d e fun q hq => (h s).relativePath hp hq
  | parentPath d s => exact ok d e fun q hq => (h s).parentPath hp hq
  | filename d s => exact ok d e fun q hq => (h s).filename hq
  | stem d s => cases e; exact over_set h ((h s).stem hp)
  | extension d s => cases e; exact over_set h ((h s).extension hp)
  | element d s i =>
    simp only [Op.execOn] at e
    cases hx : (σ s).elems[i]? with
    | some x => rw [hx] at e; cases e; exact over_set h ((h s).elems (List.mem_of_getElem? hx))
    | none => rw [hx] at e; cases e; exact h
  | append d s => exact ok d e fun q hq => (h d).append hp (h s) hq
  | concat d s => cases e; exact over_set h ((h d).concat hp ht)
  | concatPath d s => cases e; exact over_set h ((h d).concat hp (h s).text)
  | clear d => cases e; exact over_set h (over_clear hp _)
  | makePreferred d => cases e; exact over_set h ((h d).makePreferred hp)
  | removeFilename d => exact ok d e fun q hq => (h d).removeFilename hp hq
  | replaceFilename d s =>
    simp only [Op.execOn] at e
    split at e
    · exact ok d e fun q hq => (h d).replaceFilenameSelf hp hq
    · exact ok d e fun q hq => (h d).replaceFilename hp (h s) hq
  | replaceExtension d s =>
    simp only [Op.execOn] at e
    split at e
    · exact ok d e fun q hq => (h d).replaceExtensionSelf hp (hd rfl) hq
    · exact ok d e fun q hq => (h d).replaceExtension hp (hd rfl) (h s) hq
  | normal d s => exact ok d e fun q hq => (h s).lexicallyNormal hp (hd rfl) hq
  | relative d a b => exact ok d e fun q hq => (h a).lexicallyRelative hp (hd rfl) hq
  | proximate d a b => exact ok d e fun q hq => (h a).lexicallyProximate hp (hd rfl) hq

theorem over_execAll {A : Char → Prop} {pl : Plat} {el : Bool} (hp : A (prefSep pl)) : ∀ (ops : List Op) (σ σ' : Store),
    (∀ op ∈ ops, writesDot op = true → A '.') → (∀ op ∈ ops, ∀ c ∈ textGiven op, A c) → (∀ v, Over A (σ v)) →
    execAllOn pl el ops σ = .ok σ' → ∀ v, Over A (σ' v)
  | [], σ, σ', _, _, h, e => by cases e; exact h
  | op :: ops, σ, σ', hd, ht, h, e => by
    unfold execAllOn at e
    cases h1 : op.execOn pl el σ with
    | error x => rw [h1] at e; cases e
    | ok σ1 =>
      rw [h1] at e
      exact over_execAll hp ops σ1 σ' (fun o ho => hd o (List.mem_cons_of_mem _ ho)) (fun o ho => ht o (List.mem_cons_of_mem _ ho))
        (over_exec hp (hd op (by simp)) (ht op (by simp)) h h1) e

/-- **C119** In every program that uses the operations of `class path`, on either platform and
with or without elision, every character of every path and of every element of it was
given to the program in a text, or is the preferred separator, or is a dot after an
operation that writes dots. -/
theorem c119_characters (pl : Plat) (el : Bool) (ops : List Op) (σ : Store)
    (h : execAllOn pl el ops (fun _ => .default) = .ok σ) (v : Nat) :
    (∀ c ∈ (σ v).pathname, Accounted (match pl with | .posix => '/' | .windows => '\\') ops c) ∧
    ∀ e ∈ (σ v).elems, ∀ c ∈ e.pathname, Accounted (match pl with | .posix => '/' | .windows => '\\') ops c := by
  have := over_execAll (A := Accounted (match pl with | .posix => '/' | .windows => '\\') ops) (pl := pl) (el := el)
    (Or.inr (Or.inl (by cases pl <;> rfl))) ops _ σ
    (fun op ho hw => Or.inr (Or.inr ⟨rfl, op, ho, hw⟩)) (fun op ho c hc => Or.inl ⟨op, ho, hc⟩) (fun _ => over_default) h v
  exact ⟨this.text, fun e he => (this.elems he).text⟩

/-- **C119** In particular, texts without null characters give paths without null characters:
`c_str()` is then the whole text of the path. -/
theorem c119_no_nul (pl : Plat) (el : Bool) (ops : List Op) (σ : Store) (hn : ∀ op ∈ ops, '\x00' ∉ textGiven op)
    (h : execAllOn pl el ops (fun _ => .default) = .ok σ) (v : Nat) : '\x00' ∉ (σ v).pathname := by
  intro hc
  rcases (c119_characters pl el ops σ h v).1 _ hc with ⟨op, ho, hc⟩ | hc | hc
  · exact hn op ho hc
  · cases pl <;> cases hc
  · cases hc.1

/-- A program with every source of characters: given texts, a separator of `/=` and a
dot of `replace_extension`. -/
example : ∃ σ, execAllOn .posix false [.ctor 0 "a".toList, .ctor 1 "b".toList, .ctor 2 "c".toList, .append 0 1,
      .replaceExtension 0 2] (fun _ => .default) = .ok σ ∧ (σ 0).pathname = "a/b.c".toList :=
  ⟨_, rfl, by decide⟩

end Asap
