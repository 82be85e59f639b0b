import Verif.Path.Spec

/-!
# Specification of lexical normalisation, independent of the model

The C++17 text ([fs.path.generic], normalisation steps 4 to 7) as a rewriting
relation on the filenames of a path (a final empty entry stands for a trailing
separator), the declarative normal form, and the meaning of a path in a world
without symbolic links.
-/

namespace Asap.Spec

/-- The filename `.`. -/
abbrev dot : Str := ['.']

/-- The filename `..`. -/
abbrev dotdot : Str := ['.', '.']

/-- A filename other than `.` and `..`. -/
def IsPlain (w : Str) : Prop := IsName w ∧ w ≠ dot ∧ w ≠ dotdot

/-- The elements after the root: filenames, then an empty entry if the text has a
trailing separator. -/
def relElements (s : Str) : List Str :=
  filenames s ++ (if endsSlash s ∧ filenames s ≠ [] then [[]] else [])

/-- One rewriting step of lexical normalisation; `abs` tells whether the path has a
root directory. -/
inductive Rw (abs : Bool) : List Str → List Str → Prop
  /-- step 4: a dot and the separator after it -/
  | dotSep (l₁ l₂) : l₂ ≠ [] → Rw abs (l₁ ++ dot :: l₂) (l₁ ++ l₂)
  /-- step 4: a final dot; the separator before it stays -/
  | dotEnd (l₁) : l₁ ≠ [] → Rw abs (l₁ ++ [dot]) (l₁ ++ [[]])
  /-- step 4: the path is a dot -/
  | dotOnly : Rw abs [dot] []
  /-- step 5: a filename, dot-dot and the separator after it -/
  | upSep (l₁ w l₂) : IsPlain w → l₂ ≠ [] → Rw abs (l₁ ++ w :: dotdot :: l₂) (l₁ ++ l₂)
  /-- step 5: a filename and final dot-dot; the separator before them stays -/
  | upEnd (l₁ w) : IsPlain w → l₁ ≠ [] → Rw abs (l₁ ++ [w, dotdot]) (l₁ ++ [[]])
  /-- step 5: the path is a filename and dot-dot -/
  | upOnly (w) : IsPlain w → Rw abs [w, dotdot] []
  /-- step 6: dot-dot right after the root directory -/
  | root (l) : abs = true → Rw abs (dotdot :: l) l
  /-- nothing is left before the trailing separator -/
  | lone : Rw abs [[]] []
  /-- step 7: trailing separator after dot-dot -/
  | upTrail (l₁) : Rw abs (l₁ ++ [dotdot, []]) (l₁ ++ [dotdot])

/-- Finitely many steps. -/
inductive Rws (abs : Bool) : List Str → List Str → Prop
  | refl (l) : Rws abs l l
  | tail {l m n} : Rws abs l m → Rw abs m n → Rws abs l n

/-- No step applies. -/
def Reduced (abs : Bool) (l : List Str) : Prop := ∀ l', ¬ Rw abs l l'

/-- Spelling of a normalised path (step 8 for the empty one). -/
def spell (abs : Bool) (l : List Str) : Str :=
  if abs = false ∧ l = [] then dot
  else (if abs then ['/'] else []) ++ join l

/-- Declarative normal form. -/
structure IsNormal (s : Str) : Prop where
  /-- no repeated separators -/
  noDouble : ¬ ['/', '/'] <:+: s
  /-- `.` occurs only as the whole path -/
  noDot : dot ∈ filenames s → s = dot
  /-- `..` occurs only at the front -/
  upsFirst : ∀ a b, filenames s = a ++ dotdot :: b → ∀ w ∈ a, w = dotdot
  /-- `..` occurs only in relative paths -/
  upsRel : dotdot ∈ filenames s → startsSlash s = false
  /-- no trailing separator after `..` -/
  noUpTrail : (filenames s).getLast? = some dotdot → endsSlash s = false

/-- A file system without symbolic links, as far as walking paths is concerned. -/
structure World where
  /-- files and directories -/
  Node : Type
  /-- the root directory -/
  root : Node
  /-- look up a filename (other than `.` and `..`) -/
  child : Node → Str → Option Node
  /-- the directory a node is in; the root is in itself -/
  parent : Node → Node
  /-- is it a directory -/
  isDir : Node → Bool
  child_dir : ∀ n w m, child n w = some m → isDir n = true
  parent_child : ∀ n w m, child n w = some m → parent m = n
  parent_root : parent root = root
  root_dir : isDir root = true

/-- Walk a sequence of path elements from a node. -/
def walk (W : World) : W.Node → List Str → Option W.Node
  | n, [] => some n
  | n, e :: es =>
    if e = ['/'] then walk W W.root es
    else if e = [] ∨ e = dot then (if W.isDir n then walk W n es else none)
    else if e = dotdot then (if W.isDir n then walk W (W.parent n) es else none)
    else match W.child n e with
      | some m => walk W m es
      | none => none

end Asap.Spec
