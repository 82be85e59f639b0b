import Verif.Basic

/-!
# Independent specification vocabulary for POSIX paths

Nothing here refers to the model of the code. A path text is cut at every `/`;
the non-empty pieces are the filenames.
-/

namespace Asap.Spec

/-- Cut a text at every `/`; always at least one (possibly empty) piece. -/
def pieces : Str → List Str
  | [] => [[]]
  | c :: cs =>
    if c = '/' then [] :: pieces cs
    else match pieces cs with
      | [] => [[c]]
      | g :: gs => (c :: g) :: gs

/-- The filenames of a path text: the non-empty pieces between slashes. -/
def filenames (s : Str) : List Str := (pieces s).filter (· ≠ [])

/-- The text starts with a slash. -/
def startsSlash (s : Str) : Bool := s.head? == some '/'

/-- The text ends with a slash. -/
def endsSlash (s : Str) : Bool := s.getLast? == some '/'

/-- The element sequence of a POSIX path text according to the path grammar. -/
def elements (s : Str) : List Str :=
  (if startsSlash s then [['/']] else []) ++ filenames s ++
    (if endsSlash s ∧ filenames s ≠ [] then [[]] else [])

/-- Text stored for a source text: itself, but a run of slashes is one slash. -/
def stored (s : Str) : Str := if s ≠ [] ∧ s.all (· == '/') then ['/'] else s

/-- The text up to and including its last slash (empty if there is none). -/
def dirPart (s : Str) : Str := (s.reverse.dropWhile (· != '/')).reverse

/-- The text after its last slash (all of it if there is none). -/
def filePart (s : Str) : Str := (s.reverse.takeWhile (· != '/')).reverse

/-- Strict lexicographic order on lists, given a strict order on entries. -/
def lexLt {α : Type} (lt : α → α → Prop) : List α → List α → Prop
  | _, [] => False
  | [], _ :: _ => True
  | a :: as, b :: bs => lt a b ∨ (a = b ∧ lexLt lt as bs)

/-- Bytewise (code point) lexicographic order on texts. -/
def textLt : Str → Str → Prop := lexLt (fun a b => a.toNat < b.toNat)

end Asap.Spec

namespace Asap.Spec

/-- Join texts with single slashes. -/
def join : List Str → Str
  | [] => []
  | [w] => w
  | w :: ws => w ++ '/' :: join ws

/-- Spell out a path: optional root slash, filenames joined by single slashes,
optional trailing slash. -/
def render (abs : Bool) (names : List Str) (trailing : Bool) : Str :=
  (if abs then ['/'] else []) ++ join names ++ (if trailing then ['/'] else [])

/-- A text that can be a filename: non-empty and without slash. -/
def IsName (w : Str) : Prop := w ≠ [] ∧ '/' ∉ w

end Asap.Spec

namespace Asap.Spec

/-- The text without its leading slashes. -/
def dropSlashes (s : Str) : Str := s.dropWhile (· == '/')

/-- A filename has an extension iff it is not `..` and has a dot that is not its
first character. -/
def HasExt (w : Str) : Prop := w ≠ ['.', '.'] ∧ '.' ∈ w.tail

instance (w : Str) : Decidable (HasExt w) := by unfold HasExt; infer_instance

/-- The part of a text after its last dot. -/
def afterDot (w : Str) : Str := (w.reverse.takeWhile (· != '.')).reverse

/-- The extension of a filename: from its last dot on, or empty. -/
def extOf (w : Str) : Str := if HasExt w then '.' :: afterDot w else []

/-- The stem of a filename: what precedes the extension. -/
def stemOf (w : Str) : Str := w.take (w.length - (extOf w).length)

end Asap.Spec
