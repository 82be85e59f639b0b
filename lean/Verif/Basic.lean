/-!
# Basic vocabulary of the model

Strings, faults and the platform switch shared by all parts of the model.
-/

namespace Asap

/-- `path::string_type` (`include/filesystem/fs_path.h:40-41`), a `std::string`.
Simplified: a C++ `char` is a Lean `Char`; only code points below 256 occur in
the C++ program, the model allows all of them. -/
abbrev Str := List Char

/-- Ways in which a C++ evaluation can leave the defined, non-throwing world of
`class path`.
* `ub`: undefined behaviour (for example `std::prev(v.begin())`).
* `outOfRange`: `std::out_of_range` thrown by `std::string::substr`/`erase`.
* `logicError`: `std::logic_error` thrown by `replace_extension`
  (`src/fs_path.cpp:674`).
* `assertFail`: a failed `ASAP_ASSERT` (aborts in debug builds, goes on into
  undefined behaviour in release builds).
* `badStream`: undefined behaviour of a kind we want to tell apart: reading a null directory stream, or
  looking at the top of an empty stack of streams. -/
inductive Fault where
  | ub
  | outOfRange
  | logicError
  | assertFail
  | badStream
  deriving DecidableEq, Repr

/-- Result of a C++ evaluation: a value or a fault. -/
abbrev Res := Except Fault

/-- Decidable equality of results, used to evaluate concrete cases. -/
instance {α : Type} [DecidableEq α] : DecidableEq (Res α) := fun a b =>
  match a, b with
  | .ok x, .ok y => if h : x = y then isTrue (by rw [h]) else isFalse (by intro e; cases e; exact h rfl)
  | .error x, .error y => if h : x = y then isTrue (by rw [h]) else isFalse (by intro e; cases e; exact h rfl)
  | .ok _, .error _ => isFalse (by intro e; cases e)
  | .error _, .ok _ => isFalse (by intro e; cases e)

/-- The two branches of `#ifdef ASAP_WINDOWS`. -/
inductive Plat where
  | posix
  | windows
  deriving DecidableEq, Repr

/-- `std::string::erase(pos)` (erase to the end): throws `std::out_of_range`
if `pos > size()`. -/
def eraseFrom (s : Str) (pos : Nat) : Res Str :=
  if pos ≤ s.length then .ok (s.take pos) else .error .outOfRange

/-- `std::string::substr(pos)`: throws `std::out_of_range` if `pos > size()`. -/
def substrFrom (s : Str) (pos : Nat) : Res Str :=
  if pos ≤ s.length then .ok (s.drop pos) else .error .outOfRange

/-- `const std::string::operator[](i)`: `i == size()` gives the terminating
null character, `i > size()` is undefined behaviour. -/
def charAt (s : Str) (i : Nat) : Res Char :=
  if h : i < s.length then .ok s[i]
  else if i = s.length then .ok '\x00' else .error .ub

/-- `std::string::operator<`: bytewise lexicographic order
(`std::char_traits<char>` compares as unsigned bytes). -/
def strLt : Str → Str → Bool
  | [], [] => false
  | [], _ :: _ => true
  | _ :: _, [] => false
  | a :: as, b :: bs => if a.val < b.val then true
      else if b.val < a.val then false else strLt as bs

/-- `std::string::compare`. Simplified: the C++ result is only known up to its
sign; the model returns -1, 0 or 1. -/
def strCompare (a b : Str) : Int :=
  if strLt a b then -1 else if strLt b a then 1 else 0

end Asap
