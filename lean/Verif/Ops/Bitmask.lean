import Verif.Ops.CopyFile
import Verif.Dir.Iter

/-!
# The bit mask operators of the option types

Each of `copy_options` (16 bits), `directory_options` (8 bits), `perms` and `perm_options`
(32 bits) defines the same seven operators: `include/filesystem/fs_copy_options.h:40-80`,
`fs_directory_options.h:33-73`, `fs_perms.h:48-80, 101-141`. They convert to the underlying type,
which is promoted to 32 bits (to `int` for the two narrow ones), apply the built-in
operator and convert back. `w` is the width, at most 32.
-/

namespace Asap

/-- Integral promotion of the underlying type. -/
def promote {w : Nat} (x : BitVec w) : BitVec 32 := x.setWidth 32

/-- `operator&` (lines above). -/
def bmAnd {w : Nat} (x y : BitVec w) : BitVec w := (promote x &&& promote y).setWidth w
/-- `operator|` (lines above). -/
def bmOr {w : Nat} (x y : BitVec w) : BitVec w := (promote x ||| promote y).setWidth w
/-- `operator^` (lines above). -/
def bmXor {w : Nat} (x y : BitVec w) : BitVec w := (promote x ^^^ promote y).setWidth w
/-- `operator~` (lines above). -/
def bmNot {w : Nat} (x : BitVec w) : BitVec w := (~~~ promote x).setWidth w

/-- A statement `lhs op= rhs` for the three assignment operators
(`fs_perms.h:68-80` and the like): the new value of `lhs`, and the value the
expression denotes. -/
def bmAssign {w : Nat} (op : BitVec w → BitVec w → BitVec w) (lhs rhs : BitVec w) : BitVec w × BitVec w :=
  let v := op lhs rhs
  (v, v)

end Asap
