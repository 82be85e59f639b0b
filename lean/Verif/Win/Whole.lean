import Verif.Win.Ops
import Verif.Win.Canonical

/-!
# `canonical` on Windows with all its calls

`canonical_impl` with `do_absolute_impl` before it, and with the library functions it calls instead of single calls.
-/

namespace Asap
namespace Win

/-- `is_directory(p, m_ec)`, `is_symlink(p, m_ec)` and `exists(p, m_ec)` as called by `canonical_impl` (`src/fs_ops.cpp:122, 135, 156`).
Each clears `m_ec` first. -/
def testProg (q : WinTest) (p : Path) : Prog (Bool × EcArg) :=
  match q with
  | .isDirectory => isDirectoryP p (.ref none)
  | .isSymlink => isSymlinkP p (.ref none)
  | .exists' => existsP p (.ref none)

/-- What `canonical_impl` sees of `read_symlink(result, m_ec)` (`src/fs_ops.cpp:137-138`): `m_ec`, and the link if it is not set. The
link is given by its text; the same path is made of that (`win_reparse`). -/
def linkSeen (x : Path × EcArg) : Except Errno Str :=
  match x.2.code with
  | some e => .error e
  | none => .ok x.1.pathname

/-- A program with the library functions called by `canonical_impl` in place of single calls (`src/fs_ops.cpp:122, 135-136, 156`). The
path given to them is a path of the same text; the elements matter to none of them. -/
def unfoldTests {α : Type} : Prog α → Prog α
  | .ret a => .ret a
  | .stop s => .stop s
  | .call (.winTest q p) k => (testProg q ⟨p, [], .filename⟩).bind fun x => unfoldTests (k (x.1, x.2.code))
  | .call (.winReadlink p) k => (readSymlink ⟨p, [], .filename⟩ (.ref none)).bind fun x => unfoldTests (k (linkSeen x))
  | .call c k => .call c fun r => unfoldTests (k r)

/-- `canonical_impl`, `canonical` on Windows (`src/fs_ops.cpp:83-162`). At most `n` rounds of the loop. -/
def canonical (el : Bool) (n : Nat) (p : Path) (ec : EcArg) : Prog (Path × EcArg) :=
  (doAbsolute p ec.clear).bind fun x =>
    unfoldTests (winCanonical el n ⟨"canonical".toList, some p, some x.1.2⟩ x.1.1 x.2)

end Win
end Asap
