import Verif.Props.GenuineB

/-!
# C137: the errors of an operation's own do occur

With no call that gave them.
-/

namespace Asap
namespace Spec

/-- The operation reports `e` although no call gave it. -/
def ReportsOwn {α : Type} (op : FsOp α) (e : Errno) : Prop :=
  ∃ t v, Exec (op.prog (.ref none)) t (.ok (v, .ref (some e))) ∧ ¬ Given t e

end Spec
open Spec

theorem not_given {t : List Event} {e : Errno} (h : (t.all fun x => Sys.gave x.call x.ret != some e) = true) : ¬ Given t e := by
  rintro ⟨x, hx, hg⟩
  have := List.all_eq_true.1 h x hx
  rw [hg] at this
  simp at this

/-- A status of the given mode and number, and the events of `stat`, `lstat`, `open` and `close`, for the examples. -/
def exSt (m n : Nat) : Stat := ⟨0, n, BitVec.ofNat _ m, 1, 0, 0, 0, 0⟩
def evStat (s : String) (x : Except Errno Stat) : Event := ⟨.stat s.toList, x⟩
def evLstat (s : String) (x : Except Errno Stat) : Event := ⟨.lstat s.toList, x⟩
def evOpen (s : String) (fl : OFlags) (m : Nat) (n : Nat) : Event := ⟨.openf s.toList fl (BitVec.ofNat _ m), (.ok n : Except Errno Nat)⟩
def evClose (n : Nat) : Event := ⟨.close n, (.ok () : Except Errno Unit)⟩
def evUnset (s : String) : Event := ⟨.getenv s.toList, (none : Option Str)⟩

/-- **C137**: the lists of own errors are not too long. All but two of the errors in them are reported by some call of the operation in which
the system gave no such error. The two are that of `++` on a recursive iterator whose entry has vanished, and the overflow of a time. -/
theorem c137_own_occurs (p q : Path) (hp : p = mkPath .posix "a".toList) (hq : q = mkPath .posix "b".toList) :
    ReportsOwn (FsOp.createDirectoryLike p q) .ENOTDIR ∧
    ReportsOwn FsOp.tempDirectoryPath .ENOTDIR ∧
    ReportsOwn (FsOp.createDirectories true 9 (mkPath .posix [])) .EINVAL ∧
    ReportsOwn (FsOp.setLastWriteTime p (-1)) .EINVAL ∧
    ReportsOwn (FsOp.dirIterIncr 9 none) .EINVAL ∧
    ReportsOwn (FsOp.recIterPop 9 ⟨none, true⟩) .EINVAL ∧
    ReportsOwn (FsOp.recIterIncr 9 ⟨none, true⟩) .EINVAL ∧
    ReportsOwn (FsOp.equivalent p q) .ENOTSUP ∧
    ReportsOwn (FsOp.isEmpty 9 p) .ENOTSUP ∧
    ReportsOwn (FsOp.fileSize p) .ENOTSUP ∧
    ReportsOwn (FsOp.fileSize p) .EISDIR ∧
    ReportsOwn (FsOp.copyFile true 9 p q .none) .ENOTSUP ∧
    ReportsOwn (FsOp.copyFile true 9 p q .none) .EEXIST ∧
    ReportsOwn (FsOp.copyFile true 9 p q .overwriteExisting) .EBADF ∧
    ReportsOwn (FsOp.copy true 9 p q .none) .ENOTSUP ∧
    ReportsOwn (FsOp.copy true 9 p q .none) .EEXIST ∧
    ReportsOwn (FsOp.copy true 9 p q .overwriteExisting) .EBADF ∧
    ReportsOwn (FsOp.copy true 9 p q .createSymlinks) .EISDIR ∧
    ReportsOwn (FsOp.copy true 9 p q .none) .ENOSYS ∧
    ReportsOwn (FsOp.copy true 9 p q .recursive) .ENOTDIR := by
  subst hp hq
  refine ⟨
    ⟨[evStat "b" (.ok (exSt 0o100644 1))], _, feed_exec (by rfl), not_given (by rfl)⟩,
    ⟨[evUnset "TMPDIR", evUnset "TMP", evUnset "TEMP", evUnset "TEMPDIR", evStat "/tmp" (.ok (exSt 0o100644 1))], _, feed_exec (by rfl), not_given (by rfl)⟩,
    ⟨[], _, feed_exec (by rfl), not_given (by rfl)⟩,
    ⟨[], _, feed_exec (by rfl), not_given (by rfl)⟩,
    ⟨[], _, feed_exec (by rfl), not_given (by rfl)⟩,
    ⟨[], _, feed_exec (by rfl), not_given (by rfl)⟩,
    ⟨[], _, feed_exec (by rfl), not_given (by rfl)⟩,
    ⟨[evStat "a" (.error .ENOENT)], _, feed_exec (by rfl), not_given (by rfl)⟩,
    ⟨[evStat "a" (.ok (exSt 0o010644 1))], _, feed_exec (by rfl), not_given (by rfl)⟩,
    ⟨[evStat "a" (.ok (exSt 0o010644 1))], _, feed_exec (by rfl), not_given (by rfl)⟩,
    ⟨[evStat "a" (.ok (exSt 0o040755 1))], _, feed_exec (by rfl), not_given (by rfl)⟩,
    ⟨[evOpen "a" ⟨false, false, true⟩ 0 3, evLstat "a" (.ok (exSt 0o010644 1)), evClose 3], _, feed_exec (by rfl), not_given (by rfl)⟩,
    ⟨[evOpen "a" ⟨false, false, true⟩ 0 3, evLstat "a" (.ok (exSt 0o100644 1)), evStat "b" (.ok (exSt 0o100644 2)), evClose 3], _,
      feed_exec (by rfl), not_given (by rfl)⟩,
    ⟨[evOpen "a" ⟨false, false, true⟩ 0 3, evLstat "a" (.ok (exSt 0o100644 1)), evStat "b" (.ok (exSt 0o100644 2)),
      evOpen "b" ⟨true, false, false⟩ 0o100644 4, evLstat "b" (.ok (exSt 0o100644 5)), evClose 4, evClose 3], _, feed_exec (by rfl), not_given (by rfl)⟩,
    ⟨[evStat "a" (.ok (exSt 0o100644 1)), evStat "b" (.ok (exSt 0o100644 2)),
      evOpen "a" ⟨false, false, true⟩ 0 3, evLstat "a" (.ok (exSt 0o010644 1)), evClose 3], _, feed_exec (by rfl), not_given (by rfl)⟩,
    ⟨[evStat "a" (.ok (exSt 0o100644 1)), evStat "b" (.ok (exSt 0o100644 2)),
      evOpen "a" ⟨false, false, true⟩ 0 3, evLstat "a" (.ok (exSt 0o100644 1)), evStat "b" (.ok (exSt 0o100644 2)), evClose 3], _,
      feed_exec (by rfl), not_given (by rfl)⟩,
    ⟨[evStat "a" (.ok (exSt 0o100644 1)), evStat "b" (.ok (exSt 0o100644 2)),
      evOpen "a" ⟨false, false, true⟩ 0 3, evLstat "a" (.ok (exSt 0o100644 1)), evStat "b" (.ok (exSt 0o100644 2)),
      evOpen "b" ⟨true, false, false⟩ 0o100644 4, evLstat "b" (.ok (exSt 0o100644 5)), evClose 4, evClose 3], _, feed_exec (by rfl), not_given (by rfl)⟩,
    ⟨[evLstat "a" (.ok (exSt 0o040755 1)), evLstat "b" (.error .ENOENT)], _, feed_exec (by rfl), not_given (by rfl)⟩,
    ⟨[evStat "a" (.ok (exSt 0o100644 1)), evStat "b" (.ok (exSt 0o100644 1))], _, feed_exec (by rfl), not_given (by rfl)⟩,
    ⟨[evStat "a" (.ok (exSt 0o040755 1)), evStat "b" (.error .ENOENT), evStat "a" (.ok (exSt 0o100644 2))], _, feed_exec (by rfl), not_given (by rfl)⟩⟩

end Asap
