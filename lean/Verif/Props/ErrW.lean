import Verif.Props.ErrA
import Verif.Props.ConfineW
import Verif.Props.WinL

/-!
# C112: the paths in exceptions on Windows
-/

namespace Asap
namespace Spec

/-- The path arguments of an operation on Windows, in order, for the operations whose exceptions name them. Missing (see the theorems below):
`copy`, `copy_file`, `copy_symlink`, `absolute`, `space`. Incrementing or popping an iterator has no path argument. -/
def winPathArgs {α : Type} : WinOp α → Option (List Path)
  | .currentPath | .tempDirectoryPath | .dirIterIncr _ _ | .recIterIncr _ _ | .recIterPop _ _ => some []
  | .exists' p | .isDirectory p | .isSymlink p | .status p | .symlinkStatus p | .createDirectory p | .createDirectories _ _ p
  | .setCurrentPath p | .fileSize p | .hardLinkCount p | .isEmpty _ p | .lastWriteTime _ p | .setLastWriteTime _ p _ | .permissions p _ _
  | .readSymlink p | .remove p | .removeAll _ p | .resizeFile p _ | .dirIter _ p _ | .recIter _ p _ => some [p]
  | .createDirectoryLike p q | .createSymlink p q | .createDirectorySymlink p q | .createHardLink p q | .equivalent p q | .rename p q =>
    some [p, q]
  | _ => none

end Spec
open Spec
namespace Win
variable {A : Event → Prop} {P : FsError → Prop} {α : Type}

theorem thr_withFile {p : Path} {o : WinOpen} {f : Errno → Prog α} {b : Nat → Prog α} (hf : ∀ e, Thr A P (f e)) (hb : ∀ h, Thr A P (b h)) :
    Thr A P (withFile p o f b) := by
  refine .call _ _ fun r _ => ?_
  rcases r with e | h
  · exact hf e
  · exact .finally' (hb h) (noThrow_closeHandle h)

/-- Prove `Thr` by following the program. -/
macro "wthr" : tactic => `(tactic| repeat' first
  | assumption
  | exact (noThrow_status ..).thr | exact (noThrow_symlinkStatus ..).thr | exact (noThrow_isDirectoryP ..).thr
  | exact (noThrow_streamNew ..).thr | exact (noThrow_destroy ..).thr | exact (noThrow_doRemoveAll ..).thr | exact (noThrow_close ..).thr
  | exact (noThrow_missingOf ..).thr | exact (noThrow_createMissing ..).thr | exact (noThrow_captureErrno ..).thr
  | exact (noThrow_advance ..).thr | exact (noThrow_advanceStack ..).thr | exact (noThrow_closeAll ..).thr | exact (noThrow_recursionType ..).thr
  | exact Thr.finally' (Thr.report ⟨rfl, rfl, rfl⟩) (noThrow_destroy ..)
  | exact Thr.ret _ | exact Thr.fault _ | exact Thr.fuel
  | exact Thr.ofRes _
  | (refine Thr.report ?_; exact ⟨rfl, rfl, rfl⟩)
  | (refine Thr.reportMsg ?_; exact ⟨rfl, rfl, rfl⟩)
  | (with_reducible refine thr_withFile (fun e => ?_) fun h => ?_; all_goals try dsimp only)
  | (with_reducible refine Thr.call _ _ fun r _ => ?_; try dsimp only)
  | (with_reducible refine Thr.bind ?_ fun v => ?_; all_goals try dsimp only)
  | split)

theorem thr_symlinkStatus (p : Path) (ec : EcArg) : Thr A (Names [p]) (symlinkStatus p ec) := by
  unfold symlinkStatus isReparsePointSymlink
  wthr

theorem thr_currentPath (ec : EcArg) : Thr A (Names []) (currentPath ec) := by
  unfold currentPath
  wthr

theorem thr_dirIterNew (n : Nat) (p : Path) (o : DirOptions) (ec : EcArg) : Thr A (Names [p]) (DirIter.new n p o ec) := by
  unfold DirIter.new
  wthr

theorem thr_recAdvance (n : Nat) (it : RecIter) (ec : EcArg) : Thr A (Names []) (RecIter.advance n it ec) := by
  unfold RecIter.advance
  wthr

theorem thr_op {α : Type} (op : WinOp α) (ps : List Path) (h : winPathArgs op = some ps) : Thr A (Names ps) (op.prog .null) := by
  cases op <;> cases h
  case symlinkStatus p => exact thr_symlinkStatus p _
  case isSymlink p => exact .bind (thr_symlinkStatus p _) fun _ => .ret _
  case exists' p => exact .bind (noThrow_status ..).thr fun _ => .ret _
  case isDirectory p => exact .bind (noThrow_status ..).thr fun _ => .ret _
  case status p => exact (noThrow_status ..).thr
  case dirIter n p o => exact thr_dirIterNew n p o _
  case isEmpty n p =>
    simp only [WinOp.prog, isEmptyFile, isEmptyDirectory]
    have := thr_dirIterNew (A := A) n p .none
    wthr
    exact this _
  case recIterIncr n it =>
    simp only [WinOp.prog, RecIter.incr]
    have := fun it ec => thr_recAdvance (A := A) n it ec
    refine .bind ?_ fun v => ?_
    · unfold RecIter.tryRecursion
      wthr
    · wthr
      exact this _ _
  case recIterPop n it =>
    simp only [WinOp.prog, RecIter.pop]
    have := fun it ec => thr_recAdvance (A := A) n it ec
    wthr
    exact this _ _
  all_goals
    simp only [WinOp.prog, createDirectory, createDirectoryLike, createDirectories, setCurrentPath, fileSize, hardLinkCount,
      lastWriteTime, setLastWriteTime, permissions, putPerms, readSymlink, remove, removeAll, resizeFile,
      createSymlink, createDirectorySymlink, createSymlinkAs, createHardLink, equivalent, rename, currentPath,
      tempDirectoryPath, DirIter.incr, RecIter.new, clear_null]
    wthr

theorem thr_doAbsolute (p : Path) (ec : EcArg) : Thr A (Names []) (doAbsolute p ec) := by
  unfold doAbsolute
  have := fun ec => thr_currentPath (A := A) ec
  refine .bind (.ofRes _) fun b => ?_
  split
  · exact .ret _
  · refine .bind (this _) fun v => ?_
    wthr

theorem thr_copyFile (k : SysClock) (a b : Path) (o : CopyOptions) (ec : EcArg) : Thr A (Names [b, a]) (copyFile k a b o ec) := by
  unfold copyFile
  have h1 : ∀ c, NoThrow A (lastWriteTime k a (.ref c)) := fun c => (rel_lastWriteTime k a c).noThrow
  have h2 : ∀ c, NoThrow A (lastWriteTime k b (.ref c)) := fun c => (rel_lastWriteTime k b c).noThrow
  have h3 : ∀ c, NoThrow A (equivalent a b (.ref c)) := fun c => (rel_equivalent a b c).noThrow
  refine .bind (noThrow_status ..).thr fun f => ?_
  split
  · wthr
  split
  · wthr
  refine .bind (noThrow_status ..).thr fun g => ?_
  split
  · wthr
  split
  · wthr
  refine .bind ?_ fun e => ?_
  · split
    · exact (h3 _).thr
    · exact .ret _
  split
  · wthr
  split
  · wthr
  refine .bind ?_ fun x => ?_
  · unfold shouldCopy
    split
    · refine .bind (h1 _).thr fun _ => ?_
      split
      · wthr
      · refine .bind (h2 _).thr fun _ => ?_
        wthr
    · wthr
  · unfold doCopy
    wthr

end Win

/-- **C112 (partial).** Every exception of the throwing overload of an operation in `winPathArgs` has the operation's first path as `path1()`
and its second as `path2()`; of one without path argument, none. -/
theorem c112_paths_partial {α : Type} (op : WinOp α) (ps : List Path) (h : winPathArgs op = some ps) {t : List Event}
    {x : FsError} (he : Exec (op.prog .null) t (.error (.thrown x))) : Names ps x :=
  (Win.thr_op (A := fun _ => True) op ps h).exec (by simp) he

/-- The others, but for `copy` (`c111_copy`). `copy_file(from, to)` always has `to` as `path1()` and `from` as `path2()`. `copy_symlink(a, b)` always
has `path2() == b`. `absolute(p)` names no path. `space(p)` names no path (when the current directory cannot be determined) or `p`. -/
theorem c112_others (k : SysClock) (p a b : Path) (o : CopyOptions) {t : List Event} {x : FsError} :
    (Exec (Win.copyFile k a b o .null) t (.error (.thrown x)) → Names [b, a] x) ∧
    (Exec (Win.copySymlink a b .null) t (.error (.thrown x)) → x.npaths = 2 ∧ x.path2 = b) ∧
    (Exec (Win.absolute p .null) t (.error (.thrown x)) → Names [] x) ∧
    (Exec (Win.space p .null) t (.error (.thrown x)) → Names [] x ∨ Names [p] x) := by
  refine ⟨fun h => ?_, fun h => ?_, fun h => ?_, fun h => ?_⟩
  · exact (Win.thr_copyFile (A := fun _ => True) k a b o _).exec (by simp) h
  · refine Thr.exec (A := fun _ => True) (P := fun x => x.npaths = 2 ∧ x.path2 = b) ?_ (by simp) h
    unfold Win.copySymlink
    refine .bind (Win.rel_readSymlink ..).noThrow.thr fun v => ?_
    split
    · exact .report ⟨rfl, rfl⟩
    · refine .bind (Win.noThrow_isDirectoryP ..).thr fun w => ?_
      split
      · exact .report ⟨rfl, rfl⟩
      · split
        · refine .call _ _ fun r _ => ?_
          rcases r with e | s
          · exact .report ⟨rfl, rfl⟩
          · exact .ret _
        · refine .call _ _ fun r _ => ?_
          rcases r with e | s
          · exact .report ⟨rfl, rfl⟩
          · exact .ret _
  · exact (Thr.bind (A := fun _ => True) (Win.thr_doAbsolute p _) fun _ => .ret _).exec (by simp) h
  · refine Thr.exec (A := fun _ => True) (P := fun x => Names [] x ∨ Names [p] x) ?_ (by simp) h
    unfold Win.space Win.absolute
    refine .bind (.bind ((Win.thr_doAbsolute p _).mono fun _ h => .inl h) fun _ => .ret _) fun v => .bind (.ofRes _) fun d => .call _ _ fun r _ => ?_
    rcases r with e | ⟨_, _, _⟩
    · exact .bind (.report (.inr ⟨rfl, rfl, rfl⟩)) fun _ => .ret _
    · exact .ret _

/-- **C112 is false.** `copy_file("a", "b")` for a missing `a` throws with the paths exchanged; `space("a")`, when the current directory cannot
be determined, names no path. -/
theorem c112_violated (k : SysClock) :
    (∃ t x, Exec (Win.copyFile k (mkPath .windows "a".toList) (mkPath .windows "b".toList) 0 .null) t (.error (.thrown x)) ∧
      x.path1.pathname = "b".toList ∧ x.path2.pathname = "a".toList) ∧
    (∃ t x, Exec (Win.space (mkPath .windows "a".toList) .null) t (.error (.thrown x)) ∧ x.npaths = 0) :=
  ⟨⟨[⟨.win (.getAttrs "a".toList), (.error (.ofWin 2) : Except Errno (BitVec 32))⟩], _, feed_exec (by rfl), rfl, rfl⟩,
   ⟨[⟨.win .cwdSize, (0 : Nat)⟩, ⟨.win (.getCwd 0), (.error (.ofWin 5) : Except Errno (Option Str))⟩], _, feed_exec (by rfl), rfl⟩⟩

/-- Non-vacuity: `rename("a", "b")` throws with both paths. -/
example : ∃ t x, Exec ((WinOp.rename (mkPath .windows "a".toList) (mkPath .windows "b".toList)).prog .null) t (.error (.thrown x)) ∧
    x.path1.pathname = "a".toList ∧ x.path2.pathname = "b".toList :=
  ⟨[⟨.rename "a".toList "b".toList, (.error .EACCES : Except Errno Unit)⟩, ⟨.win .lastError, (some (.ofWin 5) : Code)⟩], _,
    feed_exec (by rfl), rfl, rfl⟩

end Asap
