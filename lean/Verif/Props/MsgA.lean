import Verif.Props.ErrW

/-!
# C126: an exception says which operation failed
-/

namespace Asap
namespace Spec

/-- The message is `in <name>`, possibly followed by a colon and details. -/
def InName (name : Str) (x : FsError) : Prop :=
  x.msg = "in ".toList ++ name ∨ ∃ m, x.msg = "in ".toList ++ name ++ ": ".toList ++ m

/-- The names in the API of the operations whose exceptions carry their own name. Missing: `status` and what is built on it, the operations that
resolve relative paths, `copy`, `copy_symlink`, `is_empty`, and incrementing or popping a `recursive_directory_iterator`. -/
def ownName {α : Type} : FsOp α → Option Str
  | .currentPath | .setCurrentPath _ => some "current_path".toList
  | .tempDirectoryPath => some "temp_directory_path".toList
  | .createDirectory _ | .createDirectoryLike .. => some "create_directory".toList
  | .createDirectories .. => some "create_directories".toList
  | .fileSize _ => some "file_size".toList
  | .hardLinkCount _ => some "hard_link_count".toList
  | .lastWriteTime _ | .setLastWriteTime .. => some "last_write_time".toList
  | .permissions .. => some "permissions".toList
  | .readSymlink _ => some "read_symlink".toList
  | .remove _ => some "remove".toList
  | .removeAll .. => some "remove_all".toList
  | .resizeFile .. => some "resize_file".toList
  | .space _ => some "space".toList
  | .createSymlink .. => some "create_symlink".toList
  | .createDirectorySymlink .. => some "create_directory_symlink".toList
  | .createHardLink .. => some "create_hard_link".toList
  | .equivalent .. => some "equivalent".toList
  | .rename .. => some "rename".toList
  | .copyFile .. => some "copy_file".toList
  | .dirIter .. => some "directory_iterator::directory_iterator(...)".toList
  | .dirIterIncr .. => some "directory_iterator::operator++()".toList
  | .recIter .. => some "recursive_directory_iterator".toList
  | _ => none

/-- The same for Windows. -/
def winOwnName {α : Type} : WinOp α → Option Str
  | .currentPath | .setCurrentPath _ => some "current_path".toList
  | .tempDirectoryPath => some "temp_directory_path".toList
  | .createDirectory _ | .createDirectoryLike .. => some "create_directory".toList
  | .createDirectories .. => some "create_directories".toList
  | .fileSize _ => some "file_size".toList
  | .hardLinkCount _ => some "hard_link_count".toList
  | .lastWriteTime .. | .setLastWriteTime .. => some "last_write_time".toList
  | .permissions .. => some "permissions".toList
  | .readSymlink _ => some "read_symlink".toList
  | .remove _ => some "remove".toList
  | .removeAll .. => some "remove_all".toList
  | .resizeFile .. => some "resize_file".toList
  | .createSymlink .. => some "create_symlink".toList
  | .createDirectorySymlink .. => some "create_directory_symlink".toList
  | .createHardLink .. => some "create_hard_link".toList
  | .equivalent .. => some "equivalent".toList
  | .rename .. => some "rename".toList
  | .copyFile .. => some "copy_file".toList
  | .dirIter .. => some "directory_iterator::directory_iterator(...)".toList
  | .dirIterIncr .. => some "directory_iterator::operator++()".toList
  | .recIter .. => some "recursive_directory_iterator".toList
  | _ => none

/-- The message names one of these functions. -/
def InOne (names : List Str) (x : FsError) : Prop := ∃ w ∈ names, InName w x

end Spec
open Spec
variable {A : Event → Prop} {α : Type}

theorem Spec.InName.one {w : Str} {ws : List Str} {x : FsError} (h : InName w x) (hw : w ∈ ws) : InOne ws x := ⟨w, hw, h⟩

theorem Spec.InOne.mono {vs ws : List Str} {x : FsError} (h : InOne vs x) (hw : ∀ w ∈ vs, w ∈ ws) : InOne ws x :=
  let ⟨w, hm, hs⟩ := h
  ⟨w, hw w hm, hs⟩

/-- Prove `Thr` by following the program, for the texts. -/
macro "says" : tactic => `(tactic| repeat' first
  | assumption
  | exact (noThrow_getFileStatus ..).thr | exact (noThrow_status ..).thr | exact (noThrow_firstEnv ..).thr
  | exact (noThrow_streamNew ..).thr | exact (noThrow_destroy ..).thr | exact (noThrow_doRemoveAll ..).thr
  | exact (noThrow_missingOf ..).thr | exact (noThrow_createMissing ..).thr | exact (noThrow_symlinkStatus ..).thr
  | exact (noThrow_advance ..).thr
  | exact Thr.finally' (Thr.report (.inl rfl)) (noThrow_destroy ..)
  | exact Thr.ret _ | exact Thr.fault _ | exact Thr.fuel
  | exact Thr.ofRes _ | exact Thr.useStat _
  | (refine Thr.report ?_; exact .inl rfl)
  | (refine Thr.reportMsg ?_; exact .inr ⟨_, rfl⟩)
  | (with_reducible refine Thr.call _ _ fun r _ => ?_; try dsimp only)
  | (with_reducible refine Thr.bind ?_ fun v => ?_; try dsimp only)
  | split)

theorem says_copyInto (sf : Bool) (n : Nat) (a b : Path) (i : Nat) (fst : Stat) (tst : Option Stat) (ec : EcArg) :
    Thr A (InName "copy_file".toList) (copyInto sf n ⟨"copy_file".toList, some b, some a⟩ i fst b tst ec) := by
  unfold copyInto
  refine .call _ _ fun r _ => ?_
  rcases r with e | out
  · exact .report (.inl rfl)
  · refine .finally' ?_ (noThrow_closeFd _)
    simp only [Prog.bind_eq]
    refine .bind (noThrow_refreshStatus _).thr fun v => ?_
    have := (noThrow_doCopyFile (A := A) sf n i out fst.size.toInt).thr (P := InName "copy_file".toList)
    says

theorem says_copyFile (sf : Bool) (n : Nat) (a b : Path) (o : CopyOptions) (ec : EcArg) :
    Thr A (InName "copy_file".toList) (copyFile sf n a b o ec) := by
  refine .call _ _ fun r _ => ?_
  rcases r with e | i
  · exact .report (.inl rfl)
  · refine .finally' ?_ (noThrow_closeFd _)
    simp only [copyOpened, Prog.bind_eq]
    refine .bind (noThrow_refreshStatus _).thr fun v => ?_
    says
    all_goals exact says_copyInto ..

theorem says_dirIterNew (n : Nat) (p : Path) (o : DirOptions) (ec : EcArg) :
    Thr A (InName "directory_iterator::directory_iterator(...)".toList) (DirIter.new n p o ec) := by
  simp only [DirIter.new, Prog.bind_eq]; says

theorem says_op {α : Type} (op : FsOp α) (w : Str) (h : ownName op = some w) : Thr op.Assume (InName w) (op.prog .null) := by
  cases op <;> cases h
  case createDirectories el n p =>
    have hA : (FsOp.createDirectories el n p).Assume = StatPlain := by
      funext ev; rfl
    rw [hA]
    simp only [FsOp.prog, createDirectories, Prog.bind_eq, clear_null]
    says
  case copyFile => exact says_copyFile ..
  case dirIter => exact says_dirIterNew ..
  all_goals
    simp only [FsOp.prog, createDirectory, createDirectoryLike, setCurrentPath, fileSize, hardLinkCount,
      lastWriteTime, setLastWriteTime, permissions, permStatus, chmodAt, readSymlink, remove, removeAll, resizeFile, space,
      createSymlink, createDirectorySymlink, createSymlinkAs, createHardLink, equivalent, rename, currentPath,
      tempDirectoryPath, extractLastWriteTime, DirIter.incr, RecIter.new, clear_null, Prog.bind_eq]
    says

theorem says_status (p : Path) : Thr A (InName "file_stat".toList) (status p .null) := by
  rw [status_null]
  refine .call _ _ fun r _ => ?_
  rcases r with e | st
  · dsimp only; split
    · exact .ret _
    · exact .thrown _ (.inr ⟨"failed to determine attributes for the specified path".toList, rfl⟩)
  · exact .ret _

theorem says_symlinkStatus (p : Path) : Thr A (InName "file_stat".toList) (symlinkStatus p .null) := by
  rw [symlinkStatus_null]
  refine .call _ _ fun r _ => ?_
  rcases r with e | st
  · dsimp only; split
    · exact .ret _
    · exact .thrown _ (.inr ⟨"failed to determine attributes for the specified path".toList, rfl⟩)
  · exact .ret _

theorem says_currentPath (ec : EcArg) : Thr A (InName "current_path".toList) (currentPath ec) := by
  unfold currentPath; says

theorem says_doAbsolute (p : Path) (ec : EcArg) : Thr A (InName "current_path".toList) (doAbsolute p ec) := by
  simp only [doAbsolute, Prog.bind_eq]
  have := fun ec => says_currentPath (A := A) ec
  refine .bind (.ofRes _) fun b => ?_
  split
  · exact .ret _
  · refine .bind (this _) fun v => ?_
    says

theorem says_canonical (p : Path) (ec : EcArg) : Thr A (InOne ["canonical".toList, "current_path".toList]) (canonical p ec) := by
  simp only [canonical, Prog.bind_eq]
  refine .bind ((says_doAbsolute p _).mono fun _ h => InName.one h (by simp)) fun v => .call _ _ fun r _ => ?_
  rcases r with e | s
  · exact .report (InName.one (w := "canonical".toList) (.inl rfl) (by simp))
  · exact .ret _

theorem says_weaklyCanonical (el : Bool) (p : Path) (ec : EcArg) :
    Thr A (InOne ["weakly_canonical".toList, "canonical".toList, "current_path".toList]) (weaklyCanonical el p ec) := by
  simp only [weaklyCanonical, Prog.bind_eq]
  have hc : ∀ q ec, Thr A (InOne ["weakly_canonical".toList, "canonical".toList, "current_path".toList]) (canonical q ec) :=
    fun q ec => (says_canonical q ec).mono fun x h => InOne.mono h (by simp)
  split
  · exact hc _ _
  · refine .bind (noThrow_status ..).thr fun v => ?_
    split
    · exact .report (InName.one (w := "weakly_canonical".toList) (.inl rfl) (by simp))
    · split
      · exact hc _ _
      · refine .bind (noThrow_existingPrefix ..).thr fun v => .bind ?_ fun v => ?_
        · split
          · exact .bind (noThrow_canonical ..).thr fun _ => .ret _
          · exact .ret _
        · split
          · exact .ret _
          · exact .bind (.ofRes _) fun _ => .bind (.ofRes _) fun _ => .ret _

theorem says_createSymlink (a b : Path) (ec : EcArg) : Thr A (InName "create_symlink".toList) (createSymlink a b ec) := by
  unfold createSymlink createSymlinkAs; says

theorem says_createHardLink (a b : Path) (ec : EcArg) : Thr A (InName "create_hard_link".toList) (createHardLink a b ec) := by
  unfold createHardLink; says

theorem says_createDirectory (p : Path) (ec : EcArg) : Thr A (InName "create_directory".toList) (createDirectory p ec) := by
  simp only [createDirectory, Prog.bind_eq]; says

theorem says_copySymlink (a b : Path) (ec : EcArg) :
    Thr A (InOne ["copy_symlink".toList, "create_symlink".toList]) (copySymlink a b ec) := by
  simp only [copySymlink, Prog.bind_eq]
  refine .bind (rel_readSymlink ..).noThrow.thr fun v => ?_
  split
  · exact .report (InName.one (w := "copy_symlink".toList) (.inl rfl) (by simp))
  · exact (says_createSymlink ..).mono fun x h => InName.one h (by simp)

theorem says_isEmpty (n : Nat) (p : Path) :
    Thr A (InOne ["is_empty".toList, "directory_iterator::directory_iterator(...)".toList]) (isEmptyFile n p .null) := by
  simp only [isEmptyFile, isEmptyDirectory, clear_null, Prog.bind_eq]
  refine .bind (noThrow_getFileStatus ..).thr fun v => ?_
  split
  · exact .report (InName.one (w := "is_empty".toList) (.inl rfl) (by simp))
  split
  · exact .report (InName.one (w := "is_empty".toList) (.inl rfl) (by simp))
  split
  · refine .bind ((says_dirIterNew ..).mono fun x h => InName.one h (by simp)) fun v => ?_
    refine .bind (noThrow_destroy ..).thr fun _ => ?_
    split <;> exact .ret _
  · exact .bind (.useStat _) fun _ => .ret _

theorem Thr.bindAll {β : Type} {P : FsError → Prop} {p : Prog α} {f : α → Prog β} {Q : α → Prop} (h : NoThrow A p) (hQ : All Q p)
    (hf : ∀ a, Q a → Thr A P (f a)) : Thr A P (p.bind f) := by
  induction h with
  | ret a => cases hQ with | ret _ h => exact hf a h
  | fault f => exact .fault f
  | fuel => exact .fuel
  | call c k _ ih => cases hQ with | call _ _ hk => exact .call _ _ fun r hr => ih r hr (hk r)

theorem Thr.onThrow {P : FsError → Prop} {p : Prog α} {d : Prog Unit} (h : Thr A P p) (hd : NoThrow A d) : Thr A P (p.onThrow d) := by
  induction h with
  | ret a => exact .ret a
  | fault f => exact .fault f
  | fuel => exact .fuel
  | thrown x h => exact .bind hd.thr fun _ => .thrown x h
  | call c k _ ih => exact .call _ _ ih

/-- The functions an exception of `copy` may name. -/
def Spec.copyNames : List Str :=
  ["copy".toList, "copy_file".toList, "copy_symlink".toList, "create_symlink".toList, "create_hard_link".toList, "create_directory".toList,
    "directory_iterator::directory_iterator(...)".toList]

theorem says_createDirectoryLike (p q : Path) (ec : EcArg) : Thr A (InName "create_directory".toList) (createDirectoryLike p q ec) := by
  simp only [createDirectoryLike, Prog.bind_eq]; says

theorem says_copyLoop (a b : Path) {rec : Path → Path → EcArg → Prog (Unit × EcArg)} (hr : ∀ a b ec, Thr A (InOne copyNames) (rec a b ec))
    (to : Path) (n : Nat) (it : DirIter) (m : Code) (ec : EcArg) :
    Thr A (InOne copyNames) (copyLoop ⟨"copy".toList, some a, some b⟩ rec to n it m ec) := by
  induction n generalizing it m ec with
  | zero => exact .fuel
  | succ n ih =>
    cases it with
    | none => exact .ret _
    | some s =>
      simp only [copyLoop, Prog.bind_eq]
      split
      · exact .finally' (.report (InName.one (w := "copy".toList) (.inl rfl) (by simp [copyNames]))) (noThrow_destroy _)
      · refine .bind (.ofRes _) fun _ => .bind (.ofRes _) fun _ => .bind (.onThrow (hr ..) (noThrow_destroy _)) fun v => ?_
        split
        · exact .bind (noThrow_destroy _).thr fun _ => .ret _
        · exact .bind (rel_dirIterIncr ..).noThrow.thr fun v => ih ..

theorem says_copy (sf : Bool) (n : Nat) (a b : Path) (o : CopyOptions) (ec : EcArg) : Thr A (InOne copyNames) (copy sf n a b o ec) := by
  induction n generalizing a b ec with
  | zero => exact .fuel
  | succ n ih =>
    have hx : ∀ {c : Code} {ec : EcArg}, Thr A (InOne copyNames) ((⟨"copy".toList, some a, some b⟩ : Handler).report ec c ()) :=
      .report (InName.one (w := "copy".toList) (.inl rfl) (by simp [copyNames]))
    simp only [copy, Prog.bind_eq]
    refine .bindAll (noThrow_statusFn ..) (all_statusFn ..) fun v hv => ?_
    split
    · exact hx
    have hm : ∃ c, v.2 = .ref c := by
      rcases hv with ⟨h, _⟩ | ⟨e, h⟩
      · exact ⟨_, h⟩
      · exact ⟨_, h⟩
    obtain ⟨c, hc⟩ := hm
    rw [hc]
    refine .bind (noThrow_statusFn ..).thr fun v => ?_
    split
    · exact hx
    refine .bind (.useStat _) fun _ => .bind (.useStat _) fun _ => ?_
    split
    · exact hx
    unfold copyDispatch
    dsimp only
    repeat' split
    all_goals first
      | exact .ret _
      | exact hx
      | exact (says_copySymlink ..).mono fun x h => InOne.mono h (by simp [copyNames])
      | exact (says_createSymlink ..).mono fun x h => InName.one h (by simp [copyNames])
      | exact (says_createHardLink ..).mono fun x h => InName.one h (by simp [copyNames])
      | skip
    · exact .bind (.ofRes _) fun _ => .bind (.ofRes _) fun _ =>
        .bind ((says_copyFile ..).mono fun x h => InName.one h (by simp [copyNames])) fun _ => .ret _
    · exact .bind ((says_copyFile ..).mono fun x h => InName.one h (by simp [copyNames])) fun _ => .ret _
    · simp only [copyDir, Prog.bind_eq]
      refine .bind ?_ fun v => ?_
      · split
        · exact .bind ((says_createDirectoryLike ..).mono fun x h => InName.one h (by simp [copyNames])) fun _ => .ret _
        · exact .ret _
      split
      · exact .ret _
      · refine .bind ((says_dirIterNew ..).mono fun x h => InName.one h (by simp [copyNames])) fun v => ?_
        split
        · exact .ret _
        · exact says_copyLoop a b (fun a b ec => ih a b ec) ..

theorem says_recAdvance (n : Nat) (it : RecIter) (ec : EcArg) :
    Thr A (InName "recursive_directory_iterator::Advance()".toList) (RecIter.advance n it ec) := by
  simp only [RecIter.advance, Prog.bind_eq]
  have h1 := fun ss => (noThrow_advanceStack (A := A) n ss).thr (P := InName "recursive_directory_iterator::Advance()".toList)
  have h2 := fun ss => (noThrow_closeAll (A := A) ss).thr (P := InName "recursive_directory_iterator::Advance()".toList)
  split
  · says
  · refine .bind (h1 _) fun v => ?_
    split
    · refine .bind (h2 _) fun _ => ?_
      says
    · says

theorem says_recIncr (n : Nat) (it : RecIter) :
    Thr A (InOne ["recursive_directory_iterator::Advance()".toList, "recursive_directory_iterator::TryRecursion()".toList])
      (RecIter.incr n it .null) := by
  simp only [RecIter.incr, Prog.bind_eq]
  refine .bind ?_ fun v => ?_
  · split
    · refine .bind ?_ fun v => .ret _
      refine Thr.mono (P := InName "recursive_directory_iterator::TryRecursion()".toList) ?_ fun x h => InName.one h (by simp)
      simp only [RecIter.tryRecursion, Prog.bind_eq]
      split
      · says
      · exact .fault _
      · refine .bind ?_ fun v => .bind ?_ fun w => ?_
        · split
          · exact .bind (noThrow_getSymLinkFileType ..).thr fun _ => .ret _
          · exact .bind (noThrow_getFileType ..).thr fun _ => .ret _
        · split
          · refine .bind (noThrow_streamNew ..).thr fun v => ?_
            split <;> exact .ret _
          · exact .ret _
        · split
          · exact .ret _
          · split
            · split
              · exact .ret _
              · refine .bind (noThrow_closeAll _).thr fun _ => ?_
                says
            · exact .ret _
    · exact .ret _
  · split
    · exact .ret _
    · exact (says_recAdvance ..).mono fun x h => InName.one h (by simp)

theorem says_recPop (n : Nat) (it : RecIter) :
    Thr A (InOne ["directory_iterator::pop()".toList, "recursive_directory_iterator::Advance()".toList]) (RecIter.pop n it .null) := by
  simp only [RecIter.pop, Prog.bind_eq]
  split
  · exact .bind (.reportMsg (InName.one (w := "directory_iterator::pop()".toList) (.inr ⟨_, rfl⟩) (by simp))) fun _ => .ret _
  · exact .fault _
  · refine .bind (noThrow_close _).thr fun _ => ?_
    split
    · exact .ret _
    · exact (says_recAdvance ..).mono fun x h => InName.one h (by simp)

/-! ## Windows -/

namespace Win

/-- Prove `Thr` by following the program, for the texts. -/
macro "wsays" : tactic => `(tactic| repeat' first
  | assumption
  | exact (noThrow_status ..).thr | exact (noThrow_symlinkStatus ..).thr | exact (noThrow_isDirectoryP ..).thr
  | exact (noThrow_streamNew ..).thr | exact (noThrow_destroy ..).thr | exact (noThrow_doRemoveAll ..).thr | exact (noThrow_close ..).thr
  | exact (noThrow_missingOf ..).thr | exact (noThrow_createMissing ..).thr | exact (noThrow_captureErrno ..).thr
  | exact (noThrow_advance ..).thr | exact (noThrow_advanceStack ..).thr | exact (noThrow_closeAll ..).thr | exact (noThrow_recursionType ..).thr
  | exact Thr.finally' (Thr.report (.inl rfl)) (noThrow_destroy ..)
  | exact Thr.ret _ | exact Thr.fault _ | exact Thr.fuel
  | exact Thr.ofRes _
  | (refine Thr.report ?_; exact .inl rfl)
  | (refine Thr.reportMsg ?_; exact .inr ⟨_, rfl⟩)
  | (with_reducible refine thr_withFile (fun e => ?_) fun h => ?_; all_goals try dsimp only)
  | (with_reducible refine Thr.call _ _ fun r _ => ?_; try dsimp only)
  | (with_reducible refine Thr.bind ?_ fun v => ?_; all_goals try dsimp only)
  | split)

theorem says_dirIterNew (n : Nat) (p : Path) (o : DirOptions) (ec : EcArg) :
    Thr A (InName "directory_iterator::directory_iterator(...)".toList) (DirIter.new n p o ec) := by
  unfold DirIter.new
  wsays

theorem says_copyFile (k : SysClock) (a b : Path) (o : CopyOptions) (ec : EcArg) : Thr A (InName "copy_file".toList) (copyFile k a b o ec) := by
  unfold copyFile
  have h1 : ∀ c, NoThrow A (lastWriteTime k a (.ref c)) := fun c => (rel_lastWriteTime k a c).noThrow
  have h2 : ∀ c, NoThrow A (lastWriteTime k b (.ref c)) := fun c => (rel_lastWriteTime k b c).noThrow
  have h3 : ∀ c, NoThrow A (equivalent a b (.ref c)) := fun c => (rel_equivalent a b c).noThrow
  refine .bind (noThrow_status ..).thr fun f => ?_
  split
  · wsays
  split
  · wsays
  refine .bind (noThrow_status ..).thr fun g => ?_
  split
  · wsays
  split
  · wsays
  refine .bind ?_ fun e => ?_
  · split
    · exact (h3 _).thr
    · exact .ret _
  split
  · wsays
  split
  · wsays
  refine .bind ?_ fun x => ?_
  · unfold shouldCopy
    split
    · refine .bind (h1 _).thr fun _ => ?_
      split
      · wsays
      · refine .bind (h2 _).thr fun _ => ?_
        wsays
    · wsays
  · unfold doCopy
    wsays

theorem says_op {α : Type} (op : WinOp α) (w : Str) (h : winOwnName op = some w) : Thr A (InName w) (op.prog .null) := by
  cases op <;> cases h
  case copyFile => exact says_copyFile ..
  case dirIter => exact says_dirIterNew ..
  all_goals
    simp only [WinOp.prog, createDirectory, createDirectoryLike, createDirectories, setCurrentPath, fileSize, hardLinkCount,
      lastWriteTime, setLastWriteTime, permissions, putPerms, readSymlink, remove, removeAll, resizeFile,
      createSymlink, createDirectorySymlink, createSymlinkAs, createHardLink, equivalent, rename, currentPath,
      tempDirectoryPath, DirIter.incr, RecIter.new, clear_null]
    wsays

theorem says_symlinkStatus (p : Path) (ec : EcArg) : Thr A (InName "IsReparsePointSymlink".toList) (symlinkStatus p ec) := by
  unfold symlinkStatus isReparsePointSymlink
  wsays

theorem says_currentPath (ec : EcArg) : Thr A (InName "current_path".toList) (currentPath ec) := by
  unfold currentPath
  wsays

theorem says_doAbsolute (p : Path) (ec : EcArg) : Thr A (InName "current_path".toList) (doAbsolute p ec) := by
  unfold doAbsolute
  have := fun ec => says_currentPath (A := A) ec
  refine .bind (.ofRes _) fun b => ?_
  split
  · exact .ret _
  · refine .bind (this _) fun v => ?_
    wsays

theorem says_space (p : Path) (ec : EcArg) : Thr A (InOne ["space".toList, "current_path".toList]) (space p ec) := by
  unfold space absolute
  refine .bind (.bind ((says_doAbsolute ..).mono fun x h => InName.one h (by simp)) fun _ => .ret _) fun v => ?_
  refine .bind (.ofRes _) fun _ => .call _ _ fun r _ => ?_
  rcases r with e | ⟨_, _, _⟩
  · exact .bind (.report (InName.one (w := "space".toList) (.inl rfl) (by simp))) fun _ => .ret _
  · exact .ret _

end Win

/-! ## The theorems -/

/-- **C126 (partial).** The message of every exception of the throwing overload of an operation in `ownName` names that operation. For
`create_directories`: if `stat` fails only with `ENOENT` and `ENOTDIR`. -/
theorem c126_posix_partial {α : Type} (op : FsOp α) (w : Str) (h : ownName op = some w) {t : List Event} {x : FsError}
    (hA : ∀ ev ∈ t, op.Assume ev) (he : Exec (op.prog .null) t (.error (.thrown x))) : InName w x :=
  (says_op op w h).exec hA he

/-- On Windows. -/
theorem c126_windows_partial {α : Type} (op : WinOp α) (w : Str) (h : winOwnName op = some w) {t : List Event} {x : FsError}
    (he : Exec (op.prog .null) t (.error (.thrown x))) : InName w x :=
  (Win.says_op (A := fun _ => True) op w h).exec (by simp) he

/-- What the exceptions of the other operations name on POSIX: for `status`, `symlink_status`, `exists` and all predicates always the internal
`file_stat`; for `absolute` always `current_path`; for the others themselves or one of the functions they use. -/
theorem c126_others (sf el : Bool) (n : Nat) (p a b : Path) (o : CopyOptions) (it : RecIter) {t : List Event} {x : FsError} {f : FStatus → Bool} :
    (Exec (status p .null) t (.error (.thrown x)) ∨ Exec (symlinkStatus p .null) t (.error (.thrown x)) ∨
      Exec (existsP p .null) t (.error (.thrown x)) ∨
      Exec (isTypeP f p .null) t (.error (.thrown x)) ∨ Exec (isSymlinkP p .null) t (.error (.thrown x)) → InName "file_stat".toList x) ∧
    (Exec (absolute p .null) t (.error (.thrown x)) → InName "current_path".toList x) ∧
    (Exec (canonical p .null) t (.error (.thrown x)) → InOne ["canonical".toList, "current_path".toList] x) ∧
    (Exec (weaklyCanonical el p .null) t (.error (.thrown x)) →
      InOne ["weakly_canonical".toList, "canonical".toList, "current_path".toList] x) ∧
    (Exec (copySymlink a b .null) t (.error (.thrown x)) → InOne ["copy_symlink".toList, "create_symlink".toList] x) ∧
    (Exec (copy sf n a b o .null) t (.error (.thrown x)) → InOne copyNames x) ∧
    (Exec (isEmptyFile n p .null) t (.error (.thrown x)) →
      InOne ["is_empty".toList, "directory_iterator::directory_iterator(...)".toList] x) ∧
    (Exec (RecIter.incr n it .null) t (.error (.thrown x)) →
      InOne ["recursive_directory_iterator::Advance()".toList, "recursive_directory_iterator::TryRecursion()".toList] x) ∧
    (Exec (RecIter.pop n it .null) t (.error (.thrown x)) →
      InOne ["directory_iterator::pop()".toList, "recursive_directory_iterator::Advance()".toList] x) := by
  have hT : ∀ ev ∈ t, (fun _ : Event => True) ev := by simp
  refine ⟨?_, fun h => ?_, fun h => ?_, fun h => ?_, fun h => ?_, fun h => ?_, fun h => ?_, fun h => ?_, fun h => ?_⟩
  · rintro (h | h | h | h | h)
    · exact (says_status p).exec hT h
    · exact (says_symlinkStatus p).exec hT h
    · exact (Thr.bind (says_status p) fun _ => .ret _).exec hT h
    · exact (Thr.bind (says_status p) fun _ => .ret _).exec hT h
    · exact (Thr.bind (says_symlinkStatus p) fun _ => .ret _).exec hT h
  · exact (Thr.bind (says_doAbsolute p _) fun _ => .ret _).exec hT h
  · exact (says_canonical p _).exec hT h
  · exact (says_weaklyCanonical el p _).exec hT h
  · exact (says_copySymlink a b _).exec hT h
  · exact (says_copy sf n a b o _).exec hT h
  · exact (says_isEmpty n p).exec hT h
  · exact (says_recIncr n it).exec hT h
  · exact (says_recPop n it).exec hT h

/-- On Windows: `symlink_status` and `is_symlink` always name the internal `IsReparsePointSymlink`, `absolute` names `current_path`. -/
theorem c126_windows_others (p : Path) {t : List Event} {x : FsError} :
    (Exec (Win.symlinkStatus p .null) t (.error (.thrown x)) ∨ Exec (Win.isSymlinkP p .null) t (.error (.thrown x)) →
      InName "IsReparsePointSymlink".toList x) ∧
    (Exec (Win.absolute p .null) t (.error (.thrown x)) → InName "current_path".toList x) ∧
    (Exec (Win.space p .null) t (.error (.thrown x)) → InOne ["space".toList, "current_path".toList] x) := by
  have hT : ∀ ev ∈ t, (fun _ : Event => True) ev := by simp
  refine ⟨?_, fun h => ?_, fun h => ?_⟩
  · rintro (h | h)
    · exact (Win.says_symlinkStatus p _).exec hT h
    · exact (Thr.bind (Win.says_symlinkStatus p _) fun _ => .ret _).exec hT h
  · exact (Thr.bind (Win.says_doAbsolute p _) fun _ => .ret _).exec hT h
  · exact (Win.says_space p _).exec hT h

/-- If `system_error::what()` contains the message it was made with, `what()` of an exception naming `w` contains `in w`. -/
theorem c126_what {sysWhat : Str → Code → Str} (hs : ∀ m c, Mentions (sysWhat m c) m) {w : Str} {x : FsError} (h : InName w x) :
    Mentions (x.what sysWhat) ("in ".toList ++ w) := by
  obtain ⟨a, b, h1⟩ := (c52_what_partial sysWhat x).1
  obtain ⟨c, d, h2⟩ := hs x.msg x.code
  rcases h with h | ⟨m, h⟩
  · exact ⟨a ++ c, d ++ b, by rw [h1, h2, h]; simp only [List.append_assoc]⟩
  · exact ⟨a ++ c, ": ".toList ++ m ++ d ++ b, by rw [h1, h2, h]; simp only [List.append_assoc]⟩

/-- Search for `x` in a text. -/
def occurs (x : Str) : Str → Bool
  | [] => x.isPrefixOf []
  | c :: y => x.isPrefixOf (c :: y) || occurs x y

theorem occurs_of_mentions {x y : Str} (h : Mentions y x) : occurs x y = true := by
  obtain ⟨a, b, rfl⟩ := h
  induction a with
  | nil =>
    have : x.isPrefixOf (x ++ b) = true := List.isPrefixOf_iff_prefix.mpr ⟨b, rfl⟩
    cases hy : ([] ++ x ++ b : Str) with
    | nil => rw [List.nil_append] at hy; rw [hy] at this; exact this
    | cons c y => rw [List.nil_append] at hy; rw [hy] at this; simp [occurs, this]
  | cons c a ih => simp only [List.cons_append, occurs, ih, Bool.or_true]

/-- **C126 is violated.** A failing `exists("a")` names `file_stat`, a failing `absolute("a")` names `current_path`, and a failing `pop()` of a
`recursive_directory_iterator` names `directory_iterator::pop()`; none of them names itself. -/
theorem c126_violated :
    (∃ t x, Exec ((FsOp.exists' (mkPath .posix "a".toList)).prog .null) t (.error (.thrown x)) ∧
      InName "file_stat".toList x ∧ ¬ Mentions x.msg "exists".toList) ∧
    (∃ t x, Exec ((FsOp.absolute (mkPath .posix "a".toList)).prog .null) t (.error (.thrown x)) ∧
      InName "current_path".toList x ∧ ¬ Mentions x.msg "absolute".toList) ∧
    (∃ t x, Exec ((FsOp.recIterPop 1 ⟨none, true⟩).prog .null) t (.error (.thrown x)) ∧
      InName "directory_iterator::pop()".toList x ∧ ¬ Mentions x.msg "recursive_directory_iterator".toList) := by
  refine ⟨⟨[⟨.stat "a".toList, .error .EACCES⟩], _, .call _ _ _ _ _ (.stop _), .inr ⟨_, rfl⟩, ?_⟩,
    ⟨[⟨.pathconf, (4096 : Int)⟩, ⟨.getcwd 4096, .error .ENOENT⟩], _, .call _ _ _ _ _ (.call _ _ _ _ _ (.stop _)), .inr ⟨_, rfl⟩, ?_⟩,
    ⟨[], _, .stop _, .inr ⟨_, rfl⟩, ?_⟩⟩
  all_goals
    intro h
    exact absurd (occurs_of_mentions h) (by decide)

/-- A failing `rename`: the message is `in rename`. -/
example : ∃ t x, Exec ((FsOp.rename (mkPath .posix "a".toList) (mkPath .posix "b".toList)).prog .null) t (.error (.thrown x)) ∧
    ownName (FsOp.rename (mkPath .posix "a".toList) (mkPath .posix "b".toList)) = some "rename".toList ∧ x.msg = "in rename".toList :=
  ⟨[⟨.rename "a".toList "b".toList, .error .ENOENT⟩], _, .call _ _ _ _ _ (.stop _), rfl, by decide⟩

end Asap
