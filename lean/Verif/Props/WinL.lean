import Verif.Win.Agree
import Verif.Props.OpsA
import Verif.Props.WinK

/-!
# C76: the overloads with and without `error_code` on Windows
-/

namespace Asap

/-- The operations on Windows with their arguments. `n` bounds the loops (any bound), `el` is copy elision, `k` the clock
of the implementation. -/
inductive WinOp : Type → Type 1 where
  | absolute (p : Path) : WinOp Path
  | copy (k : SysClock) (n : Nat) (a b : Path) (o : CopyOptions) : WinOp Unit
  | copyFile (k : SysClock) (a b : Path) (o : CopyOptions) : WinOp Bool
  | copySymlink (a b : Path) : WinOp Unit
  | createDirectory (p : Path) : WinOp Bool
  | createDirectoryLike (p q : Path) : WinOp Bool
  | createDirectories (el : Bool) (n : Nat) (p : Path) : WinOp Bool
  | createSymlink (a b : Path) : WinOp Unit
  | createDirectorySymlink (a b : Path) : WinOp Unit
  | createHardLink (a b : Path) : WinOp Unit
  | currentPath : WinOp Path
  | setCurrentPath (p : Path) : WinOp Unit
  | equivalent (p q : Path) : WinOp Bool
  | exists' (p : Path) : WinOp Bool
  | isDirectory (p : Path) : WinOp Bool
  | isSymlink (p : Path) : WinOp Bool
  | status (p : Path) : WinOp FStatus
  | symlinkStatus (p : Path) : WinOp FStatus
  | fileSize (p : Path) : WinOp (BitVec 64)
  | hardLinkCount (p : Path) : WinOp (BitVec 64)
  | isEmpty (n : Nat) (p : Path) : WinOp Bool
  | lastWriteTime (k : SysClock) (p : Path) : WinOp Int
  | setLastWriteTime (k : SysClock) (p : Path) (t : Int) : WinOp Unit
  | permissions (p : Path) (m : Perms) (o : PermOptions) : WinOp Unit
  | readSymlink (p : Path) : WinOp Path
  | remove (p : Path) : WinOp Bool
  | removeAll (n : Nat) (p : Path) : WinOp (BitVec 64)
  | rename (a b : Path) : WinOp Unit
  | resizeFile (p : Path) (z : BitVec 64) : WinOp Unit
  | space (p : Path) : WinOp SpaceInfo
  | tempDirectoryPath : WinOp Path
  | dirIter (n : Nat) (p : Path) (o : DirOptions) : WinOp DirIter
  | dirIterIncr (n : Nat) (it : DirIter) : WinOp DirIter
  | recIter (n : Nat) (p : Path) (o : DirOptions) : WinOp RecIter
  | recIterIncr (n : Nat) (it : RecIter) : WinOp RecIter
  | recIterPop (n : Nat) (it : RecIter) : WinOp RecIter

/-- The program of an operation: `ec` null is the throwing overload. -/
def WinOp.prog {α : Type} : WinOp α → EcArg → Prog (α × EcArg)
  | .absolute p => Win.absolute p
  | .copy k n a b o => Win.copy k n a b o
  | .copyFile k a b o => Win.copyFile k a b o
  | .copySymlink a b => Win.copySymlink a b
  | .createDirectory p => Win.createDirectory p
  | .createDirectoryLike p q => Win.createDirectoryLike p q
  | .createDirectories el n p => Win.createDirectories el n p
  | .createSymlink a b => Win.createSymlink a b
  | .createDirectorySymlink a b => Win.createDirectorySymlink a b
  | .createHardLink a b => Win.createHardLink a b
  | .currentPath => Win.currentPath
  | .setCurrentPath p => Win.setCurrentPath p
  | .equivalent p q => Win.equivalent p q
  | .exists' p => Win.existsP p
  | .isDirectory p => Win.isDirectoryP p
  | .isSymlink p => Win.isSymlinkP p
  | .status p => Win.status p
  | .symlinkStatus p => Win.symlinkStatus p
  | .fileSize p => Win.fileSize p
  | .hardLinkCount p => Win.hardLinkCount p
  | .isEmpty n p => Win.isEmptyFile n p
  | .lastWriteTime k p => Win.lastWriteTime k p
  | .setLastWriteTime k p t => Win.setLastWriteTime k p t
  | .permissions p m o => Win.permissions p m o
  | .readSymlink p => Win.readSymlink p
  | .remove p => Win.remove p
  | .removeAll n p => Win.removeAll n p
  | .rename a b => Win.rename a b
  | .resizeFile p z => Win.resizeFile p z
  | .space p => Win.space p
  | .tempDirectoryPath => Win.tempDirectoryPath
  | .dirIter n p o => Win.DirIter.new n p o
  | .dirIterIncr n it => Win.DirIter.incr n it
  | .recIter n p o => Win.RecIter.new n p o
  | .recIterIncr n it => Win.RecIter.incr n it
  | .recIterPop n it => Win.RecIter.pop n it

/-- The operations whose overloads do not agree (`c76_violated_status`, `c76_violated_space`). -/
def WinOp.exceptional {α : Type} : WinOp α → Bool
  | .exists' _ | .isDirectory _ | .isSymlink _ | .status _ | .symlinkStatus _ | .space _ => true
  | _ => false

theorem WinOp.rel {α : Type} {A : Event → Prop} (op : WinOp α) (h : op.exceptional = false) (c : Code) :
    Rel A (op.prog (.ref c)) (op.prog .null) := by
  cases op
  case absolute p => exact Win.rel_absolute p c
  case copy k n a b o => exact Win.rel_copy k n a b o c
  case copyFile k a b o => exact Win.rel_copyFile k a b o c
  case copySymlink a b => exact Win.rel_copySymlink a b c
  case createDirectory p => exact Win.rel_createDirectory p c
  case createDirectoryLike p q => exact Win.rel_createDirectoryLike p q c
  case createDirectories el n p => exact Win.rel_createDirectories el n p c
  case createSymlink a b => exact Win.rel_createSymlinkAs _ _ a b c
  case createDirectorySymlink a b => exact Win.rel_createSymlinkAs _ _ a b c
  case createHardLink a b => exact Win.rel_createHardLink a b c
  case currentPath => exact Win.rel_currentPath c
  case setCurrentPath p => exact Win.rel_setCurrentPath p c
  case equivalent p q => exact Win.rel_equivalent p q c
  case fileSize p => exact Win.rel_fileSize p c
  case hardLinkCount p => exact Win.rel_hardLinkCount p c
  case isEmpty n p => exact Win.rel_isEmptyFile n p c
  case lastWriteTime k p => exact Win.rel_lastWriteTime k p c
  case setLastWriteTime k p t => exact Win.rel_setLastWriteTime k p t c
  case permissions p m o => exact Win.rel_permissions p m o c
  case readSymlink p => exact Win.rel_readSymlink p c
  case remove p => exact Win.rel_remove p c
  case removeAll n p => exact Win.rel_removeAll n p c
  case rename a b => exact Win.rel_rename a b c
  case resizeFile p z => exact Win.rel_resizeFile p z c
  case tempDirectoryPath => exact Win.rel_tempDirectoryPath c
  case dirIter n p o => exact Win.rel_dirIterNew n p o c
  case dirIterIncr n it => exact Win.rel_dirIterIncr n it c
  case recIter n p o => exact Win.rel_recIterNew n p o c
  case recIterIncr n it => exact Win.rel_recIterIncr n it c
  case recIterPop n it => exact Win.rel_recIterPop n it c
  all_goals cases h

/-- **C76.** For every operation except the six named in `WinOp.exceptional`, all arguments and all answers of the
system, the two overloads agree (`Agree` of C23). Missing: for those six it is false (`c76_violated_status`,
`c76_violated_space`); what holds of `status`, `exists` and `is_directory` is in `c76_status`. -/
theorem c76_overloads_agree_partial {α : Type} (op : WinOp α) (h : op.exceptional = false) (t : List Event) :
    Agree op.prog t :=
  Rel.agree (A := fun _ => True) (fun c => op.rel h c) t fun _ _ => trivial

/-- C76, effects: on every system and from every state both overloads make the same calls and leave the same state. -/
theorem c76_same_effects_partial {α : Type} (op : WinOp α) (h : op.exceptional = false) (c : Code) (m : Machine) (s : m.State) :
    ((op.prog (.ref c)).run m s).2 = ((op.prog .null).run m s).2 := (op.rel h c).run m s

/-- **C76**: with an `error_code` nothing but `space` throws (`c76_violated_space`). -/
theorem c76_no_throw_partial {α : Type} (op : WinOp α) (h : ∀ p, ¬ HEq op (WinOp.space p)) (c : Code) (t : List Event)
    (x : FsError) : ¬ Exec (op.prog (.ref c)) t (.error (.thrown x)) := by
  by_cases he : op.exceptional = false
  · exact ((op.rel (A := fun _ => True) he c).noThrow).exec fun _ _ => trivial
  · refine NoThrow.exec (A := fun _ => True) ?_ fun _ _ => trivial
    cases op
    case exists' p => exact .bind (Win.noThrow_status ..) fun _ => .ret _
    case isDirectory p => exact Win.noThrow_isDirectoryP ..
    case isSymlink p => exact .bind (Win.noThrow_symlinkStatus ..) fun _ => .ret _
    case status p => exact Win.noThrow_status ..
    case symlinkStatus p => exact Win.noThrow_symlinkStatus ..
    case space p => exact absurd HEq.rfl (h p)
    all_goals exact absurd rfl he

/-- The value `status` finds does not depend on the overload. -/
theorem Win.status_value (p : Path) (a b : EcArg) :
    ((Win.status p a).bind fun x => .ret x.1) = ((Win.status p b).bind fun x => .ret x.1) := by
  have pf : ∀ e, (processStatusFailure e a.clear).1 = (processStatusFailure e b.clear).1 := by
    intro e
    unfold processStatusFailure
    split
    · rfl
    · split
      · rfl
      · split <;> rfl
  simp only [Win.status, Prog.call_bind]
  congr 1
  funext r
  rcases r with e | m
  · simp only [Prog.ret_bind, pf]
  · simp only [Prog.bind_assoc]
    congr 1
    funext r
    rcases r with e | m
    · simp only [Prog.ret_bind, pf]
    · simp only [Prog.call_bind]
      congr 1
      funext r
      rcases r with e | m
      · simp only [Prog.ret_bind, pf]
      · rfl

theorem exec_value {α β : Type} {p : Prog (α × β)} {t : List Event} {v : α} :
    (∃ b, Exec p t (.ok (v, b))) ↔ Exec (p.bind fun x => .ret x.1) t (.ok v) := by
  rw [exec_bind]
  constructor
  · rintro ⟨b, h⟩
    exact .inr ⟨_, t, [], by simp, h, .ret _⟩
  · rintro (⟨s, h, he⟩ | ⟨⟨a, b⟩, t1, t2, rfl, h, h2⟩)
    · cases he
    · cases h2
      rw [List.append_nil]
      exact ⟨b, h⟩

/-- **C76** for `status`, `exists` and `is_directory`: both overloads find the same, but the throwing one never throws:
also where the other sets an error. -/
theorem c76_status (p : Path) (c : Code) (t : List Event) :
    (∀ v, (∃ ec, Exec (Win.status p (.ref c)) t (.ok (v, ec))) ↔ ∃ ec, Exec (Win.status p .null) t (.ok (v, ec))) ∧
    (∀ ec x, ¬ Exec (Win.status p ec) t (.error (.thrown x))) ∧
    (∀ ec x, ¬ Exec (Win.existsP p ec) t (.error (.thrown x))) ∧
    (∀ ec x, ¬ Exec (Win.isDirectoryP p ec) t (.error (.thrown x))) := by
  refine ⟨fun v => ?_, fun ec x => ?_, fun ec x => ?_, fun ec x => ?_⟩
  · rw [exec_value, exec_value, Win.status_value p (.ref c) .null]
  · exact (Win.noThrow_status (A := fun _ => True) p ec).exec fun _ _ => trivial
  · exact (NoThrow.bind (A := fun _ => True) (Win.noThrow_status p ec) fun _ => .ret _).exec fun _ _ => trivial
  · exact (Win.noThrow_isDirectoryP (A := fun _ => True) p ec).exec fun _ _ => trivial

/-- C76 is violated by `status`: access is denied, one overload reports it, the other returns `file_type::none`. -/
theorem c76_violated_status : ¬ ∀ (p : Path) (t : List Event), Agree (Win.status p) t := by
  intro h
  let t : List Event := [⟨.win (.getAttrs "f".toList), (.error (.ofWin 5) : Except Errno Mask)⟩]
  have h1 : Exec (Win.status (mkPath .windows "f".toList) (.ref none)) t (.ok ({ type := .none }, .ref (some .EACCES))) :=
    feed_exec (by decide +kernel)
  obtain ⟨x, _, hx⟩ := ((h (mkPath .windows "f".toList) t).err none .EACCES).1 ⟨_, h1⟩
  exact (Win.noThrow_status (A := fun _ => True) _ _).exec (fun _ _ => trivial) hx

/-- C76 is violated by `space(p, ec)`: it throws if the working directory cannot be read. -/
theorem c76_violated_space : ∃ (p : Path) (t : List Event) (x : FsError),
    Exec (Win.space p (.ref none)) t (.error (.thrown x)) ∧ x.code = some .EACCES :=
  ⟨mkPath .windows "a".toList, [⟨.win .cwdSize, (0 : Nat)⟩, ⟨.win (.getCwd 0), (.error .EACCES : Except Errno (Option Str))⟩],
    ⟨"in current_path: call to GetCurrentDirectoryW failed".toList, 0, .default, .default, some .EACCES⟩,
    feed_exec (by decide +kernel), rfl⟩

/-- Both ends of C76 occur: `file_size` of a missing file and of one of 5 bytes. -/
example :
    let p := mkPath .windows "f".toList
    let gone : List Event := [⟨.win (.getAttrsEx "f".toList), (.error .ENOENT : Except Errno WinAttrs)⟩]
    Exec (Win.fileSize p (.ref none)) gone (.ok (umaxErr, .ref (some .ENOENT))) ∧
    Exec (Win.fileSize p .null) gone (.error (.thrown ⟨"in file_size".toList, 1, p, .default, some .ENOENT⟩)) :=
  ⟨feed_exec (by decide +kernel), feed_exec (by decide +kernel)⟩

end Asap
