import Verif.Ops.Agree2

/-!
# C23, C24: the overloads with and without `error_code`

An execution is given by the answers of the operating system (`Exec`, `Verif/Os/Prog.lean`).
The statements below compare the executions of the two overloads of an operation for
the same answers.
-/

namespace Asap

/-- The operations with an `error_code` overload and a throwing overload, with all
their arguments: the functions of `fs_ops.h` and the iterator operations. `n` bounds
the loops (any bound), `el` is copy elision, `sf` the build with `sendfile`. -/
inductive FsOp : Type → Type 1 where
  | absolute (p : Path) : FsOp Path
  | canonical (p : Path) : FsOp Path
  | weaklyCanonical (el : Bool) (p : Path) : FsOp Path
  | proximate (el : Bool) (p base : Path) : FsOp Path
  | relative (el : Bool) (p base : Path) : FsOp Path
  | proximateCwd (el : Bool) (p : Path) : FsOp Path
  | relativeCwd (el : Bool) (p : Path) : FsOp Path
  | copy (sf : Bool) (n : Nat) (a b : Path) (o : CopyOptions) : FsOp Unit
  | copyFile (sf : Bool) (n : Nat) (a b : Path) (o : CopyOptions) : FsOp Bool
  | copySymlink (a b : Path) : FsOp Unit
  | createDirectory (p : Path) : FsOp Bool
  | createDirectoryLike (p q : Path) : FsOp Bool
  | createDirectories (el : Bool) (n : Nat) (p : Path) : FsOp Bool
  | createSymlink (a b : Path) : FsOp Unit
  | createDirectorySymlink (a b : Path) : FsOp Unit
  | createHardLink (a b : Path) : FsOp Unit
  | currentPath : FsOp Path
  | setCurrentPath (p : Path) : FsOp Unit
  | equivalent (p q : Path) : FsOp Bool
  | exists' (p : Path) : FsOp Bool
  | fileSize (p : Path) : FsOp (BitVec 64)
  | hardLinkCount (p : Path) : FsOp (BitVec 64)
  | isEmpty (n : Nat) (p : Path) : FsOp Bool
  | lastWriteTime (p : Path) : FsOp Int
  | setLastWriteTime (p : Path) (t : Int) : FsOp Unit
  | permissions (p : Path) (m : Perms) (o : PermOptions) : FsOp Unit
  | readSymlink (p : Path) : FsOp Path
  | remove (p : Path) : FsOp Bool
  | removeAll (n : Nat) (p : Path) : FsOp (BitVec 64)
  | rename (a b : Path) : FsOp Unit
  | resizeFile (p : Path) (k : BitVec 64) : FsOp Unit
  | space (p : Path) : FsOp SpaceInfo
  | tempDirectoryPath : FsOp Path
  | dirIter (n : Nat) (p : Path) (o : DirOptions) : FsOp DirIter
  | dirIterIncr (n : Nat) (it : DirIter) : FsOp DirIter
  | recIter (n : Nat) (p : Path) (o : DirOptions) : FsOp RecIter
  | recIterIncr (n : Nat) (it : RecIter) : FsOp RecIter
  | recIterPop (n : Nat) (it : RecIter) : FsOp RecIter

/-- The program of an operation: `ec` null is the throwing overload. -/
def FsOp.prog {α : Type} : FsOp α → EcArg → Prog (α × EcArg)
  | .absolute p => Asap.absolute p
  | .canonical p => Asap.canonical p
  | .weaklyCanonical el p => Asap.weaklyCanonical el p
  | .proximate el p b => Asap.proximate el p b
  | .relative el p b => Asap.relative el p b
  | .proximateCwd el p => Asap.proximateCwd el p
  | .relativeCwd el p => Asap.relativeCwd el p
  | .copy sf n a b o => Asap.copy sf n a b o
  | .copyFile sf n a b o => Asap.copyFile sf n a b o
  | .copySymlink a b => Asap.copySymlink a b
  | .createDirectory p => Asap.createDirectory p
  | .createDirectoryLike p q => Asap.createDirectoryLike p q
  | .createDirectories el n p => Asap.createDirectories el n p
  | .createSymlink a b => Asap.createSymlink a b
  | .createDirectorySymlink a b => Asap.createDirectorySymlink a b
  | .createHardLink a b => Asap.createHardLink a b
  | .currentPath => Asap.currentPath
  | .setCurrentPath p => Asap.setCurrentPath p
  | .equivalent p q => Asap.equivalent p q
  | .exists' p => existsP p
  | .fileSize p => Asap.fileSize p
  | .hardLinkCount p => Asap.hardLinkCount p
  | .isEmpty n p => isEmptyFile n p
  | .lastWriteTime p => Asap.lastWriteTime p
  | .setLastWriteTime p t => Asap.setLastWriteTime p t
  | .permissions p m o => Asap.permissions p m o
  | .readSymlink p => Asap.readSymlink p
  | .remove p => Asap.remove p
  | .removeAll n p => Asap.removeAll n p
  | .rename a b => Asap.rename a b
  | .resizeFile p k => Asap.resizeFile p k
  | .space p => Asap.space p
  | .tempDirectoryPath => Asap.tempDirectoryPath
  | .dirIter n p o => DirIter.new n p o
  | .dirIterIncr n it => DirIter.incr n it
  | .recIter n p o => RecIter.new n p o
  | .recIterIncr n it => RecIter.incr n it
  | .recIterPop n it => RecIter.pop n it

/-- The operations for which agreement needs an assumption on the operating system
(see `c23_violated`): those that resolve a relative path, and `create_directories`. -/
def FsOp.exceptional {α : Type} : FsOp α → Bool
  | .canonical _ | .weaklyCanonical .. | .proximate .. | .relative .. | .proximateCwd ..
  | .relativeCwd .. | .createDirectories .. => true
  | _ => false

/-- What is assumed of each answer for the exceptional operations: `getcwd` does not fail;
for `create_directories`, `stat` fails only with `ENOENT` or `ENOTDIR`. -/
def FsOp.Assume {α : Type} : FsOp α → Event → Prop
  | .createDirectories .. => fun ev => match ev with
    | ⟨.stat _, .error e⟩ => e = .ENOENT ∨ e = .ENOTDIR
    | _ => True
  | op => fun ev => match ev with
    | ⟨.getcwd _, .error _⟩ => op.exceptional = false
    | _ => True

/-- C23 for the answers `t`: the overloads return the same value together, or the one
sets `ec` to the code of the exception the other throws. `c` is the incoming value of
`ec`. The third clause is about ends that are not part of the interface
(undefined behaviour, assertions, loop bound). -/
structure Agree {α : Type} (q : EcArg → Prog (α × EcArg)) (t : List Event) : Prop where
  ok : ∀ c v, Exec (q (.ref c)) t (.ok (v, .ref none)) ↔ Exec (q .null) t (.ok (v, .null))
  err : ∀ c e, (∃ v, Exec (q (.ref c)) t (.ok (v, .ref (some e)))) ↔
    ∃ x : FsError, x.code = some e ∧ Exec (q .null) t (.error (.thrown x))
  other : ∀ c s, (∀ x, s ≠ .thrown x) → (Exec (q (.ref c)) t (.error s) ↔ Exec (q .null) t (.error s))
  /-- An exception always carries an error. -/
  code : ∀ x, Exec (q .null) t (.error (.thrown x)) → x.code ≠ none

theorem Rel.agree {α : Type} {A : Event → Prop} {q : EcArg → Prog (α × EcArg)}
    (h : ∀ c, Rel A (q (.ref c)) (q .null)) (t : List Event) (ht : ∀ ev ∈ t, A ev) : Agree q t where
  ok c := ((h c).exec t ht).1
  err c := ((h c).exec t ht).2.1
  other c := ((h c).exec t ht).2.2.1
  code := ((h none).exec t ht).2.2.2.2.2

theorem FsOp.rel {α : Type} (op : FsOp α) (c : Code) : Rel op.Assume (op.prog (.ref c)) (op.prog .null) := by
  have cwd : ∀ ev, (match ev with | ⟨.getcwd _, .error _⟩ => (true = false) | _ => True) → CwdOk ev := by
    rintro ⟨c, r⟩ h
    cases c
    case getcwd k =>
      rcases r with e | s
      · exact absurd h (by simp)
      · trivial
    all_goals trivial
  cases op
  case canonical p => exact (rel_canonical p c).mono cwd
  case weaklyCanonical el p => exact (rel_weaklyCanonical el p c).mono cwd
  case proximate el p b => exact (rel_viaCanonical el _ p b c).mono cwd
  case relative el p b => exact (rel_viaCanonical el _ p b c).mono cwd
  case proximateCwd el p =>
    exact (rel_viaCwd (fun b => Asap.proximate el p b) (fun b c => rel_viaCanonical el _ p b c) c).mono cwd
  case relativeCwd el p =>
    exact (rel_viaCwd (fun b => Asap.relative el p b) (fun b c => rel_viaCanonical el _ p b c) c).mono cwd
  case createDirectories el n p => exact (rel_createDirectories el n p c).mono fun ev h => h
  case absolute p => exact rel_absolute p c
  case copy sf n a b o => exact rel_copy sf n a b o c
  case copyFile sf n a b o => exact rel_copyFile sf n a b o c
  case copySymlink a b => exact rel_copySymlink a b c
  case createDirectory p => exact rel_createDirectory p c
  case createDirectoryLike p q => exact rel_createDirectoryLike p q c
  case createSymlink a b => exact rel_createSymlinkAs _ a b c
  case createDirectorySymlink a b => exact rel_createSymlinkAs _ a b c
  case createHardLink a b => exact rel_createHardLink a b c
  case currentPath => exact rel_currentPath c
  case setCurrentPath p => exact rel_setCurrentPath p c
  case equivalent p q => exact rel_equivalent p q c
  case exists' p => exact rel_existsP p c
  case fileSize p => exact rel_fileSize p c
  case hardLinkCount p => exact rel_hardLinkCount p c
  case isEmpty n p => exact rel_isEmptyFile n p c
  case lastWriteTime p => exact rel_lastWriteTime p c
  case setLastWriteTime p t => exact rel_setLastWriteTime p t c
  case permissions p m o => exact rel_permissions p m o c
  case readSymlink p => exact rel_readSymlink p c
  case remove p => exact rel_remove p c
  case removeAll n p => exact rel_removeAll n p c
  case rename a b => exact rel_rename a b c
  case resizeFile p k => exact rel_resizeFile p k c
  case space p => exact rel_space p c
  case tempDirectoryPath => exact rel_tempDirectoryPath c
  case dirIter n p o => exact rel_dirIterNew n p o c
  case dirIterIncr n it => exact rel_dirIterIncr n it c
  case recIter n p o => exact rel_recIterNew n p o c
  case recIterIncr n it => exact rel_recIterIncr n it c
  case recIterPop n it => exact rel_recIterPop n it c

theorem FsOp.assume_of_plain {α : Type} (op : FsOp α) (h : op.exceptional = false) (ev : Event) : op.Assume ev := by
  obtain ⟨c, r⟩ := ev
  cases op
  case createDirectories => cases h
  all_goals
    cases c
    case getcwd k =>
      rcases r with e | s
      · exact h
      · trivial
    all_goals trivial

/-- **C23.** For every operation except the seven named in `FsOp.exceptional`, all arguments
and all answers of the operating system, the two overloads agree. Missing: for those
seven it holds under the assumptions of `FsOp.Assume` (`c23_exceptional_partial`)
and fails without them (`c23_violated`). -/
theorem c23_overloads_agree_partial {α : Type} (op : FsOp α) (h : op.exceptional = false)
    (t : List Event) : Agree op.prog t :=
  Rel.agree (fun c => op.rel c) t fun ev _ => op.assume_of_plain h ev

/-- C23 for the remaining operations, under assumptions on the operating system. -/
theorem c23_exceptional_partial {α : Type} (op : FsOp α) (t : List Event) (ht : ∀ ev ∈ t, op.Assume ev) :
    Agree op.prog t := Rel.agree (fun c => op.rel c) t ht

/-- C23, effects: on every operating system, from every state, both overloads make the
same system calls and leave the system in the same state. -/
theorem c23_same_effects_partial {α : Type} (op : FsOp α) (h : op.exceptional = false) (c : Code)
    (m : Machine) (s : m.State) : ((op.prog (.ref c)).run m s).2 = ((op.prog .null).run m s).2 :=
  ((op.rel c).mono fun ev _ => op.assume_of_plain h ev).run m s

/-- C23 is violated by `canonical`: if `getcwd` fails, the `error_code` overload goes on,
asks for the real path of the empty path and reports that error instead. -/
theorem c23_violated : ¬ ∀ (p : Path) (t : List Event), Agree (canonical p) t := by
  intro h
  let p := mkPath .posix "a".toList
  let t : List Event := [⟨.pathconf, (4096 : Int)⟩, ⟨.getcwd 4096, (.error .EACCES : Except Errno Str)⟩]
  have h1 : Exec (canonical p .null) t (.error (.thrown
      ⟨"in current_path: call to getcwd failed".toList, 0, .default, .default, some .EACCES⟩)) :=
    .call _ _ _ _ _ (.call _ _ _ _ _ (.stop _))
  obtain ⟨v, hv⟩ := ((h p t).err none .EACCES).2 ⟨_, rfl, h1⟩
  change Exec _ [_, _] _ at hv
  cases hv with
  | call _ _ _ _ _ hv => cases hv with
    | call _ _ _ _ _ hv => cases hv

/-- What the caller sees in that situation: the throwing overload throws `EACCES`, the
other one reports `ENOENT`. -/
example :
    let p := mkPath .posix "a".toList
    let t : List Event := [⟨.pathconf, (4096 : Int)⟩, ⟨.getcwd 4096, (.error .EACCES : Except Errno Str)⟩,
      ⟨.realpath [], (.error .ENOENT : Except Errno Str)⟩]
    Exec (canonical p (.ref none)) t (.ok (.default, .ref (some .ENOENT))) :=
  .call _ _ _ _ _ (.call _ _ _ _ _ (.call _ _ _ _ _ (.ret _)))

/-- C23 for `status`, `symlink_status` and the predicates `is_*`: a missing file is not an
error of the throwing overload, while the other one also sets `ec`; everything else as
for the other operations. `f` is the identity or a predicate on `file_status`. -/
theorem c23_status {α : Type} (f : FStatus → α) (p : Path) (c : Code) (t : List Event)
    (q : EcArg → Prog (FStatus × EcArg)) (hq : q = status p ∨ q = symlinkStatus p) :
    (∀ v, Exec ((q (.ref c)).bind fun r => .ret (f r.1, r.2)) t (.ok (v, .ref none)) →
      Exec ((q .null).bind fun r => .ret (f r.1, r.2)) t (.ok (v, .null))) ∧
    (∀ v e, Exec ((q (.ref c)).bind fun r => .ret (f r.1, r.2)) t (.ok (v, .ref (some e))) →
      if e = .ENOENT ∨ e = .ENOTDIR then
        v = f { type := .notFound } ∧
          Exec ((q .null).bind fun r => .ret (f r.1, r.2)) t (.ok (v, .null))
      else v = f { type := .none } ∧ ∃ x : FsError, x.code = some e ∧ x.path1 = p ∧
        Exec ((q .null).bind fun r => .ret (f r.1, r.2)) t (.error (.thrown x))) ∧
    (∀ s, ¬ Exec ((q (.ref c)).bind fun r => .ret (f r.1, r.2)) t (.error s)) := by
  have key : ∀ (y : Sys) (k k' : y.Ret → Prog (FStatus × EcArg)) (cast : y.Ret → Except Errno Stat)
      (hk : ∀ r, k r = match cast r with
        | .ok st => .ret (statusOf st, .ref none)
        | .error e => .ret ({ type := typeOfErr e }, .ref (some e)))
      (hk' : ∀ r, k' r = match cast r with
        | .ok st => .ret (statusOf st, .null)
        | .error e => if e = .ENOENT ∨ e = .ENOTDIR then .ret ({ type := .notFound }, .null)
          else .stop (.thrown (statError p e))),
      (∀ v, Exec ((Prog.call y k).bind fun r => .ret (f r.1, r.2)) t (.ok (v, .ref none)) →
        Exec ((Prog.call y k').bind fun r => .ret (f r.1, r.2)) t (.ok (v, .null))) ∧
      (∀ v e, Exec ((Prog.call y k).bind fun r => .ret (f r.1, r.2)) t (.ok (v, .ref (some e))) →
        if e = .ENOENT ∨ e = .ENOTDIR then
          v = f { type := .notFound } ∧
            Exec ((Prog.call y k').bind fun r => .ret (f r.1, r.2)) t (.ok (v, .null))
        else v = f { type := .none } ∧ ∃ x : FsError, x.code = some e ∧ x.path1 = p ∧
          Exec ((Prog.call y k').bind fun r => .ret (f r.1, r.2)) t (.error (.thrown x))) ∧
      (∀ s, ¬ Exec ((Prog.call y k).bind fun r => .ret (f r.1, r.2)) t (.error s)) := by
    intro y k k' cast hk hk'
    simp only [Prog.call_bind, exec_call]
    refine ⟨?_, ?_, ?_⟩
    · rintro v ⟨r, t', rfl, he⟩
      rw [hk r] at he
      refine ⟨r, t', rfl, ?_⟩
      rw [hk' r]
      cases hc : cast r with
      | error e => rw [hc] at he; simp at he
      | ok st => rw [hc] at he; simp at he ⊢; exact he
    · rintro v e ⟨r, t', rfl, he⟩
      rw [hk r] at he
      cases hc : cast r with
      | ok st => rw [hc] at he; simp at he
      | error e' =>
        rw [hc] at he
        simp at he
        obtain ⟨rfl, rfl, rfl⟩ := he
        split
        · rename_i h
          refine ⟨by simp [typeOfErr, h], r, [], rfl, ?_⟩
          rw [hk' r, hc]
          simp [h, typeOfErr]
        · rename_i h
          refine ⟨by simp [typeOfErr, h], statError p e, rfl, rfl, r, [], rfl, ?_⟩
          rw [hk' r, hc]
          simp [h]
    · rintro s ⟨r, t', rfl, he⟩
      rw [hk r] at he
      cases hc : cast r with
      | ok st => rw [hc] at he; simp at he
      | error e' => rw [hc] at he; simp at he
  rcases hq with rfl | rfl
  · rw [status_ref, status_null]
    refine key (.stat p.pathname) _ _ id ?_ ?_
    all_goals intro r; rcases r with e | st <;> rfl
  · rw [symlinkStatus_ref, symlinkStatus_null]
    refine key (.lstat p.pathname) _ _ id ?_ ?_
    all_goals intro r; rcases r with e | st <;> rfl

/-- The overloads that can throw although they are given an `error_code` (`c24_violated`). -/
def FsOp.mayThrow {α : Type} : FsOp α → Bool
  | .proximateCwd .. | .relativeCwd .. | .createDirectories .. => true
  | _ => false

/-- **C24 (partial).** For every operation except the three named in `FsOp.mayThrow`, no answers of
the operating system make the `error_code` overload throw. Missing: the three, where it
holds under `FsOp.Assume` (`c24_exceptional_partial`) and fails without
(`c24_violated`). -/
theorem c24_no_throw_partial {α : Type} (op : FsOp α) (h : op.mayThrow = false) (c : Code)
    (t : List Event) (x : FsError) : ¬ Exec (op.prog (.ref c)) t (.error (.thrown x)) := by
  have calm : ∀ {q : Prog (α × EcArg)}, Calm q → ¬ Exec q t (.error (.thrown x)) :=
    fun hq => (hq.noThrow (A := fun _ => True)).exec fun _ _ => trivial
  by_cases he : op.exceptional = false
  · exact ((op.rel c).noThrow.mono fun ev (_ : True) => op.assume_of_plain he ev).exec fun _ _ => trivial
  · cases op <;> first | exact absurd rfl he | cases h | skip
    · exact calm (calm_canonical ..)
    · exact calm (calm_weaklyCanonical ..)
    · exact calm (calm_viaCanonical ..)
    · exact calm (calm_viaCanonical ..)

theorem c24_exceptional_partial {α : Type} (op : FsOp α) (c : Code) (t : List Event)
    (ht : ∀ ev ∈ t, op.Assume ev) (x : FsError) : ¬ Exec (op.prog (.ref c)) t (.error (.thrown x)) :=
  (op.rel c).noThrow.exec ht

/-- C24 for the status functions and predicates. -/
theorem c24_status (p : Path) (c : Code) (t : List Event) (s : Stop) :
    ¬ Exec (status p (.ref c)) t (.error s) ∧ ¬ Exec (symlinkStatus p (.ref c)) t (.error s) := by
  have h1 := (c23_status id p c t (status p) (.inl rfl)).2.2 s
  have h2 := (c23_status id p c t (symlinkStatus p) (.inr rfl)).2.2 s
  have h : ∀ q : Prog (FStatus × EcArg), (q.bind fun r => .ret (id r.1, r.2)) = q := fun q => q.bind_ret
  rw [h] at h1 h2
  exact ⟨h1, h2⟩

/-- C24 is violated: `proximate(p, ec)`, `relative(p, ec)` and `create_directories(p, ec)` can
throw. -/
theorem c24_violated :
    (∃ p c t x, Exec (proximateCwd true p (.ref c)) t (.error (.thrown x))) ∧
    (∃ p c t x, Exec (relativeCwd true p (.ref c)) t (.error (.thrown x))) ∧
    (∃ p c t x, Exec (createDirectories true 10 p (.ref c)) t (.error (.thrown x))) := by
  refine ⟨⟨mkPath .posix "a".toList, none, [⟨.pathconf, (4096 : Int)⟩,
      ⟨.getcwd 4096, (.error .ENOENT : Except Errno Str)⟩], _, .call _ _ _ _ _ (.call _ _ _ _ _ (.stop _))⟩,
    ⟨mkPath .posix "a".toList, none, [⟨.pathconf, (4096 : Int)⟩,
      ⟨.getcwd 4096, (.error .ENOENT : Except Errno Str)⟩], _, .call _ _ _ _ _ (.call _ _ _ _ _ (.stop _))⟩,
    ⟨mkPath .posix "a".toList, none, [⟨.stat "a".toList, (.error .EACCES : Except Errno Stat)⟩,
      ⟨.stat "a".toList, (.error .EACCES : Except Errno Stat)⟩], _,
      .call _ _ _ _ _ (.call _ _ _ _ _ (.stop _))⟩⟩

/-- The hypotheses are met by executions that fail half way: `remove_all` of a directory
whose only entry cannot be removed. -/
example : ∃ x : FsError, x.code = some .EACCES ∧
    Exec ((FsOp.removeAll 5 (mkPath .posix "d".toList)).prog .null)
      [⟨.lstat "d".toList, (.ok { Stat.zero with mode := 0o040755 } : Except Errno Stat)⟩,
       ⟨.opendir "d".toList, (.ok 3 : Except Errno Nat)⟩,
       ⟨.readdir 3, (.ok (some ⟨"f".toList, .reg⟩) : Except Errno (Option Dirent))⟩,
       ⟨.lstat "d/f".toList, (.ok { Stat.zero with mode := 0o100644 } : Except Errno Stat)⟩,
       ⟨.remove "d/f".toList, (.error .EACCES : Except Errno Unit)⟩,
       ⟨.closedir 3, (.ok () : Except Errno Unit)⟩] (.error (.thrown x)) :=
  ⟨_, rfl, .call _ _ _ _ _ (.call _ _ _ _ _ (.call _ _ _ _ _ (.call _ _ _ _ _ (.call _ _ _ _ _
    (.call _ _ _ _ _ (.stop _))))))⟩

end Asap
