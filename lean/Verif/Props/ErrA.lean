import Verif.Props.OpsA

/-!
# C52: what an exception says about the failing call
-/

namespace Asap
variable {α β : Type} {A : Event → Prop} {P : FsError → Prop}

/-- Every exception of the program satisfies `P`, when the answers obey `A`. -/
inductive Thr (A : Event → Prop) (P : FsError → Prop) {α : Type} : Prog α → Prop where
  | ret (a : α) : Thr A P (.ret a)
  | fault (f : Fault) : Thr A P (.stop (.fault f))
  | fuel : Thr A P (.stop .fuel)
  | thrown (x : FsError) (h : P x) : Thr A P (.stop (.thrown x))
  | call (c : Sys) (k : c.Ret → Prog α) (h : ∀ r, A ⟨c, r⟩ → Thr A P (k r)) : Thr A P (.call c k)

theorem Thr.exec {p : Prog α} (h : Thr A P p) {t : List Event} {x : FsError} (ht : ∀ ev ∈ t, A ev)
    (he : Exec p t (.error (.thrown x))) : P x := by
  induction h generalizing t with
  | ret a => cases he
  | fault f => cases he
  | fuel => cases he
  | thrown x h => cases he; exact h
  | call c k _ ih =>
    cases he with
    | call _ _ r t' _ h =>
      exact ih r (ht _ (List.mem_cons_self ..)) (fun ev he => ht ev (List.mem_cons_of_mem _ he)) h

theorem Thr.bind {p : Prog α} {f : α → Prog β} (h : Thr A P p) (hf : ∀ a, Thr A P (f a)) :
    Thr A P (p.bind f) := by
  induction h with
  | ret a => exact hf a
  | fault f => exact .fault f
  | fuel => exact .fuel
  | thrown x h => exact .thrown x h
  | call c k _ ih => exact .call _ _ ih

theorem NoThrow.thr {p : Prog α} (h : NoThrow A p) : Thr A P p := by
  induction h with
  | ret a => exact .ret a
  | fault f => exact .fault f
  | fuel => exact .fuel
  | call c k _ ih => exact .call _ _ ih

theorem Thr.finally' {p : Prog α} {d : Prog Unit} (h : Thr A P p) (hd : NoThrow A d) : Thr A P (p.finally' d) := by
  induction h with
  | ret a => exact .bind hd.thr fun _ => .ret a
  | fault f => exact .fault f
  | fuel => exact .fuel
  | thrown x h => exact .bind hd.thr fun _ => .thrown x h
  | call c k _ ih => exact .call _ _ ih

theorem Thr.ofRes (r : Res α) : Thr A P (Prog.ofRes r) := (NoThrow.ofRes r).thr
theorem Thr.useStat (s : Option Stat) : Thr A P (Prog.useStat s) := by cases s <;> constructor

theorem Thr.report {h : Handler} {ec : EcArg} {c : Code} {d : α} (hp : P (h.error ("in ".toList ++ h.fn) c)) :
    Thr A P (h.report ec c d) := by
  cases ec
  · exact .thrown _ hp
  · exact .ret _

theorem Thr.reportMsg {h : Handler} {ec : EcArg} {c : Code} {m : Str} {d : α}
    (hp : P (h.error ("in ".toList ++ h.fn ++ ": ".toList ++ m) c)) : Thr A P (h.reportMsg ec c m d) := by
  cases ec
  · exact .thrown _ hp
  · exact .ret _

namespace Spec

/-- The exception names exactly these paths, in this order; the accessors of the missing ones are empty. -/
def Names (ps : List Path) (x : FsError) : Prop :=
  x.npaths = ps.length ∧ x.path1 = ps[0]?.getD .default ∧ x.path2 = ps[1]?.getD .default

/-- The path arguments of an operation, in order, for the operations whose exceptions name them. Missing
(see `c52_violated` and the theorems after it): `copy`, `copy_file`, `copy_symlink`, `absolute`, `canonical`,
`weakly_canonical`, `proximate`, `relative`, and incrementing or popping iterators, which have no path
argument. -/
def pathArgs {α : Type} : FsOp α → Option (List Path)
  | .currentPath | .tempDirectoryPath => some []
  | .exists' p | .createDirectory p | .createDirectories _ _ p | .setCurrentPath p | .fileSize p | .hardLinkCount p
  | .isEmpty _ p | .lastWriteTime p | .setLastWriteTime p _ | .permissions p _ _ | .readSymlink p
  | .remove p | .removeAll _ p | .resizeFile p _ | .space p | .dirIter _ p _ | .recIter _ p _ => some [p]
  | .createDirectoryLike p q | .createSymlink p q | .createDirectorySymlink p q | .createHardLink p q
  | .equivalent p q | .rename p q => some [p, q]
  | _ => none

/-- `x` occurs in `y`. -/
def Mentions (y x : Str) : Prop := ∃ a b, y = a ++ x ++ b

end Spec
open Spec

/-- Prove `Thr` by following the program. -/
macro "thr" : tactic => `(tactic| repeat' first
  | assumption
  | exact (noThrow_getFileStatus ..).thr | exact (noThrow_status ..).thr | exact (noThrow_firstEnv ..).thr
  | exact (noThrow_streamNew ..).thr | exact (noThrow_destroy ..).thr | exact (noThrow_doRemoveAll ..).thr
  | exact (noThrow_missingOf ..).thr | exact (noThrow_createMissing ..).thr | exact (noThrow_symlinkStatus ..).thr
  | exact Thr.finally' (Thr.report ⟨rfl, rfl, rfl⟩) (noThrow_destroy ..)
  | exact Thr.ret _ | exact Thr.fault _ | exact Thr.fuel
  | exact Thr.ofRes _ | exact Thr.useStat _
  | (refine Thr.report ?_; exact ⟨rfl, rfl, rfl⟩)
  | (refine Thr.reportMsg ?_; exact ⟨rfl, rfl, rfl⟩)
  | (with_reducible refine Thr.call _ _ fun r _ => ?_; try dsimp only)
  | (with_reducible refine Thr.bind ?_ fun v => ?_; try dsimp only)
  | split)

theorem thr_status_null (p : Path) : Thr A (Names [p]) (status p .null) := by
  rw [status_null]
  refine .call _ _ fun r _ => ?_
  rcases r with e | st
  · dsimp only; split
    · exact .ret _
    · exact .thrown _ ⟨rfl, rfl, rfl⟩
  · exact .ret _

theorem thr_symlinkStatus_null (p : Path) : Thr A (Names [p]) (symlinkStatus p .null) := by
  rw [symlinkStatus_null]
  refine .call _ _ fun r _ => ?_
  rcases r with e | st
  · dsimp only; split
    · exact .ret _
    · exact .thrown _ ⟨rfl, rfl, rfl⟩
  · exact .ret _

theorem thr_dirIterNew (n : Nat) (p : Path) (o : DirOptions) : Thr A (Names [p]) (DirIter.new n p o .null) := by
  simp only [DirIter.new, Prog.bind_eq]; thr

theorem thr_op {α : Type} (op : FsOp α) (ps : List Path) (h : pathArgs op = some ps) :
    Thr op.Assume (Names ps) (op.prog .null) := by
  cases op <;> cases h
  case exists' p => exact .bind (thr_status_null p) fun _ => .ret _
  case isEmpty n p =>
    simp only [FsOp.prog, isEmptyFile, isEmptyDirectory, clear_null, Prog.bind_eq]
    have := thr_dirIterNew (A := (FsOp.isEmpty n p).Assume) n p .none
    thr
  case createDirectories el n p =>
    have hA : (FsOp.createDirectories el n p).Assume = StatPlain := by
      funext ev; rfl
    rw [hA]
    simp only [FsOp.prog, createDirectories, Prog.bind_eq, clear_null]
    thr
  all_goals
    simp only [FsOp.prog, createDirectory, createDirectoryLike, setCurrentPath, fileSize, hardLinkCount,
      lastWriteTime, setLastWriteTime, permissions, permStatus, chmodAt, readSymlink, remove, removeAll, resizeFile, space,
      createSymlink, createDirectorySymlink, createSymlinkAs, createHardLink, equivalent, rename, currentPath,
      tempDirectoryPath, extractLastWriteTime, thr_dirIterNew, RecIter.new, clear_null, Prog.bind_eq]
    thr

/-- **C52 (partial).** Every exception of the throwing overload of an operation in `pathArgs` has the operation's
first path as `path1()` and its second as `path2()`. For `create_directories`: if `stat` fails only with `ENOENT` and
`ENOTDIR`. -/
theorem c52_paths_partial {α : Type} (op : FsOp α) (ps : List Path) (h : pathArgs op = some ps) {t : List Event}
    {x : FsError} (hA : ∀ ev ∈ t, op.Assume ev) (he : Exec (op.prog .null) t (.error (.thrown x))) : Names ps x :=
  (thr_op op ps h).exec hA he

/-- `status(p)`, `symlink_status(p)` and all predicates on a path. -/
theorem c52_status_paths (p : Path) {t : List Event} {x : FsError} {f : FStatus → Bool}
    (h : Exec (status p .null) t (.error (.thrown x)) ∨ Exec (symlinkStatus p .null) t (.error (.thrown x)) ∨
      Exec (isTypeP f p .null) t (.error (.thrown x)) ∨ Exec (isSymlinkP p .null) t (.error (.thrown x))) :
    Names [p] x := by
  rcases h with h | h | h | h
  · exact (thr_status_null (A := fun _ => True) p).exec (by simp) h
  · exact (thr_symlinkStatus_null (A := fun _ => True) p).exec (by simp) h
  · exact (Thr.bind (A := fun _ => True) (thr_status_null p) fun _ => .ret _).exec (by simp) h
  · exact (Thr.bind (A := fun _ => True) (thr_symlinkStatus_null p) fun _ => .ret _).exec (by simp) h

theorem thr_copyInto (sf : Bool) (n : Nat) (a b : Path) (i : Nat) (fst : Stat) (tst : Option Stat) (ec : EcArg) :
    Thr A (Names [b, a]) (copyInto sf n ⟨"copy_file".toList, some b, some a⟩ i fst b tst ec) := by
  unfold copyInto
  refine .call _ _ fun r _ => ?_
  rcases r with e | out
  · exact .report ⟨rfl, rfl, rfl⟩
  · refine .finally' ?_ (noThrow_closeFd _)
    simp only [Prog.bind_eq]
    refine .bind (noThrow_refreshStatus _).thr fun v => ?_
    have := (noThrow_doCopyFile (A := A) sf n i out fst.size.toInt).thr (P := Names [b, a])
    thr

theorem thr_copyFile (sf : Bool) (n : Nat) (a b : Path) (o : CopyOptions) (ec : EcArg) :
    Thr A (Names [b, a]) (copyFile sf n a b o ec) := by
  refine .call _ _ fun r _ => ?_
  rcases r with e | i
  · exact .report ⟨rfl, rfl, rfl⟩
  · refine .finally' ?_ (noThrow_closeFd _)
    simp only [copyOpened, Prog.bind_eq]
    refine .bind (noThrow_refreshStatus _).thr fun v => ?_
    thr
    all_goals exact thr_copyInto ..

/-- `copy_file(from, to)`: every exception has `to` as `path1()` and `from` as `path2()`. -/
theorem c52_copy_file_swapped (sf : Bool) (n : Nat) (a b : Path) (o : CopyOptions) {t : List Event} {x : FsError}
    (he : Exec ((FsOp.copyFile sf n a b o).prog .null) t (.error (.thrown x))) : Names [b, a] x :=
  (thr_copyFile (A := fun _ => True) sf n a b o .null).exec (by simp) he

theorem thr_currentPath (ec : EcArg) : Thr A (Names []) (currentPath ec) := by
  unfold currentPath; thr

theorem Thr.mono {Q : FsError → Prop} {p : Prog α} (h : Thr A P p) (hQ : ∀ x, P x → Q x) : Thr A Q p := by
  induction h with
  | ret a => exact .ret a
  | fault f => exact .fault f
  | fuel => exact .fuel
  | thrown x h => exact .thrown x (hQ x h)
  | call c k _ ih => exact .call _ _ ih

theorem thr_doAbsolute (p : Path) (ec : EcArg) : Thr A (Names []) (doAbsolute p ec) := by
  simp only [doAbsolute, Prog.bind_eq]
  have := fun ec => thr_currentPath (A := A) ec
  refine .bind (.ofRes _) fun b => ?_
  split
  · exact .ret _
  · refine .bind (this _) fun v => ?_
    thr

theorem thr_canonical (p : Path) (ec : EcArg) :
    Thr A (fun x => Names [] x ∨ x.npaths = 2 ∧ x.path1 = p) (canonical p ec) := by
  simp only [canonical, Prog.bind_eq]
  refine .bind ((thr_doAbsolute p _).mono fun _ h => .inl h) fun v => .call _ _ fun r _ => ?_
  rcases r with e | s
  · exact .report (.inr ⟨rfl, rfl⟩)
  · exact .ret _

theorem thr_weaklyCanonical (el : Bool) (p : Path) (ec : EcArg) :
    Thr A (fun x => Names [] x ∨ 1 ≤ x.npaths ∧ x.path1.pathname = p.pathname) (weaklyCanonical el p ec) := by
  simp only [weaklyCanonical, Prog.bind_eq]
  have hc : ∀ q ec, q.pathname = p.pathname →
      Thr A (fun x => Names [] x ∨ 1 ≤ x.npaths ∧ x.path1.pathname = p.pathname) (canonical q ec) :=
    fun q ec hq => (thr_canonical q ec).mono fun x h => h.imp id fun h => ⟨by omega, by rw [h.2, hq]⟩
  split
  · rename_i he
    refine hc _ _ ?_
    simp only [Path.isEmpty, List.isEmpty_iff] at he
    rw [he]; rfl
  · refine .bind (noThrow_status ..).thr fun v => ?_
    split
    · exact .report (.inr ⟨Nat.le_refl _, rfl⟩)
    · split
      · exact hc _ _ rfl
      · refine .bind (noThrow_existingPrefix ..).thr fun v => .bind ?_ fun v => ?_
        · split
          · exact .bind (noThrow_canonical ..).thr fun _ => .ret _
          · exact .ret _
        · split
          · exact .ret _
          · exact .bind (.ofRes _) fun _ => .bind (.ofRes _) fun _ => .ret _

/-- The exceptions of the operations that resolve relative paths or read links. `absolute(p)` names no path.
`canonical(p)` and `weakly_canonical(p)` name no path (when the current directory cannot be determined) or have
`path1() == p`. `copy_symlink(a, b)` always has `path2() == b`; `path1()` is `a` or the text of the link. -/
theorem c52_others (el : Bool) (p a b : Path) {t : List Event} {x : FsError} :
    (Exec (absolute p .null) t (.error (.thrown x)) → Names [] x) ∧
    (Exec (canonical p .null) t (.error (.thrown x)) → Names [] x ∨ x.npaths = 2 ∧ x.path1 = p) ∧
    (Exec (weaklyCanonical el p .null) t (.error (.thrown x)) →
      Names [] x ∨ 1 ≤ x.npaths ∧ x.path1.pathname = p.pathname) ∧
    (Exec (copySymlink a b .null) t (.error (.thrown x)) → x.npaths = 2 ∧ x.path2 = b) := by
  refine ⟨fun h => ?_, fun h => ?_, fun h => ?_, fun h => ?_⟩
  · exact (Thr.bind (A := fun _ => True) (thr_doAbsolute p _) fun _ => .ret _).exec (by simp) h
  · exact (thr_canonical (A := fun _ => True) p _).exec (by simp) h
  · exact (thr_weaklyCanonical (A := fun _ => True) el p _).exec (by simp) h
  · refine Thr.exec (A := fun _ => True) (P := fun x => x.npaths = 2 ∧ x.path2 = b) ?_ (by simp) h
    simp only [copySymlink, Prog.bind_eq]
    refine .bind (rel_readSymlink ..).noThrow.thr fun v => ?_
    split
    · exact .report ⟨rfl, rfl⟩
    · refine .call _ _ fun r _ => ?_
      rcases r with e | s
      · exact .report ⟨rfl, rfl⟩
      · exact .ret _

/-- `what()` contains the text of `std::system_error` and, for an exception with one path, that path. With two paths
it contains the second. -/
theorem c52_what_partial (sysWhat : Str → Code → Str) (x : FsError) :
    Mentions (x.what sysWhat) (sysWhat x.msg x.code) ∧
    (x.npaths = 1 → x.path1.pathname ≠ [] → Mentions (x.what sysWhat) x.path1.pathname) ∧
    (x.npaths = 2 → x.path2.pathname ≠ [] → Mentions (x.what sysWhat) x.path2.pathname) := by
  refine ⟨?_, fun h hp => ?_, fun h hp => ?_⟩
  · unfold FsError.what
    dsimp only
    split <;> split
    · omega
    · exact ⟨_, _, by rw [List.append_assoc, List.append_assoc]⟩
    · exact ⟨_, _, by rw [List.append_assoc, List.append_assoc]⟩
    · exact ⟨_, [], by rw [List.append_nil]⟩
  · simp only [FsError.what, h]
    simp only [if_true]
    rw [if_neg (by decide), if_neg (by simpa using hp)]
    exact ⟨_, _, rfl⟩
  · simp only [FsError.what, h]
    simp only [if_true]
    rw [if_neg (by decide), if_neg (by simpa using hp)]
    exact ⟨_, _, rfl⟩

/-- **C52 is violated.** `copy_file("a", "b")` for a missing `a` throws with the paths exchanged, and `what()` of an
exception with two paths, here of `rename`, does not mention the first. -/
theorem c52_violated :
    (∃ t x, Exec ((FsOp.copyFile true 1 (mkPath .posix "a".toList) (mkPath .posix "b".toList) 0).prog .null) t
        (.error (.thrown x)) ∧
      x.path1.pathname = "b".toList ∧ x.path2.pathname = "a".toList) ∧
    (∃ t x, Exec ((FsOp.rename (mkPath .posix "Q".toList) (mkPath .posix "b".toList)).prog .null) t
        (.error (.thrown x)) ∧
      x.path1.pathname = "Q".toList ∧ ¬ Mentions (x.what fun m _ => m) x.path1.pathname) := by
  refine ⟨⟨[⟨.openf "a".toList ⟨false, false, true⟩ 0, .error .ENOENT⟩], _, .call _ _ _ _ _ (.stop _), rfl, rfl⟩,
    ⟨[⟨.rename "Q".toList "b".toList, .error .ENOENT⟩], _, .call _ _ _ _ _ (.stop _), rfl, ?_⟩⟩
  rintro ⟨a, b, h⟩
  have h' : 'Q' ∉ (FsError.what (fun m _ => m) ((⟨"rename".toList, some (mkPath .posix "Q".toList),
    some (mkPath .posix "b".toList)⟩ : Handler).error ("in ".toList ++ "rename".toList) (some .ENOENT))) := by decide
  refine h' ?_
  rw [h]
  exact List.mem_append.mpr (.inl (List.mem_append.mpr (.inr (by decide))))

/-- A failing `create_symlink` throws, naming both arguments. -/
example : ∃ t x, Exec ((FsOp.createSymlink (mkPath .posix "t".toList) (mkPath .posix "l".toList)).prog .null) t
    (.error (.thrown x)) ∧ Names [mkPath .posix "t".toList, mkPath .posix "l".toList] x :=
  ⟨[⟨.symlink "t".toList "l".toList, .error .EEXIST⟩], _, .call _ _ _ _ _ (.stop _), rfl, rfl, rfl⟩

end Asap
