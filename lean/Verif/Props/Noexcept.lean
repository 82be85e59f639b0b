import Verif.Props.EntryA
import Verif.Props.WinL
import Verif.Win.Entry

/-!
# C109: functions declared `noexcept`

An exception that leaves a function declared `noexcept` ends the program by `std::terminate`. The functions of `fs_ops.h`
and of `directory_entry` so declared are listed here, and no exception leaves them, whatever the system answers, except
for `space` on Windows. Running out of memory and conversions of encodings are not modelled.
-/

namespace Asap
namespace Spec

/-- The ends of a call that are exceptions: `filesystem_error`, `std::out_of_range` and `std::logic_error`. The others
are undefined behaviour, failed assertions and unfinished loops. -/
def escapes : Stop → Bool
  | .thrown _ => true
  | .fault .outOfRange => true
  | .fault .logicError => true
  | _ => false

/-- The functions with an `error_code` that `fs_ops.h` and `fs_dir.h` declare `noexcept`. `is f`: one of the predicates
on the type of the file a path leads to; `permissions` is the overload without options, which has `replace`. -/
inductive Noex where
  | setCurrentPath (p : Path)
  | copySymlink (a b : Path)
  | createDirectory (p : Path)
  | createDirectoryLike (p q : Path)
  | createDirectorySymlink (a b : Path)
  | createHardLink (a b : Path)
  | createSymlink (a b : Path)
  | exists' (p : Path)
  | equivalent (a b : Path)
  | fileSize (p : Path)
  | hardLinkCount (p : Path)
  | is (f : FStatus → Bool) (p : Path)
  | isSymlink (p : Path)
  | lastWriteTime (p : Path)
  | setLastWriteTime (p : Path) (t : Int)
  | permissions (p : Path) (m : Perms)
  | remove (p : Path)
  | rename (a b : Path)
  | resizeFile (p : Path) (z : BitVec 64)
  | space (p : Path)
  | status (p : Path)
  | symlinkStatus (p : Path)
  | refresh (e : Entry)
  | ask (a : Ask) (e : Entry)

/-- A call whose results are not looked at. -/
def drop {α : Type} (p : Prog α) : Prog Unit := p.bind fun _ => .ret ()

/-- What they do on POSIX systems. -/
def Noex.posix (ec : EcArg) : Noex → Prog Unit
  | .setCurrentPath p => drop (Asap.setCurrentPath p ec)
  | .copySymlink a b => drop (Asap.copySymlink a b ec)
  | .createDirectory p => drop (Asap.createDirectory p ec)
  | .createDirectoryLike p q => drop (Asap.createDirectoryLike p q ec)
  | .createDirectorySymlink a b => drop (Asap.createDirectorySymlink a b ec)
  | .createHardLink a b => drop (Asap.createHardLink a b ec)
  | .createSymlink a b => drop (Asap.createSymlink a b ec)
  | .exists' p => drop (existsP p ec)
  | .equivalent a b => drop (Asap.equivalent a b ec)
  | .fileSize p => drop (Asap.fileSize p ec)
  | .hardLinkCount p => drop (Asap.hardLinkCount p ec)
  | .is f p => drop (isTypeP f p ec)
  | .isSymlink p => drop (isSymlinkP p ec)
  | .lastWriteTime p => drop (Asap.lastWriteTime p ec)
  | .setLastWriteTime p t => drop (Asap.setLastWriteTime p t ec)
  | .permissions p m => drop (Asap.permissions p m .replace ec)
  | .remove p => drop (Asap.remove p ec)
  | .rename a b => drop (Asap.rename a b ec)
  | .resizeFile p z => drop (Asap.resizeFile p z ec)
  | .space p => drop (Asap.space p ec)
  | .status p => drop (Asap.status p ec)
  | .symlinkStatus p => drop (Asap.symlinkStatus p ec)
  | .refresh e => drop (Asap.refresh e ec)
  | .ask a e => drop (a.entry e ec)

/-- What they do on Windows, with clock `k`. -/
def Noex.windows (k : SysClock) (ec : EcArg) : Noex → Prog Unit
  | .setCurrentPath p => drop (Win.setCurrentPath p ec)
  | .copySymlink a b => drop (Win.copySymlink a b ec)
  | .createDirectory p => drop (Win.createDirectory p ec)
  | .createDirectoryLike p q => drop (Win.createDirectoryLike p q ec)
  | .createDirectorySymlink a b => drop (Win.createDirectorySymlink a b ec)
  | .createHardLink a b => drop (Win.createHardLink a b ec)
  | .createSymlink a b => drop (Win.createSymlink a b ec)
  | .exists' p => drop (Win.existsP p ec)
  | .equivalent a b => drop (Win.equivalent a b ec)
  | .fileSize p => drop (Win.fileSize p ec)
  | .hardLinkCount p => drop (Win.hardLinkCount p ec)
  | .is _ p => drop (Win.status p ec)
  | .isSymlink p => drop (Win.isSymlinkP p ec)
  | .lastWriteTime p => drop (Win.lastWriteTime k p ec)
  | .setLastWriteTime p t => drop (Win.setLastWriteTime k p t ec)
  | .permissions p m => drop (Win.permissions p m .replace ec)
  | .remove p => drop (Win.remove p ec)
  | .rename a b => drop (Win.rename a b ec)
  | .resizeFile p z => drop (Win.resizeFile p z ec)
  | .space p => drop (Win.space p ec)
  | .status p => drop (Win.status p ec)
  | .symlinkStatus p => drop (Win.symlinkStatus p ec)
  | .refresh e => drop (Win.refresh k e ec)
  | .ask .exists' e => drop (Win.Entry.existsE e ec)
  | .ask (.is g) e => drop (Win.Entry.isType (fun s => g s.type) e ec)
  | .ask .isSymlink e => drop (Win.Entry.isSymlinkE e ec)
  | .ask .fileSize e => drop (Win.getSize k e ec)
  | .ask .hardLinkCount e => drop (Win.getHardLinkCount k e ec)
  | .ask .lastWriteTime e => drop (Win.getLastWriteTime k e ec)
  | .ask .status e => drop (Win.getStatus k e ec)
  | .ask .symlinkStatus e => drop (Win.getSymLinkStatus k e ec)

/-- The one that is not as declared. -/
def Noex.isSpace : Noex → Bool
  | .space _ => true
  | _ => false

end Spec

open Spec

/-! ## Programs without escaping exceptions -/

/-- No exception leaves the program, and what it returns satisfies `Q`. -/
inductive Quiet {α : Type} (Q : α → Prop) : Prog α → Prop where
  | ret (a : α) (h : Q a) : Quiet Q (.ret a)
  | stop (s : Stop) (h : escapes s = false) : Quiet Q (.stop s)
  | call (c : Sys) (k : c.Ret → Prog α) (h : ∀ r, Quiet Q (k r)) : Quiet Q (.call c k)

section
variable {α β : Type}

theorem Quiet.bind {P : α → Prop} {Q : β → Prop} {p : Prog α} {f : α → Prog β} (h : Quiet P p)
    (hf : ∀ a, P a → Quiet Q (f a)) : Quiet Q (p.bind f) := by
  induction h with
  | ret a h => exact hf a h
  | stop s h => exact .stop s h
  | call c k _ ih => exact .call _ _ ih

theorem Quiet.mono {P Q : α → Prop} {p : Prog α} (h : Quiet P p) (hQ : ∀ a, P a → Q a) : Quiet Q p := by
  induction h with
  | ret a h => exact .ret a (hQ a h)
  | stop s h => exact .stop s h
  | call c k _ ih => exact .call _ _ ih

theorem Quiet.finally' {Q : α → Prop} {p : Prog α} {d : Prog Unit} (h : Quiet Q p) (hd : Quiet (fun _ => True) d) :
    Quiet Q (p.finally' d) := by
  induction h with
  | ret a h => exact hd.bind fun _ _ => .ret a h
  | stop s h =>
    cases s with
    | thrown e => cases h
    | fault f => exact .stop _ h
    | fuel => exact .stop _ h
  | call c k _ ih => exact .call _ _ ih

theorem Quiet.drop {Q : α → Prop} {p : Prog α} (h : Quiet Q p) : Quiet (fun _ => True) (Spec.drop p) :=
  h.bind fun _ _ => .ret () trivial

theorem Quiet.exec {Q : α → Prop} {p : Prog α} (h : Quiet Q p) {t : List Event} {s : Stop}
    (he : Exec p t (.error s)) : escapes s = false := by
  induction h generalizing t with
  | ret a h => cases he
  | stop x h => cases he; exact h
  | call c k _ ih =>
    cases he with
    | call _ _ r t' _ he => exact ih r he

/-- The result comes with the caller's `error_code`. -/
def Refs (x : α × EcArg) : Prop := ∃ c, x.2 = .ref c

theorem Quiet.refs {Q : β → Prop} {p : Prog (α × EcArg)} {f : α × EcArg → Prog β} (h : Quiet Refs p)
    (hf : ∀ a c, Quiet Q (f (a, .ref c))) : Quiet Q (p.bind f) := by
  refine h.bind ?_
  rintro ⟨a, _⟩ ⟨c, rfl⟩
  exact hf a c

theorem q_report (h : Handler) (c d : Code) (x : α) : Quiet Refs (h.report (.ref c) d x) := .ret _ ⟨d, rfl⟩

theorem q_reportMsg (h : Handler) (c d : Code) (m : Str) (x : α) : Quiet Refs (h.reportMsg (.ref c) d m x) :=
  .ret _ ⟨d, rfl⟩

theorem q_ok (x : α) (c : Code) : Quiet Refs (.ret (x, .ref c)) := .ret _ ⟨c, rfl⟩

/-- A path operation or a computation of a time that has only undefined cases. -/
theorem q_ofRes {Q : α → Prop} {r : Res α} (h : ∀ f, r = .error f → f = .ub) (hQ : ∀ a, r = .ok a → Q a) :
    Quiet Q (Prog.ofRes r) := by
  cases hr : r with
  | ok a => exact .ret a (hQ a hr)
  | error f => rw [h f hr]; exact .stop _ rfl

theorem i64_ub {x : Int} (f : Fault) (h : i64 x = .error f) : f = .ub := by
  unfold i64 at h
  split at h
  · cases h
  · cases h; rfl

theorem res_bind_ub {r : Res α} {g : α → Res β} (hr : ∀ f, r = .error f → f = .ub)
    (hg : ∀ a f, g a = .error f → f = .ub) (f : Fault) (h : r.bind g = .error f) : f = .ub := by
  cases hr' : r with
  | ok a => rw [hr'] at h; exact hg a f h
  | error e => rw [hr'] at h; cases h; exact hr _ hr'

/-- The shapes that occur. -/
macro "quiet_step" : tactic => `(tactic| first
  | exact q_ok _ _
  | exact q_report ..
  | exact q_reportMsg ..
  | exact .stop _ rfl
  | exact .ret _ trivial
  | refine .call _ _ fun _ => ?_
  | (refine Quiet.bind (q_report ..) ?_; rintro ⟨_, _⟩ ⟨_, rfl⟩)
  | (refine Quiet.bind (q_reportMsg ..) ?_; rintro ⟨_, _⟩ ⟨_, rfl⟩)
  | split)

macro "quiet" : tactic => `(tactic| (repeat' (first | quiet_step | (dsimp only; quiet_step))))

/-! ## POSIX -/

theorem q_createFileStatus (m : Code) (p : Path) (st : Option Stat) (c : Code) :
    Quiet Refs (createFileStatus m p st (.ref c)) := by
  unfold createFileStatus
  simp only [EcArg.assign, EcArg.clear, Prog.bind_eq]
  quiet

theorem q_getFileStatus (p : Path) (st : Option Stat) (c : Code) : Quiet Refs (getFileStatus p st (.ref c)) := by
  unfold getFileStatus
  refine .call _ _ fun r => ?_
  cases r <;> (refine (q_createFileStatus ..).bind ?_; rintro ⟨_, _⟩ ⟨_, rfl⟩; exact q_ok _ _)

theorem q_getLinkStatus (p : Path) (st : Option Stat) (c : Code) : Quiet Refs (getLinkStatus p st (.ref c)) := by
  unfold getLinkStatus
  refine .call _ _ fun r => ?_
  cases r <;> (refine (q_createFileStatus ..).bind ?_; rintro ⟨_, _⟩ ⟨_, rfl⟩; exact q_ok _ _)

theorem q_status (p : Path) (c : Code) : Quiet Refs (status p (.ref c)) := by
  refine (q_getFileStatus ..).bind ?_
  rintro ⟨_, _⟩ ⟨_, rfl⟩
  exact q_ok _ _

theorem q_symlinkStatus (p : Path) (c : Code) : Quiet Refs (symlinkStatus p (.ref c)) := by
  refine (q_getLinkStatus ..).bind ?_
  rintro ⟨_, _⟩ ⟨_, rfl⟩
  exact q_ok _ _

theorem q_existsP (p : Path) (c : Code) : Quiet Refs (existsP p (.ref c)) := by
  refine (q_status ..).bind ?_
  rintro ⟨_, _⟩ ⟨_, rfl⟩
  dsimp only [EcArg.clear]
  split <;> exact q_ok _ _

theorem q_isTypeP (f : FStatus → Bool) (p : Path) (c : Code) : Quiet Refs (isTypeP f p (.ref c)) := by
  refine (q_status ..).bind ?_
  rintro ⟨_, _⟩ ⟨_, rfl⟩
  exact q_ok _ _

theorem q_isSymlinkP (p : Path) (c : Code) : Quiet Refs (isSymlinkP p (.ref c)) := by
  refine (q_symlinkStatus ..).bind ?_
  rintro ⟨_, _⟩ ⟨_, rfl⟩
  exact q_ok _ _

theorem q_useStat (st : Option Stat) : Quiet (fun _ => True) (Prog.useStat st) := by
  cases st with
  | none => exact .stop _ rfl
  | some s => exact .ret _ trivial

theorem q_extract (p : Path) (st : Stat) (c : Code) : Quiet Refs (extractLastWriteTime p st (.ref c)) := by
  unfold extractLastWriteTime
  dsimp only [EcArg.clear]
  split
  · refine Quiet.bind (q_ofRes (Q := fun _ => True) ?_ fun _ _ => trivial) fun t _ => q_ok _ _
    intro f h
    unfold timeFromSpec at h
    split at h
    · exact res_bind_ub i64_ub (fun _ => i64_ub) f h
    · exact res_bind_ub i64_ub (fun _ => res_bind_ub i64_ub fun _ => res_bind_ub i64_ub fun _ => i64_ub) f h
  · exact q_report ..

theorem q_setCurrentPath (p : Path) (c : Code) : Quiet Refs (setCurrentPath p (.ref c)) := by
  unfold setCurrentPath
  dsimp only [EcArg.clear]
  quiet

theorem q_createDirectory (p : Path) (c : Code) : Quiet Refs (createDirectory p (.ref c)) := by
  unfold createDirectory
  simp only [EcArg.clear, Prog.bind_eq]
  quiet

theorem q_createDirectoryLike (p q : Path) (c : Code) : Quiet Refs (createDirectoryLike p q (.ref c)) := by
  unfold createDirectoryLike
  simp only [EcArg.clear, Prog.bind_eq]
  refine (q_getFileStatus ..).bind ?_
  rintro ⟨⟨_, _⟩, _⟩ ⟨_, rfl⟩
  dsimp only
  split
  · exact q_report ..
  split
  · exact q_reportMsg ..
  refine (q_useStat _).bind fun st _ => ?_
  quiet

theorem q_createSymlinkAs (fn : Str) (a b : Path) (c : Code) : Quiet Refs (createSymlinkAs fn a b (.ref c)) := by
  unfold createSymlinkAs
  dsimp only [EcArg.clear]
  quiet

theorem q_createHardLink (a b : Path) (c : Code) : Quiet Refs (createHardLink a b (.ref c)) := by
  unfold createHardLink
  dsimp only [EcArg.clear]
  quiet

theorem q_readSymlink (p : Path) (c : Code) : Quiet Refs (readSymlink p (.ref c)) := by
  unfold readSymlink
  dsimp only [EcArg.clear]
  quiet

theorem q_copySymlink (a b : Path) (c : Code) : Quiet Refs (copySymlink a b (.ref c)) := by
  unfold copySymlink
  simp only [EcArg.clear, Prog.bind_eq]
  refine (q_readSymlink ..).bind ?_
  rintro ⟨_, _⟩ ⟨_, rfl⟩
  dsimp only
  split
  · exact q_report ..
  · exact q_createSymlinkAs ..

theorem q_equivalent (a b : Path) (c : Code) : Quiet Refs (equivalent a b (.ref c)) := by
  unfold equivalent
  simp only [EcArg.clear, Prog.bind_eq]
  refine (q_getFileStatus ..).bind ?_
  rintro ⟨⟨_, _⟩, _⟩ ⟨_, rfl⟩
  dsimp only
  split
  · exact q_report ..
  refine (q_getFileStatus ..).bind ?_
  rintro ⟨⟨_, _⟩, _⟩ ⟨_, rfl⟩
  dsimp only
  split
  · exact q_report ..
  exact (q_useStat _).bind fun _ _ => (q_useStat _).bind fun _ _ => q_ok _ _

theorem q_fileSize (p : Path) (c : Code) : Quiet Refs (fileSize p (.ref c)) := by
  unfold fileSize
  simp only [EcArg.clear, Prog.bind_eq]
  refine (q_getFileStatus ..).bind ?_
  rintro ⟨⟨_, _⟩, _⟩ ⟨_, rfl⟩
  dsimp only
  split
  · exact q_report ..
  exact (q_useStat _).bind fun _ _ => q_ok _ _

theorem q_hardLinkCount (p : Path) (c : Code) : Quiet Refs (hardLinkCount p (.ref c)) := by
  unfold hardLinkCount
  simp only [EcArg.clear, Prog.bind_eq]
  refine (q_getFileStatus ..).bind ?_
  rintro ⟨⟨_, _⟩, _⟩ ⟨_, rfl⟩
  dsimp only
  split
  · exact q_report ..
  exact (q_useStat _).bind fun _ _ => q_ok _ _

theorem q_lastWriteTime (p : Path) (c : Code) : Quiet Refs (lastWriteTime p (.ref c)) := by
  unfold lastWriteTime
  simp only [EcArg.clear, Prog.bind_eq]
  refine (q_getFileStatus ..).bind ?_
  rintro ⟨⟨_, _⟩, _⟩ ⟨_, rfl⟩
  dsimp only
  split
  · exact q_report ..
  exact (q_useStat _).bind fun _ _ => q_extract ..

theorem q_setLastWriteTime (p : Path) (t : Int) (c : Code) : Quiet Refs (setLastWriteTime p t (.ref c)) := by
  unfold setLastWriteTime
  dsimp only [EcArg.clear]
  quiet

theorem q_chmodAt (p : Path) (m : Perms) (b : Bool) (c : Code) : Quiet Refs (chmodAt p m b (.ref c)) := by
  unfold chmodAt
  quiet

theorem q_permissions (p : Path) (m : Perms) (o : PermOptions) (c : Code) :
    Quiet Refs (permissions p m o (.ref c)) := by
  unfold permissions
  simp only [EcArg.clear, Prog.bind_eq]
  split
  · exact .stop _ rfl
  split
  · refine Quiet.bind (P := Refs) ?_ ?_
    · unfold permStatus
      split
      · exact q_status ..
      · exact q_symlinkStatus ..
    · rintro ⟨_, _⟩ ⟨_, rfl⟩
      dsimp only
      split
      · exact q_report ..
      split
      · exact .stop _ rfl
      exact q_chmodAt ..
  · exact q_chmodAt ..

theorem q_remove (p : Path) (c : Code) : Quiet Refs (remove p (.ref c)) := by
  unfold remove
  simp only [EcArg.clear, Prog.bind_eq]
  quiet

theorem q_rename (a b : Path) (c : Code) : Quiet Refs (rename a b (.ref c)) := by
  unfold rename
  dsimp only [EcArg.clear]
  quiet

theorem q_resizeFile (p : Path) (z : BitVec 64) (c : Code) : Quiet Refs (resizeFile p z (.ref c)) := by
  unfold resizeFile
  dsimp only [EcArg.clear]
  quiet

theorem q_space (p : Path) (c : Code) : Quiet Refs (space p (.ref c)) := by
  unfold space
  simp only [EcArg.clear, Prog.bind_eq]
  quiet

/-! `directory_entry` -/

theorem q_updateBasic (f : Bool) (e : Entry) (c : Code) : Quiet Refs (updateBasic f e (.ref c)) := by
  unfold updateBasic
  simp only [EcArg.clear, Prog.bind_eq]
  refine (q_getFileStatus ..).bind ?_
  rintro ⟨⟨_, _⟩, _⟩ ⟨_, rfl⟩
  dsimp only
  split
  · quiet
  refine Quiet.bind (P := fun _ => True) ?_ fun _ _ => ?_
  · split
    · split
      · exact (q_useStat _).bind fun _ _ => .ret _ trivial
      · exact .ret _ trivial
    · exact .ret _ trivial
  refine Quiet.bind (P := fun _ => True) ?_ fun _ _ => ?_
  · split
    · exact (q_useStat _).bind fun _ _ => .ret _ trivial
    · exact .ret _ trivial
  refine Quiet.bind (P := fun _ => True) ?_ fun _ _ => q_ok _ _
  split
  · exact (q_useStat _).bind fun _ _ => (q_extract ..).bind fun _ _ => .ret _ trivial
  · exact .ret _ trivial

theorem q_updateExtra (f : Bool) (e : Entry) (c : Code) : Quiet Refs (updateExtra f e (.ref c)) := by
  unfold updateExtra
  simp only [EcArg.clear, Prog.bind_eq]
  split
  · exact .stop _ rfl
  split
  · refine (q_updateBasic ..).bind ?_
    rintro ⟨_, _⟩ ⟨_, rfl⟩
    exact q_ok _ _
  · exact q_ok _ _

theorem q_updatePerms (f : Bool) (e : Entry) (c : Code) : Quiet Refs (updatePerms f e (.ref c)) := by
  unfold updatePerms
  simp only [EcArg.clear, Prog.bind_eq]
  split
  · exact .stop _ rfl
  split
  · refine (q_updateBasic ..).bind ?_
    rintro ⟨_, _⟩ ⟨_, rfl⟩
    exact q_ok _ _
  · exact q_ok _ _

theorem q_handleError (msg : Str) (e : Entry) (d : Code) (b : Bool) (c : Code) :
    Quiet Refs (handleError msg e d b (.ref c)) := .ret _ ⟨d, rfl⟩

theorem q_refresh (e : Entry) (c : Code) : Quiet Refs (refresh e (.ref c)) := by
  refine (q_updateBasic ..).bind ?_
  rintro ⟨_, _⟩ ⟨_, rfl⟩
  refine (q_handleError ..).bind ?_
  rintro ⟨_, _⟩ ⟨_, rfl⟩
  exact q_ok _ _

theorem q_getSymLinkFileType (e : Entry) (c : Code) : Quiet Refs (getSymLinkFileType e (.ref c)) := by
  unfold getSymLinkFileType
  simp only [EcArg.clear, Prog.bind_eq]
  refine Quiet.bind (P := fun x : Bool × Entry × EcArg => ∃ d, x.2.2 = .ref d) ?_ ?_
  · split
    · refine (q_updateBasic ..).bind ?_
      rintro ⟨_, _⟩ ⟨d, rfl⟩
      exact .ret _ ⟨d, rfl⟩
    · exact .ret _ ⟨_, rfl⟩
  · rintro ⟨_, _, _⟩ ⟨_, rfl⟩
    dsimp only
    split
    · exact q_ok _ _
    split
    · exact q_ok _ _
    refine Quiet.bind (P := fun x : EcArg => ∃ d, x = .ref d) ?_ ?_
    · split
      · refine (q_handleError ..).bind ?_
        rintro ⟨_, _⟩ ⟨d, rfl⟩
        exact .ret _ ⟨d, rfl⟩
      · exact .ret _ ⟨_, rfl⟩
    · rintro _ ⟨_, rfl⟩
      exact q_ok _ _

theorem q_getFileType (e : Entry) (c : Code) : Quiet Refs (getFileType e (.ref c)) := by
  unfold getFileType
  simp only [EcArg.clear, Prog.bind_eq]
  split
  · refine (q_updateBasic ..).bind ?_
    rintro ⟨_, _⟩ ⟨_, rfl⟩
    dsimp only
    rw [if_pos (by intro h; cases h)]
    exact q_ok _ _
  · exact q_ok _ _

theorem q_getSize (e : Entry) (c : Code) : Quiet Refs (getSize e (.ref c)) := by
  unfold getSize
  simp only [EcArg.clear, Prog.bind_eq]
  split
  · refine (q_updateBasic ..).bind ?_
    rintro ⟨_, _⟩ ⟨_, rfl⟩
    dsimp only
    split
    · quiet
    · refine (q_updateExtra ..).bind ?_
      rintro ⟨_, _⟩ ⟨_, rfl⟩
      exact q_ok _ _
  · refine (q_updateExtra ..).bind ?_
    rintro ⟨_, _⟩ ⟨_, rfl⟩
    exact q_ok _ _
  · split
    · exact (q_updateExtra ..).refs fun _ _ => q_ok _ _
    · exact q_ok _ _
  · exact q_ok _ _

theorem q_basicExtra (f g : Bool) (e : Entry) (c : Code) :
    Quiet Refs ((updateBasic f e (.ref c)).bind fun x => updateExtra g x.1 x.2) := by
  refine (q_updateBasic ..).bind ?_
  rintro ⟨_, _⟩ ⟨_, rfl⟩
  exact q_updateExtra ..

theorem q_extraPerms (f g : Bool) (e : Entry) (c : Code) :
    Quiet Refs ((updateExtra f e (.ref c)).bind fun x => updatePerms g x.1 x.2) := by
  refine (q_updateExtra ..).bind ?_
  rintro ⟨_, _⟩ ⟨_, rfl⟩
  exact q_updatePerms ..

theorem q_getHardLinkCount (e : Entry) (c : Code) : Quiet Refs (getHardLinkCount e (.ref c)) := by
  unfold getHardLinkCount
  simp only [EcArg.clear, Prog.bind_eq]
  split
  · exact (q_basicExtra ..).refs fun _ _ => q_ok _ _
  · exact (q_updateExtra ..).refs fun _ _ => q_ok _ _
  · exact q_ok _ _

theorem q_getLastWriteTime (e : Entry) (c : Code) : Quiet Refs (getLastWriteTime e (.ref c)) := by
  unfold getLastWriteTime
  simp only [EcArg.clear, Prog.bind_eq]
  split
  · refine (q_basicExtra ..).refs fun _ _ => ?_
    quiet
  · refine (q_updateExtra ..).refs fun _ _ => ?_
    quiet
  · split
    · refine (q_updateExtra ..).refs fun _ _ => ?_
      quiet
    · rw [Prog.ret_bind]
      quiet
  · rw [Prog.ret_bind]
    quiet

theorem q_getStatus (e : Entry) (c : Code) : Quiet Refs (getStatus e (.ref c)) := by
  unfold getStatus
  simp only [EcArg.clear, Prog.bind_eq]
  split
  · refine Quiet.refs ?_ fun _ _ => q_ok _ _
    exact (q_updateBasic ..).refs fun _ _ => q_extraPerms ..
  · exact (q_extraPerms ..).refs fun _ _ => q_ok _ _
  · exact (q_updatePerms ..).refs fun _ _ => q_ok _ _
  · split
    · exact (q_updatePerms ..).refs fun _ _ => q_ok _ _
    · exact q_ok _ _

theorem q_getSymLinkStatus (e : Entry) (c : Code) : Quiet Refs (getSymLinkStatus e (.ref c)) := by
  unfold getSymLinkStatus
  simp only [EcArg.clear, Prog.bind_eq]
  split
  · refine Quiet.refs ?_ fun _ _ => q_ok _ _
    exact (q_updateBasic ..).refs fun _ _ => q_extraPerms ..
  · exact (q_extraPerms ..).refs fun _ _ => q_ok _ _
  · exact (q_updatePerms ..).refs fun _ _ => q_ok _ _
  · exact q_ok _ _

theorem q_isType (f : FStatus → Bool) (e : Entry) (c : Code) : Quiet Refs (e.isType f (.ref c)) :=
  (q_getFileType e c).refs fun _ _ => q_ok _ _

theorem q_existsE (e : Entry) (c : Code) : Quiet Refs (e.existsE (.ref c)) :=
  (q_getFileType e c).refs fun _ _ => q_ok _ _

theorem q_isSymlinkE (e : Entry) (c : Code) : Quiet Refs (e.isSymlinkE (.ref c)) :=
  (q_getSymLinkFileType e c).refs fun _ _ => q_ok _ _

theorem q_ask (a : Ask) (e : Entry) (c : Code) : Quiet Refs (a.entry e (.ref c)) := by
  cases a
  case exists' => exact (q_existsE e c).refs fun _ _ => q_ok _ _
  case is g => exact (q_isType _ e c).refs fun _ _ => q_ok _ _
  case isSymlink => exact (q_isSymlinkE e c).refs fun _ _ => q_ok _ _
  case fileSize => exact (q_getSize e c).refs fun _ _ => q_ok _ _
  case hardLinkCount => exact (q_getHardLinkCount e c).refs fun _ _ => q_ok _ _
  case lastWriteTime => exact (q_getLastWriteTime e c).refs fun _ _ => q_ok _ _
  case status => exact (q_getStatus e c).refs fun _ _ => q_ok _ _
  case symlinkStatus => exact (q_getSymLinkStatus e c).refs fun _ _ => q_ok _ _

/-- **C109**, POSIX: no exception leaves a function declared `noexcept`, whatever it is called with (any entry, with
any cache, included), whatever the `error_code` held and whatever the system answers. -/
theorem c109_posix (op : Noex) (c : Code) (t : List Event) (s : Stop)
    (h : Exec (op.posix (.ref c)) t (.error s)) : escapes s = false := by
  refine Quiet.exec (Q := fun _ => True) ?_ h
  cases op
  case setCurrentPath p => exact (q_setCurrentPath ..).drop
  case copySymlink a b => exact (q_copySymlink ..).drop
  case createDirectory p => exact (q_createDirectory ..).drop
  case createDirectoryLike p q => exact (q_createDirectoryLike ..).drop
  case createDirectorySymlink a b => exact (q_createSymlinkAs ..).drop
  case createHardLink a b => exact (q_createHardLink ..).drop
  case createSymlink a b => exact (q_createSymlinkAs ..).drop
  case exists' p => exact (q_existsP ..).drop
  case equivalent a b => exact (q_equivalent ..).drop
  case fileSize p => exact (q_fileSize ..).drop
  case hardLinkCount p => exact (q_hardLinkCount ..).drop
  case is f p => exact (q_isTypeP ..).drop
  case isSymlink p => exact (q_isSymlinkP ..).drop
  case lastWriteTime p => exact (q_lastWriteTime ..).drop
  case setLastWriteTime p t => exact (q_setLastWriteTime ..).drop
  case permissions p m => exact (q_permissions ..).drop
  case remove p => exact (q_remove ..).drop
  case rename a b => exact (q_rename ..).drop
  case resizeFile p z => exact (q_resizeFile ..).drop
  case space p => exact (q_space ..).drop
  case status p => exact (q_status ..).drop
  case symlinkStatus p => exact (q_symlinkStatus ..).drop
  case refresh e => exact (q_refresh ..).drop
  case ask a e => exact (q_ask ..).drop

/-! ## Windows -/

theorem qw_close (h : Nat) : Quiet (fun _ => True) (Win.closeHandle h) := .call _ _ fun _ => .ret _ trivial

theorem qw_withFile {Q : α → Prop} {p : Path} {o : WinOpen} {f : Errno → Prog α} {b : Nat → Prog α}
    (hf : ∀ e, Quiet Q (f e)) (hb : ∀ h, Quiet Q (b h)) : Quiet Q (Win.withFile p o f b) := by
  refine .call _ _ fun r => ?_
  cases r with
  | error e => exact hf e
  | ok h => exact (hb h).finally' (qw_close h)

theorem qw_captureErrno : Quiet (fun _ => True) Win.captureErrno := by
  refine .call _ _ fun r => ?_
  cases r with
  | none => exact .stop _ rfl
  | some e => exact .ret _ trivial

theorem qw_statusFailure (e : Errno) (c : Code) : Quiet Refs (.ret (Win.processStatusFailure e (.ref c))) := by
  unfold Win.processStatusFailure
  repeat' split
  all_goals exact q_ok _ _

theorem qw_isReparse (p : Path) (c : Code) : Quiet Refs (Win.isReparsePointSymlink p (.ref c)) := by
  refine qw_withFile (fun e => q_report ..) fun h => ?_
  quiet

theorem qw_targetAttrs (p : Path) (a : Mask) : Quiet (fun _ => True) (Win.targetAttrs p a) := by
  unfold Win.targetAttrs
  split
  · refine qw_withFile (fun e => .ret _ trivial) fun h => .call _ _ fun r => ?_
    cases r <;> exact .ret _ trivial
  · exact .ret _ trivial

theorem qw_status (p : Path) (c : Code) : Quiet Refs (Win.status p (.ref c)) := by
  unfold Win.status
  dsimp only [EcArg.clear]
  refine .call _ _ fun r => ?_
  cases r with
  | error e => exact qw_statusFailure ..
  | ok a =>
    refine (qw_targetAttrs ..).bind fun r _ => ?_
    cases r with
    | error e => exact qw_statusFailure ..
    | ok a =>
      refine .call _ _ fun r => ?_
      cases r with
      | error e => exact qw_statusFailure ..
      | ok a => exact q_ok _ _

theorem qw_symlinkStatus (p : Path) (c : Code) : Quiet Refs (Win.symlinkStatus p (.ref c)) := by
  unfold Win.symlinkStatus
  dsimp only [EcArg.clear]
  refine .call _ _ fun r => ?_
  cases r with
  | error e => exact qw_statusFailure ..
  | ok a =>
    refine .call _ _ fun r => ?_
    cases r with
    | error e => exact qw_statusFailure ..
    | ok m =>
      dsimp only
      split
      · exact (qw_isReparse ..).refs fun _ _ => q_ok _ _
      · exact q_ok _ _

theorem qw_existsP (p : Path) (c : Code) : Quiet Refs (Win.existsP p (.ref c)) := by
  refine (qw_status ..).refs fun _ _ => ?_
  dsimp only [EcArg.clear]
  split <;> exact q_ok _ _

theorem qw_isDirectoryP (p : Path) (c : Code) : Quiet Refs (Win.isDirectoryP p (.ref c)) :=
  (qw_status ..).refs fun _ _ => q_ok _ _

theorem qw_isSymlinkP (p : Path) (c : Code) : Quiet Refs (Win.isSymlinkP p (.ref c)) :=
  (qw_symlinkStatus ..).refs fun _ _ => q_ok _ _

theorem qw_readSymlink (p : Path) (c : Code) : Quiet Refs (Win.readSymlink p (.ref c)) := by
  refine qw_withFile (fun e => q_report ..) fun h => .call _ _ fun r => ?_
  cases r with
  | error e => exact q_report ..
  | ok ws =>
    refine Quiet.bind (q_ofRes (Q := fun _ => True) ?_ fun _ _ => trivial) fun r _ => q_ok _ _
    intro f h
    unfold Win.printName at h
    dsimp only at h
    split at h
    · cases h
    · cases h; rfl

theorem qw_setCurrentPath (p : Path) (c : Code) : Quiet Refs (Win.setCurrentPath p (.ref c)) := by
  unfold Win.setCurrentPath
  dsimp only [EcArg.clear]
  quiet

theorem qw_createDirectory (p : Path) (c : Code) : Quiet Refs (Win.createDirectory p (.ref c)) := by
  unfold Win.createDirectory
  dsimp only [EcArg.clear]
  quiet

theorem qw_createDirectoryLike (p q : Path) (c : Code) : Quiet Refs (Win.createDirectoryLike p q (.ref c)) := by
  unfold Win.createDirectoryLike
  dsimp only [EcArg.clear]
  quiet

theorem qw_createSymlinkAs (fn : Str) (d : Bool) (a b : Path) (c : Code) :
    Quiet Refs (Win.createSymlinkAs fn d a b (.ref c)) := by
  unfold Win.createSymlinkAs
  dsimp only [EcArg.clear]
  quiet

theorem qw_createHardLink (a b : Path) (c : Code) : Quiet Refs (Win.createHardLink a b (.ref c)) := by
  unfold Win.createHardLink
  dsimp only [EcArg.clear]
  quiet

theorem qw_copySymlink (a b : Path) (c : Code) : Quiet Refs (Win.copySymlink a b (.ref c)) := by
  unfold Win.copySymlink
  dsimp only [EcArg.clear]
  refine (qw_readSymlink ..).refs fun _ _ => ?_
  dsimp only
  split
  · exact q_report ..
  refine (qw_isDirectoryP ..).refs fun _ _ => ?_
  dsimp only
  split
  · exact q_report ..
  split
  · exact qw_createSymlinkAs ..
  · exact qw_createSymlinkAs ..

theorem qw_equivalent (a b : Path) (c : Code) : Quiet Refs (Win.equivalent a b (.ref c)) := by
  refine qw_withFile (fun e => q_report ..) fun h => qw_withFile (fun e => q_report ..) fun h' => ?_
  quiet

theorem qw_fileSize (p : Path) (c : Code) : Quiet Refs (Win.fileSize p (.ref c)) := by
  unfold Win.fileSize
  dsimp only [EcArg.clear]
  quiet

theorem qw_hardLinkCount (p : Path) (c : Code) : Quiet Refs (Win.hardLinkCount p (.ref c)) := by
  refine qw_withFile (fun e => q_report ..) fun h => ?_
  quiet

theorem qw_fromTime (k : SysClock) (ft : FileTime) : Quiet (fun _ => True) (Prog.ofRes (fromWindowsFileTime k ft)) :=
  q_ofRes (fun f h => i64_ub f h) fun _ _ => trivial

theorem qw_lastWriteTime (k : SysClock) (p : Path) (c : Code) : Quiet Refs (Win.lastWriteTime k p (.ref c)) := by
  refine qw_withFile (fun e => q_report ..) fun h => .call _ _ fun r => ?_
  cases r with
  | error e => exact q_report ..
  | ok ft => exact (qw_fromTime ..).bind fun _ _ => q_ok _ _

theorem qw_setLastWriteTime (k : SysClock) (p : Path) (t : Int) (c : Code) :
    Quiet Refs (Win.setLastWriteTime k p t (.ref c)) := by
  refine qw_withFile (fun e => q_report ..) fun h => ?_
  refine Quiet.bind (q_ofRes (Q := fun _ => True) ?_ fun _ _ => trivial) fun x _ => ?_
  · intro f h
    unfold toWindowsFileTime at h
    split at h
    · cases h
    · exact res_bind_ub i64_ub (fun _ => res_bind_ub i64_ub fun _ _ h => by cases h) f h
  · quiet

theorem qw_putPerms (p : Path) (m : Perms) (c : Code) : Quiet Refs (Win.putPerms p m (.ref c)) := by
  unfold Win.putPerms
  quiet

theorem qw_permissions (p : Path) (m : Perms) (o : PermOptions) (c : Code) :
    Quiet Refs (Win.permissions p m o (.ref c)) := by
  unfold Win.permissions
  dsimp only [EcArg.clear]
  split
  · exact .stop _ rfl
  split
  · refine Quiet.refs ?_ fun _ _ => ?_
    · split
      · exact qw_status ..
      · exact qw_symlinkStatus ..
    · dsimp only
      split
      · exact q_report ..
      split
      · exact .stop _ rfl
      exact qw_putPerms ..
  · exact qw_putPerms ..

theorem qw_remove (p : Path) (c : Code) : Quiet Refs (Win.remove p (.ref c)) := by
  unfold Win.remove
  dsimp only [EcArg.clear]
  quiet

theorem qw_rename (a b : Path) (c : Code) : Quiet Refs (Win.rename a b (.ref c)) := by
  refine .call _ _ fun r => ?_
  cases r with
  | ok _ => exact q_ok _ _
  | error e => exact qw_captureErrno.bind fun _ _ => q_report ..

theorem qw_resizeFile (p : Path) (z : BitVec 64) (c : Code) : Quiet Refs (Win.resizeFile p z (.ref c)) := by
  refine qw_withFile (fun e => q_report ..) fun h => ?_
  quiet

/-! `directory_entry` -/

theorem qw_basicReparse (e : Entry) (a : Mask) : Quiet (fun _ => True) (Win.basicReparse e a) := by
  unfold Win.basicReparse
  split
  · refine (qw_isReparse ..).refs fun _ _ => ?_
    dsimp only
    split <;> exact .ret _ trivial
  · exact .ret _ trivial

theorem qw_basicOpen (p : Path) (a : Mask) (k : Cache) : Quiet (fun _ => True) (Win.basicOpen p a k) := by
  unfold Win.basicOpen
  dsimp only
  refine qw_withFile (fun e => .ret _ trivial) fun h => .call _ _ fun r => ?_
  cases r with
  | error e => exact .ret _ trivial
  | ok i =>
    dsimp only
    split
    · exact .ret _ trivial
    split
    · exact .ret _ trivial
    refine .call _ _ fun t => ?_
    split
    · exact .ret _ trivial
    split
    · exact .ret _ trivial
    exact qw_captureErrno.bind fun _ _ => .ret _ trivial

theorem qw_updateBasic (f : Bool) (e : Entry) (c : Code) : Quiet Refs (Win.updateBasic f e (.ref c)) := by
  unfold Win.updateBasic
  dsimp only [EcArg.clear]
  refine .call _ _ fun r => ?_
  cases r with
  | error m => exact (q_report ..).refs fun _ _ => q_ok _ _
  | ok a =>
    refine (qw_basicReparse ..).bind fun x _ => ?_
    split
    · exact (q_report ..).refs fun _ _ => q_ok _ _
    refine Quiet.bind (P := fun _ => True) ?_ fun y _ => ?_
    · repeat' (first
        | exact qw_basicOpen ..
        | exact .ret _ trivial
        | split)
    · split
      · exact (q_report ..).refs fun _ _ => q_ok _ _
      · exact q_ok _ _

theorem qw_extraLink (k : SysClock) (p : Path) (h : Handler) (x : Cache) (c : Code) :
    Quiet Refs (Win.extraLink k p h x (.ref c)) := by
  unfold Win.extraLink
  refine qw_withFile (fun e => (q_report ..).refs fun _ _ => q_ok _ _) fun fd => .call _ _ fun r => ?_
  cases r with
  | error m => exact (q_report ..).refs fun _ _ => q_ok _ _
  | ok i =>
    dsimp only
    split
    · exact (q_reportMsg ..).refs fun _ _ => q_ok _ _
    refine .call _ _ fun r => ?_
    cases r with
    | error m => exact (q_report ..).refs fun _ _ => q_ok _ _
    | ok ft => exact (qw_fromTime ..).bind fun _ _ => q_ok _ _

theorem qw_updateExtra (k : SysClock) (e : Entry) (c : Code) : Quiet Refs (Win.updateExtra k e (.ref c)) := by
  unfold Win.updateExtra
  dsimp only [EcArg.clear]
  split
  · exact .stop _ rfl
  refine Quiet.bind (P := fun x : Cache × Bool × EcArg => ∃ d, x.2.2 = .ref d) ?_ ?_
  · refine qw_withFile (fun e => (q_report ..).refs fun _ d => .ret _ ⟨d, rfl⟩) fun fd => .call _ _ fun r => ?_
    cases r with
    | error m => exact (q_report ..).refs fun _ d => .ret _ ⟨d, rfl⟩
    | ok i => exact .ret _ ⟨_, rfl⟩
  · rintro ⟨_, _, _⟩ ⟨_, rfl⟩
    dsimp only
    split
    · exact q_ok _ _
    split
    · exact (qw_extraLink ..).refs fun _ _ => q_ok _ _
    · exact q_ok _ _

theorem qw_handlePerms (p : Path) (o : WinOpen) : Quiet (fun _ => True) (Win.handlePerms p o) := by
  refine qw_withFile (fun e => .ret _ trivial) fun fd => .call _ _ fun r => ?_
  cases r with
  | error m => exact .ret _ trivial
  | ok a =>
    refine .call _ _ fun r => ?_
    cases r <;> exact .ret _ trivial

theorem qw_updatePerms (f : Bool) (e : Entry) (c : Code) : Quiet Refs (Win.updatePerms f e (.ref c)) := by
  unfold Win.updatePerms
  dsimp only [EcArg.clear]
  split
  · exact .stop _ rfl
  repeat' (first
    | exact q_ok _ _
    | exact (q_report ..).refs fun _ _ => q_ok _ _
    | refine (qw_handlePerms ..).bind fun _ _ => ?_
    | split)

theorem qw_refreshImpl (k : SysClock) (e : Entry) : Quiet (fun _ => True) (Win.refreshImpl k e) := by
  refine (qw_updateBasic ..).refs fun _ _ => ?_
  dsimp only
  split
  · exact .ret _ trivial
  refine (qw_updateExtra ..).refs fun _ _ => ?_
  dsimp only
  split
  · exact .ret _ trivial
  exact (qw_updatePerms ..).refs fun _ _ => .ret _ trivial

theorem qw_refresh (k : SysClock) (e : Entry) (c : Code) : Quiet Refs (Win.refresh k e (.ref c)) :=
  (qw_refreshImpl ..).bind fun _ _ => (q_handleError ..).refs fun _ _ => q_ok _ _

theorem qw_getSymLinkFileType (e : Entry) (c : Code) : Quiet Refs (Win.getSymLinkFileType e (.ref c)) := by
  unfold Win.getSymLinkFileType
  dsimp only [EcArg.clear]
  refine Quiet.bind (P := fun x : Bool × Entry × EcArg => ∃ d, x.2.2 = .ref d) ?_ ?_
  · split
    · exact (qw_updateBasic ..).refs fun _ d => .ret _ ⟨d, rfl⟩
    · exact .ret _ ⟨_, rfl⟩
  · rintro ⟨_, _, _⟩ ⟨_, rfl⟩
    dsimp only
    split
    · exact q_ok _ _
    split
    · exact q_ok _ _
    split
    · exact (q_handleError ..).refs fun _ _ => q_ok _ _
    · exact q_ok _ _

theorem qw_getFileType (e : Entry) (c : Code) : Quiet Refs (Win.getFileType e (.ref c)) := by
  unfold Win.getFileType
  dsimp only [EcArg.clear]
  refine Quiet.refs ?_ fun _ _ => ?_
  · split
    · exact qw_updateBasic ..
    · exact q_ok _ _
  · dsimp only
    split
    · exact q_ok _ _
    split
    · exact (q_handleError ..).refs fun _ _ => q_ok _ _
    · exact q_ok _ _

theorem qw_getSize (k : SysClock) (e : Entry) (c : Code) : Quiet Refs (Win.getSize k e (.ref c)) := by
  unfold Win.getSize
  dsimp only [EcArg.clear]
  split
  · refine (qw_updateBasic ..).refs fun _ _ => ?_
    dsimp only
    split
    · exact (q_reportMsg ..).refs fun _ _ => q_ok _ _
    · exact (qw_updateExtra ..).refs fun _ _ => q_ok _ _
  · exact (qw_updateExtra ..).refs fun _ _ => q_ok _ _
  · split
    · exact (qw_updateExtra ..).refs fun _ _ => q_ok _ _
    · exact q_ok _ _
  · exact q_ok _ _

theorem qw_getHardLinkCount (k : SysClock) (e : Entry) (c : Code) : Quiet Refs (Win.getHardLinkCount k e (.ref c)) := by
  unfold Win.getHardLinkCount
  dsimp only [EcArg.clear]
  split
  · exact (qw_updateBasic ..).refs fun _ _ => (qw_updateExtra ..).refs fun _ _ => q_ok _ _
  · exact (qw_updateExtra ..).refs fun _ _ => q_ok _ _
  · exact q_ok _ _

theorem qw_getLastWriteTime (k : SysClock) (e : Entry) (c : Code) :
    Quiet Refs (Win.getLastWriteTime k e (.ref c)) := by
  unfold Win.getLastWriteTime
  dsimp only [EcArg.clear]
  refine Quiet.refs ?_ fun _ _ => ?_
  · split
    · exact (qw_updateBasic ..).refs fun _ _ => qw_updateExtra ..
    · exact qw_updateExtra ..
    · split
      · exact qw_updateExtra ..
      · exact q_ok _ _
    · exact q_ok _ _
  · dsimp only
    split
    · exact (q_report ..).refs fun _ _ => q_ok _ _
    · exact q_ok _ _

theorem qw_getStatus (k : SysClock) (e : Entry) (c : Code) : Quiet Refs (Win.getStatus k e (.ref c)) := by
  unfold Win.getStatus
  dsimp only [EcArg.clear]
  refine Quiet.refs ?_ fun _ _ => q_ok _ _
  split
  · exact (qw_updateBasic ..).refs fun _ _ => (qw_updateExtra ..).refs fun _ _ => qw_updatePerms ..
  · exact (qw_updateExtra ..).refs fun _ _ => qw_updatePerms ..
  · exact qw_updatePerms ..
  · split
    · exact qw_updatePerms ..
    · exact q_ok _ _

theorem qw_getSymLinkStatus (k : SysClock) (e : Entry) (c : Code) :
    Quiet Refs (Win.getSymLinkStatus k e (.ref c)) := by
  unfold Win.getSymLinkStatus
  dsimp only [EcArg.clear]
  refine Quiet.refs ?_ fun _ _ => q_ok _ _
  split
  · exact (qw_updateBasic ..).refs fun _ _ => (qw_updateExtra ..).refs fun _ _ => qw_updatePerms ..
  · exact (qw_updateExtra ..).refs fun _ _ => qw_updatePerms ..
  · exact qw_updatePerms ..
  · exact q_ok _ _

theorem qw_isType (f : FStatus → Bool) (e : Entry) (c : Code) : Quiet Refs (Win.Entry.isType f e (.ref c)) :=
  (qw_getFileType e c).refs fun _ _ => q_ok _ _

theorem qw_existsE (e : Entry) (c : Code) : Quiet Refs (Win.Entry.existsE e (.ref c)) :=
  (qw_getFileType e c).refs fun _ _ => q_ok _ _

theorem qw_isSymlinkE (e : Entry) (c : Code) : Quiet Refs (Win.Entry.isSymlinkE e (.ref c)) :=
  (qw_getSymLinkFileType e c).refs fun _ _ => q_ok _ _

/-- **C109**, Windows: the same for all of them but `space`. Missing: for `space` it is false (`c109_violated`). -/
theorem c109_windows_partial (k : SysClock) (op : Noex) (hop : op.isSpace = false) (c : Code) (t : List Event) (s : Stop)
    (h : Exec (op.windows k (.ref c)) t (.error s)) : escapes s = false := by
  refine Quiet.exec (Q := fun _ => True) ?_ h
  cases op
  case setCurrentPath p => exact (qw_setCurrentPath ..).drop
  case copySymlink a b => exact (qw_copySymlink ..).drop
  case createDirectory p => exact (qw_createDirectory ..).drop
  case createDirectoryLike p q => exact (qw_createDirectoryLike ..).drop
  case createDirectorySymlink a b => exact (qw_createSymlinkAs ..).drop
  case createHardLink a b => exact (qw_createHardLink ..).drop
  case createSymlink a b => exact (qw_createSymlinkAs ..).drop
  case exists' p => exact (qw_existsP ..).drop
  case equivalent a b => exact (qw_equivalent ..).drop
  case fileSize p => exact (qw_fileSize ..).drop
  case hardLinkCount p => exact (qw_hardLinkCount ..).drop
  case is f p => exact (qw_status ..).drop
  case isSymlink p => exact (qw_isSymlinkP ..).drop
  case lastWriteTime p => exact (qw_lastWriteTime ..).drop
  case setLastWriteTime p t => exact (qw_setLastWriteTime ..).drop
  case permissions p m => exact (qw_permissions ..).drop
  case remove p => exact (qw_remove ..).drop
  case rename a b => exact (qw_rename ..).drop
  case resizeFile p z => exact (qw_resizeFile ..).drop
  case space p => cases hop
  case status p => exact (qw_status ..).drop
  case symlinkStatus p => exact (qw_symlinkStatus ..).drop
  case refresh e => exact (qw_refresh ..).drop
  case ask a e =>
    cases a
    case exists' => exact (qw_existsE ..).drop
    case is g => exact (qw_isType ..).drop
    case isSymlink => exact (qw_isSymlinkE ..).drop
    case fileSize => exact (qw_getSize ..).drop
    case hardLinkCount => exact (qw_getHardLinkCount ..).drop
    case lastWriteTime => exact (qw_getLastWriteTime ..).drop
    case status => exact (qw_getStatus ..).drop
    case symlinkStatus => exact (qw_getSymLinkStatus ..).drop

/-- C109 is violated on Windows by `space(p, ec)`, declared `noexcept` (`fs_ops.h:495`): the exception of `absolute(p)`
leaves it if the working directory cannot be read. -/
theorem c109_violated (k : SysClock) : ∃ (p : Path) (t : List Event) (s : Stop),
    Exec ((Noex.space p).windows k (.ref none)) t (.error s) ∧ escapes s = true := by
  obtain ⟨p, t, x, h, _⟩ := c76_violated_space
  refine ⟨p, t, .thrown x, ?_, rfl⟩
  exact exec_bind.mpr (.inl ⟨_, h, rfl⟩)

/-- C109, `space` on Windows: that is the only way. If it throws `filesystem_error`, a call for the working directory
failed; with a path that has a root name and is absolute there is no such call. -/
theorem c109_space (k : SysClock) (p : Path) (c : Code) (t : List Event) (x : FsError)
    (h : Exec ((Noex.space p).windows k (.ref c)) t (.error (.thrown x))) :
    ∃ n e, (⟨.win (.getCwd n), (.error e : Except Errno (Option Str))⟩ : Event) ∈ t := by
  apply Classical.byContradiction
  intro hn
  refine NoThrow.exec (A := fun ev => ∀ n e, ev ≠ ⟨.win (.getCwd n), (.error e : Except Errno (Option Str))⟩) ?_
    (fun ev hm n e he => hn ⟨n, e, he ▸ hm⟩) h
  refine .bind ?_ fun _ => .ret _
  unfold Win.space Win.absolute Win.doAbsolute Win.currentPath
  refine .bind (.bind ?_ fun _ => .ret _) fun y => .bind (.ofRes _) fun d => .call _ _ fun r _ => ?_
  · refine .bind (.ofRes _) fun b => ?_
    split
    · exact .ret _
    refine .bind (.call _ _ fun n _ => .call _ _ fun r hr => ?_) fun z => ?_
    · cases r with
      | error e => exact absurd rfl (hr _ _)
      | ok o =>
        cases o with
        | none => exact .fault _
        | some s => exact .ret _
    · split
      · exact .ret _
      · exact .bind (.ofRes _) fun _ => .ret _
  · cases r with
    | error e => exact .ret _
    | ok v => exact .ret _

/-- **C109**, destructors, which are `noexcept` too: those of the iterators, on both systems, in any state. -/
theorem c109_destructors (it : DirIter) (ss : List Stream) (t : List Event) (s : Stop) :
    (Exec it.destroy t (.error s) → escapes s = false) ∧ (Exec (closeAll ss) t (.error s) → escapes s = false) ∧
    (Exec (Win.destroy it) t (.error s) → escapes s = false) ∧
    (Exec (Win.closeAll ss) t (.error s) → escapes s = false) := by
  have hp : ∀ s : Stream, Quiet (fun _ => True) s.close := by
    intro s
    unfold Stream.close
    split
    · exact .call _ _ fun _ => .ret _ trivial
    · exact .ret _ trivial
  have hw : ∀ s : Stream, Quiet (fun _ => True) (Win.Stream.close s) := by
    intro s
    unfold Win.Stream.close
    split
    · exact .call _ _ fun _ => .ret _ trivial
    · exact .ret _ trivial
  have hps : ∀ ss, Quiet (fun _ => True) (closeAll ss) := by
    intro ss
    induction ss with
    | nil => exact .ret _ trivial
    | cons s ss ih => exact ih.bind fun _ _ => (hp s).bind fun _ _ => .ret _ trivial
  have hws : ∀ ss, Quiet (fun _ => True) (Win.closeAll ss) := by
    intro ss
    induction ss with
    | nil => exact .ret _ trivial
    | cons s ss ih => exact ih.bind fun _ _ => (hw s).bind fun _ _ => .ret _ trivial
  refine ⟨fun h => Quiet.exec (Q := fun _ => True) ?_ h, (hps ss).exec, fun h => Quiet.exec (Q := fun _ => True) ?_ h,
    (hws ss).exec⟩
  · cases it with
    | none => exact .ret _ trivial
    | some s => exact (hp s).bind fun _ _ => .ret _ trivial
  · cases it with
    | none => exact .ret _ trivial
    | some s => exact (hw s).bind fun _ _ => .ret _ trivial

/-- Other abnormal ends do occur: an assertion fails in `hard_link_count` of an entry whose cache holds the basic
information only. -/
example : Exec ((Noex.ask .hardLinkCount ⟨.default, { Cache.reset with cacheType := .basic }⟩).posix (.ref none)) []
    (.error (.fault .assertFail)) := feed_exec (by decide +kernel)

/-- The throwing form of the same functions does end with an exception that escapes. -/
example : ∃ t s, Exec ((Noex.fileSize (mkPath .posix "f".toList)).posix .null) t (.error s) ∧ escapes s = true :=
  ⟨[⟨.stat "f".toList, (.error .ENOENT : Except Errno Stat)⟩], _, feed_exec (by rfl), rfl⟩

end
end Asap
