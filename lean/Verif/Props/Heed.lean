import Verif.Props.AllOrNone
import Verif.Ops.Variants

/-!
# C136: no failure of a system call is passed over

Whatever the operating system answers.
-/

namespace Asap
namespace Spec

/-- The call failed, and the failure is not an answer to what was asked: a file that is not there for `stat` and `remove`, a directory that is
there for `mkdir`. The failures of `close` and `closedir` are not counted, nor those of `sendfile` and `fcopyfile`, for which there is another way. -/
def Sys.trouble : (c : Sys) → c.Ret → Bool
  | .stat _, .error e | .lstat _, .error e => e ≠ .ENOENT && e ≠ .ENOTDIR
  | .mkdir _ _, .error e => e ≠ .EEXIST
  | .remove _, .error e => e ≠ .ENOENT
  | .rename _ _, .error _ | .truncate _ _, .error _ | .symlink _ _, .error _ | .link _ _, .error _ | .chdir _, .error _ | .fchmod _ _, .error _
  | .ftruncate _ _, .error _ | .fchmodat _ _ _, .error _ | .utimensat _ _ _, .error _ | .realpath _, .error _ | .readlink _ _, .error _
  | .getcwd _, .error _ | .openf _ _ _, .error _ | .read _ _, .error _ | .write _ _, .error _ | .statvfs _, .error _ | .opendir _, .error _
  | .readdir _, .error _ | .port (.utime _ _ _), .error _ | .port (.chmod _ _), .error _ => true
  | _, _ => false

/-- Some call failed. -/
def Trouble (t : List Event) : Prop := ∃ e ∈ t, Sys.trouble e.call e.ret = true

/-- The operation fails: it ends with an exception (or is aborted), or reports an error. -/
def Failed {α : Type} (o : Except Stop (α × EcArg)) : Prop := ∀ x, o = .ok x → x.2.isSet = true

/-- The operations for which this is proved. -/
def FsOp.heeds {α : Type} : FsOp α → Bool
  | .absolute _ | .canonical _ | .copyFile .. | .copySymlink .. | .createDirectory _ | .createDirectoryLike .. | .createSymlink ..
  | .createDirectorySymlink .. | .createHardLink .. | .currentPath | .setCurrentPath _ | .equivalent .. | .exists' _ | .fileSize _
  | .hardLinkCount _ | .lastWriteTime _ | .setLastWriteTime .. | .permissions .. | .readSymlink _ | .remove _ | .rename ..
  | .resizeFile .. | .space _ | .tempDirectoryPath | .isEmpty .. | .dirIterIncr .. => true
  | .dirIter _ _ o | .recIter _ _ o => !o.has .skipDenied
  | .recIterPop .. => true
  | .recIterIncr _ it => it.impl.all fun x => !x.2.has .skipDenied && !x.2.has .followSymlink
  | _ => false

end Spec
open Spec

section
variable {α β : Type} {B : α → Prop} {C : β → Prop}

/-- No call but any. -/
abbrev AnyCall : Sys → Prop := fun _ => True

/-- After a failure the program returns only values in `B`. -/
inductive Alert (B : α → Prop) : Prog α → Prop where
  | ret (a : α) : Alert B (.ret a)
  | stop (x : Stop) : Alert B (.stop x)
  | call (c : Sys) (k : c.Ret → Prog α) (h1 : ∀ r, Sys.trouble c r = true → Only AnyCall B (k r))
      (h2 : ∀ r, Sys.trouble c r = false → Alert B (k r)) : Alert B (.call c k)

theorem Alert.exec {p : Prog α} (h : Alert B p) : ∀ {t : List Event} {o : Except Stop α}, Exec p t o → Trouble t → ∀ a, o = .ok a → B a := by
  induction h with
  | ret a => intro t o hx ht; cases hx; obtain ⟨_, h, _⟩ := ht; cases h
  | stop x => intro t o hx ht; cases hx; obtain ⟨_, h, _⟩ := ht; cases h
  | call c k h1 h2 ih =>
    intro t o hx ht
    cases hx with
    | call _ _ r _ _ hx =>
      cases hr : Sys.trouble c r with
      | true => exact ((h1 r hr).exec hx).2
      | false =>
        obtain ⟨e, he, h⟩ := ht
        rcases List.mem_cons.1 he with rfl | he
        · rw [hr] at h; cases h
        · exact ih r hr hx ⟨e, he, h⟩

theorem Alert.bind {p : Prog β} {f : β → Prog α} (h : Alert C p) (h1 : ∀ b, C b → Only AnyCall B (f b)) (h2 : ∀ b, Alert B (f b)) :
    Alert B (p.bind f) := by
  induction h with
  | ret a => exact h2 a
  | stop x => exact .stop x
  | call c k g1 _ ih => exact .call c _ (fun r hr => (g1 r hr).bind h1) ih

theorem Alert.finally' {p : Prog α} {d : Prog Unit} (hd : Alert (fun _ => False) d) (ho : Only AnyCall (fun _ => True) d) (h : Alert B p) :
    Alert B (p.finally' d) := by
  induction h with
  | ret a => exact hd.bind (fun _ h => h.elim) fun _ => .ret _
  | stop x =>
    cases x with
    | thrown e => exact hd.bind (fun _ h => h.elim) fun _ => .stop _
    | fault f => exact .stop _
    | fuel => exact .stop _
  | call c k h1 _ ih => exact .call c _ (fun r hr => (h1 r hr).finally' ho) ih

theorem Alert.ofRes (r : Res α) : Alert B (Prog.ofRes r) := by cases r; exact .stop _; exact .ret _
theorem Alert.useStat {B : Stat → Prop} (s : Option Stat) : Alert B (Prog.useStat s) := by cases s; exact .stop _; exact .ret _

/-- An error is reported. -/
def IsError : α × EcArg → Prop := fun x => x.2.isSet = true

theorem Alert.report {B : α × EcArg → Prop} (h : Handler) (ec : EcArg) (c : Code) (d : α) : Alert B (h.report ec c d) := by
  cases ec
  · exact .stop _
  · exact .ret _
theorem Alert.reportMsg {B : α × EcArg → Prop} (h : Handler) (ec : EcArg) (c : Code) (m : Str) (d : α) : Alert B (h.reportMsg ec c m d) := by
  cases ec
  · exact .stop _
  · exact .ret _

theorem error_report {c : Code} (h : Handler) (ec : EcArg) (d : α) (hc : c.isSome = true) : Only AnyCall IsError (h.report ec c d) := by
  cases ec
  · exact .stop _
  · cases c with
    | none => cases hc
    | some e => exact .ret _ rfl
theorem error_reportMsg {c : Code} (h : Handler) (ec : EcArg) (m : Str) (d : α) (hc : c.isSome = true) :
    Only AnyCall IsError (h.reportMsg ec c m d) := by
  cases ec
  · exact .stop _
  · cases c with
    | none => cases hc
    | some e => exact .ret _ rfl
end

section
variable {α β : Type} {p q : Path} {ec : EcArg}

/-- A call after which nothing but its error is reported. -/
macro "asked" : tactic => `(tactic| (
  refine Alert.call _ _ (fun r hr => ?_) fun r hr => ?_
  · cases r with
    | error e => exact error_report _ _ _ rfl
    | ok _ => cases hr
  · cases r with
    | error e => exact Alert.report ..
    | ok _ => exact .ret _))

theorem alert_createSymlinkAs {fn : Str} : Alert IsError (createSymlinkAs fn p q ec) := by unfold createSymlinkAs; asked
theorem alert_createHardLink : Alert IsError (createHardLink p q ec) := by unfold createHardLink; asked
theorem alert_setCurrentPath : Alert IsError (setCurrentPath p ec) := by unfold setCurrentPath; asked
theorem alert_rename : Alert IsError (rename p q ec) := by unfold rename; asked
theorem alert_resizeFile {z : BitVec 64} : Alert IsError (resizeFile p z ec) := by unfold resizeFile; asked
theorem alert_chmodAt {m : Perms} {s : Bool} : Alert IsError (chmodAt p m s ec) := by unfold chmodAt; asked
theorem alert_setLastWriteTime {t : Int} : Alert IsError (setLastWriteTime p t ec) := by
  unfold setLastWriteTime
  dsimp only
  split
  · exact .reportMsg ..
  · asked

theorem alert_currentPath : Alert IsError (currentPath ec) := by
  refine .call _ _ (fun r hr => by cases hr) fun (r : Int) _ => ?_
  split
  · refine .call _ _ (fun r hr => ?_) fun r hr => ?_
    · cases r with
      | error e => exact error_reportMsg _ _ _ _ rfl
      | ok _ => cases hr
    · cases r with
      | error e => exact .reportMsg ..
      | ok _ => exact .ret _
  · exact .stop _

theorem alert_readSymlink : Alert IsError (readSymlink p ec) := by
  refine .call _ _ (fun r hr => by cases hr) fun (r : Int) _ => ?_
  split
  · refine .call _ _ (fun r hr => ?_) fun r hr => ?_
    · cases r with
      | error e => exact error_report _ _ _ rfl
      | ok _ => cases hr
    · cases r with
      | error e => exact .report ..
      | ok s =>
        dsimp only
        split
        · exact .ret _
        · exact .stop _
  · exact .stop _

theorem alert_copySymlink : Alert IsError (copySymlink p q ec) := by
  unfold copySymlink
  simp only [Prog.bind_eq]
  refine alert_readSymlink.bind (fun x (hx : x.2.isSet = true) => ?_) fun x => ?_
  · rw [if_pos hx]
    exact error_report _ _ _ (code_some hx)
  · split
    · exact .report ..
    · exact alert_createSymlinkAs

theorem alert_doAbsolute : Alert IsError (doAbsolute p ec) := by
  unfold doAbsolute
  simp only [Prog.bind_eq]
  refine Alert.bind (C := fun _ => False) (Alert.ofRes _) (fun _ h => h.elim) fun b => ?_
  split
  · exact .ret _
  · refine alert_currentPath.bind (fun x (hx : x.2.isSet = true) => ?_) fun x => ?_
    · rw [if_pos hx]
      exact .ret _ hx
    · split
      · exact .ret _
      · exact Alert.bind (C := fun _ => False) (Alert.ofRes _) (fun _ h => h.elim) fun _ => .ret _

theorem alert_absolute : Alert IsError (absolute p ec) := by
  unfold absolute
  simp only [Prog.bind_eq]
  exact alert_doAbsolute.bind (fun x hx => .ret _ hx) fun x => .ret _

theorem alert_canonical : Alert IsError (canonical p ec) := by
  unfold canonical
  simp only [Prog.bind_eq]
  refine alert_doAbsolute.bind (fun x (hx : x.2.isSet = true) => ?_) fun x => ?_
  · refine .call _ _ trivial fun r => ?_
    cases r with
    | error e => exact error_report _ _ _ rfl
    | ok s => exact .ret _ hx
  · refine .call _ _ (fun r hr => ?_) fun r hr => ?_
    · cases r with
      | error e => exact error_report _ _ _ rfl
      | ok _ => cases hr
    · cases r with
      | error e => exact .report ..
      | ok s => exact .ret _

/-- The status could not be determined: no type, and an error. -/
def Blind : FStatus × EcArg → Prop := fun x => x.1 = { type := .none } ∧ x.2.isSet = true

theorem blind_createFileStatus {e : Errno} (h : (decide (e ≠ .ENOENT) && decide (e ≠ .ENOTDIR)) = true) (st : Option Stat) :
    Only AnyCall Blind (createFileStatus (some e) p st ec) := by
  cases e
  case ENOENT => cases h
  case ENOTDIR => cases h
  all_goals
    cases ec
    · exact .stop _
    · exact .ret _ ⟨rfl, rfl⟩

theorem alert_createFileStatus {C : FStatus × EcArg → Prop} {m : Code} {st : Option Stat} : Alert C (createFileStatus m p st ec) := by
  unfold createFileStatus
  dsimp only
  split
  · exact .ret _
  · exact .ret _
  · simp only [Prog.bind_eq]
    exact Alert.bind (C := fun _ => False) (Alert.reportMsg ..) (fun _ h => h.elim) fun _ => .ret _
  · exact .ret _
  · exact .stop _

theorem alert_getFileStatus {st : Option Stat} : Alert (fun x => Blind (x.1.1, x.2)) (getFileStatus p st ec) := by
  refine .call _ _ (fun r hr => ?_) fun r hr => ?_
  · cases r with
    | error e => exact (blind_createFileStatus hr _).bind fun _ h => .ret _ h
    | ok _ => cases hr
  · cases r <;> exact Alert.bind (C := fun _ => False) alert_createFileStatus (fun _ h => h.elim) fun _ => .ret _

theorem alert_getLinkStatus {st : Option Stat} : Alert (fun x => Blind (x.1.1, x.2)) (getLinkStatus p st ec) := by
  refine .call _ _ (fun r hr => ?_) fun r hr => ?_
  · cases r with
    | error e => exact (blind_createFileStatus hr _).bind fun _ h => .ret _ h
    | ok _ => cases hr
  · cases r <;> exact Alert.bind (C := fun _ => False) alert_createFileStatus (fun _ h => h.elim) fun _ => .ret _

theorem alert_status : Alert Blind (status p ec) := alert_getFileStatus.bind (fun _ h => .ret _ h) fun _ => .ret _
theorem alert_symlinkStatus : Alert Blind (symlinkStatus p ec) := alert_getLinkStatus.bind (fun _ h => .ret _ h) fun _ => .ret _
theorem alert_existsP : Alert IsError (existsP p ec) := by
  refine alert_status.bind (fun x h => .ret _ ?_) fun _ => .ret _
  show (if x.1.known = true then x.2.clear else x.2).isSet = true
  rw [h.1]
  exact h.2


theorem Blind.known {s : FStatus} {e : EcArg} (h : Blind (s, e)) : s.known = false := by rw [show s = _ from h.1]; rfl
theorem Blind.gone {s : FStatus} {e : EcArg} (h : Blind (s, e)) : s.exists' = false := by rw [show s = _ from h.1]; rfl
theorem Blind.set {s : FStatus} {e : EcArg} (h : Blind (s, e)) : e.isSet = true := h.2

theorem Alert.mono {C D : α → Prop} {x : Prog α} (h : Alert C x) (hCD : ∀ a, C a → D a) : Alert D x := by
  induction h with
  | ret a => exact .ret a
  | stop y => exact .stop y
  | call c k h1 _ ih => exact .call c k (fun r hr => (h1 r hr).mono (fun _ h => h) hCD) ih

/-- A program without failing calls. -/
theorem Alert.then {C : α → Prop} {x : Prog β} {f : β → Prog α} (hx : Alert (fun _ => False) x) (h : ∀ b, Alert C (f b)) : Alert C (x.bind f) :=
  hx.bind (fun _ h => h.elim) h

theorem alert_createDirectory : Alert IsError (createDirectory p ec) := by
  refine .call _ _ (fun r hr => ?_) fun r hr => ?_
  · cases r with
    | ok _ => cases hr
    | error e =>
      have he : e ≠ .EEXIST := by simpa [Sys.trouble] using hr
      simp only [Prog.bind_eq]
      rw [if_neg he]
      exact (error_report _ _ _ rfl).bind fun _ h => .ret _ h
  · cases r with
    | ok _ => exact .ret _
    | error e =>
      simp only [Prog.bind_eq]
      split
      · exact .ret _
      · exact .then (.report ..) fun _ => .ret _

theorem alert_remove : Alert IsError (remove p ec) := by
  unfold remove
  dsimp only
  split
  · exact .ret _
  refine .call _ _ (fun r hr => ?_) fun r hr => ?_
  · cases r with
    | ok _ => cases hr
    | error e =>
      have he : e ≠ .ENOENT := by simpa [Sys.trouble] using hr
      simp only [Prog.bind_eq]
      rw [if_neg he]
      exact (error_report _ _ _ rfl).bind fun _ h => .ret _ h
  · cases r with
    | ok _ => exact .ret _
    | error e =>
      simp only [Prog.bind_eq]
      split
      · exact .ret _
      · exact .then (.report ..) fun _ => .ret _

theorem alert_createDirectoryLike : Alert IsError (createDirectoryLike p q ec) := by
  unfold createDirectoryLike
  simp only [Prog.bind_eq]
  refine alert_getFileStatus.bind (fun x hx => ?_) fun x => ?_
  · rw [if_pos (by rw [hx.known]; rfl)]
    exact error_report _ _ _ (code_some hx.set)
  split
  · exact .report ..
  split
  · exact .reportMsg ..
  refine .then (.useStat _) fun a => ?_
  refine .call _ _ (fun r hr => ?_) fun r hr => ?_
  · cases r with
    | ok _ => cases hr
    | error e =>
      have he : e ≠ .EEXIST := by simpa [Sys.trouble] using hr
      dsimp only
      rw [if_neg he]
      exact (error_report _ _ _ rfl).bind fun _ h => .ret _ h
  · cases r with
    | ok _ => exact .ret _
    | error e =>
      dsimp only
      split
      · exact .ret _
      · exact .then (.report ..) fun _ => .ret _

theorem alert_equivalent : Alert IsError (equivalent p q ec) := by
  unfold equivalent
  simp only [Prog.bind_eq]
  refine alert_getFileStatus.bind (fun x hx => ?_) fun x => ?_
  · rw [if_pos (by rw [hx.gone]; rfl)]
    exact error_report _ _ _ rfl
  split
  · exact .report ..
  refine alert_getFileStatus.bind (fun x hx => ?_) fun x => ?_
  · rw [if_pos (by rw [hx.gone]; rfl)]
    exact error_report _ _ _ rfl
  split
  · exact .report ..
  exact .then (.useStat _) fun a => .then (.useStat _) fun b => .ret _

theorem alert_fileSize : Alert IsError (fileSize p ec) := by
  unfold fileSize
  simp only [Prog.bind_eq]
  refine alert_getFileStatus.bind (fun x hx => ?_) fun x => ?_
  · rw [if_pos (by rw [hx.gone]; rfl), if_pos hx.set]
    exact error_report _ _ _ (code_some hx.set)
  split
  · exact .report ..
  exact .then (.useStat _) fun a => .ret _

theorem alert_hardLinkCount : Alert IsError (hardLinkCount p ec) := by
  unfold hardLinkCount
  simp only [Prog.bind_eq]
  refine alert_getFileStatus.bind (fun x hx => ?_) fun x => ?_
  · rw [if_pos hx.set]
    exact error_report _ _ _ (code_some hx.set)
  split
  · exact .report ..
  exact .then (.useStat _) fun a => .ret _

theorem alert_lastWriteTime : Alert IsError (lastWriteTime p ec) := by
  unfold lastWriteTime
  simp only [Prog.bind_eq]
  refine alert_getFileStatus.bind (fun x hx => ?_) fun x => ?_
  · rw [if_pos hx.set]
    exact error_report _ _ _ (code_some hx.set)
  split
  · exact .report ..
  refine .then (.useStat _) fun a => ?_
  unfold extractLastWriteTime
  dsimp only
  split
  · exact .then (.ofRes _) fun _ => .ret _
  · exact .report ..

theorem alert_permissions {m : Perms} {o : PermOptions} : Alert IsError (permissions p m o ec) := by
  unfold permissions
  simp only [Prog.bind_eq]
  split
  · exact .stop _
  split
  · refine Alert.bind (C := Blind) ?_ (fun x hx => ?_) fun x => ?_
    · unfold permStatus
      split
      · exact alert_status
      · exact alert_symlinkStatus
    · rw [if_pos hx.set]
      exact error_report _ _ _ (code_some hx.set)
    split
    · exact .report ..
    split
    · exact .stop _
    · exact alert_chmodAt
  · exact alert_chmodAt

theorem alert_space : Alert IsError (space p ec) := by
  refine .call _ _ (fun r hr => ?_) fun r hr => ?_
  · cases r with
    | ok _ => cases hr
    | error e =>
      simp only [Prog.bind_eq]
      exact (error_report _ _ _ rfl).bind fun _ h => .ret _ h
  · cases r with
    | ok _ => exact .ret _
    | error e =>
      simp only [Prog.bind_eq]
      exact .then (.report ..) fun _ => .ret _

theorem alert_firstEnv : ∀ l, Alert (fun _ => False) (firstEnv l)
  | [] => .ret _
  | v :: l => by
    refine .call _ _ (fun r hr => by cases hr) fun r _ => ?_
    cases r with
    | some s => exact .ret _
    | none => exact alert_firstEnv l

theorem alert_temp : Alert IsError (tempDirectoryPath ec) := by
  unfold tempDirectoryPath
  simp only [Prog.bind_eq]
  refine .then (alert_firstEnv _) fun s => ?_
  refine alert_status.bind (fun x hx => ?_) fun x => ?_
  · rw [if_pos (by rw [hx.known]; rfl)]
    exact error_reportMsg _ _ _ _ (code_some hx.set)
  split
  · exact .reportMsg ..
  split
  · exact .reportMsg ..
  · exact .ret _

/-! ## `copy_file` -/

theorem alert_sendLoop (out inp : Nat) : ∀ (n : Nat) (c : Int), Alert (fun _ => False) (sendLoop out inp n c)
  | 0, _ => .stop _
  | n + 1, c => by
    refine .call _ _ (fun r hr => by cases hr) fun r _ => ?_
    cases r with
    | error e => exact .ret _
    | ok k =>
      dsimp only
      split
      · exact alert_sendLoop out inp n _
      · exact .ret _

theorem alert_copyDefault (inp out : Nat) : ∀ n : Nat, Alert (fun c : Code => c ≠ none) (copyDefault inp out n)
  | 0 => .stop _
  | n + 1 => by
    refine .call _ _ (fun r hr => ?_) fun r hr => ?_
    · cases r with
      | error e => exact .ret _ nofun
      | ok _ => cases hr
    cases r with
    | error e => exact .ret _
    | ok data =>
      dsimp only
      split
      · exact .ret _
      refine .call _ _ (fun r hr => ?_) fun r hr => ?_
      · cases r with
        | error e => exact .ret _ nofun
        | ok _ => cases hr
      cases r with
      | error e => exact .ret _
      | ok _ => exact alert_copyDefault inp out n

theorem alert_doCopyFile (sf : Bool) (n inp out : Nat) (z : Int) : Alert (fun c : Code => c ≠ none) (doCopyFile sf n inp out z) := by
  unfold doCopyFile
  simp only [Prog.bind_eq]
  have hb : ∀ b : Bool, Alert (fun c : Code => c ≠ none) (if b = true then Prog.ret none else copyDefault inp out n) := by
    intro b
    split
    · exact .ret _
    · exact alert_copyDefault inp out n
  split
  · refine .then ?_ hb
    unfold copySendfile
    simp only [Prog.bind_eq]
    split
    · exact .ret _
    · exact .then (alert_sendLoop ..) fun _ => .ret _
  · exact hb false

theorem alert_refreshStatus : Alert (fun x => x.2 ≠ none) (refreshStatus p) := by
  refine .call _ _ (fun r hr => ?_) fun r hr => ?_
  · cases r with
    | error e =>
      refine (blind_createFileStatus hr _).bind fun x h => .ret _ ?_
      have := code_some h.2
      intro he
      rw [show x.2.code = none from he] at this
      cases this
    | ok _ => cases hr
  · cases r <;> exact .then alert_createFileStatus fun _ => .ret _

theorem alert_closeFd (d : Nat) : Alert (fun _ => False) (closeFd d) := .call _ _ (fun r hr => by cases hr) fun _ _ => .ret _
theorem any_closeFd (d : Nat) : Only AnyCall (fun _ => True) (closeFd d) := .call _ _ trivial fun _ => .ret _ trivial

theorem code_isSome {c : Code} (h : c ≠ none) : c.isSome = true := by cases c; exact absurd rfl h; rfl

theorem alert_copyIntoWith {data : Nat → Nat → Int → Prog Code} (hdata : ∀ i o z, Alert (fun c : Code => c ≠ none) (data i o z)) {h : Handler} {inp : Nat} {fst : Stat} {tst : Option Stat} :
    Alert IsError (copyIntoWith data h inp fst p tst ec) := by
  refine .call _ _ (fun r hr => ?_) fun r hr => ?_
  · cases r with
    | error e => exact error_report _ _ _ rfl
    | ok _ => cases hr
  cases r with
  | error e => exact .report ..
  | ok out =>
    refine .finally' (alert_closeFd out) (any_closeFd out) ?_
    simp only [Prog.bind_eq]
    have hf : Alert IsError ((data inp out fst.size.toInt).bind fun m =>
        if m ≠ none then h.report ec m false else Prog.ret (true, ec)) := by
      refine (hdata _ _ _).bind (fun c hc => ?_) fun c => ?_
      · rw [if_pos hc]
        exact error_report _ _ _ (code_isSome hc)
      · split
        · exact .report ..
        · exact .ret _
    refine alert_refreshStatus.bind (fun x hx => ?_) fun x => ?_
    · rw [if_pos hx]
      exact error_report _ _ _ (code_isSome hx)
    split
    · exact .report ..
    cases tst with
    | none => exact hf
    | some tst =>
      dsimp only
      split
      · exact .report ..
      refine .call _ _ (fun r hr => ?_) fun r hr => ?_
      · cases r with
        | error e => exact error_report _ _ _ rfl
        | ok _ => cases hr
      cases r with
      | error e => exact .report ..
      | ok _ =>
        refine .call _ _ (fun r hr => ?_) fun r hr => ?_
        · cases r with
          | error e => exact error_report _ _ _ rfl
          | ok _ => cases hr
        cases r with
        | error e => exact .report ..
        | ok _ => exact hf

theorem alert_copyFileWith {data : Nat → Nat → Int → Prog Code} (hdata : ∀ i o z, Alert (fun c : Code => c ≠ none) (data i o z)) {opts : CopyOptions} : Alert IsError (copyFileWith data p q opts ec) := by
  refine .call _ _ (fun r hr => ?_) fun r hr => ?_
  · cases r with
    | error e => exact error_report _ _ _ rfl
    | ok _ => cases hr
  cases r with
  | error e => exact .report ..
  | ok inp =>
    refine .finally' (alert_closeFd inp) (any_closeFd inp) ?_
    unfold copyOpenedWith
    simp only [Prog.bind_eq]
    refine alert_refreshStatus.bind (fun x hx => ?_) fun x => ?_
    · rw [if_pos hx]
      exact error_report _ _ _ (code_isSome hx)
    split
    · exact .report ..
    split
    · exact .report ..
    refine alert_getFileStatus.bind (fun x hx => ?_) fun x => ?_
    · rw [if_pos (by rw [hx.known]; rfl)]
      exact error_report _ _ _ (code_some hx.set)
    split
    · exact .report ..
    split
    · exact alert_copyIntoWith hdata
    split
    · exact .report ..
    refine .then (.useStat _) fun a => ?_
    split
    · exact .report ..
    split
    · exact .ret _
    split
    · split
      · exact alert_copyIntoWith hdata
      · exact .ret _
    split
    · exact alert_copyIntoWith hdata
    · exact .then (.report ..) fun _ => .ret _

theorem alert_copyFile {sf : Bool} {n : Nat} {opts : CopyOptions} : Alert IsError (copyFile sf n p q opts ec) :=
  alert_copyFileWith (alert_doCopyFile sf n)

theorem alert_copyFileApple {n : Nat} {opts : CopyOptions} : Alert IsError (copyFileApple n p q opts ec) := by
  refine alert_copyFileWith fun i o z => ?_
  unfold doCopyFileApple copyfileData
  simp only [Prog.bind_eq]
  refine .call _ _ (fun r hr => by cases hr) fun _ _ => .call _ _ (fun r hr => by cases hr) fun _ _ => .call _ _ (fun r hr => by cases hr) fun _ _ => ?_
  show Alert _ (if _ then _ else _)
  split
  · exact .ret _
  · exact alert_copyDefault i o n

theorem alert_utime {t : Int} : Alert IsError (setLastWriteTimeUtime p t ec) := by
  unfold setLastWriteTimeUtime
  simp only [Prog.bind_eq]
  split
  · exact .reportMsg ..
  refine alert_getFileStatus.bind (fun x hx => ?_) fun x => ?_
  · rw [if_pos hx.set]
    exact error_report _ _ _ (code_some hx.set)
  split
  · exact .report ..
  refine .then (.useStat _) fun a => ?_
  asked

theorem alert_chmodPlain {m : Perms} {b : Bool} : Alert IsError (chmodPlain p m b ec) := by
  unfold chmodPlain
  dsimp only
  split
  · exact .report ..
  · asked

theorem alert_permissionsPlain {m : Perms} {o : PermOptions} : Alert IsError (permissionsPlain p m o ec) := by
  unfold permissionsPlain
  simp only [Prog.bind_eq]
  split
  · exact .stop _
  split
  · refine Alert.bind (C := Blind) ?_ (fun x hx => ?_) fun x => ?_
    · unfold permStatus
      split
      · exact alert_status
      · exact alert_symlinkStatus
    · rw [if_pos hx.set]
      exact error_report _ _ _ (code_some hx.set)
    split
    · exact .report ..
    split
    · exact .stop _
    · exact alert_chmodPlain
  · exact alert_chmodPlain

/-- Nothing to read, and an error. -/
def Broken : Stream × Code → Prop := fun x => x.1.handle = none ∧ x.2.isSome = true

theorem alert_close {C : Stream → Prop} (s : Stream) : Alert C s.close := by
  unfold Stream.close
  split
  · exact .call _ _ (fun r hr => by cases r <;> cases hr) fun _ _ => .ret _
  · exact .ret _
theorem closed_close (s : Stream) : Only AnyCall (fun x => x.handle = none) s.close := by
  unfold Stream.close
  split
  · exact .call _ _ trivial fun _ => .ret _ rfl
  · exact .ret _ ‹_›

theorem alert_advance : ∀ n s, Alert (fun x => x.1 = false ∧ Broken x.2) (Stream.advance n s)
  | 0, s => .stop _
  | n + 1, s => by
    unfold Stream.advance
    split
    · exact .stop _
    refine .call _ _ (fun r hr => ?_) fun r hr => ?_
    · cases r with
      | error e =>
        simp only [Prog.bind_eq]
        exact (closed_close s).bind fun _ h => .ret _ ⟨rfl, h, rfl⟩
      | ok x => cases hr
    · rcases r with e | _ | ent
      · cases hr
      · exact .then (alert_close s) fun _ => .ret _
      · dsimp only
        split
        · exact alert_advance n s
        split
        · exact .then (alert_close s) fun _ => .ret _
        · simp only [Prog.bind_eq]
          exact .then (.ofRes _) fun _ => .ret _

theorem alert_streamNew {n : Nat} {opts : DirOptions} (h : opts.has .skipDenied = false) : Alert Broken (Stream.new n p opts) := by
  unfold Stream.new
  refine .call _ _ (fun r hr => ?_) fun r hr => ?_
  · cases r with
    | error e =>
      dsimp only
      rw [if_neg (by rw [h]; simp)]
      exact .ret _ ⟨rfl, rfl⟩
    | ok _ => cases hr
  · cases r with
    | error e => cases hr
    | ok d => exact (alert_advance n _).bind (fun _ h => .ret _ h.2) fun _ => .ret _

theorem alert_dirIterNew {n : Nat} {opts : DirOptions} (h : opts.has .skipDenied = false) : Alert IsError (DirIter.new n p opts ec) := by
  unfold DirIter.new
  simp only [Prog.bind_eq]
  refine (alert_streamNew h).bind (fun x hx => ?_) fun x => ?_
  · obtain ⟨s, m⟩ := x
    obtain ⟨h1, h2⟩ := hx
    dsimp only at h1 h2 ⊢
    rw [if_pos (by simp [Stream.good, h1])]
    cases m with
    | none => cases h2
    | some e => exact (error_report _ _ _ rfl).bind fun _ h => .ret _ h
  · split
    · split
      · exact .then (.report ..) fun _ => .ret _
      · exact .ret _
    · exact .ret _

theorem alert_dirIterIncr {n : Nat} {it : DirIter} : Alert IsError (DirIter.incr n it ec) := by
  unfold DirIter.incr
  simp only [Prog.bind_eq]
  split
  · refine (alert_advance n _).bind (fun x hx => ?_) fun x => ?_
    · obtain ⟨b, s, m⟩ := x
      obtain ⟨h1, _, h2⟩ := hx
      dsimp only at h1 h2 ⊢
      rw [if_neg (by simp [h1])]
      cases m with
      | none => cases h2
      | some e => exact (error_reportMsg _ _ _ _ rfl).bind fun _ h => .ret _ h
    · split
      · exact .ret _
      split
      · exact .then (.reportMsg ..) fun _ => .ret _
      · exact .ret _
  · exact .then (.reportMsg ..) fun _ => .ret _

theorem alert_destroy {C : Unit → Prop} (it : DirIter) : Alert C it.destroy := by
  unfold DirIter.destroy
  split
  · exact .then (alert_close _) fun _ => .ret _
  · exact .ret _
theorem any_destroy (it : DirIter) : Only AnyCall (fun _ => True) it.destroy := by
  unfold DirIter.destroy
  split
  · exact (closed_close _).bind fun _ _ => .ret _ trivial
  · exact .ret _ trivial

theorem alert_isEmptyFile {n : Nat} : Alert IsError (isEmptyFile n p ec) := by
  unfold isEmptyFile
  simp only [Prog.bind_eq]
  refine alert_getFileStatus.bind (fun x hx => ?_) fun x => ?_
  · rw [if_pos hx.set]
    exact error_report _ _ _ (code_some hx.set)
  split
  · exact .report ..
  split
  · exact .report ..
  split
  · unfold isEmptyDirectory
    simp only [Prog.bind_eq]
    refine (alert_dirIterNew rfl).bind (fun x hx => (any_destroy _).bind fun _ _ => ?_) fun x => .then (alert_destroy _) fun _ => ?_
    · rw [if_pos (show x.2.isSet = true from hx)]
      exact .ret _ hx
    · split <;> exact .ret _
  · exact .then (.useStat _) fun a => .ret _

theorem alert_recIterNew {n : Nat} {opts : DirOptions} (h : opts.has .skipDenied = false) : Alert IsError (RecIter.new n p opts ec) := by
  unfold RecIter.new
  simp only [Prog.bind_eq]
  refine (alert_streamNew h).bind (fun x hx => ?_) fun x => ?_
  · obtain ⟨s, m⟩ := x
    cases m with
    | none => cases hx.2
    | some e => exact ((error_report _ _ _ rfl).finally' (any_destroy _)).bind fun _ h => .ret _ h
  · split
    · exact .then (.finally' (alert_destroy _) (any_destroy _) (.report ..)) fun _ => .ret _
    · split <;> exact .ret _

theorem alert_closeAll {C : Unit → Prop} : ∀ l, Alert C (closeAll l)
  | [] => .ret _
  | s :: ss => .then (alert_closeAll ss) fun _ => .then (alert_close s) fun _ => .ret _
theorem any_closeAll : ∀ l, Only AnyCall (fun _ => True) (closeAll l)
  | [] => .ret _ trivial
  | s :: ss => (any_closeAll ss).bind fun _ _ => (closed_close s).bind fun _ _ => .ret _ trivial

theorem alert_advanceStack (n : Nat) : ∀ l, Alert (fun x => x.2.isSome = true) (advanceStack n l)
  | [] => .ret _
  | s :: ss => by
    unfold advanceStack
    simp only [Prog.bind_eq]
    refine (alert_advance n s).bind (fun x hx => ?_) fun x => ?_
    · obtain ⟨b, s', m⟩ := x
      obtain ⟨h1, _, h2⟩ := hx
      dsimp only at h1 h2 ⊢
      rw [if_neg (by simp [h1])]
      cases m with
      | none => cases h2
      | some e => exact .ret _ rfl
    · split
      · exact .ret _
      split
      · exact .ret _
      · exact alert_advanceStack n ss

theorem alert_recAdvance {n : Nat} {it : RecIter} : Alert IsError (it.advance n ec) := by
  unfold RecIter.advance
  simp only [Prog.bind_eq]
  split
  · exact .then (.reportMsg ..) fun _ => .ret _
  · refine (alert_advanceStack n _).bind (fun x hx => ?_) fun x => ?_
    · obtain ⟨l, m⟩ := x
      cases m with
      | none => cases hx
      | some e => exact (any_closeAll _).bind fun _ _ => (error_reportMsg _ _ _ _ rfl).bind fun _ h => .ret _ h
    · split
      · exact .then (alert_closeAll _) fun _ => .then (.reportMsg ..) fun _ => .ret _
      · split <;> exact .ret _

theorem alert_recPop {n : Nat} {it : RecIter} : Alert IsError (it.pop n ec) := by
  unfold RecIter.pop
  simp only [Prog.bind_eq]
  split
  · exact .then (.reportMsg ..) fun _ => .ret _
  · exact .stop _
  · refine .then (alert_close _) fun _ => ?_
    split
    · exact .ret _
    · exact alert_recAdvance

theorem alert_updateBasic {b : Bool} {e : Entry} (h : e.cache.cacheType = .empty) : Alert IsError (updateBasic b e ec) := by
  unfold updateBasic
  simp only [Prog.bind_eq]
  refine alert_getFileStatus.bind (fun x hx => ?_) fun x => ?_
  · rw [if_pos ⟨h, .inl hx.set⟩]
    exact (error_report _ _ _ (code_some hx.set)).bind fun _ h => .ret _ h
  split
  · exact .then (.report ..) fun _ => .ret _
  · refine .then ?_ fun c => .then ?_ fun c => .then ?_ fun c => .ret _
    · split
      · exact .then (.useStat _) fun _ => .ret _
      · exact .ret _
    · split
      · exact .then (.useStat _) fun _ => .ret _
      · exact .ret _
    · split
      · refine .then (.useStat _) fun _ => .then ?_ fun _ => .ret _
        unfold extractLastWriteTime
        dsimp only
        split
        · exact .then (.ofRes _) fun _ => .ret _
        · exact .report ..
      · exact .ret _

theorem alert_handleError {C : Unit × EcArg → Prop} {m : Str} {e : Entry} {c : Code} {b : Bool} : Alert C (handleError m e c b ec) := by
  cases ec with
  | null =>
    simp only [handleError]
    split
    · exact .stop _
    · exact .ret _
  | ref _ => exact .ret _

theorem alert_linkType {e : Entry} {c : Code} : Alert (fun x => x.1.1 = .none ∧ x.2.isSet = true) (getSymLinkFileType e (.ref c)) := by
  unfold getSymLinkFileType
  simp only [Prog.bind_eq]
  refine Alert.bind (C := fun x => x.1 = true ∧ x.2.2.isSet = true) ?_ (fun x hx => ?_) fun x => ?_
  · split
    · exact (alert_updateBasic ‹_›).bind (fun y hy => .ret _ ⟨decide_eq_true (fun e => by
        have : y.2.isSet = true := hy
        rw [e] at this; cases this), hy⟩) fun _ => .ret _
    · exact .ret _
  · rw [if_pos hx.1]
    exact .ret _ ⟨rfl, hx.2⟩
  · split
    · exact .ret _
    split
    · exact .ret _
    · refine .then ?_ fun _ => .ret _
      split
      · exact .then alert_handleError fun _ => .ret _
      · exact .ret _

theorem alert_tryRecursion {n : Nat} {it : RecIter} (h : FsOp.heeds (.recIterIncr n it) = true) : Alert IsError (it.tryRecursion n ec) := by
  unfold RecIter.tryRecursion
  simp only [Prog.bind_eq]
  split
  · exact .then (.reportMsg ..) fun _ => .ret _
  · exact .stop _
  · rename_i cur ss opts hi
    have ho : opts.has .skipDenied = false ∧ opts.has .followSymlink = false := by
      simpa [FsOp.heeds, hi] using h
    rw [if_pos (by rw [ho.2]; rfl)]
    have tail : ∀ (cur : Stream) (m : Code), m.isSome = true → Only AnyCall (IsError (α := Bool × RecIter))
        (match m with
          | some e =>
            if e = .EACCES ∧ opts.has .skipDenied = true then
              .ret ((false, { it with impl := some (cur :: ss, opts) }), ec.clear.clear)
            else
              (closeAll (cur :: ss)).bind fun _ => (Handler.reportMsg ⟨"recursive_directory_iterator::TryRecursion()".toList, none, none⟩ ec.clear (some e)
                ("attempting recursion into \"{".toList ++ cur.entry.path.pathname ++ "}\"".toList) false).bind fun x =>
                .ret ((false, { it with impl := none }), x.2)
          | none => .ret ((false, { it with impl := some (cur :: ss, opts) }), ec.clear)) := by
      intro cur m hm
      cases m with
      | none => cases hm
      | some e =>
        dsimp only
        rw [if_neg (by rw [ho.1]; simp)]
        exact (any_closeAll _).bind fun _ _ => (error_reportMsg _ _ _ _ rfl).bind fun _ h => .ret _ h
    refine Alert.bind (C := fun x => x.1 = true ∧ x.2.2.isSet = true) ?_ (fun x hx => ?_) fun x => ?_
    · refine alert_linkType.bind (fun y hy => ?_) fun _ => .ret _
      have : (if (y.2.isSet && ({ type := y.1.1 } : FStatus).known) = true then EcArg.ref none else y.2) = y.2 := by
        rw [hy.1, if_neg (by simp [FStatus.known])]
      refine .ret _ ?_
      dsimp only
      rw [this]
      exact ⟨by rw [hy.2]; rfl, hy.2⟩
    · rw [if_neg (by rw [hx.1]; simp)]
      exact tail _ _ (code_some hx.2)
    · refine Alert.bind (C := fun x => x.1 = none ∧ x.2.isSome = true) ?_ (fun y hy => ?_) fun y => ?_
      · split
        · refine (alert_streamNew ho.1).bind (fun z hz => ?_) fun z => ?_
          · rw [if_neg (by simp [Stream.good, hz.1])]
            exact .ret _ ⟨rfl, hz.2⟩
          · split <;> exact .ret _
        · exact .ret _
      · rw [hy.1]
        exact tail _ _ hy.2
      · split
        · exact .ret _
        · split
          · split
            · exact .ret _
            · exact .then (alert_closeAll _) fun _ => .then (.reportMsg ..) fun _ => .ret _
          · exact .ret _

theorem alert_recIncr {n : Nat} {it : RecIter} (h : FsOp.heeds (.recIterIncr n it) = true) : Alert IsError (it.incr n ec) := by
  unfold RecIter.incr
  simp only [Prog.bind_eq]
  refine Alert.bind (C := fun x => x.1 = true ∧ x.2.2.isSet = true) ?_ (fun x hx => ?_) fun x => ?_
  · split
    · exact (alert_tryRecursion h).bind (fun y (hy : y.2.isSet = true) => .ret _ ⟨by dsimp only; rw [hy, Bool.or_true], hy⟩) fun _ => .ret _
    · exact .ret _
  · rw [if_pos hx.1]
    exact .ret _ hx.2
  · split
    · exact .ret _
    · exact alert_recAdvance

theorem alert_removeLoop {rec : Path → Prog (BitVec 64 × Code)} (hr : ∀ p, Alert (fun x => x.2.isSome = true) (rec p)) :
    ∀ n it k, Alert (fun x => x.2.isSome = true) (removeLoop rec n it k)
  | 0, _, _ => .stop _
  | _ + 1, none, _ => .ret _
  | n + 1, some s, k => by
    unfold removeLoop
    simp only [Prog.bind_eq]
    refine (hr _).bind (fun x hx => ?_) fun x => ?_
    · rw [if_pos (fun e => by rw [e] at hx; cases hx)]
      exact (any_destroy _).bind fun _ _ => .ret _ hx
    split
    · exact .then (alert_destroy _) fun _ => .ret _
    · refine alert_dirIterIncr.bind (fun y hy => ?_) fun y => ?_
      · have := code_some (show y.2.isSet = true from hy)
        revert this
        cases y.2.code with
        | none => intro h; cases h
        | some e => exact fun _ => .ret _ rfl
      · split
        · exact .ret _
        · exact alert_removeLoop hr n _ _

theorem alert_doRemoveAll : ∀ n p, Alert (fun x => x.2.isSome = true) (doRemoveAll n p)
  | 0, _ => .stop _
  | n + 1, p => by
    unfold doRemoveAll
    simp only [Prog.bind_eq]
    refine alert_symlinkStatus.bind (fun x hx => ?_) fun x => ?_
    · rw [if_pos hx.2]
      exact .ret _ (code_some hx.2)
    split
    · exact .ret _
    have hd : ∀ c : Code, c.isSome = true → c ≠ none := fun c h e => by rw [e] at h; cases h
    have hrm : ∀ k : BitVec 64, Alert (fun x : BitVec 64 × Code => x.2.isSome = true)
        ((Asap.remove p (.ref none)).bind fun y => if (!y.1) = true then .ret (umaxErr, y.2.code) else .ret (k, y.2.code)) := fun k =>
      alert_remove.bind (fun y hy => by split <;> exact .ret _ (code_some hy)) fun y => by split <;> exact .ret _
    refine Alert.bind (C := fun x => x.2.isSome = true) ?_ (fun y hy => ?_) fun y => ?_
    · split
      · refine (alert_dirIterNew rfl).bind (fun y hy => ?_) fun y => ?_
        · have := code_some (show y.2.isSet = true from hy)
          revert this
          cases y.2.code with
          | none => intro h; cases h
          | some e => exact fun _ => .ret _ rfl
        · split
          · exact .ret _
          · exact alert_removeLoop (alert_doRemoveAll n) n _ _
      · exact .ret _
    · rw [if_pos (hd _ hy)]
      exact .ret _ hy
    · split
      · exact .ret _
      · exact hrm _

theorem alert_removeAll {n : Nat} : Alert (fun x => x.2.isSet = true ∨ x.1 = 0) (removeAll n p ec) := by
  unfold removeAll
  dsimp only
  split
  · exact .ret _
  simp only [Prog.bind_eq]
  refine (alert_doRemoveAll n p).bind (fun x hx => ?_) fun x => ?_
  · obtain ⟨k, m⟩ := x
    cases m with
    | none => cases hx
    | some e =>
      dsimp only
      split
      · exact .ret _ (.inr rfl)
      · exact (error_report _ _ _ rfl).mono (fun _ h => h) fun _ h => .inl h
  · split
    · split
      · exact .ret _
      · exact .report ..
    · exact .ret _

theorem alert_existingPrefix : ∀ l r, Alert (fun x => x.2.2 ≠ none) (existingPrefix l r)
  | [], _ => .ret _
  | x :: xs, r => by
    unfold existingPrefix
    simp only [Prog.bind_eq]
    refine .then (.ofRes _) fun tmp => alert_status.bind (fun y hy => ?_) fun y => ?_
    · have h1 : y.1.exists' = false := Blind.gone (e := y.2) hy
      have h2 : y.1.known = false := Blind.known (e := y.2) hy
      rw [if_neg (by rw [h1]; simp)]
      refine .ret _ ?_
      dsimp only
      rw [if_neg (by rw [h2]; simp)]
      exact fun e => by
        have := code_some hy.2
        rw [e] at this
        cases this
    · split
      · exact alert_existingPrefix xs tmp
      · exact .ret _

theorem alert_weaklyCanonical {el : Bool} : Alert (fun x => x.2.isSet = true ∨ x.1.pathname = []) (weaklyCanonical el p ec) := by
  have hc : ∀ {p : Path} {ec : EcArg}, Alert (fun x : Path × EcArg => x.2.isSet = true ∨ x.1.pathname = []) (canonical p ec) := fun {p ec} =>
    (alert_canonical (p := p) (ec := ec)).mono fun _ h => .inl h
  unfold weaklyCanonical
  dsimp only
  split
  · exact hc
  simp only [Prog.bind_eq]
  refine alert_status.bind (fun y hy => ?_) fun y => ?_
  · have h2 : y.1.known = false := Blind.known (e := y.2) hy
    rw [if_pos (by rw [h2]; rfl)]
    exact (error_report _ _ _ (code_some hy.2)).mono (fun _ h => h) fun _ h => .inl h
  split
  · exact .report ..
  split
  · exact hc
  have tail : ∀ x : Path × Code, ∀ rest, x.2 ≠ none → Only AnyCall (fun x : Path × EcArg => x.2.isSet = true ∨ x.1.pathname = [])
      (if x.2 ≠ none then .ret (x.1.clear .posix, ec.clear)
       else (Prog.ofRes (appendAll x.1 rest)).bind fun r => (Prog.ofRes (lexicallyNormal .posix el r)).bind fun r =>
        .ret (returned .posix el r, ec.clear)) := by
    intro x rest h
    rw [if_pos h]
    exact .ret _ (.inr rfl)
  refine (alert_existingPrefix _ _).bind (fun x hx => ?_) fun x => ?_
  · rw [if_neg (fun h => hx h.1)]
    exact tail (x.1, x.2.2) _ hx
  · refine Alert.bind (C := fun y => y.2 ≠ none) ?_ (fun y hy => tail y _ hy) fun y => ?_
    · split
      · refine alert_canonical.bind (fun z hz => .ret _ fun e => ?_) fun _ => .ret _
        have := code_some (show z.2.isSet = true from hz)
        rw [show z.2.code = none from e] at this
        cases this
      · exact .ret _
    · split
      · exact .ret _
      · exact .then (.ofRes _) fun _ => .then (.ofRes _) fun _ => .ret _

theorem alert_op (op : FsOp α) (h : FsOp.heeds op = true) (ec : EcArg) : Alert IsError (op.prog ec) := by
  cases op with
  | absolute p => exact alert_absolute
  | canonical p => exact alert_canonical
  | copyFile sf n a b o => exact alert_copyFile
  | copySymlink a b => exact alert_copySymlink
  | createDirectory p => exact alert_createDirectory
  | createDirectoryLike p q => exact alert_createDirectoryLike
  | createSymlink a b => exact alert_createSymlinkAs
  | createDirectorySymlink a b => exact alert_createSymlinkAs
  | createHardLink a b => exact alert_createHardLink
  | currentPath => exact alert_currentPath
  | setCurrentPath p => exact alert_setCurrentPath
  | equivalent p q => exact alert_equivalent
  | exists' p => exact alert_existsP
  | fileSize p => exact alert_fileSize
  | hardLinkCount p => exact alert_hardLinkCount
  | lastWriteTime p => exact alert_lastWriteTime
  | setLastWriteTime p t => exact alert_setLastWriteTime
  | permissions p m o => exact alert_permissions
  | readSymlink p => exact alert_readSymlink
  | remove p => exact alert_remove
  | rename a b => exact alert_rename
  | resizeFile p z => exact alert_resizeFile
  | space p => exact alert_space
  | tempDirectoryPath => exact alert_temp
  | isEmpty n p => exact alert_isEmptyFile
  | dirIter n p o => exact alert_dirIterNew (by simpa [FsOp.heeds] using h)
  | dirIterIncr n it => exact alert_dirIterIncr
  | recIter n p o => exact alert_recIterNew (by simpa [FsOp.heeds] using h)
  | recIterPop n it => exact alert_recPop
  | recIterIncr n it => exact alert_recIncr h
  | _ => cases h

end

/-- **C136** (all operations of `heeds`): if a system call fails, and the failure is not an answer, the operation fails: it throws or reports an
error. Whatever the operating system answers. -/
theorem c136_operations_partial {α : Type} (op : FsOp α) (h : FsOp.heeds op = true) (ec : EcArg) {t : List Event}
    {o : Except Stop (α × EcArg)} (hx : Exec (op.prog ec) t o) (ht : Trouble t) : Failed o :=
  (alert_op op h ec).exec hx ht

/-- **C136** for `status`, `symlink_status` and the predicates. `f`: what is asked of the type, or the status itself. -/
theorem c136_status {α : Type} (f : FStatus → α) (p : Path) (ec : EcArg) (g : Prog (FStatus × EcArg))
    (hg : g = status p ec ∨ g = symlinkStatus p ec) {t : List Event} {o : Except Stop (α × EcArg)}
    (hx : Exec (g.bind fun x => .ret (f x.1, x.2)) t o) (ht : Trouble t) : Failed o := by
  refine Alert.exec (B := IsError) ?_ hx ht
  rcases hg with rfl | rfl
  · exact alert_status.bind (fun _ h => .ret _ h.2) fun _ => .ret _
  · exact alert_symlinkStatus.bind (fun _ h => .ret _ h.2) fun _ => .ret _

/-- The predicates are of this form. -/
example (f : FStatus → Bool) (p : Path) (ec : EcArg) : isTypeP f p ec = (status p ec).bind fun x => .ret (f x.1, x.2) := rfl
example (p : Path) (ec : EcArg) : isSymlinkP p ec = (symlinkStatus p ec).bind fun x => .ret (x.1.isSymlink, x.2) := rfl

/-- **C136** for the builds for other systems: with `fcopyfile`, with `utime`, and with `chmod`. -/
theorem c136_ports (p q : Path) (ec : EcArg) {t : List Event} (ht : Trouble t) :
    (∀ n opts o, Exec (copyFileApple n p q opts ec) t o → Failed o) ∧
    (∀ z o, Exec (setLastWriteTimeUtime p z ec) t o → Failed o) ∧
    (∀ m opts o, Exec (permissionsPlain p m opts ec) t o → Failed o) :=
  ⟨fun _ _ _ hx => alert_copyFileApple.exec hx ht, fun _ _ hx => alert_utime.exec hx ht, fun _ _ _ hx => alert_permissionsPlain.exec hx ht⟩

/-- **C136** for `remove_all`: after such a failure it fails or says that it has removed nothing. -/
theorem c136_remove_all_partial (n : Nat) (p : Path) (ec : EcArg) {t : List Event} {o : Except Stop (BitVec 64 × EcArg)}
    (hx : Exec (removeAll n p ec) t o) (ht : Trouble t) : ∀ x, o = .ok x → x.2.isSet = true ∨ x.1 = 0 :=
  alert_removeAll.exec hx ht

/-- **C136** for `weakly_canonical`: after such a failure it fails or returns the empty path. -/
theorem c136_weakly_canonical_partial (el : Bool) (p : Path) (ec : EcArg) {t : List Event} {o : Except Stop (Path × EcArg)}
    (hx : Exec (weaklyCanonical el p ec) t o) (ht : Trouble t) : ∀ x, o = .ok x → x.2.isSet = true ∨ x.1.pathname = [] :=
  alert_weaklyCanonical.exec hx ht

/-- **C136 is violated** by `weakly_canonical`: when the path of a part that is there cannot be resolved, it returns an empty path and reports
no error; by `create_directories`, if the directory that could not be made is there when looked for once more; by `copy`,
which stops at a failure to read the directory as if it had been read to its end; by `remove_all`, if the directory that was found can no
longer be opened because it is not there; and by `++` of a `recursive_directory_iterator` that follows links, on an entry that cannot be looked
at. -/
theorem c136_violated :
    (∃ t, Exec (weaklyCanonical false (mkPath .posix "a/b".toList) (.ref none)) t (.ok (mkPath .posix [], .ref none)) ∧ Trouble t) ∧
    (∃ t, Exec (createDirectories false 9 (mkPath .posix "a".toList) (.ref none)) t (.ok (true, .ref none)) ∧ Trouble t) ∧
    (∃ t, Exec (copy false 9 (mkPath .posix "d".toList) (mkPath .posix "e".toList) (CopyOptions.recursive ||| CopyOptions.directoriesOnly)
      (.ref none)) t (.ok ((), .ref none)) ∧ Trouble t) ∧
    (∃ t, Exec (removeAll 9 (mkPath .posix "d".toList) (.ref none)) t (.ok (0, .ref none)) ∧ Trouble t) ∧
    (∃ t it, it.recursion = true ∧ Exec (RecIter.incr 9 it (.ref none)) t (.ok (⟨none, true⟩, .ref none)) ∧ Trouble t) := by
  refine ⟨⟨[⟨.stat "a/b".toList, (.error .ENOENT : Except Errno Stat)⟩,
      ⟨.stat "a".toList, (.error .EACCES : Except Errno Stat)⟩], feed_exec (by rfl), ?_⟩,
    ⟨[⟨.stat "a".toList, (.error .ENOENT : Except Errno Stat)⟩,
      ⟨.mkdir "a".toList Perms.all, (.error .EACCES : Except Errno Unit)⟩,
      ⟨.stat "a".toList, (.ok { Stat.zero with mode := 0o040755 } : Except Errno Stat)⟩], feed_exec (by rfl), ?_⟩,
    ⟨[⟨.stat "d".toList, (.ok { Stat.zero with mode := 0o040755 } : Except Errno Stat)⟩,
      ⟨.stat "e".toList, (.ok { Stat.zero with mode := 0o040755, ino := 2 } : Except Errno Stat)⟩,
      ⟨.opendir "d".toList, (.ok 3 : Except Errno Nat)⟩,
      ⟨.readdir 3, (.ok (some ⟨"f".toList, .reg⟩) : Except Errno (Option Dirent))⟩,
      ⟨.stat "d/f".toList, (.ok { Stat.zero with mode := 0o100644, ino := 3 } : Except Errno Stat)⟩,
      ⟨.stat "e/f".toList, (.error .ENOENT : Except Errno Stat)⟩,
      ⟨.readdir 3, (.error (.other 5) : Except Errno (Option Dirent))⟩,
      ⟨.closedir 3, (.ok () : Except Errno Unit)⟩], feed_exec (by rfl), ?_⟩,
    ⟨[⟨.lstat "d".toList, (.ok { Stat.zero with mode := 0o040755 } : Except Errno Stat)⟩,
      ⟨.opendir "d".toList, (.error .ENOENT : Except Errno Nat)⟩], feed_exec (by rfl), ?_⟩,
    ⟨[⟨.stat "d/l".toList, (.error .EACCES : Except Errno Stat)⟩, ⟨.readdir 3, (.ok none : Except Errno (Option Dirent))⟩,
      ⟨.closedir 3, (.ok () : Except Errno Unit)⟩],
      ⟨some ([⟨some 3, mkPath .posix "d".toList, ⟨mkPath .posix "d/l".toList, { Cache.reset with type := .symlink, symlink := true, cacheType := .basic }⟩⟩],
        .followSymlink), true⟩, rfl, feed_exec (by rfl), ?_⟩⟩
  · exact ⟨⟨.stat "a".toList, (.error .EACCES : Except Errno Stat)⟩, by simp, rfl⟩
  · exact ⟨⟨.mkdir "a".toList Perms.all, (.error .EACCES : Except Errno Unit)⟩, by simp, rfl⟩
  · exact ⟨⟨.readdir 3, (.error (.other 5) : Except Errno (Option Dirent))⟩, by simp, rfl⟩
  · exact ⟨⟨.opendir "d".toList, (.error .ENOENT : Except Errno Nat)⟩, by simp, rfl⟩
  · exact ⟨⟨.stat "d/l".toList, (.error .EACCES : Except Errno Stat)⟩, by simp, rfl⟩

/-- The failures of `close`, which are not counted, are passed over: `copy_file` reports success although the data could not be written back as the
new file was closed. -/
theorem c136_close_violated :
    ∃ t, Exec (copyFile false 9 (mkPath .posix "a".toList) (mkPath .posix "b".toList) 0 (.ref none)) t (.ok (true, .ref none)) ∧
      (⟨.close 4, (.error .ENOSPC : Except Errno Unit)⟩ : Event) ∈ t :=
  ⟨[⟨.openf "a".toList ⟨false, false, true⟩ 0, (.ok 3 : Except Errno Nat)⟩,
    ⟨.lstat "a".toList, (.ok { Stat.zero with mode := 0o100644, ino := 1, size := 1 } : Except Errno Stat)⟩,
    ⟨.stat "b".toList, (.error .ENOENT : Except Errno Stat)⟩,
    ⟨.openf "b".toList ⟨true, true, false⟩ 0o100644, (.ok 4 : Except Errno Nat)⟩,
    ⟨.lstat "b".toList, (.ok { Stat.zero with mode := 0o100644, ino := 2 } : Except Errno Stat)⟩,
    ⟨.read 3 8192, (.ok [7] : Except Errno Bytes)⟩, ⟨.write 4 [7], (.ok 1 : Except Errno Nat)⟩,
    ⟨.read 3 8192, (.ok [] : Except Errno Bytes)⟩,
    ⟨.close 4, (.error .ENOSPC : Except Errno Unit)⟩, ⟨.close 3, (.ok () : Except Errno Unit)⟩], feed_exec (by rfl), by simp⟩

/-- A copy that fails as the second block is read. -/
example : ∃ t o, Exec ((FsOp.copyFile false 9 (mkPath .posix "a".toList) (mkPath .posix "b".toList) 0).prog (.ref none)) t o ∧ Trouble t ∧
    Failed o := by
  have hx : Exec ((FsOp.copyFile false 9 (mkPath .posix "a".toList) (mkPath .posix "b".toList) 0).prog (.ref none))
      [⟨.openf "a".toList ⟨false, false, true⟩ 0, (.ok 3 : Except Errno Nat)⟩,
       ⟨.lstat "a".toList, (.ok { Stat.zero with mode := 0o100644, ino := 1, size := 1 } : Except Errno Stat)⟩,
       ⟨.stat "b".toList, (.error .ENOENT : Except Errno Stat)⟩,
       ⟨.openf "b".toList ⟨true, true, false⟩ 0o100644, (.ok 4 : Except Errno Nat)⟩,
       ⟨.lstat "b".toList, (.ok { Stat.zero with mode := 0o100644, ino := 2 } : Except Errno Stat)⟩,
       ⟨.read 3 8192, (.ok [7] : Except Errno Bytes)⟩, ⟨.write 4 [7], (.ok 1 : Except Errno Nat)⟩,
       ⟨.read 3 8192, (.error (.other 5) : Except Errno Bytes)⟩,
       ⟨.close 4, (.ok () : Except Errno Unit)⟩, ⟨.close 3, (.ok () : Except Errno Unit)⟩] (.ok (false, .ref (some (.other 5)))) := feed_exec (by rfl)
  have hf : Trouble _ → _ := c136_operations_partial _ rfl _ hx
  refine ⟨_, _, hx, ?_, hf ?_⟩ <;> exact ⟨⟨.read 3 8192, (.error (.other 5) : Except Errno Bytes)⟩, by simp, rfl⟩

end Asap
