import Verif.Props.Kinds
import Verif.Props.WinAH

/-!
# C135: an operation that fails has changed nothing

Whatever the operating system answers. A call that the system refused is taken to have changed nothing.
-/

namespace Asap
namespace Spec

/-- A Windows call that can change something was not refused. -/
def WinCall.took : (c : WinCall) → c.Ret → Bool
  | .setFileTime _ _, r | .setEnd _, r | .createDirectory _, r | .createDirectoryEx _ _, r | .createSymlink _ _ _, r
  | .createHardLink _ _, r | .removeDirectory _, r | .deleteFile _, r | .copyFile _ _ _, r | .setCwd _, r | .setPerms _ _, r => r.isOk
  | .sec (.setInfo _ _), _ => true
  | _, _ => false

/-- A call of the other POSIX systems that can change something was not refused. -/
def PortCall.took : (c : PortCall) → c.Ret → Bool
  | .fcopyfile _ _ _, r | .utime _ _ _, r | .chmod _ _, r => r.isOk
  | _, _ => false

/-- A call that can change something was not refused. -/
def Sys.took : (c : Sys) → c.Ret → Bool
  | .mkdir _ _, r | .remove _, r | .rename _ _, r | .truncate _ _, r | .symlink _ _, r | .link _ _, r | .chdir _, r
  | .fchmod _ _, r | .ftruncate _ _, r | .fchmodat _ _ _, r | .utimensat _ _ _, r => r.isOk
  | .sendfile _ _ _, r | .write _ _, r => r.isOk
  | .openf _ fl _, r => fl.creat && r.isOk
  | .win c, r => WinCall.took c r
  | .port c, r => PortCall.took c r
  | _, _ => false

/-- Something was changed during the calls `t`. -/
def Changed (t : List Event) : Prop := ∃ e ∈ t, Sys.took e.call e.ret = true

/-- The operations that make one change. -/
def FsOp.oneStep {α : Type} : FsOp α → Bool
  | .copySymlink .. | .createDirectory _ | .createDirectoryLike .. | .createSymlink .. | .createDirectorySymlink .. | .createHardLink ..
  | .setCurrentPath _ | .setLastWriteTime .. | .permissions .. | .remove _ | .rename .. | .resizeFile .. => true
  | _ => false

/-- The operations that make several. -/
def FsOp.manySteps {α : Type} : FsOp α → Bool
  | .copy .. | .copyFile .. | .createDirectories .. | .removeAll .. => true
  | _ => false

/-- The caller is told that the change was made. -/
def FsOp.SaysDone {α : Type} : FsOp α → α × EcArg → Prop
  | .createDirectory _, x | .createDirectoryLike .., x | .remove _, x => x.1 = true ∧ x.2.isSet = false
  | _, x => x.2.isSet = false

/-- The operations that make one change on Windows. -/
def WinOp.oneStep {α : Type} : WinOp α → Bool
  | .copyFile .. | .copySymlink .. | .createDirectory _ | .createDirectoryLike .. | .createSymlink .. | .createDirectorySymlink ..
  | .createHardLink .. | .setCurrentPath _ | .setLastWriteTime .. | .permissions .. | .remove _ | .rename .. | .resizeFile .. => true
  | _ => false

/-- The operations that make several on Windows. -/
def WinOp.manySteps {α : Type} : WinOp α → Bool
  | .copy .. | .createDirectories .. | .removeAll .. => true
  | _ => false

/-- Those that say `true` although the change was not made. -/
def WinOp.boasts {α : Type} : WinOp α → Bool
  | .createDirectoryLike .. | .remove _ => true
  | _ => false

/-- The caller is told that the change was made. -/
def WinOp.SaysDone {α : Type} : WinOp α → α × EcArg → Prop
  | .copyFile .., x | .createDirectory _, x | .createDirectoryLike .., x | .remove _, x => x.1 = true ∧ x.2.isSet = false
  | _, x => x.2.isSet = false

end Spec
open Spec

section
variable {α β : Type} {A G : α → Prop} {B H : β → Prop}

/-- The program returns a value in `G`. -/
inductive Settled (G : α → Prop) : Prog α → Prop where
  | ret (a : α) (h : G a) : Settled G (.ret a)
  | call (c : Sys) (k : c.Ret → Prog α) (h : ∀ r, Settled G (k r)) : Settled G (.call c k)

/-- After a change the program returns a value in `G`; without one it returns a value in `A` if it returns. -/
inductive Decisive (A G : α → Prop) : Prog α → Prop where
  | ret (a : α) (h : A a) : Decisive A G (.ret a)
  | stop (x : Stop) : Decisive A G (.stop x)
  | call (c : Sys) (k : c.Ret → Prog α) (h1 : ∀ r, Sys.took c r = true → Settled G (k r)) (h2 : ∀ r, Sys.took c r = false → Decisive A G (k r)) :
      Decisive A G (.call c k)

theorem Settled.exec {p : Prog α} (h : Settled G p) : ∀ {t : List Event} {o : Except Stop α}, Exec p t o → ∃ a, o = .ok a ∧ G a := by
  induction h with
  | ret a h => intro t o hx; cases hx; exact ⟨a, rfl, h⟩
  | call c k _ ih => intro t o hx; cases hx with | call _ _ _ _ _ hx => exact ih _ hx

theorem Decisive.exec {p : Prog α} (h : Decisive A G p) : ∀ {t : List Event} {o : Except Stop α}, Exec p t o →
    (Changed t → ∃ a, o = .ok a ∧ G a) ∧ (¬ Changed t → ∀ a, o = .ok a → A a) := by
  induction h with
  | ret a h =>
    intro t o hx
    cases hx
    exact ⟨fun hc => (by obtain ⟨_, h, _⟩ := hc; cases h), fun _ b e => by cases e; exact h⟩
  | stop x =>
    intro t o hx
    cases hx
    exact ⟨fun hc => (by obtain ⟨_, h, _⟩ := hc; cases h), fun _ b e => by cases e⟩
  | call c k h1 h2 ih =>
    intro t o hx
    cases hx with
    | call _ _ r _ _ hx =>
      cases hr : Sys.took c r with
      | true => exact ⟨fun _ => (h1 r hr).exec hx, fun hn => absurd ⟨_, List.mem_cons_self .., hr⟩ hn⟩
      | false =>
        obtain ⟨i1, i2⟩ := ih r hr hx
        refine ⟨fun ⟨e, he, h⟩ => ?_, fun hn => i2 fun ⟨e, he, h⟩ => hn ⟨e, List.mem_cons_of_mem _ he, h⟩⟩
        rcases List.mem_cons.1 he with rfl | he
        · rw [hr] at h; cases h
        · exact i1 ⟨e, he, h⟩

/-- Only a changing call changes something. -/
theorem took_mutates {c : Sys} (h : c.mutates = false) (r : c.Ret) : Sys.took c r = false := by
  cases c with
  | openf p fl m => simp only [Sys.mutates] at h; simp [Sys.took, h]
  | win c =>
    cases c with
    | sec c => cases c <;> first | rfl | cases h
    | _ => first | rfl | cases h
  | port c => cases c <;> first | rfl | cases h
  | _ => first | rfl | cases h

theorem Decisive.mono {A' : α → Prop} {p : Prog α} (h : Decisive A G p) (hA : ∀ a, A a → A' a) : Decisive A' G p := by
  induction h with
  | ret a h => exact .ret a (hA a h)
  | stop x => exact .stop x
  | call c k h1 _ ih => exact .call c k h1 ih

theorem Decisive.after {Q : β → Prop} {x : Prog β} {f : β → Prog α} (h : Only Harmless Q x) (hf : ∀ b, Q b → Decisive A G (f b)) :
    Decisive A G (x.bind f) := by
  induction h with
  | ret a h => exact hf a h
  | stop x => exact .stop x
  | call c k hc _ ih => exact .call c _ (fun r hr => by rw [took_mutates hc] at hr; cases hr) fun r _ => ih r

theorem Settled.finally' {p : Prog α} {d : Prog Unit} (hd : Settled (fun _ => True) d) (h : Settled G p) : Settled G (p.finally' d) := by
  induction h with
  | ret a h =>
    show Settled G (d.bind fun _ => .ret a)
    induction hd with
    | ret _ _ => exact .ret a h
    | call c k _ ih => exact .call c _ ih
  | call c k _ ih => exact .call c _ ih

theorem Decisive.finally' {p : Prog α} {d : Prog Unit} (hd : Settled (fun _ => True) d) (hq : Only Harmless (fun _ => True) d)
    (h : Decisive A G p) : Decisive A G (p.finally' d) := by
  induction h with
  | ret a h => exact .after hq fun _ _ => .ret a h
  | stop x =>
    cases x with
    | thrown e => exact .after hq fun _ _ => .stop _
    | fault f => exact .stop _
    | fuel => exact .stop _
  | call c k h1 _ ih => exact .call c _ (fun r hr => Settled.finally' hd (h1 r hr)) ih

/-- A change that the program reports at once. -/
theorem Decisive.change {c : Sys} {k : c.Ret → Prog α} (h1 : ∀ r, Sys.took c r = true → Settled G (k r))
    (h2 : ∀ r, Sys.took c r = false → Decisive A G (k r)) : Decisive A G (.call c k) := .call c k h1 h2

end

section
variable {α β : Type} {p q : Path} {ec : EcArg}

/-- What is returned without a change. -/
abbrev Undone (G : α × EcArg → Prop) : α × EcArg → Prop := fun x => ¬ G x

theorem clear_unset (ec : EcArg) : ec.clear.isSet = false := by cases ec <;> rfl

theorem Decisive.report {A G : α × EcArg → Prop} (h : Handler) (ec : EcArg) (c : Code) (d : α) (hA : A (d, .ref c)) :
    Decisive A G (h.report ec c d) := by
  cases ec
  · exact .stop _
  · exact .ret _ hA

theorem Decisive.reportMsg {A G : α × EcArg → Prop} (h : Handler) (ec : EcArg) (c : Code) (m : Str) (d : α) (hA : A (d, .ref c)) :
    Decisive A G (h.reportMsg ec c m d) := by
  cases ec
  · exact .stop _
  · exact .ret _ hA

/-- Reporting an error and returning a value that does not say that the change was made. -/
theorem Decisive.tell {A G : β × EcArg → Prop} (h : Handler) (ec : EcArg) (c : Code) (d : α) (f : α × EcArg → Prog (β × EcArg))
    (hA : Decisive A G (f (d, .ref c))) : Decisive A G ((h.report ec c d).bind f) := by
  cases ec
  · exact .stop _
  · exact hA

/-- No error is reported. -/
def NoError : α × EcArg → Prop := fun x => x.2.isSet = false
/-- No error, and `true`. -/
def Yes : Bool × EcArg → Prop := fun x => x.1 = true ∧ x.2.isSet = false

theorem undone_noError (d : α) {c : Code} (h : c.isSome = true) : Undone NoError (d, .ref c) := by
  cases c with
  | none => cases h
  | some e => intro h; cases h
theorem undone_yes (x : EcArg) : Undone Yes (false, x) := fun h => by cases h.1
theorem code_some {x : EcArg} (h : x.isSet = true) : x.code.isSome = true := by
  cases x with
  | null => cases h
  | ref c => cases c <;> first | rfl | cases h

theorem harmless_eyes : Eyes Harmless := fun _ h => h

theorem decisive_createSymlinkAs (fn : Str) : Decisive (Undone NoError) NoError (createSymlinkAs fn p q ec) := by
  refine .call _ _ (fun r hr => ?_) fun r hr => ?_
  · cases r with
    | error e => cases hr
    | ok _ => exact .ret _ (clear_unset ec)
  · cases r with
    | error e => exact .report _ _ _ _ (undone_noError _ rfl)
    | ok _ => cases hr

/-- `k` reports success after the change and an error otherwise. -/
theorem decisive_unit {c : Sys} {k : c.Ret → Prog (Unit × EcArg)} (h1 : ∀ r, Sys.took c r = true → k r = .ret ((), ec.clear))
    (h2 : ∀ r, Sys.took c r = false → ∃ (h : Handler) (e : Errno), k r = h.report ec.clear (some e) ()) : Decisive (Undone NoError) NoError (.call c k) := by
  refine .call _ _ (fun r hr => ?_) fun r hr => ?_
  · rw [h1 r hr]
    exact .ret _ (clear_unset ec)
  · obtain ⟨h, e, he⟩ := h2 r hr
    rw [he]
    exact .report _ _ _ _ (undone_noError _ rfl)

/-- Splits on the answer of a changing call. -/
macro "onecall" x:term : tactic => `(tactic| (
  refine decisive_unit (ec := $x) (fun r hr => ?_) fun r hr => ?_
  · cases r with
    | error e => cases hr
    | ok _ => rfl
  · cases r with
    | error e => exact ⟨_, e, rfl⟩
    | ok _ => cases hr))

theorem decisive_createHardLink : Decisive (Undone NoError) NoError (createHardLink p q ec) := by unfold createHardLink; onecall ec
theorem decisive_setCurrentPath : Decisive (Undone NoError) NoError (setCurrentPath p ec) := by unfold setCurrentPath; onecall ec
theorem decisive_rename : Decisive (Undone NoError) NoError (rename p q ec) := by unfold rename; onecall ec
theorem decisive_resizeFile {z : BitVec 64} : Decisive (Undone NoError) NoError (resizeFile p z ec) := by unfold resizeFile; onecall ec
theorem decisive_setLastWriteTime {t : Int} : Decisive (Undone NoError) NoError (setLastWriteTime p t ec) := by
  unfold setLastWriteTime
  dsimp only
  split
  · exact .reportMsg _ _ _ _ _ (undone_noError _ rfl)
  · onecall ec

theorem decisive_copySymlink : Decisive (Undone NoError) NoError (copySymlink p q ec) := by
  unfold copySymlink
  simp only [Prog.bind_eq]
  refine .after (calls_readSymlink harmless_eyes) fun x _ => ?_
  split
  next h => exact .report _ _ _ _ (undone_noError _ (code_some h))
  next =>
    have := decisive_createSymlinkAs (p := x.1) (q := q) (ec := ec.clear) "create_symlink".toList
    exact this

theorem decisive_chmodAt {m : Perms} {s : Bool} : Decisive (Undone NoError) NoError (chmodAt p m s ec.clear) := by unfold chmodAt; onecall ec

theorem decisive_permissions {m : Perms} {o : PermOptions} : Decisive (Undone NoError) NoError (permissions p m o ec) := by
  unfold permissions
  simp only [Prog.bind_eq]
  split
  · exact .stop _
  split
  · refine .after (Q := fun _ => True) ?_ fun x _ => ?_
    · show Calls Harmless _
      unfold permStatus
      split
      · exact calls_status harmless_eyes
      · exact calls_symlinkStatus harmless_eyes
    split
    next h => exact .report _ _ _ _ (undone_noError _ (code_some h))
    split
    · exact .stop _
    · exact decisive_chmodAt
  · exact decisive_chmodAt

theorem decisive_createDirectory : Decisive (Undone Yes) Yes (createDirectory p ec) := by
  refine .call _ _ (fun r hr => ?_) fun r hr => ?_
  · cases r with
    | error e => cases hr
    | ok _ => exact .ret _ ⟨rfl, clear_unset ec⟩
  · cases r with
    | ok _ => cases hr
    | error e =>
      simp only [Prog.bind_eq]
      split
      · exact .ret _ (undone_yes _)
      · exact .tell _ _ _ _ _ (.ret _ (undone_yes _))

theorem decisive_remove : Decisive (Undone Yes) Yes (remove p ec) := by
  unfold remove
  dsimp only
  split
  · exact .ret _ (undone_yes _)
  refine .call _ _ (fun r hr => ?_) fun r hr => ?_
  · cases r with
    | error e => cases hr
    | ok _ => exact .ret _ ⟨rfl, clear_unset ec⟩
  · cases r with
    | ok _ => cases hr
    | error e =>
      simp only [Prog.bind_eq]
      split
      · exact .ret _ (undone_yes _)
      · exact .tell _ _ _ _ _ (.ret _ (undone_yes _))

theorem decisive_createDirectoryLike : Decisive (Undone Yes) Yes (createDirectoryLike p q ec) := by
  unfold createDirectoryLike
  simp only [Prog.bind_eq]
  refine .after (calls_getFileStatus harmless_eyes) fun x _ => ?_
  split
  · exact .report _ _ _ _ (undone_yes _)
  split
  · exact .reportMsg _ _ _ _ _ (undone_yes _)
  refine .after (Q := fun _ => True) (Calls.useStat _) fun a _ => ?_
  refine .call _ _ (fun r hr => ?_) fun r hr => ?_
  · cases r with
    | error e => cases hr
    | ok _ => exact .ret _ ⟨rfl, clear_unset ec⟩
  · cases r with
    | ok _ => cases hr
    | error e =>
      dsimp only
      split
      · exact .ret _ (undone_yes _)
      · exact .tell _ _ _ _ _ (.ret _ (undone_yes _))

theorem decisive_op (op : FsOp α) (h : FsOp.oneStep op = true) (ec : EcArg) :
    Decisive (Undone (FsOp.SaysDone op)) (FsOp.SaysDone op) (op.prog ec) := by
  cases op with
  | copySymlink a b => exact decisive_copySymlink
  | createDirectory p => exact decisive_createDirectory
  | createDirectoryLike p q => exact decisive_createDirectoryLike
  | createSymlink a b => exact decisive_createSymlinkAs _
  | createDirectorySymlink a b => exact decisive_createSymlinkAs _
  | createHardLink a b => exact decisive_createHardLink
  | setCurrentPath p => exact decisive_setCurrentPath
  | setLastWriteTime p t => exact decisive_setLastWriteTime
  | permissions p m o => exact decisive_permissions
  | remove p => exact decisive_remove
  | rename a b => exact decisive_rename
  | resizeFile p z => exact decisive_resizeFile
  | _ => cases h


theorem Settled.close (h : Nat) : Settled (fun _ => True) (Win.closeHandle h) := .call _ _ fun _ => .ret _ trivial

namespace Win

theorem decisive_withFile {A G : α → Prop} {o : WinOpen} {fail : Errno → Prog α} {body : Nat → Prog α} (hf : ∀ e, Decisive A G (fail e))
    (hb : ∀ h, Decisive A G (body h)) : Decisive A G (withFile p o fail body) := by
  refine .call _ _ (fun r hr => by cases hr) fun r _ => ?_
  cases r with
  | error e => exact hf e
  | ok h => exact .finally' (.close h) (.call _ _ rfl fun _ => .ret _ trivial) (hb h)

theorem decisive_createSymlinkAs (fn : Str) (d : Bool) : Decisive (Undone NoError) NoError (Win.createSymlinkAs fn d p q ec) := by
  unfold Win.createSymlinkAs; onecall ec
theorem decisive_createHardLink : Decisive (Undone NoError) NoError (Win.createHardLink p q ec) := by unfold Win.createHardLink; onecall ec
theorem decisive_setCurrentPath : Decisive (Undone NoError) NoError (Win.setCurrentPath p ec) := by unfold Win.setCurrentPath; onecall ec
theorem decisive_putPerms {m : Perms} : Decisive (Undone NoError) NoError (putPerms p m ec.clear) := by unfold putPerms; onecall ec

theorem decisive_permissions {m : Perms} {o : PermOptions} : Decisive (Undone NoError) NoError (Win.permissions p m o ec) := by
  unfold Win.permissions
  dsimp only
  split
  · exact .stop _
  split
  · refine .after (Q := fun _ => True) ?_ fun x _ => ?_
    · split
      · exact only_status ..
      · exact only_symlinkStatus ..
    split
    next h => exact .report _ _ _ _ (undone_noError _ (code_some h))
    split
    · exact .stop _
    · exact decisive_putPerms
  · exact decisive_putPerms

theorem decisive_copySymlink : Decisive (Undone NoError) NoError (Win.copySymlink p q ec) := by
  unfold Win.copySymlink
  dsimp only
  refine .after (only_readSymlink ..) fun x _ => ?_
  split
  next h => exact .report _ _ _ _ (undone_noError _ (code_some h))
  refine .after (only_isDirectoryP ..) fun y _ => ?_
  split
  next h => exact .report _ _ _ _ (undone_noError _ (code_some h))
  split
  · exact decisive_createSymlinkAs _ _
  · exact decisive_createSymlinkAs _ _

theorem decisive_setLastWriteTime {k : SysClock} {t : Int} : Decisive (Undone NoError) NoError (Win.setLastWriteTime k p t ec) := by
  unfold Win.setLastWriteTime
  refine decisive_withFile (fun e => .report _ _ _ _ (undone_noError _ rfl)) fun h => ?_
  refine .after (Q := fun _ => True) (Only.ofRes _) fun x _ => ?_
  obtain ⟨x, m⟩ := x
  cases m with
  | some e => exact .report _ _ _ _ (undone_noError _ rfl)
  | none =>
    dsimp only
    onecall ec

theorem decisive_resizeFile {z : BitVec 64} : Decisive (Undone NoError) NoError (Win.resizeFile p z ec) := by
  unfold Win.resizeFile
  refine decisive_withFile (fun e => .report _ _ _ _ (undone_noError _ rfl)) fun h => ?_
  refine .call _ _ (fun r hr => by cases hr) fun r _ => ?_
  cases r with
  | error e => exact .report _ _ _ _ (undone_noError _ rfl)
  | ok _ => onecall ec

theorem decisive_rename : Decisive (Undone NoError) NoError (Win.rename p q ec) := by
  unfold Win.rename
  refine .call _ _ (fun r hr => ?_) fun r hr => ?_
  · cases r with
    | error e => cases hr
    | ok _ => exact .ret _ (clear_unset ec)
  · cases r with
    | ok _ => cases hr
    | error e =>
      refine .after (Q := fun _ => True) (.call _ _ rfl fun c => ?_) fun e _ => .report _ _ _ _ (undone_noError _ rfl)
      cases c with
      | none => exact .stop _
      | some e => exact .ret _ trivial

theorem decisive_createDirectory : Decisive (Undone Yes) Yes (Win.createDirectory p ec) := by
  refine .call _ _ (fun r hr => ?_) fun r hr => ?_
  · cases r with
    | error e => cases hr
    | ok _ => exact .ret _ ⟨rfl, clear_unset ec⟩
  · cases r with
    | ok _ => cases hr
    | error e =>
      dsimp only
      split
      · exact .tell _ _ _ _ _ (.ret _ (undone_yes _))
      · exact .ret _ (undone_yes _)

theorem decisive_createDirectoryLike : Decisive (fun _ => True) Yes (Win.createDirectoryLike p q ec) := by
  refine .call _ _ (fun r hr => ?_) fun r hr => ?_
  · cases r with
    | error e => cases hr
    | ok _ => exact .ret _ ⟨rfl, clear_unset ec⟩
  · cases r with
    | ok _ => cases hr
    | error e =>
      dsimp only
      split
      · exact .tell _ _ _ _ _ (.ret _ trivial)
      · exact .ret _ trivial

theorem decisive_remove : Decisive (fun _ => True) Yes (Win.remove p ec) := by
  unfold Win.remove
  dsimp only
  split
  · exact .ret _ trivial
  refine .call _ _ (fun r hr => by cases hr) fun r _ => ?_
  cases r with
  | error e =>
    dsimp only
    split
    · exact .ret _ trivial
    · exact .report _ _ _ _ trivial
  | ok a =>
    dsimp only
    split
    all_goals
      refine .call _ _ (fun r hr => ?_) fun r hr => ?_
      · cases r with
        | error e => cases hr
        | ok _ => exact .ret _ ⟨rfl, clear_unset ec⟩
      · cases r with
        | ok _ => cases hr
        | error e =>
          dsimp only
          split
          · exact .tell _ _ _ _ _ (.ret _ trivial)
          · exact .ret _ trivial

theorem only_shouldCopy {k : SysClock} {h : Handler} {b : Bool} {opts : CopyOptions} :
    Only Harmless (fun x => x.1 = true → x.2.isSet = false) (shouldCopy k h p q b opts ec.clear) := by
  have hr : ∀ c, Only Harmless (fun x : Bool × EcArg => x.1 = true → x.2.isSet = false) (h.report ec.clear c false) := by
    intro c
    cases ec
    · exact .stop _
    · exact .ret _ fun h => by cases h
  unfold shouldCopy
  split
  · refine Only.bind (only_lastWriteTime ..) fun x _ => ?_
    split
    · exact hr _
    refine Only.bind (only_lastWriteTime ..) fun y _ => ?_
    split
    · exact hr _
    · exact .ret _ fun _ => clear_unset ec
  split
  · exact .ret _ fun _ => clear_unset ec
  · exact hr _

theorem decisive_copyFile {k : SysClock} {opts : CopyOptions} : Decisive (Undone Yes) Yes (Win.copyFile k p q opts ec) := by
  unfold Win.copyFile
  dsimp only
  refine .after (only_status ..) fun f _ => ?_
  split
  · exact .report _ _ _ _ (undone_yes _)
  split
  · exact .report _ _ _ _ (undone_yes _)
  refine .after (only_status ..) fun t _ => ?_
  split
  · exact .report _ _ _ _ (undone_yes _)
  split
  · exact .report _ _ _ _ (undone_yes _)
  refine .after (Q := fun _ => True) ?_ fun e _ => ?_
  · split
    · exact only_equivalent ..
    · exact .ret _ trivial
  split
  · exact .report _ _ _ _ (undone_yes _)
  split
  · exact .ret _ (undone_yes _)
  refine .after only_shouldCopy fun x hx => ?_
  unfold doCopy
  split
  · exact .ret _ (undone_yes _)
  next h =>
    refine .call _ _ (fun r hr => ?_) fun r hr => ?_
    · cases r with
      | error e => cases hr
      | ok _ => exact .ret _ ⟨rfl, hx (by simpa using h)⟩
    · cases r with
      | ok _ => cases hr
      | error e => exact .report _ _ _ _ (undone_yes _)

theorem decisive_op (op : WinOp α) (h : WinOp.oneStep op = true) (ec : EcArg) :
    Decisive (fun x => WinOp.boasts op = false → ¬ WinOp.SaysDone op x) (WinOp.SaysDone op) (op.prog ec) := by
  cases op with
  | copyFile k a b o => exact decisive_copyFile.mono fun _ h _ => h
  | copySymlink a b => exact decisive_copySymlink.mono fun _ h _ => h
  | createDirectory p => exact decisive_createDirectory.mono fun _ h _ => h
  | createDirectoryLike p q => exact decisive_createDirectoryLike.mono fun _ _ h => by cases h
  | createSymlink a b => exact (decisive_createSymlinkAs _ _).mono fun _ h _ => h
  | createDirectorySymlink a b => exact (decisive_createSymlinkAs _ _).mono fun _ h _ => h
  | createHardLink a b => exact decisive_createHardLink.mono fun _ h _ => h
  | setCurrentPath p => exact decisive_setCurrentPath.mono fun _ h _ => h
  | setLastWriteTime k p t => exact decisive_setLastWriteTime.mono fun _ h _ => h
  | permissions p m o => exact decisive_permissions.mono fun _ h _ => h
  | remove p => exact decisive_remove.mono fun _ _ h => by cases h
  | rename a b => exact decisive_rename.mono fun _ h _ => h
  | resizeFile p z => exact decisive_resizeFile.mono fun _ h _ => h
  | _ => cases h

end Win

end

/-- **C135**: an operation that makes one change says that it was made exactly if it was made: whatever the system answers, if an error is
reported, an exception thrown or `false` returned, no changing call succeeded. -/
theorem c135_said_iff_done {α : Type} (op : FsOp α) (h : FsOp.oneStep op = true) (ec : EcArg) {t : List Event} {o : Except Stop (α × EcArg)}
    (hx : Exec (op.prog ec) t o) : Changed t ↔ ∃ x, o = .ok x ∧ FsOp.SaysDone op x := by
  obtain ⟨h1, h2⟩ := (decisive_op op h ec).exec hx
  refine ⟨h1, fun ⟨x, e, hs⟩ => ?_⟩
  rcases Classical.em (Changed t) with hc | hc
  · exact hc
  · exact absurd hs (h2 hc x e)

/-- An operation that makes no change and may make none. -/
theorem FsOp.quiet {α : Type} (op : FsOp α) (h1 : FsOp.oneStep op = false) (h2 : FsOp.manySteps op = false) (c : Sys) :
    Spec.FsOp.changes op c = false := by
  cases op <;> first | rfl | (cases h1; done) | (cases h2; done)
theorem WinOp.quiet {α : Type} (op : WinOp α) (h1 : WinOp.oneStep op = false) (h2 : WinOp.manySteps op = false) (c : Sys) :
    Spec.WinOp.changes op c = false := by
  cases op <;> first | rfl | (cases h1; done) | (cases h2; done)

/-- **C135** for every operation but `copy`, `copy_file`, `create_directories` and `remove_all`: if an error is reported or an exception
thrown, nothing was changed, whatever the system answers. (Partial: those four can fail halfway, see `c135_violated`.) -/
theorem c135_failed_partial {α : Type} (op : FsOp α) (h : FsOp.manySteps op = false) (ec : EcArg) {t : List Event} {o : Except Stop (α × EcArg)}
    (hx : Exec (op.prog ec) t o) (hf : (∃ s, o = .error s) ∨ ∃ v e, o = .ok (v, .ref (some e))) : ¬ Changed t := by
  intro hc
  cases h1 : FsOp.oneStep op with
  | true =>
    obtain ⟨x, rfl, hs⟩ := (c135_said_iff_done op h1 ec hx).1 hc
    have : x.2.isSet = false := by
      cases op <;> first | exact hs | exact hs.2 | cases h1
    rcases hf with ⟨s, h⟩ | ⟨v, e, h⟩
    · cases h
    · cases h; cases this
  | false =>
    obtain ⟨e, he, ht⟩ := hc
    cases hm : e.call.mutates with
    | false => rw [took_mutates hm] at ht; cases ht
    | true =>
      have := c113_operations op ec hx e he hm
      rw [FsOp.quiet op h1 h] at this
      cases this

/-- **C135** on Windows: if one of the operations that make one change, among them `copy_file`, made it, it says so. -/
theorem c135_windows_done_is_said {α : Type} (op : WinOp α) (h : WinOp.oneStep op = true) (ec : EcArg) {t : List Event}
    {o : Except Stop (α × EcArg)} (hx : Exec (op.prog ec) t o) (hc : Changed t) : ∃ x, o = .ok x ∧ WinOp.SaysDone op x :=
  ((Win.decisive_op op h ec).exec hx).1 hc

/-- **C135** on Windows: and except for `remove` and `create_directory` with a template, what it says was done. -/
theorem c135_windows_said_iff_done_partial {α : Type} (op : WinOp α) (h : WinOp.oneStep op = true) (hb : WinOp.boasts op = false) (ec : EcArg)
    {t : List Event} {o : Except Stop (α × EcArg)} (hx : Exec (op.prog ec) t o) : Changed t ↔ ∃ x, o = .ok x ∧ WinOp.SaysDone op x := by
  obtain ⟨h1, h2⟩ := (Win.decisive_op op h ec).exec hx
  refine ⟨h1, fun ⟨x, e, hs⟩ => ?_⟩
  rcases Classical.em (Changed t) with hc | hc
  · exact hc
  · exact absurd hs (h2 hc x e hb)

/-- **C135** on Windows for every operation but `copy`, `create_directories` and `remove_all`. -/
theorem c135_windows_failed_partial {α : Type} (op : WinOp α) (h : WinOp.manySteps op = false) (ec : EcArg) {t : List Event}
    {o : Except Stop (α × EcArg)} (hx : Exec (op.prog ec) t o) (hf : (∃ s, o = .error s) ∨ ∃ v e, o = .ok (v, .ref (some e))) : ¬ Changed t := by
  intro hc
  cases h1 : WinOp.oneStep op with
  | true =>
    obtain ⟨x, rfl, hs⟩ := c135_windows_done_is_said op h1 ec hx hc
    have : x.2.isSet = false := by
      cases op <;> first | exact hs | exact hs.2 | cases h1
    rcases hf with ⟨s, h⟩ | ⟨v, e, h⟩
    · cases h
    · cases h; cases this
  | false =>
    obtain ⟨e, he, ht⟩ := hc
    cases hm : e.call.mutates with
    | false => rw [took_mutates hm] at ht; cases ht
    | true =>
      have := c116_operations op ec hx e he hm
      rw [WinOp.quiet op h1 h] at this
      cases this

/-- **C135 is violated** by `copy_file`, `copy`, `create_directories` and `remove_all`: they can report an error after a change. The disk is full while
a file is copied: the new file stays. The second of two directories cannot be made: the first stays. The second of two files cannot be
removed: the first is gone. -/
theorem c135_violated :
    (∃ t, Exec (copyFile false 9 (mkPath .posix "a".toList) (mkPath .posix "b".toList) 0 (.ref none)) t (.ok (false, .ref (some .ENOSPC))) ∧ Changed t) ∧
    (∃ t, Exec (copy false 9 (mkPath .posix "a".toList) (mkPath .posix "b".toList) 0 (.ref none)) t (.ok ((), .ref (some .ENOSPC))) ∧ Changed t) ∧
    (∃ t, Exec (createDirectories false 9 (mkPath .posix "a/b".toList) (.ref none)) t (.ok (false, .ref (some .EACCES))) ∧ Changed t) ∧
    (∃ t, Exec (removeAll 9 (mkPath .posix "d".toList) (.ref none)) t (.ok (BitVec.allOnes 64, .ref (some .EACCES))) ∧ Changed t) := by
  refine ⟨⟨[⟨.openf "a".toList ⟨false, false, true⟩ 0, (.ok 3 : Except Errno Nat)⟩,
      ⟨.lstat "a".toList, (.ok { Stat.zero with mode := 0o100644, ino := 1, size := 1 } : Except Errno Stat)⟩,
      ⟨.stat "b".toList, (.error .ENOENT : Except Errno Stat)⟩,
      ⟨.openf "b".toList ⟨true, true, false⟩ 0o100644, (.ok 4 : Except Errno Nat)⟩,
      ⟨.lstat "b".toList, (.ok { Stat.zero with mode := 0o100644, ino := 2 } : Except Errno Stat)⟩,
      ⟨.read 3 8192, (.ok [7] : Except Errno Bytes)⟩,
      ⟨.write 4 [7], (.error .ENOSPC : Except Errno Nat)⟩,
      ⟨.close 4, (.ok () : Except Errno Unit)⟩, ⟨.close 3, (.ok () : Except Errno Unit)⟩], feed_exec (by rfl), ?_⟩,
    ⟨[⟨.stat "a".toList, (.ok { Stat.zero with mode := 0o100644, ino := 1, size := 1 } : Except Errno Stat)⟩,
      ⟨.stat "b".toList, (.error .ENOENT : Except Errno Stat)⟩,
      ⟨.openf "a".toList ⟨false, false, true⟩ 0, (.ok 3 : Except Errno Nat)⟩,
      ⟨.lstat "a".toList, (.ok { Stat.zero with mode := 0o100644, ino := 1, size := 1 } : Except Errno Stat)⟩,
      ⟨.stat "b".toList, (.error .ENOENT : Except Errno Stat)⟩,
      ⟨.openf "b".toList ⟨true, true, false⟩ 0o100644, (.ok 4 : Except Errno Nat)⟩,
      ⟨.lstat "b".toList, (.ok { Stat.zero with mode := 0o100644, ino := 2 } : Except Errno Stat)⟩,
      ⟨.read 3 8192, (.ok [7] : Except Errno Bytes)⟩,
      ⟨.write 4 [7], (.error .ENOSPC : Except Errno Nat)⟩,
      ⟨.close 4, (.ok () : Except Errno Unit)⟩, ⟨.close 3, (.ok () : Except Errno Unit)⟩], feed_exec (by rfl), ?_⟩,
    ⟨[⟨.stat "a".toList, (.error .ENOENT : Except Errno Stat)⟩, ⟨.mkdir "a".toList Perms.all, (.ok () : Except Errno Unit)⟩,
      ⟨.stat "a/b".toList, (.error .ENOENT : Except Errno Stat)⟩, ⟨.mkdir "a/b".toList Perms.all, (.error .EACCES : Except Errno Unit)⟩,
      ⟨.stat "a/b".toList, (.error .ENOENT : Except Errno Stat)⟩], feed_exec (by rfl), ?_⟩,
    ⟨[⟨.lstat "d".toList, (.ok { Stat.zero with mode := 0o040755 } : Except Errno Stat)⟩,
      ⟨.opendir "d".toList, (.ok 3 : Except Errno Nat)⟩,
      ⟨.readdir 3, (.ok (some ⟨"f".toList, .reg⟩) : Except Errno (Option Dirent))⟩,
      ⟨.lstat "d/f".toList, (.ok { Stat.zero with mode := 0o100644 } : Except Errno Stat)⟩,
      ⟨.remove "d/f".toList, (.ok () : Except Errno Unit)⟩,
      ⟨.readdir 3, (.ok (some ⟨"g".toList, .reg⟩) : Except Errno (Option Dirent))⟩,
      ⟨.lstat "d/g".toList, (.ok { Stat.zero with mode := 0o100644 } : Except Errno Stat)⟩,
      ⟨.remove "d/g".toList, (.error .EACCES : Except Errno Unit)⟩,
      ⟨.closedir 3, (.ok () : Except Errno Unit)⟩], feed_exec (by rfl), ?_⟩⟩
  · exact ⟨⟨.openf "b".toList ⟨true, true, false⟩ 0o100644, (.ok 4 : Except Errno Nat)⟩, by simp, rfl⟩
  · exact ⟨⟨.openf "b".toList ⟨true, true, false⟩ 0o100644, (.ok 4 : Except Errno Nat)⟩, by simp, rfl⟩
  · exact ⟨⟨.mkdir "a".toList Perms.all, (.ok () : Except Errno Unit)⟩, by simp, rfl⟩
  · exact ⟨⟨.remove "d/f".toList, (.ok () : Except Errno Unit)⟩, by simp, rfl⟩

/-- **C135 is violated** on Windows by `remove`: it says that it has removed a file that another process removed after it was found; and by
`create_directory` with a template: it says that it has made a directory that was there. -/
theorem c135_windows_violated :
    (∃ t, Exec (Win.remove (mkPath .windows "f".toList) (.ref none)) t (.ok (true, .ref none)) ∧ ¬ Changed t) ∧
    (∃ t, Exec (Win.createDirectoryLike (mkPath .windows "d".toList) (mkPath .windows "e".toList) (.ref none)) t (.ok (true, .ref none)) ∧
      ¬ Changed t) := by
  refine ⟨⟨[⟨.win (.getAttrs "f".toList), (.ok 0x80 : Except Errno (BitVec 32))⟩,
      ⟨.win (.deleteFile "f".toList), (.error .ENOENT : Except Errno Unit)⟩], feed_exec (by rfl), ?_⟩,
    ⟨[⟨.win (.createDirectoryEx "e".toList "d".toList), (.error (.other 183) : Except Errno Unit)⟩], feed_exec (by rfl), ?_⟩⟩
  all_goals
    rintro ⟨e, he, ht⟩
    simp at he
    first
      | (rcases he with rfl | rfl <;> cases ht)
      | (subst he; cases ht)

/-- The hypotheses are met: a link is made and said to be made; a directory that cannot be made is said not to be made; a file is resized on
Windows although the handle cannot be closed. -/
example : (∃ t, Exec ((FsOp.createSymlink (mkPath .posix "a".toList) (mkPath .posix "b".toList)).prog .null) t (.ok ((), .null)) ∧ Changed t) ∧
    (∃ t, Exec ((FsOp.createDirectory (mkPath .posix "a".toList)).prog (.ref none)) t (.ok (false, .ref (some .EACCES))) ∧ t ≠ []) ∧
    (∃ t, Exec ((WinOp.resizeFile (mkPath .windows "a".toList) 9).prog (.ref none)) t (.ok ((), .ref none)) ∧ Changed t) :=
  ⟨⟨[⟨.symlink "a".toList "b".toList, (.ok () : Except Errno Unit)⟩], feed_exec (by rfl), _, List.mem_cons_self .., rfl⟩,
    ⟨[⟨.mkdir "a".toList Perms.all, (.error .EACCES : Except Errno Unit)⟩], feed_exec (by rfl), by simp⟩,
    ⟨[⟨.win (.createFile "a".toList ⟨Win.GENERIC_READ ||| Win.GENERIC_WRITE, false, false, false⟩), (.ok 4 : Except Errno Nat)⟩,
      ⟨.win (.setPointer 4 9), (.ok () : Except Errno Unit)⟩, ⟨.win (.setEnd 4), (.ok () : Except Errno Unit)⟩,
      ⟨.win (.closeHandle 4), (.error (.other 6) : Except Errno Unit)⟩], feed_exec (by rfl),
      ⟨.win (.setEnd 4), (.ok () : Except Errno Unit)⟩, by simp, rfl⟩⟩

end Asap
