import Verif.Props.CStr
import Verif.Props.WinAG
import Verif.Props.WinAI
import Verif.Props.WinL

/-!
# C133: Windows sees the whole text of a path
-/

namespace Asap
namespace Spec

/-- The paths given to an operation on Windows have no null characters. -/
def WinArgsNulFree {α : Type} : WinOp α → Prop
  | .absolute p | .createDirectory p | .createDirectories _ _ p | .setCurrentPath p | .exists' p | .isDirectory p | .isSymlink p
  | .status p | .symlinkStatus p | .fileSize p | .hardLinkCount p | .isEmpty _ p | .lastWriteTime _ p | .setLastWriteTime _ p _
  | .permissions p _ _ | .readSymlink p | .remove p | .removeAll _ p | .resizeFile p _ | .space p | .dirIter _ p _ | .recIter _ p _ => NulFree p
  | .copy _ _ p q _ | .copyFile _ p q _ | .copySymlink p q | .createDirectoryLike p q | .createSymlink p q
  | .createDirectorySymlink p q | .createHardLink p q | .equivalent p q | .rename p q => NulFree p ∧ NulFree q
  | .dirIterIncr _ it => IterNulFree it
  | .recIterIncr _ it | .recIterPop _ it => RecNulFree it
  | .currentPath | .tempDirectoryPath => True

/-- The paths in its result have none either. -/
def WinResultNulFree {α : Type} : WinOp α → α → Prop
  | .absolute _ | .currentPath | .readSymlink _ | .tempDirectoryPath => NulFree
  | .dirIter _ _ _ | .dirIterIncr _ _ => IterNulFree
  | .recIter _ _ _ | .recIterIncr _ _ | .recIterPop _ _ => RecNulFree
  | _ => fun _ => True

/-- The paths given to a function that resolves a path have none. -/
def ResolveNulFree (f : Resolve) : Prop := NulFree f.arg ∧ ∀ b, f.base? = some b → NulFree b

end Spec
open Spec

namespace Win

theorem nn_sepW : NN (prefSep .windows) := by decide

theorem nfw_mkPath {s : Str} (h : '\x00' ∉ s) : NulFree (mkPath .windows s) := over_nn.mp (over_mkPath nn_sepW (txt_nn.mpr h))
theorem nfw_append {p q r : Path} (h : NulFree p) (h' : NulFree q) (e : append .windows p q = .ok r) : NulFree r :=
  over_nn.mp ((over_nn.mpr h).append nn_sepW (over_nn.mpr h') e)
theorem nfw_returned {p : Path} (h : NulFree p) (el : Bool) : NulFree (returned .windows el p) := over_nn.mp ((over_nn.mpr h).returned nn_sepW el)
theorem nfw_filename {p q : Path} (h : NulFree p) (e : filename .windows p = .ok q) : NulFree q := over_nn.mp ((over_nn.mpr h).filename e)
theorem nfw_parentPath {p q : Path} {el : Bool} (h : NulFree p) (e : parentPath .windows el p = .ok q) : NulFree q :=
  over_nn.mp ((over_nn.mpr h).parentPath nn_sepW e)
theorem nfw_relativePath {p q : Path} (h : NulFree p) (e : relativePath .windows p = .ok q) : NulFree q :=
  over_nn.mp ((over_nn.mpr h).relativePath nn_sepW e)
theorem nfw_rootPath {p : Path} (h : NulFree p) : NulFree (rootPath .windows p) := over_nn.mp ((over_nn.mpr h).rootPath nn_sepW)
theorem nfw_removeFilename {p q : Path} (h : NulFree p) (e : removeFilename .windows p = .ok q) : NulFree q :=
  over_nn.mp ((over_nn.mpr h).removeFilename nn_sepW e)
theorem nfw_normal {p q : Path} {el : Bool} (h : NulFree p) (e : lexicallyNormal .windows el p = .ok q) : NulFree q :=
  over_nn.mp ((over_nn.mpr h).lexicallyNormal nn_sepW nn_dot e)
theorem nfw_moved {p : Path} (h : NulFree p) : NulFree (p.moved .windows) := nfw_mkPath h.text

/-- A text that is whole has no null characters. -/
theorem whole_text {s : Str} (h : cString s = s) : '\x00' ∉ s := by
  induction s with
  | nil => simp
  | cons c s ih =>
    unfold cString at h ih
    rw [List.takeWhile_cons] at h
    split at h
    · rename_i hc
      simp only [List.cons.injEq, true_and] at h
      have hc : c ≠ '\x00' := by simpa using hc
      rw [List.mem_cons, not_or]
      exact ⟨fun e => hc e.symm, ih h⟩
    · cases h

theorem nf_text {s : Str} (h : cString s = s) : NulFree ⟨s, [], .filename⟩ := ⟨whole_text h, by simp⟩

/-- A call whose text has no null character is seen as it is. -/
macro "wholew" : tactic => `(tactic| first | rfl | (simp [Sys.cut, WinCall.cut, NulFree.cut, *]; done))

/-- Programs of calls on the given paths. -/
macro "fairw" : tactic => `(tactic| repeat' first
  | with_reducible exact Fair.ret _ trivial
  | with_reducible exact Fair.stop _
  | with_reducible exact Fair.report trivial
  | with_reducible exact Fair.reportMsg trivial
  | (with_reducible refine Fair.call _ _ (by wholew) fun r hr => ?_)
  | (with_reducible refine Fair.bind (Q := fun _ => True) (Fair.report trivial) fun _ _ => ?_)
  | (with_reducible refine Fair.bind (Q := fun _ => True) (Fair.reportMsg trivial) fun _ _ => ?_)
  | (with_reducible refine Fair.bind (Q := fun _ => True) (Fair.ofRes fun _ _ => trivial) fun _ _ => ?_)
  | split
  | dsimp only)

section
variable {p q : Path} {ec : EcArg} {α : Type}

theorem fair_withFile {Q : α → Prop} {o : WinOpen} {f : Errno → Prog α} {g : Nat → Prog α} (hp : NulFree p) (hf : ∀ e, Fair Q (f e))
    (hg : ∀ h, Fair Q (g h)) : Fair Q (withFile p o f g) := by
  refine .call _ _ (by wholew) fun r _ => ?_
  rcases r with e | h
  · exact hf e
  · exact .finally' (hg h) (.call _ _ rfl fun _ _ => .ret _ trivial)

theorem fair_captureErrno : Fair (fun _ => True) captureErrno := by
  refine .call _ _ rfl fun r _ => ?_
  cases r
  · exact .stop _
  · exact .ret _ trivial

theorem fair_isReparse (hp : NulFree p) : Fair (fun _ => True) (isReparsePointSymlink p ec) := by
  refine fair_withFile hp (fun _ => .report trivial) fun h => .call _ _ rfl fun r _ => ?_
  cases r
  · exact .report trivial
  · exact .ret _ trivial

theorem fairw_status (hp : NulFree p) : Fair (fun _ => True) (status p ec) := by
  refine .call _ _ (by wholew) fun r _ => ?_
  cases r with
  | error e => exact .ret _ trivial
  | ok a =>
    refine Fair.bind (Q := fun _ => True) ?_ fun x _ => ?_
    · unfold targetAttrs
      split
      · refine fair_withFile hp (fun _ => .ret _ trivial) fun h => .call _ _ rfl fun r _ => ?_
        cases r <;> exact .ret _ trivial
      · exact .ret _ trivial
    · cases x with
      | error e => exact .ret _ trivial
      | ok a =>
        refine .call _ _ (by wholew) fun r _ => ?_
        cases r <;> exact .ret _ trivial

theorem fairw_symlinkStatus (hp : NulFree p) : Fair (fun _ => True) (symlinkStatus p ec) := by
  refine .call _ _ (by wholew) fun r _ => ?_
  cases r with
  | error e => exact .ret _ trivial
  | ok a =>
    refine .call _ _ (by wholew) fun r _ => ?_
    cases r with
    | error e => exact .ret _ trivial
    | ok m =>
      dsimp only
      split
      · exact (fair_isReparse hp).bind fun _ _ => .ret _ trivial
      · exact .ret _ trivial

theorem fairw_existsP (hp : NulFree p) : Fair (fun _ => True) (existsP p ec) := (fairw_status hp).bind fun _ _ => .ret _ trivial
theorem fairw_isDirectoryP (hp : NulFree p) : Fair (fun _ => True) (isDirectoryP p ec) := (fairw_status hp).bind fun _ _ => .ret _ trivial
theorem fairw_isSymlinkP (hp : NulFree p) : Fair (fun _ => True) (isSymlinkP p ec) := (fairw_symlinkStatus hp).bind fun _ _ => .ret _ trivial

theorem nf_printName {h : Nat} {ws : List (BitVec 16)} {r : Path}
    (ha : CAnswer ⟨.win (.reparse h), (.ok ws : Except Errno (List (BitVec 16)))⟩) (e : printName ws = .ok r) : NulFree r := by
  unfold printName at e
  dsimp only at e
  split at e
  · cases e
    refine nfw_mkPath ?_
    intro hc
    obtain ⟨w, hw, hz⟩ := List.mem_map.mp hc
    unfold units at hw
    obtain ⟨k, hk, rfl⟩ := List.mem_map.mp hw
    rw [List.mem_range] at hk
    have h7 : 7 < ws.length := by
      rcases Nat.lt_or_ge 7 ws.length with h | h
      · exact h
      · simp [unit, List.getD, List.getElem?_eq_none h] at hk
    have e6 : ws[6]? = some (unit ws 6) := by simp [unit, List.getD, List.getElem?_eq_getElem (show 6 < ws.length by omega)]
    have e7 : ws[7]? = some (unit ws 7) := by simp [unit, List.getD, List.getElem?_eq_getElem h7]
    exact ha _ _ e6 e7 k hk hz
  · cases e

theorem fairw_readSymlink (hp : NulFree p) : Fair (fun r => NulFree r.1) (readSymlink p ec) := by
  refine fair_withFile hp (fun _ => .report nf_default) fun h => .call _ _ rfl fun r hr => ?_
  cases r with
  | error e => exact .report nf_default
  | ok ws => exact Fair.bind (.ofRes fun r h => nf_printName hr h) fun r h => .ret _ h

theorem fairw_currentPath : Fair (fun r => NulFree r.1) (currentPath ec) := by
  refine .call _ _ rfl fun r _ => ?_
  refine .call _ _ rfl fun x hx => ?_
  rcases x with e | _ | s
  · exact .reportMsg nf_default
  · exact .stop _
  · exact .ret _ (nfw_mkPath hx)

theorem fairw_doAbsolute (hp : NulFree p) : Fair (fun r => NulFree r.1.1) (doAbsolute p ec) := by
  unfold doAbsolute
  dsimp only
  refine Fair.bind (Q := fun _ => True) (.ofRes fun _ _ => trivial) fun b _ => ?_
  split
  · exact .ret _ hp
  · refine fairw_currentPath.bind fun x h => ?_
    split
    · exact .ret _ nf_default
    · exact Fair.bind (.ofRes fun r hr => nfw_append h hp hr) fun r hr => .ret _ hr

theorem fairw_absolute (hp : NulFree p) : Fair (fun r => NulFree r.1) (absolute p ec) := (fairw_doAbsolute hp).bind fun _ h => .ret _ h

theorem fairw_createDirectory (hp : NulFree p) : Fair (fun _ => True) (createDirectory p ec) := by
  unfold createDirectory
  fairw

theorem fairw_createDirectoryLike (hp : NulFree p) (hq : NulFree q) : Fair (fun _ => True) (createDirectoryLike p q ec) := by
  unfold createDirectoryLike
  fairw

theorem fairw_missingOf {el : Bool} : ∀ (n : Nat) (p : Path) (acc : List Path), NulFree p → (∀ x ∈ acc, NulFree x) →
    Fair (fun l => ∀ x ∈ l, NulFree x) (missingOf el n p acc)
  | 0, _, _, _, _ => .stop _
  | n + 1, p, acc, hp, ha => by
    unfold missingOf
    refine Fair.bind (Q := fun _ => True) (.ofRes fun _ _ => trivial) fun b _ => ?_
    split
    · refine Fair.bind (Q := fun _ => True) (.ofRes fun _ _ => trivial) fun f _ => ?_
      refine Fair.bind (.ofRes fun z hz => nfw_parentPath hp hz) fun z hz => ?_
      refine fairw_missingOf n z _ hz ?_
      split
      · exact ha
      · intro x hx
        rcases List.mem_cons.mp hx with rfl | hx
        · exact hp
        · exact ha x hx
    · exact .ret _ ha

theorem fairw_createTop {b : Bool} (hp : NulFree p) : Fair (fun _ => True) (createTop p b) := by
  unfold createTop
  refine (fairw_status hp).bind fun x _ => ?_
  refine Fair.bind (Q := fun _ => True) ?_ fun z _ => ?_
  · split
    · exact (fairw_createDirectory hp).bind fun _ _ => .ret _ trivial
    · exact .ret _ trivial
  · split
    · exact (fairw_isDirectoryP hp).bind fun _ _ => .ret _ trivial
    · exact .ret _ trivial

theorem fairw_createMissing : ∀ (l : List Path) (b : Bool), (∀ x ∈ l, NulFree x) → Fair (fun _ => True) (createMissing l b)
  | [], _, _ => .ret _ trivial
  | x :: l, b, h => by
    unfold createMissing
    refine (fairw_createTop (h x (by simp))).bind fun y _ => ?_
    split
    · exact .ret _ trivial
    · exact fairw_createMissing l _ fun y hy => h y (by simp [hy])

theorem fairw_createDirectories {el : Bool} {n : Nat} (hp : NulFree p) : Fair (fun _ => True) (createDirectories el n p ec) := by
  unfold createDirectories
  dsimp only
  split
  · exact .report trivial
  refine (fairw_missingOf n p [] hp (by simp)).bind fun l hl => ?_
  split
  · exact .ret _ trivial
  refine (fairw_createMissing _ _ hl).bind fun x _ => ?_
  split
  · exact .report trivial
  · exact .ret _ trivial

theorem fairw_createSymlinkAs {fn : Str} {d : Bool} (hp : NulFree p) (hq : NulFree q) : Fair (fun _ => True) (createSymlinkAs fn d p q ec) := by
  unfold createSymlinkAs
  fairw

theorem fairw_createHardLink (hp : NulFree p) (hq : NulFree q) : Fair (fun _ => True) (createHardLink p q ec) := by
  unfold createHardLink
  fairw

theorem fairw_copySymlink (hp : NulFree p) (hq : NulFree q) : Fair (fun _ => True) (copySymlink p q ec) := by
  unfold copySymlink
  dsimp only
  refine (fairw_readSymlink hp).bind fun x h => ?_
  split
  · exact .report trivial
  refine (fairw_isDirectoryP h).bind fun y _ => ?_
  split
  · exact .report trivial
  split
  · exact fairw_createSymlinkAs h hq
  · exact fairw_createSymlinkAs h hq

theorem fairw_equivalent (hp : NulFree p) (hq : NulFree q) : Fair (fun _ => True) (equivalent p q ec) := by
  refine fair_withFile hp (fun _ => .report trivial) fun h1 => fair_withFile hq (fun _ => .report trivial) fun h2 => ?_
  fairw

theorem fairw_fileSize (hp : NulFree p) : Fair (fun _ => True) (fileSize p ec) := by
  unfold fileSize
  fairw

theorem fairw_hardLinkCount (hp : NulFree p) : Fair (fun _ => True) (hardLinkCount p ec) := by
  refine fair_withFile hp (fun _ => .report trivial) fun h => ?_
  fairw

theorem fairw_lastWriteTime {k : SysClock} (hp : NulFree p) : Fair (fun _ => True) (lastWriteTime k p ec) := by
  refine fair_withFile hp (fun _ => .report trivial) fun h => ?_
  fairw

theorem fairw_setLastWriteTime {k : SysClock} {t : Int} (hp : NulFree p) : Fair (fun _ => True) (setLastWriteTime k p t ec) := by
  refine fair_withFile hp (fun _ => .report trivial) fun h => ?_
  fairw

theorem fairw_putPerms {m : Perms} (hp : NulFree p) : Fair (fun _ => True) (putPerms p m ec) := by
  unfold putPerms
  fairw

theorem fairw_permissions {m : Perms} {o : PermOptions} (hp : NulFree p) : Fair (fun _ => True) (permissions p m o ec) := by
  unfold permissions
  dsimp only
  split
  · exact .stop _
  split
  · refine Fair.bind (Q := fun _ => True) ?_ fun x _ => ?_
    · split
      · exact fairw_status hp
      · exact fairw_symlinkStatus hp
    split
    · exact .report trivial
    split
    · exact .stop _
    · exact fairw_putPerms hp
  · exact fairw_putPerms hp

theorem fairw_remove (hp : NulFree p) : Fair (fun _ => True) (remove p ec) := by
  unfold remove
  fairw

theorem fairw_rename (hp : NulFree p) (hq : NulFree q) : Fair (fun _ => True) (rename p q ec) := by
  refine .call _ _ (by wholew) fun r _ => ?_
  cases r with
  | ok _ => exact .ret _ trivial
  | error e => exact fair_captureErrno.bind fun _ _ => .report trivial

theorem fairw_resizeFile {z : BitVec 64} (hp : NulFree p) : Fair (fun _ => True) (resizeFile p z ec) := by
  refine fair_withFile hp (fun _ => .report trivial) fun h => ?_
  fairw

theorem fairw_space (hp : NulFree p) : Fair (fun _ => True) (space p ec) := by
  unfold space
  refine (fairw_absolute hp).bind fun x h => ?_
  refine Fair.bind (.ofRes fun d hd => nfw_removeFilename h hd) fun d hd => ?_
  fairw

theorem fairw_tempDirectoryPath : Fair (fun r => NulFree r.1) (tempDirectoryPath ec) := by
  refine .call _ _ rfl fun r hr => ?_
  rcases r with (_ | e) | s
  · exact .stop _
  · exact .reportMsg nf_default
  · have hs : NulFree (mkPath .windows s) := nfw_mkPath hr
    refine (fairw_status hs).bind fun x _ => ?_
    split
    · exact .reportMsg nf_default
    split
    · exact .reportMsg nf_default
    · exact .ret _ hs

theorem fairw_copyFile {k : SysClock} {opts : CopyOptions} (hp : NulFree p) (hq : NulFree q) : Fair (fun _ => True) (copyFile k p q opts ec) := by
  unfold copyFile
  dsimp only
  refine (fairw_status hp).bind fun f _ => ?_
  split
  · exact .report trivial
  split
  · exact .report trivial
  refine (fairw_status hq).bind fun t _ => ?_
  split
  · exact .report trivial
  split
  · exact .report trivial
  refine Fair.bind (Q := fun _ => True) ?_ fun e _ => ?_
  · split
    · exact fairw_equivalent hp hq
    · exact .ret _ trivial
  split
  · exact .report trivial
  split
  · exact .ret _ trivial
  refine Fair.bind (Q := fun _ => True) ?_ fun x _ => ?_
  · unfold shouldCopy
    split
    · refine (fairw_lastWriteTime hp).bind fun _ _ => ?_
      split
      · exact .report trivial
      · refine (fairw_lastWriteTime hq).bind fun _ _ => ?_
        split
        · exact .report trivial
        · exact .ret _ trivial
    split
    · exact .ret _ trivial
    · exact .report trivial
  unfold doCopy
  fairw

/-! ## Entries -/

theorem fair_fails {e : Entry} {h : Handler} {m : Code} {c : Cache} {ec : EcArg} :
    Fair (fun r => r.1.path = e.path) ((h.report ec m ()).bind fun x => .ret (({ e with cache := c } : Entry), x.2)) :=
  Fair.bind (Q := fun _ => True) (.report trivial) fun _ _ => .ret _ rfl

theorem fair_basicOpen {a : Mask} {c : Cache} (hp : NulFree p) : Fair (fun _ => True) (basicOpen p a c) := by
  refine fair_withFile hp (fun _ => .ret _ trivial) fun h => ?_
  refine .call _ _ rfl fun r _ => ?_
  cases r with
  | error _ => exact .ret _ trivial
  | ok _ =>
    dsimp only
    split
    · exact .ret _ trivial
    split
    · exact .ret _ trivial
    refine .call _ _ rfl fun t _ => ?_
    split
    · exact .ret _ trivial
    split
    · exact .ret _ trivial
    exact fair_captureErrno.bind fun _ _ => .ret _ trivial

theorem fairw_updateBasic {b : Bool} {e : Entry} (he : EntryNulFree e) : Fair (fun r => r.1.path = e.path) (updateBasic b e ec) := by
  have he' : NulFree e.path := he
  refine .call _ _ (by wholew) fun r _ => ?_
  cases r with
  | error m => exact fair_fails
  | ok a =>
    refine Fair.bind (Q := fun _ => True) ?_ fun x _ => ?_
    · unfold basicReparse
      split
      · refine (fair_isReparse he').bind fun _ _ => ?_
        fairw
      · exact .ret _ trivial
    · split
      · exact fair_fails
      · refine Fair.bind (Q := fun _ => True) ?_ fun y _ => ?_
        · repeat' first
            | with_reducible exact Fair.ret _ trivial
            | exact fair_basicOpen he'
            | split
        · split
          · exact fair_fails
          · exact .ret _ rfl

theorem fairw_extraLink {k : SysClock} {h : Handler} {c : Cache} (hp : NulFree p) : Fair (fun _ => True) (extraLink k p h c ec) := by
  refine fair_withFile hp (fun _ => Fair.bind (Q := fun _ => True) (.report trivial) fun _ _ => .ret _ trivial) fun h => ?_
  fairw

theorem fairw_updateExtra {k : SysClock} {e : Entry} (he : EntryNulFree e) : Fair (fun r => r.1.path = e.path) (updateExtra k e ec) := by
  have he' : NulFree e.path := he
  unfold updateExtra
  dsimp only
  split
  · exact .stop _
  · refine Fair.bind (Q := fun _ => True) ?_ fun x _ => ?_
    · refine fair_withFile he' (fun _ => Fair.bind (Q := fun _ => True) (.report trivial) fun _ _ => .ret _ trivial) fun h => ?_
      fairw
    · split
      · exact .ret _ rfl
      split
      · exact (fairw_extraLink he').bind fun _ _ => .ret _ rfl
      · exact .ret _ rfl

theorem fairw_handlePerms {o : WinOpen} (hp : NulFree p) : Fair (fun _ => True) (handlePerms p o) := by
  refine fair_withFile hp (fun _ => .ret _ trivial) fun h => ?_
  fairw

theorem fairw_updatePerms {b : Bool} {e : Entry} (he : EntryNulFree e) : Fair (fun r => r.1.path = e.path) (updatePerms b e ec) := by
  have he' : NulFree e.path := he
  unfold updatePerms
  dsimp only
  split
  · exact .stop _
  · refine (fairw_handlePerms he').bind fun x _ => ?_
    repeat' first
      | with_reducible exact Fair.ret _ rfl
      | exact fair_fails
      | (refine (fairw_handlePerms he').bind fun _ _ => ?_)
      | split

theorem fairw_basic {b : Bool} {e : Entry} (he : EntryNulFree e) : Fair (fun r => EntryNulFree r.1) (updateBasic b e ec) :=
  (fairw_updateBasic he).mono fun r hr => by rw [EntryNulFree, hr]; exact he
theorem fairw_extra {k : SysClock} {e : Entry} (he : EntryNulFree e) : Fair (fun r => EntryNulFree r.1) (updateExtra k e ec) :=
  (fairw_updateExtra he).mono fun r hr => by rw [EntryNulFree, hr]; exact he
theorem fairw_perms {b : Bool} {e : Entry} (he : EntryNulFree e) : Fair (fun r => EntryNulFree r.1) (updatePerms b e ec) :=
  (fairw_updatePerms he).mono fun r hr => by rw [EntryNulFree, hr]; exact he

theorem fairw_refresh {k : SysClock} {e : Entry} (he : EntryNulFree e) : Fair (fun r => EntryNulFree r.1) (refresh k e ec) := by
  unfold refresh
  refine Fair.bind (Q := fun r => EntryNulFree r.1) ?_ fun x hx => fair_handleError.bind fun _ _ => .ret _ hx
  unfold refreshImpl
  refine (fairw_basic (e := { e with cache := .reset }) he).bind fun x hx => ?_
  split
  · exact .ret _ hx
  refine (fairw_extra hx).bind fun y hy => ?_
  split
  · exact .ret _ hy
  exact (fairw_perms hy).bind fun z hz => .ret _ hz

theorem fairw_getSymLinkFileType {e : Entry} (he : EntryNulFree e) : Fair (fun r => EntryNulFree r.1.2) (getSymLinkFileType e ec) := by
  unfold getSymLinkFileType
  refine Fair.bind (Q := fun r => EntryNulFree r.2.1) ?_ fun x h => ?_
  · split
    · exact (fairw_basic he).bind fun r hr => .ret _ hr
    · exact .ret _ he
  split
  · exact .ret _ h
  split
  · exact .ret _ h
  split
  · exact fair_handleError.bind fun _ _ => .ret _ h
  · exact .ret _ h

theorem fairw_getFileType {e : Entry} (he : EntryNulFree e) : Fair (fun r => EntryNulFree r.1.2) (getFileType e ec) := by
  unfold getFileType
  refine Fair.bind (Q := fun r => EntryNulFree r.1) ?_ fun x h => ?_
  · split
    · exact fairw_basic he
    · exact .ret _ he
  split
  · exact .ret _ h
  split
  · exact fair_handleError.bind fun _ _ => .ret _ h
  · exact .ret _ h

/-- Programs of the parts of an entry. -/
macro "entriesw" : tactic => `(tactic| repeat' first
  | exact Fair.ret _ (by assumption)
  | exact fairw_extra (by assumption)
  | exact fairw_perms (by assumption)
  | (refine Fair.bind (fairw_basic (by assumption)) fun _ _ => ?_)
  | (refine Fair.bind (fairw_extra (by assumption)) fun _ _ => ?_)
  | (refine Fair.bind (fairw_perms (by assumption)) fun _ _ => ?_)
  | (refine Fair.bind (fairw_getFileType (by assumption)) fun _ _ => ?_)
  | (refine Fair.bind (fairw_getSymLinkFileType (by assumption)) fun _ _ => ?_)
  | (refine Fair.bind (Q := fun _ => True) (Fair.report trivial) fun _ _ => ?_)
  | (refine Fair.bind (Q := fun _ => True) (Fair.reportMsg trivial) fun _ _ => ?_)
  | split)

theorem fairw_getSize {k : SysClock} {e : Entry} (he : EntryNulFree e) : Fair (fun r => EntryNulFree r.1.2) (getSize k e ec) := by
  unfold getSize
  dsimp only
  entriesw

theorem fairw_getHardLinkCount {k : SysClock} {e : Entry} (he : EntryNulFree e) : Fair (fun r => EntryNulFree r.1.2) (getHardLinkCount k e ec) := by
  unfold getHardLinkCount
  dsimp only
  entriesw

theorem fairw_getLastWriteTime {k : SysClock} {e : Entry} (he : EntryNulFree e) : Fair (fun r => EntryNulFree r.1.2) (getLastWriteTime k e ec) := by
  unfold getLastWriteTime
  dsimp only
  refine Fair.bind (Q := fun r => EntryNulFree r.1) ?_ fun x hx => ?_
  · entriesw
  · entriesw

theorem fairw_getStatus {k : SysClock} {e : Entry} (he : EntryNulFree e) : Fair (fun r => EntryNulFree r.1.2) (getStatus k e ec) := by
  unfold getStatus
  dsimp only
  refine Fair.bind (Q := fun r => EntryNulFree r.1) ?_ fun x hx => .ret _ hx
  entriesw

theorem fairw_getSymLinkStatus {k : SysClock} {e : Entry} (he : EntryNulFree e) : Fair (fun r => EntryNulFree r.1.2) (getSymLinkStatus k e ec) := by
  unfold getSymLinkStatus
  dsimp only
  refine Fair.bind (Q := fun r => EntryNulFree r.1) ?_ fun x hx => .ret _ hx
  entriesw

/-! ## Iterators -/

theorem nf_pattern {s : Str} (h : '\x00' ∉ s) : '\x00' ∉ pattern s := by
  unfold pattern
  split <;> simp [h]

theorem fairw_setEntry {s : Stream} {d : FindData} (h : NulFree s.root) (hd : '\x00' ∉ d.name) : Fair StreamNulFree (setEntry s d) :=
  Fair.bind (.ofRes fun z hz => nfw_append h (nfw_mkPath hd) hz) fun _ hz => .ret _ ⟨h, hz⟩

theorem fairw_close {s : Stream} : Fair (fun r => StreamNulFree s → StreamNulFree r) (Stream.close s) := by
  unfold Stream.close
  split
  · exact .call _ _ rfl fun r hr => .ret _ fun h => ⟨h.root, h.entry⟩
  · exact .ret _ id

theorem fairw_destroy {it : DirIter} : Fair (fun _ => True) (destroy it) := by
  cases it with
  | none => exact .ret _ trivial
  | some s => exact fairw_close.bind fun _ _ => .ret _ trivial

theorem fairw_advance : ∀ (n : Nat) (s : Stream), StreamNulFree s → Fair (fun r => StreamNulFree r.2.1) (Stream.advance n s)
  | 0, _, _ => .stop _
  | n + 1, s, h => by
    unfold Stream.advance
    split
    · exact .ret _ h
    · refine .call _ _ rfl fun r hr => ?_
      cases r with
      | error e => exact fairw_close.bind fun s h' => .ret _ (h' h)
      | ok ent =>
        dsimp only
        split
        · exact fairw_advance n s h
        · exact (fairw_setEntry h.root hr).bind fun _ hz => .ret _ hz

theorem fairw_skipDots {d : Nat} : ∀ (n : Nat) (ent : FindData), '\x00' ∉ ent.name →
    Fair (fun r => ∀ e, r = some e → '\x00' ∉ e.name) (skipDots d n ent)
  | 0, _, _ => .stop _
  | n + 1, ent, h => by
    unfold skipDots
    split
    · refine .call _ _ rfl fun r hr => ?_
      cases r with
      | error e => exact .call _ _ rfl fun _ _ => .ret _ (by rintro _ ⟨⟩)
      | ok ent => exact fairw_skipDots n ent hr
    · exact .ret _ (by rintro _ ⟨⟩; exact h)

theorem fairw_streamNew {n : Nat} {opts : DirOptions} (hp : NulFree p) : Fair (fun r => StreamNulFree r.1) (Stream.new n p opts) := by
  refine .call _ _ (congrArg (fun s => Sys.win (.findFirst s)) (cString_of (nf_pattern hp.text))) fun r hr => ?_
  cases r with
  | error e => exact .ret _ ⟨hp, nf_entry_default⟩
  | ok x =>
    refine (fairw_skipDots n x.2 hr).bind fun y hy => ?_
    cases y with
    | none => exact .call _ _ rfl fun _ _ => .ret _ ⟨hp, nf_entry_default⟩
    | some ent => exact (fairw_setEntry hp (hy _ rfl)).bind fun _ hz => .ret _ hz

theorem fairw_dirNew {n : Nat} {opts : DirOptions} (hp : NulFree p) : Fair (fun r => IterNulFree r.1) (DirIter.new n p opts ec) := by
  unfold DirIter.new
  dsimp only
  refine (fairw_streamNew hp).bind fun x h => ?_
  split
  · split
    · exact Fair.bind (Q := fun _ => True) (.report trivial) fun _ _ => .ret _ (by rintro _ ⟨⟩)
    · exact .ret _ (by rintro _ ⟨⟩)
  · exact .ret _ (by rintro _ ⟨⟩; exact h)

theorem fairw_dirIncr {n : Nat} {it : DirIter} (hi : IterNulFree it) : Fair (fun r => IterNulFree r.1) (DirIter.incr n it ec) := by
  unfold DirIter.incr
  dsimp only
  cases it with
  | none => exact Fair.bind (Q := fun _ => True) (.reportMsg trivial) fun _ _ => .ret _ (by rintro _ ⟨⟩)
  | some s =>
    refine (fairw_advance n s (hi s rfl)).bind fun x h => ?_
    split
    · exact .ret _ (by rintro _ ⟨⟩; exact h)
    · split
      · exact Fair.bind (Q := fun _ => True) (.reportMsg trivial) fun _ _ => .ret _ (by rintro _ ⟨⟩)
      · exact .ret _ (by rintro _ ⟨⟩)

theorem fairw_closeAll : ∀ (ss : List Stream), Fair (fun _ => True) (closeAll ss)
  | [] => .ret _ trivial
  | _ :: ss => (fairw_closeAll ss).bind fun _ _ => fairw_close.bind fun _ _ => .ret _ trivial

theorem nfw_streamMoved {s : Stream} (h : StreamNulFree s) : StreamNulFree (Stream.moved s) := ⟨nfw_moved h.root, nfw_moved h.entry⟩

theorem fairw_advanceStack {n : Nat} : ∀ (ss : List Stream), (∀ s ∈ ss, StreamNulFree s) →
    Fair (fun r => ∀ s ∈ r.1, StreamNulFree s) (advanceStack n ss)
  | [], _ => .ret _ (by simp)
  | s :: ss, h => by
    unfold advanceStack
    refine (fairw_advance n s (h s (by simp))).bind fun y h1 => ?_
    have hall : ∀ x ∈ y.2.1 :: ss, StreamNulFree x := fun x hx => by
      rcases List.mem_cons.mp hx with rfl | hx
      · exact h1
      · exact h x (by simp [hx])
    split
    · exact .ret _ hall
    · split
      · exact .ret _ hall
      · exact fairw_advanceStack ss fun x hx => h x (by simp [hx])

theorem fairw_recAdvance {n : Nat} {it : RecIter} (hi : RecNulFree it) : Fair (fun r => RecNulFree r.1) (RecIter.advance n it ec) := by
  unfold RecIter.advance
  cases hm : it.impl with
  | none => exact Fair.bind (Q := fun _ => True) (.reportMsg trivial) fun _ _ => .ret _ hi
  | some x =>
    obtain ⟨ss, opts⟩ := x
    dsimp only
    refine (fairw_advanceStack ss (hi ss opts hm)).bind fun y h => ?_
    split
    · refine (fairw_closeAll _).bind fun _ _ => ?_
      exact Fair.bind (Q := fun _ => True) (.reportMsg trivial) fun _ _ => .ret _ (by rintro _ _ ⟨⟩)
    · split
      · exact .ret _ (by rintro _ _ ⟨⟩)
      · exact .ret _ (by rintro _ _ ⟨⟩; exact h)

theorem fairw_recNew {n : Nat} {opts : DirOptions} (hp : NulFree p) : Fair (fun r => RecNulFree r.1) (RecIter.new n p opts ec) := by
  unfold RecIter.new
  dsimp only
  refine (fairw_streamNew hp).bind fun x h => ?_
  split
  · exact Fair.bind (Q := fun _ => True) ((Fair.report trivial).finally' fairw_destroy) fun _ _ => .ret _ (by rintro _ _ ⟨⟩)
  · split
    · exact .ret _ (by rintro _ _ ⟨⟩)
    · refine .ret _ ?_
      rintro _ _ ⟨⟩ y hy
      obtain rfl := List.mem_singleton.mp hy
      exact nfw_streamMoved h

theorem fairw_tryRecursion {n : Nat} {it : RecIter} (hi : RecNulFree it) : Fair (fun r => RecNulFree r.1.2) (RecIter.tryRecursion n it ec) := by
  unfold RecIter.tryRecursion
  dsimp only
  split
  · exact Fair.bind (Q := fun _ => True) (.reportMsg trivial) fun _ _ => .ret _ hi
  · exact .stop _
  · rename_i cur ss opts hm
    have hs := hi _ _ hm
    have hc := hs cur (by simp)
    refine Fair.bind (Q := fun r => EntryNulFree r.2.1) ?_ fun x he => ?_
    · unfold recursionType
      split
      · exact (fairw_getSymLinkFileType hc.entry).bind fun r hr => .ret _ hr
      · exact (fairw_getFileType hc.entry).bind fun r hr => .ret _ hr
    have hall : ∀ y ∈ ({ cur with entry := x.2.1 } : Stream) :: ss, StreamNulFree y := fun y hy => by
      rcases List.mem_cons.mp hy with rfl | hy
      · exact ⟨hc.root, he⟩
      · exact hs y (by simp [hy])
    refine Fair.bind (Q := fun r => ∀ s, r.1 = some s → StreamNulFree s) ?_ fun z h => ?_
    · split
      · refine (fairw_streamNew he).bind fun y h => ?_
        split
        · exact .ret _ (by rintro _ ⟨⟩; exact h)
        · exact .ret _ (by rintro _ ⟨⟩)
      · exact .ret _ (by rintro _ ⟨⟩)
    split
    · rename_i s hz
      refine .ret _ ?_
      rintro _ _ ⟨⟩ y hy
      rcases List.mem_cons.mp hy with rfl | hy
      · exact nfw_streamMoved (h _ hz)
      · exact hall y hy
    · split
      · split
        · exact .ret _ (by rintro _ _ ⟨⟩; exact hall)
        · refine (fairw_closeAll _).bind fun _ _ => ?_
          exact Fair.bind (Q := fun _ => True) (.reportMsg trivial) fun _ _ => .ret _ (by rintro _ _ ⟨⟩)
      · exact .ret _ (by rintro _ _ ⟨⟩; exact hall)

theorem fairw_recIncr {n : Nat} {it : RecIter} (hi : RecNulFree it) : Fair (fun r => RecNulFree r.1) (RecIter.incr n it ec) := by
  unfold RecIter.incr
  dsimp only
  refine Fair.bind (Q := fun r => RecNulFree r.2.1) ?_ fun x h => ?_
  · split
    · exact (fairw_tryRecursion hi).bind fun r hr => .ret _ hr
    · exact .ret _ hi
  split
  · exact .ret _ h
  · exact fairw_recAdvance (fun ss opts hx => h ss opts hx)

theorem fairw_recPop {n : Nat} {it : RecIter} (hi : RecNulFree it) : Fair (fun r => RecNulFree r.1) (RecIter.pop n it ec) := by
  unfold RecIter.pop
  dsimp only
  split
  · exact Fair.bind (Q := fun _ => True) (.reportMsg trivial) fun _ _ => .ret _ hi
  · exact .stop _
  · rename_i s ss opts hm
    refine fairw_close.bind fun _ _ => ?_
    split
    · exact .ret _ (by rintro _ _ ⟨⟩)
    · exact fairw_recAdvance (by rintro _ _ ⟨⟩ x hx; exact hi _ _ hm x (by simp [hx]))

/-! ## Whole trees -/

theorem fairw_isEmptyFile {n : Nat} (hp : NulFree p) : Fair (fun _ => True) (isEmptyFile n p ec) := by
  refine .call _ _ (by wholew) fun r _ => ?_
  cases r with
  | error e => exact .report trivial
  | ok a =>
    dsimp only
    split
    · unfold isEmptyDirectory
      refine (fairw_dirNew hp).bind fun x _ => fairw_destroy.bind fun _ _ => ?_
      fairw
    · exact .ret _ trivial

theorem fairw_removeLoop {rec : Path → Prog (BitVec 64 × Code)} (hrec : ∀ a, NulFree a → Fair (fun _ => True) (rec a)) :
    ∀ (n : Nat) (it : DirIter) (c : BitVec 64), IterNulFree it → Fair (fun _ => True) (removeLoop rec n it c)
  | 0, _, _, _ => .stop _
  | _ + 1, none, _, _ => .ret _ trivial
  | n + 1, some s, c, hi => by
    unfold removeLoop
    refine (hrec _ (hi s rfl).entry).bind fun x _ => ?_
    split
    · exact fairw_destroy.bind fun _ _ => .ret _ trivial
    · refine (fairw_dirIncr hi).bind fun y h => ?_
      split
      · exact .ret _ trivial
      · exact fairw_removeLoop hrec n _ _ h

theorem fairw_doRemoveAll : ∀ (n : Nat) (p : Path), NulFree p → Fair (fun _ => True) (doRemoveAll n p)
  | 0, _, _ => .stop _
  | n + 1, p, hp => by
    unfold doRemoveAll
    refine (fairw_symlinkStatus hp).bind fun st _ => ?_
    split
    · exact .ret _ trivial
    refine Fair.bind (Q := fun _ => True) ?_ fun y _ => ?_
    · split
      · refine (fairw_dirNew hp).bind fun x h => ?_
        split
        · exact .ret _ trivial
        · exact fairw_removeLoop (fun a ha => fairw_doRemoveAll n a ha) n _ _ h
      · exact .ret _ trivial
    split
    · exact .ret _ trivial
    refine (fairw_remove hp).bind fun z _ => ?_
    fairw

theorem fairw_removeAll {n : Nat} (hp : NulFree p) : Fair (fun _ => True) (removeAll n p ec) := by
  unfold removeAll
  dsimp only
  split
  · exact .ret _ trivial
  · refine (fairw_doRemoveAll n p hp).bind fun x _ => ?_
    fairw

theorem fairw_copyLoop {h : Handler} {rec : Path → Path → EcArg → Prog (Unit × EcArg)}
    (hrec : ∀ a b ec, NulFree a → NulFree b → Fair (fun _ => True) (rec a b ec)) {to : Path} (ht : NulFree to) :
    ∀ (n : Nat) (it : DirIter) (m : Code) (ec : EcArg), IterNulFree it → Fair (fun _ => True) (copyLoop h rec to n it m ec)
  | 0, _, _, _, _ => .stop _
  | n + 1, none, _, _, _ => .ret _ trivial
  | n + 1, some s, m, ec, hu => by
    unfold copyLoop
    split
    · exact (Fair.report trivial).finally' fairw_destroy
    · have he : NulFree s.entry.path := (hu s rfl).entry
      refine Fair.bind (.ofRes fun f hf => nfw_filename he hf) fun f hf => ?_
      refine Fair.bind (.ofRes fun z hz => nfw_append ht hf hz) fun z hz => ?_
      refine ((hrec _ _ _ he hz).onThrow fairw_destroy).bind fun x _ => ?_
      split
      · exact fairw_destroy.bind fun _ _ => .ret _ trivial
      · exact (fairw_dirIncr hu).bind fun y h => fairw_copyLoop hrec ht n _ _ _ h

theorem fairw_copyDispatch {k : SysClock} {rec : Path → Path → EcArg → Prog (Unit × EcArg)}
    (hrec : ∀ a b ec, NulFree a → NulFree b → Fair (fun _ => True) (rec a b ec)) {n : Nat} {h : Handler} {opts : CopyOptions}
    {f t : FStatus} (hp : NulFree p) (hq : NulFree q) : Fair (fun _ => True) (copyDispatch k rec n h p q opts f t ec) := by
  unfold copyDispatch
  dsimp only
  split
  · split
    · exact .ret _ trivial
    split
    · exact fairw_copySymlink hp hq
    · exact .report trivial
  split
  · split
    · exact .ret _ trivial
    split
    · exact fairw_createSymlinkAs hp hq
    split
    · exact fairw_createHardLink hp hq
    split
    · refine Fair.bind (.ofRes fun f hf => nfw_filename hp hf) fun f hf => ?_
      refine Fair.bind (.ofRes fun z hz => nfw_append hq hf hz) fun z hz => ?_
      exact (fairw_copyFile hp hz).bind fun _ _ => .ret _ trivial
    · exact (fairw_copyFile hp hq).bind fun _ _ => .ret _ trivial
  split
  · exact .report trivial
  split
  · unfold copyDir
    refine Fair.bind (Q := fun _ => True) ?_ fun ec _ => ?_
    · split
      · exact (fairw_createDirectoryLike hq hp).bind fun _ _ => .ret _ trivial
      · exact .ret _ trivial
    split
    · exact .ret _ trivial
    refine (fairw_dirNew hp).bind fun x hu => ?_
    split
    · exact .ret _ trivial
    · exact fairw_copyLoop hrec hq n _ _ _ hu
  · exact .ret _ trivial

theorem fairw_either {b : Bool} (hp : NulFree p) : Fair (fun _ => True) (if b then symlinkStatus p ec else status p ec) := by
  cases b
  · exact fairw_status hp
  · exact fairw_symlinkStatus hp

theorem fairw_copy {k : SysClock} : ∀ (n : Nat) (p q : Path) (opts : CopyOptions) (ec : EcArg), NulFree p → NulFree q →
    Fair (fun _ => True) (copy k n p q opts ec)
  | 0, _, _, _, _, _, _ => .stop _
  | n + 1, p, q, opts, ec, hp, hq => by
    unfold copy
    dsimp only
    refine (fairw_either hp).bind fun f _ => ?_
    split
    · exact .report trivial
    refine (fairw_either hq).bind fun t _ => ?_
    split
    · exact .report trivial
    split
    · exact .report trivial
    refine Fair.bind (Q := fun _ => True) ?_ fun e _ => ?_
    · split
      · exact fairw_equivalent hp hq
      · exact .ret _ trivial
    split
    · exact .report trivial
    split
    · exact .report trivial
    · exact fairw_copyDispatch (fun a b ec ha hb => fairw_copy n a b opts ec ha hb) hp hq

/-! ## Resolving -/

theorem fairw_testProg {t : WinTest} (hp : NulFree p) : Fair (fun _ => True) (testProg t p) := by
  cases t
  · exact fairw_isDirectoryP hp
  · exact fairw_isSymlinkP hp
  · exact fairw_existsP hp

theorem fair_unfoldTests {Q : α → Prop} {r : Prog α} (h : Fair Q r) : Fair Q (unfoldTests r) := by
  induction h with
  | ret a h => exact .ret a h
  | stop s => exact .stop s
  | call c k hc _ ih =>
    cases c with
    | winTest t s =>
      have hs : cString s = s := by simpa [Sys.cut] using hc
      exact (fairw_testProg (nf_text hs)).bind fun x _ => ih _ trivial
    | winReadlink s =>
      have hs : cString s = s := by simpa [Sys.cut] using hc
      refine (fairw_readSymlink (nf_text hs)).bind fun x hx => ih _ ?_
      unfold linkSeen
      split
      · trivial
      · exact hx.text
    | _ => exact .call _ _ hc ih

theorem fairw_canonLoop {el : Bool} {h : Handler} {root : Path} (hr : NulFree root) : ∀ (n : Nat) (result : Path) (l : List Path) (k : Int) (m : Code)
    (ec : EcArg), NulFree result → (∀ x ∈ l, NulFree x) → Fair (fun x => NulFree x.1) (winCanonLoop el h root n result l k m ec)
  | _, _, [], _, _, _, h, _ => by
    unfold winCanonLoop
    exact .ret _ h
  | _, _, _ :: _, _, some _, _, h, _ => by
    unfold winCanonLoop
    exact .ret _ h
  | 0, _, _ :: _, _, none, _, _, _ => by
    unfold winCanonLoop
    exact .stop _
  | n + 1, result, f :: l, k, none, ec, h, hl => by
    have hl' : ∀ x ∈ l, NulFree x := fun x hx => hl x (by simp [hx])
    have hf : NulFree (f.moved .windows) := nfw_moved (hl f (by simp))
    unfold winCanonLoop
    dsimp only
    split
    · exact fairw_canonLoop hr n _ l _ _ _ h hl'
    split
    · refine .call _ _ (by wholew) fun r _ => ?_
      split
      · exact Fair.bind (Q := fun _ => True) (.report trivial) fun _ _ => fairw_canonLoop hr n _ l _ _ _ h hl'
      · exact fairw_canonLoop hr n _ l _ _ _ h hl'
    split
    · refine Fair.bind (.ofRes fun z hz => nfw_parentPath h hz) fun z hz => ?_
      refine fairw_canonLoop hr n _ l _ _ _ ?_ hl'
      split
      · exact hr
      · exact hz
    · refine Fair.bind (.ofRes fun z hz => nfw_append h hf hz) fun z hz => ?_
      refine .call _ _ (by wholew) fun r _ => ?_
      split
      · refine .call _ _ (by wholew) fun r hs => ?_
        cases r with
        | error e => exact fairw_canonLoop hr n _ l _ _ _ hz hl'
        | ok s =>
          have hs : NulFree (mkPath .windows s) := nfw_mkPath hs
          dsimp only
          split
          · exact .stop _
          split
          · exact Fair.bind (Q := fun _ => True) (.report trivial) fun _ _ => fairw_canonLoop hr n _ l _ _ _ hz hl'
          refine Fair.bind (Q := fun _ => True) (.ofRes fun _ _ => trivial) fun b _ => ?_
          split
          · refine Fair.bind (.ofRes fun z hz => nfw_relativePath hs hz) fun y hy => ?_
            refine fairw_canonLoop hr n _ _ _ _ _ (nfw_rootPath hs) fun x hx => ?_
            rcases List.mem_append.mp hx with hx | hx
            · exact hy.elems hx
            · exact hl' x hx
          · refine Fair.bind (.ofRes fun z' hz' => nfw_parentPath hz hz') fun y hy => ?_
            refine fairw_canonLoop hr n _ _ _ _ _ hy fun x hx => ?_
            rcases List.mem_append.mp hx with hx | hx
            · exact hs.elems hx
            · exact hl' x hx
      · exact fairw_canonLoop hr n _ l _ _ _ hz hl'

theorem fairw_canonical {el : Bool} {n : Nat} (hp : NulFree p) : Fair (fun r => NulFree r.1) (canonical el n p ec) := by
  unfold canonical
  refine (fairw_doAbsolute hp).bind fun x hx => fair_unfoldTests ?_
  unfold winCanonical
  refine Fair.bind (.ofRes fun z hz => nfw_relativePath hx hz) fun y hy => ?_
  refine (fairw_canonLoop (nfw_rootPath hx) n _ _ _ _ _ (nfw_rootPath hx) fun e he => hy.elems he).bind fun z hz => ?_
  split
  · exact .report nf_default
  · refine .call _ _ (by wholew) fun r _ => ?_
    split
    · exact .report nf_default
    · exact .ret _ (nfw_returned hz el)

theorem fairw_existingPrefix : ∀ (xs : List Path) (r : Path) (m : Code), (∀ x ∈ xs, NulFree x) → NulFree r →
    Fair (fun o => NulFree o.1 ∧ ∀ x ∈ o.2.1, NulFree x) (existingPrefix xs r m)
  | [], r, _, _, hr => .ret _ ⟨hr, by simp⟩
  | x :: xs, r, m, hx, hr => by
    unfold existingPrefix
    simp only [Prog.bind_eq]
    refine Fair.bind (.ofRes fun t ht => nfw_append hr (hx x (by simp)) ht) fun t ht => ?_
    refine (fairw_status ht).bind fun y _ => ?_
    split
    · exact fairw_existingPrefix xs t _ (fun y hy => hx y (by simp [hy])) ht
    · exact .ret _ ⟨hr, hx⟩

theorem nfw_appendAll : ∀ (xs : List Path) (r z : Path), (∀ x ∈ xs, NulFree x) → NulFree r → appendAll r xs = .ok z → NulFree z
  | [], r, z, _, hr, e => by cases e; exact hr
  | x :: xs, r, z, hx, hr, e => by
    unfold appendAll at e
    cases h1 : append .windows r x with
    | error f => rw [h1] at e; cases e
    | ok w =>
      rw [h1] at e
      exact nfw_appendAll xs w z (fun y hy => hx y (by simp [hy])) (nfw_append hr (hx x (by simp)) h1) e

theorem fairw_weaklyCanonical {el : Bool} {n : Nat} (hp : NulFree p) : Fair (fun r => NulFree r.1) (weaklyCanonical el n p ec) := by
  unfold weaklyCanonical
  dsimp only
  split
  · exact fairw_canonical (nfw_mkPath (by simp))
  · simp only [Prog.bind_eq]
    refine (fairw_status hp).bind fun x _ => ?_
    split
    · exact .report nf_default
    split
    · exact fairw_canonical hp
    refine (fairw_existingPrefix _ _ _ (fun _ h => hp.elems h) nf_default).bind ?_
    rintro ⟨result, rest, m⟩ ⟨h1, h2⟩
    refine Fair.bind (Q := fun r => NulFree r.1) ?_ ?_
    · dsimp only
      split
      · exact (fairw_canonical h1).bind fun r hr => .ret _ hr
      · exact .ret _ h1
    · rintro ⟨r, m⟩ hr
      dsimp only
      split
      · exact .ret _ (over_nn.mp (over_clear nn_sepW r))
      · refine Fair.bind (.ofRes fun z hz => nfw_appendAll rest r z h2 hr hz) fun z hz => ?_
        exact Fair.bind (.ofRes fun w hw => nfw_normal hz hw) fun w hw => .ret _ (nfw_returned hw el)

theorem keepsw_rel : KeepsText (lexicallyRelative .windows) := fun _ _ _ h _ e => over_nn.mp ((over_nn.mpr h).lexicallyRelative nn_sepW nn_dot e)
theorem keepsw_prox : KeepsText (lexicallyProximate .windows) := fun _ _ _ h _ e => over_nn.mp ((over_nn.mpr h).lexicallyProximate nn_sepW nn_dot e)

theorem fairw_via {el : Bool} {n : Nat} {f : Path → Path → Res Path} (hf : KeepsText f) {c : Code} (hp : NulFree p) (hq : NulFree q) :
    Fair (fun r => NulFree r.1) (viaCanonicalEc el n f p q c) ∧ Fair (fun r => NulFree r.1) (viaCanonicalThrow el n f p q) := by
  constructor
  · unfold viaCanonicalEc
    simp only [Prog.bind_eq]
    refine (fairw_weaklyCanonical hp).bind ?_
    rintro ⟨a, ec⟩ ha
    dsimp only
    split
    · exact .ret _ nf_default
    refine (fairw_weaklyCanonical hq).bind ?_
    rintro ⟨b, ec⟩ hb
    dsimp only
    split
    · exact .ret _ nf_default
    exact Fair.bind (.ofRes fun r hr => hf a b r ha hb hr) fun r hr => .ret _ hr
  · unfold viaCanonicalThrow
    simp only [Prog.bind_eq]
    refine (fairw_weaklyCanonical hp).bind ?_
    rintro ⟨a, ec⟩ ha
    refine (fairw_weaklyCanonical hq).bind ?_
    rintro ⟨b, ec⟩ hb
    exact Fair.bind (.ofRes fun r hr => hf a b r ha hb hr) fun r hr => .ret _ hr

theorem fairw_proximate {el : Bool} {n : Nat} (hp : NulFree p) (hq : NulFree q) : Fair (fun r => NulFree r.1) (proximate el n p q ec) := by
  cases ec
  · exact (fairw_via (c := none) keepsw_prox hp hq).2
  · exact (fairw_via keepsw_prox hp hq).1

theorem fairw_relative {el : Bool} {n : Nat} (hp : NulFree p) (hq : NulFree q) : Fair (fun r => NulFree r.1) (relative el n p q ec) := by
  cases ec
  · exact (fairw_via (c := none) keepsw_rel hp hq).2
  · exact (fairw_via keepsw_rel hp hq).1

theorem fairw_resolve {el : Bool} {n : Nat} (f : Resolve) (h : ResolveNulFree f) : Fair (fun r => NulFree r.1) (f.run el n ec) := by
  obtain ⟨h1, h2⟩ := h
  cases f with
  | canonical p => exact fairw_canonical h1
  | weaklyCanonical p => exact fairw_weaklyCanonical h1
  | proximate p b => exact fairw_proximate h1 (h2 b rfl)
  | relative p b => exact fairw_relative h1 (h2 b rfl)
  | proximateCwd p => exact fairw_currentPath.bind fun r hr => fairw_proximate h1 hr
  | relativeCwd p => exact fairw_currentPath.bind fun r hr => fairw_relative h1 hr

/-! ## Permissions, call by call -/

theorem fairw_trusteeRights {tt : TrusteeType} {kind : SecKind} {name : SecName} {b : Perms} {sd : Nat} {a : Mask} :
    Fair (fun _ => True) (trusteeRights tt kind name b sd a) := by
  unfold trusteeRights
  refine .call _ _ rfl fun r _ => ?_
  cases r with
  | error e =>
    dsimp only
    split
    · exact .ret _ trivial
    · exact fair_captureErrno.bind fun _ _ => .ret _ trivial
  | ok m => exact Fair.bind (Q := fun _ => True) (.ofRes fun _ _ => trivial) fun _ _ => .ret _ trivial

theorem fairw_fetchRights {sd : Nat} {a : Mask} : Fair (fun _ => True) (fetchRights sd a ec) := by
  unfold fetchRights
  refine fairw_trusteeRights.bind fun u _ => ?_
  split
  · exact .ret _ trivial
  refine .call _ _ rfl fun same _ => Fair.bind (Q := fun _ => True) ?_ fun g _ => ?_
  · split
    · exact fairw_trusteeRights
    · exact .ret _ trivial
  split
  · exact .ret _ trivial
  refine fairw_trusteeRights.bind fun o _ => ?_
  split <;> exact .ret _ trivial

theorem fairw_localFree {m : Nat} : Fair (fun _ => True) (localFree m) := .call _ _ rfl fun _ _ => .ret _ trivial

theorem fairw_fetchPermissions {a : Mask} (hp : NulFree p) : Fair (fun _ => True) (fetchPermissions p a ec) := by
  unfold fetchPermissions
  refine .call _ _ (congrArg (fun s => Sys.win (.sec (.getInfo s true))) (cString_of hp.text)) fun r _ => ?_
  cases r with
  | error e => exact fair_captureErrno.bind fun _ _ => .report trivial
  | ok sd => exact fairw_fetchRights.finally' fairw_localFree

/-- What follows the making of entries. -/
abbrev FairAces (k : Aces → Prog (Except Errno Unit × Aces)) : Prop := ∀ a, Fair (fun _ => True) (k a)

theorem fairw_addAce {tt : TrusteeType} {sid : SecName} {d : Bool} {m : Mask} {k : Aces → Prog (Except Errno Unit × Aces)} (hk : FairAces k) :
    FairAces (addAce tt sid d m k) := by
  intro a
  unfold addAce
  refine Fair.bind (Q := fun _ => True) (.call _ _ rfl fun r _ => ?_) fun r _ => ?_
  · cases r <;> exact .ret _ trivial
  · cases r with
    | none => exact fair_captureErrno.bind fun _ _ => .ret _ trivial
    | some x => exact hk _

theorem fairw_addIf {tt : TrusteeType} {sid : SecName} {d : Bool} {m : Mask} {k : Aces → Prog (Except Errno Unit × Aces)} (hk : FairAces k) :
    FairAces (addIf tt sid d m k) := by
  intro a
  unfold addIf
  split
  · exact fairw_addAce hk a
  · exact hk a

theorem fairw_storeAces {s : Str} {sd : Nat} {m : Perms} (hs : '\x00' ∉ s) : Fair (fun _ => True) (storeAces s sd m) := by
  have h1 : FairAces (applyAces s) := by
    intro a
    refine .call _ _ rfl fun r _ => ?_
    cases r with
    | error e => exact .ret _ trivial
    | ok acl =>
      refine Fair.finally' (.call _ _ (congrArg (fun s => Sys.win (.sec (.setInfo s acl))) (cString_of hs)) fun r _ => ?_) fairw_localFree
      exact .ret _ trivial
  have h2 : FairAces (denyAll s) := by
    intro a
    unfold denyAll
    split
    · exact fairw_addAce h1 a
    · exact h1 a
  have h3 : FairAces (ownerAces s sd m) := by
    intro a
    unfold ownerAces
    exact fairw_addIf (fairw_addIf h2) a
  have h4 : FairAces (groupAces s sd m) := by
    intro a
    unfold groupAces
    refine .call _ _ rfl fun same _ => ?_
    dsimp only
    split
    · exact fairw_addIf (fairw_addIf h3) a
    · exact h3 a
  exact fairw_addIf h4 []

theorem fairw_freeAces : ∀ (as : Aces), Fair (fun _ => True) (freeAces as)
  | [] => .ret _ trivial
  | _ :: as => fairw_localFree.bind fun _ _ => fairw_freeAces as

theorem fairw_storePermissions {m : Perms} (hp : NulFree p) : Fair (fun _ => True) (storePermissions p m ec) := by
  unfold storePermissions
  refine .call _ _ (congrArg (fun s => Sys.win (.sec (.getInfo s false))) (cString_of hp.text)) fun r _ => ?_
  cases r with
  | error e => exact .report trivial
  | ok sd =>
    refine (fairw_storeAces hp.text).bind fun x _ => (fairw_freeAces _).bind fun _ _ => fairw_localFree.bind fun _ _ => ?_
    split
    · exact .ret _ trivial
    · exact .report trivial

theorem fair_unfoldSec {Q : α → Prop} {r : Prog α} (h : Fair Q r) : Fair Q (unfoldSec r) := by
  induction h with
  | ret a h => exact .ret a h
  | stop s => exact .stop s
  | call c k hc _ ih =>
    cases c with
    | win c =>
      cases c with
      | getPerms s a =>
        have hs : cString s = s := by simpa [Sys.cut, WinCall.cut] using hc
        exact (fairw_fetchPermissions (nf_text hs)).bind fun x _ => ih _ trivial
      | setPerms s m =>
        have hs : cString s = s := by simpa [Sys.cut, WinCall.cut] using hc
        exact (fairw_storePermissions (nf_text hs)).bind fun x _ => ih _ trivial
      | _ => exact .call _ _ hc ih
    | _ => exact .call _ _ hc ih

/-! ## The operations -/

theorem fairw_setCurrentPath (hp : NulFree p) : Fair (fun _ => True) (setCurrentPath p ec) := by
  unfold setCurrentPath
  fairw

theorem fairw_op {α : Type} (op : WinOp α) (ec : EcArg) (h : WinArgsNulFree op) : Fair (fun r => WinResultNulFree op r.1) (op.prog ec) := by
  cases op with
  | absolute p => exact fairw_absolute h
  | copy k n a b o => exact fairw_copy n a b o ec h.1 h.2
  | copyFile k a b o => exact fairw_copyFile h.1 h.2
  | copySymlink a b => exact fairw_copySymlink h.1 h.2
  | createDirectory p => exact fairw_createDirectory h
  | createDirectoryLike p q => exact fairw_createDirectoryLike h.1 h.2
  | createDirectories el n p => exact fairw_createDirectories h
  | createSymlink a b => exact fairw_createSymlinkAs h.1 h.2
  | createDirectorySymlink a b => exact fairw_createSymlinkAs h.1 h.2
  | createHardLink a b => exact fairw_createHardLink h.1 h.2
  | currentPath => exact fairw_currentPath
  | setCurrentPath p => exact fairw_setCurrentPath h
  | equivalent p q => exact fairw_equivalent h.1 h.2
  | exists' p => exact fairw_existsP h
  | isDirectory p => exact fairw_isDirectoryP h
  | isSymlink p => exact fairw_isSymlinkP h
  | status p => exact fairw_status h
  | symlinkStatus p => exact fairw_symlinkStatus h
  | fileSize p => exact fairw_fileSize h
  | hardLinkCount p => exact fairw_hardLinkCount h
  | isEmpty n p => exact fairw_isEmptyFile h
  | lastWriteTime k p => exact fairw_lastWriteTime h
  | setLastWriteTime k p t => exact fairw_setLastWriteTime h
  | permissions p m o => exact fairw_permissions h
  | readSymlink p => exact fairw_readSymlink h
  | remove p => exact fairw_remove h
  | removeAll n p => exact fairw_removeAll h
  | rename a b => exact fairw_rename h.1 h.2
  | resizeFile p k => exact fairw_resizeFile h
  | space p => exact fairw_space h
  | tempDirectoryPath => exact fairw_tempDirectoryPath
  | dirIter n p o => exact fairw_dirNew h
  | dirIterIncr n it => exact fairw_dirIncr h
  | recIter n p o => exact fairw_recNew h
  | recIterIncr n it => exact fairw_recIncr h
  | recIterPop n it => exact fairw_recPop h

theorem fairw_ask {k : SysClock} {e : Entry} (a : Ask) (he : EntryNulFree e) : Fair (fun r => EntryNulFree r.1.2) (a.onWindows k e ec) := by
  cases a with
  | exists' => exact ((fairw_getFileType he).bind fun _ h => .ret _ h : Fair (fun r => EntryNulFree r.1.2) (Win.Entry.existsE e ec)).bind fun _ h => .ret _ h
  | is g => exact ((fairw_getFileType he).bind fun _ h => .ret _ h : Fair (fun r => EntryNulFree r.1.2) (Win.Entry.isType (fun s => g s.type) e ec)).bind fun _ h => .ret _ h
  | isSymlink => exact ((fairw_getSymLinkFileType he).bind fun _ h => .ret _ h : Fair (fun r => EntryNulFree r.1.2) (Win.Entry.isSymlinkE e ec)).bind fun _ h => .ret _ h
  | fileSize => exact (fairw_getSize he).bind fun _ h => .ret _ h
  | hardLinkCount => exact (fairw_getHardLinkCount he).bind fun _ h => .ret _ h
  | lastWriteTime => exact (fairw_getLastWriteTime he).bind fun _ h => .ret _ h
  | status => exact (fairw_getStatus he).bind fun _ h => .ret _ h
  | symlinkStatus => exact (fairw_getSymLinkStatus he).bind fun _ h => .ret _ h

theorem fairw_interview {k : SysClock} : ∀ (as : List (Ask × EcArg)) (e : Entry), EntryNulFree e → Fair EntryNulFree (winInterview k as e)
  | [], _, he => .ret _ he
  | (a, _) :: as, _, he => (fairw_ask a he).bind fun r hr => fairw_interview as r.1.2 hr

end
end Win

/-! ## C133 -/

/-- A program that does what it does in the model in which Windows gets whole texts, hands out whole texts only, and whose result meets `Q`; also with the
permissions read and written call by call. -/
def ActsOnWholeTexts {α : Type} (Q : α → Prop) (r : Prog α) : Prop :=
  ∀ m, m = r ∨ m = Win.unfoldSec r → ∀ t o, (∀ ev ∈ t, CAnswer ev) →
    (Exec (Prog.asC m) t o ↔ Exec m t o) ∧ (Exec m t o → (∀ ev ∈ t, Sys.cut ev.call = ev.call) ∧ ∀ a, o = .ok a → Q a)

theorem Fair.whole {α : Type} {Q : α → Prop} {r : Prog α} (h : Fair Q r) : ActsOnWholeTexts Q r := by
  rintro m (rfl | rfl) t o ht
  · exact ⟨(h.exec ht).1.symm, (h.exec ht).2⟩
  · exact ⟨((Win.fair_unfoldSec h).exec ht).1.symm, ((Win.fair_unfoldSec h).exec ht).2⟩

/-- C133, Windows: given paths, iterators and answers without null characters, each operation does exactly what it does in the model in which Windows gets whole
texts; every text it hands out is whole; the paths, iterators and entries it gives back have no null characters. Missing, because false (`c133_violated`): the same for
paths with null characters. -/
theorem c133_operations_partial {α : Type} (op : WinOp α) (ec : EcArg) (h : WinArgsNulFree op) :
    ActsOnWholeTexts (fun r => WinResultNulFree op r.1) (op.prog ec) := (Win.fairw_op op ec h).whole

/-- C133 for the functions that resolve a path; so is the path that they give back. -/
theorem c133_resolve_partial (f : Resolve) (el : Bool) (n : Nat) (ec : EcArg) (h : ResolveNulFree f) :
    ActsOnWholeTexts (fun r => NulFree r.1) (f.run el n ec) := (Win.fairw_resolve f h).whole

/-- C133 for the questions asked to an entry, in any number and order, and for `refresh`. -/
theorem c133_entries_partial (k : SysClock) (e : Entry) (he : EntryNulFree e) :
    (∀ as, ActsOnWholeTexts EntryNulFree (winInterview k as e)) ∧
    ∀ ec, ActsOnWholeTexts (fun r => EntryNulFree r.1) (Win.refresh k e ec) :=
  ⟨fun as => (Win.fairw_interview as e he).whole, fun _ => (Win.fairw_refresh he).whole⟩

/-- A path with a null character. -/
def nulPathW : Path := mkPath .windows "a\x00b".toList

/-- C133, violated: `remove` of the path `a\0b` deletes the file `a`, which is another path, and nothing is reported; an iterator over the directory `a\0b` always
searches for `a` itself, without the `*` that stands for what is in it. -/
theorem c133_violated (c : Code) :
    nulPathW.pathname = "a\x00b".toList ∧
    Exec (Prog.asC ((WinOp.remove nulPathW).prog (.ref c)))
      [⟨.win (.getAttrs "a".toList), (.ok 0#32 : Except Errno (BitVec 32))⟩, ⟨.win (.deleteFile "a".toList), (.ok () : Except Errno Unit)⟩] (.ok (true, .ref none)) ∧
    ∀ n opts ec t o, Exec (Prog.asC ((WinOp.dirIter n nulPathW opts).prog ec)) t o → ∃ r t', t = ⟨.win (.findFirst "a".toList), r⟩ :: t' := by
  have hn : nulPathW.pathname = "a\x00b".toList := by decide +kernel
  refine ⟨hn, ?_, fun n opts ec t o h => ?_⟩
  · have he : nulPathW.isEmpty = false := by rw [Path.isEmpty, hn]; rfl
    simp only [WinOp.prog, Win.remove, he, Bool.false_eq_true, if_false]
    exact exec_call.mpr ⟨_, _, rfl, exec_call.mpr ⟨_, [], rfl, exec_ret.mpr ⟨rfl, rfl⟩⟩⟩
  · simp only [WinOp.prog, Win.DirIter.new, Win.Stream.new] at h
    obtain ⟨r, t', rfl, _⟩ := exec_call.mp h
    exact ⟨r, t', rfl⟩

example (k : SysClock) : WinArgsNulFree (.copy k 9 (mkPath .windows "C:\\a".toList) (mkPath .windows "c".toList) 0) :=
  ⟨Win.nfw_mkPath (by decide), Win.nfw_mkPath (by decide)⟩
example : ResolveNulFree (.relative (mkPath .windows "a\\b".toList) (mkPath .windows "c".toList)) :=
  ⟨(Win.nfw_mkPath (by decide) : NulFree (mkPath .windows "a\\b".toList)), by rintro _ ⟨⟩; exact Win.nfw_mkPath (by decide)⟩
example : CAnswer ⟨.win (.findFirst "a\\*".toList), (.ok (3, ⟨"b".toList, 0, 0⟩) : Except Errno (Nat × FindData))⟩ := by show '\x00' ∉ "b".toList; decide

end Asap
