import Verif.Props.MsgA
import Verif.Props.EntryA
import Verif.Props.WinAC

/-!
# C126: the messages of the exceptions of `directory_entry` and `GetPermissions`
-/

namespace Asap
open Spec
variable {α β : Type}

/-- Every exception satisfies `P` and every value returned `Q`, whatever the answers of the system. -/
inductive Yields (P : FsError → Prop) {α : Type} (Q : α → Prop) : Prog α → Prop
  | ret (a : α) (h : Q a) : Yields P Q (.ret a)
  | fault (f : Fault) : Yields P Q (.stop (.fault f))
  | fuel : Yields P Q (.stop .fuel)
  | thrown (x : FsError) (h : P x) : Yields P Q (.stop (.thrown x))
  | call (c : Sys) (k : c.Ret → Prog α) (h : ∀ r, Yields P Q (k r)) : Yields P Q (.call c k)

variable {P : FsError → Prop} {Q : α → Prop} {R : β → Prop}

theorem Yields.bind {p : Prog α} {f : α → Prog β} (h : Yields P Q p) (hf : ∀ a, Q a → Yields P R (f a)) :
    Yields P R (p.bind f) := by
  induction h with
  | ret a h => exact hf a h
  | fault f => exact .fault f
  | fuel => exact .fuel
  | thrown x h => exact .thrown x h
  | call c k _ ih => exact .call _ _ ih

/-- Nothing is used of the value. -/
theorem Yields.bind' {p : Prog α} {f : α → Prog β} (h : Yields P (fun _ => True) p) (hf : ∀ a, Yields P R (f a)) :
    Yields P R (p.bind f) := h.bind fun a _ => hf a

theorem Yields.exec {p : Prog α} (h : Yields P Q p) {t : List Event} {x : FsError} (he : Exec p t (.error (.thrown x))) : P x := by
  induction h generalizing t with
  | ret a => cases he
  | fault f => cases he
  | fuel => cases he
  | thrown x h => cases he; exact h
  | call c k _ ih => cases he with | call _ _ _ _ _ h => exact ih _ h

theorem Yields.ofRes (r : Res α) : Yields P (fun _ => True) (Prog.ofRes r) := by
  cases r
  · exact .fault _
  · exact .ret _ True.intro

theorem Yields.useStat (s : Option Stat) : Yields P (fun _ => True) (Prog.useStat s) := by
  cases s
  · exact .fault _
  · exact .ret _ True.intro

theorem Yields.ofNoThrow {p : Prog α} (h : NoThrow (fun _ => True) p) : Yields P (fun _ => True) p := by
  induction h with
  | ret a => exact .ret a True.intro
  | fault f => exact .fault f
  | fuel => exact .fuel
  | call c k _ ih => exact .call _ _ fun r => ih r True.intro

theorem Yields.finally' {p : Prog α} {d : Prog Unit} (h : Yields P Q p) (hd : Yields P (fun _ => True) d) : Yields P Q (p.finally' d) := by
  induction h with
  | ret a h => exact .bind' hd fun _ => .ret a h
  | fault f => exact .fault f
  | fuel => exact .fuel
  | thrown x h => exact .bind' hd fun _ => .thrown x h
  | call c k _ ih => exact .call _ _ ih

theorem Yields.report {h : Handler} {ec : EcArg} {c : Code} {d : α} (hp : P (h.error ("in ".toList ++ h.fn) c)) :
    Yields P (fun _ => True) (h.report ec c d) := by
  cases ec
  · exact .thrown _ hp
  · exact .ret _ True.intro

theorem Yields.reportMsg {h : Handler} {ec : EcArg} {c : Code} {m : Str} {d : α}
    (hp : P (h.error ("in ".toList ++ h.fn ++ ": ".toList ++ m) c)) : Yields P (fun _ => True) (h.reportMsg ec c m d) := by
  cases ec
  · exact .thrown _ hp
  · exact .ret _ True.intro

/-- What the exceptions of the observers of a `directory_entry` say: one of four internal functions, and the path of the entry. -/
def Spec.EntryError (p : Path) (x : FsError) : Prop :=
  InOne ["UpdateBasicFileInformation".toList, "UpdateExtraFileInformation".toList, "GetLastWriteTime".toList,
    "directory_entry::GetSymLinkFileType".toList] x ∧ x.npaths = 1 ∧ x.path1 = p

/-- The entry still has this path. -/
abbrev HoldsPath (p : Path) (v : Entry × EcArg) : Prop := v.1.path = p

theorem yields_writeTime (p : Path) (st : Stat) (c : Code) : Yields P (fun _ => True) (extractLastWriteTime p st (.ref c)) := by
  unfold extractLastWriteTime
  simp only [Prog.bind_eq]
  split
  · exact .bind' (.ofRes _) fun _ => .ret _ True.intro
  · exact .ret _ True.intro

theorem says_updateBasic (f : Bool) (e : Entry) (ec : EcArg) {p : Path} (he : e.path = p) :
    Yields (EntryError p) (HoldsPath p) (updateBasic f e ec) := by
  unfold updateBasic
  simp only [Prog.bind_eq]
  refine .bind' (.ofNoThrow (noThrow_getFileStatus ..)) fun v => ?_
  split
  · refine .bind' (.report ⟨⟨_, by simp, .inl rfl⟩, rfl, he⟩) fun _ => .ret _ he
  · refine .bind' ?_ fun _ => .bind' ?_ fun _ => .bind' ?_ fun _ => .ret _ he
    all_goals
      repeat' first
        | exact .ret _ True.intro
        | exact .useStat _
        | exact yields_writeTime ..
        | refine .bind' ?_ fun _ => ?_
        | split

theorem says_handleError (e : Entry) (c : Code) (b : Bool) (ec : EcArg) {p : Path} (he : e.path = p) :
    Yields (EntryError p) (fun _ => True) (handleError "in directory_entry::GetSymLinkFileType".toList e c b ec) := by
  unfold handleError
  split
  · exact .ret _ True.intro
  · split
    · exact .thrown _ ⟨InName.one (w := "directory_entry::GetSymLinkFileType".toList) (.inl rfl) (by simp), rfl, he⟩
    · exact .ret _ True.intro

/-- The steps of the observers. -/
macro "tells" : tactic => `(tactic| repeat' first
  | exact .ret _ True.intro
  | exact .fault _
  | exact .ret _ (by assumption)
  | with_reducible exact says_updateBasic _ _ _ (by assumption)
  | with_reducible refine .bind (says_updateBasic _ _ _ (by assumption)) fun v hv => ?_
  | with_reducible refine .bind' (says_handleError _ _ _ _ (by assumption)) fun v => ?_
  | with_reducible refine .bind (.ret (Q := HoldsPath _) _ (by assumption)) fun v hv => ?_
  | split)

theorem says_updateExtra (f : Bool) (e : Entry) (ec : EcArg) {p : Path} (he : e.path = p) :
    Yields (EntryError p) (HoldsPath p) (updateExtra f e ec) := by
  unfold updateExtra
  simp only [Prog.bind_eq]
  tells

theorem says_updatePerms (f : Bool) (e : Entry) (ec : EcArg) {p : Path} (he : e.path = p) :
    Yields (EntryError p) (HoldsPath p) (updatePerms f e ec) := by
  unfold updatePerms
  simp only [Prog.bind_eq]
  tells

/-- The steps of the observers. -/
macro "tells'" : tactic => `(tactic| repeat' first
  | exact .ret _ True.intro
  | exact .fault _
  | exact .bind' (.reportMsg ⟨InName.one (w := "UpdateExtraFileInformation".toList) (.inr ⟨_, rfl⟩) (by simp), rfl, rfl⟩) fun _ => .ret _ True.intro
  | exact .bind' (.report ⟨InName.one (w := "GetLastWriteTime".toList) (.inl rfl) (by simp), rfl, rfl⟩) fun _ => .ret _ True.intro
  | with_reducible refine .bind (says_updateBasic _ _ _ (by assumption)) fun v hv => ?_
  | with_reducible refine .bind (says_updateExtra _ _ _ (by assumption)) fun v hv => ?_
  | with_reducible refine .bind (says_updatePerms _ _ _ (by assumption)) fun v hv => ?_
  | with_reducible refine .bind' (says_handleError _ _ _ _ (by assumption)) fun v => ?_
  | with_reducible refine .bind (.ret (Q := HoldsPath _) _ (by assumption)) fun v hv => ?_
  | (with_reducible rw [Prog.bind_assoc])
  | (with_reducible rw [Prog.ret_bind]; try dsimp only)
  | split)

theorem says_entry (a : Ask) (e : Entry) (ec : EcArg) : Yields (EntryError e.path) (fun _ => True) (a.entry e ec) := by
  have he : e.path = e.path := rfl
  have fileType : Yields (EntryError e.path) (fun _ => True) (getFileType e ec) := by
    unfold getFileType
    simp only [Prog.bind_eq]
    tells'
  have linkType : Yields (EntryError e.path) (fun _ => True) (getSymLinkFileType e ec) := by
    unfold getSymLinkFileType
    simp only [Prog.bind_eq]
    tells'
  cases a with
  | exists' => exact .bind' (.bind' fileType fun _ => .ret _ True.intro) fun _ => .ret _ True.intro
  | is g => exact .bind' (.bind' fileType fun _ => .ret _ True.intro) fun _ => .ret _ True.intro
  | isSymlink => exact .bind' (.bind' linkType fun _ => .ret _ True.intro) fun _ => .ret _ True.intro
  | fileSize =>
    refine .bind' ?_ fun _ => .ret _ True.intro
    unfold getSize
    simp only [Prog.bind_eq]
    tells'
  | hardLinkCount =>
    refine .bind' ?_ fun _ => .ret _ True.intro
    unfold getHardLinkCount
    simp only [Prog.bind_eq]
    tells'
  | lastWriteTime =>
    refine .bind' ?_ fun _ => .ret _ True.intro
    unfold getLastWriteTime
    simp only [Prog.bind_eq]
    tells'
  | status =>
    refine .bind' ?_ fun _ => .ret _ True.intro
    unfold getStatus
    simp only [Prog.bind_eq]
    tells'
  | symlinkStatus =>
    refine .bind' ?_ fun _ => .ret _ True.intro
    unfold getSymLinkStatus
    simp only [Prog.bind_eq]
    tells'

theorem quiet_updateBasic (f : Bool) (e : Entry) (c : Code) {p : Path} (he : e.path = p) :
    Yields P (HoldsPath p) (updateBasic f e (.ref c)) := by
  unfold updateBasic
  simp only [Prog.bind_eq]
  refine .bind' (.ofNoThrow (noThrow_getFileStatus ..)) fun v => ?_
  split
  · exact .ret _ he
  · refine .bind' ?_ fun _ => .bind' ?_ fun _ => .bind' ?_ fun _ => .ret _ he
    all_goals
      repeat' first
        | exact .ret _ True.intro
        | exact .useStat _
        | exact yields_writeTime ..
        | refine .bind' ?_ fun _ => ?_
        | split

theorem says_refresh (e : Entry) (ec : EcArg) :
    Yields (fun x => InName "directory_entry::DoRefresh".toList x ∧ x.npaths = 1 ∧ x.path1 = e.path) (fun _ => True) (refresh e ec) := by
  unfold refresh
  simp only [Prog.bind_eq]
  refine .bind (quiet_updateBasic _ _ _ (p := e.path) rfl) fun v hv => ?_
  refine .bind' ?_ fun _ => .ret _ True.intro
  unfold handleError
  split
  · exact .ret _ True.intro
  · split
    · exact .thrown _ ⟨.inl rfl, rfl, hv⟩
    · exact .ret _ True.intro

/-- C126. The exceptions of the observers of a `directory_entry` (POSIX) name one of four internal functions and carry the path of
the entry; `refresh()` names `directory_entry::DoRefresh`. -/
theorem c126_entry (a : Ask) (e : Entry) {t : List Event} {x : FsError} :
    (Exec (a.entry e .null) t (.error (.thrown x)) → EntryError e.path x) ∧
    (Exec (refresh e .null) t (.error (.thrown x)) →
      InName "directory_entry::DoRefresh".toList x ∧ x.npaths = 1 ∧ x.path1 = e.path) :=
  ⟨fun h => (says_entry a e .null).exec h, fun h => (says_refresh e .null).exec h⟩

/-- `is_directory()` of an entry whose file cannot be looked at. -/
example : ∃ t x, Exec ((Ask.is (· == .directory)).entry ⟨mkPath .posix "a".toList, .reset⟩ .null) t (.error (.thrown x)) ∧
    x.msg = "in UpdateBasicFileInformation".toList :=
  ⟨[⟨.stat "a".toList, .error .EACCES⟩], _, .call _ _ _ _ _ (.stop _), rfl⟩

namespace Win

theorem says_captureErrno {f : Errno → Prog α} (h : ∀ e, Yields P Q (f e)) : Yields P Q (captureErrno.bind f) := by
  refine .call _ _ fun c => ?_
  cases c
  · exact .fault _
  · exact h _

theorem says_trusteeRights (tr : TrusteeType) (k : SecKind) (w : SecName) (b : Perms) (sd : Nat) (attr : Mask) :
    Yields P (fun _ => True) (trusteeRights tr k w b sd attr) := by
  refine .call _ _ fun r => ?_
  rcases r with e | m
  · show Yields P _ (if _ then _ else _)
    split
    · exact .ret _ True.intro
    · exact says_captureErrno fun _ => .ret _ True.intro
  · exact .bind' (.ofRes _) fun _ => .ret _ True.intro

theorem says_fetchPermissions (p : Path) (attr : Mask) (ec : EcArg) :
    Yields (fun x => InName "permissions".toList x ∧ x.npaths = 1 ∧ x.path1 = p) (fun _ => True) (fetchPermissions p attr ec) := by
  refine .call _ _ fun r => ?_
  rcases r with e | sd
  · exact says_captureErrno fun _ => .report ⟨.inl rfl, rfl, rfl⟩
  · refine .finally' ?_ (.call _ _ fun _ => .ret _ True.intro)
    unfold fetchRights
    refine .bind' (says_trusteeRights ..) fun u => ?_
    split
    · exact .ret _ True.intro
    · refine .call _ _ fun same => ?_
      refine .bind' ?_ fun g => ?_
      · split
        · exact says_trusteeRights ..
        · exact .ret _ True.intro
      · split
        · exact .ret _ True.intro
        · refine .bind' (says_trusteeRights ..) fun o => ?_
          split <;> exact .ret _ True.intro

end Win

/-- C126. An exception of `GetPermissions` on Windows names `permissions` and carries the path. -/
theorem c126_permissions (p : Path) (attr : Mask) {t : List Event} {x : FsError}
    (h : Exec (Win.fetchPermissions p attr .null) t (.error (.thrown x))) :
    InName "permissions".toList x ∧ x.npaths = 1 ∧ x.path1 = p :=
  (Win.says_fetchPermissions p attr .null).exec h

end Asap
