import Verif.Props.MsgB
import Verif.Props.WinAI

/-!
# C126: the messages of the exceptions of `directory_entry` on Windows
-/

namespace Asap
open Spec

/-- What the exceptions of the observers of a `directory_entry` say on Windows: one of five internal functions, and the path of the entry. -/
def Spec.WinEntryError (p : Path) (x : FsError) : Prop :=
  InOne ["UpdateBasicFileInformation".toList, "UpdateExtraFileInformation".toList, "UpdatePermissionsInformation".toList, "GetLastWriteTime".toList,
    "directory_entry::GetSymLinkFileType".toList] x ∧ x.npaths = 1 ∧ x.path1 = p

namespace Win

section
variable {P : FsError → Prop} {p : Path} {e : Entry} {ec : EcArg} {α : Type}

/-- Nothing is thrown. -/
abbrev Calm (r : Prog α) : Prop := ∀ P : FsError → Prop, Yields P (fun _ => True) r

theorem yields_withFile {Q : α → Prop} {o : WinOpen} {f : Errno → Prog α} {g : Nat → Prog α} (hf : ∀ e, Yields P Q (f e))
    (hg : ∀ d, Yields P Q (g d)) : Yields P Q (withFile p o f g) := by
  unfold withFile
  refine .call _ _ fun r => ?_
  cases r with
  | error e => exact hf e
  | ok d => exact (hg d).finally' (.call _ _ fun _ => .ret _ True.intro)

theorem calm_isReparse {c : Code} : Calm (isReparsePointSymlink p (.ref c)) := by
  intro P
  refine yields_withFile (fun _ => .ret _ True.intro) fun d => .call _ _ fun r => ?_
  cases r <;> exact .ret _ True.intro

theorem calm_basicReparse {a : Mask} : Calm (basicReparse e a) := by
  intro P
  unfold basicReparse
  split
  · refine .bind' (calm_isReparse P) fun x => ?_
    split <;> exact .ret _ True.intro
  · exact .ret _ True.intro

theorem calm_basicOpen {a : Mask} {c : Cache} : Calm (basicOpen p a c) := by
  intro P
  refine yields_withFile (fun _ => .ret _ True.intro) fun d => .call _ _ fun r => ?_
  cases r with
  | error e => exact .ret _ True.intro
  | ok i =>
    dsimp only
    split
    · exact .ret _ True.intro
    split
    · exact .ret _ True.intro
    refine .call _ _ fun t => ?_
    split
    · exact .ret _ True.intro
    split
    · exact .ret _ True.intro
    exact says_captureErrno fun _ => .ret _ True.intro

/-- Where the error is reported, by an exception or in the `error_code`, after which the entry still has its path. -/
theorem yields_fails {h : Handler} {c : Cache} {m : Code} (he : e.path = p) (hp : ec = .null → P (h.error ("in ".toList ++ h.fn) m)) :
    Yields P (HoldsPath p) ((h.report ec m ()).bind fun x => .ret (({ e with cache := c } : Entry), x.2)) := by
  cases ec
  · exact .thrown _ (hp rfl)
  · exact .ret _ he

theorem wsays_updateBasic (f : Bool) (he : e.path = p)
    (hp : ec = .null → ∀ m, P ((⟨"UpdateBasicFileInformation".toList, some p, none⟩ : Handler).error ("in ".toList ++ "UpdateBasicFileInformation".toList) m)) :
    Yields P (HoldsPath p) (updateBasic f e ec) := by
  have hf : ∀ c m, Yields P (HoldsPath p) (((⟨"UpdateBasicFileInformation".toList, some e.path, none⟩ : Handler).report ec.clear m ()).bind fun x =>
      .ret (({ e with cache := c } : Entry), x.2)) := fun c m => yields_fails he fun hn => by rw [he]; exact hp (by cases ec <;> simp_all [EcArg.clear]) m
  unfold updateBasic
  refine .call _ _ fun r => ?_
  cases r with
  | error m => exact hf _ _
  | ok a =>
    refine .bind' (calm_basicReparse P) fun x => ?_
    dsimp only
    by_cases h1 : x.2 ≠ none
    · rw [if_pos h1]
      exact hf _ _
    · rw [if_neg h1]
      refine .bind' ?_ fun y => ?_
      · repeat' first
          | exact calm_basicOpen P
          | with_reducible exact .ret _ True.intro
          | split
      · split
        · exact hf _ _
        · exact .ret _ he

theorem wsays_extraLink {k : SysClock} {h : Handler} {c : Cache} (hr : ec = .null → ∀ m, P (h.error ("in ".toList ++ h.fn) m))
    (hm : ec = .null → ∀ m s, P (h.error ("in ".toList ++ h.fn ++ ": ".toList ++ s) m)) : Yields P (fun _ => True) (extraLink k p h c ec) := by
  have hf : ∀ (c : Cache) (m : Code), Yields P (fun _ => True) ((h.report ec m ()).bind fun x => .ret (c, x.2)) := fun c m => by
    cases ec
    · exact .thrown _ (hr rfl m)
    · exact .ret _ True.intro
  refine yields_withFile (fun _ => hf _ _) fun d => .call _ _ fun r => ?_
  cases r with
  | error e => exact hf _ _
  | ok i =>
    dsimp only
    split
    · cases ec
      · exact .thrown _ (hm rfl _ _)
      · exact .ret _ True.intro
    refine .call _ _ fun r => ?_
    cases r with
    | error e => exact hf _ _
    | ok ft => exact .bind' (.ofRes _) fun _ => .ret _ True.intro

theorem wsays_updateExtra (k : SysClock) (he : e.path = p)
    (hr : ec = .null → ∀ m, P ((⟨"UpdateExtraFileInformation".toList, some p, none⟩ : Handler).error ("in ".toList ++ "UpdateExtraFileInformation".toList) m))
    (hm : ec = .null → ∀ m s, P ((⟨"UpdateExtraFileInformation".toList, some p, none⟩ : Handler).error
      ("in ".toList ++ "UpdateExtraFileInformation".toList ++ ": ".toList ++ s) m)) :
    Yields P (HoldsPath p) (updateExtra k e ec) := by
  have hn : ec.clear = .null → ec = .null := by cases ec <;> simp [EcArg.clear]
  have keep : ∀ x : Cache × Bool × EcArg, (x.2.2 = .null → ec = .null) → Yields P (HoldsPath p)
      (if !x.2.1 then .ret (({ e with cache := x.1 } : Entry), x.2.2)
      else if x.1.symlink then
        (extraLink k e.path ⟨"UpdateExtraFileInformation".toList, some e.path, none⟩ x.1 x.2.2).bind fun y => .ret (({ e with cache := y.1 } : Entry), y.2)
      else .ret (({ e with cache := { x.1 with cacheType := .extra } } : Entry), x.2.2)) := by
    intro x hx
    split
    · exact .ret _ he
    split
    · rw [he]
      exact .bind' (wsays_extraLink (fun h m => hr (hx h) m) fun h m s => hm (hx h) m s) fun y => .ret _ rfl
    · exact .ret _ he
  unfold updateExtra
  dsimp only
  split
  · exact .fault _
  refine .bind (Q := fun x : Cache × Bool × EcArg => x.2.2 = .null → ec = .null) ?_ keep
  have hf : ∀ m : Code, Yields P (fun x : Cache × Bool × EcArg => x.2.2 = .null → ec = .null)
      (((⟨"UpdateExtraFileInformation".toList, some e.path, none⟩ : Handler).report ec.clear m ()).bind fun x => .ret (e.cache, false, x.2)) := fun m => by
    cases ec
    · exact .thrown _ (by rw [he]; exact hr rfl m)
    · exact .ret _ (nofun)
  refine yields_withFile (fun _ => hf _) fun d => .call _ _ fun r => ?_
  cases r with
  | error m => exact hf _
  | ok i => exact .ret _ hn

theorem calm_handlePerms {o : WinOpen} : Calm (handlePerms p o) := by
  intro P
  refine yields_withFile (fun _ => .ret _ True.intro) fun d => .call _ _ fun r => ?_
  cases r with
  | error e => exact .ret _ True.intro
  | ok a =>
    refine .call _ _ fun r => ?_
    cases r <;> exact .ret _ True.intro

theorem wsays_updatePerms (f : Bool) (he : e.path = p)
    (hp : ec = .null → ∀ m, P ((⟨"UpdatePermissionsInformation".toList, some p, none⟩ : Handler).error ("in ".toList ++ "UpdatePermissionsInformation".toList) m)) :
    Yields P (HoldsPath p) (updatePerms f e ec) := by
  have hf : ∀ c m, Yields P (HoldsPath p) (((⟨"UpdatePermissionsInformation".toList, some e.path, none⟩ : Handler).report ec.clear m ()).bind fun x =>
      .ret (({ e with cache := c } : Entry), x.2)) := fun c m => yields_fails he fun hn => by rw [he]; exact hp (by cases ec <;> simp_all [EcArg.clear]) m
  unfold updatePerms
  dsimp only
  split
  · exact .fault _
  refine .bind' (calm_handlePerms P) fun x => ?_
  repeat' first
    | exact hf _ _
    | with_reducible exact .ret _ he
    | with_reducible refine .bind' (calm_handlePerms P) fun y => ?_
    | split

end

section
variable {p : Path} {e : Entry} {ec : EcArg}

theorem wsays_basic (f : Bool) (he : e.path = p) : Yields (WinEntryError p) (HoldsPath p) (updateBasic f e ec) :=
  wsays_updateBasic f he fun _ m => ⟨InName.one (w := "UpdateBasicFileInformation".toList) (.inl rfl) (by simp), rfl, rfl⟩

theorem wsays_extra (k : SysClock) (he : e.path = p) : Yields (WinEntryError p) (HoldsPath p) (updateExtra k e ec) :=
  wsays_updateExtra k he (fun _ m => ⟨InName.one (w := "UpdateExtraFileInformation".toList) (.inl rfl) (by simp), rfl, rfl⟩)
    fun _ m s => ⟨InName.one (w := "UpdateExtraFileInformation".toList) (.inr ⟨_, rfl⟩) (by simp), rfl, rfl⟩

theorem wsays_perms (f : Bool) (he : e.path = p) : Yields (WinEntryError p) (HoldsPath p) (updatePerms f e ec) :=
  wsays_updatePerms f he fun _ m => ⟨InName.one (w := "UpdatePermissionsInformation".toList) (.inl rfl) (by simp), rfl, rfl⟩

theorem wsays_handleError (c : Code) (b : Bool) (he : e.path = p) :
    Yields (WinEntryError p) (fun _ => True) (handleError "in directory_entry::GetSymLinkFileType".toList e c b ec) := by
  unfold handleError
  split
  · exact .ret _ True.intro
  · split
    · exact .thrown _ ⟨InName.one (w := "directory_entry::GetSymLinkFileType".toList) (.inl rfl) (by simp), rfl, he⟩
    · exact .ret _ True.intro

theorem wsays_linkType (he : e.path = p) : Yields (WinEntryError p) (fun _ => True) (getSymLinkFileType e ec) := by
  unfold getSymLinkFileType
  dsimp only
  refine .bind (Q := fun x : Bool × Entry × EcArg => x.2.1.path = p) ?_ fun x hx => ?_
  · split
    · exact .bind (wsays_basic _ he) fun x hx => .ret _ hx
    · exact .ret _ he
  · split
    · exact .ret _ True.intro
    split
    · exact .ret _ True.intro
    split
    · exact .bind' (wsays_handleError _ _ hx) fun _ => .ret _ True.intro
    · exact .ret _ True.intro

theorem wsays_fileType (he : e.path = p) : Yields (WinEntryError p) (fun _ => True) (getFileType e ec) := by
  unfold getFileType
  dsimp only
  refine .bind (Q := HoldsPath p) ?_ fun x hx => ?_
  · split
    · exact wsays_basic _ he
    · exact .ret _ he
  · split
    · exact .ret _ True.intro
    split
    · exact .bind' (wsays_handleError _ _ hx) fun _ => .ret _ True.intro
    · exact .ret _ True.intro

theorem wsays_entry (k : SysClock) (a : Ask) (he : e.path = p) : Yields (WinEntryError p) (fun _ => True) (a.onWindows k e ec) := by
  subst he
  cases a with
  | exists' => exact .bind' (.bind' (wsays_fileType rfl) fun _ => .ret _ True.intro) fun _ => .ret _ True.intro
  | is g => exact .bind' (.bind' (wsays_fileType rfl) fun _ => .ret _ True.intro) fun _ => .ret _ True.intro
  | isSymlink => exact .bind' (.bind' (wsays_linkType rfl) fun _ => .ret _ True.intro) fun _ => .ret _ True.intro
  | fileSize =>
    refine .bind' ?_ fun _ => .ret _ True.intro
    unfold getSize
    dsimp only
    have hx : ∀ (e' : Entry) (ec : EcArg), e'.path = e.path → Yields (WinEntryError e.path) (fun _ => True)
        ((updateExtra k e' ec).bind fun x => .ret ((x.1.cache.size, x.1), x.2)) := fun e' ec h => .bind (wsays_extra k h) fun _ _ => .ret _ True.intro
    split
    · refine .bind (wsays_basic _ rfl) fun x h => ?_
      split
      · exact .bind' (.reportMsg ⟨InName.one (w := "UpdateExtraFileInformation".toList) (.inr ⟨_, rfl⟩) (by simp), rfl, rfl⟩) fun _ => .ret _ True.intro
      · exact hx _ _ h
    · exact hx _ _ rfl
    · split
      · exact hx _ _ rfl
      · exact .ret _ True.intro
    · exact .ret _ True.intro
  | hardLinkCount =>
    refine .bind' ?_ fun _ => .ret _ True.intro
    unfold getHardLinkCount
    dsimp only
    have hx : ∀ (e' : Entry) (ec : EcArg), e'.path = e.path → Yields (WinEntryError e.path) (fun _ => True)
        ((updateExtra k e' ec).bind fun x => .ret ((x.1.cache.nlink, x.1), x.2)) := fun e' ec h => .bind (wsays_extra k h) fun _ _ => .ret _ True.intro
    split
    · exact .bind (wsays_basic _ rfl) fun x h => hx _ _ h
    · exact hx _ _ rfl
    · exact .ret _ True.intro
  | lastWriteTime =>
    refine .bind' ?_ fun _ => .ret _ True.intro
    unfold getLastWriteTime
    dsimp only
    refine .bind (Q := HoldsPath e.path) ?_ fun x _ => ?_
    · split
      · exact .bind (wsays_basic _ rfl) fun x h => wsays_extra k h
      · exact wsays_extra k rfl
      · split
        · exact wsays_extra k rfl
        · exact .ret _ rfl
      · exact .ret _ rfl
    · split
      · exact .bind' (.report ⟨InName.one (w := "GetLastWriteTime".toList) (.inl rfl) (by simp), rfl, rfl⟩) fun _ => .ret _ True.intro
      · exact .ret _ True.intro
  | status =>
    refine .bind' ?_ fun _ => .ret _ True.intro
    unfold getStatus
    dsimp only
    refine .bind (Q := HoldsPath e.path) ?_ fun x _ => .ret _ True.intro
    split
    · exact .bind (wsays_basic _ rfl) fun x h => .bind (wsays_extra k h) fun y h => wsays_perms _ h
    · exact .bind (wsays_extra k rfl) fun y h => wsays_perms _ h
    · exact wsays_perms _ rfl
    · split
      · exact wsays_perms _ rfl
      · exact .ret _ rfl
  | symlinkStatus =>
    refine .bind' ?_ fun _ => .ret _ True.intro
    unfold getSymLinkStatus
    dsimp only
    refine .bind (Q := HoldsPath e.path) ?_ fun x _ => .ret _ True.intro
    split
    · exact .bind (wsays_basic _ rfl) fun x h => .bind (wsays_extra k h) fun y h => wsays_perms _ h
    · exact .bind (wsays_extra k rfl) fun y h => wsays_perms _ h
    · exact wsays_perms _ rfl
    · exact .ret _ rfl

theorem wsays_refresh (k : SysClock) (e : Entry) (ec : EcArg) :
    Yields (fun x => InName "directory_entry::DoRefresh".toList x ∧ x.npaths = 1 ∧ x.path1 = e.path) (fun _ => True) (refresh k e ec) := by
  unfold refresh refreshImpl
  refine .bind (Q := fun x : Entry × Code => x.1.path = e.path) ?_ fun x hx => ?_
  · refine .bind (wsays_updateBasic _ (p := e.path) rfl nofun) fun x hx => ?_
    split
    · exact .ret _ hx
    refine .bind (wsays_updateExtra k hx nofun nofun) fun y hy => ?_
    split
    · exact .ret _ hy
    exact .bind (wsays_updatePerms _ hy nofun) fun z hz => .ret _ hz
  · refine .bind' ?_ fun _ => .ret _ True.intro
    unfold handleError
    split
    · exact .ret _ True.intro
    · split
      · exact .thrown _ ⟨.inl rfl, rfl, hx⟩
      · exact .ret _ True.intro

end
end Win

/-- C126. The exceptions of the observers of a `directory_entry` on Windows name one of five internal functions and carry the path of the entry;
`refresh()` names `directory_entry::DoRefresh`. -/
theorem c126_windows_entry (k : SysClock) (a : Ask) (e : Entry) {t : List Event} {x : FsError} :
    (Exec (a.onWindows k e .null) t (.error (.thrown x)) → WinEntryError e.path x) ∧
    (Exec (Win.refresh k e .null) t (.error (.thrown x)) →
      InName "directory_entry::DoRefresh".toList x ∧ x.npaths = 1 ∧ x.path1 = e.path) :=
  ⟨fun h => (Win.wsays_entry k a rfl).exec h, fun h => (Win.wsays_refresh k e .null).exec h⟩

/-- `is_directory()` of an entry whose file cannot be looked at, and `status()` of one whose permissions cannot be read. -/
example (k : SysClock) : (∃ t x, Exec ((Ask.is (· == .directory)).onWindows k ⟨mkPath .windows "a".toList, .reset⟩ .null) t (.error (.thrown x)) ∧
      x.msg = "in UpdateBasicFileInformation".toList) ∧
    ∃ t x, Exec (Ask.status.onWindows k ⟨mkPath .windows "a".toList, { Cache.reset with cacheType := .extra }⟩ .null) t (.error (.thrown x)) ∧
      x.msg = "in UpdatePermissionsInformation".toList :=
  ⟨⟨[⟨.win (.getAttrs "a".toList), .error .EACCES⟩], _, .call _ _ _ _ _ (.stop _), rfl⟩,
    ⟨[⟨.win (.createFile "a".toList Win.follow), .error .EACCES⟩], _, .call _ _ _ _ _ (.stop _), rfl⟩⟩

end Asap
