import Verif.Props.Faultless
import Verif.Props.WinA
import Verif.Props.WinL
import Verif.Path.WinParent
import Verif.Path.WinFile
import Verif.Path.WinRel
import Verif.Path.WinFirm
import Verif.Win.Whole

/-!
# C117: operations on Windows run into no fault
-/

namespace Asap
namespace Spec

/-- A path that operations of class `path` can make, compiled without copy elision; see `sturdy_made` and `sturdy_reached`. -/
def Sturdy (p : Path) : Prop := Firm true p

/-- Answers within the limits the library relies on: the current directory fits the buffer asked for, the names in a reparse point are within it,
a call that fails leaves an error, permissions have no other bits, and times are ticks of 64 bits. -/
def WinSane (k : SysClock) : Event → Prop
  | ⟨.win (.getCwd _), (r : Except Errno (Option Str))⟩ => r ≠ .ok none
  | ⟨.win (.reparse _), (.ok ws : Except Errno (List (BitVec 16)))⟩ => 10 + (ws.getD 6 0).toNat / 2 + (ws.getD 7 0).toNat / 2 ≤ 8196
  | ⟨.win .tempPath, (.error c : Except Code Str)⟩ => c ≠ none
  | ⟨.win .lastError, (c : Code)⟩ => c ≠ none
  | ⟨.win (.getPerms _ _), (.ok m : Except Errno Mode)⟩ => m ≤ 0o7777
  | ⟨.win (.getFileTime _), (.ok ft : Except Errno FileTime)⟩ =>
    -2 ^ 63 ≤ (((ft.high.toNat * 2 ^ 32 + ft.low.toNat : Nat) : Int) / 10000000 - 11644473600) * k.ticks ∧
      (((ft.high.toNat * 2 ^ 32 + ft.low.toNat : Nat) : Int) / 10000000 - 11644473600) * k.ticks < 2 ^ 63
  | _ => True

/-- Streams of such paths. -/
structure WinOpenStream (s : Stream) : Prop where
  root : Sturdy s.root
  entry : Sturdy s.entry.path

/-- Iterators as constructors and increments return them. -/
def WinUsable (it : DirIter) : Prop := ∀ s, it = some s → WinOpenStream s

/-- Recursive iterators. -/
def WinRecUsable (it : RecIter) : Prop := ∀ ss opts, it.impl = some (ss, opts) → ss ≠ [] ∧ ∀ s ∈ ss, WinOpenStream s

/-- What the caller has to see to. -/
def WinApt {α : Type} : WinOp α → Prop
  | .absolute p | .dirIter _ p _ | .recIter _ p _ | .isEmpty _ p | .removeAll _ p | .space p => Sturdy p
  | .copy _ _ a b _ => Sturdy a ∧ Sturdy b
  | .createDirectories el _ p => el = false ∧ Sturdy p
  | .permissions _ _ o => o &&& 7 = 1 ∨ o &&& 7 = 2 ∨ o &&& 7 = 4
  | .setLastWriteTime k _ t => t * k.nanos < 2 ^ 63
  | .dirIterIncr _ it => WinUsable it
  | .recIterIncr _ it | .recIterPop _ it => WinRecUsable it
  | _ => True

/-- Ask an entry on Windows. -/
def Ask.onWindows (k : SysClock) (a : Ask) (e : Entry) (ec : EcArg) : Prog ((Val × Entry) × EcArg) :=
  match a with
  | .exists' => (Win.Entry.existsE e ec).bind fun r => .ret ((.bool r.1.1, r.1.2), r.2)
  | .is g => (Win.Entry.isType (fun s => g s.type) e ec).bind fun r => .ret ((.bool r.1.1, r.1.2), r.2)
  | .isSymlink => (Win.Entry.isSymlinkE e ec).bind fun r => .ret ((.bool r.1.1, r.1.2), r.2)
  | .fileSize => (Win.getSize k e ec).bind fun r => .ret ((.num r.1.1, r.1.2), r.2)
  | .hardLinkCount => (Win.getHardLinkCount k e ec).bind fun r => .ret ((.num r.1.1, r.1.2), r.2)
  | .lastWriteTime => (Win.getLastWriteTime k e ec).bind fun r => .ret ((.time r.1.1, r.1.2), r.2)
  | .status => (Win.getStatus k e ec).bind fun r => .ret ((.status r.1.1, r.1.2), r.2)
  | .symlinkStatus => (Win.getSymLinkStatus k e ec).bind fun r => .ret ((.status r.1.1, r.1.2), r.2)

/-- A history of questions to an entry. -/
def winInterview (k : SysClock) : List (Ask × EcArg) → Entry → Prog Entry
  | [], e => .ret e
  | (a, ec) :: as, e => (a.onWindows k e ec).bind fun r => winInterview k as r.1.2

/-- What has to be in the cache of an entry for a question with an `error_code`. -/
def Ask.needs : Ask → CacheType → Prop
  | .exists', _ | .is _, _ | .isSymlink, _ => True
  | .fileSize, c | .hardLinkCount, c | .lastWriteTime, c => c ≠ .empty
  | .status, c | .symlinkStatus, c => c = .extra ∨ c = .full

/-- The clock of an operation is `k`. -/
def ClockIs {α : Type} (k : SysClock) : WinOp α → Prop
  | .copy c .. | .copyFile c .. | .lastWriteTime c _ | .setLastWriteTime c .. => c = k
  | _ => True

end Spec
open Spec

/-! ## Paths -/

theorem sturdy_made {p : Path} (h : p = .default ∨ ∃ s, p = mkPath .windows s) : Sturdy p := by
  rcases h with rfl | ⟨s, rfl⟩
  · exact .dflt
  · exact firm_mkPath s

/-- Whatever a program does with paths, its paths are sturdy. -/
theorem sturdy_reached {ops : List Op} {σ : Store} (h : execAllOn .windows false ops (fun _ => .default) = .ok σ) (v : Nat) : Sturdy (σ v) := by
  have key : ∀ (ops : List Op) (σ σ' : Store), AllFirm true σ → execAllOn .windows false ops σ = .ok σ' → AllFirm true σ' := by
    intro ops
    induction ops with
    | nil => intro σ σ' h e; cases e; exact h
    | cons op ops ih =>
      intro σ σ' h e
      rcases execOn_firm (op := op) (el := false) h (.inl rfl) (.inl rfl) with ⟨σ1, h1, h2⟩ | ⟨h1, _⟩
      · simp only [execAllOn, h1, bind, Except.bind] at e
        exact ih _ _ h2 e
      · simp only [execAllOn, h1, bind, Except.bind] at e
        cases e
  exact key ops _ σ (fun _ => .dflt) h v

/-- The questions `operator/=` asks are answered. -/
structure Answers (p : Path) : Prop where
  abs : ∃ b, isAbsolute .windows p = .ok b
  dir : ∃ b, hasRootDirectory .windows p = .ok b
  file : ∃ q, filename .windows p = .ok q ∧ Sturdy q

theorem sturdy_answers {p : Path} (h : Sturdy p) : Answers p := ⟨h.isAbsolute, h.hasRootDirectory, h.filename⟩

theorem sturdy_append {p q : Path} (hp : Sturdy p) (hq : Sturdy q) : ∃ r, append .windows p q = .ok r ∧ Sturdy r := Firm.append hp hq

/-- A path with a root has a directory. -/
theorem sturdy_removeFilename {p : Path} (h : Sturdy p) (hr : hasRootName p = true ∨ isAbsolute .windows p = .ok true) :
    ∃ q, removeFilename .windows p = .ok q := by
  rcases Firm.removeFilename h with ⟨q, h, -⟩ | ⟨h, -⟩
  · exact ⟨q, h⟩
  · exfalso
    unfold removeFilename at h
    split at h
    · rename_i ht
      split at h
      · cases h
      · rename_i c hc
        split at h
        · rename_i hf
          cases he : eraseFrom p.pathname c.pos with
          | error e =>
            rw [he] at h
            cases h
            unfold eraseFrom at he
            split at he <;> cases he
          | ok s =>
            rw [he] at h
            simp only [bind, Except.bind] at h
            split at h
            · rename_i hd
              rw [List.getLast?_eq_none_iff] at hd
              have hcs : p.comps = [c] := by
                rcases hx : p.comps with - | ⟨x, - | ⟨y, l⟩⟩
                · rw [hx] at hc; cases hc
                · rw [hx] at hc; cases hc; rfl
                · rw [hx] at hd; cases hd
              have h1 : hasRootName p = false := by simp [hasRootName, ht, hcs, hf.1]
              rcases hr with hr | hr
              · rw [h1] at hr; cases hr
              · simp [isAbsolute, h1, hasRootDirectory, rootDirectory, ht, hcs, skipType, hf.1, Path.isEmpty, Path.default, pure, Except.pure, bind, Except.bind] at hr
            · split at h <;> cases h
        · cases h
    · cases h
    · cases h

/-- An absolute path has a directory. -/
theorem sturdy_append_dir {p q r : Path} (hp : Sturdy p) (hq : Sturdy q) (h : append .windows p q = .ok r) : ∃ d, removeFilename .windows r = .ok d := by
  obtain ⟨⟨a1, ha1⟩, ⟨d1, hd1⟩, ⟨f1, hf1, -⟩⟩ := sturdy_answers hp
  obtain ⟨⟨a2, ha2⟩, ⟨d2, hd2⟩, -⟩ := sturdy_answers hq
  have hh : ∃ b, hasFilename .windows p = .ok b := ⟨!f1.isEmpty, by rw [hasFilename, hf1]; rfl⟩
  obtain ⟨b, hb⟩ := hh
  have e : append .windows p q = .ok (if (a2 && !hasRootName p) || (hasRootName q && !(Path.eqv (rootName q) (rootName p))) then q
      else appendFinish .windows false (if d2 then appendRootOnly p else p.pathname) (if d2 then false else if b then true else if d1 then false else a1)
        (appendRhs q)) := by
    unfold append appendWith
    rw [ha2, hd2, hb, hd1, ha1]
    simp only [bind, Except.bind, pure, Except.pure]
    split
    · rfl
    · cases d2 <;> cases b <;> cases d1 <;> rfl
  rw [e] at h
  cases h
  split
  · rename_i hc
    refine sturdy_removeFilename hq ?_
    rw [Bool.or_eq_true, Bool.and_eq_true, Bool.and_eq_true] at hc
    rcases hc with hc | hc
    · rw [hc.1] at ha2; exact .inr ha2
    · exact .inl hc.1
  · unfold appendFinish
    split
    · exact ⟨_, win_removeFilename _⟩
    · exact ⟨_, win_removeFilename _⟩

theorem sturdy_moved (p : Path) : Sturdy (p.moved .windows) := firm_mkPath _

/-! ## Programs -/

section
variable {k : SysClock} {p q : Path} {ec : EcArg}

theorem from_ok {ft : FileTime} (h : InI64 ((intervals ft / 10000000 - 11644473600) * k.ticks)) : ∃ t, fromWindowsFileTime k ft = .ok t ∧ True := by
  unfold fromWindowsFileTime i64
  dsimp only
  rw [from_seconds, if_pos h]
  exact ⟨_, rfl, trivial⟩

theorem to_ok {t : Int} (h : t * k.nanos < 2 ^ 63) : ∃ x, toWindowsFileTime k t = .ok x ∧ True := by
  unfold toWindowsFileTime i64
  split
  · exact ⟨_, rfl, trivial⟩
  · rename_i ht
    have h0 : 0 ≤ t * k.nanos := Int.mul_nonneg (by omega) (by omega)
    have h1 : (t * (k.nanos : Int)).tdiv 100 = t * k.nanos / 100 := Int.tdiv_eq_ediv_of_nonneg h0
    rw [if_pos (show InI64 _ from ⟨by omega, h⟩)]
    simp only [bind, Except.bind]
    rw [h1, if_pos (show InI64 _ from ⟨by omega, by omega⟩)]
    exact ⟨_, rfl, trivial⟩

theorem wsound_withFile {α : Type} {Q : α → Prop} {o : WinOpen} {fail : Errno → Prog α} {body : Nat → Prog α}
    (hf : ∀ e, Sound (WinSane k) Q (fail e)) (hb : ∀ d, Sound (WinSane k) Q (body d)) : Sound (WinSane k) Q (Win.withFile p o fail body) := by
  refine .call _ _ fun r _ => ?_
  cases r with
  | error e => exact hf e
  | ok d => exact (hb d).finally' (.call _ _ fun _ _ => .ret _ trivial)

theorem wsound_captureErrno : Sound (WinSane k) (fun _ => True) Win.captureErrno := by
  refine .call _ _ fun r hr => ?_
  cases r with
  | none => exact absurd rfl (show (none : Code) ≠ none from hr)
  | some e => exact .ret _ trivial

/-- The `error_code` is still of the same kind, and an error of the check is in it. -/
theorem wsound_isReparse : Sound (WinSane k) (fun _ => True) (Win.isReparsePointSymlink p ec) := by
  refine wsound_withFile (fun e => .report trivial) fun d => ?_
  sound

theorem wsound_status : Sound (WinSane k) (fun r => ∀ c, ec = .ref c → r.2.isSet = false → r.1.perms ≠ Perms.unknown) (Win.status p ec) := by
  have hf : ∀ e, Sound (WinSane k) (fun r : FStatus × EcArg => ∀ c, ec = .ref c → r.2.isSet = false → r.1.perms ≠ Perms.unknown)
      (.ret (Win.processStatusFailure e ec.clear)) := by
    intro e
    refine .ret _ ?_
    rintro c rfl h
    unfold Win.processStatusFailure at h
    repeat' split at h
    all_goals cases h
  refine .call _ _ fun r hr => ?_
  cases r with
  | error e => exact hf e
  | ok attrs =>
    refine Sound.bind (Q := fun _ => True) ?_ ?_
    · unfold Win.targetAttrs
      split
      · refine wsound_withFile (fun _ => .ret _ trivial) fun d => ?_
        sound
      · exact .ret _ trivial
    rintro x _
    cases x with
    | error e => exact hf e
    | ok attrs =>
      refine .call _ _ fun r hr => ?_
      cases r with
      | error e => exact hf e
      | ok m =>
        refine .ret _ fun _ _ _ h => ?_
        have hm : m ≤ 0o7777 := hr
        rw [show m = Perms.unknown from h] at hm
        exact absurd hm (by decide)

theorem wsound_symlinkStatus : Sound (WinSane k) (fun r => ∀ c, ec = .ref c → r.2.isSet = false → r.1.perms ≠ Perms.unknown) (Win.symlinkStatus p ec) := by
  have hf : ∀ e, Sound (WinSane k) (fun r : FStatus × EcArg => ∀ c, ec = .ref c → r.2.isSet = false → r.1.perms ≠ Perms.unknown)
      (.ret (Win.processStatusFailure e ec.clear)) := by
    intro e
    refine .ret _ ?_
    rintro c rfl h
    unfold Win.processStatusFailure at h
    repeat' split at h
    all_goals cases h
  refine .call _ _ fun r hr => ?_
  cases r with
  | error e => exact hf e
  | ok attrs =>
    refine .call _ _ fun r hr => ?_
    cases r with
    | error e => exact hf e
    | ok m =>
      have hm : m ≤ 0o7777 := hr
      have hu : m ≠ Perms.unknown := by rintro rfl; exact absurd hm (by decide)
      dsimp only
      split
      · exact wsound_isReparse.bind fun x _ => .ret _ fun _ _ _ => hu
      · exact .ret _ fun _ _ _ => hu

theorem wsound_stat : Sound (WinSane k) (fun _ => True) (Win.status p ec) := wsound_status.mono fun _ _ => trivial
theorem wsound_lstat : Sound (WinSane k) (fun _ => True) (Win.symlinkStatus p ec) := wsound_symlinkStatus.mono fun _ _ => trivial

theorem wsound_isDirectoryP : Sound (WinSane k) (fun _ => True) (Win.isDirectoryP p ec) := wsound_stat.bind fun _ _ => .ret _ trivial

theorem printName_ok {ws : List (BitVec 16)} (h : 10 + (ws.getD 6 0).toNat / 2 + (ws.getD 7 0).toNat / 2 ≤ 8196) :
    ∃ r, Win.printName ws = .ok r ∧ Sturdy r := by
  unfold Win.printName Win.unit Win.bufUnits
  dsimp only
  exact ⟨_, if_pos h, firm_mkPath _⟩

theorem wsound_readSymlink : Sound (WinSane k) (fun _ => True) (Win.readSymlink p ec) := by
  refine wsound_withFile (fun _ => .report trivial) fun d => ?_
  refine .call _ _ fun r hr => ?_
  cases r with
  | error e => exact .report trivial
  | ok ws => exact (Sound.ofRes (printName_ok hr)).bind fun _ _ => .ret _ trivial

theorem wsound_currentPath : Sound (WinSane k) (fun r => Sturdy r.1) (Win.currentPath ec) := by
  refine .call _ _ fun r hr => .call _ _ fun r hr => ?_
  cases r with
  | error e => exact .reportMsg .dflt
  | ok o =>
    cases o with
    | none => exact absurd rfl (show (Except.ok none : Except Errno (Option Str)) ≠ .ok none from hr)
    | some s => exact .ret _ (firm_mkPath s)

theorem wsound_doAbsolute (hp : Sturdy p) : Sound (WinSane k) (fun r => Sturdy r.1.1 ∧ Sturdy r.1.2) (Win.doAbsolute p ec) := by
  unfold Win.doAbsolute
  dsimp only
  obtain ⟨b, hb⟩ := (sturdy_answers hp).abs
  refine (Sound.ofRes (Q := fun _ => True) ⟨b, hb, trivial⟩).bind fun b _ => ?_
  split
  · exact .ret _ ⟨hp, .dflt⟩
  · refine wsound_currentPath.bind fun x hx => ?_
    split
    · exact .ret _ ⟨.dflt, hx⟩
    · exact (Sound.ofRes (sturdy_append hx hp)).bind fun r hr => .ret _ ⟨hr, hx⟩

theorem wsound_absolute (hp : Sturdy p) : Sound (WinSane k) (fun r => Sturdy r.1) (Win.absolute p ec) :=
  (wsound_doAbsolute hp).bind fun _ h => .ret _ h.1

/-- What `absolute` returns has a directory. -/
theorem wdir_absolute (hp : Sturdy p) : Sound (WinSane k) (fun r => ∃ d, removeFilename .windows r.1 = .ok d) (Win.absolute p ec) := by
  unfold Win.absolute Win.doAbsolute
  dsimp only
  obtain ⟨b, hb⟩ := (sturdy_answers hp).abs
  refine Sound.bind (Q := fun r => ∃ d, removeFilename .windows r.1.1 = .ok d) ?_ fun x hx => .ret _ hx
  refine (Sound.ofRes (Q := fun x => x = b) ⟨b, hb, rfl⟩).bind fun b' hb' => ?_
  split
  · rename_i h
    rw [Bool.and_eq_true] at h
    exact .ret _ (sturdy_removeFilename hp (.inl h.2))
  · refine wsound_currentPath.bind fun x hx => ?_
    split
    · exact .ret _ ⟨_, rfl⟩
    · obtain ⟨r, hr, -⟩ := sturdy_append hx hp
      exact (Sound.ofRes (Q := fun y => y = r) ⟨r, hr, rfl⟩).bind fun y hy => .ret _ (by rw [hy]; exact sturdy_append_dir hx hp hr)

theorem wsound_createDirectory : Sound (WinSane k) (fun _ => True) (Win.createDirectory p ec) := by
  unfold Win.createDirectory
  sound

theorem wsound_createDirectoryLike : Sound (WinSane k) (fun _ => True) (Win.createDirectoryLike p q ec) := by
  unfold Win.createDirectoryLike
  sound

theorem wsound_missingOf : ∀ (n : Nat) (p : Path) (acc : List Path), Sturdy p → Sound (WinSane k) (fun _ => True) (Win.missingOf false n p acc)
  | 0, _, _, _ => .fuel
  | n + 1, p, acc, hp => by
    unfold Win.missingOf
    obtain ⟨f, hf, _⟩ := (sturdy_answers hp).file
    obtain ⟨r, hr, hm⟩ := Firm.parentPath hp
    refine (Sound.ofRes (Q := fun _ => True) ⟨!f.isEmpty, by rw [hasFilename, hf]; rfl, trivial⟩).bind fun b _ => ?_
    split
    · rw [hf, hr]
      exact wsound_missingOf n r _ hm
    · exact .ret _ trivial

theorem wsound_createTop {b : Bool} : Sound (WinSane k) (fun _ => True) (Win.createTop p b) := by
  unfold Win.createTop
  refine wsound_stat.bind fun x _ => ?_
  refine Sound.bind (Q := fun _ => True) ?_ fun z _ => ?_
  · split
    · exact wsound_createDirectory.bind fun _ _ => .ret _ trivial
    · exact .ret _ trivial
  · split
    · exact wsound_isDirectoryP.bind fun _ _ => .ret _ trivial
    · exact .ret _ trivial

theorem wsound_createMissing : ∀ (l : List Path) (b : Bool), Sound (WinSane k) (fun _ => True) (Win.createMissing l b)
  | [], _ => .ret _ trivial
  | x :: l, b => by
    unfold Win.createMissing
    refine wsound_createTop.bind fun y _ => ?_
    split
    · exact .ret _ trivial
    · exact wsound_createMissing l _

theorem wsound_createDirectories {n : Nat} (hp : Sturdy p) : Sound (WinSane k) (fun _ => True) (Win.createDirectories false n p ec) := by
  unfold Win.createDirectories
  dsimp only
  split
  · exact .report trivial
  refine (wsound_missingOf n p [] hp).bind fun l _ => ?_
  split
  · exact .ret _ trivial
  refine (wsound_createMissing _ _).bind fun y _ => ?_
  split
  · exact .report trivial
  · exact .ret _ trivial

theorem wsound_createSymlinkAs {fn : Str} {d : Bool} : Sound (WinSane k) (fun _ => True) (Win.createSymlinkAs fn d p q ec) := by
  unfold Win.createSymlinkAs
  sound

theorem wsound_createHardLink : Sound (WinSane k) (fun _ => True) (Win.createHardLink p q ec) := by
  unfold Win.createHardLink
  sound

theorem wsound_copySymlink : Sound (WinSane k) (fun _ => True) (Win.copySymlink p q ec) := by
  unfold Win.copySymlink
  refine wsound_readSymlink.bind fun x _ => ?_
  split
  · exact .report trivial
  refine wsound_isDirectoryP.bind fun y _ => ?_
  split
  · exact .report trivial
  split
  · exact wsound_createSymlinkAs
  · exact wsound_createSymlinkAs

theorem wsound_setCurrentPath : Sound (WinSane k) (fun _ => True) (Win.setCurrentPath p ec) := by
  unfold Win.setCurrentPath
  sound

theorem wsound_equivalent : Sound (WinSane k) (fun _ => True) (Win.equivalent p q ec) := by
  refine wsound_withFile (fun _ => .report trivial) fun d => ?_
  refine wsound_withFile (fun _ => .report trivial) fun d => ?_
  sound

theorem wsound_fileSize : Sound (WinSane k) (fun _ => True) (Win.fileSize p ec) := by
  unfold Win.fileSize
  sound

theorem wsound_hardLinkCount : Sound (WinSane k) (fun _ => True) (Win.hardLinkCount p ec) := by
  refine wsound_withFile (fun _ => .report trivial) fun d => ?_
  sound

theorem sane_time {d : Nat} {ft : FileTime} (h : WinSane k ⟨.win (.getFileTime d), (.ok ft : Except Errno FileTime)⟩) :
    InI64 ((intervals ft / 10000000 - 11644473600) * k.ticks) := by
  have e : (((ft.high.toNat * 2 ^ 32 + ft.low.toNat : Nat)) : Int) = intervals ft := by simp only [intervals]; omega
  have h : InI64 ((((ft.high.toNat * 2 ^ 32 + ft.low.toNat : Nat) : Int) / 10000000 - 11644473600) * k.ticks) := h
  rwa [e] at h

theorem wsound_lastWriteTime : Sound (WinSane k) (fun _ => True) (Win.lastWriteTime k p ec) := by
  refine wsound_withFile (fun _ => .report trivial) fun d => ?_
  refine .call _ _ fun r hr => ?_
  cases r with
  | error e => exact .report trivial
  | ok ft => exact (Sound.ofRes (from_ok (sane_time hr))).bind fun _ _ => .ret _ trivial

theorem wsound_setLastWriteTime {t : Int} (h : t * k.nanos < 2 ^ 63) {k' : SysClock} : Sound (WinSane k') (fun _ => True) (Win.setLastWriteTime k p t ec) := by
  refine wsound_withFile (fun _ => .report trivial) fun d => ?_
  refine (Sound.ofRes (to_ok h)).bind fun x _ => ?_
  sound

theorem wsound_putPerms {m : Perms} : Sound (WinSane k) (fun _ => True) (Win.putPerms p m ec) := by
  unfold Win.putPerms
  sound

theorem wsound_permissions {m : Perms} {o : PermOptions} (h : o &&& 7 = 1 ∨ o &&& 7 = 2 ∨ o &&& 7 = 4) :
    Sound (WinSane k) (fun _ => True) (Win.permissions p m o ec) := by
  unfold Win.permissions
  dsimp only
  rw [if_neg (by rw [one_option h]; simp)]
  split
  · refine Sound.bind (Q := fun r => r.2.isSet = false → r.1.perms ≠ Perms.unknown) ?_ fun x hx => ?_
    · split
      · exact wsound_status.mono fun _ h => h none rfl
      · exact wsound_symlinkStatus.mono fun _ h => h none rfl
    · split
      · exact .report trivial
      · rename_i hm
        rw [if_neg (hx (by simpa using hm))]
        exact wsound_putPerms
  · exact wsound_putPerms

theorem wsound_remove : Sound (WinSane k) (fun _ => True) (Win.remove p ec) := by
  unfold Win.remove
  sound

theorem wsound_rename : Sound (WinSane k) (fun _ => True) (Win.rename p q ec) := by
  refine .call _ _ fun r hr => ?_
  cases r with
  | ok _ => exact .ret _ trivial
  | error e => exact wsound_captureErrno.bind fun _ _ => .report trivial

theorem wsound_resizeFile {z : BitVec 64} : Sound (WinSane k) (fun _ => True) (Win.resizeFile p z ec) := by
  refine wsound_withFile (fun _ => .report trivial) fun d => ?_
  sound

theorem wsound_space (hp : Sturdy p) : Sound (WinSane k) (fun _ => True) (Win.space p ec) := by
  unfold Win.space
  refine (wdir_absolute hp).bind fun x hx => ?_
  obtain ⟨d, hd⟩ := hx
  refine (Sound.ofRes (Q := fun _ => True) ⟨d, hd, trivial⟩).bind fun d _ => ?_
  sound

theorem wsound_tempDirectoryPath : Sound (WinSane k) (fun _ => True) (Win.tempDirectoryPath ec) := by
  refine .call _ _ fun r hr => ?_
  cases r with
  | error c =>
    cases c with
    | none => exact absurd rfl (show (none : Code) ≠ none from hr)
    | some e => exact .reportMsg trivial
  | ok s =>
    refine wsound_stat.bind fun x _ => ?_
    sound

theorem wsound_shouldCopy {h : Handler} {b : Bool} {o : CopyOptions} : Sound (WinSane k) (fun _ => True) (Win.shouldCopy k h p q b o ec) := by
  unfold Win.shouldCopy
  split
  · refine wsound_lastWriteTime.bind fun x _ => ?_
    split
    · exact .report trivial
    refine wsound_lastWriteTime.bind fun y _ => ?_
    split
    · exact .report trivial
    · exact .ret _ trivial
  split
  · exact .ret _ trivial
  · exact .report trivial

theorem wsound_copyFile {o : CopyOptions} : Sound (WinSane k) (fun _ => True) (Win.copyFile k p q o ec) := by
  unfold Win.copyFile
  refine wsound_stat.bind fun f _ => ?_
  split
  · exact .report trivial
  split
  · exact .report trivial
  refine wsound_stat.bind fun t _ => ?_
  split
  · exact .report trivial
  split
  · exact .report trivial
  refine Sound.bind (Q := fun _ => True) ?_ fun e _ => ?_
  · split
    · exact wsound_equivalent
    · exact .ret _ trivial
  split
  · exact .report trivial
  split
  · exact .ret _ trivial
  refine wsound_shouldCopy.bind fun x _ => ?_
  unfold Win.doCopy
  sound

/-! ## Entries -/

theorem wsound_basicReparse {e : Entry} {a : Mask} : Sound (WinSane k) (fun r => r.1.cacheType = e.cache.cacheType) (Win.basicReparse e a) := by
  unfold Win.basicReparse
  split
  · refine wsound_isReparse.bind fun x _ => ?_
    split
    · exact .ret _ rfl
    · refine .ret _ ?_
      dsimp only
      split <;> rfl
  · exact .ret _ rfl

theorem wsound_basicOpen {a : Mask} {c : Cache} : Sound (WinSane k) (fun r => r.1.cacheType = c.cacheType) (Win.basicOpen p a c) := by
  refine wsound_withFile (fun _ => .ret _ rfl) fun d => ?_
  refine .call _ _ fun r hr => ?_
  cases r with
  | error e => exact .ret _ rfl
  | ok i =>
    dsimp only
    split
    · exact .ret _ (by dsimp only; split <;> rfl)
    split
    · exact .ret _ (by dsimp only; split <;> rfl)
    refine .call _ _ fun r hr => ?_
    split
    · exact .ret _ (by dsimp only; split <;> rfl)
    split
    · exact .ret _ (by dsimp only; split <;> rfl)
    · refine wsound_captureErrno.bind fun _ _ => .ret _ ?_
      dsimp only
      split <;> rfl

/-- What `UpdateBasicFileInformation` leaves: the same path, and a cache of basic information unless it reported an error. -/
structure Basics (e : Entry) (ec : EcArg) (r : Entry × EcArg) : Prop where
  path : r.1.path = e.path
  kind : r.1.cache.cacheType = .basic ∨ (r.1.cache.cacheType = e.cache.cacheType ∧ r.2.isSet = true)
  ref : (r.2 = .null ↔ ec = .null)

theorem wsound_updateBasic {b : Bool} {e : Entry} : Sound (WinSane k) (Basics e ec) (Win.updateBasic b e ec) := by
  have hf : ∀ (h : Handler) (c : Cache) (m : Code), c.cacheType = e.cache.cacheType → m ≠ none → Sound (WinSane k) (Basics e ec)
      ((h.report ec.clear m ()).bind fun x => .ret ({ e with cache := c }, x.2)) := by
    intro h c m hc hm
    cases ec with
    | null => exact .thrown _
    | ref c0 =>
      cases m with
      | none => exact absurd rfl hm
      | some m => exact .ret _ ⟨rfl, .inr ⟨hc, rfl⟩, by simp⟩
  have hn : ec.clear = .null ↔ ec = .null := by cases ec <;> simp [EcArg.clear]
  refine .call _ _ fun r hr => ?_
  cases r with
  | error m => exact hf _ _ _ rfl (by simp)
  | ok attrs =>
    refine wsound_basicReparse.bind fun x hx => ?_
    split
    · exact hf _ _ _ hx ‹_›
    refine Sound.bind (Q := fun y => y.1.cacheType = e.cache.cacheType) ?_ fun y hy => ?_
    · have hg : ∀ c : Cache, c.cacheType = e.cache.cacheType → Sound (WinSane k) (fun y => y.1.cacheType = e.cache.cacheType)
          (if c.type = .none || (c.type = .symlink && b) then Win.basicOpen e.path attrs c else .ret (c, none)) := by
        intro c hc
        split
        · exact wsound_basicOpen.mono fun r hr => hr.trans hc
        · exact .ret _ hc
      refine hg _ ?_
      split <;> exact hx
    · split
      · exact hf _ _ _ hy ‹_›
      · exact .ret _ ⟨rfl, .inl rfl, hn⟩

/-- What `UpdateExtraFileInformation` leaves. -/
structure Extras (e : Entry) (ec : EcArg) (r : Entry × EcArg) : Prop where
  path : r.1.path = e.path
  kind : r.1.cache.cacheType = .extra ∨ (r.1.cache.cacheType = e.cache.cacheType ∧ r.2.isSet = true)
  ref : (r.2 = .null ↔ ec = .null)

theorem wsound_extraLink {h : Handler} {c : Cache} : Sound (WinSane k) (fun r => (r.1.cacheType = .extra ∨ (r.1.cacheType = c.cacheType ∧ r.2.isSet = true)) ∧
    (r.2 = .null ↔ ec = .null)) (Win.extraLink k p h c ec) := by
  have hf : ∀ (c' : Cache) (m : Errno), c'.cacheType = c.cacheType → Sound (WinSane k)
      (fun r : Cache × EcArg => (r.1.cacheType = .extra ∨ (r.1.cacheType = c.cacheType ∧ r.2.isSet = true)) ∧ (r.2 = .null ↔ ec = .null))
      ((h.report ec (some m) ()).bind fun x => .ret (c', x.2)) := by
    intro c' m hc
    cases ec with
    | null => exact .thrown _
    | ref c0 => exact .ret _ ⟨.inr ⟨hc, rfl⟩, by simp⟩
  refine wsound_withFile (fun m => hf _ _ rfl) fun d => ?_
  refine .call _ _ fun r hr => ?_
  cases r with
  | error m => exact hf _ _ rfl
  | ok i =>
    dsimp only
    split
    · cases ec with
      | null => exact .thrown _
      | ref c0 => exact .ret _ ⟨.inr ⟨rfl, rfl⟩, by simp⟩
    refine .call _ _ fun r hr => ?_
    cases r with
    | error m => exact hf _ _ rfl
    | ok ft => exact (Sound.ofRes (from_ok (sane_time hr))).bind fun t _ => .ret _ ⟨.inl rfl, Iff.rfl⟩

theorem wsound_updateExtra {e : Entry} (he : e.cache.cacheType = .basic ∨ e.cache.cacheType = .extra) :
    Sound (WinSane k) (Extras e ec) (Win.updateExtra k e ec) := by
  have hn : ec.clear = .null ↔ ec = .null := by cases ec <;> simp [EcArg.clear]
  unfold Win.updateExtra
  dsimp only
  rw [if_neg (by rcases he with h | h <;> simp [h])]
  refine Sound.bind (Q := fun x => x.1.cacheType = e.cache.cacheType ∧ (x.2.2 = .null ↔ ec = .null) ∧ (x.2.1 = false → x.2.2.isSet = true)) ?_ fun x hx => ?_
  · have hf : ∀ (h : Handler) (m : Errno), Sound (WinSane k)
        (fun x : Cache × Bool × EcArg => x.1.cacheType = e.cache.cacheType ∧ (x.2.2 = .null ↔ ec = .null) ∧ (x.2.1 = false → x.2.2.isSet = true))
        ((h.report ec.clear (some m) ()).bind fun x => .ret (e.cache, false, x.2)) := by
      intro h m
      cases ec with
      | null => exact .thrown _
      | ref c0 => exact .ret _ ⟨rfl, by simp, fun _ => rfl⟩
    refine wsound_withFile (fun m => hf _ _) fun d => ?_
    refine .call _ _ fun r hr => ?_
    cases r with
    | error m => exact hf _ _
    | ok i => exact .ret _ ⟨rfl, hn, by simp⟩
  · obtain ⟨h1, h2, h3⟩ := hx
    split
    · rename_i hb
      exact .ret _ ⟨rfl, .inr ⟨h1, h3 (by simpa using hb)⟩, h2⟩
    split
    · refine wsound_extraLink.bind fun y hy => .ret _ ⟨rfl, ?_, hy.2.trans h2⟩
      exact hy.1.imp id fun h => ⟨h.1.trans h1, h.2⟩
    · exact .ret _ ⟨rfl, .inl rfl, h2⟩

theorem wsound_handlePerms {o : WinOpen} : Sound (WinSane k) (fun _ => True) (Win.handlePerms p o) := by
  refine wsound_withFile (fun _ => .ret _ trivial) fun d => ?_
  sound

/-- What `UpdatePermissionsInformation` leaves. -/
structure Fulls (e : Entry) (ec : EcArg) (r : Entry × EcArg) : Prop where
  path : r.1.path = e.path
  kind : r.1.cache.cacheType = .full ∨ r.1.cache.cacheType = e.cache.cacheType
  ref : (r.2 = .null ↔ ec = .null)

theorem wsound_updatePerms {b : Bool} {e : Entry} (he : e.cache.cacheType = .extra ∨ e.cache.cacheType = .full) :
    Sound (WinSane k) (Fulls e ec) (Win.updatePerms b e ec) := by
  have hn : ec.clear = .null ↔ ec = .null := by cases ec <;> simp [EcArg.clear]
  have hf : ∀ (h : Handler) (c : Cache) (m : Code), c.cacheType = e.cache.cacheType → Sound (WinSane k) (Fulls e ec)
      ((h.report ec.clear m ()).bind fun x => .ret ({ e with cache := c }, x.2)) := by
    intro h c m hc
    cases ec with
    | null => exact .thrown _
    | ref c0 => exact .ret _ ⟨rfl, .inr hc, by simp⟩
  unfold Win.updatePerms
  dsimp only
  rw [if_neg (by rcases he with h | h <;> simp [h])]
  refine wsound_handlePerms.bind fun x _ => ?_
  have hg : ∀ c : Cache, c.cacheType = e.cache.cacheType → Sound (WinSane k) (Fulls e ec)
      (if x.2 ≠ none then ((⟨"UpdatePermissionsInformation".toList, some e.path, none⟩ : Handler).report ec.clear x.2 ()).bind fun z =>
          .ret ({ e with cache := c }, z.2)
        else if c.symlink && b then
          (Win.handlePerms e.path Win.noFollow).bind fun y =>
            let c := match y.1 with
              | none => c
              | some prms => { c with nonSymlinkPerms := prms }
            if y.2 ≠ none then ((⟨"UpdatePermissionsInformation".toList, some e.path, none⟩ : Handler).report ec.clear y.2 ()).bind fun z =>
              .ret ({ e with cache := c }, z.2)
            else .ret ({ e with cache := { c with permsResolved := true, cacheType := .full } }, ec.clear)
        else .ret ({ e with cache := { c with cacheType := .full } }, ec.clear)) := by
    intro c hc
    split
    · exact hf _ _ _ hc
    split
    · refine wsound_handlePerms.bind fun y _ => ?_
      dsimp only
      by_cases hy : y.2 ≠ none
      · rw [if_pos hy]
        refine hf _ _ _ ?_
        split
        · exact hc
        · exact hc
      · rw [if_neg hy]
        exact .ret _ ⟨rfl, .inl rfl, hn⟩
    · exact .ret _ ⟨rfl, .inl rfl, hn⟩
  refine hg _ ?_
  split
  · rfl
  · split <;> rfl

theorem wsound_handleError {m : Str} {e : Entry} {c : Code} {b : Bool} : Sound (WinSane k) (fun _ => True) (handleError m e c b ec) := by
  cases ec with
  | ref _ => exact .ret _ trivial
  | null =>
    unfold handleError
    dsimp only
    split
    · exact .thrown _
    · exact .ret _ trivial

theorem wsound_refresh {e : Entry} : Sound (WinSane k) (fun r => r.1.path = e.path) (Win.refresh k e ec) := by
  unfold Win.refresh Win.refreshImpl
  refine Sound.bind (Q := fun r => r.1.path = e.path) ?_ fun r hr => wsound_handleError.bind fun _ _ => .ret _ hr
  refine wsound_updateBasic.bind fun x hx => ?_
  split
  · exact .ret _ hx.path
  rename_i h1
  have h1' := hx.kind.resolve_right (by simp [h1])
  refine (wsound_updateExtra (.inl h1')).bind fun y hy => ?_
  split
  · exact .ret _ (hy.path.trans hx.path)
  rename_i h2
  have h2' := hy.kind.resolve_right (by simp [h2])
  refine (wsound_updatePerms (.inl h2')).bind fun z hz => .ret _ (hz.path.trans (hy.path.trans hx.path))


/-- How much is in a cache. -/
def CacheType.rank : CacheType → Nat
  | .empty => 0 | .basic => 1 | .extra => 2 | .full => 3

theorem needs_mono {a : Ask} {c c' : CacheType} (h : a.needs c) (hr : c.rank ≤ c'.rank) : a.needs c' := by
  cases a <;> cases c <;> cases c' <;> simp_all [Ask.needs, CacheType.rank]

/-- The entry after a question. -/
structure Still (e e' : Entry) : Prop where
  path : e'.path = e.path
  rank : e.cache.cacheType.rank ≤ e'.cache.cacheType.rank

theorem Still.refl (e : Entry) : Still e e := ⟨rfl, Nat.le_refl _⟩
theorem Still.trans {a b c : Entry} (h : Still a b) (h' : Still b c) : Still a c := ⟨h'.path.trans h.path, Nat.le_trans h.rank h'.rank⟩

theorem Basics.still {e : Entry} {r : Entry × EcArg} (h : Basics e ec r) (he : e.cache.cacheType = .empty ∨ e.cache.cacheType = .basic) : Still e r.1 := by
  refine ⟨h.path, ?_⟩
  rcases h.kind with h | ⟨h, _⟩ <;> rw [h]
  · rcases he with h | h <;> rw [h] <;> decide
  · exact Nat.le_refl _

theorem Extras.still {e : Entry} {r : Entry × EcArg} (h : Extras e ec r) (he : e.cache.cacheType = .basic ∨ e.cache.cacheType = .extra) : Still e r.1 := by
  refine ⟨h.path, ?_⟩
  rcases h.kind with h | ⟨h, _⟩ <;> rw [h]
  · rcases he with h | h <;> rw [h] <;> decide
  · exact Nat.le_refl _

theorem Fulls.still {e : Entry} {r : Entry × EcArg} (h : Fulls e ec r) : Still e r.1 := by
  refine ⟨h.path, ?_⟩
  rcases h.kind with h | h <;> rw [h]
  · cases e.cache.cacheType <;> decide
  · exact Nat.le_refl _

theorem wsound_linkType {e : Entry} : Sound (WinSane k) (fun r => Still e r.1.2) (Win.getSymLinkFileType e ec) := by
  unfold Win.getSymLinkFileType
  refine Sound.bind (Q := fun x => Still e x.2.1) ?_ fun x hx => ?_
  · split
    · rename_i h
      exact wsound_updateBasic.bind fun x hx => .ret _ (hx.still (.inl h))
    · exact .ret _ (.refl e)
  split
  · exact .ret _ hx
  split
  · exact .ret _ hx
  split
  · exact wsound_handleError.bind fun _ _ => .ret _ hx
  · exact .ret _ hx

theorem wsound_fileType {e : Entry} : Sound (WinSane k) (fun r => Still e r.1.2) (Win.getFileType e ec) := by
  unfold Win.getFileType
  refine Sound.bind (Q := fun x => Still e x.1) ?_ fun x hx => ?_
  · split
    · rename_i h
      exact wsound_updateBasic.mono fun x hx => hx.still (h.imp id (·.1))
    · exact .ret _ (.refl e)
  split
  · exact .ret _ hx
  split
  · exact wsound_handleError.bind fun _ _ => .ret _ hx
  · exact .ret _ hx

/-- Basic information is there, if errors are thrown. -/
theorem Basics.null {e : Entry} {r : Entry × EcArg} (h : Basics e .null r) : r.1.cache.cacheType = .basic ∧ r.2 = .null := by
  have h2 := h.ref.mpr rfl
  refine ⟨h.kind.resolve_right ?_, h2⟩
  rw [h2]
  rintro ⟨_, h⟩
  cases h

theorem Extras.null {e : Entry} {r : Entry × EcArg} (h : Extras e .null r) : r.1.cache.cacheType = .extra ∧ r.2 = .null := by
  have h2 := h.ref.mpr rfl
  refine ⟨h.kind.resolve_right ?_, h2⟩
  rw [h2]
  rintro ⟨_, h⟩
  cases h

theorem wsound_extra_entry {e : Entry} (he : e.cache.cacheType = .basic ∨ e.cache.cacheType = .extra) :
    Sound (WinSane k) (fun r => Still e r.1) (Win.updateExtra k e ec) := (wsound_updateExtra he).mono fun _ h => h.still he

theorem wsound_getSize {e : Entry} (h : ec = .null ∨ e.cache.cacheType ≠ .empty) : Sound (WinSane k) (fun r => Still e r.1.2) (Win.getSize k e ec) := by
  unfold Win.getSize
  dsimp only
  cases hc : e.cache.cacheType with
  | empty =>
    obtain rfl := h.resolve_right (by simp [hc])
    refine wsound_updateBasic.bind fun x hx => ?_
    have hs := hx.still (.inl hc)
    obtain ⟨hb, hn⟩ := hx.null
    split
    · exact Sound.bind (Q := fun _ => True) (.reportMsg trivial) fun _ _ => .ret _ hs
    · exact (wsound_extra_entry (.inl hb)).bind fun y hy => .ret _ (hs.trans hy)
  | basic => exact (wsound_extra_entry (.inl hc)).bind fun y hy => .ret _ hy
  | extra =>
    dsimp only
    split
    · exact (wsound_extra_entry (.inr hc)).bind fun y hy => .ret _ hy
    · exact .ret _ (.refl e)
  | full => exact .ret _ (.refl e)

theorem wsound_getHardLinkCount {e : Entry} (h : ec = .null ∨ e.cache.cacheType ≠ .empty) :
    Sound (WinSane k) (fun r => Still e r.1.2) (Win.getHardLinkCount k e ec) := by
  unfold Win.getHardLinkCount
  dsimp only
  cases hc : e.cache.cacheType with
  | empty =>
    obtain rfl := h.resolve_right (by simp [hc])
    refine wsound_updateBasic.bind fun x hx => ?_
    exact (wsound_extra_entry (.inl hx.null.1)).bind fun y hy => .ret _ ((hx.still (.inl hc)).trans hy)
  | basic => exact (wsound_extra_entry (.inl hc)).bind fun y hy => .ret _ hy
  | extra => exact .ret _ (.refl e)
  | full => exact .ret _ (.refl e)

theorem wsound_getLastWriteTime {e : Entry} (h : ec = .null ∨ e.cache.cacheType ≠ .empty) :
    Sound (WinSane k) (fun r => Still e r.1.2) (Win.getLastWriteTime k e ec) := by
  unfold Win.getLastWriteTime
  dsimp only
  refine Sound.bind (Q := fun x => Still e x.1) ?_ fun x hx => ?_
  · cases hc : e.cache.cacheType with
    | empty =>
      obtain rfl := h.resolve_right (by simp [hc])
      refine wsound_updateBasic.bind fun x hx => ?_
      exact (wsound_extra_entry (.inl hx.null.1)).mono fun y hy => (hx.still (.inl hc)).trans hy
    | basic => exact wsound_extra_entry (.inl hc)
    | extra =>
      dsimp only
      split
      · exact wsound_extra_entry (.inr hc)
      · exact .ret _ (.refl e)
    | full => exact .ret _ (.refl e)
  · split
    · exact Sound.bind (Q := fun _ => True) (.report trivial) fun _ _ => .ret _ hx
    · exact .ret _ hx

theorem wsound_getStatus {e : Entry} (h : ec = .null ∨ e.cache.cacheType = .extra ∨ e.cache.cacheType = .full) :
    Sound (WinSane k) (fun r => Still e r.1.2) (Win.getStatus k e ec) := by
  unfold Win.getStatus
  dsimp only
  refine Sound.bind (Q := fun x => Still e x.1) ?_ fun x hx => .ret _ hx
  cases hc : e.cache.cacheType with
  | empty =>
    obtain rfl := h.resolve_right (by simp [hc])
    refine wsound_updateBasic.bind fun x hx => ?_
    obtain ⟨hb, hn⟩ := hx.null
    rw [hn]
    refine (wsound_updateExtra (.inl hb)).bind fun y hy => ?_
    exact (wsound_updatePerms (.inl hy.null.1)).mono fun z hz => ((hx.still (.inl hc)).trans (hy.still (.inl hb))).trans hz.still
  | basic =>
    obtain rfl := h.resolve_right (by simp [hc])
    refine (wsound_updateExtra (.inl hc)).bind fun y hy => ?_
    exact (wsound_updatePerms (.inl hy.null.1)).mono fun z hz => (hy.still (.inl hc)).trans hz.still
  | extra => exact (wsound_updatePerms (.inl hc)).mono fun z hz => hz.still
  | full =>
    dsimp only
    split
    · exact (wsound_updatePerms (.inr hc)).mono fun z hz => hz.still
    · exact .ret _ (.refl e)

theorem wsound_getSymLinkStatus {e : Entry} (h : ec = .null ∨ e.cache.cacheType = .extra ∨ e.cache.cacheType = .full) :
    Sound (WinSane k) (fun r => Still e r.1.2) (Win.getSymLinkStatus k e ec) := by
  unfold Win.getSymLinkStatus
  dsimp only
  refine Sound.bind (Q := fun x => Still e x.1) ?_ fun x hx => .ret _ hx
  cases hc : e.cache.cacheType with
  | empty =>
    obtain rfl := h.resolve_right (by simp [hc])
    refine wsound_updateBasic.bind fun x hx => ?_
    obtain ⟨hb, hn⟩ := hx.null
    rw [hn]
    refine (wsound_updateExtra (.inl hb)).bind fun y hy => ?_
    exact (wsound_updatePerms (.inl hy.null.1)).mono fun z hz => ((hx.still (.inl hc)).trans (hy.still (.inl hb))).trans hz.still
  | basic =>
    obtain rfl := h.resolve_right (by simp [hc])
    refine (wsound_updateExtra (.inl hc)).bind fun y hy => ?_
    exact (wsound_updatePerms (.inl hy.null.1)).mono fun z hz => (hy.still (.inl hc)).trans hz.still
  | extra => exact (wsound_updatePerms (.inl hc)).mono fun z hz => hz.still
  | full => exact .ret _ (.refl e)

theorem wsound_ask {a : Ask} {e : Entry} (h : ec = .null ∨ a.needs e.cache.cacheType) : Sound (WinSane k) (fun r => Still e r.1.2) (a.onWindows k e ec) := by
  cases a with
  | exists' => exact (wsound_fileType.bind fun _ h => .ret _ h : Sound _ (fun r => Still e r.1.2) (Win.Entry.existsE e ec)).bind fun _ h => .ret _ h
  | is g => exact (wsound_fileType.bind fun _ h => .ret _ h : Sound _ (fun r => Still e r.1.2) (Win.Entry.isType (fun s => g s.type) e ec)).bind fun _ h => .ret _ h
  | isSymlink => exact (wsound_linkType.bind fun _ h => .ret _ h : Sound _ (fun r => Still e r.1.2) (Win.Entry.isSymlinkE e ec)).bind fun _ h => .ret _ h
  | fileSize => exact (wsound_getSize h).bind fun _ h => .ret _ h
  | hardLinkCount => exact (wsound_getHardLinkCount h).bind fun _ h => .ret _ h
  | lastWriteTime => exact (wsound_getLastWriteTime h).bind fun _ h => .ret _ h
  | status => exact (wsound_getStatus h).bind fun _ h => .ret _ h
  | symlinkStatus => exact (wsound_getSymLinkStatus h).bind fun _ h => .ret _ h

theorem wsound_interview : ∀ (as : List (Ask × EcArg)) (e : Entry), (∀ a ∈ as, a.2 = .null ∨ a.1.needs e.cache.cacheType) →
    Sound (WinSane k) (fun e' => e'.path = e.path) (winInterview k as e)
  | [], _, _ => .ret _ rfl
  | (a, ec) :: as, e, h => by
    refine (wsound_ask (h (a, ec) (by simp))).bind fun r hr => ?_
    refine (wsound_interview as r.1.2 fun b hb => ?_).mono fun _ h => h.trans hr.path
    exact (h b (by simp [hb])).imp id (needs_mono · hr.rank)

/-! ## Iterators -/

theorem wsound_setEntry {s : Stream} {d : FindData} (hs : Sturdy s.root) : Sound (WinSane k) (fun r => WinOpenStream r ∧ r.root = s.root ∧ r.handle = s.handle)
    (Win.setEntry s d) := by
  unfold Win.setEntry
  exact (Sound.ofRes (sturdy_append hs (firm_mkPath _))).bind fun p hp => .ret _ ⟨⟨hs, hp⟩, rfl, rfl⟩

theorem wsound_close {s : Stream} : Sound (WinSane k) (fun r => r.handle = none ∧ r.root = s.root ∧ r.entry = s.entry) (Win.Stream.close s) := by
  unfold Win.Stream.close
  split
  · exact .call _ _ fun _ _ => .ret _ ⟨rfl, rfl, rfl⟩
  · rename_i h; exact .ret _ ⟨h, rfl, rfl⟩

theorem wsound_destroy {it : DirIter} : Sound (WinSane k) (fun _ => True) (Win.destroy it) := by
  cases it with
  | none => exact .ret _ trivial
  | some s => exact wsound_close.bind fun _ _ => .ret _ trivial

theorem wsound_advance : ∀ (n : Nat) (s : Stream), WinOpenStream s → Sound (WinSane k) (fun r => WinOpenStream r.2.1) (Win.Stream.advance n s)
  | 0, _, _ => .fuel
  | n + 1, s, h => by
    unfold Win.Stream.advance
    split
    · exact .ret _ h
    · refine .call _ _ fun r _ => ?_
      cases r with
      | error e => exact wsound_close.bind fun s' hs => .ret _ ⟨hs.2.1 ▸ h.root, hs.2.2 ▸ h.entry⟩
      | ok ent =>
        dsimp only
        split
        · exact wsound_advance n s h
        · exact (wsound_setEntry h.root).bind fun s' hs => .ret _ hs.1

theorem wsound_skipDots {d : Nat} : ∀ (n : Nat) (ent : FindData), Sound (WinSane k) (fun _ => True) (Win.skipDots d n ent)
  | 0, _ => .fuel
  | n + 1, ent => by
    unfold Win.skipDots
    split
    · refine .call _ _ fun r _ => ?_
      cases r with
      | error e => exact .call _ _ fun _ _ => .ret _ trivial
      | ok ent => exact wsound_skipDots n ent
    · exact .ret _ trivial

theorem wsound_streamNew {n : Nat} {o : DirOptions} (hp : Sturdy p) : Sound (WinSane k) (fun r => WinOpenStream r.1) (Win.Stream.new n p o) := by
  refine .call _ _ fun r _ => ?_
  have h0 : WinOpenStream ⟨none, p, .default⟩ := ⟨hp, .dflt⟩
  cases r with
  | error e => exact .ret _ h0
  | ok x =>
    refine (wsound_skipDots n x.2).bind fun y _ => ?_
    cases y with
    | none => exact .call _ _ fun _ _ => .ret _ h0
    | some ent => exact (wsound_setEntry hp).bind fun s hs => .ret _ hs.1

theorem wsound_dirNew {n : Nat} {o : DirOptions} (hp : Sturdy p) : Sound (WinSane k) (fun r => WinUsable r.1) (Win.DirIter.new n p o ec) := by
  unfold Win.DirIter.new
  refine (wsound_streamNew hp).bind fun x hx => ?_
  dsimp only
  split
  · split
    · exact Sound.bind (Q := fun _ => True) (.report trivial) fun _ _ => .ret _ (by rintro _ ⟨⟩)
    · exact .ret _ (by rintro _ ⟨⟩)
  · exact .ret _ (by rintro _ ⟨⟩; exact hx)

theorem wsound_dirIncr {n : Nat} {it : DirIter} (hi : WinUsable it) : Sound (WinSane k) (fun r => WinUsable r.1) (Win.DirIter.incr n it ec) := by
  unfold Win.DirIter.incr
  cases it with
  | none => exact Sound.bind (Q := fun _ => True) (.reportMsg trivial) fun _ _ => .ret _ (by rintro _ ⟨⟩)
  | some s =>
    refine (wsound_advance n s (hi s rfl)).bind fun x hx => ?_
    split
    · exact .ret _ (by rintro _ ⟨⟩; exact hx)
    split
    · exact Sound.bind (Q := fun _ => True) (.reportMsg trivial) fun _ _ => .ret _ (by rintro _ ⟨⟩)
    · exact .ret _ (by rintro _ ⟨⟩)

theorem moved_open {s : Stream} : WinOpenStream (Win.Stream.moved s) := ⟨sturdy_moved _, sturdy_moved _⟩

theorem wsound_closeAll : ∀ l : List Stream, Sound (WinSane k) (fun _ => True) (Win.closeAll l)
  | [] => .ret _ trivial
  | s :: l => (wsound_closeAll l).bind fun _ _ => wsound_close.bind fun _ _ => .ret _ trivial

theorem recUsable_none {b : Bool} : WinRecUsable ⟨none, b⟩ := by rintro _ _ ⟨⟩

theorem wsound_recNew {n : Nat} {o : DirOptions} (hp : Sturdy p) : Sound (WinSane k) (fun r => WinRecUsable r.1) (Win.RecIter.new n p o ec) := by
  unfold Win.RecIter.new
  refine (wsound_streamNew hp).bind fun x hx => ?_
  split
  · exact Sound.bind (Q := fun _ => True) (Sound.finally' (.report trivial) wsound_destroy) fun _ _ => .ret _ recUsable_none
  split
  · exact .ret _ recUsable_none
  · refine .ret _ ?_
    rintro _ _ ⟨⟩
    exact ⟨by simp, by simpa using moved_open⟩

theorem wsound_advanceStack {n : Nat} : ∀ l : List Stream, (∀ s ∈ l, WinOpenStream s) → Sound (WinSane k) (fun r => ∀ s ∈ r.1, WinOpenStream s)
    (Win.advanceStack n l)
  | [], h => .ret _ h
  | s :: l, h => by
    unfold Win.advanceStack
    have hl : ∀ s ∈ l, WinOpenStream s := fun x hx => h x (by simp [hx])
    refine (wsound_advance n s (h s (by simp))).bind fun x hx => ?_
    have hc : ∀ y ∈ x.2.1 :: l, WinOpenStream y := by
      intro y hy
      rcases List.mem_cons.mp hy with rfl | hy
      · exact hx
      · exact hl y hy
    split
    · exact .ret _ hc
    split
    · exact .ret _ hc
    · exact wsound_advanceStack l hl

theorem wsound_recAdvance {n : Nat} {it : RecIter} (hi : WinRecUsable it) : Sound (WinSane k) (fun r => WinRecUsable r.1) (Win.RecIter.advance n it ec) := by
  unfold Win.RecIter.advance
  dsimp only
  split
  · exact Sound.bind (Q := fun _ => True) (.reportMsg trivial) fun _ _ => .ret _ hi
  · rename_i stack opts hs
    refine (wsound_advanceStack stack (hi _ _ hs).2).bind fun x hx => ?_
    split
    · exact (wsound_closeAll _).bind fun _ _ => Sound.bind (Q := fun _ => True) (.reportMsg trivial) fun _ _ => .ret _ recUsable_none
    split
    · exact .ret _ recUsable_none
    · rename_i hne
      refine .ret _ ?_
      rintro _ _ ⟨⟩
      exact ⟨by simpa using hne, hx⟩

theorem wsound_recursionType {o : DirOptions} {e : Entry} : Sound (WinSane k) (fun r => r.2.1.path = e.path) (Win.recursionType o e) := by
  unfold Win.recursionType
  split
  · exact wsound_linkType.bind fun _ h => .ret _ h.path
  · exact wsound_fileType.bind fun _ h => .ret _ h.path

theorem wsound_tryRecursion {n : Nat} {it : RecIter} (hi : WinRecUsable it) : Sound (WinSane k) (fun r => WinRecUsable r.1.2)
    (Win.RecIter.tryRecursion n it ec) := by
  unfold Win.RecIter.tryRecursion
  dsimp only
  split
  · exact Sound.bind (Q := fun _ => True) (.reportMsg trivial) fun _ _ => .ret _ hi
  · rename_i hs
    exact absurd rfl (hi _ _ hs).1
  · rename_i cur ss opts hs
    obtain ⟨-, ho⟩ := hi _ _ hs
    refine wsound_recursionType.bind fun x hx => ?_
    have hcur : WinOpenStream { cur with entry := x.2.1 } := ⟨(ho cur (by simp)).root, by
      show Sturdy x.2.1.path; rw [hx]; exact (ho cur (by simp)).entry⟩
    have hstack : ∀ y ∈ ({ cur with entry := x.2.1 } : Stream) :: ss, WinOpenStream y := by
      intro y hy
      rcases List.mem_cons.mp hy with rfl | hy
      · exact hcur
      · exact ho y (by simp [hy])
    refine Sound.bind (Q := fun _ => True) ?_ fun z _ => ?_
    · split
      · refine (wsound_streamNew hcur.entry).bind fun y hy => ?_
        split <;> exact .ret _ trivial
      · exact .ret _ trivial
    split
    · refine .ret _ ?_
      rintro _ _ ⟨⟩
      refine ⟨by simp, fun y hy => ?_⟩
      rcases List.mem_cons.mp hy with rfl | hy
      · exact moved_open
      · exact hstack y hy
    split
    · split
      · exact .ret _ (by rintro _ _ ⟨⟩; exact ⟨by simp, hstack⟩)
      · exact (wsound_closeAll _).bind fun _ _ => Sound.bind (Q := fun _ => True) (.reportMsg trivial) fun _ _ => .ret _ recUsable_none
    · exact .ret _ (by rintro _ _ ⟨⟩; exact ⟨by simp, hstack⟩)

theorem wsound_recIncr {n : Nat} {it : RecIter} (hi : WinRecUsable it) : Sound (WinSane k) (fun r => WinRecUsable r.1) (Win.RecIter.incr n it ec) := by
  unfold Win.RecIter.incr
  dsimp only
  refine Sound.bind (Q := fun x => WinRecUsable x.2.1) ?_ fun x hx => ?_
  · split
    · exact (wsound_tryRecursion hi).bind fun x hx => .ret _ hx
    · exact .ret _ hi
  split
  · exact .ret _ hx
  · exact wsound_recAdvance hx

theorem wsound_recPop {n : Nat} {it : RecIter} (hi : WinRecUsable it) : Sound (WinSane k) (fun r => WinRecUsable r.1) (Win.RecIter.pop n it ec) := by
  unfold Win.RecIter.pop
  dsimp only
  split
  · exact Sound.bind (Q := fun _ => True) (.reportMsg trivial) fun _ _ => .ret _ hi
  · rename_i hs
    exact absurd rfl (hi _ _ hs).1
  · rename_i s ss opts hs
    obtain ⟨-, ho⟩ := hi _ _ hs
    refine wsound_close.bind fun _ _ => ?_
    split
    · exact .ret _ recUsable_none
    · rename_i hne
      refine wsound_recAdvance ?_
      rintro _ _ ⟨⟩
      exact ⟨by simpa using hne, fun y hy => ho y (by simp [hy])⟩

/-! ## Operations that walk directories -/

theorem wsound_isEmpty {n : Nat} (hp : Sturdy p) : Sound (WinSane k) (fun _ => True) (Win.isEmptyFile n p ec) := by
  unfold Win.isEmptyFile
  refine .call _ _ fun r _ => ?_
  cases r with
  | error e => exact .report trivial
  | ok a =>
    dsimp only
    split
    · refine (wsound_dirNew hp).bind fun x _ => wsound_destroy.bind fun _ _ => ?_
      split <;> exact .ret _ trivial
    · exact .ret _ trivial

theorem wsound_removeLoop {rec : Path → Prog (BitVec 64 × Code)} (hr : ∀ p, Sturdy p → Sound (WinSane k) (fun _ => True) (rec p)) :
    ∀ (n : Nat) (it : DirIter) (c : BitVec 64), WinUsable it → Sound (WinSane k) (fun _ => True) (Win.removeLoop rec n it c)
  | 0, _, _, _ => .fuel
  | _ + 1, none, _, _ => .ret _ trivial
  | n + 1, some s, c, h => by
    unfold Win.removeLoop
    refine (hr _ (h s rfl).entry).bind fun x _ => ?_
    split
    · exact wsound_destroy.bind fun _ _ => .ret _ trivial
    refine (wsound_dirIncr h).bind fun y hy => ?_
    split
    · exact .ret _ trivial
    · exact wsound_removeLoop hr n _ _ hy

theorem wsound_doRemoveAll : ∀ (n : Nat) (p : Path), Sturdy p → Sound (WinSane k) (fun _ => True) (Win.doRemoveAll n p)
  | 0, _, _ => .fuel
  | n + 1, p, hp => by
    unfold Win.doRemoveAll
    refine wsound_lstat.bind fun st _ => ?_
    split
    · exact .ret _ trivial
    refine Sound.bind (Q := fun _ => True) ?_ fun y _ => ?_
    · split
      · refine (wsound_dirNew hp).bind fun x hx => ?_
        split
        · exact .ret _ trivial
        · exact wsound_removeLoop (wsound_doRemoveAll n) n _ _ hx
      · exact .ret _ trivial
    split
    · exact .ret _ trivial
    refine wsound_remove.bind fun z _ => ?_
    split <;> exact .ret _ trivial

theorem wsound_removeAll {n : Nat} (hp : Sturdy p) : Sound (WinSane k) (fun _ => True) (Win.removeAll n p ec) := by
  unfold Win.removeAll
  dsimp only
  split
  · exact .ret _ trivial
  refine (wsound_doRemoveAll n p hp).bind fun x _ => ?_
  sound

theorem wsound_copyLoop {h : Handler} {rec : Path → Path → EcArg → Prog (Unit × EcArg)} {to : Path} (ht : Sturdy to)
    (hr : ∀ a b ec, Sturdy a → Sturdy b → Sound (WinSane k) (fun _ => True) (rec a b ec)) :
    ∀ (n : Nat) (it : DirIter) (m : Code) (ec : EcArg), WinUsable it → Sound (WinSane k) (fun _ => True) (Win.copyLoop h rec to n it m ec)
  | 0, _, _, _, _ => .fuel
  | _ + 1, none, _, _, _ => .ret _ trivial
  | n + 1, some s, m, ec, hi => by
    unfold Win.copyLoop
    split
    · exact Sound.finally' (.report trivial) wsound_destroy
    have he := (hi s rfl).entry
    refine (Sound.ofRes (sturdy_answers he).file).bind fun f hf => ?_
    refine (Sound.ofRes (sturdy_append ht hf)).bind fun t htf => ?_
    refine Sound.bind (Q := fun _ => True) (Sound.onThrow (hr _ _ _ he htf) wsound_destroy) fun x _ => ?_
    split
    · exact wsound_destroy.bind fun _ _ => .ret _ trivial
    · exact (wsound_dirIncr hi).bind fun y hy => wsound_copyLoop ht hr n _ _ _ hy

theorem wsound_copyDispatch {h : Handler} {rec : Path → Path → EcArg → Prog (Unit × EcArg)} {n : Nat} {o : CopyOptions} {f t : FStatus}
    (hp : Sturdy p) (hq : Sturdy q) (hr : ∀ a b ec, Sturdy a → Sturdy b → Sound (WinSane k) (fun _ => True) (rec a b ec)) :
    Sound (WinSane k) (fun _ => True) (Win.copyDispatch k rec n h p q o f t ec) := by
  unfold Win.copyDispatch
  dsimp only
  split
  · split
    · exact .ret _ trivial
    split
    · exact wsound_copySymlink
    · exact .report trivial
  split
  · split
    · exact .ret _ trivial
    split
    · exact wsound_createSymlinkAs
    split
    · exact wsound_createHardLink
    split
    · refine (Sound.ofRes (sturdy_answers hp).file).bind fun f hf => ?_
      refine (Sound.ofRes (sturdy_append hq hf)).bind fun t ht => ?_
      exact wsound_copyFile.bind fun _ _ => .ret _ trivial
    · exact wsound_copyFile.bind fun _ _ => .ret _ trivial
  split
  · exact .report trivial
  split
  · unfold Win.copyDir
    refine Sound.bind (Q := fun _ => True) ?_ fun ec _ => ?_
    · split
      · exact wsound_createDirectoryLike.bind fun _ _ => .ret _ trivial
      · exact .ret _ trivial
    split
    · exact .ret _ trivial
    refine (wsound_dirNew hp).bind fun x hx => ?_
    split
    · exact .ret _ trivial
    · exact wsound_copyLoop hq hr n _ _ _ hx
  · exact .ret _ trivial

theorem wsound_copy {o : CopyOptions} : ∀ (n : Nat) (a b : Path) (ec : EcArg), Sturdy a → Sturdy b →
    Sound (WinSane k) (fun _ => True) (Win.copy k n a b o ec)
  | 0, _, _, _, _, _ => .fuel
  | n + 1, a, b, ec, ha, hb => by
    unfold Win.copy
    dsimp only
    refine Sound.bind (Q := fun _ => True) ?_ fun f _ => ?_
    · split
      · exact wsound_lstat
      · exact wsound_stat
    split
    · exact .report trivial
    refine Sound.bind (Q := fun _ => True) ?_ fun t _ => ?_
    · split
      · exact wsound_lstat
      · exact wsound_stat
    split
    · exact .report trivial
    split
    · exact .report trivial
    refine Sound.bind (Q := fun _ => True) ?_ fun e _ => ?_
    · split
      · exact wsound_equivalent
      · exact .ret _ trivial
    split
    · exact .report trivial
    split
    · exact .report trivial
    · exact wsound_copyDispatch ha hb fun x y ec hx hy => wsound_copy n x y ec hx hy

theorem wsound_operation {α : Type} {op : WinOp α} (h : WinApt op) (hk : ClockIs k op) : Sound (WinSane k) (fun _ => True) (op.prog ec) := by
  cases op with
  | absolute p => exact (wsound_absolute h).mono fun _ _ => trivial
  | copy k n a b o => obtain rfl := hk; exact wsound_copy n a b ec h.1 h.2
  | copyFile k a b o => obtain rfl := hk; exact wsound_copyFile
  | copySymlink a b => exact wsound_copySymlink
  | createDirectory p => exact wsound_createDirectory
  | createDirectoryLike p q => exact wsound_createDirectoryLike
  | createDirectories el n p => obtain ⟨rfl, hm⟩ := h; exact wsound_createDirectories hm
  | createSymlink a b => exact wsound_createSymlinkAs
  | createDirectorySymlink a b => exact wsound_createSymlinkAs
  | createHardLink a b => exact wsound_createHardLink
  | currentPath => exact wsound_currentPath.mono fun _ _ => trivial
  | setCurrentPath p => exact wsound_setCurrentPath
  | equivalent p q => exact wsound_equivalent
  | exists' p => exact wsound_stat.bind fun _ _ => .ret _ trivial
  | isDirectory p => exact wsound_isDirectoryP
  | isSymlink p => exact wsound_lstat.bind fun _ _ => .ret _ trivial
  | status p => exact wsound_stat
  | symlinkStatus p => exact wsound_lstat
  | fileSize p => exact wsound_fileSize
  | hardLinkCount p => exact wsound_hardLinkCount
  | isEmpty n p => exact wsound_isEmpty h
  | lastWriteTime k p => obtain rfl := hk; exact wsound_lastWriteTime
  | setLastWriteTime k p t => exact wsound_setLastWriteTime h
  | permissions p m o => exact wsound_permissions h
  | readSymlink p => exact wsound_readSymlink
  | remove p => exact wsound_remove
  | removeAll n p => exact wsound_removeAll h
  | rename a b => exact wsound_rename
  | resizeFile p z => exact wsound_resizeFile
  | space p => exact wsound_space h
  | tempDirectoryPath => exact wsound_tempDirectoryPath
  | dirIter n p o => exact (wsound_dirNew h).mono fun _ _ => trivial
  | dirIterIncr n it => exact (wsound_dirIncr h).mono fun _ _ => trivial
  | recIter n p o => exact (wsound_recNew h).mono fun _ _ => trivial
  | recIterIncr n it => exact (wsound_recIncr h).mono fun _ _ => trivial
  | recIterPop n it => exact (wsound_recPop h).mono fun _ _ => trivial

/-! ## `canonical` -/

theorem sound_unfold {α : Type} {Q : α → Prop} {x : Prog α} (h : Sound (fun _ => True) Q x) : Sound (WinSane k) Q (Win.unfoldTests x) := by
  induction h with
  | ret a h => exact .ret a h
  | fuel => exact .fuel
  | thrown x => exact .thrown x
  | call c f _ ih =>
    cases c with
    | winTest q p =>
      refine Sound.bind (Q := fun _ => True) ?_ fun x _ => ih _ trivial
      cases q
      · exact wsound_isDirectoryP
      · exact wsound_lstat.bind fun _ _ => .ret _ trivial
      · exact wsound_stat.bind fun _ _ => .ret _ trivial
    | winReadlink p => exact wsound_readSymlink.bind fun x _ => ih _ trivial
    | _ => exact .call _ _ fun r _ => ih r trivial

theorem wsound_canonLoop (h : Handler) (root : Path) (hroot : Sturdy root) : ∀ (n : Nat) (result : Path) (cs : List Path) (j : Int) (m : Code) (ec : EcArg),
    Sturdy result → -2147483648 + (n : Int) ≤ j → Sound (fun _ => True) (fun r => Sturdy r.1) (winCanonLoop false h root n result cs j m ec)
  | _, _, [], _, _, _, hm, _ => by unfold winCanonLoop; exact .ret _ hm
  | n, _, _ :: _, _, some _, _, hm, _ => by cases n <;> exact .ret _ hm
  | 0, _, _ :: _, _, none, _, _, _ => .fuel
  | n + 1, result, f :: cs, j, none, ec, hm, hj => by
    have ih := wsound_canonLoop h root hroot n
    have hj1 : -2147483648 + (n : Int) ≤ j := by omega
    have hj2 : -2147483648 + (n : Int) ≤ j - 1 := by omega
    unfold winCanonLoop
    dsimp only
    split
    · exact ih _ _ _ _ _ hm hj1
    split
    · refine .call _ _ fun bm _ => ?_
      split
      · exact Sound.bind (Q := fun _ => True) (.report trivial) fun _ _ => ih _ _ _ _ _ hm hj1
      · exact ih _ _ _ _ _ hm hj1
    split
    · refine (Sound.ofRes (Firm.parentPath hm)).bind fun q hq => ?_
      refine ih _ _ _ _ _ ?_ hj1
      split
      · exact hroot
      · exact hq
    refine (Sound.ofRes (sturdy_append hm (firm_mkPath _))).bind fun res hres => .call _ _ fun bm _ => ?_
    split
    · refine .call _ _ fun r _ => ?_
      cases r with
      | error e => exact ih _ _ _ _ _ hres hj1
      | ok s =>
        dsimp only
        split
        · omega
        split
        · exact Sound.bind (Q := fun _ => True) (.report trivial) fun _ _ => ih _ _ _ _ _ hres hj2
        refine (Sound.ofRes (Q := fun _ => True) ⟨_, win_isAbsolute s, trivial⟩).bind fun abs _ => ?_
        split
        · obtain ⟨q, hq, _⟩ := win_relativePath s
          exact (Sound.ofRes (Q := fun _ => True) ⟨_, hq, trivial⟩).bind fun rel _ => ih _ _ _ _ _ (Firm.rootPath (firm_mkPath s)) hj2
        · exact (Sound.ofRes (Firm.parentPath hres)).bind fun q hq => ih _ _ _ _ _ hq hj2
    · exact ih _ _ _ _ _ hres hj1

theorem wsound_canonical {n : Nat} (hp : Sturdy p) (hn : n ≤ 2147483688) : Sound (WinSane k) (fun r => Sturdy r.1) (Win.canonical false n p ec) := by
  unfold Win.canonical
  refine (wsound_doAbsolute hp).bind fun x hx => sound_unfold ?_
  unfold winCanonical
  obtain ⟨rel, hrel, -⟩ := Firm.relativePath hx.1
  have hroot : Sturdy (rootPath .windows x.1.1) := Firm.rootPath hx.1
  refine (Sound.ofRes (Q := fun _ => True) ⟨rel, hrel, trivial⟩).bind fun rel _ => ?_
  refine (wsound_canonLoop _ _ hroot n _ _ 40 none _ hroot (by omega)).bind fun y hy => ?_
  split
  · exact .report .dflt
  refine .call _ _ fun bm _ => ?_
  split
  · exact .report .dflt
  · exact .ret _ (firm_mkPath _)

end

/-! ## The property -/

/-- **C117**, partial: on Windows, with answers within the limits of `WinSane`, no operation ends in undefined behaviour or a failed assertion,
whatever else the system answers, if the caller keeps to `WinApt`. Missing: answers outside these limits, see `c117_violated`, and
`create_directories` compiled with copy elision. -/
theorem c117_operations_partial {α : Type} (k : SysClock) (op : WinOp α) (ec : EcArg) (h : WinApt op) (hk : ClockIs k op) {t : List Event}
    {o : Except Stop (α × EcArg)} (hx : Exec (op.prog ec) t o) (hs : ∀ ev ∈ t, WinSane k ev) (f : Fault) : o ≠ .error (.fault f) :=
  ((wsound_operation h hk).exec hx hs).1 f

/-- **C117**, partial, for `canonical` compiled without copy elision, within 2147483688 rounds. Missing: more rounds (the count of links, which is
not stopped at zero when errors are not thrown, then overflows), and copy elision. -/
theorem c117_canonical_partial (k : SysClock) (n : Nat) (p : Path) (hp : Sturdy p) (hn : n ≤ 2147483688) (ec : EcArg)
    {t : List Event} {o : Except Stop (Path × EcArg)} (hx : Exec (Win.canonical false n p ec) t o) (hs : ∀ ev ∈ t, WinSane k ev) (f : Fault) :
    o ≠ .error (.fault f) :=
  ((wsound_canonical hp hn).exec hx hs).1 f

/-- **C117**: an iterator that is constructed or incremented without an exception can be incremented again. -/
theorem c117_iterators (k : SysClock) {n : Nat} {p : Path} (hp : Sturdy p) {opts : DirOptions} {ec : EcArg} {t : List Event} (hs : ∀ ev ∈ t, WinSane k ev) :
    (∀ it ec', Exec (Win.DirIter.new n p opts ec) t (.ok (it, ec')) → WinUsable it) ∧
    (∀ it it' ec', WinUsable it → Exec (Win.DirIter.incr n it ec) t (.ok (it', ec')) → WinUsable it') ∧
    (∀ it ec', Exec (Win.RecIter.new n p opts ec) t (.ok (it, ec')) → WinRecUsable it ∧ WinRecUsable it.disable) ∧
    (∀ it it' ec', WinRecUsable it → Exec (Win.RecIter.incr n it ec) t (.ok (it', ec')) → WinRecUsable it' ∧ WinRecUsable it'.disable) ∧
    ∀ it it' ec', WinRecUsable it → Exec (Win.RecIter.pop n it ec) t (.ok (it', ec')) → WinRecUsable it' ∧ WinRecUsable it'.disable :=
  ⟨fun _ _ h => ((wsound_dirNew hp).exec h hs).2 _ rfl, fun _ _ _ hi h => ((wsound_dirIncr hi).exec h hs).2 _ rfl,
   fun _ _ h => have := ((wsound_recNew hp).exec h hs).2 _ rfl; ⟨this, this⟩,
   fun _ _ _ hi h => have := ((wsound_recIncr hi).exec h hs).2 _ rfl; ⟨this, this⟩,
   fun _ _ _ hi h => have := ((wsound_recPop hi).exec h hs).2 _ rfl; ⟨this, this⟩⟩

/-- **C117**, partial, for `directory_entry`: `refresh` ends in no fault, and no series of questions does in which each either throws its errors or
finds in the cache what it builds on. Missing: the other questions with an `error_code`, see `c117_entry_violated`. -/
theorem c117_entry_partial (k : SysClock) (e : Entry) {t : List Event} (hs : ∀ ev ∈ t, WinSane k ev) (f : Fault) :
    (∀ ec o, Exec (Win.refresh k e ec) t o → o ≠ .error (.fault f)) ∧
    ∀ as o, (∀ a ∈ as, a.2 = .null ∨ a.1.needs e.cache.cacheType) → Exec (winInterview k as e) t o → o ≠ .error (.fault f) :=
  ⟨fun _ _ h => (wsound_refresh.exec h hs).1 f, fun as _ ha h => ((wsound_interview as e ha).exec h hs).1 f⟩

/-- C117 is violated, with answers within the limits, by questions with an `error_code` about a file that has disappeared: the size asked of an entry that has
read nothing, and the status asked of an entry met in a listing. -/
theorem c117_entry_violated (k : SysClock) (p : Path) (c : Code) (m : Errno) :
    (Exec (Ask.fileSize.onWindows k ⟨p, .reset⟩ (.ref c)) [⟨.win (.getAttrs p.pathname), (.error m : Except Errno (BitVec 32))⟩] (.error (.fault .assertFail)) ∧
      WinSane k ⟨.win (.getAttrs p.pathname), (.error m : Except Errno (BitVec 32))⟩) ∧
    ∀ e : Entry, e.path = p → e.cache.cacheType = .basic →
      Exec (Ask.status.onWindows k e (.ref c)) [⟨.win (.createFile p.pathname Win.follow), (.error m : Except Errno Nat)⟩] (.error (.fault .assertFail)) ∧
      WinSane k ⟨.win (.createFile p.pathname Win.follow), (.error m : Except Errno Nat)⟩ := by
  refine ⟨⟨.call _ _ _ _ _ (.stop _), trivial⟩, ?_⟩
  rintro ⟨p, ca⟩ rfl h
  refine ⟨?_, trivial⟩
  have h : ca.cacheType = .basic := h
  obtain ⟨ct⟩ := ca
  obtain rfl := h
  exact .call _ _ _ _ _ (.stop _)

/-- C117 is violated outside the limits: `refresh` of an ordinary file asks for the last error although no call has failed, and asserts that it is not 0; so
does a failing `rename`; the current directory may be changed to a longer one meanwhile; a time stamp of 0 (1601) is out of the range of a clock of nanoseconds. -/
theorem c117_violated (k : SysClock) (ec : EcArg) (p q : Path) (i : WinInfo) (m : Errno) :
    Exec (Win.refresh k ⟨p, .reset⟩ ec)
      [⟨.win (.getAttrs p.pathname), (.ok 0x80#32 : Except Errno (BitVec 32))⟩, ⟨.win (.createFile p.pathname Win.noFollow), (.ok 5 : Except Errno Nat)⟩,
       ⟨.win (.infoByHandle 5), (.ok i : Except Errno WinInfo)⟩, ⟨.win (.getFileType 5), (1#32 : BitVec 32)⟩, ⟨.win .lastError, (none : Code)⟩]
      (.error (.fault .assertFail)) ∧
    Exec (Win.rename p q ec) [⟨.rename p.pathname q.pathname, (.error m : Except Errno Unit)⟩, ⟨.win .lastError, (none : Code)⟩] (.error (.fault .assertFail)) ∧
    Exec (Win.currentPath ec) [⟨.win .cwdSize, (4 : Nat)⟩, ⟨.win (.getCwd 4), (.ok none : Except Errno (Option Str))⟩] (.error (.fault .ub)) ∧
    ∃ t, Exec (Win.lastWriteTime .gnu p ec) t (.error (.fault .ub)) ∧ ∀ ev ∈ t, WinSane .msvc ev := by
  refine ⟨?_, .call _ _ _ _ _ (.call _ _ _ _ _ (.stop _)), .call _ _ _ _ _ (.call _ _ _ _ _ (.stop _)), ?_⟩
  · exact .call _ _ _ _ _ (.call _ _ _ _ _ (.call _ _ _ _ _ (.call _ _ _ _ _ (.call _ _ _ _ _ (.stop _)))))
  · refine ⟨[⟨.win (.createFile p.pathname { Win.follow with access := Win.FILE_READ_ATTRIBUTES }), (.ok 5 : Except Errno Nat)⟩,
      ⟨.win (.getFileTime 5), (.ok ⟨0, 0⟩ : Except Errno FileTime)⟩], .call _ _ _ _ _ (.call _ _ _ _ _ (.stop _)), ?_⟩
    intro ev h
    simp only [List.mem_cons, List.not_mem_nil, or_false] at h
    rcases h with rfl | rfl
    · trivial
    · exact ⟨by decide, by decide⟩

/-- An execution with answers within the limits. -/
example : WinApt (.lastWriteTime .gnu (mkPath .windows "f".toList)) ∧ ClockIs .gnu (.lastWriteTime .gnu (mkPath .windows "f".toList)) ∧
    (∀ ev ∈ ([⟨.win (.createFile "f".toList { Win.follow with access := Win.FILE_READ_ATTRIBUTES }), (.ok 5 : Except Errno Nat)⟩,
      ⟨.win (.getFileTime 5), (.ok ⟨0, 30000000⟩ : Except Errno FileTime)⟩, ⟨.win (.closeHandle 5), (.ok () : Except Errno Unit)⟩] : List Event), WinSane .gnu ev) ∧
    ∃ r, Exec ((WinOp.lastWriteTime .gnu (mkPath .windows "f".toList)).prog (.ref none))
      [⟨.win (.createFile "f".toList { Win.follow with access := Win.FILE_READ_ATTRIBUTES }), (.ok 5 : Except Errno Nat)⟩,
       ⟨.win (.getFileTime 5), (.ok ⟨0, 30000000⟩ : Except Errno FileTime)⟩, ⟨.win (.closeHandle 5), (.ok () : Except Errno Unit)⟩] (.ok r) := by
  refine ⟨trivial, rfl, ?_, _, .call _ _ _ _ _ (.call _ _ _ _ _ (.call _ _ _ _ _ (.ret _)))⟩
  intro ev h
  simp only [List.mem_cons, List.not_mem_nil, or_false] at h
  rcases h with rfl | rfl | rfl
  · trivial
  · exact ⟨by decide, by decide⟩
  · trivial

end Asap
