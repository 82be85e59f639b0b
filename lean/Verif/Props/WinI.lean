import Verif.Props.WinG
import Verif.Props.WinH
import Verif.Win.Dir
import Verif.Props.CopyA

/-!
# C73: what observers change on Windows; preparation of C74
-/

namespace Asap
open Spec

/-! ## C73 -/

/-- A call that changes no file, directory or working directory. -/
def Spec.Harmless (c : Sys) : Prop := c.mutates = false

theorem Only.report {α : Type} (h : Handler) (ec : EcArg) (c : Code) (d : α) :
    Only Harmless (fun _ => True) (h.report ec c d) := by
  cases ec
  · exact .stop _
  · exact .ret _ trivial

theorem Only.reportMsg {α : Type} (h : Handler) (ec : EcArg) (c : Code) (m : Str) (d : α) :
    Only Harmless (fun _ => True) (h.reportMsg ec c m d) := by
  cases ec
  · exact .stop _
  · exact .ret _ trivial

theorem Only.ofRes {α : Type} {S : Sys → Prop} (r : Res α) : Only S (fun _ => True) (Prog.ofRes r) := by
  cases r
  · exact .stop _
  · exact .ret _ trivial

theorem Only.harm {α β : Type} {p : Prog α} {f : α → Prog β} (h : Only Harmless (fun _ => True) p)
    (hf : ∀ a, Only Harmless (fun _ => True) (f a)) : Only Harmless (fun _ => True) (p.bind f) := h.bind fun a _ => hf a

namespace Win

theorem only_withFile {α : Type} {p : Path} {o : WinOpen} {fail : Errno → Prog α} {body : Nat → Prog α}
    (hf : ∀ e, Only Harmless (fun _ => True) (fail e)) (hb : ∀ h, Only Harmless (fun _ => True) (body h)) :
    Only Harmless (fun _ => True) (withFile p o fail body) := by
  refine .call _ _ rfl ?_
  rintro (e | h)
  · exact hf e
  · exact (hb h).finally' (.call _ _ rfl fun _ => .ret _ trivial)

theorem only_call {α : Type} {S : Sys → Prop} {Q : α → Prop} {c : Sys} {k : c.Ret → Prog α} :
    Only S Q (.call c k) ↔ S c ∧ ∀ r, Only S Q (k r) :=
  ⟨fun h => by cases h with | call _ _ h1 h2 => exact ⟨h1, h2⟩, fun h => .call _ _ h.1 h.2⟩

theorem harmless_win {c : WinCall} : Harmless (.win c) ↔ c.mutates = false := Iff.rfl

/-- Proves that a program is harmless. -/
macro "harmless" : tactic => `(tactic|
  (try simp only [only_call, harmless_win, WinCall.mutates, true_and]
   repeat' first
    | with_reducible exact Only.ret _ trivial
    | with_reducible exact Only.stop _
    | with_reducible exact Only.report _ _ _ _
    | with_reducible exact Only.reportMsg _ _ _ _ _
    | with_reducible exact Only.ofRes _
    | with_reducible refine only_withFile (fun e => ?_) (fun h => ?_)
    | with_reducible refine Only.harm ?_ (fun a => ?_)
    | with_reducible intro r
    | split
    | simp only [only_call, harmless_win, WinCall.mutates, true_and]))

theorem only_status (p : Path) (ec : EcArg) : Only Harmless (fun _ => True) (status p ec) := by
  unfold status targetAttrs
  harmless

theorem only_isReparsePointSymlink (p : Path) (ec : EcArg) : Only Harmless (fun _ => True) (isReparsePointSymlink p ec) := by
  unfold isReparsePointSymlink
  harmless

theorem only_symlinkStatus (p : Path) (ec : EcArg) : Only Harmless (fun _ => True) (symlinkStatus p ec) := by
  unfold symlinkStatus
  harmless <;> exact only_isReparsePointSymlink ..

theorem only_existsP (p : Path) (ec : EcArg) : Only Harmless (fun _ => True) (existsP p ec) := by
  unfold existsP
  harmless <;> exact only_status ..

theorem only_isDirectoryP (p : Path) (ec : EcArg) : Only Harmless (fun _ => True) (isDirectoryP p ec) := by
  unfold isDirectoryP
  harmless <;> exact only_status ..

theorem only_isSymlinkP (p : Path) (ec : EcArg) : Only Harmless (fun _ => True) (isSymlinkP p ec) := by
  unfold isSymlinkP
  harmless <;> exact only_symlinkStatus ..

theorem only_readSymlink (p : Path) (ec : EcArg) : Only Harmless (fun _ => True) (readSymlink p ec) := by
  unfold readSymlink
  harmless

theorem only_currentPath (ec : EcArg) : Only Harmless (fun _ => True) (currentPath ec) := by
  unfold currentPath
  harmless

theorem only_absolute (p : Path) (ec : EcArg) : Only Harmless (fun _ => True) (absolute p ec) := by
  unfold absolute doAbsolute
  harmless <;> exact only_currentPath ..

theorem only_equivalent (p q : Path) (ec : EcArg) : Only Harmless (fun _ => True) (equivalent p q ec) := by
  unfold equivalent
  harmless

theorem only_fileSize (p : Path) (ec : EcArg) : Only Harmless (fun _ => True) (fileSize p ec) := by
  unfold fileSize
  harmless

theorem only_hardLinkCount (p : Path) (ec : EcArg) : Only Harmless (fun _ => True) (hardLinkCount p ec) := by
  unfold hardLinkCount
  harmless

theorem only_lastWriteTime (c : SysClock) (p : Path) (ec : EcArg) :
    Only Harmless (fun _ => True) (lastWriteTime c p ec) := by
  unfold lastWriteTime
  harmless

theorem only_space (p : Path) (ec : EcArg) : Only Harmless (fun _ => True) (space p ec) := by
  unfold space
  harmless <;> exact only_absolute ..

theorem only_tempDirectoryPath (ec : EcArg) : Only Harmless (fun _ => True) (tempDirectoryPath ec) := by
  unfold tempDirectoryPath
  harmless <;> exact only_status ..

theorem only_updateBasic (b : Bool) (e : Entry) (ec : EcArg) : Only Harmless (fun _ => True) (updateBasic b e ec) := by
  unfold updateBasic basicReparse basicOpen captureErrno
  harmless <;> exact only_isReparsePointSymlink ..

theorem only_extraLink (c : SysClock) (p : Path) (h : Handler) (k : Cache) (ec : EcArg) :
    Only Harmless (fun _ => True) (extraLink c p h k ec) := by
  unfold extraLink
  harmless

theorem only_updateExtra (c : SysClock) (e : Entry) (ec : EcArg) : Only Harmless (fun _ => True) (updateExtra c e ec) := by
  unfold updateExtra
  harmless <;> exact only_extraLink ..

theorem only_handlePerms (p : Path) (o : WinOpen) : Only Harmless (fun _ => True) (handlePerms p o) := by
  unfold handlePerms
  harmless

theorem only_updatePerms (b : Bool) (e : Entry) (ec : EcArg) : Only Harmless (fun _ => True) (updatePerms b e ec) := by
  unfold updatePerms
  harmless <;> exact only_handlePerms ..

theorem only_handleError (m : Str) (e : Entry) (c : Code) (b : Bool) (ec : EcArg) :
    Only Harmless (fun _ => True) (handleError m e c b ec) := by
  unfold handleError
  harmless

theorem only_refresh (c : SysClock) (e : Entry) (ec : EcArg) : Only Harmless (fun _ => True) (refresh c e ec) := by
  unfold refresh refreshImpl
  harmless <;> first
    | exact only_updateBasic .. | exact only_updateExtra .. | exact only_updatePerms .. | exact only_handleError ..

/-- The observers of `directory_entry`. -/
theorem only_observers (c : SysClock) (e : Entry) (ec : EcArg) :
    Only Harmless (fun _ => True) (getSymLinkFileType e ec) ∧ Only Harmless (fun _ => True) (getFileType e ec) ∧
    Only Harmless (fun _ => True) (getSize c e ec) ∧ Only Harmless (fun _ => True) (getHardLinkCount c e ec) ∧
    Only Harmless (fun _ => True) (getLastWriteTime c e ec) ∧ Only Harmless (fun _ => True) (getStatus c e ec) ∧
    Only Harmless (fun _ => True) (getSymLinkStatus c e ec) := by
  unfold getSymLinkFileType getFileType getSize getHardLinkCount getLastWriteTime getStatus getSymLinkStatus
  refine ⟨?_, ?_, ?_, ?_, ?_, ?_, ?_⟩ <;> harmless <;> first
    | exact only_updateBasic .. | exact only_updateExtra .. | exact only_updatePerms .. | exact only_handleError ..

theorem only_setEntry (s : Stream) (d : FindData) : Only Harmless (fun _ => True) (setEntry s d) := by
  unfold setEntry
  harmless

theorem only_close (s : Stream) : Only Harmless (fun _ => True) (Stream.close s) := by
  unfold Stream.close
  harmless

theorem only_advance : ∀ (n : Nat) (s : Stream), Only Harmless (fun _ => True) (Stream.advance n s)
  | 0, s => .stop _
  | n + 1, s => by
    rw [Stream.advance]
    harmless <;> first
      | exact only_close .. | exact only_setEntry .. | exact only_advance n _

theorem only_skipDots (d : Nat) : ∀ (n : Nat) (f : FindData), Only Harmless (fun _ => True) (skipDots d n f)
  | 0, f => .stop _
  | n + 1, f => by
    rw [skipDots]
    harmless <;> exact only_skipDots d n _

theorem only_new (n : Nat) (p : Path) (o : DirOptions) : Only Harmless (fun _ => True) (Stream.new n p o) := by
  unfold Stream.new
  harmless <;> first
    | exact only_skipDots .. | exact only_setEntry ..

theorem only_destroy (it : DirIter) : Only Harmless (fun _ => True) (destroy it) := by
  cases it
  · exact .ret _ trivial
  · exact (only_close _).harm fun _ => .ret _ trivial

theorem only_dirNew (n : Nat) (p : Path) (o : DirOptions) (ec : EcArg) :
    Only Harmless (fun _ => True) (DirIter.new n p o ec) := by
  unfold DirIter.new
  harmless <;> exact only_new ..

theorem only_dirIncr (n : Nat) (it : DirIter) (ec : EcArg) : Only Harmless (fun _ => True) (DirIter.incr n it ec) := by
  unfold DirIter.incr
  harmless <;> exact only_advance ..

theorem only_closeAll : ∀ ss : List Stream, Only Harmless (fun _ => True) (closeAll ss)
  | [] => .ret _ trivial
  | s :: ss => by
    rw [closeAll]
    harmless <;> first
      | exact only_closeAll ss | exact only_close ..

theorem only_recNew (n : Nat) (p : Path) (o : DirOptions) (ec : EcArg) :
    Only Harmless (fun _ => True) (RecIter.new n p o ec) := by
  unfold RecIter.new
  harmless <;> first
    | exact only_new .. | exact (Only.report ..).finally' (only_destroy _)

theorem only_advanceStack (n : Nat) : ∀ ss : List Stream, Only Harmless (fun _ => True) (advanceStack n ss)
  | [] => .ret _ trivial
  | s :: ss => by
    rw [advanceStack]
    harmless <;> first
      | exact only_advance .. | exact only_advanceStack n ss

theorem only_recAdvance (n : Nat) (it : RecIter) (ec : EcArg) : Only Harmless (fun _ => True) (RecIter.advance n it ec) := by
  unfold RecIter.advance
  harmless <;> first
    | exact only_advanceStack .. | exact only_closeAll ..

theorem only_tryRecursion (n : Nat) (it : RecIter) (ec : EcArg) :
    Only Harmless (fun _ => True) (RecIter.tryRecursion n it ec) := by
  unfold RecIter.tryRecursion recursionType
  harmless <;> first
    | exact only_new .. | exact only_closeAll .. | exact (only_observers .msvc _ _).1 | exact (only_observers .msvc _ _).2.1

theorem only_recIncr (n : Nat) (it : RecIter) (ec : EcArg) : Only Harmless (fun _ => True) (RecIter.incr n it ec) := by
  unfold RecIter.incr
  harmless <;> first
    | exact only_recAdvance .. | exact only_tryRecursion ..

theorem only_recPop (n : Nat) (it : RecIter) (ec : EcArg) : Only Harmless (fun _ => True) (RecIter.pop n it ec) := by
  unfold RecIter.pop
  harmless <;> first
    | exact only_recAdvance .. | exact only_close ..

theorem only_isEmptyFile (n : Nat) (p : Path) (ec : EcArg) : Only Harmless (fun _ => True) (isEmptyFile n p ec) := by
  unfold isEmptyFile isEmptyDirectory
  harmless <;> first
    | exact only_dirNew .. | exact only_destroy ..

end Win

/-- **C73**: on Windows the functions that look at files change nothing, whatever the system answers and whichever form
is called. -/
theorem c73_observers (c : SysClock) (p q : Path) (ec : EcArg) (t : List Event) :
    (∀ o, Exec (Win.status p ec) t o → Quiet t) ∧ (∀ o, Exec (Win.symlinkStatus p ec) t o → Quiet t) ∧
    (∀ o, Exec (Win.existsP p ec) t o → Quiet t) ∧ (∀ o, Exec (Win.isDirectoryP p ec) t o → Quiet t) ∧
    (∀ o, Exec (Win.isSymlinkP p ec) t o → Quiet t) ∧ (∀ o, Exec (Win.equivalent p q ec) t o → Quiet t) ∧
    (∀ o, Exec (Win.fileSize p ec) t o → Quiet t) ∧ (∀ o, Exec (Win.hardLinkCount p ec) t o → Quiet t) ∧
    (∀ o, Exec (Win.lastWriteTime c p ec) t o → Quiet t) ∧ (∀ o, Exec (Win.readSymlink p ec) t o → Quiet t) ∧
    (∀ o, Exec (Win.space p ec) t o → Quiet t) ∧ (∀ o, Exec (Win.currentPath ec) t o → Quiet t) ∧
    (∀ o, Exec (Win.absolute p ec) t o → Quiet t) ∧ (∀ o, Exec (Win.tempDirectoryPath ec) t o → Quiet t) ∧
    (∀ n o, Exec (Win.isEmptyFile n p ec) t o → Quiet t) :=
  ⟨fun _ h => ((Win.only_status p ec).exec h).1, fun _ h => ((Win.only_symlinkStatus p ec).exec h).1,
   fun _ h => ((Win.only_existsP p ec).exec h).1, fun _ h => ((Win.only_isDirectoryP p ec).exec h).1,
   fun _ h => ((Win.only_isSymlinkP p ec).exec h).1, fun _ h => ((Win.only_equivalent p q ec).exec h).1,
   fun _ h => ((Win.only_fileSize p ec).exec h).1, fun _ h => ((Win.only_hardLinkCount p ec).exec h).1,
   fun _ h => ((Win.only_lastWriteTime c p ec).exec h).1, fun _ h => ((Win.only_readSymlink p ec).exec h).1,
   fun _ h => ((Win.only_space p ec).exec h).1, fun _ h => ((Win.only_currentPath ec).exec h).1,
   fun _ h => ((Win.only_absolute p ec).exec h).1, fun _ h => ((Win.only_tempDirectoryPath ec).exec h).1,
   fun n _ h => ((Win.only_isEmptyFile n p ec).exec h).1⟩

/-- **C73** for `directory_entry`: neither `refresh` nor an observer changes anything. -/
theorem c73_entry (c : SysClock) (e : Entry) (ec : EcArg) (t : List Event) :
    (∀ o, Exec (Win.refresh c e ec) t o → Quiet t) ∧
    (∀ o, Exec (Win.getSymLinkFileType e ec) t o → Quiet t) ∧ (∀ o, Exec (Win.getFileType e ec) t o → Quiet t) ∧
    (∀ o, Exec (Win.getSize c e ec) t o → Quiet t) ∧ (∀ o, Exec (Win.getHardLinkCount c e ec) t o → Quiet t) ∧
    (∀ o, Exec (Win.getLastWriteTime c e ec) t o → Quiet t) ∧ (∀ o, Exec (Win.getStatus c e ec) t o → Quiet t) ∧
    (∀ o, Exec (Win.getSymLinkStatus c e ec) t o → Quiet t) :=
  have h := Win.only_observers c e ec
  ⟨fun _ x => ((Win.only_refresh c e ec).exec x).1, fun _ x => (h.1.exec x).1, fun _ x => (h.2.1.exec x).1,
   fun _ x => (h.2.2.1.exec x).1, fun _ x => (h.2.2.2.1.exec x).1, fun _ x => (h.2.2.2.2.1.exec x).1,
   fun _ x => (h.2.2.2.2.2.1.exec x).1, fun _ x => (h.2.2.2.2.2.2.exec x).1⟩

/-- **C73** for the iterators: constructing, advancing, popping and destroying them changes nothing. -/
theorem c73_iterators (n : Nat) (p : Path) (opts : DirOptions) (it : DirIter) (rit : RecIter) (ec : EcArg) (t : List Event) :
    (∀ o, Exec (Win.DirIter.new n p opts ec) t o → Quiet t) ∧ (∀ o, Exec (Win.DirIter.incr n it ec) t o → Quiet t) ∧
    (∀ o, Exec (Win.destroy it) t o → Quiet t) ∧ (∀ o, Exec (Win.RecIter.new n p opts ec) t o → Quiet t) ∧
    (∀ o, Exec (Win.RecIter.incr n rit ec) t o → Quiet t) ∧ (∀ o, Exec (Win.RecIter.pop n rit ec) t o → Quiet t) :=
  ⟨fun _ h => ((Win.only_dirNew n p opts ec).exec h).1, fun _ h => ((Win.only_dirIncr n it ec).exec h).1,
   fun _ h => ((Win.only_destroy it).exec h).1, fun _ h => ((Win.only_recNew n p opts ec).exec h).1,
   fun _ h => ((Win.only_recIncr n rit ec).exec h).1, fun _ h => ((Win.only_recPop n rit ec).exec h).1⟩

/-- Looking at a symbolic link opens it, reads it and closes it again. -/
example : Quiet [⟨.win (.createFile ['l'] Win.openReparse), (.ok 3 : Except Errno Nat)⟩, ⟨.win (.closeHandle 3), (.ok () : Except Errno Unit)⟩] ∧
    ¬ Quiet [⟨.win (.deleteFile ['l']), (.ok () : Except Errno Unit)⟩] := by
  constructor
  · intro e he
    rcases List.mem_cons.mp he with rfl | he
    · rfl
    · rw [List.mem_singleton.mp he]; rfl
  · intro h
    exact absurd (h _ (List.mem_singleton.mpr rfl)) (by decide)

/-! ## C74 -/

/-- A law, and a log of the calls that change something. -/
def Logged {σ : Type} (step : σ → Event → σ → Prop) (a : σ × List Event) (e : Event) (b : σ × List Event) : Prop :=
  step a.1 e b.1 ∧ b.2 = if e.call.mutates then a.2 ++ [e] else a.2

theorem wp_logged {σ α : Type} {step : σ → Event → σ → Prop} {Q : Except Stop α → σ → Prop} {p : Prog α}
    (hp : Only Harmless (fun _ => True) p) {s : σ} (l : List Event) (h : wp step Q p s) :
    wp (Logged step) (fun o a => Q o a.1 ∧ a.2 = l) p (s, l) := by
  induction hp generalizing s with
  | ret a _ => exact ⟨h, rfl⟩
  | stop x => exact ⟨h, rfl⟩
  | call c k hc hk ih =>
    rintro r ⟨s', l'⟩ ⟨h1, h2⟩
    have hc : c.mutates = false := hc
    simp only [hc, Bool.false_eq_true, if_false] at h2
    subst h2
    exact ih r (h r s' h1)

theorem steps_logged {σ : Type} {step : σ → Event → σ → Prop} {s s' : σ} {t : List Event} (h : Steps step s t s') (l : List Event) :
    Steps (Logged step) (s, l) t (s', l ++ t.filter fun e => e.call.mutates) := by
  induction h generalizing l with
  | nil s => simpa using Steps.nil (s, l)
  | cons h1 h2 ih =>
    rename_i e t
    cases he : e.call.mutates
    · refine .cons (s' := (_, l)) ⟨h1, by simp [he]⟩ ?_
      simpa [List.filter_cons, he] using ih l
    · refine .cons (s' := (_, l ++ [e])) ⟨h1, by simp [he]⟩ ?_
      simpa [List.filter_cons, he] using ih (l ++ [e])

/-- The whole seconds since 1601 of the last write to an object. -/
def Spec.seconds (x : WinObj) : Nat := x.time.toNat / 10000000

/-- The time of an object, in whole seconds, is a value of `file_time_type`. -/
def Spec.Dated (c : SysClock) (x : WinObj) : Prop := ∃ t, IsTime t ∧ nanosSince1601 c t = seconds x * 1000000000

/-- What is to happen to the destination of `copy_file`. -/
inductive Spec.Choice where
  | copy | keep | refuse
  deriving DecidableEq

/-- The rule for `copy_file`, from what the source and the destination lead to. -/
def Spec.choose (a b : Option WinObj) (opts : CopyOptions) : Choice :=
  match a, b with
  | none, _ => .refuse
  | some x, none => if x.dir then .refuse else .copy
  | some x, some y =>
    if x.dir ∨ y.dir then .refuse
    else if x = y then .refuse
    else if skips opts then .keep
    else if updates opts then (if seconds x < seconds y then .keep else .copy)
    else if overwrites opts then .copy
    else .refuse

/-- One answer of the system call that copies, and what `copy_file` makes of it. -/
def Spec.copied : Except Errno Unit → Except Stop (Bool × EcArg)
  | .ok () => .ok (true, .ref none)
  | .error e => .ok (false, .ref (some e))

/-- A run of `copy_file` that made the calls `l` of those that change something. -/
def Spec.CopyRun (c : SysClock) (src dst : Str) (a b : Option WinObj) (opts : CopyOptions) (w : Prop)
    (l : List Event) (o : Except Stop (Bool × EcArg)) : Prop :=
  (l = [] ∧
    ((∃ e, o = .ok (false, .ref (some e)) ∧ (w → choose a b opts = .refuse)) ∨
     (o = .ok (false, .ref none) ∧ b ≠ none ∧ (skips opts ∨ updates opts ∧ ∃ x y, a = some x ∧ b = some y ∧ seconds x < seconds y) ∧
       (w → choose a b opts = .keep)) ∨
     ∃ f, o = .error (.fault f) ∧ updates opts ∧ ∃ x, (a = some x ∨ b = some x) ∧ ¬ Dated c x)) ∨
  ∃ r, l = [⟨.win (.copyFile src dst false), r⟩] ∧ o = copied r ∧ (∃ x, a = some x ∧ x.dir = false) ∧
    (∀ y, b = some y → y.dir = false ∧ ¬ skips opts ∧ (updates opts ∨ overwrites opts)) ∧ (w → choose a b opts = .copy)

namespace Win

theorem dated_iff (c : SysClock) (ft : FileTime) (x : WinObj) (h : ft.high ++ ft.low = x.time) :
    ((∃ t, fromWindowsFileTime c ft = .ok t) ↔ Dated c x) ∧
      ∀ t, fromWindowsFileTime c ft = .ok t → nanosSince1601 c t = seconds x * 1000000000 := by
  have hn : nanosOf ft = (x.time.toNat : Int) * 100 := by
    rw [← h, nanosOf, intervals, BitVec.toNat_append, ← Nat.shiftLeft_add_eq_or_of_lt ft.low.isLt, Nat.shiftLeft_eq]
    omega
  have hs : nanosOf ft / 1000000000 * 1000000000 = (seconds x : Int) * 1000000000 := by
    rw [hn, seconds]; omega
  obtain ⟨h1, h2⟩ := c58_from c ft
  rw [hs] at h2
  refine ⟨h2.symm, fun t ht => ?_⟩
  obtain ⟨_, h3, h4, h5⟩ := h1 t ht
  omega

theorem le_iff_seconds (c : SysClock) {t t' : Int} {m n : Nat} (h : nanosSince1601 c t = m * 1000000000)
    (h' : nanosSince1601 c t' = n * 1000000000) : t ≤ t' ↔ m ≤ n := by
  have hp : 0 < (c.nanos : Int) := by
    have := c.second
    have : c.nanos ≠ 0 := by rintro h; rw [h] at this; simp at this
    omega
  unfold nanosSince1601 at h h'
  have : t ≤ t' ↔ t * c.nanos ≤ t' * c.nanos := (Int.mul_le_mul_right hp).symm
  rw [this]
  omega

theorem wp_winTime (D : WinDisk) (w : Prop) (c : SysClock) (p : Path) (ec : Code) (hs : Handles) :
    wp (LawW D w) (fun o _ => (∃ e, o = .ok (timeMin, .ref (some e)) ∧ (w → D.goal p.pathname = none)) ∨
        ∃ x, D.goal p.pathname = some x ∧
          ((∃ t, o = .ok (t, .ref none) ∧ nanosSince1601 c t = seconds x * 1000000000) ∨
            ∃ f, o = .error (.fault f) ∧ ¬ Dated c x))
      (Win.lastWriteTime c p (.ref ec)) hs := by
  refine wp_withFile (Q := fun (o : Except Stop (Int × EcArg)) => (∃ e, o = .ok (timeMin, .ref (some e)) ∧ (w → D.goal p.pathname = none)) ∨
        ∃ x, D.goal p.pathname = some x ∧
          ((∃ t, o = .ok (t, .ref none) ∧ nanosSince1601 c t = seconds x * 1000000000) ∨
            ∃ f, o = .error (.fault f) ∧ ¬ Dated c x)) (fun e h1 h2 s => .inl ⟨e, rfl, fun hw => h1 (h2 hw)⟩) ?_
  intro h x s hx hh
  have hx : D.goal p.pathname = some x := hx
  rintro (e | ft) s2 ⟨⟨_, h1⟩, h2⟩
  · exact .inl ⟨e, rfl, fun hw => absurd (h2 hw) h1⟩
  · obtain ⟨y, hy, hq⟩ := h1
    rw [hh] at hy
    cases hy
    obtain ⟨hd, ht⟩ := dated_iff c ft x hq
    dsimp only
    cases hr : fromWindowsFileTime c ft with
    | ok t => exact .inr ⟨x, hx, .inl ⟨t, rfl, ht t hr⟩⟩
    | error f =>
      refine .inr ⟨x, hx, .inr ⟨f, rfl, fun hn => ?_⟩⟩
      obtain ⟨t, h⟩ := hd.mpr hn
      rw [hr] at h
      cases h

end Win
end Asap
