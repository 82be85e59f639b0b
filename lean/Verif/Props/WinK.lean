import Verif.Props.WinJ
import Verif.Win.Copy

/-!
# C75: file handles on Windows

Any answers of the system are allowed here, except that `CreateFileW` does not hand out a handle that is open.
-/

namespace Asap
namespace Spec

/-- The file handles a call uses. -/
def fileUses : Sys → List Nat
  | .win (.infoByHandle h) | .win (.attrTag h) | .win (.reparse h) | .win (.getFileType h) | .win (.getFileTime h)
  | .win (.setFileTime h _) | .win (.setPointer h _) | .win (.setEnd h) => [h]
  | _ => []

/-- The file handles that are open, after an event; `none` once a handle that is not open has been used or closed. -/
def useFile (s : Option (List Nat)) (ev : Event) : Option (List Nat) :=
  match s, ev with
  | none, _ => none
  | some hs, ⟨.win (.createFile _ _), .ok h⟩ => some (h :: hs)
  | some hs, ⟨.win (.closeHandle h), _⟩ => if h ∈ hs then some (hs.erase h) else none
  | some hs, ⟨c, _⟩ => if ∀ h ∈ fileUses c, h ∈ hs then some hs else none

/-- The system never hands out a handle that is open. -/
def freshFile (s : Option (List Nat)) (ev : Event) : Prop :=
  match s, ev with
  | some hs, ⟨.win (.createFile _ _), .ok h⟩ => h ∉ hs
  | _, _ => True

/-- No call of the run used or closed a file handle that was not open; if it returned or threw, all handles it opened have
been closed again. -/
def FilesClosed {α : Type} (t : List Event) (o : Except Stop α) : Prop :=
  ∀ (hs : List Nat) (s : Option (List Nat)), Steps (fun s e s' => s' = useFile s e ∧ freshFile s e) (some hs) t s →
    s ≠ none ∧ ((∃ v, o = .ok v) ∨ (∃ x, o = .error (.thrown x)) → s = some hs)

end Spec
open Spec

/-- A call other than opening and closing. -/
def plainCall : Sys → Bool
  | .win (.createFile _ _) | .win (.closeHandle _) => false
  | _ => true

theorem useFile_plain {c : Sys} (hc : plainCall c = true) (hs : List Nat) (r : c.Ret) :
    useFile (some hs) ⟨c, r⟩ = if ∀ h ∈ fileUses c, h ∈ hs then some hs else none := by
  unfold useFile
  split
  · rename_i h; cases h
  · rename_i h1 h2
    injection h2 with h2 _
    subst h2
    cases hc
  · rename_i h1 h2
    injection h2 with h2 _
    subst h2
    cases hc
  · rename_i h1 h2
    cases h1
    injection h2 with h2 _
    subst h2
    rfl

/-- A program that may use the open handles `H` and closes what it opens. -/
structure Closes {α : Type} (H : List Nat) (p : Prog α) : Prop where
  run : ∀ hs : List Nat, (∀ h ∈ H, h ∈ hs) →
    wp (fun s e s' => s' = useFile s e ∧ freshFile s e) (fun o s => s ≠ none ∧ (Unwinds o → s = some hs)) p (some hs)

variable {α β : Type} {H : List Nat}

theorem Closes.ret (a : α) : Closes H (.ret a) := ⟨fun _ _ => ⟨by simp, fun _ => rfl⟩⟩
theorem Closes.stop (x : Stop) : Closes H (.stop x : Prog α) := ⟨fun _ _ => ⟨by simp, fun _ => rfl⟩⟩

theorem Closes.call {c : Sys} {k : c.Ret → Prog α} (hc : plainCall c = true) :
    ((∀ h ∈ fileUses c, h ∈ H) ∧ ∀ r, Closes H (k r)) → Closes H (.call c k) := by
  rintro ⟨hu, hk⟩
  constructor
  rintro hs hH r s' ⟨rfl, _⟩
  rw [useFile_plain hc, if_pos fun h hh => hH h (hu h hh)]
  exact (hk r).run hs hH

theorem unwinds_error {x : Stop} (h : Unwinds (.error x : Except Stop α)) : Unwinds (.error x : Except Stop β) := by
  cases x <;> exact h

theorem Closes.bind {p : Prog α} {f : α → Prog β} (hp : Closes H p) (hf : ∀ a, Closes H (f a)) : Closes H (p.bind f) := by
  constructor
  intro hs hH
  refine wp_bind (wp_mono ?_ (hp.run hs hH))
  rintro (x | a) s ⟨h1, h2⟩
  · exact ⟨h1, fun hu => h2 (unwinds_error hu)⟩
  · rw [h2 trivial]
    exact (hf a).run hs hH

theorem Closes.finally' {p : Prog α} {d : Prog Unit} (hp : Closes H p) (hd : Closes H d) : Closes H (p.finally' d) := by
  constructor
  intro hs hH
  refine wp_finally (wp_mono ?_ (hp.run hs hH))
  rintro o s ⟨h1, h2⟩
  refine ⟨fun hu => ?_, fun hn => ⟨h1, fun h => absurd h hn⟩⟩
  rw [h2 hu]
  refine wp_mono ?_ (hd.run hs hH)
  rintro (x | a) s ⟨h3, h4⟩
  · exact ⟨h3, fun hu => h4 (unwinds_error hu)⟩
  · exact ⟨h3, fun _ => h4 trivial⟩

theorem wp_onThrow_of {σ : Type} {step : σ → Event → σ → Prop} {Q R : Except Stop α → σ → Prop} {p : Prog α} {d : Prog Unit}
    (hQ : ∀ o s, (∀ x, o ≠ .error (.thrown x)) → R o s → Q o s)
    (hd : ∀ x s, R (.error (.thrown x)) s → wp step Q (d.bind fun _ => .stop (.thrown x)) s) :
    ∀ s, wp step R p s → wp step Q (p.onThrow d) s := by
  induction p with
  | ret a => exact fun s h => hQ _ _ (fun _ h => by cases h) h
  | stop x =>
    cases x with
    | thrown e => exact fun s h => hd e s h
    | _ => exact fun s h => hQ _ _ (fun _ h => by cases h) h
  | call c k ih => exact fun s h r s' hs => ih r s' (h r s' hs)

theorem Closes.onThrow {p : Prog α} {d : Prog Unit} (hp : Closes H p) (hd : Closes H d) : Closes H (p.onThrow d) := by
  constructor
  intro hs hH
  refine wp_onThrow_of (fun o s _ h => h) ?_ _ (hp.run hs hH)
  rintro x s ⟨_, h⟩
  rw [h trivial]
  exact (hd.bind fun _ => .stop _).run hs hH

theorem Closes.withFile {p : Path} {o : WinOpen} {fail : Errno → Prog α} {body : Nat → Prog α}
    (hf : ∀ e, Closes H (fail e)) (hb : ∀ h, Closes (h :: H) (body h)) : Closes H (Win.withFile p o fail body) := by
  constructor
  intro hs hH
  rintro (e | h) s ⟨rfl, hfr⟩
  · exact (hf e).run hs hH
  · refine wp_finally (wp_mono ?_ ((hb h).run (h :: hs) ?_))
    · rintro o s ⟨h1, h2⟩
      refine ⟨fun hu => ?_, fun hn => ⟨h1, fun h => absurd h hn⟩⟩
      rw [h2 hu]
      rintro r s' ⟨rfl, _⟩
      simp [useFile, wp]
    · intro k hk
      rcases List.mem_cons.mp hk with rfl | hk
      · simp
      · exact List.mem_cons_of_mem _ (hH k hk)

theorem Closes.report (h : Handler) (ec : EcArg) (c : Code) (d : α) : Closes H (h.report ec c d) := by
  cases ec
  · exact .stop _
  · exact .ret _

theorem Closes.reportMsg (h : Handler) (ec : EcArg) (c : Code) (m : Str) (d : α) : Closes H (h.reportMsg ec c m d) := by
  cases ec
  · exact .stop _
  · exact .ret _

theorem Closes.ofRes (r : Res α) : Closes H (Prog.ofRes r) := by
  cases r
  · exact .stop _
  · exact .ret _

namespace Win

/-- Proves that a program closes its handles. -/
macro "closes" : tactic => `(tactic|
   repeat' first
    | with_reducible exact Closes.ret _
    | with_reducible exact Closes.stop _
    | with_reducible exact Closes.report _ _ _ _
    | with_reducible exact Closes.reportMsg _ _ _ _ _
    | with_reducible exact Closes.ofRes _
    | with_reducible refine Closes.withFile (fun e => ?_) (fun h => ?_)
    | with_reducible refine Closes.bind ?_ (fun a => ?_)
    | with_reducible refine Closes.finally' ?_ ?_
    | with_reducible refine Closes.call rfl ⟨(by simp only [fileUses]; simp), ?_⟩
    | with_reducible intro r
    | dsimp only
    | split)

theorem closes_status (p : Path) (ec : EcArg) : Closes [] (status p ec) := by
  unfold status targetAttrs
  closes

theorem closes_isReparsePointSymlink (p : Path) (ec : EcArg) : Closes [] (isReparsePointSymlink p ec) := by
  unfold isReparsePointSymlink
  closes

theorem closes_symlinkStatus (p : Path) (ec : EcArg) : Closes [] (symlinkStatus p ec) := by
  unfold symlinkStatus
  closes <;> exact closes_isReparsePointSymlink ..

theorem closes_existsP (p : Path) (ec : EcArg) : Closes [] (existsP p ec) := by
  unfold existsP
  closes <;> exact closes_status ..

theorem closes_isDirectoryP (p : Path) (ec : EcArg) : Closes [] (isDirectoryP p ec) := by
  unfold isDirectoryP
  closes <;> exact closes_status ..

theorem closes_isSymlinkP (p : Path) (ec : EcArg) : Closes [] (isSymlinkP p ec) := by
  unfold isSymlinkP
  closes <;> exact closes_symlinkStatus ..

theorem closes_readSymlink (p : Path) (ec : EcArg) : Closes [] (readSymlink p ec) := by
  unfold readSymlink
  closes

theorem closes_currentPath (ec : EcArg) : Closes [] (currentPath ec) := by
  unfold currentPath
  closes

theorem closes_absolute (p : Path) (ec : EcArg) : Closes [] (absolute p ec) := by
  unfold absolute doAbsolute
  closes <;> exact closes_currentPath ..

theorem closes_equivalent (p q : Path) (ec : EcArg) : Closes [] (equivalent p q ec) := by
  unfold equivalent
  closes

theorem closes_fileSize (p : Path) (ec : EcArg) : Closes [] (fileSize p ec) := by
  unfold fileSize
  closes

theorem closes_hardLinkCount (p : Path) (ec : EcArg) : Closes [] (hardLinkCount p ec) := by
  unfold hardLinkCount
  closes

theorem closes_lastWriteTime (c : SysClock) (p : Path) (ec : EcArg) :
    Closes [] (lastWriteTime c p ec) := by
  unfold lastWriteTime
  closes

theorem closes_space (p : Path) (ec : EcArg) : Closes [] (space p ec) := by
  unfold space
  closes <;> exact closes_absolute ..

theorem closes_tempDirectoryPath (ec : EcArg) : Closes [] (tempDirectoryPath ec) := by
  unfold tempDirectoryPath
  closes <;> exact closes_status ..

theorem closes_updateBasic (b : Bool) (e : Entry) (ec : EcArg) : Closes [] (updateBasic b e ec) := by
  unfold updateBasic basicReparse basicOpen captureErrno
  closes <;> exact closes_isReparsePointSymlink ..

theorem closes_extraLink (c : SysClock) (p : Path) (h : Handler) (k : Cache) (ec : EcArg) :
    Closes [] (extraLink c p h k ec) := by
  unfold extraLink
  closes

theorem closes_updateExtra (c : SysClock) (e : Entry) (ec : EcArg) : Closes [] (updateExtra c e ec) := by
  unfold updateExtra
  closes <;> exact closes_extraLink ..

theorem closes_handlePerms (p : Path) (o : WinOpen) : Closes [] (handlePerms p o) := by
  unfold handlePerms
  closes

theorem closes_updatePerms (b : Bool) (e : Entry) (ec : EcArg) : Closes [] (updatePerms b e ec) := by
  unfold updatePerms
  closes <;> exact closes_handlePerms ..

theorem closes_handleError (m : Str) (e : Entry) (c : Code) (b : Bool) (ec : EcArg) :
    Closes [] (handleError m e c b ec) := by
  unfold handleError
  closes

theorem closes_refresh (c : SysClock) (e : Entry) (ec : EcArg) : Closes [] (refresh c e ec) := by
  unfold refresh refreshImpl
  closes <;> first
    | exact closes_updateBasic .. | exact closes_updateExtra .. | exact closes_updatePerms .. | exact closes_handleError ..

/-- The observers of `directory_entry`. -/
theorem closes_observers (c : SysClock) (e : Entry) (ec : EcArg) :
    Closes [] (getSymLinkFileType e ec) ∧ Closes [] (getFileType e ec) ∧
    Closes [] (getSize c e ec) ∧ Closes [] (getHardLinkCount c e ec) ∧
    Closes [] (getLastWriteTime c e ec) ∧ Closes [] (getStatus c e ec) ∧
    Closes [] (getSymLinkStatus c e ec) := by
  unfold getSymLinkFileType getFileType getSize getHardLinkCount getLastWriteTime getStatus getSymLinkStatus
  refine ⟨?_, ?_, ?_, ?_, ?_, ?_, ?_⟩ <;> closes <;> first
    | exact closes_updateBasic .. | exact closes_updateExtra .. | exact closes_updatePerms .. | exact closes_handleError ..

theorem closes_setEntry (s : Stream) (d : FindData) : Closes [] (setEntry s d) := by
  unfold setEntry
  closes

theorem closes_close (s : Stream) : Closes [] (Stream.close s) := by
  unfold Stream.close
  closes

theorem closes_advance : ∀ (n : Nat) (s : Stream), Closes [] (Stream.advance n s)
  | 0, s => .stop _
  | n + 1, s => by
    rw [Stream.advance]
    closes <;> first
      | exact closes_close .. | exact closes_setEntry .. | exact closes_advance n _

theorem closes_skipDots (d : Nat) : ∀ (n : Nat) (f : FindData), Closes [] (skipDots d n f)
  | 0, f => .stop _
  | n + 1, f => by
    rw [skipDots]
    closes <;> exact closes_skipDots d n _

theorem closes_new (n : Nat) (p : Path) (o : DirOptions) : Closes [] (Stream.new n p o) := by
  unfold Stream.new
  closes <;> first
    | exact closes_skipDots .. | exact closes_setEntry ..

theorem closes_destroy (it : DirIter) : Closes [] (destroy it) := by
  cases it
  · exact .ret _
  · exact (closes_close _).bind fun _ => .ret _

theorem closes_dirNew (n : Nat) (p : Path) (o : DirOptions) (ec : EcArg) :
    Closes [] (DirIter.new n p o ec) := by
  unfold DirIter.new
  closes <;> exact closes_new ..

theorem closes_dirIncr (n : Nat) (it : DirIter) (ec : EcArg) : Closes [] (DirIter.incr n it ec) := by
  unfold DirIter.incr
  closes <;> exact closes_advance ..

theorem closes_closeAll : ∀ ss : List Stream, Closes [] (closeAll ss)
  | [] => .ret _
  | s :: ss => by
    rw [closeAll]
    closes <;> first
      | exact closes_closeAll ss | exact closes_close ..

theorem closes_recNew (n : Nat) (p : Path) (o : DirOptions) (ec : EcArg) :
    Closes [] (RecIter.new n p o ec) := by
  unfold RecIter.new
  closes <;> first
    | exact closes_new .. | exact closes_destroy ..

theorem closes_advanceStack (n : Nat) : ∀ ss : List Stream, Closes [] (advanceStack n ss)
  | [] => .ret _
  | s :: ss => by
    rw [advanceStack]
    closes <;> first
      | exact closes_advance .. | exact closes_advanceStack n ss

theorem closes_recAdvance (n : Nat) (it : RecIter) (ec : EcArg) : Closes [] (RecIter.advance n it ec) := by
  unfold RecIter.advance
  closes <;> first
    | exact closes_advanceStack .. | exact closes_closeAll ..

theorem closes_tryRecursion (n : Nat) (it : RecIter) (ec : EcArg) :
    Closes [] (RecIter.tryRecursion n it ec) := by
  unfold RecIter.tryRecursion recursionType
  closes <;> first
    | exact closes_new .. | exact closes_closeAll .. | exact (closes_observers .msvc _ _).1 | exact (closes_observers .msvc _ _).2.1

theorem closes_recIncr (n : Nat) (it : RecIter) (ec : EcArg) : Closes [] (RecIter.incr n it ec) := by
  unfold RecIter.incr
  closes <;> first
    | exact closes_recAdvance .. | exact closes_tryRecursion ..

theorem closes_recPop (n : Nat) (it : RecIter) (ec : EcArg) : Closes [] (RecIter.pop n it ec) := by
  unfold RecIter.pop
  closes <;> first
    | exact closes_recAdvance .. | exact closes_close ..

theorem closes_isEmptyFile (n : Nat) (p : Path) (ec : EcArg) : Closes [] (isEmptyFile n p ec) := by
  unfold isEmptyFile isEmptyDirectory
  closes <;> first
    | exact closes_dirNew .. | exact closes_destroy ..

theorem closes_setCurrentPath (p : Path) (ec : EcArg) : Closes [] (setCurrentPath p ec) := by
  unfold setCurrentPath
  closes

theorem closes_createDirectory (p : Path) (ec : EcArg) : Closes [] (createDirectory p ec) := by
  unfold createDirectory
  closes

theorem closes_createDirectoryLike (p q : Path) (ec : EcArg) : Closes [] (createDirectoryLike p q ec) := by
  unfold createDirectoryLike
  closes

theorem closes_missingOf (el : Bool) : ∀ (n : Nat) (p : Path) (acc : List Path), Closes [] (missingOf el n p acc)
  | 0, p, acc => .stop _
  | n + 1, p, acc => by
    rw [missingOf]
    closes <;> exact closes_missingOf el n _ _

theorem closes_createTop (p : Path) (b : Bool) : Closes [] (createTop p b) := by
  unfold createTop
  closes <;> first
    | exact closes_status .. | exact closes_createDirectory .. | exact closes_isDirectoryP ..

theorem closes_createMissing : ∀ (ps : List Path) (b : Bool), Closes [] (createMissing ps b)
  | [], b => .ret _
  | p :: ps, b => by
    rw [createMissing]
    closes <;> first
      | exact closes_createTop .. | exact closes_createMissing ps _

theorem closes_createDirectories (el : Bool) (n : Nat) (p : Path) (ec : EcArg) : Closes [] (createDirectories el n p ec) := by
  unfold createDirectories
  closes <;> first
    | exact closes_missingOf .. | exact closes_createMissing ..

theorem closes_createSymlinkAs (fn : Str) (d : Bool) (a b : Path) (ec : EcArg) : Closes [] (createSymlinkAs fn d a b ec) := by
  unfold createSymlinkAs
  closes

theorem closes_createHardLink (a b : Path) (ec : EcArg) : Closes [] (createHardLink a b ec) := by
  unfold createHardLink
  closes

theorem closes_copySymlink (a b : Path) (ec : EcArg) : Closes [] (copySymlink a b ec) := by
  unfold copySymlink
  closes <;> first
    | exact closes_readSymlink .. | exact closes_isDirectoryP .. | exact closes_createSymlinkAs ..

theorem closes_setLastWriteTime (c : SysClock) (p : Path) (t : Int) (ec : EcArg) : Closes [] (setLastWriteTime c p t ec) := by
  unfold setLastWriteTime
  closes

theorem closes_putPerms (p : Path) (m : Perms) (ec : EcArg) : Closes [] (putPerms p m ec) := by
  unfold putPerms
  closes

theorem closes_permissions (p : Path) (m : Perms) (o : PermOptions) (ec : EcArg) : Closes [] (permissions p m o ec) := by
  unfold permissions
  closes <;> first
    | exact closes_putPerms .. | exact closes_status .. | exact closes_symlinkStatus ..

theorem closes_remove (p : Path) (ec : EcArg) : Closes [] (remove p ec) := by
  unfold remove
  closes

theorem closes_rename (a b : Path) (ec : EcArg) : Closes [] (rename a b ec) := by
  unfold rename captureErrno
  closes

theorem closes_resizeFile (p : Path) (n : BitVec 64) (ec : EcArg) : Closes [] (resizeFile p n ec) := by
  unfold resizeFile
  closes

theorem closes_copyFile (c : SysClock) (a b : Path) (o : CopyOptions) (ec : EcArg) : Closes [] (copyFile c a b o ec) := by
  unfold copyFile shouldCopy doCopy
  closes <;> first
    | exact closes_status .. | exact closes_equivalent .. | exact closes_lastWriteTime ..

theorem closes_removeLoop (rec : Path → Prog (BitVec 64 × Code)) (hr : ∀ p, Closes [] (rec p)) :
    ∀ (n : Nat) (it : DirIter) (k : BitVec 64), Closes [] (removeLoop rec n it k)
  | 0, it, k => .stop _
  | _ + 1, none, k => .ret _
  | n + 1, some s, k => by
    rw [removeLoop]
    closes <;> first
      | exact hr _ | exact closes_destroy .. | exact closes_dirIncr .. | exact closes_removeLoop rec hr n _ _

theorem closes_doRemoveAll : ∀ (n : Nat) (p : Path), Closes [] (doRemoveAll n p)
  | 0, p => .stop _
  | n + 1, p => by
    rw [doRemoveAll]
    closes <;> first
      | exact closes_symlinkStatus .. | exact closes_dirNew .. | exact closes_remove ..
      | exact closes_removeLoop _ (closes_doRemoveAll n) n _ _

theorem closes_removeAll (n : Nat) (p : Path) (ec : EcArg) : Closes [] (removeAll n p ec) := by
  unfold removeAll
  closes <;> exact closes_doRemoveAll ..

theorem closes_copyLoop (h : Handler) (rec : Path → Path → EcArg → Prog (Unit × EcArg))
    (hr : ∀ p q ec, Closes [] (rec p q ec)) (to : Path) :
    ∀ (n : Nat) (it : DirIter) (c : Code) (ec : EcArg), Closes [] (copyLoop h rec to n it c ec)
  | 0, it, c, ec => .stop _
  | _ + 1, none, c, ec => .ret _
  | n + 1, some s, c, ec => by
    rw [copyLoop]
    closes <;> first
      | exact (hr _ _ _).onThrow (closes_destroy _) | exact closes_destroy .. | exact closes_dirIncr ..
      | exact closes_copyLoop h rec hr to n _ _ _

theorem closes_copyDispatch (c : SysClock) (rec : Path → Path → EcArg → Prog (Unit × EcArg))
    (hr : ∀ p q ec, Closes [] (rec p q ec)) (n : Nat) (h : Handler) (a b : Path) (o : CopyOptions) (f t : FStatus) (ec : EcArg) :
    Closes [] (copyDispatch c rec n h a b o f t ec) := by
  unfold copyDispatch copyDir
  closes <;> first
    | exact closes_copySymlink .. | exact closes_createSymlinkAs .. | exact closes_createHardLink ..
    | exact closes_copyFile .. | exact closes_createDirectoryLike .. | exact closes_dirNew ..
    | exact closes_copyLoop h rec hr _ n _ _ _

theorem closes_copy (c : SysClock) : ∀ (n : Nat) (a b : Path) (o : CopyOptions) (ec : EcArg), Closes [] (copy c n a b o ec)
  | 0, a, b, o, ec => .stop _
  | n + 1, a, b, o, ec => by
    rw [copy]
    closes <;> first
      | exact closes_status .. | exact closes_symlinkStatus .. | exact closes_equivalent ..
      | exact closes_copyDispatch c _ (fun p q ec => closes_copy c n p q o ec) n _ _ _ _ _ _ _

end Win

theorem Closes.exec {p : Prog α} (h : Closes [] p) {t : List Event} {o : Except Stop α} (he : Exec p t o) : FilesClosed t o := by
  intro hs s hst
  obtain ⟨h1, h2⟩ := wp_sound (h.run hs (by simp)) he hst
  refine ⟨h1, ?_⟩
  rintro (⟨v, rfl⟩ | ⟨x, rfl⟩)
  · exact h2 trivial
  · exact h2 trivial

/-- **C75**: on Windows the functions that look at files close every file handle they open, exactly once, and use no
handle that is not open; whatever the system answers, also when they throw. -/
theorem c75_observers (c : SysClock) (p q : Path) (ec : EcArg) (t : List Event) :
    (∀ o, Exec (Win.status p ec) t o → FilesClosed t o) ∧ (∀ o, Exec (Win.symlinkStatus p ec) t o → FilesClosed t o) ∧
    (∀ o, Exec (Win.equivalent p q ec) t o → FilesClosed t o) ∧ (∀ o, Exec (Win.fileSize p ec) t o → FilesClosed t o) ∧
    (∀ o, Exec (Win.hardLinkCount p ec) t o → FilesClosed t o) ∧ (∀ o, Exec (Win.lastWriteTime c p ec) t o → FilesClosed t o) ∧
    (∀ o, Exec (Win.readSymlink p ec) t o → FilesClosed t o) ∧ (∀ o, Exec (Win.tempDirectoryPath ec) t o → FilesClosed t o) ∧
    (∀ n o, Exec (Win.isEmptyFile n p ec) t o → FilesClosed t o) :=
  ⟨fun _ h => (Win.closes_status p ec).exec h, fun _ h => (Win.closes_symlinkStatus p ec).exec h,
   fun _ h => (Win.closes_equivalent p q ec).exec h, fun _ h => (Win.closes_fileSize p ec).exec h,
   fun _ h => (Win.closes_hardLinkCount p ec).exec h, fun _ h => (Win.closes_lastWriteTime c p ec).exec h,
   fun _ h => (Win.closes_readSymlink p ec).exec h, fun _ h => (Win.closes_tempDirectoryPath ec).exec h,
   fun n _ h => (Win.closes_isEmptyFile n p ec).exec h⟩

/-- **C75** for the functions that change files. -/
theorem c75_modifiers (c : SysClock) (el : Bool) (n : Nat) (p q : Path) (ec : EcArg) (t : List Event) :
    (∀ x o, Exec (Win.setLastWriteTime c p x ec) t o → FilesClosed t o) ∧
    (∀ x o, Exec (Win.resizeFile p x ec) t o → FilesClosed t o) ∧
    (∀ m x o, Exec (Win.permissions p m x ec) t o → FilesClosed t o) ∧
    (∀ o, Exec (Win.remove p ec) t o → FilesClosed t o) ∧ (∀ o, Exec (Win.rename p q ec) t o → FilesClosed t o) ∧
    (∀ o, Exec (Win.removeAll n p ec) t o → FilesClosed t o) ∧
    (∀ o, Exec (Win.createDirectories el n p ec) t o → FilesClosed t o) ∧
    (∀ o, Exec (Win.copySymlink p q ec) t o → FilesClosed t o) ∧
    (∀ x o, Exec (Win.copyFile c p q x ec) t o → FilesClosed t o) ∧
    (∀ x o, Exec (Win.copy c n p q x ec) t o → FilesClosed t o) :=
  ⟨fun x _ h => (Win.closes_setLastWriteTime c p x ec).exec h, fun x _ h => (Win.closes_resizeFile p x ec).exec h,
   fun m x _ h => (Win.closes_permissions p m x ec).exec h, fun _ h => (Win.closes_remove p ec).exec h,
   fun _ h => (Win.closes_rename p q ec).exec h, fun _ h => (Win.closes_removeAll n p ec).exec h,
   fun _ h => (Win.closes_createDirectories el n p ec).exec h, fun _ h => (Win.closes_copySymlink p q ec).exec h,
   fun x _ h => (Win.closes_copyFile c p q x ec).exec h, fun x _ h => (Win.closes_copy c n p q x ec).exec h⟩

/-- **C75** for `directory_entry` and the iterators. -/
theorem c75_entry (c : SysClock) (e : Entry) (n : Nat) (p : Path) (opts : DirOptions) (it : DirIter) (rit : RecIter) (ec : EcArg)
    (t : List Event) :
    (∀ o, Exec (Win.refresh c e ec) t o → FilesClosed t o) ∧ (∀ o, Exec (Win.getFileType e ec) t o → FilesClosed t o) ∧
    (∀ o, Exec (Win.getSize c e ec) t o → FilesClosed t o) ∧ (∀ o, Exec (Win.getHardLinkCount c e ec) t o → FilesClosed t o) ∧
    (∀ o, Exec (Win.getLastWriteTime c e ec) t o → FilesClosed t o) ∧ (∀ o, Exec (Win.getStatus c e ec) t o → FilesClosed t o) ∧
    (∀ o, Exec (Win.getSymLinkStatus c e ec) t o → FilesClosed t o) ∧
    (∀ o, Exec (Win.DirIter.new n p opts ec) t o → FilesClosed t o) ∧ (∀ o, Exec (Win.DirIter.incr n it ec) t o → FilesClosed t o) ∧
    (∀ o, Exec (Win.RecIter.new n p opts ec) t o → FilesClosed t o) ∧ (∀ o, Exec (Win.RecIter.incr n rit ec) t o → FilesClosed t o) ∧
    (∀ o, Exec (Win.RecIter.pop n rit ec) t o → FilesClosed t o) :=
  have h := Win.closes_observers c e ec
  ⟨fun _ x => (Win.closes_refresh c e ec).exec x, fun _ x => h.2.1.exec x, fun _ x => h.2.2.1.exec x,
   fun _ x => h.2.2.2.1.exec x, fun _ x => h.2.2.2.2.1.exec x, fun _ x => h.2.2.2.2.2.1.exec x,
   fun _ x => h.2.2.2.2.2.2.exec x, fun _ x => (Win.closes_dirNew n p opts ec).exec x,
   fun _ x => (Win.closes_dirIncr n it ec).exec x, fun _ x => (Win.closes_recNew n p opts ec).exec x,
   fun _ x => (Win.closes_recIncr n rit ec).exec x, fun _ x => (Win.closes_recPop n rit ec).exec x⟩

/-- The claim says something: a run that leaves a handle open, closes one twice or uses one after closing it is
excluded, and a run that opens and closes two is not. -/
example :
    ¬ FilesClosed [⟨.win (.createFile ['f'] Win.follow), (.ok 4 : Except Errno Nat)⟩] (.ok () : Except Stop Unit) ∧
    ¬ FilesClosed [⟨.win (.createFile ['f'] Win.follow), (.ok 4 : Except Errno Nat)⟩,
      ⟨.win (.closeHandle 4), (.ok () : Except Errno Unit)⟩,
      ⟨.win (.closeHandle 4), (.ok () : Except Errno Unit)⟩] (.ok () : Except Stop Unit) ∧
    ¬ FilesClosed [⟨.win (.createFile ['f'] Win.follow), (.ok 4 : Except Errno Nat)⟩,
      ⟨.win (.closeHandle 4), (.ok () : Except Errno Unit)⟩,
      ⟨.win (.getFileTime 4), (.error .EPERM : Except Errno FileTime)⟩] (.ok () : Except Stop Unit) := by
  refine ⟨fun h => ?_, fun h => ?_, fun h => ?_⟩
  · have := (h [] _ (.cons ⟨rfl, (by decide : (4:Nat) ∉ ([] : List Nat))⟩ (.nil _))).2 (.inl ⟨(), rfl⟩)
    simp [useFile] at this
  · have := (h [] _ (.cons ⟨rfl, (by decide : (4:Nat) ∉ ([] : List Nat))⟩ (.cons ⟨rfl, trivial⟩ (.cons ⟨rfl, trivial⟩ (.nil _))))).1
    simp [useFile] at this
  · have := (h [] _ (.cons ⟨rfl, (by decide : (4:Nat) ∉ ([] : List Nat))⟩ (.cons ⟨rfl, trivial⟩ (.cons ⟨rfl, trivial⟩ (.nil _))))).1
    simp [useFile, fileUses] at this

end Asap
