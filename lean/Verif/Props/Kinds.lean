import Verif.Props.OpsA
import Verif.Props.EntryA
import Verif.Props.CopyA

/-!
# C113: which changes an operation can make at all
-/

namespace Asap
namespace Spec

/-- The calls changing something that an operation may make: none for those that look. -/
def FsOp.changes {α : Type} : FsOp α → Sys → Bool
  | .copy .., .mkdir .. | .copy .., .symlink .. | .copy .., .link .. | .copy .., .openf .. | .copy .., .fchmod .. | .copy .., .ftruncate ..
  | .copy .., .sendfile .. | .copy .., .write .. => true
  | .copyFile _ _ _ b _, .openf s _ _ => s == b.pathname
  | .copyFile .., .fchmod .. | .copyFile .., .ftruncate .. | .copyFile .., .sendfile .. | .copyFile .., .write .. => true
  | .copySymlink _ b, .symlink _ s => s == b.pathname
  | .createDirectory p, .mkdir s _ | .createDirectoryLike p _, .mkdir s _ => s == p.pathname
  | .createDirectories .., .mkdir .. => true
  | .createSymlink a b, .symlink x y | .createDirectorySymlink a b, .symlink x y => x == a.pathname && y == b.pathname
  | .createHardLink a b, .link x y => x == a.pathname && y == b.pathname
  | .setCurrentPath p, .chdir s => s == p.pathname
  | .setLastWriteTime p _, .utimensat s _ _ => s == p.pathname
  | .permissions p _ _, .fchmodat s _ _ => s == p.pathname
  | .remove p, .remove s => s == p.pathname
  | .removeAll .., .remove _ => true
  | .rename a b, .rename x y => x == a.pathname && y == b.pathname
  | .resizeFile p k, .truncate s l => s == p.pathname && l == k
  | _, _ => false

end Spec
open Spec

section
variable {α β : Type} {S : Sys → Prop} {p q : Path} {ec : EcArg}

/-- The program makes only calls in `S`. -/
def Calls (S : Sys → Prop) (x : Prog α) : Prop := Only S (fun _ => True) x

theorem Calls.ret (a : α) : Calls S (.ret a) := Only.ret a trivial
theorem Calls.stop (x : Stop) : Calls S (.stop x : Prog α) := Only.stop x
theorem Calls.call {c : Sys} {k : c.Ret → Prog α} (hc : S c) (h : ∀ r, Calls S (k r)) : Calls S (.call c k) := Only.call c k hc h
theorem Calls.bind {x : Prog α} {f : α → Prog β} (h : Calls S x) (hf : ∀ a, Calls S (f a)) : Calls S (x.bind f) := Only.bind h fun a _ => hf a
theorem Calls.finally' {x : Prog α} {d : Prog Unit} (h : Calls S x) (hd : Calls S d) : Calls S (x.finally' d) := Only.finally' h hd
theorem Calls.onThrow {x : Prog α} {d : Prog Unit} (h : Calls S x) (hd : Calls S d) : Calls S (x.onThrow d) := by
  unfold Calls at *
  induction h with
  | ret a h => exact .ret a h
  | stop x =>
    cases x with
    | thrown e => exact Only.bind hd fun _ _ => .stop _
    | fault f => exact .stop _
    | fuel => exact .stop _
  | call c k hc _ ih => exact .call c _ hc ih
theorem Calls.report (h : Handler) (ec : EcArg) (c : Code) (d : α) : Calls S (h.report ec c d) := by
  cases ec
  · exact .stop _
  · exact .ret _
theorem Calls.reportMsg (h : Handler) (ec : EcArg) (c : Code) (m : Str) (d : α) : Calls S (h.reportMsg ec c m d) := by
  cases ec
  · exact .stop _
  · exact .ret _
theorem Calls.ofRes (r : Res α) : Calls S (Prog.ofRes r) := by
  cases r
  · exact .stop _
  · exact .ret _
theorem Calls.useStat (st : Option Stat) : Calls S (Prog.useStat st) := by
  cases st
  · exact .stop _
  · exact .ret _

/-- The calls that change nothing are in `S`. -/
abbrev Eyes (S : Sys → Prop) : Prop := ∀ c : Sys, c.mutates = false → S c

/-- Splits a program into the programs it calls; `hS : Eyes S`. -/
macro "calls" : tactic => `(tactic| repeat' first
  | with_reducible exact Calls.ret _
  | with_reducible exact Calls.stop _
  | with_reducible exact Calls.report _ _ _ _
  | with_reducible exact Calls.reportMsg _ _ _ _ _
  | with_reducible exact Calls.ofRes _
  | with_reducible exact Calls.useStat _
  | (with_reducible refine Calls.call ?_ (fun r => ?_))
  | with_reducible refine Calls.bind ?_ (fun a => ?_)
  | with_reducible refine Calls.finally' ?_ ?_
  | with_reducible refine Calls.onThrow ?_ ?_
  | assumption
  | (apply_assumption; rfl)
  | split
  | dsimp only
  | simp only [Prog.bind_eq])

theorem calls_createFileStatus {m : Code} {st : Option Stat} : Calls S (createFileStatus m p st ec) := by
  unfold createFileStatus
  calls

theorem calls_getFileStatus (hS : Eyes S) {st : Option Stat} : Calls S (getFileStatus p st ec) := by
  refine .call (hS _ rfl) fun r => ?_
  cases r <;> exact calls_createFileStatus.bind fun _ => .ret _

theorem calls_getLinkStatus (hS : Eyes S) {st : Option Stat} : Calls S (getLinkStatus p st ec) := by
  refine .call (hS _ rfl) fun r => ?_
  cases r <;> exact calls_createFileStatus.bind fun _ => .ret _

theorem calls_status (hS : Eyes S) : Calls S (status p ec) := (calls_getFileStatus hS).bind fun _ => .ret _
theorem calls_symlinkStatus (hS : Eyes S) : Calls S (symlinkStatus p ec) := (calls_getLinkStatus hS).bind fun _ => .ret _
theorem calls_existsP (hS : Eyes S) : Calls S (existsP p ec) := (calls_status hS).bind fun _ => .ret _
theorem calls_isTypeP (hS : Eyes S) {f : FStatus → Bool} : Calls S (isTypeP f p ec) := (calls_status hS).bind fun _ => .ret _

theorem calls_currentPath (hS : Eyes S) : Calls S (currentPath ec) := by
  unfold currentPath
  calls

theorem calls_doAbsolute (hS : Eyes S) : Calls S (doAbsolute p ec) := by
  have := @calls_currentPath S
  unfold doAbsolute
  calls
  all_goals exact calls_currentPath hS

theorem calls_canonical (hS : Eyes S) : Calls S (canonical p ec) := by
  unfold canonical
  calls
  all_goals exact calls_doAbsolute hS

theorem calls_existingPrefix (hS : Eyes S) : ∀ (xs : List Path) (r : Path), Calls S (existingPrefix xs r)
  | [], r => .ret _
  | x :: xs, r => by
    unfold existingPrefix
    calls
    · exact calls_status hS
    · exact calls_existingPrefix hS xs _

theorem calls_weaklyCanonical (hS : Eyes S) {el : Bool} : Calls S (weaklyCanonical el p ec) := by
  unfold weaklyCanonical
  calls
  all_goals first
    | exact calls_canonical hS
    | exact calls_status hS
    | exact calls_existingPrefix hS _ _

theorem calls_proximate (hS : Eyes S) {el : Bool} : Calls S (proximate el p q ec) := by
  cases ec with
  | null => show Calls S (viaCanonicalThrow el (lexicallyProximate .posix) p q); unfold viaCanonicalThrow; calls; all_goals exact calls_weaklyCanonical hS
  | ref c => show Calls S (viaCanonicalEc el (lexicallyProximate .posix) p q c); unfold viaCanonicalEc; calls; all_goals exact calls_weaklyCanonical hS

theorem calls_relative (hS : Eyes S) {el : Bool} : Calls S (relative el p q ec) := by
  cases ec with
  | null => show Calls S (viaCanonicalThrow el (lexicallyRelative .posix) p q); unfold viaCanonicalThrow; calls; all_goals exact calls_weaklyCanonical hS
  | ref c => show Calls S (viaCanonicalEc el (lexicallyRelative .posix) p q c); unfold viaCanonicalEc; calls; all_goals exact calls_weaklyCanonical hS

theorem calls_createDirectory (hm : ∀ m, S (.mkdir p.pathname m)) : Calls S (createDirectory p ec) := by
  unfold createDirectory
  calls
  exact hm _

theorem calls_createDirectoryLike (hS : Eyes S) (hm : ∀ m, S (.mkdir p.pathname m)) : Calls S (createDirectoryLike p q ec) := by
  unfold createDirectoryLike
  calls
  all_goals first
    | exact calls_getFileStatus hS
    | exact hm _

theorem calls_missingOf {el : Bool} : ∀ (n : Nat) (p : Path) (acc : List Path), Calls S (missingOf el n p acc)
  | 0, _, _ => .stop _
  | n + 1, p, acc => by
    unfold missingOf
    calls
    all_goals exact calls_missingOf n _ _

theorem calls_createMissing (hS : Eyes S) (hm : ∀ p m, S (.mkdir p m)) : ∀ (l : List Path) (b : Bool), Calls S (createMissing l b)
  | [], _ => .ret _
  | x :: l, b => by
    unfold createMissing
    calls
    all_goals first
      | exact calls_status hS
      | exact calls_createDirectory (hm _)
      | exact calls_isTypeP hS
      | exact calls_createMissing hS hm l _

theorem calls_createDirectories (hS : Eyes S) (hm : ∀ p m, S (.mkdir p m)) {el : Bool} {n : Nat} : Calls S (createDirectories el n p ec) := by
  unfold createDirectories
  calls
  all_goals first
    | exact calls_missingOf n p []
    | exact calls_createMissing hS hm _ _

theorem calls_createSymlinkAs {fn : Str} (hm : S (.symlink p.pathname q.pathname)) : Calls S (createSymlinkAs fn p q ec) := by
  unfold createSymlinkAs
  calls

theorem calls_createHardLink (hm : S (.link p.pathname q.pathname)) : Calls S (createHardLink p q ec) := by
  unfold createHardLink
  calls

theorem calls_readSymlink (hS : Eyes S) : Calls S (readSymlink p ec) := by
  unfold readSymlink
  calls

theorem calls_copySymlink (hS : Eyes S) (hm : ∀ x, S (.symlink x q.pathname)) : Calls S (copySymlink p q ec) := by
  unfold copySymlink
  calls
  · exact calls_readSymlink hS
  · exact calls_createSymlinkAs (hm _)

theorem calls_equivalent (hS : Eyes S) : Calls S (equivalent p q ec) := by
  unfold equivalent
  calls
  all_goals exact calls_getFileStatus hS

theorem calls_fileSize (hS : Eyes S) : Calls S (fileSize p ec) := by
  unfold fileSize
  calls
  all_goals exact calls_getFileStatus hS

theorem calls_hardLinkCount (hS : Eyes S) : Calls S (hardLinkCount p ec) := by
  unfold hardLinkCount
  calls
  all_goals exact calls_getFileStatus hS

theorem calls_extract {st : Stat} : Calls S (extractLastWriteTime p st ec) := by
  unfold extractLastWriteTime
  calls

theorem calls_lastWriteTime (hS : Eyes S) : Calls S (lastWriteTime p ec) := by
  unfold lastWriteTime
  calls
  · exact calls_getFileStatus hS
  · exact calls_extract

theorem calls_permissions (hS : Eyes S) (hm : ∀ m b, S (.fchmodat p.pathname m b)) {m : Perms} {o : PermOptions} :
    Calls S (permissions p m o ec) := by
  unfold permissions chmodAt permStatus
  calls
  all_goals first
    | exact calls_status hS
    | exact calls_symlinkStatus hS
    | exact hm _ _

theorem calls_remove (hm : S (.remove p.pathname)) : Calls S (remove p ec) := by
  unfold remove
  calls

theorem calls_firstEnv (hS : Eyes S) : ∀ l, Calls S (firstEnv l)
  | [] => .ret _
  | v :: l => by
    refine .call (hS _ rfl) fun r => ?_
    cases r with
    | some s => exact .ret _
    | none => exact calls_firstEnv hS l

theorem calls_temp (hS : Eyes S) : Calls S (tempDirectoryPath ec) := by
  unfold tempDirectoryPath
  calls
  · exact calls_firstEnv hS _
  · exact calls_status hS

/-! ## Copying -/

/-- The calls of `copy_file` on its descriptors. -/
structure Pens (S : Sys → Prop) (s : Str) : Prop where
  make : ∀ f m, S (.openf s f m)
  mode : ∀ d m, S (.fchmod d m)
  cut : ∀ d n, S (.ftruncate d n)
  send : ∀ a b n, S (.sendfile a b n)
  write : ∀ d b, S (.write d b)

theorem calls_sendLoop {s : Str} (hm : Pens S s) {out inp : Nat} : ∀ (n : Nat) (c : Int), Calls S (sendLoop out inp n c)
  | 0, _ => .stop _
  | n + 1, c => by
    unfold sendLoop
    calls
    · exact hm.send _ _ _
    · exact calls_sendLoop hm n _

theorem calls_copyDefault (hS : Eyes S) {s : Str} (hm : Pens S s) {out inp : Nat} : ∀ (n : Nat), Calls S (copyDefault inp out n)
  | 0 => .stop _
  | n + 1 => by
    unfold copyDefault
    calls
    · exact hm.write _ _
    · exact calls_copyDefault hS hm n

theorem calls_refreshStatus (hS : Eyes S) : Calls S (refreshStatus p) := by
  refine .call (hS _ rfl) fun r => ?_
  cases r <;> exact calls_createFileStatus.bind fun _ => .ret _

theorem calls_closeFd (hS : Eyes S) {d : Nat} : Calls S (closeFd d) := by
  unfold closeFd
  calls

theorem calls_copyInto (hS : Eyes S) (hm : Pens S p.pathname) {sf : Bool} {n : Nat} {h : Handler} {inp : Nat} {fst : Stat} {tst : Option Stat} :
    Calls S (copyInto sf n h inp fst p tst ec) := by
  unfold copyInto doCopyFile copySendfile
  calls
  all_goals first
    | exact calls_refreshStatus hS
    | exact calls_closeFd hS
    | exact calls_copyDefault hS hm n
    | exact calls_sendLoop hm n _
    | exact hm.make _ _
    | exact hm.mode _ _
    | exact hm.cut _ _

theorem calls_copyFile (hS : Eyes S) (hm : Pens S q.pathname) {sf : Bool} {n : Nat} {opts : CopyOptions} : Calls S (copyFile sf n p q opts ec) := by
  unfold copyFile copyOpened
  calls
  all_goals first
    | exact hS _ rfl
    | exact calls_refreshStatus hS
    | exact calls_getFileStatus hS
    | exact calls_closeFd hS
    | exact calls_copyInto hS hm

/-! ## Iterators and entries -/

theorem calls_close (hS : Eyes S) {s : Stream} : Calls S s.close := by
  unfold Stream.close
  calls

theorem calls_destroy (hS : Eyes S) {it : DirIter} : Calls S it.destroy := by
  cases it with
  | none => exact .ret _
  | some s => exact (calls_close hS).bind fun _ => .ret _

theorem calls_streamAdvance (hS : Eyes S) : ∀ (n : Nat) (s : Stream), Calls S (s.advance n)
  | 0, _ => .stop _
  | n + 1, s => by
    unfold Stream.advance
    calls
    all_goals first
      | exact calls_close hS
      | exact calls_streamAdvance hS n s

theorem calls_streamNew (hS : Eyes S) {n : Nat} {opts : DirOptions} : Calls S (Stream.new n p opts) := by
  unfold Stream.new
  calls
  exact calls_streamAdvance hS n _

theorem calls_dirNew (hS : Eyes S) {n : Nat} {opts : DirOptions} : Calls S (DirIter.new n p opts ec) := by
  unfold DirIter.new
  calls
  exact calls_streamNew hS

theorem calls_dirIncr (hS : Eyes S) {n : Nat} {it : DirIter} : Calls S (DirIter.incr n it ec) := by
  unfold DirIter.incr
  calls
  exact calls_streamAdvance hS n _

theorem calls_closeAll (hS : Eyes S) : ∀ (ss : List Stream), Calls S (closeAll ss)
  | [] => .ret _
  | _ :: ss => (calls_closeAll hS ss).bind fun _ => (calls_close hS).bind fun _ => .ret _

theorem calls_recNew (hS : Eyes S) {n : Nat} {opts : DirOptions} : Calls S (RecIter.new n p opts ec) := by
  unfold RecIter.new
  calls
  · exact calls_streamNew hS
  · exact calls_destroy hS

theorem calls_advanceStack (hS : Eyes S) {n : Nat} : ∀ (ss : List Stream), Calls S (advanceStack n ss)
  | [] => .ret _
  | s :: ss => by
    unfold advanceStack
    calls
    · exact calls_streamAdvance hS n s
    · exact calls_advanceStack hS ss

theorem calls_recAdvance (hS : Eyes S) {n : Nat} {it : RecIter} : Calls S (RecIter.advance n it ec) := by
  unfold RecIter.advance
  calls
  all_goals first
    | exact calls_advanceStack hS _
    | exact calls_closeAll hS _

theorem calls_updateBasic (hS : Eyes S) {b : Bool} {e : Entry} : Calls S (updateBasic b e ec) := by
  unfold updateBasic
  calls
  all_goals first
    | exact calls_getFileStatus hS
    | exact calls_extract

theorem calls_handleError {m : Str} {e : Entry} {c : Code} {b : Bool} : Calls S (handleError m e c b ec) := by
  cases ec <;> unfold handleError <;> calls

theorem calls_updateExtra (hS : Eyes S) {b : Bool} {e : Entry} : Calls S (updateExtra b e ec) := by
  unfold updateExtra
  calls
  all_goals exact calls_updateBasic hS

theorem calls_updatePerms (hS : Eyes S) {b : Bool} {e : Entry} : Calls S (updatePerms b e ec) := by
  unfold updatePerms
  calls
  all_goals exact calls_updateBasic hS

theorem calls_refresh (hS : Eyes S) {e : Entry} : Calls S (refresh e ec) := by
  unfold refresh
  calls
  · exact calls_updateBasic hS
  · exact calls_handleError

theorem calls_getSymLinkFileType (hS : Eyes S) {e : Entry} : Calls S (getSymLinkFileType e ec) := by
  unfold getSymLinkFileType
  calls
  all_goals first
    | exact calls_updateBasic hS
    | exact calls_handleError

theorem calls_getFileType (hS : Eyes S) {e : Entry} : Calls S (getFileType e ec) := by
  unfold getFileType
  calls
  all_goals first
    | exact calls_updateBasic hS
    | exact calls_handleError

theorem calls_ask (hS : Eyes S) (a : Ask) {e : Entry} : Calls S (a.entry e ec) := by
  cases a <;> unfold Ask.entry
  · unfold Entry.existsE; calls; exact calls_getFileType hS
  · unfold Entry.isType; calls; exact calls_getFileType hS
  · unfold Entry.isSymlinkE; calls; exact calls_getSymLinkFileType hS
  · unfold getSize; calls; all_goals first | exact calls_updateBasic hS | exact calls_updateExtra hS
  · unfold getHardLinkCount; calls; all_goals first | exact calls_updateBasic hS | exact calls_updateExtra hS
  · unfold getLastWriteTime; calls; all_goals first | exact calls_updateBasic hS | exact calls_updateExtra hS
  · unfold getStatus; calls; all_goals first | exact calls_updateBasic hS | exact calls_updateExtra hS | exact calls_updatePerms hS
  · unfold getSymLinkStatus; calls; all_goals first | exact calls_updateBasic hS | exact calls_updateExtra hS | exact calls_updatePerms hS

theorem calls_try (hS : Eyes S) {n : Nat} {it : RecIter} : Calls S (RecIter.tryRecursion n it ec) := by
  unfold RecIter.tryRecursion
  calls
  all_goals first
    | exact calls_getSymLinkFileType hS
    | exact calls_getFileType hS
    | exact calls_streamNew hS
    | exact calls_closeAll hS _

theorem calls_recIncr (hS : Eyes S) {n : Nat} {it : RecIter} : Calls S (RecIter.incr n it ec) := by
  unfold RecIter.incr
  calls
  all_goals first
    | exact calls_try hS
    | exact calls_recAdvance hS

theorem calls_recPop (hS : Eyes S) {n : Nat} {it : RecIter} : Calls S (RecIter.pop n it ec) := by
  unfold RecIter.pop
  calls
  all_goals first
    | exact calls_close hS
    | exact calls_recAdvance hS

/-! ## Walking operations -/

theorem calls_isEmpty (hS : Eyes S) {n : Nat} : Calls S (isEmptyFile n p ec) := by
  unfold isEmptyFile isEmptyDirectory
  calls
  all_goals first
    | exact calls_getFileStatus hS
    | exact calls_dirNew hS
    | exact calls_destroy hS

theorem calls_removeLoop (hS : Eyes S) {rec : Path → Prog (BitVec 64 × Code)} (hrec : ∀ p, Calls S (rec p)) :
    ∀ (n : Nat) (it : DirIter) (c : BitVec 64), Calls S (removeLoop rec n it c)
  | 0, _, _ => .stop _
  | n + 1, none, c => .ret _
  | n + 1, some s, c => by
    unfold removeLoop
    calls
    all_goals first
      | exact hrec _
      | exact calls_destroy hS
      | exact calls_dirIncr hS
      | exact calls_removeLoop hS hrec n _ _

theorem calls_doRemoveAll (hS : Eyes S) (hm : ∀ s, S (.remove s)) : ∀ (n : Nat) (p : Path), Calls S (doRemoveAll n p)
  | 0, _ => .stop _
  | n + 1, p => by
    unfold doRemoveAll
    calls
    all_goals first
      | exact calls_symlinkStatus hS
      | exact calls_dirNew hS
      | exact calls_removeLoop hS (calls_doRemoveAll hS hm n) n _ _
      | exact calls_remove (hm _)

theorem calls_removeAll (hS : Eyes S) (hm : ∀ s, S (.remove s)) {n : Nat} : Calls S (removeAll n p ec) := by
  unfold removeAll
  calls
  exact calls_doRemoveAll hS hm n p

theorem calls_copyLoop (hS : Eyes S) {h : Handler} {rec : Path → Path → EcArg → Prog (Unit × EcArg)} (hrec : ∀ a b ec, Calls S (rec a b ec)) {to : Path} :
    ∀ (n : Nat) (it : DirIter) (m : Code) (ec : EcArg), Calls S (copyLoop h rec to n it m ec)
  | 0, _, _, _ => .stop _
  | n + 1, none, _, _ => .ret _
  | n + 1, some s, m, ec => by
    unfold copyLoop
    calls
    all_goals first
      | exact calls_destroy hS
      | exact hrec _ _ _
      | exact calls_dirIncr hS
      | exact calls_copyLoop hS hrec n _ _ _

theorem calls_copyDispatch (hS : Eyes S) (hm : ∀ s, Pens S s) (h1 : ∀ s m, S (.mkdir s m)) (h2 : ∀ a b, S (.symlink a b)) (h3 : ∀ a b, S (.link a b))
    {rec : Path → Path → EcArg → Prog (Unit × EcArg)} (hrec : ∀ a b ec, Calls S (rec a b ec)) {sf : Bool} {n : Nat} {h : Handler} {opts : CopyOptions}
    {f t : FStatus} : Calls S (copyDispatch rec sf n h p q opts f t ec) := by
  have hd : Calls S (copyDir rec n h p q t ec) := by
    unfold copyDir
    calls
    all_goals first
      | exact calls_createDirectoryLike hS (h1 _)
      | exact calls_dirNew hS
      | exact calls_copyLoop hS hrec n _ _ _
  unfold copyDispatch
  calls
  all_goals first
    | exact calls_copySymlink hS fun _ => h2 _ _
    | exact calls_createSymlinkAs (h2 _ _)
    | exact calls_createHardLink (h3 _ _)
    | exact calls_copyFile hS (hm _)

theorem calls_copy (hS : Eyes S) (hm : ∀ s, Pens S s) (h1 : ∀ s m, S (.mkdir s m)) (h2 : ∀ a b, S (.symlink a b)) (h3 : ∀ a b, S (.link a b)) {sf : Bool} :
    ∀ (n : Nat) (p q : Path) (opts : CopyOptions) (ec : EcArg), Calls S (copy sf n p q opts ec)
  | 0, _, _, _, _ => .stop _
  | n + 1, p, q, opts, ec => by
    have hr := fun a b ec => calls_copy hS hm h1 h2 h3 (sf := sf) n a b opts ec
    have he : ∀ (b : Bool) p st ec, Calls S ((if b then getLinkStatus else getFileStatus) p st ec) := by
      intro b p st ec
      cases b
      · exact calls_getFileStatus hS
      · exact calls_getLinkStatus hS
    unfold copy
    simp only [Prog.bind_eq]
    refine (he _ _ _ _).bind ?_
    rintro ⟨⟨f, fst⟩, m⟩
    dsimp only
    split
    · exact .report ..
    refine (he _ _ _ _).bind ?_
    rintro ⟨⟨t, tst⟩, m⟩
    dsimp only
    split
    · exact .report ..
    refine (Calls.useStat _).bind fun _ => (Calls.useStat _).bind fun _ => ?_
    split
    · exact .report ..
    · exact calls_copyDispatch hS hm h1 h2 h3 hr

/-! ## The theorems -/

/-- A call that changes nothing, or one of those the operation may make. -/
def Within {α : Type} (op : FsOp α) (c : Sys) : Prop := c.mutates = true → Spec.FsOp.changes op c = true

theorem eyes {op : FsOp α} : Eyes (Within op) := fun c h h' => by rw [h] at h'; cases h'

theorem calls_op (op : FsOp α) (ec : EcArg) : Calls (Within op) (op.prog ec) := by
  cases op with
  | absolute p => exact (calls_doAbsolute eyes).bind fun _ => .ret _
  | canonical p => exact calls_canonical eyes
  | weaklyCanonical el p => exact calls_weaklyCanonical eyes
  | proximate el p b => exact calls_proximate eyes
  | relative el p b => exact calls_relative eyes
  | proximateCwd el p => exact (calls_currentPath eyes).bind fun _ => calls_proximate eyes
  | relativeCwd el p => exact (calls_currentPath eyes).bind fun _ => calls_relative eyes
  | copy sf n a b o =>
    exact calls_copy eyes (fun s => ⟨fun _ _ _ => rfl, fun _ _ _ => rfl, fun _ _ _ => rfl, fun _ _ _ _ => rfl, fun _ _ _ => rfl⟩)
      (fun _ _ _ => rfl) (fun _ _ _ => rfl) (fun _ _ _ => rfl) n a b o ec
  | copyFile sf n a b o =>
    exact calls_copyFile eyes ⟨fun _ _ _ => by simp [Spec.FsOp.changes], fun _ _ _ => rfl, fun _ _ _ => rfl, fun _ _ _ _ => rfl, fun _ _ _ => rfl⟩
  | copySymlink a b => exact calls_copySymlink eyes fun _ _ => by simp [Spec.FsOp.changes]
  | createDirectory p => exact calls_createDirectory fun _ _ => by simp [Spec.FsOp.changes]
  | createDirectoryLike p q => exact calls_createDirectoryLike eyes fun _ _ => by simp [Spec.FsOp.changes]
  | createDirectories el n p => exact calls_createDirectories eyes fun _ _ _ => rfl
  | createSymlink a b => exact calls_createSymlinkAs fun _ => by simp [Spec.FsOp.changes]
  | createDirectorySymlink a b => exact calls_createSymlinkAs fun _ => by simp [Spec.FsOp.changes]
  | createHardLink a b => exact calls_createHardLink fun _ => by simp [Spec.FsOp.changes]
  | currentPath => exact calls_currentPath eyes
  | setCurrentPath p =>
    simp only [FsOp.prog, Asap.setCurrentPath]
    calls
    exact fun _ => by simp [Spec.FsOp.changes]
  | equivalent p q => exact calls_equivalent eyes
  | exists' p => exact calls_existsP eyes
  | fileSize p => exact calls_fileSize eyes
  | hardLinkCount p => exact calls_hardLinkCount eyes
  | isEmpty n p => exact calls_isEmpty eyes
  | lastWriteTime p => exact calls_lastWriteTime eyes
  | setLastWriteTime p t =>
    simp only [FsOp.prog, Asap.setLastWriteTime]
    calls
    exact fun _ => by simp [Spec.FsOp.changes]
  | permissions p m o => exact calls_permissions eyes fun _ _ _ => by simp [Spec.FsOp.changes]
  | readSymlink p => exact calls_readSymlink eyes
  | remove p => exact calls_remove fun _ => by simp [Spec.FsOp.changes]
  | removeAll n p => exact calls_removeAll eyes fun _ _ => rfl
  | rename a b =>
    simp only [FsOp.prog, Asap.rename]
    calls
    exact fun _ => by simp [Spec.FsOp.changes]
  | resizeFile p k =>
    simp only [FsOp.prog, Asap.resizeFile]
    calls
    exact fun _ => by simp [Spec.FsOp.changes]
  | space p =>
    simp only [FsOp.prog, Asap.space]
    calls
    exact eyes _ rfl
  | tempDirectoryPath => exact calls_temp eyes
  | dirIter n p o => exact calls_dirNew eyes
  | dirIterIncr n it => exact calls_dirIncr eyes
  | recIter n p o => exact calls_recNew eyes
  | recIterIncr n it => exact calls_recIncr eyes
  | recIterPop n it => exact calls_recPop eyes

end

/-- **C113**: whatever the system answers, an operation makes only those changing calls that its name promises; those that look make none. -/
theorem c113_operations {α : Type} (op : FsOp α) (ec : EcArg) {t : List Event} {o : Except Stop (α × EcArg)} (hx : Exec (op.prog ec) t o) :
    ∀ ev ∈ t, ev.call.mutates = true → Spec.FsOp.changes op ev.call = true :=
  ((calls_op op ec).exec hx).1

/-- **C113** for `directory_entry`, `status`, the predicates on the type and the destruction of iterators: nothing is changed. -/
theorem c113_looking (e : Entry) (p : Path) (f : FStatus → Bool) (ss : List Stream) (it : DirIter) (ec : EcArg) (t : List Event) :
    (∀ o, Exec (refresh e ec) t o → Spec.Quiet t) ∧ (∀ a o, Exec (Ask.entry a e ec) t o → Spec.Quiet t) ∧
    (∀ o, Exec (status p ec) t o → Spec.Quiet t) ∧ (∀ o, Exec (symlinkStatus p ec) t o → Spec.Quiet t) ∧
    (∀ o, Exec (isTypeP f p ec) t o → Spec.Quiet t) ∧ (∀ o, Exec (isSymlinkP p ec) t o → Spec.Quiet t) ∧
    (∀ o, Exec it.destroy t o → Spec.Quiet t) ∧ ∀ o, Exec (closeAll ss) t o → Spec.Quiet t := by
  have hS : Eyes fun c => c.mutates = false := fun _ h => h
  exact ⟨fun _ h => ((calls_refresh hS).exec h).1, fun a _ h => ((calls_ask hS a).exec h).1, fun _ h => ((calls_status hS).exec h).1,
    fun _ h => ((calls_symlinkStatus hS).exec h).1, fun _ h => ((calls_isTypeP hS).exec h).1,
    fun _ h => (((calls_symlinkStatus hS).bind fun _ => .ret _ : Calls _ (isSymlinkP p ec)).exec h).1,
    fun _ h => ((calls_destroy hS).exec h).1, fun _ h => ((calls_closeAll hS ss).exec h).1⟩

/-- What may and what may not happen in `copy_file` and `remove_all`. -/
example : Spec.FsOp.changes (.copyFile true 3 (mkPath .posix "a".toList) (mkPath .posix "b".toList) 0) (.openf "b".toList ⟨true, true, false⟩ 0) = true ∧
    Spec.FsOp.changes (.copyFile true 3 (mkPath .posix "a".toList) (mkPath .posix "b".toList) 0) (.openf "a".toList ⟨true, true, false⟩ 0) = false ∧
    Spec.FsOp.changes (.copyFile true 3 (mkPath .posix "a".toList) (mkPath .posix "b".toList) 0) (.remove "b".toList) = false ∧
    Spec.FsOp.changes (.removeAll 3 (mkPath .posix "a".toList)) (.truncate "a".toList 0) = false ∧
    Spec.FsOp.changes (.isEmpty 3 (mkPath .posix "a".toList)) (.remove "a".toList) = false := by
  refine ⟨by decide, by decide, rfl, rfl, rfl⟩

end Asap
