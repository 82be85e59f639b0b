import Verif.Props.Kinds
import Verif.Props.WinI
import Verif.Props.WinL
import Verif.Os.Conf

/-!
# C116: which changes an operation can make at all on Windows
-/

namespace Asap
namespace Spec

/-- The calls changing something that an operation may make on Windows: none for those that look. -/
def WinOp.changes {α : Type} : WinOp α → Sys → Bool
  | .copy .., .win (.createDirectoryEx ..) | .copy .., .win (.createSymlink ..) | .copy .., .win (.createHardLink ..)
  | .copy .., .win (.copyFile ..) => true
  | .copyFile _ a b _, .win (.copyFile x y _) => x == a.pathname && y == b.pathname
  | .copySymlink _ b, .win (.createSymlink x _ _) => x == b.pathname
  | .createDirectory p, .win (.createDirectory s) => s == p.pathname
  | .createDirectoryLike p q, .win (.createDirectoryEx x y) => x == q.pathname && y == p.pathname
  | .createDirectories .., .win (.createDirectory _) => true
  | .createSymlink a b, .win (.createSymlink x y d) => x == b.pathname && y == a.pathname && !d
  | .createDirectorySymlink a b, .win (.createSymlink x y d) => x == b.pathname && y == a.pathname && d
  | .createHardLink a b, .win (.createHardLink x y) => x == b.pathname && y == a.pathname
  | .setCurrentPath p, .win (.setCwd s) => s == p.pathname
  | .setLastWriteTime .., .win (.setFileTime ..) => true
  | .permissions p _ _, .win (.setPerms s _) => s == p.pathname
  | .remove p, .win (.removeDirectory s) | .remove p, .win (.deleteFile s) => s == p.pathname
  | .removeAll .., .win (.removeDirectory _) | .removeAll .., .win (.deleteFile _) => true
  | .rename a b, .rename x y => x == a.pathname && y == b.pathname
  | .resizeFile .., .win (.setEnd _) => true
  | _, _ => false

/-- The file at `p` was opened with the handle `h`. -/
def Opened (p : Str) (h : Nat) (t : List Event) : Prop := ∃ o, ⟨.win (.createFile p o), (.ok h : Except Errno Nat)⟩ ∈ t

/-- The calls of `resize_file` after the calls `t`: the end of a file is set where the pointer was put. -/
def ResizeCall (p : Str) (size : BitVec 64) (t : List Event) : Sys → Prop
  | .win (.createFile s _) => s = p
  | .win (.setPointer h z) => z = size ∧ Opened p h t
  | .win (.setEnd h) => Opened p h t ∧ ⟨.win (.setPointer h size), (.ok () : Except Errno Unit)⟩ ∈ t
  | .win (.closeHandle h) => Opened p h t
  | _ => False

/-- The calls of `last_write_time` with a new time after the calls `t`. -/
def TimeCall (c : SysClock) (time : Int) (p : Str) (t : List Event) : Sys → Prop
  | .win (.createFile s _) => s = p
  | .win (.setFileTime h x) => Opened p h t ∧ toWindowsFileTime c time = .ok (x, none)
  | .win (.closeHandle h) => Opened p h t
  | _ => False

end Spec
open Spec

namespace Win

section
variable {α β : Type} {S : Sys → Prop} {p q : Path} {ec : EcArg}

theorem calls_quiet (hS : Eyes S) {x : Prog α} (h : Only Harmless (fun _ => True) x) : Calls S x := by
  unfold Calls
  induction h with
  | ret a h => exact .ret a trivial
  | stop x => exact .stop x
  | call c k hc _ ih => exact .call c _ (hS _ hc) ih

theorem calls_withFile (hS : Eyes S) {o : WinOpen} {fail : Errno → Prog α} {body : Nat → Prog α} (hf : ∀ e, Calls S (fail e))
    (hb : ∀ h, Calls S (body h)) : Calls S (withFile p o fail body) := by
  unfold withFile
  refine .call (hS _ rfl) fun r => ?_
  cases r with
  | error e => exact hf e
  | ok h => exact .finally' (hb h) (.call (hS _ rfl) fun _ => .ret _)

theorem calls_createDirectory (hm : S (.win (.createDirectory p.pathname))) : Calls S (Win.createDirectory p ec) := by
  unfold Win.createDirectory
  calls

theorem calls_createDirectoryLike (hm : S (.win (.createDirectoryEx q.pathname p.pathname))) : Calls S (Win.createDirectoryLike p q ec) := by
  unfold Win.createDirectoryLike
  calls

theorem calls_missingOf {el : Bool} : ∀ (n : Nat) (p : Path) (acc : List Path), Calls S (Win.missingOf el n p acc)
  | 0, _, _ => .stop _
  | n + 1, p, acc => by
    unfold Win.missingOf
    calls
    all_goals exact calls_missingOf n _ _

theorem calls_createMissing (hS : Eyes S) (hm : ∀ p, S (.win (.createDirectory p))) :
    ∀ (l : List Path) (b : Bool), Calls S (Win.createMissing l b)
  | [], _ => .ret _
  | x :: l, b => by
    unfold Win.createMissing createTop
    calls
    all_goals first
      | exact calls_quiet hS (only_status ..)
      | exact calls_quiet hS (only_isDirectoryP ..)
      | exact calls_createDirectory (hm _)
      | exact calls_createMissing hS hm l _

theorem calls_createDirectories (hS : Eyes S) (hm : ∀ p, S (.win (.createDirectory p))) {el : Bool} {n : Nat} :
    Calls S (Win.createDirectories el n p ec) := by
  unfold Win.createDirectories
  calls
  all_goals first
    | exact calls_missingOf n p []
    | exact calls_createMissing hS hm _ _

theorem calls_createSymlinkAs {fn : Str} {d : Bool} (hm : S (.win (.createSymlink q.pathname p.pathname d))) :
    Calls S (Win.createSymlinkAs fn d p q ec) := by
  unfold Win.createSymlinkAs
  calls

theorem calls_createHardLink (hm : S (.win (.createHardLink q.pathname p.pathname))) : Calls S (Win.createHardLink p q ec) := by
  unfold Win.createHardLink
  calls

theorem calls_copySymlink (hS : Eyes S) (hm : ∀ x d, S (.win (.createSymlink q.pathname x d))) : Calls S (Win.copySymlink p q ec) := by
  unfold Win.copySymlink
  calls
  all_goals first
    | exact calls_quiet hS (only_readSymlink ..)
    | exact calls_quiet hS (only_isDirectoryP ..)
    | exact calls_createSymlinkAs (hm _ _)

theorem calls_permissions (hS : Eyes S) (hm : ∀ m, S (.win (.setPerms p.pathname m))) {m : Perms} {o : PermOptions} :
    Calls S (Win.permissions p m o ec) := by
  unfold Win.permissions putPerms
  calls
  all_goals first
    | exact calls_quiet hS (only_status ..)
    | exact calls_quiet hS (only_symlinkStatus ..)
    | exact hm _

theorem calls_remove (hS : Eyes S) (h1 : S (.win (.removeDirectory p.pathname))) (h2 : S (.win (.deleteFile p.pathname))) :
    Calls S (Win.remove p ec) := by
  unfold Win.remove
  calls

theorem calls_copyFile (hS : Eyes S) {k : SysClock} {opts : CopyOptions} (hm : ∀ b, S (.win (.copyFile p.pathname q.pathname b))) :
    Calls S (Win.copyFile k p q opts ec) := by
  unfold Win.copyFile shouldCopy doCopy
  calls
  all_goals first
    | exact calls_quiet hS (only_status ..)
    | exact calls_quiet hS (only_equivalent ..)
    | exact calls_quiet hS (only_lastWriteTime ..)
    | exact hm _

theorem calls_removeLoop (hS : Eyes S) {rec : Path → Prog (BitVec 64 × Code)} (hrec : ∀ p, Calls S (rec p)) :
    ∀ (n : Nat) (it : DirIter) (c : BitVec 64), Calls S (Win.removeLoop rec n it c)
  | 0, _, _ => .stop _
  | n + 1, none, c => .ret _
  | n + 1, some s, c => by
    unfold Win.removeLoop
    calls
    all_goals first
      | exact hrec _
      | exact calls_quiet hS (only_destroy ..)
      | exact calls_quiet hS (only_dirIncr ..)
      | exact calls_removeLoop hS hrec n _ _

theorem calls_doRemoveAll (hS : Eyes S) (h1 : ∀ s, S (.win (.removeDirectory s))) (h2 : ∀ s, S (.win (.deleteFile s))) :
    ∀ (n : Nat) (p : Path), Calls S (Win.doRemoveAll n p)
  | 0, _ => .stop _
  | n + 1, p => by
    unfold Win.doRemoveAll
    calls
    all_goals first
      | exact calls_quiet hS (only_symlinkStatus ..)
      | exact calls_quiet hS (only_dirNew ..)
      | exact calls_removeLoop hS (calls_doRemoveAll hS h1 h2 n) n _ _
      | exact calls_remove hS (h1 _) (h2 _)

theorem calls_removeAll (hS : Eyes S) (h1 : ∀ s, S (.win (.removeDirectory s))) (h2 : ∀ s, S (.win (.deleteFile s))) {n : Nat} :
    Calls S (Win.removeAll n p ec) := by
  unfold Win.removeAll
  calls
  exact calls_doRemoveAll hS h1 h2 n p

/-- What `copy` uses. -/
structure Brush (S : Sys → Prop) : Prop where
  dir : ∀ a b, S (.win (.createDirectoryEx a b))
  sym : ∀ a b d, S (.win (.createSymlink a b d))
  hard : ∀ a b, S (.win (.createHardLink a b))
  file : ∀ a b f, S (.win (.copyFile a b f))

theorem calls_copyLoop (hS : Eyes S) {h : Handler} {rec : Path → Path → EcArg → Prog (Unit × EcArg)} (hrec : ∀ a b ec, Calls S (rec a b ec)) {to : Path} :
    ∀ (n : Nat) (it : DirIter) (m : Code) (ec : EcArg), Calls S (Win.copyLoop h rec to n it m ec)
  | 0, _, _, _ => .stop _
  | n + 1, none, _, _ => .ret _
  | n + 1, some s, m, ec => by
    unfold Win.copyLoop
    calls
    all_goals first
      | exact calls_quiet hS (only_destroy ..)
      | exact hrec _ _ _
      | exact calls_quiet hS (only_dirIncr ..)
      | exact calls_copyLoop hS hrec n _ _ _

theorem calls_copyDispatch (hS : Eyes S) (hm : Brush S) {k : SysClock} {rec : Path → Path → EcArg → Prog (Unit × EcArg)}
    (hrec : ∀ a b ec, Calls S (rec a b ec)) {n : Nat} {h : Handler} {opts : CopyOptions} {f t : FStatus} :
    Calls S (Win.copyDispatch k rec n h p q opts f t ec) := by
  have hd : Calls S (Win.copyDir rec n h p q t ec) := by
    unfold Win.copyDir
    calls
    all_goals first
      | exact calls_createDirectoryLike (hm.dir _ _)
      | exact calls_quiet hS (only_dirNew ..)
      | exact calls_copyLoop hS hrec n _ _ _
  unfold Win.copyDispatch Win.createSymlink
  calls
  all_goals first
    | exact calls_copySymlink hS (hm.sym _)
    | exact calls_createSymlinkAs (hm.sym _ _ _)
    | exact calls_createHardLink (hm.hard _ _)
    | exact calls_copyFile hS (hm.file _ _)

theorem calls_copy (hS : Eyes S) (hm : Brush S) {k : SysClock} :
    ∀ (n : Nat) (p q : Path) (opts : CopyOptions) (ec : EcArg), Calls S (Win.copy k n p q opts ec)
  | 0, _, _, _, _ => .stop _
  | n + 1, p, q, opts, ec => by
    have hr := fun a b ec => calls_copy hS hm (k := k) n a b opts ec
    unfold Win.copy
    dsimp only
    refine Calls.bind ?_ fun f => ?_
    · split
      · exact calls_quiet hS (only_symlinkStatus ..)
      · exact calls_quiet hS (only_status ..)
    split
    · exact .report ..
    refine Calls.bind ?_ fun t => ?_
    · split
      · exact calls_quiet hS (only_symlinkStatus ..)
      · exact calls_quiet hS (only_status ..)
    split
    · exact .report ..
    split
    · exact .report ..
    refine Calls.bind ?_ fun e => ?_
    · split
      · exact calls_quiet hS (only_equivalent ..)
      · exact .ret _
    split
    · exact .report ..
    split
    · exact .report ..
    · exact calls_copyDispatch hS hm hr

/-- A call that changes nothing, or one of those the operation may make. -/
def Within {α : Type} (op : WinOp α) (c : Sys) : Prop := c.mutates = true → Spec.WinOp.changes op c = true

theorem eyes {op : WinOp α} : Eyes (Within op) := fun c h h' => by rw [h] at h'; cases h'

theorem calls_op (op : WinOp α) (ec : EcArg) : Calls (Within op) (op.prog ec) := by
  cases op with
  | absolute p => exact calls_quiet eyes (only_absolute ..)
  | copy k n a b o => exact calls_copy eyes ⟨fun _ _ _ => rfl, fun _ _ _ _ => rfl, fun _ _ _ => rfl, fun _ _ _ _ => rfl⟩ n a b o ec
  | copyFile k a b o => exact calls_copyFile eyes fun _ _ => by simp [Spec.WinOp.changes]
  | copySymlink a b => exact calls_copySymlink eyes fun _ _ _ => by simp [Spec.WinOp.changes]
  | createDirectory p => exact calls_createDirectory fun _ => by simp [Spec.WinOp.changes]
  | createDirectoryLike p q => exact calls_createDirectoryLike fun _ => by simp [Spec.WinOp.changes]
  | createDirectories el n p => exact calls_createDirectories eyes fun _ _ => rfl
  | createSymlink a b => exact calls_createSymlinkAs fun _ => by simp [Spec.WinOp.changes]
  | createDirectorySymlink a b => exact calls_createSymlinkAs fun _ => by simp [Spec.WinOp.changes]
  | createHardLink a b => exact calls_createHardLink fun _ => by simp [Spec.WinOp.changes]
  | currentPath => exact calls_quiet eyes (only_currentPath ..)
  | setCurrentPath p =>
    simp only [WinOp.prog, Win.setCurrentPath]
    calls
    exact fun _ => by simp [Spec.WinOp.changes]
  | equivalent p q => exact calls_quiet eyes (only_equivalent ..)
  | exists' p => exact calls_quiet eyes (only_existsP ..)
  | isDirectory p => exact calls_quiet eyes (only_isDirectoryP ..)
  | isSymlink p => exact calls_quiet eyes (only_isSymlinkP ..)
  | status p => exact calls_quiet eyes (only_status ..)
  | symlinkStatus p => exact calls_quiet eyes (only_symlinkStatus ..)
  | fileSize p => exact calls_quiet eyes (only_fileSize ..)
  | hardLinkCount p => exact calls_quiet eyes (only_hardLinkCount ..)
  | isEmpty n p => exact calls_quiet eyes (only_isEmptyFile ..)
  | lastWriteTime k p => exact calls_quiet eyes (only_lastWriteTime ..)
  | setLastWriteTime k p t =>
    simp only [WinOp.prog, Win.setLastWriteTime]
    refine calls_withFile eyes (fun _ => .report ..) fun h => ?_
    calls
  | permissions p m o => exact calls_permissions eyes fun _ _ => by simp [Spec.WinOp.changes]
  | readSymlink p => exact calls_quiet eyes (only_readSymlink ..)
  | remove p => exact calls_remove eyes (fun _ => by simp [Spec.WinOp.changes]) fun _ => by simp [Spec.WinOp.changes]
  | removeAll n p => exact calls_removeAll eyes (fun _ _ => rfl) fun _ _ => rfl
  | rename a b =>
    simp only [WinOp.prog, Win.rename, captureErrno]
    calls
    · exact fun _ => by simp [Spec.WinOp.changes]
    all_goals exact eyes _ rfl
  | resizeFile p z =>
    simp only [WinOp.prog, Win.resizeFile]
    refine calls_withFile eyes (fun _ => .report ..) fun h => ?_
    calls
    all_goals first
      | exact eyes _ rfl
      | exact fun _ => rfl
  | space p => exact calls_quiet eyes (only_space ..)
  | tempDirectoryPath => exact calls_quiet eyes (only_tempDirectoryPath ..)
  | dirIter n p o => exact calls_quiet eyes (only_dirNew ..)
  | dirIterIncr n it => exact calls_quiet eyes (only_dirIncr ..)
  | recIter n p o => exact calls_quiet eyes (only_recNew ..)
  | recIterIncr n it => exact calls_quiet eyes (only_recIncr ..)
  | recIterPop n it => exact calls_quiet eyes (only_recPop ..)

end
end Win

/-- **C116**: on Windows, whatever the system answers, an operation makes only those changing calls that its name promises; those that
look make none. -/
theorem c116_operations {α : Type} (op : WinOp α) (ec : EcArg) {t : List Event} {o : Except Stop (α × EcArg)} (hx : Exec (op.prog ec) t o) :
    ∀ ev ∈ t, ev.call.mutates = true → Spec.WinOp.changes op ev.call = true :=
  ((Win.calls_op op ec).exec hx).1

/-- **C116** for the changes made through a handle: `resize_file` and `last_write_time` open `p` and nothing else, and change the file
opened; the size set is the one given, the time that of the given time. -/
theorem c116_handles (c : SysClock) (p : Path) (ec : EcArg) {t : List Event} {o : Except Stop (Unit × EcArg)} :
    (∀ size, Exec (Win.resizeFile p size ec) t o → ∀ t1 ev t2, t = t1 ++ ev :: t2 → ResizeCall p.pathname size t1.reverse ev.call) ∧
    (∀ time, Exec (Win.setLastWriteTime c p time ec) t o → ∀ t1 ev t2, t = t1 ++ ev :: t2 → TimeCall c time p.pathname t1.reverse ev.call) := by
  have rep {M : List Event → Sys → Prop} {t : List Event} {h : Handler} {ec : EcArg} {c : Code} :
      Conf M (fun _ => True) (fun _ => True) (fun _ => True) t (h.report ec c ()) := Conf.report trivial
  constructor
  · intro size hx
    have key : Conf (ResizeCall p.pathname size) (fun _ => True) (fun _ => True) (fun _ => True) [] (Win.resizeFile p size ec) := by
      refine .call _ _ _ rfl fun r _ => ?_
      cases r with
      | error e => exact rep
      | ok h =>
        refine Conf.finally' (.call _ _ _ ⟨rfl, _, List.mem_cons_self ..⟩ fun r _ => ?_) fun t' ht =>
          .call _ _ _ ⟨_, ht (List.mem_cons_self ..)⟩ fun _ _ => .ret _ _ trivial
        cases r with
        | error e => exact rep
        | ok _ =>
          refine .call _ _ _ ⟨⟨_, List.mem_cons_of_mem _ (List.mem_cons_self ..)⟩, List.mem_cons_self ..⟩ fun r _ => ?_
          cases r with
          | error e => exact rep
          | ok _ => exact .ret _ _ trivial
    intro t1 ev t2 e
    have := (key.exec hx fun _ _ => trivial).1 t1 ev t2 e
    rwa [List.append_nil] at this
  · intro time hx
    have key : Conf (TimeCall c time p.pathname) (fun _ => True) (fun _ => True) (fun _ => True) [] (Win.setLastWriteTime c p time ec) := by
      refine .call _ _ _ rfl fun r _ => ?_
      cases r with
      | error e => exact rep
      | ok h =>
        refine Conf.finally' (Conf.bind (Q := fun x => toWindowsFileTime c time = .ok x) (Conf.ofRes fun _ h => h) fun t' ht a ha => ?_) fun t' ht =>
          .call _ _ _ ⟨_, ht (List.mem_cons_self ..)⟩ fun _ _ => .ret _ _ trivial
        obtain ⟨x, m⟩ := a
        cases m with
        | some e => exact rep
        | none =>
          refine .call _ _ _ ⟨⟨_, ht (List.mem_cons_self ..)⟩, ha⟩ fun r _ => ?_
          cases r with
          | error e => exact rep
          | ok _ => exact .ret _ _ trivial
    intro t1 ev t2 e
    have := (key.exec hx fun _ _ => trivial).1 t1 ev t2 e
    rwa [List.append_nil] at this

/-- What may and what may not happen in `copy` and `remove_all`, and a file that is resized. -/
example : Spec.WinOp.changes (.copy ⟨1000000000, 1, rfl⟩ 3 (mkPath .windows "a".toList) (mkPath .windows "b".toList) 0) (.win (.copyFile "a".toList "b".toList false)) = true ∧
    Spec.WinOp.changes (.copy ⟨1000000000, 1, rfl⟩ 3 (mkPath .windows "a".toList) (mkPath .windows "b".toList) 0) (.win (.deleteFile "a".toList)) = false ∧
    Spec.WinOp.changes (.removeAll 3 (mkPath .windows "a".toList)) (.win (.setEnd 3)) = false ∧
    Spec.WinOp.changes (.isEmpty 3 (mkPath .windows "a".toList)) (.win (.deleteFile "a".toList)) = false ∧
    ∃ t, Exec (Win.resizeFile (mkPath .windows "a".toList) 9 (.ref none)) t (.ok ((), .ref none)) ∧ (⟨.win (.setEnd 4), (.ok () : Except Errno Unit)⟩ : Event) ∈ t :=
  ⟨rfl, rfl, rfl, rfl, [⟨.win (.createFile "a".toList ⟨Win.GENERIC_READ ||| Win.GENERIC_WRITE, false, false, false⟩), (.ok 4 : Except Errno Nat)⟩,
    ⟨.win (.setPointer 4 9), (.ok () : Except Errno Unit)⟩, ⟨.win (.setEnd 4), (.ok () : Except Errno Unit)⟩,
    ⟨.win (.closeHandle 4), (.ok () : Except Errno Unit)⟩], feed_exec (by rfl), by simp⟩

end Asap
