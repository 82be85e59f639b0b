import Verif.Props.PortsB

/-!
# C137: an error that is reported is one that the system gave, or one of the operation's own

Whatever the operating system answers.
-/

namespace Asap
namespace Spec

/-- The error that a call gave. -/
def Sys.gave : (c : Sys) → c.Ret → Option Errno
  | .stat _, .error e | .lstat _, .error e | .readlink _ _, .error e | .getcwd _, .error e | .realpath _, .error e | .openf _ _ _, .error e
  | .opendir _, .error e | .sendfile _ _ _, .error e | .write _ _, .error e | .read _ _, .error e | .statvfs _, .error e | .readdir _, .error e
  | .mkdir _ _, .error e | .remove _, .error e | .rename _ _, .error e | .truncate _ _, .error e | .symlink _ _, .error e | .link _ _, .error e
  | .chdir _, .error e | .fchmod _ _, .error e | .ftruncate _ _, .error e | .fchmodat _ _ _, .error e | .utimensat _ _ _, .error e => some e
  | _, _ => none

/-- `e` was given by one of the calls `t`. -/
def Given (t : List Event) (e : Errno) : Prop := ∃ x ∈ t, Sys.gave x.call x.ret = some e

/-- The errors that an operation reports of its own. -/
def FsOp.own {α : Type} : FsOp α → Errno → Bool
  | .createDirectoryLike .., e | .tempDirectoryPath, e => e = .ENOTDIR
  | .createDirectories .., e | .setLastWriteTime .., e | .dirIterIncr .., e | .recIterPop .., e => e = .EINVAL
  | .recIterIncr .., e => e = .EINVAL || e = .ENOENT
  | .equivalent .., e | .isEmpty .., e => e = .ENOTSUP
  | .fileSize _, e => e = .ENOTSUP || e = .EISDIR
  | .lastWriteTime _, e => e = .EOVERFLOW
  | .copyFile .., e => e = .EBADF || e = .ENOTSUP || e = .EEXIST
  | .copy .., e => e = .EBADF || e = .ENOTSUP || e = .EEXIST || e = .EISDIR || e = .ENOSYS || e = .ENOTDIR
  | _, _ => false

end Spec
open Spec

/-- Values that carry an error code. -/
class Coded (α : Type) where
  codeOf : α → Code
export Coded (codeOf)
instance (priority := low) {α : Type} : Coded α := ⟨fun _ => none⟩
instance : Coded EcArg := ⟨EcArg.code⟩
instance : Coded (Option Errno) := ⟨id⟩
instance (priority := high) : Coded (Bool × Option Errno × Bool) := ⟨fun x => x.2.1⟩
instance {α β : Type} [Coded β] : Coded (α × β) := ⟨fun x => codeOf x.2⟩

section
variable {α β : Type} [Coded α] [Coded β] {own : Errno → Prop} {G : Errno → Prop}

/-- The error in `c` is known: the operation's own, or given. -/
def Kn (own G : Errno → Prop) (c : Code) : Prop := ∀ e, c = some e → own e ∨ G e

/-- The program ends with known errors only, if those in `G` were given before. -/
def Gen (own : Errno → Prop) : Prog α → (Errno → Prop) → Prop
  | .ret a, G => Kn own G (codeOf a)
  | .stop (.thrown x), G => Kn own G x.code
  | .stop _, _ => True
  | .call c k, G => ∀ r, Gen own (k r) fun e => G e ∨ Sys.gave c r = some e

theorem Gen.exec {p : Prog α} : ∀ {G : Errno → Prop} {t : List Event} {o : Except Stop α}, Gen own p G → Exec p t o →
    (∀ a, o = .ok a → Kn own (fun e => G e ∨ Given t e) (codeOf a)) ∧
    ∀ x, o = .error (.thrown x) → Kn own (fun e => G e ∨ Given t e) x.code := by
  induction p with
  | ret a =>
    intro G t o h hx
    cases hx
    exact ⟨fun b e => by cases e; exact fun e he => (h e he).imp id .inl, nofun⟩
  | stop x =>
    intro G t o h hx
    cases hx
    exact ⟨nofun, fun y e => by cases e; exact fun e he => (h e he).imp id .inl⟩
  | call c k ih =>
    intro G t o h hx
    cases hx with
    | call _ _ r t' _ hx =>
      obtain ⟨h1, h2⟩ := ih r (h r) hx
      have key : ∀ {c' : Code}, Kn own (fun e => (G e ∨ Sys.gave c r = some e) ∨ Given t' e) c' → Kn own (fun e => G e ∨ Given (⟨c, r⟩ :: t') e) c' := by
        intro c' h e he
        refine (h e he).imp id ?_
        rintro ((h | h) | ⟨x, hx, h⟩)
        · exact .inl h
        · exact .inr ⟨_, List.mem_cons_self .., h⟩
        · exact .inr ⟨x, List.mem_cons_of_mem _ hx, h⟩
      exact ⟨fun a e => key (h1 a e), fun x e => key (h2 x e)⟩

theorem Kn.up {G' : Errno → Prop} {c : Code} (h : Kn own G c) (hG : ∀ e, G e → G' e) : Kn own G' c := fun e he => (h e he).imp id (hG e)
theorem Kn.none : Kn own G none := nofun
theorem Kn.clear (ec : EcArg) : Kn own G ec.clear.code := by cases ec <;> exact nofun

theorem Gen.up {p : Prog α} : ∀ {G G' : Errno → Prop}, Gen own p G → (∀ e, G e → G' e) → Gen own p G' := by
  induction p with
  | ret a => exact fun h hG => Kn.up h hG
  | stop x => cases x with
    | thrown x => exact fun h hG => Kn.up h hG
    | fault f => exact fun _ _ => trivial
    | fuel => exact fun _ _ => trivial
  | call c k ih => exact fun h hG r => ih r (h r) fun e => Or.imp (hG e) id

theorem Gen.bind {p : Prog β} {f : β → Prog α} : ∀ {G : Errno → Prop}, Gen own p G →
    (∀ (G' : Errno → Prop) b, (∀ e, G e → G' e) → Kn own G' (codeOf b) → Gen own (f b) G') → Gen own (p.bind f) G := by
  induction p with
  | ret a => exact fun h hf => hf _ a (fun _ h => h) h
  | stop x => cases x with
    | thrown x => exact fun h _ => h
    | fault f => exact fun _ _ => trivial
    | fuel => exact fun _ _ => trivial
  | call c k ih => exact fun h hf r => ih r (h r) fun G' b hG => hf G' b fun e he => hG e (.inl he)

theorem Gen.finally' {p : Prog α} {d : Prog Unit} (hd : ∀ G, Gen own d G) : ∀ {G : Errno → Prop}, Gen own p G → Gen own (p.finally' d) G := by
  induction p with
  | ret a => exact fun h => (hd _).bind fun G' _ hG _ => Kn.up h hG
  | stop x => cases x with
    | thrown x => exact fun h => (hd _).bind fun G' _ hG _ => Kn.up h hG
    | fault f => exact fun _ => trivial
    | fuel => exact fun _ => trivial
  | call c k ih => exact fun h r => ih r (h r)

theorem Gen.ofRes (r : Res α) (h : ∀ a, (codeOf (α := α) a) = none) : Gen own (Prog.ofRes r) G := by
  cases r with
  | error f => trivial
  | ok a => intro e he; rw [h] at he; cases he
theorem error_code (h : Handler) (w : Str) (c : Code) : (h.error w c).code = c := by
  unfold Handler.error
  split <;> rfl
omit [Coded α] in
theorem Gen.report (h : Handler) (ec : EcArg) {c : Code} (d : α) (hc : Kn own G c) : Gen own (h.report ec c d) G := by
  cases ec with
  | null => show Kn own G (h.error _ c).code; rw [error_code]; exact hc
  | ref _ => exact hc
omit [Coded α] in
theorem Gen.reportMsg (h : Handler) (ec : EcArg) {c : Code} (m : Str) (d : α) (hc : Kn own G c) : Gen own (h.reportMsg ec c m d) G := by
  cases ec with
  | null => show Kn own G (h.error _ c).code; rw [error_code]; exact hc
  | ref _ => exact hc
theorem Gen.res {r : Res α} {f : α → Prog β} (h : ∀ a, Gen own (f a) G) : Gen own ((Prog.ofRes r).bind f) G := by
  cases r with
  | error x => trivial
  | ok a => exact h a
theorem Gen.useStat {s : Option Stat} {f : Stat → Prog β} (h : ∀ a, Gen own (f a) G) : Gen own ((Prog.useStat s).bind f) G := by
  cases s with
  | none => trivial
  | some a => exact h a
end

section
variable {α : Type} {own G : Errno → Prop} {p q : Path} {ec : EcArg}

/-- The code is known. -/
macro "kn" : tactic => `(tactic| first
  | exact Kn.none | exact Kn.clear _ | assumption | exact Kn.up (by assumption) (by assumption)
  | exact Kn.up (Kn.up (by assumption) (by assumption)) (by assumption)
  | (intro _ h; cases h; first | exact .inr (.inr rfl) | exact .inl (by assumption)))
/-- The program ends here. -/
macro "fin" : tactic => `(tactic| first
  | exact trivial | exact Gen.report _ _ _ (by kn) | exact Gen.reportMsg _ _ _ _ (by kn) | (show Kn _ _ _; kn))

theorem gen_createSymlinkAs {fn : Str} : Gen own (createSymlinkAs fn p q ec) G := by intro r; cases r <;> fin
theorem gen_createHardLink : Gen own (createHardLink p q ec) G := by intro r; cases r <;> fin
theorem gen_setCurrentPath : Gen own (setCurrentPath p ec) G := by intro r; cases r <;> fin
theorem gen_rename : Gen own (rename p q ec) G := by intro r; cases r <;> fin
theorem gen_resizeFile {z : BitVec 64} : Gen own (resizeFile p z ec) G := by intro r; cases r <;> fin
theorem gen_chmodAt {m : Perms} {b : Bool} (h : Kn own G ec.code) : Gen own (chmodAt p m b ec) G := by
  intro r
  cases r with
  | error e => fin
  | ok _ => exact h.up fun _ => .inl
theorem gen_setLastWriteTime {t : Int} (h : own .EINVAL) : Gen own (setLastWriteTime p t ec) G := by
  unfold setLastWriteTime
  dsimp only
  split
  · fin
  · intro r; cases r <;> fin
theorem gen_space : Gen own (space p ec) G := by
  intro r
  cases r with
  | ok _ => fin
  | error e => exact Gen.bind (Gen.report _ _ _ (by kn)) fun _ _ _ h => h
theorem gen_remove : Gen own (remove p ec) G := by
  unfold remove
  dsimp only
  split
  · fin
  intro r
  cases r with
  | ok _ => fin
  | error e =>
    dsimp only
    split
    · fin
    · exact Gen.bind (Gen.report _ _ _ (by kn)) fun _ _ _ h => h
theorem gen_createDirectory : Gen own (createDirectory p ec) G := by
  intro r
  cases r with
  | ok _ => fin
  | error e =>
    dsimp only
    split
    · fin
    · exact Gen.bind (Gen.report _ _ _ (by kn)) fun _ _ _ h => h

theorem gen_currentPath : Gen own (currentPath ec) G := by
  intro (r : Int)
  show Gen own (if _ then _ else _) _
  split
  · intro r; cases r <;> fin
  · fin
theorem gen_readSymlink : Gen own (readSymlink p ec) G := by
  intro (r : Int)
  show Gen own (if _ then _ else _) _
  split
  · intro r
    cases r with
    | error e => fin
    | ok s =>
      show Gen own (if _ then _ else _) _
      split <;> fin
  · fin
theorem gen_copySymlink : Gen own (copySymlink p q ec) G := by
  unfold copySymlink
  simp only [Prog.bind_eq]
  refine gen_readSymlink.bind fun G' x hG hx => ?_
  split
  · exact Gen.report _ _ _ hx
  · exact gen_createSymlinkAs
theorem gen_doAbsolute : Gen own (doAbsolute p ec) G := by
  unfold doAbsolute
  simp only [Prog.bind_eq]
  refine Gen.res fun b => ?_
  split
  · fin
  refine gen_currentPath.bind fun G' x hG hx => ?_
  split
  · exact hx
  · exact Gen.res fun _ => hx
theorem gen_absolute : Gen own (absolute p ec) G := gen_doAbsolute.bind fun _ _ _ h => h
theorem gen_canonical : Gen own (canonical p ec) G := by
  unfold canonical
  simp only [Prog.bind_eq]
  refine gen_doAbsolute.bind fun G' x hG hx r => ?_
  cases r with
  | error e => fin
  | ok s => exact Kn.up hx fun _ => .inl

theorem gen_createFileStatus {m : Code} {st : Option Stat} (hm : Kn own G m) : Gen own (createFileStatus m p st ec) G := by
  have ha : Kn own G (ec.assign m).code := by cases ec; exact nofun; exact hm
  unfold createFileStatus
  dsimp only
  split
  · exact ha
  · exact ha
  · simp only [Prog.bind_eq]
    exact Gen.bind (Gen.reportMsg _ _ _ _ hm) fun _ _ _ h => h
  · exact ha
  · trivial
theorem gen_getFileStatus {st : Option Stat} : Gen own (getFileStatus p st ec) G := by
  intro r
  cases r <;> exact Gen.bind (gen_createFileStatus (by kn)) fun _ _ _ h => h
theorem gen_getLinkStatus {st : Option Stat} : Gen own (getLinkStatus p st ec) G := by
  intro r
  cases r <;> exact Gen.bind (gen_createFileStatus (by kn)) fun _ _ _ h => h
theorem gen_status : Gen own (status p ec) G := gen_getFileStatus.bind fun _ _ _ h => h
theorem gen_symlinkStatus : Gen own (symlinkStatus p ec) G := gen_getLinkStatus.bind fun _ _ _ h => h
theorem gen_existsP : Gen own (existsP p ec) G := by
  refine gen_status.bind fun _ x _ h => ?_
  show Kn _ _ (if x.1.known = true then x.2.clear else x.2).code
  split
  · exact Kn.clear _
  · exact h
theorem gen_isTypeP {f : FStatus → Bool} : Gen own (isTypeP f p ec) G := gen_status.bind fun _ _ _ h => h

theorem gen_createDirectoryLike (h : own .ENOTDIR) : Gen own (createDirectoryLike p q ec) G := by
  unfold createDirectoryLike
  simp only [Prog.bind_eq]
  refine gen_getFileStatus.bind fun G' x hG hx => ?_
  split
  · exact Gen.report _ _ _ hx
  split
  · fin
  refine Gen.useStat fun a r => ?_
  cases r with
  | ok _ => fin
  | error e =>
    dsimp only
    split
    · fin
    · exact Gen.bind (Gen.report _ _ _ (by kn)) fun _ _ _ h => h
theorem gen_equivalent (h : own .ENOTSUP) : Gen own (equivalent p q ec) G := by
  unfold equivalent
  simp only [Prog.bind_eq]
  refine gen_getFileStatus.bind fun G' x hG hx => ?_
  split
  · fin
  refine gen_getFileStatus.bind fun G' x hG hx => ?_
  split
  · fin
  · exact Gen.useStat fun a => Gen.useStat fun b => Kn.clear _
theorem gen_fileSize (h : own .ENOTSUP) (h' : own .EISDIR) : Gen own (fileSize p ec) G := by
  unfold fileSize
  simp only [Prog.bind_eq]
  refine gen_getFileStatus.bind fun G' x hG hx => ?_
  split
  · refine Gen.report _ _ _ ?_
    split
    · exact hx
    · split <;> kn
  · exact Gen.useStat fun a => Kn.clear _
theorem gen_hardLinkCount : Gen own (hardLinkCount p ec) G := by
  unfold hardLinkCount
  simp only [Prog.bind_eq]
  refine gen_getFileStatus.bind fun G' x hG hx => ?_
  split
  · exact Gen.report _ _ _ hx
  · exact Gen.useStat fun a => Kn.clear _
theorem gen_extract {st : Stat} (h : own .EOVERFLOW) : Gen own (extractLastWriteTime p st ec) G := by
  unfold extractLastWriteTime
  dsimp only
  split
  · exact Gen.res fun _ => Kn.clear _
  · fin
theorem gen_lastWriteTime (h : own .EOVERFLOW) : Gen own (lastWriteTime p ec) G := by
  unfold lastWriteTime
  simp only [Prog.bind_eq]
  refine gen_getFileStatus.bind fun G' x hG hx => ?_
  split
  · exact Gen.report _ _ _ hx
  · exact Gen.useStat fun a => gen_extract h
theorem gen_permissions {m : Perms} {o : PermOptions} : Gen own (permissions p m o ec) G := by
  unfold permissions
  simp only [Prog.bind_eq]
  split
  · trivial
  split
  · refine Gen.bind (?_ : Gen own (permStatus _ _) _) fun G' x hG hx => ?_
    · unfold permStatus
      split
      · exact gen_status
      · exact gen_symlinkStatus
    split
    · exact Gen.report _ _ _ hx
    split
    · trivial
    · exact gen_chmodAt (Kn.clear _)
  · exact gen_chmodAt (Kn.clear _)
theorem gen_firstEnv : ∀ l {G}, Gen own (firstEnv l) G
  | [], _ => Kn.none
  | v :: vs, _ => by
    intro r
    cases r with
    | none => exact gen_firstEnv vs
    | some _ => exact Kn.none
theorem gen_temp (h : own .ENOTDIR) : Gen own (tempDirectoryPath ec) G := by
  unfold tempDirectoryPath
  simp only [Prog.bind_eq]
  refine (gen_firstEnv _).bind fun G' x hG hx => gen_status.bind fun G' x hG hx => ?_
  split
  · exact Gen.reportMsg _ _ _ _ hx
  split <;> fin

theorem gen_existingPrefix : ∀ l r {G}, Gen own (existingPrefix l r) G
  | [], _, _ => Kn.none
  | x :: xs, r, _ => by
    unfold existingPrefix
    simp only [Prog.bind_eq]
    refine Gen.res fun tmp => gen_status.bind fun G' y hG hy => ?_
    split
    · exact gen_existingPrefix xs tmp
    · show Kn _ _ (if _ then _ else _)
      split
      · exact Kn.none
      · exact hy
theorem gen_weaklyCanonical {el : Bool} : Gen own (weaklyCanonical el p ec) G := by
  unfold weaklyCanonical
  dsimp only
  split
  · exact gen_canonical
  simp only [Prog.bind_eq]
  refine gen_status.bind fun G' y hG hy => ?_
  split
  · exact Gen.report _ _ _ hy
  split
  · exact gen_canonical
  refine (gen_existingPrefix _ _).bind fun G' x hG hx => ?_
  refine Gen.bind (?_ : Gen own (_ : Prog (Path × Code)) _) fun G' y hG hy => ?_
  · split
    · exact gen_canonical.bind fun _ _ _ h => h
    · exact hx
  · split
    · exact Kn.clear _
    · exact Gen.res fun _ => Gen.res fun _ => Kn.clear _
theorem gen_viaEc {el : Bool} {f : Path → Path → Res Path} {c : Code} : Gen own (viaCanonicalEc el f p q c) G := by
  unfold viaCanonicalEc
  simp only [Prog.bind_eq]
  refine gen_weaklyCanonical.bind fun G' x hG hx => ?_
  split
  · exact hx
  refine gen_weaklyCanonical.bind fun G' x hG hx => ?_
  split
  · exact hx
  · exact Gen.res fun _ => hx
theorem gen_viaThrow {el : Bool} {f : Path → Path → Res Path} : Gen own (viaCanonicalThrow el f p q) G := by
  unfold viaCanonicalThrow
  simp only [Prog.bind_eq]
  exact gen_weaklyCanonical.bind fun G' x hG hx => gen_weaklyCanonical.bind fun G' x hG hx => Gen.res fun _ => Kn.none
theorem gen_proximate {el : Bool} : Gen own (proximate el p q ec) G := by cases ec; exact gen_viaThrow; exact gen_viaEc
theorem gen_relative {el : Bool} : Gen own (relative el p q ec) G := by cases ec; exact gen_viaThrow; exact gen_viaEc
theorem gen_proximateCwd {el : Bool} : Gen own (proximateCwd el p ec) G := gen_currentPath.bind fun _ _ _ _ => gen_proximate
theorem gen_relativeCwd {el : Bool} : Gen own (relativeCwd el p ec) G := gen_currentPath.bind fun _ _ _ _ => gen_relative

theorem gen_closeFd (d : Nat) (G : Errno → Prop) : Gen own (closeFd d) G := fun _ => Kn.none
theorem gen_refreshStatus : Gen own (refreshStatus p) G := by
  intro r
  cases r <;> exact Gen.bind (gen_createFileStatus (by kn)) fun _ _ _ h => h
theorem gen_copyDefault (inp out : Nat) : ∀ n {G}, Gen own (copyDefault inp out n) G
  | 0, _ => trivial
  | n + 1, _ => by
    intro r
    cases r with
    | error e => fin
    | ok data =>
      show Gen own (if _ then _ else _) _
      split
      · exact Kn.none
      intro r
      cases r with
      | error e => fin
      | ok _ => exact gen_copyDefault inp out n
theorem gen_sendLoop (out inp : Nat) : ∀ n z {G}, Gen own (sendLoop out inp n z) G
  | 0, _, _ => trivial
  | n + 1, z, _ => by
    intro r
    cases r with
    | error e => fin
    | ok k =>
      show Gen own (if _ then _ else _) _
      split
      · exact gen_sendLoop out inp n _
      · exact Kn.none
theorem gen_doCopyFile (sf : Bool) (n inp out : Nat) (z : Int) : Gen own (doCopyFile sf n inp out z) G := by
  unfold doCopyFile
  simp only [Prog.bind_eq]
  have hb : ∀ (b : Bool) G, Gen own (if b = true then Prog.ret none else copyDefault inp out n) G := by
    intro b G
    split
    · exact Kn.none
    · exact gen_copyDefault inp out n
  split
  · refine Gen.bind ?_ fun _ b _ _ => hb b _
    unfold copySendfile
    simp only [Prog.bind_eq]
    split
    · exact Kn.none
    · exact (gen_sendLoop ..).bind fun _ _ _ _ => Kn.none
  · exact hb false _
theorem gen_copyInto {sf : Bool} {n : Nat} {h : Handler} {inp : Nat} {fst : Stat} {tst : Option Stat} (h1 : own .EBADF) (hec : ec.code = none) :
    Gen own (copyInto sf n h inp fst p tst ec) G := by
  intro r
  cases r with
  | error e => fin
  | ok out =>
    refine Gen.finally' (gen_closeFd out) ?_
    simp only [Prog.bind_eq]
    have hf : ∀ G, Gen own ((doCopyFile sf n inp out fst.size.toInt).bind fun m =>
        if m ≠ none then h.report ec m false else Prog.ret (true, ec)) G := by
      intro G
      refine (gen_doCopyFile ..).bind fun G' c hG hc => ?_
      split
      · exact Gen.report _ _ _ hc
      · show Kn _ _ ec.code
        rw [hec]
        exact Kn.none
    refine gen_refreshStatus.bind fun G' x hG hx => ?_
    split
    · exact Gen.report _ _ _ hx
    cases tst with
    | none => exact hf _
    | some tst =>
      dsimp only
      split
      · fin
      intro r
      cases r with
      | error e => fin
      | ok _ =>
        intro r
        cases r with
        | error e => fin
        | ok _ => exact hf _
theorem code_clear (ec : EcArg) : ec.clear.code = none := by cases ec <;> rfl
theorem gen_copyFile {sf : Bool} {n : Nat} {opts : CopyOptions} (h1 : own .EBADF) (h2 : own .ENOTSUP) (h3 : own .EEXIST) :
    Gen own (copyFile sf n p q opts ec) G := by
  intro r
  cases r with
  | error e => fin
  | ok inp =>
    refine Gen.finally' (gen_closeFd inp) ?_
    unfold copyOpened
    simp only [Prog.bind_eq]
    refine gen_refreshStatus.bind fun G' x hG hx => ?_
    split
    · exact Gen.report _ _ _ hx
    split
    · fin
    refine gen_getFileStatus.bind fun G' x hG hx => ?_
    split
    · exact Gen.report _ _ _ hx
    split
    · exact gen_copyInto h1 (code_clear ec)
    split
    · fin
    refine Gen.useStat fun a => ?_
    split
    · fin
    split
    · fin
    split
    · split
      · exact gen_copyInto h1 (code_clear ec)
      · fin
    split
    · exact gen_copyInto h1 (code_clear ec)
    · exact Gen.bind (Gen.report _ _ _ (by kn)) fun _ _ _ h => h

theorem gen_close (s : Stream) (G : Errno → Prop) : Gen own s.close G := by
  unfold Stream.close
  split
  · exact fun _ => Kn.none
  · exact Kn.none
theorem gen_destroy (it : DirIter) (G : Errno → Prop) : Gen own it.destroy G := by
  cases it with
  | none => exact Kn.none
  | some s => exact (gen_close s G).bind fun _ _ _ _ => Kn.none
theorem gen_closeAll : ∀ l (G : Errno → Prop), Gen own (closeAll l) G
  | [], _ => Kn.none
  | s :: ss, G => (gen_closeAll ss G).bind fun _ _ _ _ => (gen_close s _).bind fun _ _ _ _ => Kn.none
theorem gen_advance : ∀ n s {G}, Gen own (Stream.advance n s) G
  | 0, _, _ => trivial
  | n + 1, s, _ => by
    unfold Stream.advance
    split
    · trivial
    intro r
    rcases r with e | _ | ent
    · refine (gen_close s _).bind fun G' _ hG _ => ?_
      intro _ h
      cases h
      exact .inr (hG _ (.inr rfl))
    · exact (gen_close s _).bind fun _ _ _ _ => Kn.none
    · show Gen own (if _ then _ else _) _
      split
      · exact gen_advance n s
      split
      · exact (gen_close s _).bind fun _ _ _ _ => Kn.none
      · exact Gen.res fun _ => Kn.none
theorem gen_streamNew {n : Nat} {opts : DirOptions} : Gen own (Stream.new n p opts) G := by
  intro r
  cases r with
  | error e =>
    dsimp only
    split
    · exact Kn.none
    · fin
  | ok d => exact (gen_advance n _).bind fun _ _ _ h => h
theorem gen_dirIterNew {n : Nat} {opts : DirOptions} : Gen own (DirIter.new n p opts ec) G := by
  unfold DirIter.new
  simp only [Prog.bind_eq]
  refine gen_streamNew.bind fun G' x hG hx => ?_
  obtain ⟨s, m⟩ := x
  have ha : Kn own G' (ec.clear.assign m).code := by cases ec; exact nofun; exact hx
  split
  · cases m with
    | none => exact ha
    | some e => exact Gen.bind (Gen.report _ _ _ hx) fun _ _ _ h => h
  · exact ha
theorem gen_dirIterIncr {n : Nat} {it : DirIter} (h : own .EINVAL ∨ it.isSome = true) : Gen own (DirIter.incr n it ec) G := by
  unfold DirIter.incr
  simp only [Prog.bind_eq]
  split
  · refine (gen_advance n _).bind fun G' x hG hx => ?_
    obtain ⟨b, s, m⟩ := x
    dsimp only
    split
    · exact Kn.clear _
    · cases m with
      | none => exact Kn.clear _
      | some e => exact Gen.bind (Gen.reportMsg _ _ _ _ hx) fun _ _ _ h => h
  · refine Gen.bind (Gen.reportMsg _ _ _ _ ?_) fun _ _ _ h => h
    rcases h with h | h
    · kn
    · cases h
theorem gen_isEmptyFile {n : Nat} (h : own .ENOTSUP) : Gen own (isEmptyFile n p ec) G := by
  unfold isEmptyFile
  simp only [Prog.bind_eq]
  refine gen_getFileStatus.bind fun G' x hG hx => ?_
  split
  · exact Gen.report _ _ _ hx
  split
  · fin
  split
  · unfold isEmptyDirectory
    simp only [Prog.bind_eq]
    refine gen_dirIterNew.bind fun G' x hG hx => (gen_destroy _ _).bind fun G'' _ hG' _ => ?_
    split <;> exact Kn.up hx hG'
  · exact Gen.useStat fun _ => Kn.clear _

theorem gen_removeLoop {rec : Path → Prog (BitVec 64 × Code)} (hr : ∀ p G, Gen own (rec p) G) : ∀ n it k {G}, Gen own (removeLoop rec n it k) G
  | 0, _, _, _ => trivial
  | _ + 1, none, _, _ => Kn.none
  | n + 1, some s, k, _ => by
    unfold removeLoop
    simp only [Prog.bind_eq]
    refine (hr _ _).bind fun G' x hG hx => ?_
    split
    · exact (gen_destroy _ _).bind fun _ _ hG' _ => Kn.up hx hG'
    refine (gen_dirIterIncr (.inr rfl)).bind fun G'' y hG' hy => ?_
    replace hy : Kn own G'' y.2.code := hy
    split
    next e he => rw [he] at hy; exact hy
    next => exact gen_removeLoop hr n _ _
theorem gen_doRemoveAll : ∀ n p (G : Errno → Prop), Gen own (doRemoveAll n p) G
  | 0, _, _ => trivial
  | n + 1, p, G => by
    unfold doRemoveAll
    simp only [Prog.bind_eq]
    refine gen_symlinkStatus.bind fun G' x hG hx => ?_
    split
    · exact hx
    refine Gen.bind (?_ : Gen own (_ : Prog (BitVec 64 × Code)) _) fun G'' y hG' hy => ?_
    · split
      · refine gen_dirIterNew.bind fun G'' y hG' hy => ?_
        replace hy : Kn own G'' y.2.code := hy
        split
        next e he => rw [he] at hy; exact hy
        next => exact gen_removeLoop (gen_doRemoveAll n) n _ _
      · exact Kn.none
    · split
      · exact hy
      · refine gen_remove.bind fun _ z _ hz => ?_
        split <;> exact hz
theorem gen_removeAll {n : Nat} : Gen own (removeAll n p ec) G := by
  unfold removeAll
  dsimp only
  split
  · fin
  simp only [Prog.bind_eq]
  refine (gen_doRemoveAll n p G).bind fun G' x hG hx => ?_
  obtain ⟨k, m⟩ := x
  cases m with
  | none => exact Kn.clear _
  | some e =>
    dsimp only
    split
    · fin
    · exact Gen.report _ _ _ hx

theorem gen_missingOf {el : Bool} : ∀ n p l {G}, Gen own (missingOf el n p l) G
  | 0, _, _, _ => trivial
  | n + 1, p, l, _ => by
    unfold missingOf
    simp only [Prog.bind_eq]
    refine Gen.res fun b => ?_
    split
    · exact Gen.res fun _ => Gen.res fun _ => gen_missingOf n _ _
    · exact Kn.none
theorem gen_createMissing : ∀ l b {G}, Gen own (createMissing l b) G
  | [], _, _ => Kn.none
  | x :: xs, b, _ => by
    unfold createMissing
    simp only [Prog.bind_eq]
    refine gen_status.bind fun G' y hG hy => ?_
    refine Gen.bind (?_ : Gen own (_ : Prog (Bool × EcArg)) _) fun G'' z hG' hz => ?_
    · split
      · exact gen_createDirectory.bind fun _ _ _ h => h
      · exact hy
    refine Gen.bind (?_ : Gen own (_ : Prog EcArg) _) fun G3 w hG2 hw => ?_
    · split
      · refine gen_isTypeP.bind fun G3 w hG2 hw => ?_
        show Kn _ _ (if _ then _ else _ : EcArg).code
        split
        · exact Kn.none
        · exact Kn.up hz hG2
      · exact hz
    · split
      · exact hw
      · exact gen_createMissing xs _
theorem gen_createDirectories {el : Bool} {n : Nat} (h : own .EINVAL) : Gen own (createDirectories el n p ec) G := by
  unfold createDirectories
  dsimp only
  split
  · fin
  simp only [Prog.bind_eq]
  refine (gen_missingOf n p []).bind fun G' x hG hx => ?_
  split
  · fin
  refine (gen_createMissing _ _).bind fun G'' y hG' hy => ?_
  obtain ⟨b, m, e⟩ := y
  cases m with
  | none => exact Kn.clear _
  | some e => exact Gen.report _ _ _ hy

theorem gen_recIterNew {n : Nat} {opts : DirOptions} : Gen own (RecIter.new n p opts ec) G := by
  unfold RecIter.new
  simp only [Prog.bind_eq]
  refine gen_streamNew.bind fun G' x hG hx => ?_
  obtain ⟨s, m⟩ := x
  cases m with
  | some e => exact Gen.bind (Gen.finally' (gen_destroy _) (Gen.report _ _ _ hx)) fun _ _ _ h => h
  | none =>
    dsimp only
    split <;> exact Kn.clear _
theorem gen_advanceStack (n : Nat) : ∀ l {G}, Gen own (advanceStack n l) G
  | [], _ => Kn.none
  | s :: ss, _ => by
    unfold advanceStack
    simp only [Prog.bind_eq]
    refine (gen_advance n s).bind fun G' x hG hx => ?_
    obtain ⟨b, s', m⟩ := x
    dsimp only
    split
    · exact Kn.none
    · cases m with
      | none => exact gen_advanceStack n ss
      | some e => exact hx
theorem gen_recAdvance {n : Nat} {it : RecIter} (h : own .EINVAL) : Gen own (it.advance n ec) G := by
  unfold RecIter.advance
  simp only [Prog.bind_eq]
  split
  · exact Gen.bind (Gen.reportMsg _ _ _ _ (by kn)) fun _ _ _ h => h
  · refine (gen_advanceStack n _).bind fun G' x hG hx => ?_
    obtain ⟨l, m⟩ := x
    cases m with
    | some e => exact (gen_closeAll _ _).bind fun _ _ hG' _ => Gen.bind (Gen.reportMsg _ _ _ _ (Kn.up hx hG')) fun _ _ _ h => h
    | none =>
      dsimp only
      split <;> exact Kn.clear _
theorem gen_recPop {n : Nat} {it : RecIter} (h : own .EINVAL) : Gen own (it.pop n ec) G := by
  unfold RecIter.pop
  simp only [Prog.bind_eq]
  split
  · exact Gen.bind (Gen.reportMsg _ _ _ _ (by kn)) fun _ _ _ h => h
  · trivial
  · refine (gen_close _ _).bind fun _ _ _ _ => ?_
    split
    · exact Kn.clear _
    · exact gen_recAdvance h
theorem gen_updateBasic {b : Bool} {e : Entry} : Gen own (updateBasic b e ec) G := by
  unfold updateBasic
  simp only [Prog.bind_eq]
  refine gen_getFileStatus.bind fun G' x hG hx => ?_
  split
  · exact Gen.bind (Gen.report _ _ _ hx) fun _ _ _ h => h
  · refine Gen.bind (?_ : Gen own (_ : Prog Cache) _) fun G2 c hG hx => Gen.bind (?_ : Gen own (_ : Prog Cache) _) fun G3 c hG hx =>
      Gen.bind (?_ : Gen own (_ : Prog Cache) _) fun G4 c hG hx => Kn.clear _
    · split
      · split
        · exact Gen.useStat fun _ => Kn.none
        · exact Kn.none
      · exact Kn.none
    · split
      · exact Gen.useStat fun _ => Kn.none
      · exact Kn.none
    · split
      · refine Gen.useStat fun st => ?_
        unfold extractLastWriteTime
        dsimp only
        split
        · cases timeFromSpec st.mtimeSec st.mtimeNsec with
          | error f => trivial
          | ok _ => exact Kn.none
        · exact Kn.none
      · exact Kn.none
theorem gen_handleError {m : Str} {e : Entry} {c : Code} {b : Bool} (h : Kn own G c) : Gen own (handleError m e c b ec) G := by
  cases ec with
  | null =>
    simp only [handleError]
    split
    · exact h
    · exact Kn.none
  | ref _ => exact h
theorem gen_linkType {e : Entry} (h : own .ENOENT) : Gen own (getSymLinkFileType e ec) G := by
  unfold getSymLinkFileType
  simp only [Prog.bind_eq]
  refine Gen.bind (?_ : Gen own (_ : Prog (Bool × Entry × EcArg)) _) fun G' x hG hx => ?_
  · split
    · exact gen_updateBasic.bind fun _ _ _ h => h
    · exact Kn.clear _
  split
  · exact hx
  split
  · exact hx
  · refine Gen.bind (?_ : Gen own (_ : Prog EcArg) _) fun _ _ _ h => h
    split
    · exact Gen.bind (gen_handleError (by kn)) fun _ _ _ h => h
    · exact hx
theorem gen_fileType {e : Entry} (h : own .ENOENT) : Gen own (getFileType e ec) G := by
  unfold getFileType
  simp only [Prog.bind_eq]
  split
  · refine gen_updateBasic.bind fun G' x _ hx => ?_
    split
    · exact hx
    · refine Gen.bind (?_ : Gen own (_ : Prog EcArg) _) fun _ _ _ h => h
      split
      · exact Gen.bind (gen_handleError (by kn)) fun _ _ _ h => h
      · exact hx
  · refine Gen.bind (Kn.clear _ : Gen own (.ret (e, ec.clear)) G) fun G' x _ hx => ?_
    split
    · exact hx
    · refine Gen.bind (?_ : Gen own (_ : Prog EcArg) _) fun _ _ _ h => h
      split
      · exact Gen.bind (gen_handleError (by kn)) fun _ _ _ h => h
      · exact hx
theorem gen_tryRecursion {n : Nat} {it : RecIter} (h : own .EINVAL) (h' : own .ENOENT) : Gen own (it.tryRecursion n ec) G := by
  unfold RecIter.tryRecursion
  simp only [Prog.bind_eq]
  split
  · exact Gen.bind (Gen.reportMsg _ _ _ _ (by kn)) fun _ _ _ h => h
  · trivial
  · refine Gen.bind (?_ : Gen own (_ : Prog (Bool × Entry × EcArg)) _) fun G' x hG hx => ?_
    · split
      · refine (gen_linkType h').bind fun _ y _ hy => ?_
        show Kn _ _ (if _ then _ else _ : EcArg).code
        split
        · exact Kn.none
        · exact hy
      · refine (gen_fileType h').bind fun _ y _ hy => ?_
        show Kn _ _ (if _ then _ else _ : EcArg).code
        split
        · exact Kn.none
        · exact hy
    refine Gen.bind (?_ : Gen own (_ : Prog (Option Stream × Code)) _) fun G'' y hG' hy => ?_
    · split
      · refine gen_streamNew.bind fun _ z _ hz => ?_
        split <;> exact hz
      · exact hx
    obtain ⟨o, m⟩ := y
    cases o with
    | some s => exact Kn.clear _
    | none =>
      cases m with
      | none => exact Kn.clear _
      | some e =>
        dsimp only
        split
        · exact Kn.clear _
        · exact (gen_closeAll _ _).bind fun _ _ hG' _ => Gen.bind (Gen.reportMsg _ _ _ _ (Kn.up hy hG')) fun _ _ _ h => h
theorem gen_recIncr {n : Nat} {it : RecIter} (h : own .EINVAL) (h' : own .ENOENT) : Gen own (it.incr n ec) G := by
  unfold RecIter.incr
  simp only [Prog.bind_eq]
  refine Gen.bind (?_ : Gen own (_ : Prog (Bool × RecIter × EcArg)) _) fun G' x hG hx => ?_
  · split
    · exact (gen_tryRecursion h h').bind fun _ _ _ h => h
    · exact Kn.clear _
  split
  · exact hx
  · exact gen_recAdvance h

theorem Gen.onThrow {α : Type} [Coded α] {x : Prog α} {d : Prog Unit} (hd : ∀ G, Gen own d G) :
    ∀ {G : Errno → Prop}, Gen own x G → Gen own (x.onThrow d) G := by
  induction x with
  | ret a => exact fun h => h
  | stop y => cases y with
    | thrown y => exact fun h => (hd _).bind fun G' _ hG _ => Kn.up h hG
    | fault f => exact fun _ => trivial
    | fuel => exact fun _ => trivial
  | call c k ih => exact fun h r => ih r (h r)

theorem gen_copyLoop {h : Handler} {rec : Path → Path → EcArg → Prog (Unit × EcArg)} (hr : ∀ a b ec G, Gen own (rec a b ec) G) {to : Path} :
    ∀ n it m2 ec {G}, Kn own G m2 → Kn own G ec.code → Gen own (copyLoop h rec to n it m2 ec) G
  | 0, _, _, _, _, _, _ => trivial
  | _ + 1, none, _, _, _, _, h2 => h2
  | n + 1, some s, m2, ec, _, h1, h2 => by
    unfold copyLoop
    split
    · exact Gen.finally' (gen_destroy _) (Gen.report _ _ _ h1)
    simp only [Prog.bind_eq]
    refine Gen.res fun f => Gen.res fun t => (Gen.onThrow (gen_destroy _) (hr _ _ _ _)).bind fun G' x hG hx => ?_
    split
    · exact (gen_destroy _ _).bind fun _ _ hG' _ => Kn.up hx hG'
    · exact (gen_dirIterIncr (.inr rfl)).bind fun G'' y hG' hy => gen_copyLoop hr n _ _ _ hy (Kn.up hx hG')
theorem gen_copyDir {h : Handler} {rec : Path → Path → EcArg → Prog (Unit × EcArg)} (hr : ∀ a b ec G, Gen own (rec a b ec) G) {n : Nat}
    {t : FStatus} (h1 : own .ENOTDIR) (hec : Kn own G ec.code) : Gen own (copyDir rec n h p q t ec) G := by
  unfold copyDir
  simp only [Prog.bind_eq]
  refine Gen.bind (?_ : Gen own (_ : Prog EcArg) _) fun G' x hG hx => ?_
  · split
    · exact (gen_createDirectoryLike h1).bind fun _ _ _ h => h
    · exact hec
  split
  · exact hx
  refine gen_dirIterNew.bind fun G'' y hG' hy => ?_
  split
  · exact hy
  · exact gen_copyLoop hr n _ _ _ Kn.none hy
theorem gen_copy {sf : Bool} {opts : CopyOptions} (h1 : own .EBADF) (h2 : own .ENOTSUP) (h3 : own .EEXIST) (h4 : own .EISDIR) (h5 : own .ENOSYS)
    (h6 : own .ENOTDIR) : ∀ n p q ec (G : Errno → Prop), Gen own (copy sf n p q opts ec) G
  | 0, _, _, _, _ => trivial
  | n + 1, p, q, ec, G => by
    unfold copy
    simp only [Prog.bind_eq]
    refine Gen.bind (?_ : Gen own (_ : Prog ((FStatus × Option Stat) × EcArg)) _) fun G' x hG hx => ?_
    · split
      · exact gen_getLinkStatus
      · exact gen_getFileStatus
    split
    · exact Gen.report _ _ _ hx
    refine Gen.bind (?_ : Gen own (_ : Prog ((FStatus × Option Stat) × EcArg)) _) fun G' x hG hx => ?_
    · split
      · exact gen_getLinkStatus
      · exact gen_getFileStatus
    split
    · exact Gen.report _ _ _ hx
    refine Gen.useStat fun a => Gen.useStat fun b => ?_
    split
    · fin
    unfold copyDispatch
    dsimp only
    split
    · split
      · fin
      split
      · exact gen_copySymlink
      · fin
    split
    · split
      · fin
      split
      · exact gen_createSymlinkAs
      split
      · exact gen_createHardLink
      split
      · simp only [Prog.bind_eq]
        exact Gen.res fun _ => Gen.res fun _ => (gen_copyFile h1 h2 h3).bind fun _ _ _ h => h
      · exact (gen_copyFile h1 h2 h3).bind fun _ _ _ h => h
    split
    · fin
    split
    · exact gen_copyDir (fun a b ec G => gen_copy h1 h2 h3 h4 h5 h6 n a b ec G) h6 (Kn.clear _)
    · fin

theorem gen_op (op : FsOp α) (ec : EcArg) (G : Errno → Prop) : Gen (fun e => FsOp.own op e = true) (op.prog ec) G := by
  cases op with
  | absolute p => exact gen_absolute
  | canonical p => exact gen_canonical
  | weaklyCanonical el p => exact gen_weaklyCanonical
  | proximate el p b => exact gen_proximate
  | relative el p b => exact gen_relative
  | proximateCwd el p => exact gen_proximateCwd
  | relativeCwd el p => exact gen_relativeCwd
  | copy sf n a b o => exact gen_copy (own := fun e => FsOp.own (.copy sf n a b o) e = true) rfl rfl rfl rfl rfl rfl n a b ec G
  | copyFile sf n a b o => exact gen_copyFile rfl rfl rfl
  | copySymlink a b => exact gen_copySymlink
  | createDirectory p => exact gen_createDirectory
  | createDirectoryLike p q => exact gen_createDirectoryLike rfl
  | createDirectories el n p => exact gen_createDirectories rfl
  | createSymlink a b => exact gen_createSymlinkAs
  | createDirectorySymlink a b => exact gen_createSymlinkAs
  | createHardLink a b => exact gen_createHardLink
  | currentPath => exact gen_currentPath
  | setCurrentPath p => exact gen_setCurrentPath
  | equivalent p q => exact gen_equivalent rfl
  | exists' p => exact gen_existsP
  | fileSize p => exact gen_fileSize rfl rfl
  | hardLinkCount p => exact gen_hardLinkCount
  | isEmpty n p => exact gen_isEmptyFile rfl
  | lastWriteTime p => exact gen_lastWriteTime rfl
  | setLastWriteTime p t => exact gen_setLastWriteTime rfl
  | permissions p m o => exact gen_permissions
  | readSymlink p => exact gen_readSymlink
  | remove p => exact gen_remove
  | removeAll n p => exact gen_removeAll
  | rename a b => exact gen_rename
  | resizeFile p z => exact gen_resizeFile
  | space p => exact gen_space
  | tempDirectoryPath => exact gen_temp rfl
  | dirIter n p o => exact gen_dirIterNew
  | dirIterIncr n it => exact gen_dirIterIncr (.inl rfl)
  | recIter n p o => exact gen_recIterNew
  | recIterIncr n it => exact gen_recIncr rfl rfl
  | recIterPop n it => exact gen_recPop rfl
end

/-- **C137**: every error that an operation reports, or throws, is one that a system call gave during this very operation, or one of the few that
the operation reports of its own. Whatever the operating system answers. -/
theorem c137_operations {α : Type} (op : FsOp α) (ec : EcArg) {t : List Event} {o : Except Stop (α × EcArg)} (hx : Exec (op.prog ec) t o) :
    (∀ a e, o = .ok (a, .ref (some e)) → Given t e ∨ FsOp.own op e = true) ∧
    (∀ x e, o = .error (.thrown x) → x.code = some e → Given t e ∨ FsOp.own op e = true) := by
  obtain ⟨h1, h2⟩ := (gen_op op ec fun _ => False).exec hx
  exact ⟨fun a e he => ((h1 _ he e rfl).symm).imp (fun h => h.resolve_left id) id, fun x e he hc => ((h2 _ he e hc).symm).imp (fun h => h.resolve_left id) id⟩

/-- **C137** for `status`, `symlink_status` and the predicates: they have no errors of their own. -/
theorem c137_status {α : Type} (f : FStatus → α) (p : Path) (ec : EcArg) (g : Prog (FStatus × EcArg))
    (hg : g = status p ec ∨ g = symlinkStatus p ec) {t : List Event} {o : Except Stop (α × EcArg)}
    (hx : Exec (g.bind fun x => .ret (f x.1, x.2)) t o) :
    (∀ a e, o = .ok (a, .ref (some e)) → Given t e) ∧ (∀ x e, o = .error (.thrown x) → x.code = some e → Given t e) := by
  have h : Gen (fun _ => False) (g.bind fun x => .ret (f x.1, x.2)) fun _ => False := by
    rcases hg with rfl | rfl
    · exact gen_status.bind fun _ _ _ h => h
    · exact gen_symlinkStatus.bind fun _ _ _ h => h
  obtain ⟨h1, h2⟩ := h.exec hx
  exact ⟨fun a e he => (h1 _ he e rfl).elim False.elim fun h => h.resolve_left id, fun x e he hc => (h2 _ he e hc).elim False.elim fun h => h.resolve_left id⟩

/-- A removal of a tree that fails at a file inside: the error is that file's; and an error of the operation's own, after calls that succeeded. -/
example :
    (∃ t, Exec ((FsOp.removeAll 9 (mkPath .posix "d".toList)).prog (.ref none)) t (.ok (BitVec.allOnes 64, .ref (some .EACCES))) ∧ Given t .EACCES) ∧
    (∃ t, Exec ((FsOp.fileSize (mkPath .posix "d".toList)).prog (.ref none)) t (.ok (BitVec.allOnes 64, .ref (some .EISDIR))) ∧
      ¬ Given t .EISDIR) := by
  have hx : Exec ((FsOp.removeAll 9 (mkPath .posix "d".toList)).prog (.ref none))
      [⟨.lstat "d".toList, (.ok { Stat.zero with mode := 0o040755 } : Except Errno Stat)⟩,
       ⟨.opendir "d".toList, (.ok 3 : Except Errno Nat)⟩,
       ⟨.readdir 3, (.ok (some ⟨"f".toList, .reg⟩) : Except Errno (Option Dirent))⟩,
       ⟨.lstat "d/f".toList, (.ok { Stat.zero with mode := 0o100644 } : Except Errno Stat)⟩,
       ⟨.remove "d/f".toList, (.error .EACCES : Except Errno Unit)⟩,
       ⟨.closedir 3, (.ok () : Except Errno Unit)⟩] (.ok (BitVec.allOnes 64, .ref (some .EACCES))) := feed_exec (by rfl)
  refine ⟨⟨_, hx, ((c137_operations _ _ hx).1 _ _ rfl).resolve_right nofun⟩,
    ⟨[⟨.stat "d".toList, (.ok { Stat.zero with mode := 0o040755 } : Except Errno Stat)⟩], feed_exec (by rfl), ?_⟩⟩
  rintro ⟨x, hx, h⟩
  cases hx with
  | head => cases h
  | tail _ h => cases h

end Asap
