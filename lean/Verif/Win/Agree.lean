import Verif.Win.Copy
import Verif.Ops.Agree2

/-!
# The two overloads of the Windows functions

As `Verif/Ops/Agree.lean` for the programs of `Verif/Win`.
-/

namespace Asap

variable {α β : Type} {A : Event → Prop}

/-- The `error_code` overload returns a reference. -/
theorem Rel.isRef {p q : Prog (α × EcArg)} (h : Rel (fun _ => True) p q) : All (fun v => v.2.IsRef) p := by
  induction h with
  | ok v => exact .ret _ ⟨_, rfl⟩
  | err v e x h => exact .ret _ ⟨_, rfl⟩
  | fault f => exact .stop _
  | fuel => exact .stop _
  | call c k k' _ ih => exact .call _ _ fun r => ih r trivial

theorem All.finally' {p : Prog α} {d : Prog Unit} {Q : α → Prop} (h : All Q p) : All Q (p.finally' d) := by
  have key : ∀ (d : Prog Unit) (q : Prog α), All Q q → All Q (d.bind fun _ => q) := by
    intro d q hq
    induction d with
    | ret _ => exact hq
    | stop s => exact .stop s
    | call c k ih => exact .call _ _ ih
  induction h with
  | ret a h => exact key _ _ (.ret _ h)
  | stop s =>
    cases s with
    | thrown x => exact key _ _ (.stop _)
    | fault f => exact .stop _
    | fuel => exact .stop _
  | call c k _ ih => exact .call _ _ ih

theorem NoThrow.finally' {p : Prog α} {d : Prog Unit} (h : NoThrow A p) (hd : NoThrow A d) : NoThrow A (p.finally' d) := by
  induction h with
  | ret a => exact hd.bind fun _ => .ret _
  | fault f => exact .fault f
  | fuel => exact .fuel
  | call c k _ ih => exact .call _ _ ih

namespace Win

theorem noThrow_closeHandle (h : Nat) : NoThrow A (closeHandle h) := .call _ _ fun _ _ => .ret _

theorem rel_withFile {p : Path} {o : WinOpen} {f f' : Errno → Prog (α × EcArg)} {b b' : Nat → Prog (α × EcArg)}
    (hf : ∀ e, Rel A (f e) (f' e)) (hb : ∀ h, Rel A (b h) (b' h)) : Rel A (withFile p o f b) (withFile p o f' b') := by
  refine .call' fun r => ?_
  rcases r with e | h
  · exact hf e
  · exact .finally' (hb h) (noThrow_closeHandle h)

theorem noThrow_withFile {p : Path} {o : WinOpen} {f : Errno → Prog α} {b : Nat → Prog α}
    (hf : ∀ e, NoThrow A (f e)) (hb : ∀ h, NoThrow A (b h)) : NoThrow A (withFile p o f b) := by
  refine .call _ _ fun r _ => ?_
  rcases r with e | h
  · exact hf e
  · exact .finally' (hb h) (noThrow_closeHandle h)

theorem all_withFile {p : Path} {o : WinOpen} {f : Errno → Prog α} {b : Nat → Prog α} {Q : α → Prop}
    (hf : ∀ e, All Q (f e)) (hb : ∀ h, All Q (b h)) : All Q (withFile p o f b) := by
  refine .call _ _ fun r => ?_
  rcases r with e | h
  · exact hf e
  · exact .finally' (hb h)

theorem noThrow_captureErrno : NoThrow A captureErrno := by
  refine .call _ _ fun r _ => ?_
  cases r
  · exact .fault _
  · exact .ret _

theorem rel_isReparsePointSymlink (p : Path) (c : Code) :
    Rel A (isReparsePointSymlink p (.ref c)) (isReparsePointSymlink p .null) := by
  refine rel_withFile (fun e => .report ..) fun h => .call' fun r => ?_
  rcases r with e | a
  · exact .report ..
  · exact .ok _

theorem noThrow_targetAttrs (p : Path) (a : Mask) : NoThrow A (targetAttrs p a) := by
  unfold targetAttrs
  split
  · refine noThrow_withFile (fun _ => .ret _) fun h => .call _ _ fun r _ => ?_
    rcases r with e | a <;> exact .ret _
  · exact .ret _

/-! ## Status -/

theorem noThrow_status (p : Path) (ec : EcArg) : NoThrow A (status p ec) := by
  unfold status
  refine .call _ _ fun r _ => ?_
  rcases r with e | a
  · exact .ret _
  · refine .bind (noThrow_targetAttrs ..) fun r => ?_
    rcases r with e | a
    · exact .ret _
    · refine .call _ _ fun r _ => ?_
      rcases r with e | a <;> exact .ret _

theorem noThrow_symlinkStatus (p : Path) (c : Code) : NoThrow A (symlinkStatus p (.ref c)) := by
  unfold symlinkStatus
  refine .call _ _ fun r _ => ?_
  rcases r with e | a
  · exact .ret _
  · refine .call _ _ fun r _ => ?_
    rcases r with e | a
    · exact .ret _
    · dsimp only
      split
      · exact .bind (rel_isReparsePointSymlink ..).noThrow fun _ => .ret _
      · exact .ret _

/-- What a status with an `error_code` tells: the type is unknown only with an error. -/
def Known' (v : FStatus × EcArg) : Prop := v.2.IsRef ∧ (v.1.known = false → v.2.isSet = true)

theorem known_failure (e : Errno) (c : Code) : Known' (processStatusFailure e (.ref c)) := by
  unfold processStatusFailure
  split
  · exact ⟨⟨_, rfl⟩, fun _ => rfl⟩
  · split
    · exact ⟨⟨_, rfl⟩, fun _ => rfl⟩
    · split <;> exact ⟨⟨_, rfl⟩, fun _ => rfl⟩

theorem all_status (p : Path) (c : Code) : All Known' (status p (.ref c)) := by
  unfold status
  refine .call _ _ fun r => ?_
  rcases r with e | a
  · exact .ret _ (known_failure ..)
  · refine .bind (.trivial _) fun r _ => ?_
    rcases r with e | a
    · exact .ret _ (known_failure ..)
    · refine .call _ _ fun r => ?_
      rcases r with e | a
      · exact .ret _ (known_failure ..)
      · refine .ret _ ⟨⟨_, rfl⟩, fun h => ?_⟩
        dsimp only at h
        split at h <;> cases h

theorem all_symlinkStatus (p : Path) (c : Code) : All Known' (symlinkStatus p (.ref c)) := by
  unfold symlinkStatus
  refine .call _ _ fun r => ?_
  rcases r with e | a
  · exact .ret _ (known_failure ..)
  · refine .call _ _ fun r => ?_
    rcases r with e | b
    · exact .ret _ (known_failure ..)
    · dsimp only
      split
      · refine .bind (rel_isReparsePointSymlink p _).isRef fun v hv => .ret _ ⟨hv, fun h => ?_⟩
        dsimp only at h
        split at h <;> cases h
      · refine .ret _ ⟨⟨_, rfl⟩, fun h => ?_⟩
        dsimp only at h
        split at h <;> cases h

/-! ## Operations -/

theorem rel_currentPath (c : Code) : Rel A (currentPath (.ref c)) (currentPath .null) := by
  refine .call' fun (size : Nat) => .call' fun r => ?_
  rcases r with e | _ | s
  · exact .reportMsg ..
  · exact .fault _
  · exact .ok _

theorem rel_setCurrentPath (p : Path) (c : Code) : Rel A (setCurrentPath p (.ref c)) (setCurrentPath p .null) := by
  refine .call' fun r => ?_
  rcases r with e | s
  · exact .report ..
  · exact .ok _

theorem rel_doAbsolute (p : Path) (c : Code) : Rel A (doAbsolute p (.ref c)) (doAbsolute p .null) := by
  simp only [doAbsolute, clear_ref, clear_null]
  refine .ofRes fun b => ?_
  split
  · exact .ok _
  · refine .bind' (rel_currentPath _) (fun v => ?_) (fun v e x h => ?_)
    · simp only [isSet_none, isSet_null]
      exact .ofRes fun r => .ok _
    · exact .err _ _ _ h

theorem rel_absolute (p : Path) (c : Code) : Rel A (absolute p (.ref c)) (absolute p .null) := by
  simp only [absolute]
  exact .bind' (rel_doAbsolute p c) (fun v => .ok _) (fun v e x h => .err _ _ _ h)

theorem rel_createDirectory (p : Path) (c : Code) : Rel A (createDirectory p (.ref c)) (createDirectory p .null) := by
  refine .call' fun r => ?_
  rcases r with e | s
  · by_cases h : e.winValue ≠ ERROR_ALREADY_EXISTS
    · simp only [if_pos h]
      exact .bind' (.report ..) (fun _ => .ok _) (fun _ e x h => .err _ _ _ h)
    · simp only [if_neg h]
      exact .ok _
  · exact .ok _

theorem rel_createDirectoryLike (p q : Path) (c : Code) :
    Rel A (createDirectoryLike p q (.ref c)) (createDirectoryLike p q .null) := by
  refine .call' fun r => ?_
  rcases r with e | s
  · by_cases h : e.winValue ≠ ERROR_ALREADY_EXISTS
    · simp only [if_pos h]
      exact .bind' (.report ..) (fun _ => .ok _) (fun _ e x h => .err _ _ _ h)
    · simp only [if_neg h]
      exact .ok _
  · exact .ok _

theorem noThrow_missingOf (el : Bool) (n : Nat) (p : Path) (acc : List Path) : NoThrow A (missingOf el n p acc) := by
  induction n generalizing p acc with
  | zero => exact .fuel
  | succ n ih =>
    simp only [missingOf]
    refine .bind (.ofRes _) fun b => ?_
    split
    · exact .bind (.ofRes _) fun f => .bind (.ofRes _) fun _ => ih ..
    · exact .ret _

theorem noThrow_isDirectoryP (p : Path) (ec : EcArg) : NoThrow A (isDirectoryP p ec) :=
  .bind (noThrow_status ..) fun _ => .ret _

theorem noThrow_createTop (p : Path) (b : Bool) : NoThrow A (createTop p b) := by
  unfold createTop
  refine .bindAll (noThrow_status ..) (all_status p none) fun x hx => ?_
  obtain ⟨st, ec⟩ := x
  obtain ⟨⟨c, rfl⟩, _⟩ := hx
  refine .bind ?_ fun z => ?_
  · split
    · exact .bind (rel_createDirectory ..).noThrow fun _ => .ret _
    · exact .ret _
  · split
    · exact .bind (noThrow_isDirectoryP ..) fun _ => .ret _
    · exact .ret _

theorem noThrow_createMissing (ps : List Path) (b : Bool) : NoThrow A (createMissing ps b) := by
  induction ps generalizing b with
  | nil => exact .ret _
  | cons p ps ih =>
    unfold createMissing
    refine .bind (noThrow_createTop ..) fun x => ?_
    split
    · exact .ret _
    · exact ih _

theorem rel_createDirectories (el : Bool) (n : Nat) (p : Path) (c : Code) :
    Rel A (createDirectories el n p (.ref c)) (createDirectories el n p .null) := by
  simp only [createDirectories, clear_ref, clear_null]
  split
  · exact .report ..
  · refine .prefix (noThrow_missingOf ..) fun m => ?_
    split
    · exact .ok _
    · refine .prefix (noThrow_createMissing ..) fun x => ?_
      obtain ⟨b, m, d⟩ := x
      cases m
      · exact .ok _
      · exact .report ..

theorem rel_createSymlinkAs (f : Str) (d : Bool) (a b : Path) (c : Code) :
    Rel A (createSymlinkAs f d a b (.ref c)) (createSymlinkAs f d a b .null) := by
  refine .call' fun r => ?_
  rcases r with e | s
  · exact .report ..
  · exact .ok _

theorem rel_createHardLink (a b : Path) (c : Code) : Rel A (createHardLink a b (.ref c)) (createHardLink a b .null) := by
  refine .call' fun r => ?_
  rcases r with e | s
  · exact .report ..
  · exact .ok _

theorem rel_readSymlink (p : Path) (c : Code) : Rel A (readSymlink p (.ref c)) (readSymlink p .null) := by
  refine rel_withFile (fun e => .report ..) fun h => .call' fun r => ?_
  rcases r with e | s
  · exact .report ..
  · exact .ofRes fun _ => .ok _

theorem rel_copySymlink (a b : Path) (c : Code) : Rel A (copySymlink a b (.ref c)) (copySymlink a b .null) := by
  simp only [copySymlink, clear_ref, clear_null]
  refine .prefix (rel_readSymlink a none).noThrow fun v => ?_
  obtain ⟨v, m⟩ := v
  have rest : ∀ ec, Rel A ((isDirectoryP v ec).bind fun y =>
      if y.2.isSet = true then Handler.report ⟨"copy_symlink".toList, some a, some b⟩ (.ref none) y.2.code ()
      else if y.1 = true then createDirectorySymlink v b (.ref none) else createSymlink v b (.ref none))
      ((isDirectoryP v ec).bind fun y =>
      if y.2.isSet = true then Handler.report ⟨"copy_symlink".toList, some a, some b⟩ .null y.2.code ()
      else if y.1 = true then createDirectorySymlink v b .null else createSymlink v b .null) := by
    intro ec
    refine .prefix (noThrow_isDirectoryP ..) fun y => ?_
    obtain ⟨y, m⟩ := y
    rcases m with _ | _ | e
    case ref.some => exact .report ..
    all_goals
      simp only [isSet_none, isSet_null, Bool.false_eq_true, if_false]
      split <;> exact rel_createSymlinkAs ..
  rcases m with _ | _ | e
  · exact rest _
  · exact rest _
  · exact .report ..

theorem rel_equivalent (p q : Path) (c : Code) : Rel A (equivalent p q (.ref c)) (equivalent p q .null) := by
  refine rel_withFile (fun e => .report ..) fun h1 => rel_withFile (fun e => .report ..) fun h2 => .call' fun r => ?_
  rcases r with e | i
  · exact .report ..
  · refine .call' fun r => ?_
    rcases r with e | j
    · exact .report ..
    · exact .ok _

theorem rel_fileSize (p : Path) (c : Code) : Rel A (fileSize p (.ref c)) (fileSize p .null) := by
  refine .call' fun r => ?_
  rcases r with e | a
  · exact .report ..
  · dsimp only
    split
    · exact .reportMsg ..
    · exact .ok _

theorem rel_hardLinkCount (p : Path) (c : Code) : Rel A (hardLinkCount p (.ref c)) (hardLinkCount p .null) := by
  refine rel_withFile (fun e => .report ..) fun h => .call' fun r => ?_
  rcases r with e | a
  · exact .report ..
  · exact .ok _

theorem rel_lastWriteTime (k : SysClock) (p : Path) (c : Code) : Rel A (lastWriteTime k p (.ref c)) (lastWriteTime k p .null) := by
  refine rel_withFile (fun e => .report ..) fun h => .call' fun r => ?_
  rcases r with e | a
  · exact .report ..
  · exact .ofRes fun _ => .ok _

theorem rel_setLastWriteTime (k : SysClock) (p : Path) (t : Int) (c : Code) :
    Rel A (setLastWriteTime k p t (.ref c)) (setLastWriteTime k p t .null) := by
  refine rel_withFile (fun e => .report ..) fun h => .ofRes fun x => ?_
  obtain ⟨ft, m⟩ := x
  rcases m with _ | e
  · refine .call' fun r => ?_
    rcases r with e | a
    · exact .report ..
    · exact .ok _
  · exact .report ..

theorem rel_putPerms (p : Path) (m : Perms) : Rel A (putPerms p m (.ref none)) (putPerms p m .null) := by
  refine .call' fun r => ?_
  rcases r with e | a
  · exact .report ..
  · exact .ok _

theorem rel_permissions (p : Path) (prms : Perms) (o : PermOptions) (c : Code) :
    Rel A (permissions p prms o (.ref c)) (permissions p prms o .null) := by
  simp only [permissions, clear_ref, clear_null]
  split
  · exact .fault _
  · split
    · refine .prefix (by split; exact noThrow_status ..; exact noThrow_symlinkStatus ..) fun v => ?_
      obtain ⟨st, m⟩ := v
      rcases m with _ | _ | e
      case ref.some => exact .report ..
      all_goals
        simp only [isSet_none, isSet_null, Bool.false_eq_true, if_false]
        split
        · exact .fault _
        · exact rel_putPerms ..
    · exact rel_putPerms ..

theorem rel_remove (p : Path) (c : Code) : Rel A (remove p (.ref c)) (remove p .null) := by
  unfold remove
  simp only [clear_ref, clear_null]
  have fin : ∀ r : Except Errno Unit, Rel A
      (match r with
        | .ok () => .ret (true, .ref none)
        | .error e => if e.winValue ≠ ERROR_FILE_NOT_FOUND then
            (Handler.report ⟨"remove".toList, some p, none⟩ (.ref none) (some e) false).bind fun x => .ret (false, x.2)
          else .ret (true, .ref none))
      (match r with
        | .ok () => .ret (true, .null)
        | .error e => if e.winValue ≠ ERROR_FILE_NOT_FOUND then
            (Handler.report ⟨"remove".toList, some p, none⟩ .null (some e) false).bind fun x => .ret (false, x.2)
          else .ret (true, .null)) := by
    rintro (e | _)
    · dsimp only
      split
      · exact .bind' (.report ..) (fun _ => .ok _) (fun _ e x h => .err _ _ _ h)
      · exact .ok _
    · exact .ok _
  split
  · exact .ok _
  · refine .call' fun r => ?_
    rcases r with e | a
    · dsimp only
      split
      · exact .ok _
      · exact .report ..
    · dsimp only
      split
      · exact .call' fun r => fin r
      · exact .call' fun r => fin r

theorem rel_rename (a b : Path) (c : Code) : Rel A (rename a b (.ref c)) (rename a b .null) := by
  refine .call' fun r => ?_
  rcases r with e | s
  · exact .prefix noThrow_captureErrno fun e => .report ..
  · exact .ok _

theorem rel_resizeFile (p : Path) (n : BitVec 64) (c : Code) : Rel A (resizeFile p n (.ref c)) (resizeFile p n .null) := by
  refine rel_withFile (fun e => .report ..) fun h => .call' fun r => ?_
  rcases r with e | s
  · exact .report ..
  · refine .call' fun r => ?_
    rcases r with e | s
    · exact .report ..
    · exact .ok _

theorem rel_tempDirectoryPath (c : Code) : Rel A (tempDirectoryPath (.ref c)) (tempDirectoryPath .null) := by
  refine .call' fun r => ?_
  rcases r with (_ | e) | s
  · exact .fault _
  · exact .reportMsg ..
  · refine .prefixAll (noThrow_status ..) (all_status _ none) fun x hx => ?_
    obtain ⟨st, ec⟩ := x
    obtain ⟨⟨m, rfl⟩, hx⟩ := hx
    cases hk : st.known with
    | false =>
      have hx : (EcArg.ref m).isSet = true := hx hk
      rcases m with _ | e
      · cases hx
      · simp only [hk, Bool.not_false, if_true]
        exact .reportMsg ..
    | true =>
      simp only [hk, Bool.not_true, Bool.false_eq_true, if_false]
      split
      · exact .reportMsg ..
      · exact .ok _

theorem rel_shouldCopy (k : SysClock) (h : Handler) (a b : Path) (te : Bool) (o : CopyOptions) :
    Rel A (shouldCopy k h a b te o (.ref none)) (shouldCopy k h a b te o .null) := by
  unfold shouldCopy
  split
  · refine .prefixAll (rel_lastWriteTime k a none).noThrow (rel_lastWriteTime k a none).isRef fun x hx => ?_
    obtain ⟨x, ec⟩ := x
    obtain ⟨m, rfl⟩ := hx
    rcases m with _ | e
    · refine .prefixAll (rel_lastWriteTime k b none).noThrow (rel_lastWriteTime k b none).isRef fun x hx => ?_
      obtain ⟨x, ec⟩ := x
      obtain ⟨m, rfl⟩ := hx
      rcases m with _ | e
      · exact .ok _
      · exact .report ..
    · exact .report ..
  · split
    · exact .ok _
    · exact .report ..

theorem rel_doCopy (h : Handler) (a b : Path) (v : Bool) :
    Rel A (doCopy h a b (v, .ref none)) (doCopy h a b (v, .null)) := by
  unfold doCopy
  cases v
  · exact .ok _
  · refine .call' fun r => ?_
    rcases r with e | s
    · exact .report ..
    · exact .ok _

/-- What a failed `ShouldCopy` answers. -/
theorem all_shouldCopy (k : SysClock) (h : Handler) (a b : Path) (te : Bool) (o : CopyOptions) (ec : EcArg) (he : ec.isSet = false) :
    All (fun v : Bool × EcArg => v.2.isSet = true → v.1 = false) (shouldCopy k h a b te o ec) := by
  have rep : ∀ c, All (fun v : Bool × EcArg => v.2.isSet = true → v.1 = false) (h.report ec c false) := by
    intro c
    cases ec
    · exact .stop _
    · exact .ret _ fun _ => rfl
  unfold shouldCopy
  split
  · refine .bind (.trivial _) fun x _ => ?_
    split
    · exact rep _
    · refine .bind (.trivial _) fun x _ => ?_
      split
      · exact rep _
      · refine .ret _ fun h => ?_
        rw [show EcArg.isSet _ = true from h] at he
        cases he
  · split
    · refine .ret _ fun h => ?_
      rw [show EcArg.isSet _ = true from h] at he
      cases he
    · exact rep _

theorem rel_copyFile (k : SysClock) (a b : Path) (o : CopyOptions) (c : Code) :
    Rel A (copyFile k a b o (.ref c)) (copyFile k a b o .null) := by
  simp only [copyFile, clear_ref, clear_null]
  refine .prefixAll (noThrow_status ..) (all_status a none) fun f hf => ?_
  obtain ⟨f, ec⟩ := f
  obtain ⟨⟨m, rfl⟩, _⟩ := hf
  rcases m with _ | e
  · simp only [isSet_none, Bool.false_eq_true, if_false]
    split
    · exact .report ..
    · refine .prefixAll (noThrow_status ..) (all_status b none) fun t ht => ?_
      obtain ⟨t, ec⟩ := t
      obtain ⟨⟨m, rfl⟩, hk⟩ := ht
      cases hkn : t.known with
      | false =>
        have hk : (EcArg.ref m).isSet = true := hk hkn
        rcases m with _ | e
        · cases hk
        · simp only [hkn, Bool.not_false, if_true]
          exact .report ..
      | true =>
        simp only [hkn, Bool.not_true, Bool.false_eq_true, if_false]
        split
        · exact .report ..
        · refine .prefix ?_ fun x => ?_
          · split
            · exact (rel_equivalent ..).noThrow
            · exact .ret _
          · split
            · exact .report ..
            · split
              · exact .ok _
              · refine .bindAll (rel_shouldCopy ..) (all_shouldCopy _ _ _ _ _ _ _ rfl) (fun v _ => rel_doCopy ..) fun v e x hq h => ?_
                have hv : v = false := hq rfl
                subst hv
                exact .err _ _ _ h
  · exact .report ..

/-! ## Iterators -/

theorem noThrow_setEntry (s : Stream) (d : FindData) : NoThrow A (setEntry s d) := .bind (.ofRes _) fun _ => .ret _

theorem noThrow_close (s : Stream) : NoThrow A (Stream.close s) := by
  unfold Stream.close
  split
  · exact .call _ _ fun _ _ => .ret _
  · exact .ret _

theorem noThrow_destroy (it : DirIter) : NoThrow A (destroy it) := by
  cases it
  · exact .ret _
  · exact .bind (noThrow_close _) fun _ => .ret _

theorem noThrow_advance (n : Nat) (s : Stream) : NoThrow A (Stream.advance n s) := by
  induction n generalizing s with
  | zero => exact .fuel
  | succ n ih =>
    unfold Stream.advance
    split
    · exact .ret _
    · refine .call _ _ fun r _ => ?_
      rcases r with e | ent
      · exact .bind (noThrow_close _) fun _ => .ret _
      · dsimp only
        split
        · exact ih _
        · exact .bind (noThrow_setEntry ..) fun _ => .ret _

theorem noThrow_skipDots (d n : Nat) (ent : FindData) : NoThrow A (skipDots d n ent) := by
  induction n generalizing ent with
  | zero => exact .fuel
  | succ n ih =>
    unfold skipDots
    split
    · refine .call _ _ fun r _ => ?_
      rcases r with e | ent
      · exact .call _ _ fun _ _ => .ret _
      · exact ih _
    · exact .ret _

theorem noThrow_streamNew (n : Nat) (p : Path) (o : DirOptions) : NoThrow A (Stream.new n p o) := by
  unfold Stream.new
  refine .call _ _ fun r _ => ?_
  rcases r with e | ⟨d, ent⟩
  · exact .ret _
  · refine .bind (noThrow_skipDots ..) fun x => ?_
    cases x
    · exact .call _ _ fun _ _ => .ret _
    · exact .bind (noThrow_setEntry ..) fun _ => .ret _

/-- A new stream that is good comes without an error. -/
theorem all_streamNew (n : Nat) (p : Path) (o : DirOptions) :
    All (fun v => v.1.good = true → v.2 = none) (Stream.new n p o) := by
  unfold Stream.new
  refine .call _ _ fun r => ?_
  rcases r with e | ⟨d, ent⟩
  · exact .ret _ (by intro h; cases h)
  · refine .bind (.trivial _) fun x _ => ?_
    cases x
    · exact .call _ _ fun _ => .ret _ (by intro h; cases h)
    · exact .bind (.trivial _) fun _ _ => .ret _ fun _ => rfl

theorem rel_dirIterNew (n : Nat) (p : Path) (o : DirOptions) (c : Code) :
    Rel A (DirIter.new n p o (.ref c)) (DirIter.new n p o .null) := by
  simp only [DirIter.new, clear_ref, clear_null]
  refine .prefixAll (noThrow_streamNew ..) (all_streamNew ..) fun v hv => ?_
  obtain ⟨s, m⟩ := v
  simp only [assign_ref, assign_null]
  split
  · rcases m with _ | e
    · exact .ok _
    · exact .bind' (α := Unit) (.err () e _ (Handler.error_code ..)) (fun _ => .ok _) (fun _ e x h => .err _ _ _ h)
  · rename_i h
    have : m = none := hv (by simpa using h)
    subst this
    exact .ok _

theorem rel_dirIterIncr (n : Nat) (it : DirIter) (c : Code) :
    Rel A (DirIter.incr n it (.ref c)) (DirIter.incr n it .null) := by
  cases it with
  | none =>
    exact .bind' (.reportMsg ..) (fun _ => .ok _) (fun _ e x h => .err _ _ _ h)
  | some s =>
    simp only [DirIter.incr, clear_ref, clear_null]
    refine .prefix (noThrow_advance ..) fun v => ?_
    obtain ⟨b, s', m⟩ := v
    simp only
    split
    · exact .ok _
    · rcases m with _ | e
      · exact .ok _
      · exact .bind' (.reportMsg ..) (fun _ => .ok _) (fun _ e x h => .err _ _ _ h)

theorem noThrow_closeAll (ss : List Stream) : NoThrow A (closeAll ss) := by
  induction ss with
  | nil => exact .ret _
  | cons s ss ih => exact .bind ih fun _ => .bind (noThrow_close s) fun _ => .ret _

theorem noThrow_advanceStack (n : Nat) (ss : List Stream) : NoThrow A (advanceStack n ss) := by
  induction ss with
  | nil => exact .ret _
  | cons s ss ih =>
    simp only [advanceStack]
    refine .bind (noThrow_advance ..) fun v => ?_
    obtain ⟨b, s', m⟩ := v
    simp only
    split
    · exact .ret _
    · cases m
      · exact ih
      · exact .ret _

theorem rel_recIterNew (n : Nat) (p : Path) (o : DirOptions) (c : Code) :
    Rel A (RecIter.new n p o (.ref c)) (RecIter.new n p o .null) := by
  simp only [RecIter.new, clear_ref, clear_null]
  refine .prefix (noThrow_streamNew ..) fun v => ?_
  obtain ⟨s, m⟩ := v
  rcases m with _ | e
  · simp only
    split <;> exact .ok _
  · exact .bind' (.finally' (.report ..) (noThrow_destroy _)) (fun _ => .ok _)
      (fun _ e x h => .err _ _ _ h)

theorem rel_recIterAdvance (n : Nat) (it : RecIter) (c : Code) :
    Rel A (RecIter.advance n it (.ref c)) (RecIter.advance n it .null) := by
  obtain ⟨impl, rc⟩ := it
  cases impl with
  | none =>
    exact .bind' (.reportMsg ..) (fun _ => .ok _) (fun _ e x h => .err _ _ _ h)
  | some w =>
    obtain ⟨stack, opts⟩ := w
    simp only [RecIter.advance, clear_ref, clear_null]
    refine .prefix (noThrow_advanceStack ..) fun v => ?_
    obtain ⟨stack, m⟩ := v
    rcases m with _ | e
    · simp only
      split <;> exact .ok _
    · exact .prefix (noThrow_closeAll _) fun _ =>
        .bind' (.reportMsg ..) (fun _ => .ok _) (fun _ e x h => .err _ _ _ h)

/-! ## `directory_entry` -/

theorem noThrow_basicReparse (e : Entry) (a : Mask) : NoThrow A (basicReparse e a) := by
  unfold basicReparse
  split
  · refine .bind (rel_isReparsePointSymlink ..).noThrow fun x => ?_
    split <;> exact .ret _
  · exact .ret _

theorem noThrow_basicOpen (p : Path) (a : Mask) (c : Cache) : NoThrow A (basicOpen p a c) := by
  refine noThrow_withFile (fun _ => .ret _) fun h => .call _ _ fun r _ => ?_
  rcases r with e | i
  · exact .ret _
  · dsimp only
    split
    · exact .ret _
    · split
      · exact .ret _
      · refine .call _ _ fun (t : Mask) _ => ?_
        split
        · exact .ret _
        · split
          · exact .ret _
          · exact .bind noThrow_captureErrno fun _ => .ret _

theorem rel_updateBasic (b : Bool) (e : Entry) (c : Code) : Rel A (updateBasic b e (.ref c)) (updateBasic b e .null) := by
  have fails : ∀ (k : Cache) (m : Code), m ≠ none → Rel A
      ((Handler.report ⟨"UpdateBasicFileInformation".toList, some e.path, none⟩ (.ref none) m ()).bind fun x =>
        .ret (({ e with cache := k } : Entry), x.2))
      ((Handler.report ⟨"UpdateBasicFileInformation".toList, some e.path, none⟩ .null m ()).bind fun x =>
        .ret (({ e with cache := k } : Entry), x.2)) := by
    intro k m hm
    rcases m with _ | m
    · exact absurd rfl hm
    · exact .bind' (.report ..) (fun _ => .ok _) (fun _ e x h => .err _ _ _ h)
  have opens : ∀ (attrs : Mask) (c : Cache), NoThrow A
      (if (decide (c.type = .none) || (decide (c.type = .symlink) && b)) = true then basicOpen e.path attrs c else .ret (c, none)) := by
    intro attrs c
    split
    · exact noThrow_basicOpen ..
    · exact .ret _
  refine .call' fun r => ?_
  rcases r with m | attrs
  · exact fails _ _ (by simp)
  · refine .prefix (noThrow_basicReparse ..) fun x => ?_
    split
    · rename_i hx; exact fails _ _ hx
    · refine .prefix (opens _ _) fun y => ?_
      split
      · rename_i hx; exact fails _ _ hx
      · exact .ok _

theorem rel_extraLink (k : SysClock) (p : Path) (h : Handler) (x : Cache) :
    Rel A (extraLink k p h x (.ref none)) (extraLink k p h x .null) := by
  refine rel_withFile (fun m => .bind' (.report ..) (fun _ => .ok _) (fun _ e x h => .err _ _ _ h)) fun fd => .call' fun r => ?_
  rcases r with m | i
  · exact .bind' (.report ..) (fun _ => .ok _) (fun _ e x h => .err _ _ _ h)
  · dsimp only
    split
    · exact .bind' (.reportMsg ..) (fun _ => .ok _) (fun _ e x h => .err _ _ _ h)
    · refine .call' fun r => ?_
      rcases r with m | ft
      · exact .bind' (.report ..) (fun _ => .ok _) (fun _ e x h => .err _ _ _ h)
      · exact .ofRes fun _ => .ok _

theorem rel_updateExtra (k : SysClock) (e : Entry) (c : Code) : Rel A (updateExtra k e (.ref c)) (updateExtra k e .null) := by
  have key : ∀ x : Cache, Rel A
      (if x.symlink = true then
        (extraLink k e.path ⟨"UpdateExtraFileInformation".toList, some e.path, none⟩ x (.ref none)).bind fun y =>
          .ret (({ e with cache := y.1 } : Entry), y.2)
        else .ret (({ e with cache := { x with cacheType := .extra } } : Entry), .ref none))
      (if x.symlink = true then
        (extraLink k e.path ⟨"UpdateExtraFileInformation".toList, some e.path, none⟩ x .null).bind fun y =>
          .ret (({ e with cache := y.1 } : Entry), y.2)
        else .ret (({ e with cache := { x with cacheType := .extra } } : Entry), .null)) := by
    intro x
    split
    · exact .bind' (rel_extraLink ..) (fun _ => .ok _) (fun _ e x h => .err _ _ _ h)
    · exact .ok _
  simp only [updateExtra, clear_ref, clear_null]
  split
  · exact .fault _
  · refine .call' fun r => ?_
    rcases r with m | fd
    · exact .err _ _ _ (Handler.error_code ..)
    · refine .call' fun r => ?_
      rcases r with m | i
      · exact .call' fun _ => .err _ _ _ (Handler.error_code ..)
      · refine .call' fun _ => ?_
        exact key _

theorem noThrow_handlePerms (p : Path) (o : WinOpen) : NoThrow A (handlePerms p o) := by
  refine noThrow_withFile (fun _ => .ret _) fun h => .call _ _ fun r _ => ?_
  rcases r with m | a
  · exact .ret _
  · refine .call _ _ fun r _ => ?_
    rcases r with m | a <;> exact .ret _

theorem rel_updatePerms (b : Bool) (e : Entry) (c : Code) : Rel A (updatePerms b e (.ref c)) (updatePerms b e .null) := by
  have fails : ∀ (k : Cache) (m : Code), m ≠ none → Rel A
      ((Handler.report ⟨"UpdatePermissionsInformation".toList, some e.path, none⟩ (.ref none) m ()).bind fun x =>
        .ret (({ e with cache := k } : Entry), x.2))
      ((Handler.report ⟨"UpdatePermissionsInformation".toList, some e.path, none⟩ .null m ()).bind fun x =>
        .ret (({ e with cache := k } : Entry), x.2)) := by
    intro k m hm
    rcases m with _ | m
    · exact absurd rfl hm
    · exact .bind' (.report ..) (fun _ => .ok _) (fun _ e x h => .err _ _ _ h)
  have key : ∀ k : Cache, Rel A
      (if (k.symlink && b) = true then
        (handlePerms e.path noFollow).bind fun y =>
          let c := match y.1 with
            | none => k
            | some prms => { k with nonSymlinkPerms := prms }
          if y.2 ≠ none then
            (Handler.report ⟨"UpdatePermissionsInformation".toList, some e.path, none⟩ (.ref none) y.2 ()).bind fun x =>
              .ret (({ e with cache := c } : Entry), x.2)
          else .ret (({ e with cache := { c with permsResolved := true, cacheType := .full } } : Entry), .ref none)
        else .ret (({ e with cache := { k with cacheType := .full } } : Entry), .ref none))
      (if (k.symlink && b) = true then
        (handlePerms e.path noFollow).bind fun y =>
          let c := match y.1 with
            | none => k
            | some prms => { k with nonSymlinkPerms := prms }
          if y.2 ≠ none then
            (Handler.report ⟨"UpdatePermissionsInformation".toList, some e.path, none⟩ .null y.2 ()).bind fun x =>
              .ret (({ e with cache := c } : Entry), x.2)
          else .ret (({ e with cache := { c with permsResolved := true, cacheType := .full } } : Entry), .null)
        else .ret (({ e with cache := { k with cacheType := .full } } : Entry), .null)) := by
    intro k
    split
    · refine .prefix (noThrow_handlePerms ..) fun y => ?_
      rcases y with ⟨_ | prms, _ | m⟩
      · exact .ok _
      · exact fails _ _ (by simp)
      · exact .ok _
      · exact fails _ _ (by simp)
    · exact .ok _
  simp only [updatePerms, clear_ref, clear_null]
  split
  · exact .fault _
  · refine .prefix (noThrow_handlePerms ..) fun x => ?_
    rcases x with ⟨_ | prms, _ | m⟩
    · exact key e.cache
    · exact fails _ _ (by simp)
    · exact key (if e.cache.symlink then { e.cache with symlinkPerms := prms } else { e.cache with nonSymlinkPerms := prms })
    · exact fails _ _ (by simp)

/-- An error the observer does not forgive. -/
theorem rel_handleError (msg : Str) (e : Entry) (m : Errno) (c : Code) :
    Rel A (handleError msg e (some m) false (.ref c)) (handleError msg e (some m) false .null) := by
  simp only [handleError]
  rw [if_pos (by simp)]
  exact .err _ _ _ rfl

theorem noThrow_refreshImpl (k : SysClock) (e : Entry) : NoThrow A (refreshImpl k e) := by
  unfold refreshImpl
  refine .bind (rel_updateBasic ..).noThrow fun x => ?_
  split
  · exact .ret _
  · refine .bind (rel_updateExtra ..).noThrow fun x => ?_
    split
    · exact .ret _
    · exact .bind (rel_updatePerms ..).noThrow fun _ => .ret _

theorem noThrow_getSymLinkFileType (e : Entry) (c : Code) : NoThrow A (getSymLinkFileType e (.ref c)) := by
  simp only [getSymLinkFileType, clear_ref]
  refine .bindAll (Q := fun v => v.2.2.IsRef) ?_ ?_ fun v hv => ?_
  · split
    · exact .bind (rel_updateBasic ..).noThrow fun _ => .ret _
    · exact .ret _
  · split
    · exact .bind (rel_updateBasic ..).isRef fun _ h => .ret _ h
    · exact .ret _ ⟨_, rfl⟩
  · obtain ⟨b, e, ec⟩ := v
    obtain ⟨c, rfl⟩ := hv
    dsimp only
    split
    · exact .ret _
    · split
      · exact .ret _
      · split
        · exact .ret _
        · exact .ret _

theorem noThrow_getFileType (e : Entry) (c : Code) : NoThrow A (getFileType e (.ref c)) := by
  simp only [getFileType, clear_ref]
  refine .bindAll (Q := fun v => v.2.IsRef) ?_ ?_ fun v hv => ?_
  · split
    · exact (rel_updateBasic ..).noThrow
    · exact .ret _
  · split
    · exact (rel_updateBasic ..).isRef
    · exact .ret _ ⟨_, rfl⟩
  · obtain ⟨e, ec⟩ := v
    obtain ⟨c, rfl⟩ := hv
    exact .ret _

theorem rel_getSize (k : SysClock) (e : Entry) (c : Code) (he : e.cache.cacheType ≠ .empty) :
    Rel A (getSize k e (.ref c)) (getSize k e .null) := by
  have extra : Rel A ((updateExtra k e (.ref none)).bind fun x => .ret ((x.1.cache.size, x.1), x.2))
      ((updateExtra k e .null).bind fun x => .ret ((x.1.cache.size, x.1), x.2)) :=
    .bind' (rel_updateExtra ..) (fun _ => .ok _) (fun _ e x h => .err _ _ _ h)
  simp only [getSize, clear_ref, clear_null]
  split
  · rename_i h; exact absurd h he
  · exact extra
  · split
    · exact extra
    · exact .ok _
  · exact .ok _

theorem rel_getHardLinkCount (k : SysClock) (e : Entry) (c : Code) (he : e.cache.cacheType ≠ .empty) :
    Rel A (getHardLinkCount k e (.ref c)) (getHardLinkCount k e .null) := by
  simp only [getHardLinkCount, clear_ref, clear_null]
  split
  · rename_i h; exact absurd h he
  · exact .bind' (rel_updateExtra ..) (fun _ => .ok _) (fun _ e x h => .err _ _ _ h)
  · exact .ok _

/-! ## Recursion -/

theorem noThrow_recursionType (o : DirOptions) (e : Entry) : NoThrow A (recursionType o e) := by
  unfold recursionType
  split
  · exact .bind (noThrow_getSymLinkFileType ..) fun _ => .ret _
  · exact .bind (noThrow_getFileType ..) fun _ => .ret _

theorem rel_recIterTry (n : Nat) (it : RecIter) (c : Code) :
    Rel A (RecIter.tryRecursion n it (.ref c)) (RecIter.tryRecursion n it .null) := by
  obtain ⟨impl, rc⟩ := it
  rcases impl with _ | ⟨_ | ⟨cur, ss⟩, opts⟩
  · exact .bind' (.reportMsg ..) (fun _ => .ok _) (fun _ e x h => .err _ _ _ h)
  · exact .fault _
  · simp only [RecIter.tryRecursion, clear_ref, clear_null]
    refine .prefix (noThrow_recursionType ..) fun v => ?_
    obtain ⟨skip, e, m⟩ := v
    simp only
    refine .prefix ?_ fun v => ?_
    · split
      · refine .bind (noThrow_streamNew ..) fun _ => ?_
        split <;> exact .ret _
      · exact .ret _
    obtain ⟨pushed, m⟩ := v
    rcases pushed with _ | s
    · rcases m with _ | e
      · exact .ok _
      · simp only
        split
        · exact .ok _
        · exact .prefix (noThrow_closeAll _) fun _ =>
            .bind' (.reportMsg ..) (fun _ => .ok _) (fun _ e x h => .err _ _ _ h)
    · exact .ok _

theorem rel_recIterIncr (n : Nat) (it : RecIter) (c : Code) :
    Rel A (RecIter.incr n it (.ref c)) (RecIter.incr n it .null) := by
  simp only [RecIter.incr, clear_ref, clear_null]
  by_cases h : it.recursion = true
  · simp only [h, if_true, Prog.bind_assoc]
    refine .bind' (rel_recIterTry ..) (fun v => ?_) (fun v e x h => ?_)
    · obtain ⟨b, it⟩ := v
      simp only [Prog.ret_bind, isSet_none, isSet_null, Bool.or_false]
      split
      · exact .ok _
      · exact rel_recIterAdvance ..
    · obtain ⟨b, it⟩ := v
      simp only [Prog.ret_bind, isSet_some, Bool.or_true, if_true]
      exact .err _ _ _ h
  · simp only [h, if_false, Prog.ret_bind, Bool.false_eq_true]
    exact rel_recIterAdvance ..

theorem rel_recIterPop (n : Nat) (it : RecIter) (c : Code) :
    Rel A (RecIter.pop n it (.ref c)) (RecIter.pop n it .null) := by
  obtain ⟨impl, rc⟩ := it
  rcases impl with _ | ⟨_ | ⟨cur, ss⟩, opts⟩
  · exact .bind' (.reportMsg ..) (fun _ => .ok _) (fun _ e x h => .err _ _ _ h)
  · exact .fault _
  · simp only [RecIter.pop, clear_ref, clear_null]
    refine .prefix (noThrow_close _) fun _ => ?_
    split
    · exact .ok _
    · exact rel_recIterAdvance ..

/-! ## Walking operations -/

theorem all_dirIterNew (n : Nat) (p : Path) (o : DirOptions) (c : Code) :
    All (fun v => v.2.isSet = true → v.1 = none) (DirIter.new n p o (.ref c)) := by
  simp only [DirIter.new, clear_ref]
  refine .bind (all_streamNew ..) fun v hv => ?_
  obtain ⟨s, m⟩ := v
  simp only [assign_ref]
  split
  · rcases m with _ | e
    · exact .ret _ fun _ => rfl
    · exact .ret _ fun _ => rfl
  · rename_i h
    have : m = none := hv (by simpa using h)
    subst this
    exact .ret _ (by simp)

theorem rel_isEmptyFile (n : Nat) (p : Path) (c : Code) :
    Rel A (isEmptyFile n p (.ref c)) (isEmptyFile n p .null) := by
  refine .call' fun r => ?_
  rcases r with e | st
  · exact .report ..
  · dsimp only
    split
    · simp only [isEmptyDirectory]
      refine .bindAll (rel_dirIterNew ..) (all_dirIterNew ..) (fun v _ => ?_) (fun v e x hq h => ?_)
      · exact .prefix (noThrow_destroy _) fun _ => .ok _
      · have : v = none := hq rfl
        subst this
        exact .err _ _ _ h
    · exact .ok _

theorem noThrow_removeLoop (rec : Path → Prog (BitVec 64 × Code)) (hr : ∀ p, NoThrow A (rec p))
    (n : Nat) (it : DirIter) (k : BitVec 64) : NoThrow A (removeLoop rec n it k) := by
  induction n generalizing it k with
  | zero => exact .fuel
  | succ n ih =>
    rcases it with _ | s
    · exact .ret _
    · simp only [removeLoop]
      refine .bind (hr _) fun v => ?_
      obtain ⟨o, m⟩ := v
      simp only
      split
      · exact .bind (noThrow_destroy _) fun _ => .ret _
      · refine .bind (rel_dirIterIncr ..).noThrow fun v => ?_
        obtain ⟨it, ec⟩ := v
        simp only
        split
        · exact .ret _
        · exact ih ..

theorem noThrow_doRemoveAll (n : Nat) (p : Path) : NoThrow A (doRemoveAll n p) := by
  induction n generalizing p with
  | zero => exact .fuel
  | succ n ih =>
    simp only [doRemoveAll]
    refine .bindAll (noThrow_symlinkStatus ..) (all_symlinkStatus p none) fun x hx => ?_
    obtain ⟨st, ec⟩ := x
    obtain ⟨⟨c, rfl⟩, _⟩ := hx
    split
    · exact .ret _
    · refine .bind ?_ fun v => ?_
      · split
        · refine .bind (rel_dirIterNew ..).noThrow fun v => ?_
          obtain ⟨it, ec⟩ := v
          simp only
          split
          · exact .ret _
          · exact noThrow_removeLoop _ ih ..
        · exact .ret _
      · obtain ⟨k, m⟩ := v
        simp only
        split
        · exact .ret _
        · refine .bind (rel_remove ..).noThrow fun v => ?_
          split <;> exact .ret _

theorem rel_removeAll (n : Nat) (p : Path) (c : Code) :
    Rel A (removeAll n p (.ref c)) (removeAll n p .null) := by
  simp only [removeAll, clear_ref, clear_null]
  split
  · exact .ok _
  · refine .prefix (noThrow_doRemoveAll ..) fun v => ?_
    obtain ⟨k, m⟩ := v
    rcases m with _ | e
    · exact .ok _
    · simp only
      split
      · exact .ok _
      · exact .report ..

theorem rel_copyLoop (h : Handler) (rec : Path → Path → EcArg → Prog (Unit × EcArg)) (to : Path)
    (hr : ∀ a b c, Rel A (rec a b (.ref c)) (rec a b .null)) (n : Nat) (it : DirIter) (m2 : Code) :
    Rel A (copyLoop h rec to n it m2 (.ref none)) (copyLoop h rec to n it m2 .null) := by
  induction n generalizing it m2 with
  | zero => exact .fuel
  | succ n ih =>
    rcases it with _ | s
    · exact .ok _
    · rcases m2 with _ | e
      · simp only [copyLoop, ne_eq, not_true_eq_false, if_false]
        refine .ofRes fun f => .ofRes fun t => .onThrow (hr ..) (fun v => ?_) (fun v e x h => ?_)
        · simp only [isSet_none, isSet_null, Bool.false_eq_true, if_false]
          exact .prefix (rel_dirIterIncr ..).noThrow fun v => ih ..
        · simp only [isSet_some, if_true]
          exact .prefix (noThrow_destroy _) fun _ => .err _ _ _ h
      · exact .finally' (.report ..) (noThrow_destroy _)

theorem rel_copyDir (rec : Path → Path → EcArg → Prog (Unit × EcArg))
    (hr : ∀ a b c, Rel A (rec a b (.ref c)) (rec a b .null)) (n : Nat) (h : Handler) (a b : Path)
    (t : FStatus) : Rel A (copyDir rec n h a b t (.ref none)) (copyDir rec n h a b t .null) := by
  have rest : Rel A
      ((DirIter.new n a .none (.ref none)).bind fun v =>
        if v.2.isSet then .ret ((), v.2) else copyLoop h rec b n v.1 none v.2)
      ((DirIter.new n a .none .null).bind fun v =>
        if v.2.isSet then .ret ((), v.2) else copyLoop h rec b n v.1 none v.2) := by
    refine .bind' (rel_dirIterNew ..) (fun v => ?_) (fun v e x h => .err _ _ _ h)
    simp only [isSet_none, isSet_null, Bool.false_eq_true, if_false]
    exact rel_copyLoop _ _ _ hr ..
  simp only [copyDir]
  split
  · simp only [Prog.bind_assoc]
    refine .bind' (rel_createDirectoryLike ..) (fun v => ?_) (fun v e x h => .err _ _ _ h)
    exact rest
  · exact rest

theorem rel_copyDispatch (k : SysClock) (rec : Path → Path → EcArg → Prog (Unit × EcArg))
    (hr : ∀ a b c, Rel A (rec a b (.ref c)) (rec a b .null)) (n : Nat) (h : Handler) (a b : Path)
    (o : CopyOptions) (f t : FStatus) :
    Rel A (copyDispatch k rec n h a b o f t (.ref none)) (copyDispatch k rec n h a b o f t .null) := by
  simp only [copyDispatch]
  split
  · split
    · exact .ok _
    · split
      · exact rel_copySymlink ..
      · exact .report ..
  · split
    · split
      · exact .ok _
      · split
        · exact rel_createSymlinkAs ..
        · split
          · exact rel_createHardLink ..
          · split
            · exact .ofRes fun _ => .ofRes fun _ => .bind' (rel_copyFile ..) (fun _ => .ok _) (fun _ e x h => .err _ _ _ h)
            · exact .bind' (rel_copyFile ..) (fun _ => .ok _) (fun _ e x h => .err _ _ _ h)
    · split
      · exact .report ..
      · split
        · exact rel_copyDir _ hr ..
        · exact .ok _

theorem rel_copy (k : SysClock) (n : Nat) (a b : Path) (o : CopyOptions) (c : Code) :
    Rel A (copy k n a b o (.ref c)) (copy k n a b o .null) := by
  induction n generalizing a b c with
  | zero => exact .fuel
  | succ n ih =>
    simp only [copy, clear_ref, clear_null]
    have nt : ∀ (b : Bool) (p : Path), NoThrow A (if b = true then symlinkStatus p (.ref none) else status p (.ref none)) := by
      intro b p
      split
      · exact noThrow_symlinkStatus ..
      · exact noThrow_status ..
    have al : ∀ (b : Bool) (p : Path), All Known' (if b = true then symlinkStatus p (.ref none) else status p (.ref none)) := by
      intro b p
      split
      · exact all_symlinkStatus ..
      · exact all_status ..
    refine .prefixAll (nt ..) (al ..) fun f hf => ?_
    obtain ⟨f, ec⟩ := f
    obtain ⟨⟨m, rfl⟩, _⟩ := hf
    rcases m with _ | e
    case some => exact .report ..
    simp only [isSet_none, Bool.false_eq_true, if_false]
    refine .prefixAll (nt ..) (al ..) fun t ht => ?_
    obtain ⟨t, ec⟩ := t
    obtain ⟨⟨m, rfl⟩, hk⟩ := ht
    cases hkn : t.known with
    | false =>
      have hk : (EcArg.ref m).isSet = true := hk hkn
      rcases m with _ | e
      · cases hk
      · simp only [Bool.not_false, if_true]
        exact .report ..
    | true =>
      simp only [Bool.not_true, Bool.false_eq_true, if_false]
      split
      · exact .report ..
      · refine .prefixAll (Q := fun v => v.2.IsRef) ?_ ?_ fun x hx => ?_
        · split
          · exact (rel_equivalent ..).noThrow
          · exact .ret _
        · split
          · exact (rel_equivalent ..).isRef
          · exact .ret _ ⟨_, rfl⟩
        obtain ⟨x, ec⟩ := x
        obtain ⟨m, rfl⟩ := hx
        rcases m with _ | e
        · simp only [isSet_none, Bool.false_eq_true, if_false]
          split
          · exact .report ..
          · exact rel_copyDispatch _ _ (fun a b c => ih a b c) ..
        · exact .report ..

end Win
end Asap
