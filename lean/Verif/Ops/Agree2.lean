import Verif.Ops.Agree

/-!
# The two overloads agree: copying, iterating, removing trees
-/

namespace Asap

variable {α β : Type} {A B : Event → Prop}

theorem noThrow_closeFd (fd : Nat) : NoThrow A (closeFd fd) := .call _ _ fun _ _ => .ret _

theorem noThrow_refreshStatus (p : Path) : NoThrow A (refreshStatus p) := by
  rw [refreshStatus_eq]
  refine .call _ _ fun r _ => ?_
  rcases r with e | st <;> exact .ret _

theorem noThrow_sendLoop (o i : Nat) (n : Nat) (c : Int) : NoThrow A (sendLoop o i n c) := by
  induction n generalizing c with
  | zero => exact .fuel
  | succ n ih =>
    refine .call _ _ fun r _ => ?_
    rcases r with e | s
    · exact .ret _
    · simp only
      split
      · exact ih _
      · exact .ret _

theorem noThrow_copyDefault (i o : Nat) (n : Nat) : NoThrow A (copyDefault i o n) := by
  induction n with
  | zero => exact .fuel
  | succ n ih =>
    refine .call _ _ fun r _ => ?_
    rcases r with e | (s : Bytes)
    · exact .ret _
    · cases h : s.isEmpty
      · simp only [h]
        refine .call _ _ fun r _ => ?_
        rcases r with e | s
        · exact .ret _
        · exact ih
      · simp only [h, if_true]; exact .ret _

theorem noThrow_doCopyFile (sf : Bool) (n i o : Nat) (z : Int) : NoThrow A (doCopyFile sf n i o z) := by
  simp only [doCopyFile, Prog.bind_eq]
  have h : ∀ b : Bool, NoThrow A (if b = true then Prog.ret none else copyDefault i o n) := by
    intro b
    split
    · exact .ret _
    · exact noThrow_copyDefault ..
  split
  · refine .bind ?_ h
    simp only [copySendfile, Prog.bind_eq]
    split
    · exact .ret _
    · exact .bind (noThrow_sendLoop ..) fun _ => .ret _
  · exact h false

theorem rel_copyInto (sf : Bool) (n : Nat) (h : Handler) (i : Nat) (fst : Stat) (to : Path)
    (tst : Option Stat) :
    Rel A (copyInto sf n h i fst to tst (.ref none)) (copyInto sf n h i fst to tst .null) := by
  refine .call' fun r => ?_
  rcases r with e | out
  · exact .report ..
  · refine .finally' ?_ (noThrow_closeFd _)
    simp only [Prog.bind_eq]
    refine .prefix (noThrow_refreshStatus _) fun v => ?_
    obtain ⟨⟨s, st⟩, m⟩ := v
    rcases m with _ | e
    · simp only [ne_eq, not_true_eq_false, if_false]
      have fin : Rel A ((doCopyFile sf n i out fst.size.toInt).bind fun m =>
            if m ≠ none then h.report (.ref none) m false else .ret (true, .ref none))
          ((doCopyFile sf n i out fst.size.toInt).bind fun m =>
            if m ≠ none then h.report .null m false else .ret (true, .null)) := by
        refine .prefix (noThrow_doCopyFile ..) fun m => ?_
        rcases m with _ | e
        · exact .ok _
        · exact .report ..
      cases tst with
      | none => exact fin
      | some tst =>
        simp only
        split
        · exact .report ..
        · refine .call' fun r => ?_
          rcases r with e | s
          · exact .report ..
          · refine .call' fun r => ?_
            rcases r with e | s
            · exact .report ..
            · exact fin
    · exact .report ..

theorem rel_copyOpened (sf : Bool) (n : Nat) (h : Handler) (a b : Path) (o : CopyOptions) (i : Nat) :
    Rel A (copyOpened sf n h a b o i (.ref none)) (copyOpened sf n h a b o i .null) := by
  simp only [copyOpened, Prog.bind_eq]
  refine .prefix (noThrow_refreshStatus _) fun v => ?_
  obtain ⟨⟨fs, fst⟩, m⟩ := v
  rcases m with _ | e
  · simp only [ne_eq, not_true_eq_false, if_false]
    split
    · exact .report ..
    · simp only [getFileStatus_ref, Prog.call_bind]
      refine .call' fun r => ?_
      rcases r with e | st
      · simp only [Prog.ret_bind]
        split
        · exact .report ..
        · split
          · exact rel_copyInto ..
          · split
            · exact .report ..
            · exact .fault _
      · simp only [Prog.ret_bind, statusOf_known, statusOf_exists, Bool.not_true, Bool.false_eq_true, if_false]
        split
        · exact .report ..
        · simp only [Prog.useStat, Prog.ret_bind]
          repeat' split
          all_goals first
            | exact .report ..
            | exact .ok _
            | exact rel_copyInto ..
            | exact .bind' (.report ..) (fun _ => .ok _) (fun _ e x h => .err _ _ _ h)
  · exact .report ..

theorem rel_copyFile (sf : Bool) (n : Nat) (a b : Path) (o : CopyOptions) (c : Code) :
    Rel A (copyFile sf n a b o (.ref c)) (copyFile sf n a b o .null) := by
  refine .call' fun r => ?_
  rcases r with e | i
  · exact .report ..
  · exact .finally' (rel_copyOpened ..) (noThrow_closeFd _)

/-! ## Iterators -/

theorem noThrow_close (s : Stream) : NoThrow A s.close := by
  unfold Stream.close
  split
  · exact .call _ _ fun _ _ => .ret _
  · exact .ret _

theorem noThrow_destroy (it : DirIter) : NoThrow A it.destroy := by
  cases it with
  | none => exact .ret _
  | some s => exact .bind (noThrow_close s) fun _ => .ret _

theorem noThrow_advance (n : Nat) (s : Stream) : NoThrow A (Stream.advance n s) := by
  induction n with
  | zero => exact .fuel
  | succ n ih =>
    unfold Stream.advance
    split
    · exact .fault _
    · refine .call _ _ fun r _ => ?_
      rcases r with e | _ | ent
      · exact .bind (noThrow_close s) fun _ => .ret _
      · exact .bind (noThrow_close s) fun _ => .ret _
      · simp only [Prog.bind_eq]
        split
        · exact ih
        · split
          · exact .bind (noThrow_close s) fun _ => .ret _
          · exact .bind (.ofRes _) fun _ => .ret _

theorem noThrow_streamNew (n : Nat) (p : Path) (o : DirOptions) : NoThrow A (Stream.new n p o) := by
  refine .call _ _ fun r _ => ?_
  rcases r with e | d
  · simp only; split <;> exact .ret _
  · exact .bind (noThrow_advance ..) fun _ => .ret _

theorem all_close (s : Stream) : All (fun s' => s'.handle = none) s.close := by
  unfold Stream.close
  split
  · exact .call _ _ fun _ => .ret _ rfl
  · rename_i h; exact .ret _ h

/-- What `advance` yields: on success no error and the handle is kept, otherwise the
stream is closed. -/
theorem all_advance (n : Nat) (s : Stream) :
    All (fun r => (r.1 = true → r.2.2 = none ∧ r.2.1.handle = s.handle ∧ s.handle ≠ none) ∧
      (r.1 = false → r.2.1.handle = none)) (Stream.advance n s) := by
  induction n with
  | zero => exact .stop _
  | succ n ih =>
    unfold Stream.advance
    split
    · exact .stop _
    · rename_i d hd
      refine .call _ _ fun r => ?_
      rcases r with e | _ | ent
      · exact .bind (all_close s) fun s' h => .ret _ ⟨by simp, fun _ => h⟩
      · exact .bind (all_close s) fun s' h => .ret _ ⟨by simp, fun _ => h⟩
      · simp only [Prog.bind_eq]
        split
        · exact ih
        · split
          · exact .bind (all_close s) fun s' h => .ret _ ⟨by simp, fun _ => h⟩
          · exact .bind (.trivial _) fun p _ => .ret _ ⟨fun _ => ⟨rfl, rfl, by simp [hd]⟩, by simp⟩

theorem all_streamNew (n : Nat) (p : Path) (o : DirOptions) :
    All (fun r => r.1.good = true → r.2 = none) (Stream.new n p o) := by
  refine .call _ _ fun r => ?_
  rcases r with e | d
  · simp only
    split <;> exact .ret _ (by simp [Stream.good])
  · refine .bind (all_advance n _) fun a ha => .ret _ ?_
    obtain ⟨b, s, m⟩ := a
    intro hg
    cases b
    · have h : s.handle = none := ha.2 rfl; simp [Stream.good, h] at hg
    · exact (ha.1 rfl).1

theorem rel_dirIterNew (n : Nat) (p : Path) (o : DirOptions) (c : Code) :
    Rel A (DirIter.new n p o (.ref c)) (DirIter.new n p o .null) := by
  simp only [DirIter.new, Prog.bind_eq, clear_ref, clear_null]
  refine .prefixAll (noThrow_streamNew ..) (all_streamNew ..) fun v hv => ?_
  obtain ⟨s, m⟩ := v
  simp only [assign_ref, assign_null]
  split
  · rcases m with _ | e
    · exact .ok _
    · exact .bind' (.report ..) (fun _ => .ok _) (fun _ e x h => .err _ _ _ h)
  · rename_i h
    have : m = none := hv (by simpa using h)
    subst this
    exact .ok _

theorem rel_dirIterIncr (n : Nat) (it : DirIter) (c : Code) :
    Rel A (DirIter.incr n it (.ref c)) (DirIter.incr n it .null) := by
  cases it with
  | none =>
    exact .bind' (.reportMsg ..) (fun _ => .ok _) (fun _ e x h => .err _ _ _ h)
  | some s =>
    simp only [DirIter.incr, Prog.bind_eq, clear_ref, clear_null]
    refine .prefix (noThrow_advance ..) fun v => ?_
    obtain ⟨b, s', m⟩ := v
    simp only
    split
    · exact .ok _
    · rcases m with _ | e
      · exact .ok _
      · exact .bind' (.reportMsg ..) (fun _ => .ok _) (fun _ e x h => .err _ _ _ h)

theorem noThrow_closeAll (ss : List Stream) : NoThrow A (closeAll ss) := by
  induction ss with
  | nil => exact .ret _
  | cons s ss ih => exact .bind ih fun _ => .bind (noThrow_close s) fun _ => .ret _

theorem noThrow_advanceStack (n : Nat) (ss : List Stream) : NoThrow A (advanceStack n ss) := by
  induction ss with
  | nil => exact .ret _
  | cons s ss ih =>
    simp only [advanceStack, Prog.bind_eq]
    refine .bind (noThrow_advance ..) fun v => ?_
    obtain ⟨b, s', m⟩ := v
    simp only
    split
    · exact .ret _
    · cases m
      · exact ih
      · exact .ret _

theorem rel_recIterNew (n : Nat) (p : Path) (o : DirOptions) (c : Code) :
    Rel A (RecIter.new n p o (.ref c)) (RecIter.new n p o .null) := by
  simp only [RecIter.new, Prog.bind_eq, clear_ref, clear_null]
  refine .prefix (noThrow_streamNew ..) fun v => ?_
  obtain ⟨s, m⟩ := v
  rcases m with _ | e
  · simp only
    split <;> exact .ok _
  · exact .bind' (.finally' (.report ..) (noThrow_destroy _)) (fun _ => .ok _)
      (fun _ e x h => .err _ _ _ h)

theorem rel_recIterAdvance (n : Nat) (it : RecIter) (c : Code) :
    Rel A (RecIter.advance n it (.ref c)) (RecIter.advance n it .null) := by
  obtain ⟨impl, rc⟩ := it
  cases impl with
  | none =>
    exact .bind' (.reportMsg ..) (fun _ => .ok _) (fun _ e x h => .err _ _ _ h)
  | some w =>
    obtain ⟨stack, opts⟩ := w
    simp only [RecIter.advance, Prog.bind_eq, clear_ref, clear_null]
    refine .prefix (noThrow_advanceStack ..) fun v => ?_
    obtain ⟨stack, m⟩ := v
    rcases m with _ | e
    · simp only
      split <;> exact .ok _
    · exact .prefix (noThrow_closeAll _) fun _ =>
        .bind' (.reportMsg ..) (fun _ => .ok _) (fun _ e x h => .err _ _ _ h)

theorem noThrow_updateBasic (f : Bool) (e : Entry) (c : Code) : NoThrow A (updateBasic f e (.ref c)) := by
  simp only [updateBasic, Prog.bind_eq, clear_ref]
  refine .bind (noThrow_getFileStatus ..) fun v => ?_
  obtain ⟨⟨st, full⟩, m⟩ := v
  simp only
  split
  · exact .ret _
  · refine .bind ?_ fun c => .bind ?_ fun c => .bind ?_ fun c => .ret _
    · split
      · split
        · exact .bind (noThrow_useStat _) fun _ => .ret _
        · exact .ret _
      · exact .ret _
    · split
      · exact .bind (noThrow_useStat _) fun _ => .ret _
      · exact .ret _
    · split
      · exact .bind (noThrow_useStat _) fun _ => .bind (rel_extractLastWriteTime ..).noThrow fun _ => .ret _
      · exact .ret _

theorem noThrow_handleError (msg : Str) (e : Entry) (d : Code) (b : Bool) (c : Code) :
    NoThrow A (handleError msg e d b (.ref c)) := .ret _

/-- `ec` is a reference. -/
def EcArg.IsRef (ec : EcArg) : Prop := ∃ c, ec = .ref c

theorem all_updateBasic (f : Bool) (e : Entry) (c : Code) :
    All (fun v => v.2.IsRef) (updateBasic f e (.ref c)) := by
  simp only [updateBasic, Prog.bind_eq, clear_ref]
  refine .bind (.trivial _) fun v _ => ?_
  obtain ⟨⟨st, full⟩, m⟩ := v
  simp only
  split
  · exact .ret _ ⟨_, rfl⟩
  · exact .bind (.trivial _) fun c _ => .bind (.trivial _) fun c _ => .bind (.trivial _) fun c _ =>
      .ret _ ⟨_, rfl⟩

theorem noThrow_getSymLinkFileType (e : Entry) (c : Code) :
    NoThrow A (getSymLinkFileType e (.ref c)) := by
  simp only [getSymLinkFileType, Prog.bind_eq, clear_ref]
  refine .bindAll (Q := fun v => v.2.2.IsRef) ?_ ?_ fun v hv => ?_
  · split
    · exact .bind (noThrow_updateBasic ..) fun _ => .ret _
    · exact .ret _
  · split
    · exact .bind (all_updateBasic ..) fun _ h => .ret _ h
    · exact .ret _ ⟨_, rfl⟩
  · obtain ⟨b, e, ec⟩ := v
    obtain ⟨c, rfl⟩ := hv
    simp only
    split
    · exact .ret _
    · split
      · exact .ret _
      · split
        · exact .bind (.ret _) fun _ => .ret _
        · exact .bind (.ret _) fun _ => .ret _

theorem noThrow_getFileType (e : Entry) (c : Code) : NoThrow A (getFileType e (.ref c)) := by
  simp only [getFileType, Prog.bind_eq, clear_ref]
  split
  · refine .bindAll (noThrow_updateBasic ..) (all_updateBasic ..) fun v hv => ?_
    obtain ⟨e, ec⟩ := v
    obtain ⟨c, rfl⟩ := hv
    exact .ret _
  · exact .ret _

theorem rel_recIterTry (n : Nat) (it : RecIter) (c : Code) :
    Rel A (RecIter.tryRecursion n it (.ref c)) (RecIter.tryRecursion n it .null) := by
  obtain ⟨impl, rc⟩ := it
  rcases impl with _ | ⟨_ | ⟨cur, ss⟩, opts⟩
  · exact .bind' (.reportMsg ..) (fun _ => .ok _) (fun _ e x h => .err _ _ _ h)
  · exact .fault _
  · simp only [RecIter.tryRecursion, Prog.bind_eq, clear_ref, clear_null]
    refine .prefix ?_ fun v => ?_
    · split
      · exact .bind (noThrow_getSymLinkFileType ..) fun _ => .ret _
      · exact .bind (noThrow_getFileType ..) fun _ => .ret _
    obtain ⟨skip, e, m⟩ := v
    simp only
    refine .prefix ?_ fun v => ?_
    · split
      · refine .bind (noThrow_streamNew ..) fun _ => ?_
        split <;> exact .ret _
      · exact .ret _
    obtain ⟨pushed, m⟩ := v
    rcases pushed with _ | s
    · rcases m with _ | e
      · exact .ok _
      · simp only
        split
        · exact .ok _
        · exact .prefix (noThrow_closeAll _) fun _ =>
            .bind' (.reportMsg ..) (fun _ => .ok _) (fun _ e x h => .err _ _ _ h)
    · exact .ok _

theorem rel_recIterIncr (n : Nat) (it : RecIter) (c : Code) :
    Rel A (RecIter.incr n it (.ref c)) (RecIter.incr n it .null) := by
  simp only [RecIter.incr, Prog.bind_eq, clear_ref, clear_null]
  by_cases h : it.recursion = true
  · simp only [h, if_true, Prog.bind_assoc]
    refine .bind' (rel_recIterTry ..) (fun v => ?_) (fun v e x h => ?_)
    · obtain ⟨b, it⟩ := v
      simp only [Prog.ret_bind, isSet_none, isSet_null, Bool.or_false]
      split
      · exact .ok _
      · exact rel_recIterAdvance ..
    · obtain ⟨b, it⟩ := v
      simp only [Prog.ret_bind, isSet_some, Bool.or_true, if_true]
      exact .err _ _ _ h
  · simp only [h, if_false, Prog.ret_bind, Bool.false_eq_true]
    exact rel_recIterAdvance ..

theorem rel_recIterPop (n : Nat) (it : RecIter) (c : Code) :
    Rel A (RecIter.pop n it (.ref c)) (RecIter.pop n it .null) := by
  obtain ⟨impl, rc⟩ := it
  rcases impl with _ | ⟨_ | ⟨cur, ss⟩, opts⟩
  · exact .bind' (.reportMsg ..) (fun _ => .ok _) (fun _ e x h => .err _ _ _ h)
  · exact .fault _
  · simp only [RecIter.pop, Prog.bind_eq, clear_ref, clear_null]
    refine .prefix (noThrow_close _) fun _ => ?_
    split
    · exact .ok _
    · exact rel_recIterAdvance ..

/-! ## Walking operations -/

theorem all_dirIterNew (n : Nat) (p : Path) (o : DirOptions) (c : Code) :
    All (fun v => v.2.isSet = true → v.1 = none) (DirIter.new n p o (.ref c)) := by
  simp only [DirIter.new, Prog.bind_eq, clear_ref]
  refine .bind (all_streamNew ..) fun v hv => ?_
  obtain ⟨s, m⟩ := v
  simp only [assign_ref]
  split
  · rcases m with _ | e
    · exact .ret _ fun _ => rfl
    · exact .ret _ fun _ => rfl
  · rename_i h
    have : m = none := hv (by simpa using h)
    subst this
    exact .ret _ (by simp)

theorem rel_isEmptyFile (n : Nat) (p : Path) (c : Code) :
    Rel A (isEmptyFile n p (.ref c)) (isEmptyFile n p .null) := by
  simp only [isEmptyFile, getFileStatus_ref, Prog.bind_eq, Prog.call_bind, clear_ref, clear_null]
  refine .call' fun r => ?_
  rcases r with e | st
  · exact .report ..
  · simp only [Prog.ret_bind, isSet_none, Bool.false_eq_true, if_false]
    split
    · exact .report ..
    · split
      · simp only [isEmptyDirectory, Prog.bind_eq]
        refine .bindAll (rel_dirIterNew ..) (all_dirIterNew ..) (fun v _ => ?_) (fun v e x hq h => ?_)
        · exact .prefix (noThrow_destroy _) fun _ => .ok _
        · have : v = none := hq rfl
          subst this
          exact .err _ _ _ h
      · exact .ok _

theorem noThrow_removeLoop (rec : Path → Prog (BitVec 64 × Code)) (hr : ∀ p, NoThrow A (rec p))
    (n : Nat) (it : DirIter) (k : BitVec 64) : NoThrow A (removeLoop rec n it k) := by
  induction n generalizing it k with
  | zero => exact .fuel
  | succ n ih =>
    rcases it with _ | s
    · exact .ret _
    · simp only [removeLoop, Prog.bind_eq]
      refine .bind (hr _) fun v => ?_
      obtain ⟨o, m⟩ := v
      simp only
      split
      · exact .bind (noThrow_destroy _) fun _ => .ret _
      · refine .bind (rel_dirIterIncr ..).noThrow fun v => ?_
        obtain ⟨it, ec⟩ := v
        simp only
        split
        · exact .ret _
        · exact ih ..

theorem noThrow_doRemoveAll (n : Nat) (p : Path) : NoThrow A (doRemoveAll n p) := by
  induction n generalizing p with
  | zero => exact .fuel
  | succ n ih =>
    simp only [doRemoveAll, symlinkStatus_ref, Prog.bind_eq, Prog.call_bind]
    refine .call _ _ fun r _ => ?_
    rcases r with e | st
    · exact .ret _
    · simp only [Prog.ret_bind, isSet_none, Bool.false_eq_true, if_false]
      refine .bind ?_ fun v => ?_
      · split
        · refine .bind (rel_dirIterNew ..).noThrow fun v => ?_
          obtain ⟨it, ec⟩ := v
          simp only
          split
          · exact .ret _
          · exact noThrow_removeLoop _ ih ..
        · exact .ret _
      · obtain ⟨k, m⟩ := v
        simp only
        split
        · exact .ret _
        · refine .bind (rel_remove ..).noThrow fun v => ?_
          split <;> exact .ret _

theorem rel_removeAll (n : Nat) (p : Path) (c : Code) :
    Rel A (removeAll n p (.ref c)) (removeAll n p .null) := by
  simp only [removeAll, Prog.bind_eq, clear_ref, clear_null]
  split
  · exact .ok _
  · refine .prefix (noThrow_doRemoveAll ..) fun v => ?_
    obtain ⟨k, m⟩ := v
    rcases m with _ | e
    · exact .ok _
    · simp only
      split
      · exact .ok _
      · exact .report ..

theorem rel_copyLoop (h : Handler) (rec : Path → Path → EcArg → Prog (Unit × EcArg)) (to : Path)
    (hr : ∀ a b c, Rel A (rec a b (.ref c)) (rec a b .null)) (n : Nat) (it : DirIter) (m2 : Code) :
    Rel A (copyLoop h rec to n it m2 (.ref none)) (copyLoop h rec to n it m2 .null) := by
  induction n generalizing it m2 with
  | zero => exact .fuel
  | succ n ih =>
    rcases it with _ | s
    · exact .ok _
    · rcases m2 with _ | e
      · simp only [copyLoop, Prog.bind_eq, ne_eq, not_true_eq_false, if_false]
        refine .ofRes fun f => .ofRes fun t => .onThrow (hr ..) (fun v => ?_) (fun v e x h => ?_)
        · simp only [isSet_none, isSet_null, Bool.false_eq_true, if_false]
          exact .prefix (rel_dirIterIncr ..).noThrow fun v => ih ..
        · simp only [isSet_some, if_true]
          exact .prefix (noThrow_destroy _) fun _ => .err _ _ _ h
      · exact .finally' (.report ..) (noThrow_destroy _)

theorem rel_copyDir (rec : Path → Path → EcArg → Prog (Unit × EcArg))
    (hr : ∀ a b c, Rel A (rec a b (.ref c)) (rec a b .null)) (n : Nat) (h : Handler) (a b : Path)
    (t : FStatus) : Rel A (copyDir rec n h a b t (.ref none)) (copyDir rec n h a b t .null) := by
  have rest : Rel A
      ((DirIter.new n a .none (.ref none)).bind fun v =>
        if v.2.isSet then .ret ((), v.2) else copyLoop h rec b n v.1 none v.2)
      ((DirIter.new n a .none .null).bind fun v =>
        if v.2.isSet then .ret ((), v.2) else copyLoop h rec b n v.1 none v.2) := by
    refine .bind' (rel_dirIterNew ..) (fun v => ?_) (fun v e x h => .err _ _ _ h)
    simp only [isSet_none, isSet_null, Bool.false_eq_true, if_false]
    exact rel_copyLoop _ _ _ hr ..
  simp only [copyDir, Prog.bind_eq]
  split
  · simp only [Prog.bind_assoc]
    refine .bind' (rel_createDirectoryLike ..) (fun v => ?_) (fun v e x h => .err _ _ _ h)
    exact rest
  · exact rest

theorem rel_copyDispatch (rec : Path → Path → EcArg → Prog (Unit × EcArg))
    (hr : ∀ a b c, Rel A (rec a b (.ref c)) (rec a b .null)) (sf : Bool) (n : Nat) (h : Handler)
    (a b : Path) (o : CopyOptions) (f t : FStatus) :
    Rel A (copyDispatch rec sf n h a b o f t (.ref none)) (copyDispatch rec sf n h a b o f t .null) := by
  simp only [copyDispatch, Prog.bind_eq]
  repeat' split
  all_goals first
    | exact .ok _
    | exact .report ..
    | exact rel_copySymlink ..
    | exact rel_createSymlinkAs ..
    | exact rel_createHardLink ..
    | exact rel_copyDir _ hr ..
    | exact .bind' (rel_copyFile ..) (fun _ => .ok _) (fun _ e x h => .err _ _ _ h)
    | exact .ofRes fun _ => .ofRes fun _ =>
        .bind' (rel_copyFile ..) (fun _ => .ok _) (fun _ e x h => .err _ _ _ h)

/-- What `GetFileStatus` and `GetLinkStatus` have in common. -/
theorem all_statusFn (b : Bool) (p : Path) (st : Option Stat) (c : Code) :
    All (fun v => v.2 = .ref none ∧ v.1.1.exists' = true ∨ ∃ e, v.2 = .ref (some e))
      ((if b then getLinkStatus else getFileStatus) p st (.ref c)) := by
  cases b
  · simp only [Bool.false_eq_true, if_false, getFileStatus_ref]
    refine .call _ _ fun r => ?_
    rcases r with e | st
    · exact .ret _ (.inr ⟨e, rfl⟩)
    · exact .ret _ (.inl ⟨rfl, statusOf_exists st⟩)
  · simp only [if_true, getLinkStatus_ref]
    refine .call _ _ fun r => ?_
    rcases r with e | st
    · exact .ret _ (.inr ⟨e, rfl⟩)
    · exact .ret _ (.inl ⟨rfl, statusOf_exists st⟩)

theorem noThrow_statusFn (b : Bool) (p : Path) (st : Option Stat) (c : Code) :
    NoThrow A ((if b then getLinkStatus else getFileStatus) p st (.ref c)) := by
  cases b
  · exact noThrow_getFileStatus ..
  · exact noThrow_getLinkStatus ..

theorem FStatus.known_of_exists {s : FStatus} (h : s.exists' = true) : s.known = true := by
  simp [FStatus.exists'] at h
  exact h.1

theorem rel_copy (sf : Bool) (n : Nat) (a b : Path) (o : CopyOptions) (c : Code) :
    Rel A (copy sf n a b o (.ref c)) (copy sf n a b o .null) := by
  induction n generalizing a b c with
  | zero => exact .fuel
  | succ n ih =>
    simp only [copy, Prog.bind_eq, clear_ref, clear_null]
    refine .prefixAll (noThrow_statusFn ..) (all_statusFn ..) fun v hv => ?_
    obtain ⟨⟨f, fst⟩, m⟩ := v
    rcases hv with ⟨h1, h2⟩ | ⟨e, h1⟩
    · dsimp at h1 h2
      subst h1
      simp only [isSet_none, Bool.false_eq_true, if_false]
      refine .prefixAll (noThrow_statusFn ..) (all_statusFn ..) fun v hv => ?_
      obtain ⟨⟨t, tst⟩, m⟩ := v
      have rest : Rel A
          ((Prog.useStat fst).bind fun fst => (Prog.useStat tst).bind fun tst =>
            if copyRejects f t fst tst = true then
              (⟨"copy".toList, some a, some b⟩ : Handler).report (.ref none) (some .ENOSYS) ()
            else copyDispatch (fun a b ec => copy sf n a b o ec) sf n ⟨"copy".toList, some a, some b⟩ a b o
              f t (.ref none))
          ((Prog.useStat fst).bind fun fst => (Prog.useStat tst).bind fun tst =>
            if copyRejects f t fst tst = true then
              (⟨"copy".toList, some a, some b⟩ : Handler).report .null (some .ENOSYS) ()
            else copyDispatch (fun a b ec => copy sf n a b o ec) sf n ⟨"copy".toList, some a, some b⟩ a b o
              f t .null) := by
        refine .prefix (noThrow_useStat _) fun _ => .prefix (noThrow_useStat _) fun _ => ?_
        split
        · exact .report ..
        · exact rel_copyDispatch _ (fun a b c => ih a b c) ..
      rcases hv with ⟨h1, h2⟩ | ⟨e, h1⟩
      · dsimp at h1 h2
        simp only [FStatus.known_of_exists h2, Bool.not_true, Bool.false_eq_true, if_false]
        exact rest
      · dsimp at h1
        subst h1
        simp only
        split
        · exact .report ..
        · exact rest
    · dsimp at h1
      subst h1
      exact .report ..

/-! ## `create_directories` -/

/-- `stat` fails with nothing but `ENOENT` and `ENOTDIR`. -/
def StatPlain : Event → Prop
  | ⟨.stat _, .error e⟩ => e = .ENOENT ∨ e = .ENOTDIR
  | _ => True

theorem noThrow_isDirectory_null (p : Path) : NoThrow StatPlain (isDirectoryP p .null) := by
  simp only [isDirectoryP, isTypeP, status, getFileStatus, Prog.bind_eq, Prog.call_bind]
  refine .call _ _ fun r hr => ?_
  rcases r with e | st
  · rcases hr with rfl | rfl <;> exact .ret _
  · exact .ret _

theorem noThrow_createMissing (ps : List Path) (b : Bool) : NoThrow StatPlain (createMissing ps b) := by
  induction ps generalizing b with
  | nil => exact .ret _
  | cons p ps ih =>
    simp only [createMissing, Prog.bind_eq]
    refine .bindAll (Q := fun v => v.2.IsRef) (noThrow_status ..) ?_ fun v hv => ?_
    · rw [status_ref]
      refine .call _ _ fun r => ?_
      rcases r with e | st <;> exact .ret _ ⟨_, rfl⟩
    obtain ⟨st, m⟩ := v
    obtain ⟨c, rfl⟩ := hv
    refine .bind ?_ fun v => ?_
    · split
      · exact .bind (rel_createDirectory ..).noThrow fun _ => .ret _
      · exact .ret _
    obtain ⟨b', m⟩ := v
    refine .bind ?_ fun m => ?_
    · split
      · exact .bind (noThrow_isDirectory_null _) fun _ => .ret _
      · exact .ret _
    split
    · exact .ret _
    · exact ih _

theorem noThrow_missingOf (el : Bool) (n : Nat) (p : Path) (acc : List Path) :
    NoThrow A (missingOf el n p acc) := by
  induction n generalizing p acc with
  | zero => exact .fuel
  | succ n ih =>
    simp only [missingOf, Prog.bind_eq]
    refine .bind (.ofRes _) fun b => ?_
    split
    · exact .bind (.ofRes _) fun _ => .bind (.ofRes _) fun _ => ih _ _
    · exact .ret _

theorem rel_createDirectories (el : Bool) (n : Nat) (p : Path) (c : Code) :
    Rel StatPlain (createDirectories el n p (.ref c)) (createDirectories el n p .null) := by
  simp only [createDirectories, Prog.bind_eq, clear_ref, clear_null]
  split
  · exact .report ..
  · refine .prefix (noThrow_missingOf ..) fun ps => ?_
    split
    · exact .ok _
    · refine .prefix (noThrow_createMissing ..) fun v => ?_
      obtain ⟨b, m, e⟩ := v
      rcases m with _ | e
      · exact .ok _
      · exact .report ..

/-! ## The status family -/

/-- The exception of `CreateFileStatus`. -/
def statError (p : Path) (e : Errno) : FsError :=
  ⟨"in file_stat: failed to determine attributes for the specified path".toList, 1, p, .default, some e⟩

theorem createFileStatus_null (e : Errno) (p : Path) :
    createFileStatus (some e) p none .null =
      if e = .ENOENT ∨ e = .ENOTDIR then .ret ({ type := .notFound }, .null)
      else .stop (.thrown (statError p e)) := by
  cases e <;> rfl

theorem status_null (p : Path) :
    status p .null = .call (.stat p.pathname) (fun
      | .ok st => .ret (statusOf st, .null)
      | .error e => if e = .ENOENT ∨ e = .ENOTDIR then .ret ({ type := .notFound }, .null)
        else .stop (.thrown (statError p e))) := by
  simp only [status, getFileStatus, Prog.bind_eq, Prog.call_bind]
  congr 1
  funext r
  rcases r with e | st
  · simp only [createFileStatus_null]
    split <;> rfl
  · rfl

theorem symlinkStatus_null (p : Path) :
    symlinkStatus p .null = .call (.lstat p.pathname) (fun
      | .ok st => .ret (statusOf st, .null)
      | .error e => if e = .ENOENT ∨ e = .ENOTDIR then .ret ({ type := .notFound }, .null)
        else .stop (.thrown (statError p e))) := by
  simp only [symlinkStatus, getLinkStatus, Prog.bind_eq, Prog.call_bind]
  congr 1
  funext r
  rcases r with e | st
  · simp only [createFileStatus_null]
    split <;> rfl
  · rfl

theorem rel_existsP (p : Path) (c : Code) : Rel A (existsP p (.ref c)) (existsP p .null) := by
  simp only [existsP, status_ref, status_null, Prog.bind_eq, Prog.call_bind]
  refine .call' fun r => ?_
  rcases r with e | st
  · simp only [Prog.ret_bind]
    by_cases h : e = .ENOENT ∨ e = .ENOTDIR
    · simp only [h, if_true, typeOfErr]
      exact .ok _
    · simp only [h, if_false, typeOfErr]
      exact .err _ _ _ rfl
  · simp only [Prog.ret_bind, statusOf_known, if_true]
    exact .ok _

/-! ## Overloads that never throw, whatever the answers -/

/-- A program that never throws and passes on the caller's `error_code`. -/
inductive Calm {α : Type} : Prog (α × EcArg) → Prop where
  | ret (v : α) (c : Code) : Calm (.ret (v, .ref c))
  | fault (f : Fault) : Calm (.stop (.fault f))
  | fuel : Calm (.stop .fuel)
  | call (c : Sys) (k : c.Ret → Prog (α × EcArg)) (h : ∀ r, Calm (k r)) : Calm (.call c k)

theorem Calm.noThrow {p : Prog (α × EcArg)} (h : Calm p) : NoThrow A p := by
  induction h with
  | ret v c => exact .ret _
  | fault f => exact .fault f
  | fuel => exact .fuel
  | call c k _ ih => exact .call _ _ fun r _ => ih r

theorem Calm.prefix {p : Prog β} {f : β → Prog (α × EcArg)} (h : NoThrow (fun _ => True) p)
    (hf : ∀ b, Calm (f b)) : Calm (p.bind f) := by
  induction h with
  | ret a => exact hf a
  | fault f => exact .fault f
  | fuel => exact .fuel
  | call c k _ ih => exact .call _ _ fun r => ih r trivial

theorem Calm.bind {p : Prog (β × EcArg)} {f : β × EcArg → Prog (α × EcArg)} (h : Calm p)
    (hf : ∀ b c, Calm (f (b, .ref c))) : Calm (p.bind f) := by
  induction h with
  | ret v c => exact hf v c
  | fault f => exact .fault f
  | fuel => exact .fuel
  | call c k _ ih => exact .call _ _ ih

theorem calm_canonical (p : Path) (c : Code) : Calm (canonical p (.ref c)) := by
  simp only [canonical, doAbsolute, Prog.bind_eq, clear_ref, Prog.bind_assoc]
  refine .prefix (.ofRes _) fun b => ?_
  split
  · refine .call _ _ fun r => ?_
    rcases r with e | s <;> exact .ret ..
  · simp only [currentPath, clear_ref]
    refine .call _ _ fun (size : Int) => ?_
    by_cases h : 0 < size
    · simp only [h, if_true, Prog.call_bind]
      refine .call _ _ fun r => ?_
      rcases r with e | s
      · refine .call _ _ fun r => ?_
        rcases r with e | s <;> exact .ret ..
      · simp only [Prog.ret_bind, isSet_none, Bool.false_eq_true, if_false, Prog.bind_assoc]
        refine .prefix (.ofRes _) fun r => .call _ _ fun r => ?_
        rcases r with e | s <;> exact .ret ..
    · simp only [h, if_false, Prog.stop_bind]
      exact .fault _

theorem noThrow_canonical (p : Path) (c : Code) : NoThrow A (canonical p (.ref c)) := (calm_canonical p c).noThrow

theorem calm_weaklyCanonical (el : Bool) (p : Path) (c : Code) : Calm (weaklyCanonical el p (.ref c)) := by
  simp only [weaklyCanonical, status_ref, Prog.bind_eq, Prog.call_bind, clear_ref]
  split
  · exact calm_canonical ..
  · refine .call _ _ fun r => ?_
    rcases r with e | st
    · simp only [Prog.ret_bind]
      split
      · exact .ret ..
      · split
        · exact calm_canonical ..
        · refine .prefix (noThrow_existingPrefix ..) fun v => .prefix ?_ fun v => ?_
          · split
            · exact .bind (noThrow_canonical ..) fun _ => .ret _
            · exact .ret _
          · split
            · exact .ret ..
            · exact .prefix (.ofRes _) fun _ => .prefix (.ofRes _) fun _ => .ret ..
    · simp only [Prog.ret_bind, statusOf_known, statusOf_exists, Bool.not_true, Bool.false_eq_true,
        if_false, if_true]
      exact calm_canonical ..

theorem calm_viaCanonical (el : Bool) (f : Path → Path → Res Path) (p base : Path) (c : Code) :
    Calm (viaCanonicalEc el f p base c) := by
  simp only [viaCanonicalEc, Prog.bind_eq]
  refine .bind (calm_weaklyCanonical ..) fun r c => ?_
  dsimp only
  split
  · exact .ret ..
  · refine .bind (calm_weaklyCanonical ..) fun r c => ?_
    dsimp only
    split
    · exact .ret ..
    · exact .prefix (.ofRes _) fun _ => .ret ..

end Asap
