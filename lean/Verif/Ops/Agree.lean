import Verif.Ops.Recursive

/-!
# Relating the two overloads of an operation

`Rel A p q`: `p` is what the `error_code` overload does, `q` what the throwing
overload does. As long as the system calls are answered as `A` allows, both make
the same calls and end alike.
-/

namespace Asap

/-- Simulation between an `error_code` overload (left) and a throwing overload. -/
inductive Rel (A : Event → Prop) {α : Type} : Prog (α × EcArg) → Prog (α × EcArg) → Prop where
  | ok (v : α) : Rel A (.ret (v, .ref none)) (.ret (v, .null))
  | err (v : α) (e : Errno) (x : FsError) (h : x.code = some e) :
      Rel A (.ret (v, .ref (some e))) (.stop (.thrown x))
  | fault (f : Fault) : Rel A (.stop (.fault f)) (.stop (.fault f))
  | fuel : Rel A (.stop .fuel) (.stop .fuel)
  | call (c : Sys) (k k' : c.Ret → Prog (α × EcArg)) (h : ∀ r, A ⟨c, r⟩ → Rel A (k r) (k' r)) :
      Rel A (.call c k) (.call c k')

/-- A program that never throws `filesystem_error`. -/
inductive NoThrow (A : Event → Prop) {α : Type} : Prog α → Prop where
  | ret (a : α) : NoThrow A (.ret a)
  | fault (f : Fault) : NoThrow A (.stop (.fault f))
  | fuel : NoThrow A (.stop .fuel)
  | call (c : Sys) (k : c.Ret → Prog α) (h : ∀ r, A ⟨c, r⟩ → NoThrow A (k r)) : NoThrow A (.call c k)

variable {α β : Type} {A B : Event → Prop}

theorem Rel.noThrow {p q : Prog (α × EcArg)} (h : Rel A p q) : NoThrow A p := by
  induction h with
  | ok v => exact .ret _
  | err v e x h => exact .ret _
  | fault f => exact .fault f
  | fuel => exact .fuel
  | call c k k' _ ih => exact .call c k ih

theorem NoThrow.bind {p : Prog α} {f : α → Prog β} (h : NoThrow A p) (hf : ∀ a, NoThrow A (f a)) :
    NoThrow A (p.bind f) := by
  induction h with
  | ret a => exact hf a
  | fault f => exact .fault f
  | fuel => exact .fuel
  | call c k _ ih => exact .call _ _ ih

theorem NoThrow.exec {p : Prog α} (h : NoThrow A p) {t : List Event} {x : FsError}
    (ht : ∀ ev ∈ t, A ev) : ¬ Exec p t (.error (.thrown x)) := by
  induction h generalizing t with
  | ret a => intro h; cases h
  | fault f => intro h; cases h
  | fuel => intro h; cases h
  | call c k _ ih =>
    intro h
    cases h with
    | call _ _ r t' _ h =>
      exact ih r (ht _ (List.mem_cons_self ..)) (fun ev he => ht ev (List.mem_cons_of_mem _ he)) h

theorem NoThrow.ofRes (r : Res α) : NoThrow A (Prog.ofRes r) := by
  cases r
  · exact .fault _
  · exact .ret _

/-- Sequencing, with the continuation after an error on the left related to the
exception passing through on the right. -/
theorem Rel.bind' {p q : Prog (α × EcArg)} {f g : α × EcArg → Prog (β × EcArg)} (h : Rel A p q)
    (hok : ∀ v, Rel A (f (v, .ref none)) (g (v, .null)))
    (herr : ∀ v e x, x.code = some e → Rel A (f (v, .ref (some e))) (.stop (.thrown x))) :
    Rel A (p.bind f) (q.bind g) := by
  induction h with
  | ok v => exact hok v
  | err v e x h => exact herr v e x h
  | fault f => exact .fault f
  | fuel => exact .fuel
  | call c k k' _ ih => exact .call _ _ _ ih

/-- Sequencing a common prefix that does not throw. -/
theorem Rel.prefix {p : Prog α} {f g : α → Prog (β × EcArg)} (h : NoThrow A p)
    (hfg : ∀ a, Rel A (f a) (g a)) : Rel A (p.bind f) (p.bind g) := by
  induction h with
  | ret a => exact hfg a
  | fault f => exact .fault f
  | fuel => exact .fuel
  | call c k _ ih => exact .call _ _ _ ih

theorem Rel.ofRes {r : Res α} {f g : α → Prog (β × EcArg)} (hfg : ∀ a, Rel A (f a) (g a)) :
    Rel A ((Prog.ofRes r).bind f) ((Prog.ofRes r).bind g) := .prefix (.ofRes r) hfg

theorem Rel.finally' {p q : Prog (α × EcArg)} {d : Prog Unit} (h : Rel A p q) (hd : NoThrow A d) :
    Rel A (p.finally' d) (q.finally' d) := by
  induction h with
  | ok v => exact .prefix hd fun _ => .ok v
  | err v e x h => exact .prefix hd fun _ => .err v e x h
  | fault f => exact .fault f
  | fuel => exact .fuel
  | call c k k' _ ih => exact .call _ _ _ ih

theorem Rel.onThrow {p q : Prog (α × EcArg)} {d : Prog Unit} {f g : α × EcArg → Prog (β × EcArg)}
    (h : Rel A p q) (hok : ∀ v, Rel A (f (v, .ref none)) (g (v, .null)))
    (herr : ∀ v e x, x.code = some e →
      Rel A (f (v, .ref (some e))) (d.bind fun _ => .stop (.thrown x))) :
    Rel A ((p.onThrow d).bind f) ((q.onThrow d).bind g) := by
  induction h with
  | ok v => exact hok v
  | err v e x h =>
    have := herr v e x h
    simp only [Prog.onThrow, Prog.ret_bind, Prog.bind_assoc, Prog.stop_bind]
    exact this
  | fault f => exact .fault f
  | fuel => exact .fuel
  | call c k k' _ ih => exact .call _ _ _ ih

/-- Fewer behaviours of the operating system. -/
theorem Rel.mono {p q : Prog (α × EcArg)} (h : Rel A p q) (hB : ∀ ev, B ev → A ev) : Rel B p q := by
  induction h with
  | ok v => exact .ok v
  | err v e x h => exact .err v e x h
  | fault f => exact .fault f
  | fuel => exact .fuel
  | call c k k' _ ih => exact .call _ _ _ fun r hr => ih r (hB _ hr)

theorem NoThrow.mono {p : Prog α} (h : NoThrow A p) (hB : ∀ ev, B ev → A ev) : NoThrow B p := by
  induction h with
  | ret v => exact .ret v
  | fault f => exact .fault f
  | fuel => exact .fuel
  | call c k _ ih => exact .call _ _ fun r hr => ih r (hB _ hr)

/-- What the relation says about executions. -/
theorem Rel.exec {p q : Prog (α × EcArg)} (h : Rel A p q) (t : List Event) (ht : ∀ ev ∈ t, A ev) :
    (∀ v, Exec p t (.ok (v, .ref none)) ↔ Exec q t (.ok (v, .null))) ∧
    (∀ e, (∃ v, Exec p t (.ok (v, .ref (some e)))) ↔
      ∃ x : FsError, x.code = some e ∧ Exec q t (.error (.thrown x))) ∧
    (∀ s, (∀ x, s ≠ .thrown x) → (Exec p t (.error s) ↔ Exec q t (.error s))) ∧
    (∀ v, ¬ Exec p t (.ok (v, .null))) ∧ (∀ v c, ¬ Exec q t (.ok (v, .ref c))) ∧
    (∀ x, Exec q t (.error (.thrown x)) → x.code ≠ none) := by
  induction h generalizing t with
  | ok v => simp
  | err v e x h =>
    refine ⟨by simp, ?_, by simp +contextual, by simp, by simp, by simp [h]⟩
    intro e'
    simp only [exec_ret, exec_stop]
    constructor
    · rintro ⟨v', rfl, h'⟩
      injection h' with h'; injection h' with _ h'; injection h' with h'
      exact ⟨x, h.trans h'.symm, rfl, rfl⟩
    · rintro ⟨x', h', rfl, hx⟩
      injection hx with hx; injection hx with hx
      subst hx; rw [h] at h'; injection h' with h'; subst h'
      exact ⟨v, rfl, rfl⟩
  | fault f => simp
  | fuel => simp
  | call c k k' _ ih =>
    simp only [exec_call]
    have ih' : ∀ r t', t = ⟨c, r⟩ :: t' → _ := fun r t' e =>
      ih r (ht _ (by simp [e])) t' (fun ev he => ht ev (by simp [e, he]))
    refine ⟨fun v => ?_, fun e => ?_, fun s hs => ?_, fun v => ?_, fun v c => ?_, fun x => ?_⟩
    · exact exists_congr fun r => exists_congr fun t' => and_congr_right fun e => (ih' r t' e).1 v
    · constructor
      · rintro ⟨v, r, t', e', h⟩
        obtain ⟨x, hx, hq⟩ := ((ih' r t' e').2.1 e).1 ⟨v, h⟩
        exact ⟨x, hx, r, t', e', hq⟩
      · rintro ⟨x, hx, r, t', e', h⟩
        obtain ⟨v, hv⟩ := ((ih' r t' e').2.1 e).2 ⟨x, hx, h⟩
        exact ⟨v, r, t', e', hv⟩
    · exact exists_congr fun r => exists_congr fun t' => and_congr_right fun e => (ih' r t' e).2.2.1 s hs
    · rintro ⟨r, t', e, h⟩; exact (ih' r t' e).2.2.2.1 v h
    · rintro ⟨r, t', e, h⟩; exact (ih' r t' e).2.2.2.2.1 v c h
    · rintro ⟨r, t', e, h⟩; exact (ih' r t' e).2.2.2.2.2 x h

/-- On any operating system both overloads leave the same state and the same trace. -/
theorem Rel.run {p q : Prog (α × EcArg)} (h : Rel (fun _ => True) p q) (m : Machine) (s : m.State) :
    (p.run m s).2 = (q.run m s).2 := by
  induction h generalizing s with
  | ok v => rfl
  | err v e x h => rfl
  | fault f => rfl
  | fuel => rfl
  | call c k k' _ ih =>
    have := ih (m.step c s).1 trivial (m.step c s).2
    show (_ :: ((k (m.step c s).1).run m (m.step c s).2).2.1, ((k (m.step c s).1).run m (m.step c s).2).2.2) =
      (_ :: ((k' (m.step c s).1).run m (m.step c s).2).2.1, ((k' (m.step c s).1).run m (m.step c s).2).2.2)
    rw [this]

/-! ## Postconditions -/

/-- Every value `p` returns satisfies `Q`. -/
inductive All {α : Type} (Q : α → Prop) : Prog α → Prop where
  | ret (a : α) (h : Q a) : All Q (.ret a)
  | stop (s : Stop) : All Q (.stop s)
  | call (c : Sys) (k : c.Ret → Prog α) (h : ∀ r, All Q (k r)) : All Q (.call c k)

theorem All.bind {p : Prog α} {f : α → Prog β} {Q : α → Prop} {R : β → Prop} (h : All Q p)
    (hf : ∀ a, Q a → All R (f a)) : All R (p.bind f) := by
  induction h with
  | ret a h => exact hf a h
  | stop s => exact .stop s
  | call c k _ ih => exact .call _ _ ih

theorem All.mono {p : Prog α} {Q R : α → Prop} (h : All Q p) (hQ : ∀ a, Q a → R a) : All R p := by
  induction h with
  | ret a h => exact .ret a (hQ a h)
  | stop s => exact .stop s
  | call c k _ ih => exact .call _ _ ih

theorem All.trivial (p : Prog α) : All (fun _ => True) p := by
  induction p with
  | ret a => exact .ret a True.intro
  | stop s => exact .stop s
  | call c k ih => exact .call _ _ ih

theorem All.exec {p : Prog α} {Q : α → Prop} (h : All Q p) {t : List Event} {a : α}
    (he : Exec p t (.ok a)) : Q a := by
  induction h generalizing t with
  | ret b h => cases he; exact h
  | stop s => cases he
  | call c k _ ih => cases he with | call _ _ r t' _ h => exact ih r h

/-- Sequencing as in `Rel.bind'`, knowing something about the results on the left. -/
theorem Rel.bindAll {p q : Prog (α × EcArg)} {f g : α × EcArg → Prog (β × EcArg)}
    {Q : α × EcArg → Prop} (h : Rel A p q) (hQ : All Q p)
    (hok : ∀ v, Q (v, .ref none) → Rel A (f (v, .ref none)) (g (v, .null)))
    (herr : ∀ v e x, Q (v, .ref (some e)) → x.code = some e →
      Rel A (f (v, .ref (some e))) (.stop (.thrown x))) :
    Rel A (p.bind f) (q.bind g) := by
  induction h with
  | ok v => cases hQ with | ret _ h => exact hok v h
  | err v e x h => cases hQ with | ret _ hq => exact herr v e x hq h
  | fault f => exact .fault f
  | fuel => exact .fuel
  | call c k k' _ ih => cases hQ with | call _ _ hk => exact .call _ _ _ fun r hr => ih r hr (hk r)

theorem NoThrow.bindAll {p : Prog α} {f : α → Prog β} {Q : α → Prop} (h : NoThrow A p) (hQ : All Q p)
    (hf : ∀ a, Q a → NoThrow A (f a)) : NoThrow A (p.bind f) := by
  induction h with
  | ret a => cases hQ with | ret _ h => exact hf a h
  | fault f => exact .fault f
  | fuel => exact .fuel
  | call c k _ ih => cases hQ with | call _ _ hk => exact .call _ _ fun r hr => ih r hr (hk r)

/-- Sequencing a common prefix, knowing something about its result. -/
theorem Rel.prefixAll {p : Prog α} {f g : α → Prog (β × EcArg)} {Q : α → Prop} (h : NoThrow A p)
    (hQ : All Q p) (hfg : ∀ a, Q a → Rel A (f a) (g a)) : Rel A (p.bind f) (p.bind g) := by
  induction h with
  | ret a => cases hQ with | ret _ h => exact hfg a h
  | fault f => exact .fault f
  | fuel => exact .fuel
  | call c k _ ih => cases hQ with | call _ _ hk => exact .call _ _ _ fun r hr => ih r hr (hk r)

/-! ## Reporting and status -/

theorem Handler.error_code (h : Handler) (w : Str) (c : Code) : (h.error w c).code = c := by
  simp only [Handler.error]
  split <;> rfl

theorem Rel.report (h : Handler) (e : Errno) (v : α) :
    Rel A (h.report (.ref none) (some e) v) (h.report .null (some e) v) :=
  .err v e _ (h.error_code ..)

theorem Rel.reportMsg (h : Handler) (e : Errno) (msg : Str) (v : α) :
    Rel A (h.reportMsg (.ref none) (some e) msg v) (h.reportMsg .null (some e) msg v) :=
  .err v e _ (h.error_code ..)

@[simp] theorem clear_ref (c : Code) : (EcArg.ref c).clear = .ref none := rfl
@[simp] theorem clear_null : EcArg.null.clear = .null := rfl
@[simp] theorem assign_ref (c d : Code) : (EcArg.ref c).assign d = .ref d := rfl
@[simp] theorem assign_null (d : Code) : EcArg.null.assign d = .null := rfl
@[simp] theorem code_ref (c : Code) : (EcArg.ref c).code = c := rfl
@[simp] theorem code_null : EcArg.null.code = none := rfl
@[simp] theorem isSet_some (e : Errno) : (EcArg.ref (some e)).isSet = true := rfl
@[simp] theorem isSet_none : (EcArg.ref none).isSet = false := rfl
@[simp] theorem isSet_null : EcArg.null.isSet = false := rfl

/-- The type `CreateFileStatus` gives for a failed call. -/
def typeOfErr (e : Errno) : FType := if e = .ENOENT ∨ e = .ENOTDIR then .notFound else .none

/-- The status of a file. -/
def statusOf (st : Stat) : FStatus := ⟨typeOfMode st.mode, st.mode &&& Perms.mask⟩

theorem createFileStatus_ok (p : Path) (st : Stat) (ec : EcArg) :
    createFileStatus none p (some st) ec = .ret (statusOf st, ec.assign none) := rfl

theorem createFileStatus_err (e : Errno) (p : Path) (st : Option Stat) (c : Code) :
    createFileStatus (some e) p st (.ref c) = .ret ({ type := typeOfErr e }, .ref (some e)) := by
  cases e <;> rfl

theorem getFileStatus_ref (p : Path) (st0 : Option Stat) (c : Code) :
    getFileStatus p st0 (.ref c) = .call (.stat p.pathname) (fun
      | .ok st => .ret ((statusOf st, some st), .ref none)
      | .error e => .ret (({ type := typeOfErr e }, st0), .ref (some e))) := by
  unfold getFileStatus
  congr 1
  funext r
  rcases r with e | st
  · simp [createFileStatus_err]
  · rfl

theorem getLinkStatus_ref (p : Path) (st0 : Option Stat) (c : Code) :
    getLinkStatus p st0 (.ref c) = .call (.lstat p.pathname) (fun
      | .ok st => .ret ((statusOf st, some st), .ref none)
      | .error e => .ret (({ type := typeOfErr e }, st0), .ref (some e))) := by
  unfold getLinkStatus
  congr 1
  funext r
  rcases r with e | st
  · simp [createFileStatus_err]
  · rfl

theorem status_ref (p : Path) (c : Code) :
    status p (.ref c) = .call (.stat p.pathname) (fun
      | .ok st => .ret (statusOf st, .ref none)
      | .error e => .ret ({ type := typeOfErr e }, .ref (some e))) := by
  simp only [status, getFileStatus_ref, Prog.bind_eq, Prog.call_bind]
  congr 1
  funext r
  rcases r with e | st <;> rfl

theorem symlinkStatus_ref (p : Path) (c : Code) :
    symlinkStatus p (.ref c) = .call (.lstat p.pathname) (fun
      | .ok st => .ret (statusOf st, .ref none)
      | .error e => .ret ({ type := typeOfErr e }, .ref (some e))) := by
  simp only [symlinkStatus, getLinkStatus_ref, Prog.bind_eq, Prog.call_bind]
  congr 1
  funext r
  rcases r with e | st <;> rfl

theorem refreshStatus_eq (p : Path) :
    refreshStatus p = .call (.lstat p.pathname) (fun
      | .ok st => .ret ((statusOf st, st), none)
      | .error e => .ret (({ type := typeOfErr e }, .zero), some e)) := by
  unfold refreshStatus
  congr 1
  funext r
  rcases r with e | st
  · simp [createFileStatus_err]
  · rfl

theorem typeOfMode_ne (m : Mode) : typeOfMode m ≠ .none ∧ typeOfMode m ≠ .notFound := by
  unfold typeOfMode
  simp only
  repeat' split
  all_goals exact ⟨by decide, by decide⟩

theorem statusOf_known (st : Stat) : (statusOf st).known = true := by
  simp [statusOf, FStatus.known, (typeOfMode_ne st.mode).1]

theorem statusOf_exists (st : Stat) : (statusOf st).exists' = true := by
  have := statusOf_known st
  simp [FStatus.exists', this]
  exact (typeOfMode_ne st.mode).2

/-! ## The operations -/

/-- One system call, reported on failure. -/
theorem Rel.call' {c : Sys} {k k' : c.Ret → Prog (α × EcArg)} (h : ∀ r, Rel A (k r) (k' r)) :
    Rel A (.call c k) (.call c k') := .call c k k' fun r _ => h r

theorem rel_currentPath (c : Code) : Rel A (currentPath (.ref c)) (currentPath .null) := by
  refine .call' fun (size : Int) => ?_
  by_cases h : 0 < size
  all_goals simp only [h, if_true, if_false]
  · refine .call' fun r => ?_
    rcases r with e | s
    · exact .reportMsg ..
    · exact .ok _
  · exact .fault _

theorem rel_setCurrentPath (p : Path) (c : Code) :
    Rel A (setCurrentPath p (.ref c)) (setCurrentPath p .null) := by
  refine .call' fun r => ?_
  rcases r with e | s
  · exact .report ..
  · exact .ok _

theorem rel_doAbsolute (p : Path) (c : Code) : Rel A (doAbsolute p (.ref c)) (doAbsolute p .null) := by
  simp only [doAbsolute, Prog.bind_eq, clear_ref, clear_null]
  refine .ofRes fun b => ?_
  split
  · exact .ok _
  · refine .bind' (rel_currentPath _) (fun v => ?_) (fun v e x h => ?_)
    · simp only [isSet_none, isSet_null]
      exact .ofRes fun r => .ok _
    · exact .err _ _ _ h

theorem rel_absolute (p : Path) (c : Code) : Rel A (absolute p (.ref c)) (absolute p .null) := by
  simp only [absolute, Prog.bind_eq]
  exact .bind' (rel_doAbsolute p c) (fun v => .ok _) (fun v e x h => .err _ _ _ h)

/-- `getcwd` does not fail. -/
def CwdOk : Event → Prop
  | ⟨.getcwd _, .error _⟩ => False
  | _ => True

theorem rel_canonical (p : Path) (c : Code) : Rel CwdOk (canonical p (.ref c)) (canonical p .null) := by
  simp only [canonical, doAbsolute, Prog.bind_eq, clear_ref, clear_null, Prog.bind_assoc]
  refine .ofRes fun b => ?_
  split
  · refine .call' fun r => ?_
    rcases r with e | s
    · exact .report ..
    · exact .ok _
  · simp only [currentPath]
    refine .call' fun (size : Int) => ?_
    by_cases h : 0 < size
    · simp only [h, if_true, Prog.call_bind]
      refine .call _ _ _ fun r hr => ?_
      rcases r with e | s
      · exact hr.elim
      · simp only [Prog.ret_bind, clear_ref, clear_null, isSet_none, isSet_null, Bool.false_eq_true,
          if_false, Prog.bind_assoc]
        refine .ofRes fun r => .call' fun r => ?_
        rcases r with e | s
        · exact .report ..
        · exact .ok _
    · simp only [h, if_false, Prog.stop_bind]
      exact .fault _

theorem rel_createDirectory (p : Path) (c : Code) :
    Rel A (createDirectory p (.ref c)) (createDirectory p .null) := by
  refine .call' fun r => ?_
  rcases r with e | s
  · by_cases h : e = .EEXIST
    · simp only [h, if_true]; exact .ok _
    · simp only [h, if_false]
      exact .bind' (.report ..) (fun _ => .ok _) (fun _ e x h => .err _ _ _ h)
  · exact .ok _

theorem rel_createDirectoryLike (p q : Path) (c : Code) :
    Rel A (createDirectoryLike p q (.ref c)) (createDirectoryLike p q .null) := by
  simp only [createDirectoryLike, getFileStatus_ref, Prog.bind_eq, Prog.call_bind, clear_ref, clear_null]
  refine .call' fun r => ?_
  rcases r with e | st
  · simp only [Prog.ret_bind]
    split
    · exact .report ..
    · split
      · exact .reportMsg ..
      · exact .fault _
  · simp only [Prog.ret_bind, statusOf_known, Bool.not_true, Bool.false_eq_true, if_false]
    split
    · exact .reportMsg ..
    · simp only [Prog.useStat, Prog.ret_bind]
      refine .call' fun r => ?_
      rcases r with e | s
      · by_cases h : e = .EEXIST
        · simp only [h, if_true]; exact .ok _
        · simp only [h, if_false]
          exact .bind' (.report ..) (fun _ => .ok _) (fun _ e x h => .err _ _ _ h)
      · exact .ok _

theorem rel_createSymlinkAs (f : Str) (a b : Path) (c : Code) :
    Rel A (createSymlinkAs f a b (.ref c)) (createSymlinkAs f a b .null) := by
  refine .call' fun r => ?_
  rcases r with e | s
  · exact .report ..
  · exact .ok _

theorem rel_createHardLink (a b : Path) (c : Code) :
    Rel A (createHardLink a b (.ref c)) (createHardLink a b .null) := by
  refine .call' fun r => ?_
  rcases r with e | s
  · exact .report ..
  · exact .ok _

theorem rel_readSymlink (p : Path) (c : Code) : Rel A (readSymlink p (.ref c)) (readSymlink p .null) := by
  refine .call' fun (size : Int) => ?_
  by_cases h : 0 < size
  all_goals simp only [h, if_true, if_false]
  · refine .call' fun r => ?_
    rcases r with e | s
    · exact .report ..
    · simp only
      split
      · exact .ok _
      · exact .fault _
  · exact .fault _

theorem rel_copySymlink (a b : Path) (c : Code) :
    Rel A (copySymlink a b (.ref c)) (copySymlink a b .null) := by
  have hn : NoThrow A (readSymlink a (.ref none)) := (rel_readSymlink a none).noThrow
  simp only [copySymlink, Prog.bind_eq, clear_ref, clear_null]
  refine .prefix hn fun v => ?_
  obtain ⟨v, m⟩ := v
  rcases m with _ | _ | e
  · exact rel_createSymlinkAs ..
  · exact rel_createSymlinkAs ..
  · exact .report ..

theorem noThrow_getFileStatus (p : Path) (st : Option Stat) (c : Code) :
    NoThrow A (getFileStatus p st (.ref c)) := by
  rw [getFileStatus_ref]
  refine .call _ _ fun r _ => ?_
  rcases r with e | st <;> exact .ret _

theorem noThrow_getLinkStatus (p : Path) (st : Option Stat) (c : Code) :
    NoThrow A (getLinkStatus p st (.ref c)) := by
  rw [getLinkStatus_ref]
  refine .call _ _ fun r _ => ?_
  rcases r with e | st <;> exact .ret _

theorem noThrow_status (p : Path) (c : Code) : NoThrow A (status p (.ref c)) := by
  rw [status_ref]
  refine .call _ _ fun r _ => ?_
  rcases r with e | st <;> exact .ret _

theorem noThrow_symlinkStatus (p : Path) (c : Code) : NoThrow A (symlinkStatus p (.ref c)) := by
  rw [symlinkStatus_ref]
  refine .call _ _ fun r _ => ?_
  rcases r with e | st <;> exact .ret _

theorem noThrow_useStat (st : Option Stat) : NoThrow A (Prog.useStat st) := by
  cases st
  · exact .fault _
  · exact .ret _

theorem rel_equivalent (p q : Path) (c : Code) : Rel A (equivalent p q (.ref c)) (equivalent p q .null) := by
  simp only [equivalent, Prog.bind_eq, clear_ref, clear_null]
  refine .prefix (noThrow_getFileStatus ..) fun v => ?_
  split
  · exact .report ..
  · refine .prefix (noThrow_getFileStatus ..) fun w => ?_
    split
    · exact .report ..
    · exact .prefix (noThrow_useStat _) fun a => .prefix (noThrow_useStat _) fun b => .ok _

theorem rel_fileSize (p : Path) (c : Code) : Rel A (fileSize p (.ref c)) (fileSize p .null) := by
  simp only [fileSize, getFileStatus_ref, Prog.bind_eq, Prog.call_bind, clear_ref, clear_null]
  refine .call' fun r => ?_
  rcases r with e | st
  · simp only [Prog.ret_bind]
    split
    · exact .report ..
    · exact .fault _
  · simp only [Prog.ret_bind]
    split
    · exact .report ..
    · exact .ok _

theorem rel_hardLinkCount (p : Path) (c : Code) :
    Rel A (hardLinkCount p (.ref c)) (hardLinkCount p .null) := by
  simp only [hardLinkCount, getFileStatus_ref, Prog.bind_eq, Prog.call_bind, clear_ref, clear_null]
  refine .call' fun r => ?_
  rcases r with e | st
  · exact .report ..
  · exact .ok _

theorem rel_chmodAt (p : Path) (prms : Perms) (b : Bool) :
    Rel A (chmodAt p prms b (.ref none)) (chmodAt p prms b .null) := by
  unfold chmodAt
  refine .call' fun r => ?_
  rcases r with e | s
  · exact .report ..
  · exact .ok _

theorem rel_permissions (p : Path) (prms : Perms) (o : PermOptions) (c : Code) :
    Rel A (permissions p prms o (.ref c)) (permissions p prms o .null) := by
  simp only [permissions, Prog.bind_eq, clear_ref, clear_null]
  split
  · exact .fault _
  · split
    · refine .prefix (by unfold permStatus; split; exact noThrow_status ..; exact noThrow_symlinkStatus ..) fun v => ?_
      obtain ⟨st, m⟩ := v
      rcases m with _ | _ | e
      case ref.some => exact .report ..
      all_goals
        simp only [isSet_none, isSet_null, Bool.false_eq_true, if_false]
        split
        · exact .fault _
        · exact rel_chmodAt ..
    · exact rel_chmodAt ..

theorem rel_remove (p : Path) (c : Code) : Rel A (remove p (.ref c)) (remove p .null) := by
  unfold remove
  simp only [clear_ref, clear_null]
  split
  · exact .ok _
  · refine .call' fun r => ?_
    rcases r with e | s
    · by_cases h : e = .ENOENT
      · simp only [h, if_true]; exact .ok _
      · simp only [h, if_false]
        exact .bind' (.report ..) (fun _ => .ok _) (fun _ e x h => .err _ _ _ h)
    · exact .ok _

theorem rel_rename (a b : Path) (c : Code) : Rel A (rename a b (.ref c)) (rename a b .null) := by
  refine .call' fun r => ?_
  rcases r with e | s
  · exact .report ..
  · exact .ok _

theorem rel_resizeFile (p : Path) (n : BitVec 64) (c : Code) :
    Rel A (resizeFile p n (.ref c)) (resizeFile p n .null) := by
  refine .call' fun r => ?_
  rcases r with e | s
  · exact .report ..
  · exact .ok _

theorem rel_space (p : Path) (c : Code) : Rel A (space p (.ref c)) (space p .null) := by
  refine .call' fun r => ?_
  rcases r with e | s
  · exact .bind' (.report ..) (fun _ => .ok _) (fun _ e x h => .err _ _ _ h)
  · exact .ok _

theorem noThrow_firstEnv (vs : List Str) : NoThrow A (firstEnv vs) := by
  induction vs with
  | nil => exact .ret _
  | cons v vs ih =>
    refine .call _ _ fun r _ => ?_
    rcases r with _ | s
    · exact ih
    · exact .ret _

theorem rel_tempDirectoryPath (c : Code) :
    Rel A (tempDirectoryPath (.ref c)) (tempDirectoryPath .null) := by
  simp only [tempDirectoryPath, status_ref, Prog.bind_eq, Prog.call_bind, clear_ref, clear_null]
  refine .prefix (noThrow_firstEnv _) fun s => .call' fun r => ?_
  rcases r with e | st
  · simp only [Prog.ret_bind]
    split
    · exact .reportMsg ..
    · split
      · exact .reportMsg ..
      · exact .ok _
  · simp only [Prog.ret_bind, statusOf_known, Bool.not_true, Bool.false_eq_true, if_false]
    split
    · exact .reportMsg ..
    · exact .ok _

theorem rel_extractLastWriteTime (p : Path) (st : Stat) (c : Code) :
    Rel A (extractLastWriteTime p st (.ref c)) (extractLastWriteTime p st .null) := by
  simp only [extractLastWriteTime, Prog.bind_eq, clear_ref, clear_null]
  split
  · exact .ofRes fun t => .ok _
  · exact .report ..

theorem rel_lastWriteTime (p : Path) (c : Code) : Rel A (lastWriteTime p (.ref c)) (lastWriteTime p .null) := by
  simp only [lastWriteTime, getFileStatus_ref, Prog.bind_eq, Prog.call_bind, clear_ref, clear_null]
  refine .call' fun r => ?_
  rcases r with e | st
  · exact .report ..
  · exact rel_extractLastWriteTime ..

theorem rel_setLastWriteTime (p : Path) (t : Int) (c : Code) :
    Rel A (setLastWriteTime p t (.ref c)) (setLastWriteTime p t .null) := by
  simp only [setLastWriteTime, clear_ref, clear_null]
  split
  · exact .reportMsg ..
  · refine .call' fun r => ?_
    rcases r with e | s
    · exact .report ..
    · exact .ok _

theorem noThrow_existingPrefix (xs : List Path) (r : Path) : NoThrow A (existingPrefix xs r) := by
  induction xs generalizing r with
  | nil => exact .ret _
  | cons x xs ih =>
    simp only [existingPrefix, status_ref, Prog.bind_eq, Prog.call_bind]
    refine .bind (.ofRes _) fun tmp => .call _ _ fun r _ => ?_
    rcases r with e | st
    · simp only [Prog.ret_bind]
      split
      · exact ih _
      · exact .ret _
    · simp only [Prog.ret_bind, statusOf_exists, if_true]
      exact ih _

theorem rel_weaklyCanonical (el : Bool) (p : Path) (c : Code) :
    Rel CwdOk (weaklyCanonical el p (.ref c)) (weaklyCanonical el p .null) := by
  simp only [weaklyCanonical, status_ref, Prog.bind_eq, Prog.call_bind, clear_ref, clear_null]
  split
  · exact rel_canonical ..
  · refine .call' fun r => ?_
    rcases r with e | st
    · simp only [Prog.ret_bind]
      split
      · exact .report ..
      · split
        · exact rel_canonical ..
        · refine .prefix (noThrow_existingPrefix ..) fun v => ?_
          obtain ⟨result, rest, m⟩ := v
          simp only
          refine .prefix ?_ fun v => ?_
          · split
            · exact .bind (rel_canonical _ none).noThrow fun _ => .ret _
            · exact .ret _
          · obtain ⟨r, m⟩ := v
            simp only
            split
            · exact .ok _
            · exact .ofRes fun _ => .ofRes fun _ => .ok _
    · simp only [Prog.ret_bind, statusOf_known, statusOf_exists, Bool.not_true, Bool.false_eq_true,
        if_false, if_true]
      exact rel_canonical ..

theorem rel_viaCanonical (el : Bool) (f : Path → Path → Res Path) (p base : Path) (c : Code) :
    Rel CwdOk (viaCanonicalEc el f p base c) (viaCanonicalThrow el f p base) := by
  simp only [viaCanonicalEc, viaCanonicalThrow, Prog.bind_eq]
  refine .bind' (rel_weaklyCanonical ..) (fun v => ?_) (fun v e x h => .err _ _ _ h)
  simp only [isSet_none, Bool.false_eq_true, if_false]
  refine .bind' (rel_weaklyCanonical ..) (fun v => ?_) (fun v e x h => .err _ _ _ h)
  simp only [isSet_none, Bool.false_eq_true, if_false]
  exact .ofRes fun r => .ok _

theorem rel_viaCwd (f : Path → EcArg → Prog (Path × EcArg))
    (hf : ∀ b c, Rel CwdOk (f b (.ref c)) (f b .null)) (c : Code) :
    Rel CwdOk ((currentPath .null).bind fun v => f v.1 (.ref c)) ((currentPath .null).bind fun v => f v.1 .null) := by
  simp only [currentPath]
  refine .call' fun (size : Int) => ?_
  by_cases h : 0 < size
  · simp only [h, if_true, Prog.call_bind]
    refine .call _ _ _ fun r hr => ?_
    rcases r with e | s
    · exact hr.elim
    · exact hf ..
  · simp only [h, if_false, Prog.stop_bind]
    exact .fault _

end Asap
