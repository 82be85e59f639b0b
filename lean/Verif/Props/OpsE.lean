import Verif.Props.DirA
import Verif.Ops.Bitmask

/-!
# C53, C54, C55, C29
-/

namespace Asap
open Spec

/-! ## C53 -/

theorem setWidth_setWidth_le {w : Nat} (hw : w ≤ 32) (x : BitVec w) : (x.setWidth 32).setWidth w = x := by
  apply BitVec.eq_of_getLsbD_eq
  intro i hi
  simp [hi, show i < 32 by omega]

theorem bmAnd_eq {w : Nat} (hw : w ≤ 32) (x y : BitVec w) : bmAnd x y = x &&& y := by
  simp [bmAnd, promote, BitVec.setWidth_and, setWidth_setWidth_le hw]
theorem bmOr_eq {w : Nat} (hw : w ≤ 32) (x y : BitVec w) : bmOr x y = x ||| y := by
  simp [bmOr, promote, BitVec.setWidth_or, setWidth_setWidth_le hw]
theorem bmXor_eq {w : Nat} (hw : w ≤ 32) (x y : BitVec w) : bmXor x y = x ^^^ y := by
  simp [bmXor, promote, BitVec.setWidth_xor, setWidth_setWidth_le hw]
theorem bmNot_eq {w : Nat} (hw : w ≤ 32) (x : BitVec w) : bmNot x = ~~~ x := by
  apply BitVec.eq_of_getLsbD_eq
  intro i hi
  simp [bmNot, promote, hi, show i < 32 by omega]

/-- The bits of a flag value. -/
def Spec.bits {w : Nat} (x : BitVec w) : Nat → Prop := fun i => x.getLsbD i = true

/-- Flags that are single bits of the type, all different. -/
def Spec.Independent {w : Nat} (l : List (BitVec w)) : Prop :=
  ∃ ks : List Nat, ks.Nodup ∧ (∀ k ∈ ks, k < w) ∧ l = ks.map fun k => BitVec.twoPow w k

/-- The flags of each option type, without the ones that stand for nothing or for several others. -/
def Spec.copyFlags : List CopyOptions := [.skipExisting, .overwriteExisting, .updateExisting, .recursive,
  .copySymlinks, .skipSymlinks, .directoriesOnly, .createSymlinks, .createHardLinks]
def Spec.dirFlags : List DirOptions := [.followSymlink, .skipDenied]
def Spec.permOptFlags : List PermOptions := [.replace, .add, .remove, .nofollow]
def Spec.permFlags : List Perms := [Perms.ownerRead, Perms.ownerWrite, Perms.ownerExec, Perms.groupRead,
  Perms.groupWrite, Perms.groupExec, Perms.othersRead, Perms.othersWrite, Perms.othersExec, Perms.setUid]

/-- C53, operators. For each of the four types (8, 16 and 32 bits wide): the operators act on the set of bits as intersection,
union, symmetric difference and complement (within the width of the type), and the assignment forms
store and denote the value of the plain ones. -/
theorem c53_operators {w : Nat} (hw : w ≤ 32) (x y : BitVec w) :
    (∀ i, bits (bmAnd x y) i ↔ bits x i ∧ bits y i) ∧
    (∀ i, bits (bmOr x y) i ↔ bits x i ∨ bits y i) ∧
    (∀ i, bits (bmXor x y) i ↔ ¬ (bits x i ↔ bits y i)) ∧
    (∀ i, bits (bmNot x) i ↔ i < w ∧ ¬ bits x i) ∧
    (∀ i, bits x i → i < w) ∧
    ((∀ i, bits x i ↔ bits y i) → x = y) ∧
    (bmAssign bmAnd x y = (bmAnd x y, bmAnd x y) ∧ bmAssign bmOr x y = (bmOr x y, bmOr x y) ∧
      bmAssign bmXor x y = (bmXor x y, bmXor x y)) := by
  refine ⟨?_, ?_, ?_, ?_, ?_, ?_, rfl, rfl, rfl⟩ <;> try simp only [bmAnd_eq hw, bmOr_eq hw, bmXor_eq hw, bmNot_eq hw]
  · intro i; simp [bits]
  · intro i; simp [bits]
  · intro i; simp only [bits, BitVec.getLsbD_xor]; cases x.getLsbD i <;> cases y.getLsbD i <;> simp
  · intro i; simp [bits]
  · intro i h; exact BitVec.lt_of_getLsbD h
  · intro h
    apply BitVec.eq_of_getLsbD_eq
    intro i _
    rw [Bool.eq_iff_iff]
    exact h i

/-- C53, algebra: the laws users compute with. -/
theorem c53_laws {w : Nat} (hw : w ≤ 32) (x y z : BitVec w) :
    bmAnd x y = bmAnd y x ∧ bmOr x y = bmOr y x ∧
    bmAnd x (bmAnd y z) = bmAnd (bmAnd x y) z ∧ bmOr x (bmOr y z) = bmOr (bmOr x y) z ∧
    bmAnd x (bmOr y z) = bmOr (bmAnd x y) (bmAnd x z) ∧ bmOr x (bmAnd y z) = bmAnd (bmOr x y) (bmOr x z) ∧
    bmOr x (bmAnd x y) = x ∧ bmAnd x (bmOr x y) = x ∧
    bmAnd x (bmNot x) = 0 ∧ bmOr x 0 = x ∧ bmNot (bmNot x) = x ∧
    bmNot (bmAnd x y) = bmOr (bmNot x) (bmNot y) ∧ bmNot (bmOr x y) = bmAnd (bmNot x) (bmNot y) ∧
    bmXor x y = bmOr (bmAnd x (bmNot y)) (bmAnd (bmNot x) y) ∧ bmXor (bmXor x y) y = x := by
  simp only [bmAnd_eq hw, bmOr_eq hw, bmXor_eq hw, bmNot_eq hw]
  refine ⟨?_, ?_, ?_, ?_, ?_, ?_, ?_, ?_, ?_, ?_, ?_, ?_, ?_, ?_, ?_⟩ <;> ext i hi <;>
    simp only [BitVec.getElem_and, BitVec.getElem_or, BitVec.getElem_xor, BitVec.getElem_not] <;>
    cases x[i] <;> cases y[i] <;> first | rfl | (cases z[i] <;> rfl) | simp

/-- C53, enumerators, the part that holds: within each type the flags are different single bits, so that testing
one (`opts & o`) sees exactly that one. Missing: `perms::set_gid` and `perms::sticky_bit` (`c53_violated`). -/
theorem c53_flags_partial :
    Independent copyFlags ∧ Independent dirFlags ∧ Independent permOptFlags ∧ Independent permFlags ∧
    (∀ l : List CopyOptions, (∀ o ∈ l, o ∈ copyFlags) → ∀ o ∈ copyFlags,
      (CopyOptions.has (l.foldl bmOr CopyOptions.none) o = true ↔ o ∈ l)) := by
  refine ⟨⟨[0, 1, 2, 3, 4, 5, 6, 7, 8], by decide, by decide, by decide⟩, ⟨[0, 1], by decide, by decide, by decide⟩,
    ⟨[0, 1, 2, 3], by decide, by decide, by decide⟩, ⟨[8, 7, 6, 5, 4, 3, 2, 1, 0, 11], by decide, by decide, by decide⟩, ?_⟩
  intro l hl o ho
  have key : ∀ (l : List CopyOptions) (a : CopyOptions), (∀ o ∈ l, o ∈ copyFlags) →
      (CopyOptions.has (l.foldl bmOr a) o = true ↔ a.has o = true ∨ o ∈ l) := by
    intro l
    induction l with
    | nil => intro a _; simp
    | cons b l ih =>
      intro a hl
      rw [List.foldl_cons, ih _ (fun x hx => hl x (by simp [hx]))]
      have hb : b ∈ copyFlags := hl b (by simp)
      have : CopyOptions.has (bmOr a b) o = true ↔ a.has o = true ∨ o = b := by
        have h1 : b.has o = true ↔ o = b := by
          simp only [copyFlags, List.mem_cons, List.not_mem_nil, or_false] at hb ho
          rcases hb with rfl | rfl | rfl | rfl | rfl | rfl | rfl | rfl | rfl <;>
          rcases ho with rfl | rfl | rfl | rfl | rfl | rfl | rfl | rfl | rfl <;> decide
        rw [← h1, bmOr_eq (by decide)]
        simp only [CopyOptions.has, CopyOptions.none, bne_iff_ne, ne_eq]
        have hor : (a ||| b) &&& o = (a &&& o) ||| (b &&& o) := by
          ext i hi
          simp only [BitVec.getElem_and, BitVec.getElem_or]
          cases a[i] <;> cases b[i] <;> cases o[i] <;> rfl
        rw [hor]
        have h0 : ∀ u v : BitVec 16, (u ||| v) = 0 ↔ u = 0 ∧ v = 0 := by
          intro u v
          constructor
          · intro h
            constructor <;>
            · ext i hi
              have := congrArg (fun x : BitVec 16 => x[i]) h
              simp at this ⊢
              simp [this]
          · rintro ⟨rfl, rfl⟩; rfl
        have h0' := h0 (a &&& o) (b &&& o)
        constructor
        · intro h
          by_cases hu : (a &&& o) = 0
          · right; intro hv; exact h (h0'.mpr ⟨hu, hv⟩)
          · exact .inl hu
        · rintro (h | h) hx
          · exact h (h0'.mp hx).1
          · exact h (h0'.mp hx).2
      rw [this, List.mem_cons, or_assoc]
  rw [key l _ hl]
  have : CopyOptions.none.has o = false := by
    simp only [copyFlags, List.mem_cons, List.not_mem_nil, or_false] at ho
    rcases ho with rfl | rfl | rfl | rfl | rfl | rfl | rfl | rfl | rfl <;> decide
  simp [this]

/-- C53 is false for `perms`: two of its enumerators are no bits at all. -/
theorem c53_violated : ¬ Independent [Perms.setUid, Perms.setGid, Perms.stickyBit] ∧
    Perms.setGid = Perms.none ∧ Perms.stickyBit = Perms.none := by
  refine ⟨?_, rfl, rfl⟩
  rintro ⟨ks, _, hk, h⟩
  match ks, hk, h with
  | [], _, h => simp at h
  | [_], _, h => simp at h
  | _ :: b :: ks, hk, h =>
    simp only [List.map_cons, List.cons.injEq] at h
    have hb := hk b (by simp)
    have := congrArg (fun x : BitVec 32 => x.getLsbD b) h.2.1
    simp [Perms.setGid, hb] at this

example : CopyOptions.has ([CopyOptions.recursive, .copySymlinks].foldl bmOr CopyOptions.none) .copySymlinks = true := by decide

/-! ## C54 -/

theorem statusOf_type (st : Stat) : (statusOf st).type = typeOf st.mode := typeOfMode_eq _

/-- C54, `file_size`: one look at the file. Its size if it is a regular file, `is_a_directory` for
directories, `not_supported` for all other types, the error of looking otherwise; an error
goes with the value `uintmax_t(-1)`. -/
theorem c54_file_size (p : Path) (c : Code) (t : List Event) (o : Except Stop (BitVec 64 × EcArg)) :
    Exec (fileSize p (.ref c)) t o ↔
      (∃ e, t = [⟨.stat p.pathname, (.error e : Except Errno Stat)⟩] ∧ o = .ok (-1, .ref (some e))) ∨
      (∃ st, t = [⟨.stat p.pathname, (.ok st : Except Errno Stat)⟩] ∧
        o = .ok (match typeOf st.mode with
          | .regular => (st.size, .ref none)
          | .directory => (-1, .ref (some .EISDIR))
          | _ => (-1, .ref (some .ENOTSUP)))) := by
  have hm : umaxErr = -1 := by decide
  simp only [fileSize, clear_ref, Prog.bind_eq, exec_getFileStatus_bind]
  have key : ∀ st : Stat, (fun x : (FStatus × Option Stat) × EcArg =>
      if (!x.1.1.exists' || !x.1.1.isRegular) = true then
        (⟨"file_size".toList, some p, none⟩ : Handler).report (.ref none)
          (if x.2.isSet = true then x.2.code else some (if x.1.1.isDirectory = true then .EISDIR else .ENOTSUP)) umaxErr
      else (Prog.useStat x.1.2).bind fun st => .ret (st.size, .ref none)) ((statusOf st, some st), .ref none) =
      .ret (match typeOf st.mode with
          | .regular => (st.size, .ref none)
          | .directory => (-1, .ref (some .EISDIR))
          | _ => (-1, .ref (some .ENOTSUP))) := by
    intro st
    simp only [statusOf_exists, FStatus.isRegular, FStatus.isDirectory, statusOf_type, isSet_none, hm]
    cases typeOf st.mode <;> rfl
  constructor
  · rintro (⟨e, t', rfl, h⟩ | ⟨st, t', rfl, h⟩)
    · have : FStatus.exists' { type := typeOfErr e } = false := by unfold typeOfErr; split <;> rfl
      simp [this, Handler.report] at h
      obtain ⟨rfl, rfl⟩ := h
      exact .inl ⟨e, rfl, by rw [hm]⟩
    · have h' := h
      have hk := key st
      simp only at hk
      rw [hk] at h'
      simp only [exec_ret] at h'
      obtain ⟨rfl, rfl⟩ := h'
      exact .inr ⟨st, rfl, rfl⟩
  · rintro (⟨e, rfl, rfl⟩ | ⟨st, rfl, rfl⟩)
    · have : FStatus.exists' { type := typeOfErr e } = false := by unfold typeOfErr; split <;> rfl
      exact .inl ⟨e, [], rfl, by simp [this, Handler.report, hm]⟩
    · refine .inr ⟨st, [], rfl, ?_⟩
      have hk := key st
      simp only at hk
      rw [hk]
      exact .ret _

/-- C54, `is_empty`: one look at the file. Regular file: is its size zero. Directory: it is opened, read up
to the first entry other than `.` and `..`, and closed; the answer is whether there was
none. Other types: `not_supported`. Every failure is reported, with the answer false. Names
are assumed non-empty. `n` bounds the entries read. -/
theorem c54_is_empty {p : Path} (hp : Value p) (n : Nat) (c : Code) (t : List Event) (o : Except Stop (Bool × EcArg))
    (h : Exec (isEmptyFile n p (.ref c)) t o)
    (hnames : ∀ d ent, (⟨.readdir d, (.ok (some ent) : Except Errno (Option Dirent))⟩ : Event) ∈ t → ent.name ≠ []) :
    (∃ e, t = [⟨.stat p.pathname, (.error e : Except Errno Stat)⟩] ∧ o = .ok (false, .ref (some e))) ∨
    ∃ st t', t = ⟨.stat p.pathname, (.ok st : Except Errno Stat)⟩ :: t' ∧
      (typeOf st.mode = .regular → t' = [] ∧ o = .ok (decide (st.size = 0), .ref none)) ∧
      (typeOf st.mode ≠ .regular → typeOf st.mode ≠ .directory → t' = [] ∧ o = .ok (false, .ref (some .ENOTSUP))) ∧
      (typeOf st.mode = .directory →
        (∃ e, t' = [⟨.opendir p.pathname, (.error e : Except Errno Nat)⟩] ∧ o = .ok (false, .ref (some e))) ∨
        (o = .error .fuel ∧ n < t'.length) ∨
        ∃ (d : Nat) (dots : List Dirent) (last : Except Errno (Option Dirent)) (r : Except Errno Unit), (∀ e ∈ dots, e.name = ".".toList ∨ e.name = "..".toList) ∧
          t' = [⟨.opendir p.pathname, (.ok d : Except Errno Nat)⟩] ++
            dots.map (fun e => ⟨.readdir d, (.ok (some e) : Except Errno (Option Dirent))⟩) ++
            [⟨.readdir d, last⟩, ⟨.closedir d, r⟩] ∧
          ((last = .ok none ∧ o = .ok (true, .ref none)) ∨
           (∃ e, last = .error e ∧ o = .ok (false, .ref (some e))) ∨
           (∃ ent, last = .ok (some ent) ∧ ent.name ≠ ".".toList ∧ ent.name ≠ "..".toList ∧
             o = .ok (false, .ref none)))) := by
  simp only [isEmptyFile, clear_ref, Prog.bind_eq, exec_getFileStatus_bind] at h
  rcases h with ⟨e, t', rfl, h⟩ | ⟨st, t', rfl, h⟩
  · simp [Handler.report] at h
    obtain ⟨rfl, rfl⟩ := h
    exact .inl ⟨e, rfl, rfl⟩
  · right
    refine ⟨st, t', rfl, ?_, ?_, ?_⟩
    · intro hty
      simp only [isSet_none, FStatus.isDirectory, FStatus.isRegular, statusOf_type, hty] at h
      have h' : Exec (.ret (st.size == 0, EcArg.ref none)) t' o := h
      rw [exec_ret] at h'
      exact ⟨h'.1, by rw [h'.2]; rfl⟩
    · intro h1 h2
      simp only [isSet_none, FStatus.isDirectory, FStatus.isRegular, statusOf_type, Bool.false_eq_true, if_false] at h
      rw [if_pos (by simp [h1, h2])] at h
      simpa [Handler.report] using h
    · intro hty
      simp only [isSet_none, FStatus.isDirectory, FStatus.isRegular, statusOf_type, hty] at h
      simp only [isEmptyDirectory, Prog.bind_eq] at h
      simp at h
      have hdots : ∀ {dots : List Dirent}, (∀ e ∈ dots, e.dot) → ∀ e ∈ dots, e.name = ".".toList ∨ e.name = "..".toList :=
        fun h => h
      rcases exec_bind.mp h with ⟨x, h1, rfl⟩ | ⟨⟨it, ec⟩, t1, t2, rfl, h1, h2⟩
      · rcases (exec_dirIterNew hp.shape).mp h1 with ⟨e, _, h3⟩ | ⟨d, dots, hd, ⟨h2, rfl, h3⟩ | ⟨h2, ⟨a, c, r, h4, rfl, h3⟩ | ⟨ent, h4, h5, rfl, h3⟩⟩⟩
        · cases h3
        · cases h3; exact .inr (.inl ⟨rfl, by simp [h2]⟩)
        · cases h3
        · cases h3
      · rcases (exec_dirIterNew hp.shape).mp h1 with ⟨e, rfl, h3⟩ | ⟨d, dots, hd, ⟨_, _, h3⟩ | ⟨h3, ⟨a, c, r, h4, rfl, h5⟩ | ⟨ent, h4, h6, rfl, h5⟩⟩⟩
        · cases h3
          have : DirOptions.has .none .skipDenied = false := by decide
          simp [this, DirIter.destroy] at h2
          obtain ⟨rfl, rfl⟩ := h2
          exact .inl ⟨e, by simp [opEv], rfl⟩
        · cases h3
        · cases h5
          right; right
          rcases a with e | _ | ent
          · simp [ends] at h4
            subst h4
            simp [DirIter.destroy] at h2
            obtain ⟨rfl, rfl⟩ := h2
            exact ⟨d, dots, _, r, hd, by simp [rdAll, rdEv, opEv, clEv], .inr (.inl ⟨e, rfl, rfl⟩)⟩
          · simp [ends] at h4
            subst h4
            simp [DirIter.destroy] at h2
            obtain ⟨rfl, rfl⟩ := h2
            exact ⟨d, dots, _, r, hd, by simp [rdAll, rdEv, opEv, clEv], .inl ⟨rfl, rfl⟩⟩
          · exfalso
            have := hnames d ent (by simp [rdEv])
            rw [ends_ent this] at h4
            cases h4
        · cases h5
          right; right
          simp only [DirIter.destroy, Prog.bind_eq, Prog.bind_assoc] at h2
          rcases exec_bind.mp h2 with ⟨x, h1, rfl⟩ | ⟨s', t3, t4, rfl, h1, hb⟩
          · obtain ⟨r, _, hcl⟩ := (exec_streamClose (d := d) rfl).mp h1; cases hcl
          · obtain ⟨r, rfl, hcl⟩ := (exec_streamClose (d := d) rfl).mp h1
            cases hcl
            have h7 : t4 = [] ∧ o = .ok (false, .ref none) := by simpa [Prog.bind] using hb
            obtain ⟨rfl, rfl⟩ := h7
            exact ⟨d, dots, _, r, hd, by simp [rdAll, rdEv, opEv, clEv], .inr (.inr ⟨ent, rfl, fun h => h4 (.inl h),
              fun h => h4 (.inr h), rfl⟩)⟩

example : typeOf 0o040755 = .directory ∧ ∃ t o, Exec (isEmptyFile 5 (mkPath .posix "d".toList) (.ref none)) t o ∧
    o = .ok (true, .ref none) := by
  refine ⟨by decide, [⟨.stat "d".toList, (.ok { Stat.zero with mode := 0o040755 } : Except Errno Stat)⟩,
    ⟨.opendir "d".toList, (.ok 3 : Except Errno Nat)⟩,
    ⟨.readdir 3, (.ok (some ⟨".".toList, .dir⟩) : Except Errno (Option Dirent))⟩,
    ⟨.readdir 3, (.ok none : Except Errno (Option Dirent))⟩, ⟨.closedir 3, (.ok () : Except Errno Unit)⟩], _, ?_, rfl⟩
  exact .call _ _ _ _ _ (.call _ _ _ _ _ (.call _ _ _ _ _ (.call _ _ _ _ _ (.call _ _ _ _ _ (.ret _)))))

/-! ## C55 -/

/-- The outcome of an operation without result that made one system call: success, or
the error in `ec`, or an exception with that error. -/
def Spec.Reports (ec : EcArg) (r : Except Errno Unit) (o : Except Stop (Unit × EcArg)) : Prop :=
  match ec, r with
  | .ref _, .ok () => o = .ok ((), .ref none)
  | .ref _, .error e => o = .ok ((), .ref (some e))
  | .null, .ok () => o = .ok ((), .null)
  | .null, .error e => ∃ x : FsError, o = .error (.thrown x) ∧ x.code = some e

/-- C55, both overloads (`ec` null or not): each operation is one system call with the arguments
given, and reports its error. -/
theorem c55_one_call (a b : Path) (n : BitVec 64) (ec : EcArg) (t : List Event) (o : Except Stop (Unit × EcArg)) :
    (Exec (rename a b ec) t o → ∃ r, t = [⟨.rename a.pathname b.pathname, r⟩] ∧ Reports ec r o) ∧
    (Exec (resizeFile a n ec) t o → ∃ r, t = [⟨.truncate a.pathname n, r⟩] ∧ Reports ec r o) ∧
    (Exec (createHardLink a b ec) t o → ∃ r, t = [⟨.link a.pathname b.pathname, r⟩] ∧ Reports ec r o) ∧
    (Exec (createSymlink a b ec) t o → ∃ r, t = [⟨.symlink a.pathname b.pathname, r⟩] ∧ Reports ec r o) ∧
    (Exec (createDirectorySymlink a b ec) t o → ∃ r, t = [⟨.symlink a.pathname b.pathname, r⟩] ∧ Reports ec r o) ∧
    (Exec (setCurrentPath a ec) t o → ∃ r, t = [⟨.chdir a.pathname, r⟩] ∧ Reports ec r o) := by
  refine ⟨?_, ?_, ?_, ?_, ?_, ?_⟩
  all_goals
    intro h
    simp only [rename, resizeFile, createHardLink, createSymlink, createDirectorySymlink, createSymlinkAs,
      setCurrentPath] at h
    obtain ⟨r, t', rfl, hr⟩ := exec_call.mp h
    rcases r with e | u
  all_goals
    cases ec
  all_goals
    simp only [Handler.report, EcArg.clear, exec_ret, exec_stop] at hr
    obtain ⟨rfl, rfl⟩ := hr
    refine ⟨_, rfl, ?_⟩
    first | exact rfl | exact ⟨_, rfl, rfl⟩

/-- C55, `read_symlink`: changes nothing; yields the text of the link, or reports the error and yields
the empty path. `PATH_MAX` is positive and the link text is not empty and fits. -/
theorem c55_read_symlink (p : Path) (c : Code) (t : List Event) (o : Except Stop (Path × EcArg))
    (h : Exec (readSymlink p (.ref c)) t o)
    (hos : ∀ size : Int, (⟨.pathconf, size⟩ : Event) ∈ t → 0 < size ∧
      ∀ s, (⟨.readlink p.pathname size.toNat, (.ok s : Except Errno Str)⟩ : Event) ∈ t → s ≠ [] ∧ (s.length : Int) ≤ size) :
    ∃ (size : Int) (r : Except Errno Str), t = [⟨.pathconf, size⟩, ⟨.readlink p.pathname size.toNat, r⟩] ∧
      (∀ ev ∈ t, ev.call.mutates = false) ∧
      ((∃ e, r = .error e ∧ o = .ok (.default, .ref (some e))) ∨
       ∃ s, r = .ok s ∧ o = .ok (mkPath .posix s, .ref none)) := by
  simp only [readSymlink, clear_ref] at h
  obtain ⟨size, t', rfl, h1⟩ := exec_pathconf.mp h
  obtain ⟨hsize, hlen⟩ := hos size (by simp)
  rw [if_pos hsize] at h1
  rcases exec_readlink.mp h1 with ⟨e, t'', rfl, h2⟩ | ⟨s, t'', rfl, h2⟩
  · simp [Handler.report] at h2
    obtain ⟨rfl, rfl⟩ := h2
    exact ⟨size, _, rfl, by simp [Sys.mutates], .inl ⟨e, rfl, rfl⟩⟩
  · obtain ⟨h3, h4⟩ := hlen s (by simp)
    simp only at h2
    rw [if_pos ⟨h4, List.length_pos_iff.mpr h3⟩] at h2
    simp at h2
    obtain ⟨rfl, rfl⟩ := h2
    exact ⟨size, _, rfl, by simp [Sys.mutates], .inr ⟨s, rfl, rfl⟩⟩

/-- C55, `resize_file` beyond the largest `off_t`: the length passed is negative, which `truncate`
rejects; then the rejection is reported. -/
theorem c55_resize_too_large (p : Path) (n : BitVec 64) (c : Code) (t : List Event) (o : Except Stop (Unit × EcArg))
    (h : Exec (resizeFile p n (.ref c)) t o) (hn : 2 ^ 63 ≤ n.toNat)
    (hos : ∀ q (len : BitVec 64) r, (⟨.truncate q len, r⟩ : Event) ∈ t → len.toInt < 0 → r = .error .EINVAL) :
    o = .ok ((), .ref (some .EINVAL)) := by
  obtain ⟨r, rfl, hr⟩ := (c55_one_call p p n (.ref c) t o).2.1 h
  have hneg : n.toInt < 0 := by
    rw [BitVec.toInt_neg_iff]; omega
  have := hos p.pathname n r (by simp) hneg
  subst this
  exact hr

/-! ## C29 -/

/-- C29, the part that holds, at the level of system calls: one `mkdir` with the mode asked for; true iff it
created the directory; false without error iff there was something with that name; every other error is
reported. Missing: a report when what is there is not a directory (`c29_violated`). -/
theorem c29_create_directory_partial (p : Path) (c : Code) (t : List Event) (o : Except Stop (Bool × EcArg))
    (h : Exec (createDirectory p (.ref c)) t o) :
    ∃ r, t = [⟨.mkdir p.pathname 0o777, r⟩] ∧
      ((r = .ok () ∧ o = .ok (true, .ref none)) ∨ (r = .error .EEXIST ∧ o = .ok (false, .ref none)) ∨
       ∃ e, e ≠ .EEXIST ∧ r = .error e ∧ o = .ok (false, .ref (some e))) := by
  simp only [createDirectory, clear_ref] at h
  rcases exec_mkdir.mp h with ⟨e, t', rfl, h'⟩ | ⟨⟨⟩, t', rfl, h'⟩
  · simp only at h'
    split at h'
    · rename_i he
      subst he
      simp at h'
      obtain ⟨rfl, rfl⟩ := h'
      exact ⟨_, rfl, .inr (.inl ⟨rfl, rfl⟩)⟩
    · rename_i he
      simp [Handler.report] at h'
      obtain ⟨rfl, rfl⟩ := h'
      exact ⟨_, rfl, .inr (.inr ⟨e, he, rfl, rfl⟩)⟩
  · simp at h'
    obtain ⟨rfl, rfl⟩ := h'
    exact ⟨_, rfl, .inl ⟨rfl, rfl⟩⟩

/-- C29 is false: `p` is a regular file (before and after), `mkdir` says that the name is taken, and
`create_directory` returns false without reporting anything. -/
theorem c29_violated : ∃ (m : Machine) (s : m.State) (p : Path) (st : Stat),
    m.step (.stat p.pathname) s = (.ok st, s) ∧ typeOf st.mode = .regular ∧
    m.step (.mkdir p.pathname 0o777) s = (.error .EEXIST, s) ∧
    (createDirectory p (.ref none)).eval m s = (.ok (false, .ref none), s) := by
  refine ⟨⟨Unit, fun c s => match c with
    | .stat _ | .lstat _ => (.ok { Stat.zero with mode := 0o100644 }, s)
    | .mkdir .. => (.error .EEXIST, s)
    | .realpath _ | .getcwd _ | .readlink .. => (.error .ENOSYS, s)
    | .pathconf => ((4096 : Int), s)
    | .winTest .. => ((false, none), s)
    | .win c => (c.fails, s)
    | .port c => (c.fails, s)
    | .getenv _ => ((none : Option Str), s)
    | .remove _ | .rename .. | .truncate .. | .symlink .. | .link ..
    | .chdir _ | .openf .. | .close _ | .fchmod .. | .ftruncate .. | .sendfile ..
    | .read .. | .write .. | .fchmodat .. | .utimensat .. | .statvfs _ | .opendir _ | .readdir _
    | .closedir _ | .winReadlink _ => (.error .ENOSYS, s)⟩, (), mkPath .posix "f".toList, _, rfl, by decide, rfl, rfl⟩

end Asap
