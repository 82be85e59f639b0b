import Verif.Props.CopyB

/-!
# C62: `copy_symlink`; C63, C64: which file `copy_file` replaces
-/

namespace Asap
open Spec

/-! ## C62 -/

/-- **C62**, partial: `copy_symlink` reads the link and makes one symbolic link with the same text; errors of either step
are reported and nothing else is changed. `PATH_MAX` is positive, the link text is not empty and fits. Missing: a text of
several slashes becomes one slash (`c62_violated`). -/
theorem c62_copy_symlink_partial (src dst : Path) (c : Code) (t : List Event) (o : Except Stop (Unit × EcArg))
    (h : Exec (copySymlink src dst (.ref c)) t o)
    (hos : ∀ size : Int, (⟨.pathconf, size⟩ : Event) ∈ t → 0 < size ∧
      ∀ s, (⟨.readlink src.pathname size.toNat, (.ok s : Except Errno Str)⟩ : Event) ∈ t → s ≠ [] ∧ (s.length : Int) ≤ size) :
    ∃ size : Int,
      (∃ e, t = [⟨.pathconf, size⟩, ⟨.readlink src.pathname size.toNat, (.error e : Except Errno Str)⟩] ∧
        o = .ok ((), .ref (some e))) ∨
      ∃ (s x : Str) (r : Except Errno Unit), t = [⟨.pathconf, size⟩, ⟨.readlink src.pathname size.toNat, (.ok s : Except Errno Str)⟩,
          ⟨.symlink x dst.pathname, r⟩] ∧ ((∃ ch ∈ s, ch ≠ '/') → x = s) ∧
        ((r = .ok () ∧ o = .ok ((), .ref none)) ∨ ∃ e, r = .error e ∧ o = .ok ((), .ref (some e))) := by
  simp only [copySymlink, clear_ref, Prog.bind_eq] at h
  have hsplit : ∃ t1 t2, t = t1 ++ t2 ∧ ∃ o1, Exec (readSymlink src (.ref none)) t1 o1 ∧
      ((∃ x, o1 = .error x ∧ o = .error x ∧ t2 = []) ∨ ∃ a, o1 = .ok a ∧
        Exec (if a.2.isSet then Handler.report ⟨"copy_symlink".toList, some src, some dst⟩ (.ref none) a.2.code () else createSymlink a.1 dst (.ref none)) t2 o) := by
    rcases exec_bind.mp h with ⟨x, h1, rfl⟩ | ⟨a, t1, t2, rfl, h1, h2⟩
    · exact ⟨t, [], by simp, _, h1, .inl ⟨x, rfl, rfl, rfl⟩⟩
    · exact ⟨t1, t2, rfl, _, h1, .inr ⟨a, rfl, h2⟩⟩
  obtain ⟨t1, t2, rfl, o1, h1, h2⟩ := hsplit
  obtain ⟨size, r, rfl, _, hr⟩ := c55_read_symlink src none t1 o1 h1 (by
    intro size hs
    obtain ⟨q1, q2⟩ := hos size (List.mem_append_left _ hs)
    exact ⟨q1, fun s hs => q2 s (List.mem_append_left _ hs)⟩)
  refine ⟨size, ?_⟩
  rcases hr with ⟨e, rfl, rfl⟩ | ⟨s, rfl, rfl⟩
  · rcases h2 with ⟨x, hx, _⟩ | ⟨a, ha, h3⟩
    · cases hx
    · cases ha
      simp only [EcArg.isSet, if_true, Handler.report, EcArg.code, exec_ret] at h3
      obtain ⟨rfl, rfl⟩ := h3
      exact .inl ⟨e, rfl, rfl⟩
  · rcases h2 with ⟨x, hx, _⟩ | ⟨a, ha, h3⟩
    · cases hx
    · cases ha
      simp only [EcArg.isSet, Bool.false_eq_true, if_false, createSymlink, createSymlinkAs, clear_ref] at h3
      right
      have htext : (∃ ch ∈ s, ch ≠ '/') → (mkPath .posix s).pathname = s := by
        rintro ⟨ch, h4, h5⟩
        rw [mkPath_pathname, stored, if_neg]
        simp only [List.all_eq_true, not_and]
        intro _ h6
        exact h5 (by simpa using h6 ch h4)
      rcases exec_symlink.mp h3 with ⟨e, t', rfl, h4⟩ | ⟨_, t', rfl, h4⟩
      · simp only [Handler.report, exec_ret] at h4
        obtain ⟨rfl, rfl⟩ := h4
        exact ⟨s, _, _, rfl, htext, .inr ⟨e, rfl, rfl⟩⟩
      · simp only [exec_ret] at h4
        obtain ⟨rfl, rfl⟩ := h4
        exact ⟨s, _, _, rfl, htext, .inl ⟨rfl, rfl⟩⟩

/-- **C62 is violated**: a link to `//` is copied as a link to `/`. -/
theorem c62_violated : Exec (copySymlink (mkPath .posix "a".toList) (mkPath .posix "b".toList) (.ref none))
    [⟨.pathconf, (4096 : Int)⟩, ⟨.readlink "a".toList 4096, (.ok "//".toList : Except Errno Str)⟩,
      ⟨.symlink "/".toList "b".toList, (.ok () : Except Errno Unit)⟩] (.ok ((), .ref none)) :=
  feed_exec (by rfl)

example : Exec (copySymlink (mkPath .posix "a".toList) (mkPath .posix "b".toList) (.ref none))
    [⟨.pathconf, (4096 : Int)⟩, ⟨.readlink "a".toList 4096, (.ok "x//y".toList : Except Errno Str)⟩,
      ⟨.symlink "x//y".toList "b".toList, (.ok () : Except Errno Unit)⟩] (.ok ((), .ref none)) :=
  feed_exec (by rfl)

/-! ## C63 -/

namespace Spec

/-- Changes contents or permissions of an open file. -/
def alters : Sys → Bool
  | .fchmod .. | .ftruncate .. | .write .. | .sendfile .. => true
  | _ => false

/-- The first calls of a copy to a missing file. -/
def newFile (src to : Path) (t : List Event) : Prop :=
  ∃ fd f e t', t = ⟨.openf src.pathname ⟨false, false, true⟩ 0, (.ok fd : Except Errno Nat)⟩ ::
    ⟨.lstat src.pathname, (.ok f : Except Errno Stat)⟩ :: ⟨.stat to.pathname, (.error e : Except Errno Stat)⟩ :: t' ∧
    (e = .ENOENT ∨ e = .ENOTDIR) ∧ typeOf f.mode = .regular

/-- The first calls of a copy to an existing file: it is examined, opened, examined again, and is the same. -/
def sameFile (src to : Path) (t : List Event) : Prop :=
  ∃ fd f d out d' t', t = ⟨.openf src.pathname ⟨false, false, true⟩ 0, (.ok fd : Except Errno Nat)⟩ ::
    ⟨.lstat src.pathname, (.ok f : Except Errno Stat)⟩ :: ⟨.stat to.pathname, (.ok d : Except Errno Stat)⟩ ::
    ⟨.openf to.pathname ⟨true, false, false⟩ f.mode, (.ok out : Except Errno Nat)⟩ ::
    ⟨.lstat to.pathname, (.ok d' : Except Errno Stat)⟩ :: t' ∧
    OneFile d d' ∧ typeOf f.mode = .regular ∧ typeOf d.mode = .regular

end Spec

/-- Nothing is altered, and true is not returned, without the examination. -/
def Examined (src to : Path) (o : Except Stop (Bool × EcArg)) (t : List Event) : Prop :=
  ((∃ ev ∈ t, alters ev.call = true) ∨ ∃ ec, o = .ok (true, ec)) → newFile src to t ∨ sameFile src to t

theorem examined_quiet {src to : Path} {o : Except Stop (Bool × EcArg)} {t : List Event}
    (h : ∀ ev ∈ t, alters ev.call = false) (ho : ∀ ec, o ≠ .ok (true, ec)) : Examined src to o t := by
  rintro (⟨ev, h1, h2⟩ | ⟨ec, h1⟩)
  · rw [h ev h1] at h2; cases h2
  · exact absurd h1 (ho ec)

theorem examined_report {src to : Path} {h : Handler} {ec : EcArg} {c : Code} {t : List Event}
    (hq : ∀ ev ∈ t, alters ev.call = false) : wp Tr (Examined src to) (h.report ec c false) t := by
  cases ec <;> simp only [Handler.report, wp] <;> exact examined_quiet hq (by simp)

theorem examined_snoc {src to : Path} {o : Except Stop (Bool × EcArg)} {t : List Event} {ev : Event}
    (h : Examined src to o t) (ha : alters ev.call = false) : Examined src to o (t ++ [ev]) := by
  intro hc
  have : (∃ ev ∈ t, alters ev.call = true) ∨ ∃ ec, o = .ok (true, ec) := by
    rcases hc with ⟨e, h1, h2⟩ | h1
    · rcases List.mem_append.mp h1 with h1 | h1
      · exact .inl ⟨e, h1, h2⟩
      · simp at h1; subst h1; rw [ha] at h2; cases h2
    · exact .inr h1
  rcases h this with ⟨fd, f, e, t', rfl, h2⟩ | ⟨fd, f, d, out, d', t', rfl, h2⟩
  · exact .inl ⟨fd, f, e, t' ++ [ev], rfl, h2⟩
  · exact .inr ⟨fd, f, d, out, d', t' ++ [ev], rfl, h2⟩

theorem examined_closing {src to : Path} {p : Prog (Bool × EcArg)} {fd : Nat} {t : List Event}
    (h : wp Tr (Examined src to) p t) : wp Tr (Examined src to) (p.finally' (closeFd fd)) t := by
  apply wp_finally
  refine wp_mono ?_ h
  intro o k' ho
  refine ⟨fun _ => ?_, fun _ => ho⟩
  rintro r _ rfl
  exact examined_snoc ho rfl

/-- Executions of `copy_file` alter an open file, or return true, only after the examination. -/
theorem copyFile_examined (sf : Bool) (n : Nat) (src to : Path) (opts : CopyOptions) (ec : EcArg) :
    wp Tr (Examined src to) (copyFile sf n src to opts ec) [] := by
  unfold copyFile
  rintro (e | inp) _ rfl
  · exact examined_report (by simp [alters])
  apply examined_closing
  simp only [copyOpened, Prog.bind_eq, refreshStatus_eq, Prog.call_bind]
  rintro (e | f) _ rfl
  · simp only [Prog.ret_bind, ne_eq, reduceCtorEq, not_false_eq_true, if_true]
    exact examined_report (by simp [alters])
  simp only [Prog.ret_bind, ne_eq, not_true_eq_false, if_false, FStatus.isRegular, statusOf_type]
  split
  · exact examined_report (by simp [alters])
  rename_i hreg
  have hreg : typeOf f.mode = .regular := by simpa using hreg
  simp only [getFileStatus_ref, Prog.call_bind]
  rintro (e | d) _ rfl
  · simp only [Prog.ret_bind, FStatus.known, FStatus.exists', typeOfErr]
    by_cases he : e = .ENOENT ∨ e = .ENOTDIR
    · refine wp_tr_any _ _ fun o t => ?_
      intro _
      exact .inl ⟨inp, f, e, t, by simp, he, hreg⟩
    · simp only [he, if_false, bne, show (FType.none == FType.none) = true from rfl, Bool.not_true, Bool.not_false, if_true]
      exact examined_report (by simp [alters])
  · have into : typeOf d.mode = .regular → wp Tr (Examined src to)
        (copyInto sf n ⟨"copy_file".toList, some to, some src⟩ inp f to (some d) ec.clear)
        ([] ++ [⟨.openf src.pathname ⟨false, false, true⟩ 0, (.ok inp : Except Errno Nat)⟩] ++
          [⟨.lstat src.pathname, (.ok f : Except Errno Stat)⟩] ++ [⟨.stat to.pathname, (.ok d : Except Errno Stat)⟩]) := by
      intro hd
      unfold copyInto
      rintro (e | out) _ rfl
      · exact examined_report (by simp [alters])
      apply examined_closing
      simp only [Prog.bind_eq, refreshStatus_eq, Prog.call_bind]
      rintro (e | d') _ rfl
      · simp only [Prog.ret_bind, ne_eq, reduceCtorEq, not_false_eq_true, if_true]
        exact examined_report (by simp [alters])
      simp only [Prog.ret_bind, ne_eq, not_true_eq_false, if_false]
      split
      · exact examined_report (by simp [alters])
      rename_i hs
      have hs : OneFile d d' := by rw [← statEquivalent_iff]; simpa using hs
      refine wp_tr_any _ _ fun o t => ?_
      intro _
      exact .inr ⟨inp, f, d, out, d', t, by simp, hs, hreg, hd⟩
    simp only [Prog.ret_bind, Prog.useStat, statusOf_known, statusOf_exists, Bool.not_true, Bool.false_eq_true, if_false,
      statusOf_type]
    by_cases hd : typeOf d.mode = .regular
    rotate_left
    · rw [if_pos (by simpa using hd)]
      exact examined_report (by simp [alters])
    rw [if_neg (by simpa using hd)]
    repeat' split
    all_goals first
      | exact examined_report (by simp [alters])
      | exact into hd
      | exact examined_quiet (by simp [alters]) (by simp)
      | (apply wp_bind; refine wp_mono ?_ (examined_report (src := src) (to := to) (by simp [alters])); rintro (x | a) t h
         · exact h
         · intro hh
           apply h
           rcases hh with hh | ⟨_, hh⟩
           · exact .inl hh
           · cases hh)

/-- **C63**, partial: no byte and no permission of an existing destination is changed, and true is not returned, before
the name was examined again after the opening and found to be the file the decision was made about. Missing: the second
look is at the name, not at the open file (`c63_violated`). -/
theorem c63_recheck_partial (sf : Bool) (n : Nat) (src to : Path) (opts : CopyOptions) (ec : EcArg) (t : List Event)
    (o : Except Stop (Bool × EcArg)) (h : Exec (copyFile sf n src to opts ec) t o)
    (hm : (∃ ev ∈ t, alters ev.call = true) ∨ ∃ ec, o = .ok (true, ec)) : newFile src to t ∨ sameFile src to t :=
  wp_tr (copyFile_examined sf n src to opts ec) h hm

namespace Spec

/-- A destination name: the file it refers to now, the files of open descriptors, the files altered. -/
structure Place where
  name : Nat
  fds : List (Nat × Nat)
  altered : List Nat

/-- One event. Before it the name may have been moved to another file (`i`). -/
def Place.step (to : Str) (s : Place) (e : Event) (s' : Place) : Prop := ∃ i, s'.name = i ∧
  match e with
  | ⟨.stat p, r⟩ | ⟨.lstat p, r⟩ => (∀ d, p = to → (r : Except Errno Stat) = .ok d → d.ino = i) ∧
      s'.fds = s.fds ∧ s'.altered = s.altered
  | ⟨.openf p _ _, r⟩ => s'.altered = s.altered ∧
      ∀ fd, p = to → (r : Except Errno Nat) = .ok fd → s'.fds = (fd, i) :: s.fds
  | ⟨c, _⟩ => s'.fds = s.fds ∧ match c with
    | .fchmod fd _ | .ftruncate fd _ | .write fd _ | .sendfile fd _ _ => s'.altered = ((s.fds.lookup fd).toList ++ s.altered)
    | _ => s'.altered = s.altered

end Spec

/-- **C63 is violated**: both looks at the name see file 2, but the opened and truncated file is file 3, which the
name referred to only in between. -/
theorem c63_violated : ∃ (t : List Event) (s' : Place),
    Exec (copyFile false 5 (mkPath .posix "a".toList) (mkPath .posix "b".toList) CopyOptions.overwriteExisting (.ref none)) t
      (.ok (true, .ref none)) ∧
    Steps (Place.step "b".toList) ⟨2, [], []⟩ t s' ∧
    (∀ d, (⟨.stat "b".toList, (.ok d : Except Errno Stat)⟩ : Event) ∈ t → d.ino = 2) ∧
    (∀ d, (⟨.lstat "b".toList, (.ok d : Except Errno Stat)⟩ : Event) ∈ t → d.ino = 2) ∧
    s'.altered = [3, 3, 3] := by
  refine ⟨[⟨.openf "a".toList ⟨false, false, true⟩ 0, (.ok 3 : Except Errno Nat)⟩,
    ⟨.lstat "a".toList, (.ok { Stat.zero with mode := 0o100644, ino := 1, size := 1 } : Except Errno Stat)⟩,
    ⟨.stat "b".toList, (.ok { Stat.zero with mode := 0o100644, ino := 2 } : Except Errno Stat)⟩,
    ⟨.openf "b".toList ⟨true, false, false⟩ 0o100644, (.ok 4 : Except Errno Nat)⟩,
    ⟨.lstat "b".toList, (.ok { Stat.zero with mode := 0o100644, ino := 2 } : Except Errno Stat)⟩,
    ⟨.fchmod 4 0o100644, (.ok () : Except Errno Unit)⟩,
    ⟨.ftruncate 4 0, (.ok () : Except Errno Unit)⟩,
    ⟨.read 3 8192, (.ok [7] : Except Errno Bytes)⟩,
    ⟨.write 4 [7], (.ok 1 : Except Errno Nat)⟩,
    ⟨.read 3 8192, (.ok [] : Except Errno Bytes)⟩,
    ⟨.close 4, (.ok () : Except Errno Unit)⟩, ⟨.close 3, (.ok () : Except Errno Unit)⟩], ⟨2, [(4, 3)], [3, 3, 3]⟩,
    feed_exec (by rfl), ?_, ?_, ?_, rfl⟩
  · refine .cons (s' := ⟨2, [], []⟩) ⟨2, rfl, rfl, ?_⟩ (.cons (s' := ⟨2, [], []⟩) ⟨2, rfl, ?_, rfl, rfl⟩
      (.cons (s' := ⟨2, [], []⟩) ⟨2, rfl, ?_, rfl, rfl⟩ (.cons (s' := ⟨3, [(4, 3)], []⟩) ⟨3, rfl, rfl, ?_⟩
      (.cons (s' := ⟨2, [(4, 3)], []⟩) ⟨2, rfl, ?_, rfl, rfl⟩ (.cons (s' := ⟨2, [(4, 3)], [3]⟩) ⟨2, rfl, rfl, rfl⟩
      (.cons (s' := ⟨2, [(4, 3)], [3, 3]⟩) ⟨2, rfl, rfl, rfl⟩ (.cons (s' := ⟨2, [(4, 3)], [3, 3]⟩) ⟨2, rfl, rfl, rfl⟩
      (.cons (s' := ⟨2, [(4, 3)], [3, 3, 3]⟩) ⟨2, rfl, rfl, rfl⟩ (.cons (s' := ⟨2, [(4, 3)], [3, 3, 3]⟩) ⟨2, rfl, rfl, rfl⟩
      (.cons (s' := ⟨2, [(4, 3)], [3, 3, 3]⟩) ⟨2, rfl, rfl, rfl⟩ (.cons (s' := ⟨2, [(4, 3)], [3, 3, 3]⟩) ⟨2, rfl, rfl, rfl⟩
      (.nil _))))))))))))
    · intro fd h; exact absurd h (by decide)
    · intro d h; exact absurd h (by decide)
    · rintro d _ ⟨⟩; rfl
    · rintro d _ ⟨⟩; rfl
    · rintro d _ ⟨⟩; rfl
  · intro d hd
    simp at hd
    rw [hd]
  · intro d hd
    simp at hd
    rw [hd]

/-! ## C64 -/

/-- **C64 is violated**: `copy_file` does not follow symbolic links. If the source is seen to be a link, or the existing
destination name itself is not the file it resolves to, then nothing is ever copied. -/
theorem c64_violated (sf : Bool) (n : Nat) (src to : Path) (opts : CopyOptions) (ec : EcArg) (t : List Event)
    (o : Except Stop (Bool × EcArg)) (h : Exec (copyFile sf n src to opts ec) t o)
    (hl : (∀ f, (⟨.lstat src.pathname, (.ok f : Except Errno Stat)⟩ : Event) ∈ t → typeOf f.mode = .symlink) ∨
      ((∀ e, (⟨.stat to.pathname, (.error e : Except Errno Stat)⟩ : Event) ∉ t) ∧
       ∀ d d', (⟨.stat to.pathname, (.ok d : Except Errno Stat)⟩ : Event) ∈ t →
         (⟨.lstat to.pathname, (.ok d' : Except Errno Stat)⟩ : Event) ∈ t → ¬ OneFile d d')) :
    (∀ ec, o ≠ .ok (true, ec)) ∧ ∀ ev ∈ t, alters ev.call = false := by
  have key : ¬ ((∃ ev ∈ t, alters ev.call = true) ∨ ∃ ec, o = .ok (true, ec)) := by
    intro hc
    rcases c63_recheck_partial sf n src to opts ec t o h hc with ⟨fd, f, e, t', rfl, _, h2⟩ | ⟨fd, f, d, out, d', t', rfl, h1, h2, _⟩
    · rcases hl with hl | ⟨hl, _⟩
      · rw [hl f (by simp)] at h2; cases h2
      · exact hl e (by simp)
    · rcases hl with hl | ⟨_, hl⟩
      · rw [hl f (by simp)] at h2; cases h2
      · exact hl d d' (by simp) (by simp) h1
  refine ⟨fun ec he => key (.inr ⟨ec, he⟩), fun ev he => ?_⟩
  cases ha : alters ev.call
  · rfl
  · exact absurd (.inl ⟨ev, he, ha⟩) key

/-- Such executions exist: no call fails, the source is a link, and the copy is refused. -/
example : Exec (copyFile true 5 (mkPath .posix "a".toList) (mkPath .posix "b".toList) CopyOptions.overwriteExisting (.ref none))
    [⟨.openf "a".toList ⟨false, false, true⟩ 0, (.ok 3 : Except Errno Nat)⟩,
      ⟨.lstat "a".toList, (.ok { Stat.zero with mode := 0o120777, ino := 1 } : Except Errno Stat)⟩,
      ⟨.close 3, (.ok () : Except Errno Unit)⟩] (.ok (false, .ref (some .ENOTSUP))) :=
  feed_exec (by rfl)

/-- And with a destination that is a link to file 2: it is opened, but not copied to. -/
example : Exec (copyFile true 5 (mkPath .posix "a".toList) (mkPath .posix "b".toList) CopyOptions.overwriteExisting (.ref none))
    [⟨.openf "a".toList ⟨false, false, true⟩ 0, (.ok 3 : Except Errno Nat)⟩,
      ⟨.lstat "a".toList, (.ok { Stat.zero with mode := 0o100644, ino := 1 } : Except Errno Stat)⟩,
      ⟨.stat "b".toList, (.ok { Stat.zero with mode := 0o100644, ino := 2 } : Except Errno Stat)⟩,
      ⟨.openf "b".toList ⟨true, false, false⟩ 0o100644, (.ok 4 : Except Errno Nat)⟩,
      ⟨.lstat "b".toList, (.ok { Stat.zero with mode := 0o120777, ino := 5 } : Except Errno Stat)⟩,
      ⟨.close 4, (.ok () : Except Errno Unit)⟩, ⟨.close 3, (.ok () : Except Errno Unit)⟩] (.ok (false, .ref (some .EBADF))) :=
  feed_exec (by rfl)

namespace Spec

/-- A file system on which nothing fails: the source has the attributes `f`, the destination is missing (`d` is none)
or has the attributes `d`. -/
def helpful (src to : Str) (f : Stat) (d : Option Stat) : Event → Prop
  | ⟨.openf _ _ _, r⟩ => ∃ fd, (r : Except Errno Nat) = .ok fd
  | ⟨.lstat p, r⟩ => (p = src → (r : Except Errno Stat) = .ok f) ∧
      (p = to → ∃ d', (r : Except Errno Stat) = .ok d' ∧ ∀ x, d = some x → OneFile x d')
  | ⟨.stat p, r⟩ => p = to → (r : Except Errno Stat) = match d with
      | none => .error .ENOENT
      | some d => .ok d
  | ⟨.fchmod _ _, r⟩ | ⟨.ftruncate _ _, r⟩ => (r : Except Errno Unit) = .ok ()
  | ⟨.read _ _, r⟩ => ∃ x, (r : Except Errno Bytes) = .ok x
  | ⟨.write _ _, r⟩ => ∃ x, (r : Except Errno Nat) = .ok x
  | _ => True

end Spec

/-- Neither of the error outcomes. -/
def Succeeds (o : Except Stop (Bool × EcArg)) : Prop := o = .ok (true, .ref none) ∨ o = .error .fuel

theorem succeeds_closing {P : Event → Prop} {p : Prog (Bool × EcArg)} {fd : Nat} {u : Unit}
    (h : wp (Each P) (fun o _ => Succeeds o) p u) : wp (Each P) (fun o _ => Succeeds o) (p.finally' (closeFd fd)) u := by
  apply wp_finally
  refine wp_mono ?_ h
  intro o _ ho
  exact ⟨fun _ => fun _ _ _ => ho, fun _ => ho⟩

theorem copyDefault_helpful {S D : Str} {f : Stat} {d : Option Stat} (inp out : Nat) : ∀ (n : Nat) (u : Unit),
    wp (Each (helpful S D f d)) (fun o _ => o = .ok none ∨ o = .error .fuel) (copyDefault inp out n) u
  | 0, _ => .inr rfl
  | n + 1, _ => by
    rw [copyDefault]
    rintro r _ ⟨x, rfl⟩
    dsimp only
    split
    · exact .inl rfl
    · rintro r _ ⟨y, rfl⟩
      exact copyDefault_helpful inp out n _

theorem doCopyFile_helpful {S D : Str} {f : Stat} {d : Option Stat} (sf : Bool) (n inp out : Nat) (size : Int) (u : Unit) :
    wp (Each (helpful S D f d)) (fun o _ => o = .ok none ∨ o = .error .fuel) (doCopyFile sf n inp out size) u := by
  unfold doCopyFile
  have hsend : ∀ (n : Nat) (count : Int) (u : Unit), wp (Each (helpful S D f d))
      (fun o _ => (∃ c, o = .ok c) ∨ o = .error .fuel) (sendLoop out inp n count) u := by
    intro n
    induction n with
    | zero => intro count u; exact .inr rfl
    | succ n ih =>
      intro count u
      rw [sendLoop]
      rintro (e | r) u' _
      · exact .inl ⟨_, rfl⟩
      · dsimp only
        split
        · exact ih _ _
        · exact .inl ⟨_, rfl⟩
  cases sf with
  | false => exact copyDefault_helpful inp out n _
  | true =>
    simp only [if_true, Prog.bind_eq]
    refine wp_bind ?_
    have hfirst : wp (Each (helpful S D f d)) (fun o _ => (∃ b, o = .ok b) ∨ o = .error .fuel)
        (copySendfile n inp out size) u := by
      unfold copySendfile
      split
      · exact .inl ⟨_, rfl⟩
      · simp only [Prog.bind_eq]
        refine wp_bind (wp_mono ?_ (hsend n size u))
        rintro o _ (⟨c, rfl⟩ | rfl)
        · exact .inl ⟨_, rfl⟩
        · exact .inr rfl
    refine wp_mono ?_ hfirst
    rintro o _ (⟨b, rfl⟩ | rfl)
    · dsimp only
      split
      · exact .inl rfl
      · exact copyDefault_helpful inp out n _
    · exact .inr rfl

/-- **C64**, partial: if nothing fails, the source is a regular file under its own name, and the destination is missing
or another regular file under its own name which the options permit to replace, then `copy_file` returns true and
reports no error. Missing: links (see `c64_violated`). -/
theorem c64_copies_partial (sf : Bool) (n : Nat) (src to : Path) (opts : CopyOptions) (c : Code) (t : List Event)
    (o : Except Stop (Bool × EcArg)) (f : Stat) (d : Option Stat) (h : Exec (copyFile sf n src to opts (.ref c)) t o)
    (hos : ∀ ev ∈ t, helpful src.pathname to.pathname f d ev)
    (hf : typeOf f.mode = .regular)
    (hd : ∀ x, d = some x → typeOf x.mode = .regular ∧ ¬ OneFile f x ∧ ¬ skips opts ∧
      (updates opts ∧ Newer f x ∨ ¬ updates opts ∧ overwrites opts))
    (hfuel : o ≠ .error .fuel) : o = .ok (true, .ref none) := by
  have into : ∀ (hd : Handler) (inp : Nat) (u : Unit), wp (Each (helpful src.pathname to.pathname f d)) (fun o _ => Succeeds o)
      (copyInto sf n hd inp f to d (.ref none)) u := by
    intro hd inp u
    unfold copyInto
    rintro r _ ⟨out, rfl⟩
    apply succeeds_closing
    simp only [Prog.bind_eq, refreshStatus_eq, Prog.call_bind]
    rintro r _ ⟨_, h2⟩
    obtain ⟨d', rfl, h3⟩ := h2 rfl
    simp only [Prog.ret_bind, ne_eq, not_true_eq_false, if_false]
    have fin : ∀ u, wp (Each (helpful src.pathname to.pathname f d)) (fun o _ => Succeeds o)
        ((doCopyFile sf n inp out f.size.toInt).bind fun m =>
          if m = none then Prog.ret (true, EcArg.ref none) else hd.report (.ref none) m false) u := by
      intro u
      refine wp_bind (wp_mono ?_ (doCopyFile_helpful sf n inp out f.size.toInt u))
      rintro o _ (rfl | rfl)
      · exact .inl rfl
      · exact .inr rfl
    have fin' : ∀ u, wp (Each (helpful src.pathname to.pathname f d)) (fun o _ => Succeeds o)
        ((doCopyFile sf n inp out f.size.toInt).bind fun m =>
          if ¬ m = none then hd.report (.ref none) m false else Prog.ret (true, EcArg.ref none)) u := by
      intro u
      have := fin u
      refine cast ?_ this
      congr 2
      funext m
      by_cases hm : m = none <;> simp [hm]
    cases d with
    | none => exact fin' _
    | some x =>
      dsimp only
      rw [if_neg (by simpa using (statEquivalent_iff x d').mpr (h3 x rfl))]
      rintro r _ rfl
      dsimp only
      rintro r _ rfl
      exact fin' _
  have key : wp (Each (helpful src.pathname to.pathname f d)) (fun o _ => Succeeds o) (copyFile sf n src to opts (.ref c)) () := by
    unfold copyFile
    simp only [clear_ref]
    rintro r _ ⟨inp, rfl⟩
    apply succeeds_closing
    simp only [copyOpened, Prog.bind_eq, refreshStatus_eq, Prog.call_bind]
    rintro r _ ⟨h1, _⟩
    obtain rfl := h1 rfl
    simp only [Prog.ret_bind, ne_eq, not_true_eq_false, if_false, FStatus.isRegular, statusOf_type]
    rw [if_neg (by simp [hf])]
    simp only [getFileStatus_ref, Prog.call_bind]
    rintro r _ h2
    have h2 := h2 rfl
    cases d with
    | none =>
      subst h2
      exact into _ _ _
    | some x =>
      subst h2
      obtain ⟨q1, q2, q3, q4⟩ := hd x rfl
      simp only [Prog.ret_bind, Prog.useStat, statusOf_known, statusOf_exists, Bool.not_true, Bool.false_eq_true, if_false,
        statusOf_type]
      rw [if_neg (by simp [q1]), if_neg (by rw [statEquivalent_iff]; exact q2), if_neg (by rw [has_skip]; exact q3)]
      rcases q4 with ⟨q4, q5⟩ | ⟨q4, q5⟩
      · rw [if_pos ((has_update _).mpr q4), if_pos ((isNewer_iff _ _).mpr q5)]
        exact into _ _ _
      · rw [if_neg (by rw [has_update]; exact q4), if_pos ((has_overwrite _).mpr q5)]
        exact into _ _ _
  rcases wp_sound key h (steps_each hos) with h | h
  · exact h
  · exact absurd h hfuel

/-- Such executions exist: file 1 replaces file 2. -/
example : ∃ t f d, Exec (copyFile false 5 (mkPath .posix "a".toList) (mkPath .posix "b".toList) CopyOptions.overwriteExisting
    (.ref none)) t (.ok (true, .ref none)) ∧ (∀ ev ∈ t, helpful "a".toList "b".toList f (some d) ev) ∧
    typeOf f.mode = .regular ∧ typeOf d.mode = .regular ∧ ¬ OneFile f d ∧ overwrites CopyOptions.overwriteExisting := by
  refine ⟨[⟨.openf "a".toList ⟨false, false, true⟩ 0, (.ok 3 : Except Errno Nat)⟩,
    ⟨.lstat "a".toList, (.ok { Stat.zero with mode := 0o100644, ino := 1, size := 1 } : Except Errno Stat)⟩,
    ⟨.stat "b".toList, (.ok { Stat.zero with mode := 0o100644, ino := 2 } : Except Errno Stat)⟩,
    ⟨.openf "b".toList ⟨true, false, false⟩ 0o100644, (.ok 4 : Except Errno Nat)⟩,
    ⟨.lstat "b".toList, (.ok { Stat.zero with mode := 0o100644, ino := 2 } : Except Errno Stat)⟩,
    ⟨.fchmod 4 0o100644, (.ok () : Except Errno Unit)⟩,
    ⟨.ftruncate 4 0, (.ok () : Except Errno Unit)⟩,
    ⟨.read 3 8192, (.ok [7] : Except Errno Bytes)⟩,
    ⟨.write 4 [7], (.ok 1 : Except Errno Nat)⟩,
    ⟨.read 3 8192, (.ok [] : Except Errno Bytes)⟩,
    ⟨.close 4, (.ok () : Except Errno Unit)⟩, ⟨.close 3, (.ok () : Except Errno Unit)⟩],
    { Stat.zero with mode := 0o100644, ino := 1, size := 1 }, { Stat.zero with mode := 0o100644, ino := 2 },
    feed_exec (by rfl), ?_, by decide, by decide, by unfold OneFile; decide, by decide⟩
  simp [helpful, Spec.OneFile]

end Asap
