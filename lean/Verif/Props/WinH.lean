import Verif.Props.WinG
import Verif.Props.OpsE

/-!
# C70, C71, C72: `remove`, `create_directory` and the simple mutators on Windows
-/

namespace Asap
open Spec Win

/-! ## C70 -/

namespace Spec

/-- The entries of a file system by number: a directory (`true`) or not. -/
abbrev Slots := Nat → Option Bool

/-- With another entry at `i`. -/
def Slots.put (s : Slots) (i : Nat) (x : Option Bool) : Slots := fun k => if k = i then x else s k

/-- Windows on entries, if nobody else changes them; a path is about the entry `slot p`. An error 2
(`ERROR_FILE_NOT_FOUND`) is only given where there is nothing, 183 (`ERROR_ALREADY_EXISTS`) only where there is something. -/
def EntryLaw (slot : Str → Nat) (s : Slots) (e : Event) (s' : Slots) : Prop :=
  match e with
  | ⟨.win (.getAttrs p), r⟩ => s' = s ∧ match r with
    | .ok a => s (slot p) = some (a.getLsbD 4)
    | .error e => e.winValue = 2 → s (slot p) = none
  | ⟨.win (.deleteFile p), r⟩ => match r with
    | .ok _ => s (slot p) = some false ∧ s' = s.put (slot p) none
    | .error e => s' = s ∧ (e.winValue = 2 → s (slot p) = none)
  | ⟨.win (.removeDirectory p), r⟩ => match r with
    | .ok _ => s (slot p) = some true ∧ s' = s.put (slot p) none
    | .error e => s' = s ∧ (e.winValue = 2 → s (slot p) = none)
  | ⟨.win (.createDirectory p), r⟩ => match r with
    | .ok _ => s (slot p) = none ∧ s' = s.put (slot p) (some true)
    | .error e => s' = s ∧ (e.winValue = 183 → s (slot p) ≠ none)
  | ⟨.win (.createDirectoryEx _ p), r⟩ => match r with
    | .ok _ => s (slot p) = none ∧ s' = s.put (slot p) (some true)
    | .error e => s' = s ∧ (e.winValue = 183 → s (slot p) ≠ none)
  | _ => s' = s

end Spec

/-- **C70**, partial: if nobody else changes the file system, `remove` returns true iff it deleted the entry, false without
an error only where there is nothing (or for the empty path), and changes nothing else. Missing: something that vanishes
meanwhile counts as deleted, and a missing parent is an error (`c70_violated`). -/
theorem c70_remove_partial (slot : Str → Nat) (p : Path) (c : Code) (t : List Event) (o : Except Stop (Bool × EcArg))
    (s s' : Slots) (h : Exec (Win.remove p (.ref c)) t o) (hl : Steps (EntryLaw slot) s t s') :
    ∃ b c', o = .ok (b, .ref c') ∧
      (b = true → c' = none ∧ s (slot p.pathname) ≠ none ∧ s' = s.put (slot p.pathname) none) ∧
      (b = false → s' = s ∧ (c' = none → p.pathname = [] ∨ s (slot p.pathname) = none)) := by
  refine wp_sound (Q := fun o s' => ∃ b c', o = .ok (b, .ref c') ∧
      (b = true → c' = none ∧ s (slot p.pathname) ≠ none ∧ s' = s.put (slot p.pathname) none) ∧
      (b = false → s' = s ∧ (c' = none → p.pathname = [] ∨ s (slot p.pathname) = none))) ?_ h hl
  unfold Win.remove
  by_cases he : p.isEmpty = true
  · have hp : p.pathname = [] := by simpa [Path.isEmpty] using he
    simp only [he, if_true]
    exact ⟨false, none, rfl, by simp, fun _ => ⟨rfl, fun _ => .inl hp⟩⟩
  · simp only [he]
    rintro (e | a) s1 ⟨rfl, h1⟩
    · by_cases h2 : e.winValue = ERROR_FILE_NOT_FOUND
      · simp only [h2]
        exact ⟨false, none, rfl, by simp, fun _ => ⟨rfl, fun _ => .inr (h1 h2)⟩⟩
      · simp only [h2]
        exact ⟨false, some e, rfl, by simp, fun _ => ⟨rfl, by simp⟩⟩
    · have fin : ∀ (s2 : Slots) (e : Errno), s2 = s1 → (e.winValue = 2 → s1 (slot p.pathname) = none) →
          wp (EntryLaw slot) (fun (o : Except Stop (Bool × EcArg)) s' => ∃ b c', o = .ok (b, .ref c') ∧
            (b = true → c' = none ∧ s1 (slot p.pathname) ≠ none ∧ s' = s1.put (slot p.pathname) none) ∧
            (b = false → s' = s1 ∧ (c' = none → p.pathname = [] ∨ s1 (slot p.pathname) = none)))
          (if e.winValue ≠ ERROR_FILE_NOT_FOUND then
            (Handler.report ⟨"remove".toList, some p, none⟩ (EcArg.ref none) (some e) false).bind fun x => .ret (false, x.2)
          else .ret (true, .ref none)) s2 := by
        rintro s2 e rfl h2
        by_cases h3 : e.winValue = ERROR_FILE_NOT_FOUND
        · rw [h2 h3] at h1
          cases h1
        · rw [if_pos h3]
          exact ⟨false, some e, rfl, by simp, fun _ => ⟨rfl, by simp⟩⟩
      dsimp only
      cases hd : has a FILE_ATTRIBUTE_DIRECTORY
      · rintro (e | _) s2 h2
        · exact fin s2 e h2.1 h2.2
        · exact ⟨true, none, rfl, fun _ => ⟨rfl, by rw [h1]; simp, h2.2⟩, by simp⟩
      · rintro (e | _) s2 h2
        · exact fin s2 e h2.1 h2.2
        · exact ⟨true, none, rfl, fun _ => ⟨rfl, by rw [h1]; simp, h2.2⟩, by simp⟩

/-- **C70**: the calls made, whatever the system answers. -/
theorem c70_calls (p : Path) (c : Code) (t : List Event) (o : Except Stop (Bool × EcArg)) (h : Exec (Win.remove p (.ref c)) t o) :
    (p.pathname = [] ∧ t = []) ∨
    (∃ e, t = [⟨.win (.getAttrs p.pathname), (.error e : Except Errno (BitVec 32))⟩]) ∨
    ∃ (a : BitVec 32) (r : Except Errno Unit), t = [⟨.win (.getAttrs p.pathname), (.ok a : Except Errno (BitVec 32))⟩,
      if a.getLsbD 4 then ⟨.win (.removeDirectory p.pathname), r⟩ else ⟨.win (.deleteFile p.pathname), r⟩] := by
  unfold Win.remove at h
  by_cases he : p.isEmpty = true
  · have hp : p.pathname = [] := by simpa [Path.isEmpty] using he
    simp only [he, if_true, exec_ret] at h
    exact .inl ⟨hp, h.1⟩
  · simp only [he] at h
    rcases exec_call.mp h with ⟨r, t1, rfl, h1⟩
    rcases r with e | a
    · refine .inr (.inl ⟨e, ?_⟩)
      dsimp only at h1
      split at h1
      · rw [(exec_ret.mp h1).1]
      · simp only [Handler.report, clear_ref, exec_ret] at h1
        rw [h1.1]
    · refine .inr (.inr ⟨a, ?_⟩)
      dsimp only at h1
      rw [has_directory] at h1
      cases hd : a.getLsbD 4 <;> rw [hd] at h1
      all_goals
        rcases exec_call.mp h1 with ⟨r, t2, rfl, h2⟩
        refine ⟨r, ?_⟩
        rcases r with e | u
        · dsimp only at h2
          split at h2
          · simp only [Handler.report, clear_ref, Prog.ret_bind, exec_ret] at h2
            rw [h2.1]
            rfl
          · rw [(exec_ret.mp h2).1]
            rfl
        · rw [(exec_ret.mp h2).1]
          rfl

/-- **C70** fails: if the file vanishes between the two calls, `remove` returns true though it deleted nothing; and of a path
whose parent does not exist (`ERROR_PATH_NOT_FOUND`, 3) it reports an error. -/
theorem c70_violated :
    (∃ p : Path, Exec (Win.remove p (.ref none)) [⟨.win (.getAttrs p.pathname), (.ok 0x20#32 : Except Errno (BitVec 32))⟩,
      ⟨.win (.deleteFile p.pathname), (.error (.ofWin 2) : Except Errno Unit)⟩] (.ok (true, .ref none))) ∧
    ∃ (p : Path) (t : List Event) (s : Slots), s 0 = none ∧ Steps (EntryLaw fun _ => 0) s t s ∧
      Exec (Win.remove p (.ref none)) t (.ok (false, .ref (some (.other 3)))) :=
  ⟨⟨mkPath .windows "f".toList, feed_exec (by rfl)⟩, mkPath .windows "a\\b".toList,
    [⟨.win (.getAttrs "a\\b".toList), (.error (.ofWin 3) : Except Errno (BitVec 32))⟩], fun _ => none, rfl,
    .cons ⟨rfl, fun _ => rfl⟩ (.nil _), feed_exec (by rfl)⟩

/-- Removing a directory. -/
example : ∃ (t : List Event) (s s' : Slots), s 0 = some true ∧ s' 0 = none ∧ Steps (EntryLaw fun _ => 0) s t s' ∧
    Exec (Win.remove (mkPath .windows "d".toList) (.ref none)) t (.ok (true, .ref none)) :=
  ⟨[⟨.win (.getAttrs "d".toList), (.ok 0x10#32 : Except Errno (BitVec 32))⟩,
    ⟨.win (.removeDirectory "d".toList), (.ok () : Except Errno Unit)⟩], fun _ => some true, Slots.put (fun _ => some true) 0 none,
    rfl, rfl, .cons ⟨rfl, rfl⟩ (.cons ⟨rfl, rfl⟩ (.nil _)), feed_exec (by rfl)⟩

/-! ## C71 -/

/-- **C71**, partial: `create_directory(p)` makes one call; it returns true iff that made the directory, false without an error
only where there is something with the name; every other error is reported. Missing: a report if what is there is not a
directory (`c71_violated`). -/
theorem c71_create_directory_partial (slot : Str → Nat) (p : Path) (c : Code) (t : List Event) (o : Except Stop (Bool × EcArg))
    (s s' : Slots) (h : Exec (Win.createDirectory p (.ref c)) t o) (hl : Steps (EntryLaw slot) s t s') :
    ∃ r : Except Errno Unit, t = [⟨.win (.createDirectory p.pathname), r⟩] ∧ ∃ b c', o = .ok (b, .ref c') ∧
      (b = true ↔ r = .ok ()) ∧ (b = true → c' = none ∧ s (slot p.pathname) = none ∧ s' = s.put (slot p.pathname) (some true)) ∧
      (b = false → s' = s ∧ (c' = none → s (slot p.pathname) ≠ none) ∧ ∀ e, c' = some e → r = .error e) := by
  simp only [Win.createDirectory, clear_ref] at h
  rcases exec_call.mp h with ⟨r, t1, rfl, h1⟩
  rcases r with e | u
  · dsimp only at h1
    by_cases h183 : e.winValue = ERROR_ALREADY_EXISTS
    · rw [if_neg (by simpa using h183)] at h1
      obtain ⟨rfl, rfl⟩ := exec_ret.mp h1
      obtain ⟨s1, h2, h3⟩ := steps_cons.mp hl
      cases steps_nil.mp h3
      exact ⟨_, rfl, _, _, rfl, by simp, by simp, fun _ => ⟨h2.1, fun _ => h2.2 h183, by simp⟩⟩
    · rw [if_pos h183] at h1
      simp only [Handler.report, Prog.ret_bind, exec_ret] at h1
      obtain ⟨rfl, rfl⟩ := h1
      obtain ⟨s1, h2, h3⟩ := steps_cons.mp hl
      cases steps_nil.mp h3
      refine ⟨_, rfl, _, _, rfl, by simp, by simp, fun _ => ⟨h2.1, by simp, fun e' he => ?_⟩⟩
      cases he
      rfl
  · obtain ⟨rfl, rfl⟩ := exec_ret.mp h1
    obtain ⟨s1, h2, h3⟩ := steps_cons.mp hl
    cases steps_nil.mp h3
    exact ⟨_, rfl, _, _, rfl, by simp, fun _ => ⟨rfl, h2⟩, by simp⟩

/-- **C71**: the form with a template returns true whatever happens; an error is reported in the code. -/
theorem c71_template_partial (p tmpl : Path) (c : Code) (t : List Event) (o : Except Stop (Bool × EcArg))
    (h : Exec (Win.createDirectoryLike p tmpl (.ref c)) t o) :
    ∃ r : Except Errno Unit, t = [⟨.win (.createDirectoryEx tmpl.pathname p.pathname), r⟩] ∧ ∃ c', o = .ok (true, .ref c') ∧
      (c' = none ↔ r = .ok () ∨ ∃ e, r = .error e ∧ e.winValue = 183) ∧ ∀ e, c' = some e → r = .error e := by
  simp only [Win.createDirectoryLike, clear_ref] at h
  rcases exec_call.mp h with ⟨r, t1, rfl, h1⟩
  rcases r with e | u
  · dsimp only at h1
    by_cases h183 : e.winValue = ERROR_ALREADY_EXISTS
    · rw [if_neg (by simpa using h183)] at h1
      obtain ⟨rfl, rfl⟩ := exec_ret.mp h1
      exact ⟨_, rfl, _, rfl, by simpa [ERROR_ALREADY_EXISTS] using h183, by simp⟩
    · rw [if_pos h183] at h1
      simp only [Handler.report, Prog.ret_bind, exec_ret] at h1
      obtain ⟨rfl, rfl⟩ := h1
      refine ⟨_, rfl, _, rfl, by simpa [ERROR_ALREADY_EXISTS] using h183, fun e' he => ?_⟩
      cases he
      rfl
  · obtain ⟨rfl, rfl⟩ := exec_ret.mp h1
    exact ⟨_, rfl, _, rfl, by simp, by simp⟩

/-- **C71** fails: `create_directory(p)` on an existing file returns false without an error; with a template it returns true
if the directory was there already, and also if it could not be made. -/
theorem c71_violated :
    (∃ (p : Path) (t : List Event) (s : Slots), s 0 = some false ∧ Steps (EntryLaw fun _ => 0) s t s ∧
      Exec (Win.createDirectory p (.ref none)) t (.ok (false, .ref none))) ∧
    (∃ (p q : Path) (t : List Event) (s : Slots), s 0 = some true ∧ Steps (EntryLaw fun _ => 0) s t s ∧
      Exec (Win.createDirectoryLike p q (.ref none)) t (.ok (true, .ref none))) ∧
    ∃ (p q : Path) (t : List Event) (s : Slots), s 0 = none ∧ Steps (EntryLaw fun _ => 0) s t s ∧
      Exec (Win.createDirectoryLike p q (.ref none)) t (.ok (true, .ref (some (.ofWin 5)))) :=
  ⟨⟨mkPath .windows "f".toList, [⟨.win (.createDirectory "f".toList), (.error (.ofWin 183) : Except Errno Unit)⟩],
      fun _ => some false, rfl, .cons ⟨rfl, by simp⟩ (.nil _), feed_exec (by rfl)⟩,
    ⟨mkPath .windows "d".toList, mkPath .windows "e".toList,
      [⟨.win (.createDirectoryEx "e".toList "d".toList), (.error (.ofWin 183) : Except Errno Unit)⟩],
      fun _ => some true, rfl, .cons ⟨rfl, by simp⟩ (.nil _), feed_exec (by rfl)⟩,
    mkPath .windows "d".toList, mkPath .windows "e".toList,
    [⟨.win (.createDirectoryEx "e".toList "d".toList), (.error (.ofWin 5) : Except Errno Unit)⟩],
    fun _ => none, rfl, .cons ⟨rfl, by decide⟩ (.nil _), feed_exec (by rfl)⟩

/-- Making a directory. -/
example : ∃ (t : List Event) (s s' : Slots), s 0 = none ∧ s' 0 = some true ∧ Steps (EntryLaw fun _ => 0) s t s' ∧
    Exec (Win.createDirectory (mkPath .windows "d".toList) (.ref none)) t (.ok (true, .ref none)) :=
  ⟨[⟨.win (.createDirectory "d".toList), (.ok () : Except Errno Unit)⟩], fun _ => none, Slots.put (fun _ => none) 0 (some true),
    rfl, rfl, .cons ⟨rfl, rfl⟩ (.nil _), feed_exec (by rfl)⟩

/-! ## C72 -/

/-- **C72**, both overloads (`ec` null or not): each operation is one call with the arguments given, and reports its error. -/
theorem c72_one_call (a b : Path) (ec : EcArg) (t : List Event) (o : Except Stop (Unit × EcArg)) :
    (Exec (Win.createSymlink a b ec) t o → ∃ r, t = [⟨.win (.createSymlink b.pathname a.pathname false), r⟩] ∧ Reports ec r o) ∧
    (Exec (Win.createDirectorySymlink a b ec) t o →
      ∃ r, t = [⟨.win (.createSymlink b.pathname a.pathname true), r⟩] ∧ Reports ec r o) ∧
    (Exec (Win.createHardLink a b ec) t o → ∃ r, t = [⟨.win (.createHardLink b.pathname a.pathname), r⟩] ∧ Reports ec r o) ∧
    (Exec (Win.setCurrentPath a ec) t o → ∃ r, t = [⟨.win (.setCwd a.pathname), r⟩] ∧ Reports ec r o) := by
  refine ⟨?_, ?_, ?_, ?_⟩
  all_goals
    intro h
    simp only [Win.createHardLink, Win.createSymlink, Win.createDirectorySymlink, Win.createSymlinkAs,
      Win.setCurrentPath] at h
    obtain ⟨r, t', rfl, hr⟩ := exec_call.mp h
    rcases r with e | u
  all_goals
    cases ec
  all_goals
    simp only [EcArg.clear, Handler.report, exec_ret] at hr
    first
      | (obtain ⟨rfl, rfl⟩ := hr; exact ⟨_, rfl, rfl⟩)
      | (obtain ⟨rfl, rfl⟩ := exec_stop.mp hr; exact ⟨_, rfl, _, rfl, rfl⟩)

/-- **C72**, `rename`: one call of the C library; its success is success. Missing: the error reported is the last error of the
thread, not that of the call (`c72_violated`). -/
theorem c72_rename_partial (a b : Path) (c : Code) (t : List Event) (o : Except Stop (Unit × EcArg))
    (h : Exec (Win.rename a b (.ref c)) t o) :
    (t = [⟨.rename a.pathname b.pathname, (.ok () : Except Errno Unit)⟩] ∧ o = .ok ((), .ref none)) ∨
    ∃ (e : Errno) (last : Code), t = [⟨.rename a.pathname b.pathname, (.error e : Except Errno Unit)⟩, ⟨.win .lastError, last⟩] ∧
      (last = none → o = .error (.fault .assertFail)) ∧ ∀ x, last = some x → o = .ok ((), .ref (some x)) := by
  simp only [Win.rename, clear_ref] at h
  obtain ⟨r, t', rfl, hr⟩ := exec_call.mp h
  rcases r with e | u
  · simp only [captureErrno, Prog.call_bind] at hr
    obtain ⟨last, t'', rfl, hr2⟩ := exec_call.mp hr
    rcases last with _ | x
    · have hr : Exec (.stop (.fault .assertFail)) t'' o := hr2
      obtain ⟨rfl, rfl⟩ := exec_stop.mp hr
      exact .inr ⟨e, none, rfl, fun _ => rfl, by simp⟩
    · have hr : Exec (.ret ((), .ref (some x))) t'' o := hr2
      obtain ⟨rfl, rfl⟩ := exec_ret.mp hr
      exact .inr ⟨e, some x, rfl, by simp, fun y hy => by cases hy; rfl⟩
  · obtain ⟨rfl, rfl⟩ := exec_ret.mp hr
    exact .inl ⟨rfl, rfl⟩

/-- **C72** fails for `rename`: refused by the C library before any Windows call fails, it fails an assertion or reports
whatever failed before. -/
theorem c72_violated (a b : Path) :
    Exec (Win.rename a b (.ref none)) [⟨.rename a.pathname b.pathname, (.error .EINVAL : Except Errno Unit)⟩,
      ⟨.win .lastError, (none : Code)⟩] (.error (.fault .assertFail)) ∧
    Exec (Win.rename a b (.ref none)) [⟨.rename a.pathname b.pathname, (.error .EINVAL : Except Errno Unit)⟩,
      ⟨.win .lastError, (some .ENOENT : Code)⟩] (.ok ((), .ref (some .ENOENT))) :=
  ⟨.call _ _ _ _ _ (.call _ _ _ _ _ (.stop _)), .call _ _ _ _ _ (.call _ _ _ _ _ (.ret _))⟩

/-! `resize_file` -/

namespace Spec

/-- Sizes of files and, for open handles, the file and the position in it. -/
structure Sizes where
  size : Nat → BitVec 64
  handle : Nat → Option (Nat × BitVec 64)

/-- Windows on sizes: `SetFilePointerEx` refuses a negative position, `SetEndOfFile` makes the position the size; what fails
changes nothing. -/
def SizeLaw (goal : Str → Nat) (s : Sizes) (e : Event) (s' : Sizes) : Prop :=
  match e with
  | ⟨.win (.createFile p _), .ok h⟩ => s' = { s with handle := fun k => if k = h then some (goal p, 0) else s.handle k }
  | ⟨.win (.setPointer h n), .ok _⟩ => 0 ≤ n.toInt ∧ ∃ x, s.handle h = some x ∧
      s' = { s with handle := fun k => if k = h then some (x.1, n) else s.handle k }
  | ⟨.win (.setEnd h), .ok _⟩ => ∃ x, s.handle h = some x ∧
      s' = { s with size := fun k => if k = x.1 then x.2 else s.size k }
  | ⟨.win (.closeHandle h), _⟩ => s' = { s with handle := fun k => if k = h then none else s.handle k }
  | _ => s' = s

end Spec

/-- **C72**, `resize_file`: on success the file has the size asked for, and no other file is changed; on failure nothing is.
A size of `2^63` or more is refused. -/
theorem c72_resize_file (goal : Str → Nat) (p : Path) (n : BitVec 64) (c : Code) (t : List Event)
    (o : Except Stop (Unit × EcArg)) (s s' : Sizes) (h : Exec (Win.resizeFile p n (.ref c)) t o)
    (hl : Steps (SizeLaw goal) s t s') :
    (o = .ok ((), .ref none) ∧ n.toNat < 2 ^ 63 ∧ s'.size = fun k => if k = goal p.pathname then n else s.size k) ∨
    ∃ e, o = .ok ((), .ref (some e)) ∧ s'.size = s.size := by
  refine wp_sound (Q := fun o s' => (o = .ok ((), .ref none) ∧ n.toNat < 2 ^ 63 ∧
      s'.size = fun k => if k = goal p.pathname then n else s.size k) ∨
    ∃ e, o = .ok ((), .ref (some e)) ∧ s'.size = s.size) ?_ h hl
  rintro (e | fd) s1 h1
  · cases h1
    exact .inr ⟨e, rfl, rfl⟩
  · have h1 : s1 = { s with handle := fun k => if k = fd then some (goal p.pathname, 0) else s.handle k } := h1
    subst h1
    refine wp_finally (wp_mono (Q := fun (o : Except Stop (Unit × EcArg)) s' => Unwinds o ∧
      ((o = .ok ((), .ref none) ∧ n.toNat < 2 ^ 63 ∧
        s'.size = fun k => if k = goal p.pathname then n else s.size k) ∨
      ∃ e, o = .ok ((), .ref (some e)) ∧ s'.size = s.size)) ?_ ?_)
    · rintro o s2 ⟨hu, ho⟩
      refine ⟨fun _ r s3 h3 => ?_, fun hn => absurd hu hn⟩
      have h3 : s3 = { s2 with handle := fun k => if k = fd then none else s2.handle k } := h3
      subst h3
      exact ho
    · rintro (e | u) s2 h2
      · cases h2
        exact ⟨trivial, .inr ⟨e, rfl, rfl⟩⟩
      · obtain ⟨h0, x, hx, rfl⟩ := h2
        simp only [if_true, Option.some.injEq] at hx
        subst hx
        have hlt : n.toNat < 2 ^ 63 := by
          rw [BitVec.toInt_eq_toNat_cond] at h0
          split at h0 <;> omega
        rintro (e | u) s3 h3
        · cases h3
          exact ⟨trivial, .inr ⟨e, rfl, rfl⟩⟩
        · obtain ⟨y, hy, rfl⟩ := h3
          simp only [if_true, Option.some.injEq] at hy
          subst hy
          exact ⟨trivial, .inl ⟨rfl, hlt, rfl⟩⟩

/-- Making a file 100 bytes long. -/
example : ∃ (t : List Event) (s s' : Sizes), s'.size 0 = 100 ∧ Steps (SizeLaw fun _ => 0) s t s' ∧
    Exec (Win.resizeFile (mkPath .windows "f".toList) 100 (.ref none)) t (.ok ((), .ref none)) :=
  ⟨[⟨.win (.createFile "f".toList ⟨GENERIC_READ ||| GENERIC_WRITE, false, false, false⟩), (.ok 4 : Except Errno Nat)⟩,
    ⟨.win (.setPointer 4 100), (.ok () : Except Errno Unit)⟩, ⟨.win (.setEnd 4), (.ok () : Except Errno Unit)⟩,
    ⟨.win (.closeHandle 4), (.ok () : Except Errno Unit)⟩], ⟨fun _ => 7, fun _ => none⟩, ⟨fun k => if k = 0 then 100 else 7, _⟩, rfl,
    .cons rfl (.cons ⟨by decide, _, rfl, rfl⟩ (.cons ⟨_, rfl, rfl⟩ (.cons rfl (.nil _)))), feed_exec (by rfl)⟩

end Asap
