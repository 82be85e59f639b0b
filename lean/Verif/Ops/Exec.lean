import Verif.Ops.Agree
import Verif.Os.Calls
import Verif.Os.Eval

/-!
# Executions of the status functions followed by something else
-/

namespace Asap
variable {α : Type} {t : List Event} {o : Except Stop α}

theorem exec_status_bind {p : Path} {c : Code} {f : FStatus × EcArg → Prog α} : Exec ((status p (.ref c)).bind f) t o ↔
    (∃ (e : Errno) (t' : List Event), t = ⟨.stat p.pathname, (.error e : Except Errno Stat)⟩ :: t' ∧
      Exec (f ({ type := typeOfErr e }, .ref (some e))) t' o) ∨
    (∃ (st : Stat) (t' : List Event), t = ⟨.stat p.pathname, (.ok st : Except Errno Stat)⟩ :: t' ∧
      Exec (f (statusOf st, .ref none)) t' o) := by
  rw [status_ref]
  exact exec_stat

theorem exec_symlinkStatus_bind {p : Path} {c : Code} {f : FStatus × EcArg → Prog α} : Exec ((symlinkStatus p (.ref c)).bind f) t o ↔
    (∃ (e : Errno) (t' : List Event), t = ⟨.lstat p.pathname, (.error e : Except Errno Stat)⟩ :: t' ∧
      Exec (f ({ type := typeOfErr e }, .ref (some e))) t' o) ∨
    (∃ (st : Stat) (t' : List Event), t = ⟨.lstat p.pathname, (.ok st : Except Errno Stat)⟩ :: t' ∧
      Exec (f (statusOf st, .ref none)) t' o) := by
  rw [symlinkStatus_ref]
  exact exec_lstat

theorem exec_getFileStatus_bind {p : Path} {st0 : Option Stat} {c : Code} {f : (FStatus × Option Stat) × EcArg → Prog α} : Exec ((getFileStatus p st0 (.ref c)).bind f) t o ↔
    (∃ (e : Errno) (t' : List Event), t = ⟨.stat p.pathname, (.error e : Except Errno Stat)⟩ :: t' ∧
      Exec (f (({ type := typeOfErr e }, st0), .ref (some e))) t' o) ∨
    (∃ (st : Stat) (t' : List Event), t = ⟨.stat p.pathname, (.ok st : Except Errno Stat)⟩ :: t' ∧
      Exec (f ((statusOf st, some st), .ref none)) t' o) := by
  rw [getFileStatus_ref]
  exact exec_stat

theorem exec_getLinkStatus_bind {p : Path} {st0 : Option Stat} {c : Code} {f : (FStatus × Option Stat) × EcArg → Prog α} : Exec ((getLinkStatus p st0 (.ref c)).bind f) t o ↔
    (∃ (e : Errno) (t' : List Event), t = ⟨.lstat p.pathname, (.error e : Except Errno Stat)⟩ :: t' ∧
      Exec (f (({ type := typeOfErr e }, st0), .ref (some e))) t' o) ∨
    (∃ (st : Stat) (t' : List Event), t = ⟨.lstat p.pathname, (.ok st : Except Errno Stat)⟩ :: t' ∧
      Exec (f ((statusOf st, some st), .ref none)) t' o) := by
  rw [getLinkStatus_ref]
  exact exec_lstat

theorem eval_status_ok {p : Path} {c : Code} {m : Machine} {s s' : m.State} {st : Stat}
    (h : m.step (.stat p.pathname) s = (.ok st, s')) :
    (status p (.ref c)).eval m s = (.ok (statusOf st, .ref none), s') := by
  rw [status_ref, eval_call_of h]; rfl

theorem eval_status_error {p : Path} {c : Code} {m : Machine} {s s' : m.State} {e : Errno}
    (h : m.step (.stat p.pathname) s = (.error e, s')) :
    (status p (.ref c)).eval m s = (.ok ({ type := typeOfErr e }, .ref (some e)), s') := by
  rw [status_ref, eval_call_of h]; rfl

theorem eval_symlinkStatus_ok {p : Path} {c : Code} {m : Machine} {s s' : m.State} {st : Stat}
    (h : m.step (.lstat p.pathname) s = (.ok st, s')) :
    (symlinkStatus p (.ref c)).eval m s = (.ok (statusOf st, .ref none), s') := by
  rw [symlinkStatus_ref, eval_call_of h]; rfl

theorem eval_symlinkStatus_error {p : Path} {c : Code} {m : Machine} {s s' : m.State} {e : Errno}
    (h : m.step (.lstat p.pathname) s = (.error e, s')) :
    (symlinkStatus p (.ref c)).eval m s = (.ok ({ type := typeOfErr e }, .ref (some e)), s') := by
  rw [symlinkStatus_ref, eval_call_of h]; rfl

theorem eval_getFileStatus_ok {p : Path} {st0 : Option Stat} {c : Code} {m : Machine} {s s' : m.State} {st : Stat}
    (h : m.step (.stat p.pathname) s = (.ok st, s')) :
    (getFileStatus p st0 (.ref c)).eval m s = (.ok ((statusOf st, some st), .ref none), s') := by
  rw [getFileStatus_ref, eval_call_of h]; rfl

theorem eval_getFileStatus_error {p : Path} {st0 : Option Stat} {c : Code} {m : Machine} {s s' : m.State} {e : Errno}
    (h : m.step (.stat p.pathname) s = (.error e, s')) :
    (getFileStatus p st0 (.ref c)).eval m s = (.ok (({ type := typeOfErr e }, st0), .ref (some e)), s') := by
  rw [getFileStatus_ref, eval_call_of h]; rfl

theorem eval_getLinkStatus_ok {p : Path} {st0 : Option Stat} {c : Code} {m : Machine} {s s' : m.State} {st : Stat}
    (h : m.step (.lstat p.pathname) s = (.ok st, s')) :
    (getLinkStatus p st0 (.ref c)).eval m s = (.ok ((statusOf st, some st), .ref none), s') := by
  rw [getLinkStatus_ref, eval_call_of h]; rfl

theorem eval_getLinkStatus_error {p : Path} {st0 : Option Stat} {c : Code} {m : Machine} {s s' : m.State} {e : Errno}
    (h : m.step (.lstat p.pathname) s = (.error e, s')) :
    (getLinkStatus p st0 (.ref c)).eval m s = (.ok (({ type := typeOfErr e }, st0), .ref (some e)), s') := by
  rw [getLinkStatus_ref, eval_call_of h]; rfl

/-- Executions of a program whose result is post-processed. -/
theorem exec_map {β : Type} {p : Prog β} {g : β → α} {v : α} :
    Exec (p.bind fun r => .ret (g r)) t (.ok v) ↔ ∃ r, Exec p t (.ok r) ∧ v = g r := by
  rw [exec_bind]
  constructor
  · rintro (⟨s, _, h⟩ | ⟨r, t1, t2, rfl, h1, h2⟩)
    · cases h
    · simp only [exec_ret] at h2
      obtain ⟨rfl, h2⟩ := h2
      cases h2
      exact ⟨r, by simpa using h1, rfl⟩
  · rintro ⟨r, h1, rfl⟩
    exact .inr ⟨r, t, [], by simp, h1, .ret _⟩

/-- The type a status has is what the file type bits of the mode say. -/
theorem statusOf_isSymlink (st : Stat) : (statusOf st).isSymlink = true ↔ st.mode &&& 0o170000 = 0o120000 := by
  unfold FStatus.isSymlink statusOf typeOfMode
  simp only
  by_cases h : st.mode &&& 0o170000 = 0o120000
  · rw [h]; decide
  · simp only [h, if_false]
    repeat' split
    all_goals simp

theorem statusOf_isDirectory (st : Stat) : (statusOf st).isDirectory = true ↔ st.mode &&& 0o170000 = 0o040000 := by
  unfold FStatus.isDirectory statusOf typeOfMode
  simp only
  by_cases h : st.mode &&& 0o170000 = 0o040000
  · rw [h]; decide
  · simp only [h, if_false]
    repeat' split
    all_goals simp

theorem statusOf_isRegular (st : Stat) : (statusOf st).isRegular = true ↔ st.mode &&& 0o170000 = 0o100000 := by
  unfold FStatus.isRegular statusOf typeOfMode
  simp only
  by_cases h : st.mode &&& 0o170000 = 0o100000
  · rw [h]; decide
  · simp only [h, if_false]
    repeat' split
    all_goals simp

theorem statusOf_perms_ne (st : Stat) : (statusOf st).perms ≠ Perms.unknown := by
  intro h
  have := congrArg (fun v => BitVec.getLsbD v 15) h
  simp [statusOf, Perms.mask, Perms.unknown] at this

end Asap
