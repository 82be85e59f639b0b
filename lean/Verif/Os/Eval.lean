import Verif.Os.Prog

/-!
# Running a program on a machine, without the trace
-/

namespace Asap
variable {α β : Type} {m : Machine}

/-- Outcome and final state of a library call on an operating system. -/
def Prog.eval (m : Machine) : Prog α → m.State → Except Stop α × m.State
  | .ret a, s => (.ok a, s)
  | .stop x, s => (.error x, s)
  | .call c k, s => (k (m.step c s).1).eval m (m.step c s).2

@[simp] theorem eval_ret (a : α) (s : m.State) : (Prog.ret a).eval m s = (.ok a, s) := rfl
@[simp] theorem eval_stop (x : Stop) (s : m.State) : (Prog.stop x : Prog α).eval m s = (.error x, s) := rfl
theorem eval_call (c : Sys) (k : c.Ret → Prog α) (s : m.State) :
    (Prog.call c k).eval m s = (k (m.step c s).1).eval m (m.step c s).2 := rfl

/-- A call with a known answer. -/
theorem eval_call_of {c : Sys} {k : c.Ret → Prog α} {s s' : m.State} {r : c.Ret} (h : m.step c s = (r, s')) :
    (Prog.call c k).eval m s = (k r).eval m s' := by
  rw [eval_call, h]

theorem eval_eq_run (p : Prog α) (s : m.State) : p.eval m s = ((p.run m s).1, (p.run m s).2.2) := by
  induction p generalizing s with
  | ret a => rfl
  | stop x => rfl
  | call c k ih => rw [eval_call, ih]; rfl

theorem run_of_eval {p : Prog α} {s s' : m.State} {o : Except Stop α} (h : p.eval m s = (o, s')) :
    ∃ t, p.run m s = (o, t, s') := by
  rw [eval_eq_run] at h
  cases h
  exact ⟨_, rfl⟩

theorem eval_exec {p : Prog α} {s s' : m.State} {o : Except Stop α} (h : p.eval m s = (o, s')) :
    ∃ t, Exec p t o := by
  obtain ⟨t, ht⟩ := run_of_eval h
  have := run_exec m p s
  rw [ht] at this
  exact ⟨t, this⟩

theorem eval_bind (p : Prog α) (f : α → Prog β) (s : m.State) :
    (p.bind f).eval m s = match p.eval m s with
      | (.ok a, s') => (f a).eval m s'
      | (.error x, s') => (.error x, s') := by
  induction p generalizing s with
  | ret a => rfl
  | stop x => rfl
  | call c k ih => rw [Prog.call_bind, eval_call, eval_call, ih]

theorem eval_bind_ok {p : Prog α} {f : α → Prog β} {s s' : m.State} {a : α} (h : p.eval m s = (.ok a, s')) :
    (p.bind f).eval m s = (f a).eval m s' := by rw [eval_bind, h]

theorem eval_bind_error {p : Prog α} {f : α → Prog β} {s s' : m.State} {x : Stop} (h : p.eval m s = (.error x, s')) :
    (p.bind f).eval m s = (.error x, s') := by rw [eval_bind, h]

/-- The outcome for a given list of calls with answers, if the program makes exactly these calls. -/
def Prog.feed : Prog α → List Event → Option (Except Stop α)
  | .ret a, [] => some (.ok a)
  | .stop x, [] => some (.error x)
  | .call c k, ⟨c', r⟩ :: t => if h : c' = c then (k (h ▸ r)).feed t else none
  | _, _ => none

theorem feed_exec {p : Prog α} {t : List Event} {o : Except Stop α} (h : p.feed t = some o) : Exec p t o := by
  induction p generalizing t with
  | ret a =>
    cases t with
    | nil => cases h; exact .ret a
    | cons e t => cases h
  | stop x =>
    cases t with
    | nil => cases h; exact .stop x
    | cons e t => cases h
  | call c k ih =>
    cases t with
    | nil => cases h
    | cons e t =>
      obtain ⟨c', r⟩ := e
      simp only [Prog.feed] at h
      split at h
      · rename_i hc
        subst hc
        exact .call _ _ _ _ _ (ih r h)
      · cases h

end Asap
