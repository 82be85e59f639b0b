import Verif.Os.Calls

/-!
# Weakest preconditions

An assumption about the operating system is a relation between an abstract state, an event and the
next state; `wp` says that a program establishes a postcondition whenever the answers obey it.
-/

namespace Asap
variable {α β σ : Type}

/-- The abstract state evolves along a trace. -/
inductive Steps (step : σ → Event → σ → Prop) : σ → List Event → σ → Prop where
  | nil (s : σ) : Steps step s [] s
  | cons {s s' s'' : σ} {e : Event} {t : List Event} : step s e s' → Steps step s' t s'' → Steps step s (e :: t) s''

theorem steps_nil {step : σ → Event → σ → Prop} {s s' : σ} : Steps step s [] s' ↔ s' = s := by
  constructor
  · intro h; cases h; rfl
  · rintro rfl; exact .nil _

theorem steps_cons {step : σ → Event → σ → Prop} {s s'' : σ} {e : Event} {t : List Event} :
    Steps step s (e :: t) s'' ↔ ∃ s', step s e s' ∧ Steps step s' t s'' := by
  constructor
  · intro h; cases h with | cons h1 h2 => exact ⟨_, h1, h2⟩
  · rintro ⟨s', h1, h2⟩; exact .cons h1 h2

theorem steps_append {step : σ → Event → σ → Prop} {s s'' : σ} {t1 t2 : List Event} :
    Steps step s (t1 ++ t2) s'' ↔ ∃ s', Steps step s t1 s' ∧ Steps step s' t2 s'' := by
  induction t1 generalizing s with
  | nil => simp [steps_nil]
  | cons e t ih =>
    simp only [List.cons_append, steps_cons, ih]
    constructor
    · rintro ⟨s1, h1, s2, h2, h3⟩; exact ⟨s2, ⟨s1, h1, h2⟩, h3⟩
    · rintro ⟨s2, ⟨s1, h1, h2⟩, h3⟩; exact ⟨s1, h1, s2, h2, h3⟩

/-- A stronger relation. -/
theorem steps_and {step : σ → Event → σ → Prop} {P : Event → Prop} {s s' : σ} {t : List Event}
    (h : Steps step s t s') (hP : ∀ e ∈ t, P e) : Steps (fun s e s' => step s e s' ∧ P e) s t s' := by
  induction h with
  | nil => exact .nil _
  | cons h1 _ ih => exact .cons ⟨h1, hP _ (by simp)⟩ (ih fun e he => hP e (by simp [he]))

/-- `p` started in `s` ends only with `Q`. -/
def wp (step : σ → Event → σ → Prop) (Q : Except Stop α → σ → Prop) : Prog α → σ → Prop
  | .ret a, s => Q (.ok a) s
  | .stop x, s => Q (.error x) s
  | .call c k, s => ∀ (r : c.Ret) (s' : σ), step s ⟨c, r⟩ s' → wp step Q (k r) s'

variable {step : σ → Event → σ → Prop}

theorem wp_sound {Q : Except Stop α → σ → Prop} {p : Prog α} {s s' : σ} {t : List Event} {o : Except Stop α}
    (h : wp step Q p s) (he : Exec p t o) (hs : Steps step s t s') : Q o s' := by
  induction he generalizing s with
  | ret a => cases hs; exact h
  | stop x => cases hs; exact h
  | call c k r t o _ ih => cases hs with | cons h1 h2 => exact ih (h r _ h1) h2

theorem wp_mono {Q Q' : Except Stop α → σ → Prop} (hQ : ∀ o s, Q o s → Q' o s) {p : Prog α} {s : σ}
    (h : wp step Q p s) : wp step Q' p s := by
  induction p generalizing s with
  | ret a => exact hQ _ _ h
  | stop x => exact hQ _ _ h
  | call c k ih => exact fun r s' hs => ih r (h r s' hs)

/-- After a sequence. -/
theorem wp_bind {Q : Except Stop β → σ → Prop} {p : Prog α} {f : α → Prog β} {s : σ}
    (h : wp step (fun o s => match o with
      | .ok a => wp step Q (f a) s
      | .error x => Q (.error x) s) p s) : wp step Q (p.bind f) s := by
  induction p generalizing s with
  | ret a => exact h
  | stop x => exact h
  | call c k ih => exact fun r s' hs => ih r (h r s' hs)

/-- The outcome ends the function normally: a destructor runs. -/
def Unwinds : Except Stop α → Prop
  | .ok _ => True
  | .error (.thrown _) => True
  | .error _ => False

/-- After a program with a destructor. -/
theorem wp_finally {Q : Except Stop α → σ → Prop} {p : Prog α} {d : Prog Unit} {s : σ}
    (h : wp step (fun o s => (Unwinds o → wp step (fun o' s' => match o' with
        | .ok _ => Q o s'
        | .error x => Q (.error x) s') d s) ∧ (¬ Unwinds o → Q o s)) p s) : wp step Q (p.finally' d) s := by
  induction p generalizing s with
  | ret a =>
    refine wp_bind ?_
    exact wp_mono (fun o s ho => by cases o <;> exact ho) (h.1 trivial)
  | stop x =>
    cases x with
    | thrown e =>
      refine wp_bind ?_
      exact wp_mono (fun o s ho => by cases o <;> exact ho) (h.1 trivial)
    | fault f => exact h.2 id
    | fuel => exact h.2 id
  | call c k ih => exact fun r s' hs => ih r (h r s' hs)

/-- Executions of a program with a destructor that makes one system call and cannot fail. -/
theorem exec_finally_call {c : Sys} {p : Prog α} {t : List Event} {o : Except Stop α} :
    Exec (p.finally' (.call c fun _ => .ret ())) t o ↔
      (Unwinds o ∧ ∃ t' r, t = t' ++ [⟨c, r⟩] ∧ Exec p t' o) ∨ (¬ Unwinds o ∧ Exec p t o) := by
  induction p generalizing t with
  | ret a =>
    simp only [Prog.finally', Prog.call_bind, Prog.ret_bind, exec_call, exec_ret]
    constructor
    · rintro ⟨r, t', rfl, rfl, rfl⟩; exact .inl ⟨trivial, [], r, rfl, rfl, rfl⟩
    · rintro (⟨_, t', r, rfl, rfl, rfl⟩ | ⟨h, _, rfl⟩)
      · exact ⟨r, [], rfl, rfl, rfl⟩
      · exact absurd trivial h
  | stop x =>
    cases x with
    | thrown e =>
      simp only [Prog.finally', Prog.call_bind, Prog.ret_bind, exec_call, exec_stop]
      constructor
      · rintro ⟨r, t', rfl, rfl, rfl⟩; exact .inl ⟨trivial, [], r, rfl, rfl, rfl⟩
      · rintro (⟨_, t', r, rfl, rfl, rfl⟩ | ⟨h, _, rfl⟩)
        · exact ⟨r, [], rfl, rfl, rfl⟩
        · exact absurd trivial h
    | fault f =>
      simp only [Prog.finally', exec_stop]
      constructor
      · rintro ⟨rfl, rfl⟩; exact .inr ⟨id, rfl, rfl⟩
      · rintro (⟨h, t', r, rfl, _, rfl⟩ | ⟨_, rfl, rfl⟩)
        · exact h.elim
        · exact ⟨rfl, rfl⟩
    | fuel =>
      simp only [Prog.finally', exec_stop]
      constructor
      · rintro ⟨rfl, rfl⟩; exact .inr ⟨id, rfl, rfl⟩
      · rintro (⟨h, t', r, rfl, _, rfl⟩ | ⟨_, rfl, rfl⟩)
        · exact h.elim
        · exact ⟨rfl, rfl⟩
  | call c' k ih =>
    simp only [Prog.finally', exec_call]
    constructor
    · rintro ⟨r, t', rfl, h⟩
      rcases (ih r).mp h with ⟨hu, t1, r1, rfl, h1⟩ | ⟨hu, h1⟩
      · exact .inl ⟨hu, ⟨c', r⟩ :: t1, r1, rfl, r, t1, rfl, h1⟩
      · exact .inr ⟨hu, r, t', rfl, h1⟩
    · rintro (⟨hu, t1, r1, rfl, r, t', rfl, h1⟩ | ⟨hu, r, t', rfl, h1⟩)
      · exact ⟨r, t' ++ [⟨c, r1⟩], rfl, (ih r).mpr (.inl ⟨hu, t', r1, rfl, h1⟩)⟩
      · exact ⟨r, t', rfl, (ih r).mpr (.inr ⟨hu, h1⟩)⟩

/-- Some execution obeys an assumption that allows an answer to every call in every state. -/
theorem exec_exists (h : ∀ s c, ∃ (r : c.Ret) (s' : σ), step s ⟨c, r⟩ s') (p : Prog α) (s : σ) :
    ∃ t o s', Exec p t o ∧ Steps step s t s' := by
  induction p generalizing s with
  | ret a => exact ⟨[], _, s, .ret a, .nil s⟩
  | stop x => exact ⟨[], _, s, .stop x, .nil s⟩
  | call c k ih =>
    obtain ⟨r, s', h1⟩ := h s c
    obtain ⟨t, o, s'', h2, h3⟩ := ih r s'
    exact ⟨⟨c, r⟩ :: t, o, s'', .call _ _ _ _ _ h2, .cons h1 h3⟩

/-- `p` makes only calls in `S`, and returns only values in `Q`. -/
inductive Only (S : Sys → Prop) (Q : α → Prop) : Prog α → Prop where
  | ret (a : α) (h : Q a) : Only S Q (.ret a)
  | stop (x : Stop) : Only S Q (.stop x)
  | call (c : Sys) (k : c.Ret → Prog α) (hc : S c) (h : ∀ r, Only S Q (k r)) : Only S Q (.call c k)

theorem Only.exec {S : Sys → Prop} {Q : α → Prop} {p : Prog α} (h : Only S Q p) {t : List Event} {o : Except Stop α}
    (he : Exec p t o) : (∀ e ∈ t, S e.call) ∧ ∀ a, o = .ok a → Q a := by
  induction he with
  | ret a => cases h with | ret _ h => exact ⟨by simp, fun _ hx => by cases hx; exact h⟩
  | stop x => exact ⟨by simp, fun _ hx => by cases hx⟩
  | call c k r t o _ ih =>
    cases h with
    | call _ _ hc h =>
      obtain ⟨h1, h2⟩ := ih (h r)
      refine ⟨fun e he => ?_, h2⟩
      rcases List.mem_cons.mp he with rfl | he
      · exact hc
      · exact h1 e he

theorem Only.bind {S : Sys → Prop} {Q : α → Prop} {R : β → Prop} {p : Prog α} {f : α → Prog β} (h : Only S Q p)
    (hf : ∀ a, Q a → Only S R (f a)) : Only S R (p.bind f) := by
  induction h with
  | ret a h => exact hf a h
  | stop x => exact .stop x
  | call c k hc _ ih => exact .call c _ hc ih

theorem Only.mono {S S' : Sys → Prop} {Q R : α → Prop} {p : Prog α} (h : Only S Q p) (hS : ∀ c, S c → S' c)
    (hQ : ∀ a, Q a → R a) : Only S' R p := by
  induction h with
  | ret a h => exact .ret a (hQ a h)
  | stop x => exact .stop x
  | call c k hc _ ih => exact .call c k (hS c hc) ih

theorem Only.finally' {S : Sys → Prop} {Q : α → Prop} {p : Prog α} {d : Prog Unit} (h : Only S Q p)
    (hd : Only S (fun _ => True) d) : Only S Q (p.finally' d) := by
  induction h with
  | ret a h => exact hd.bind fun _ _ => .ret a h
  | stop x =>
    cases x with
    | thrown e => exact hd.bind fun _ _ => .stop _
    | fault f => exact .stop _
    | fuel => exact .stop _
  | call c k hc _ ih => exact .call c _ hc ih

/-! ## The trace as the state -/

/-- The abstract state is the trace so far. -/
def Tr (s : List Event) (e : Event) (s' : List Event) : Prop := s' = s ++ [e]

theorem steps_tr : ∀ (s t : List Event), Steps Tr s t (s ++ t)
  | s, [] => by rw [List.append_nil]; exact .nil s
  | s, e :: t => .cons rfl (by simpa using steps_tr (s ++ [e]) t)

theorem wp_tr {α : Type} {Q : Except Stop α → List Event → Prop} {p : Prog α} {t : List Event} {o : Except Stop α}
    (h : wp Tr Q p []) (he : Exec p t o) : Q o t := by
  simpa using wp_sound h he (steps_tr [] t)

/-- What holds whatever follows. -/
theorem wp_tr_any {α : Type} {Q : Except Stop α → List Event → Prop} (p : Prog α) (s : List Event)
    (h : ∀ o t, Q o (s ++ t)) : wp Tr Q p s := by
  induction p generalizing s with
  | ret a => simpa [wp] using h (.ok a) []
  | stop x => simpa [wp] using h (.error x) []
  | call c k ih =>
    rintro r s' rfl
    exact ih r _ fun o t => by simpa using h o (⟨c, r⟩ :: t)

/-- An assumption about every event. -/
def Each (P : Event → Prop) (_ : Unit) (e : Event) (_ : Unit) : Prop := P e

theorem steps_each {P : Event → Prop} : ∀ {t : List Event}, (∀ e ∈ t, P e) → Steps (Each P) () t ()
  | [], _ => .nil _
  | e :: t, h => .cons (h e (by simp)) (steps_each fun x hx => h x (by simp [hx]))

end Asap
