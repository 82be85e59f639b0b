import Verif.Os.Ghost
import Verif.Ops.Status

/-!
# Programs whose calls are confined

`Conf M A X Q t p`: after the calls `t`, if every answer is in `A`, each call of `p` is allowed by `M` (which may look at the calls
before, in any order), each exception is in `X` and each result in `Q`.
-/

namespace Asap
variable {α β : Type} {M : List Event → Sys → Prop} {A : Event → Prop} {X : FsError → Prop} {Q : α → Prop} {R : β → Prop}

inductive Conf (M : List Event → Sys → Prop) (A : Event → Prop) (X : FsError → Prop) {α : Type} (Q : α → Prop) : List Event → Prog α → Prop where
  | ret (t : List Event) (a : α) (h : Q a) : Conf M A X Q t (.ret a)
  | fault (t : List Event) (f : Fault) : Conf M A X Q t (.stop (.fault f))
  | fuel (t : List Event) : Conf M A X Q t (.stop .fuel)
  | thrown (t : List Event) (x : FsError) (h : X x) : Conf M A X Q t (.stop (.thrown x))
  | call (t : List Event) (c : Sys) (k : c.Ret → Prog α) (hc : M t c) (h : ∀ r, A ⟨c, r⟩ → Conf M A X Q (⟨c, r⟩ :: t) (k r)) : Conf M A X Q t (.call c k)

theorem Conf.bind {p : Prog α} {f : α → Prog β} {t : List Event} (h : Conf M A X Q t p) (hf : ∀ t', t ⊆ t' → ∀ a, Q a → Conf M A X R t' (f a)) :
    Conf M A X R t (p.bind f) := by
  induction h with
  | ret t a h => exact hf t (fun _ h => h) a h
  | fault t f => exact .fault t f
  | fuel t => exact .fuel t
  | thrown t x h => exact .thrown t x h
  | call t c k hc _ ih =>
    exact .call t c _ hc fun r hr => ih r hr fun t' ht => hf t' fun _ h => ht (List.mem_cons_of_mem _ h)

theorem Conf.mono {Q' : α → Prop} {p : Prog α} {t : List Event} (h : Conf M A X Q t p) (hQ : ∀ a, Q a → Q' a) : Conf M A X Q' t p := by
  induction h with
  | ret t a h => exact .ret t a (hQ a h)
  | fault t f => exact .fault t f
  | fuel t => exact .fuel t
  | thrown t x h => exact .thrown t x h
  | call t c k hc _ ih => exact .call t c k hc ih

theorem Conf.finally' {p : Prog α} {d : Prog Unit} {t : List Event} (h : Conf M A X Q t p) (hd : ∀ t', t ⊆ t' → Conf M A X (fun _ => True) t' d) :
    Conf M A X Q t (p.finally' d) := by
  induction h with
  | ret t a h => exact (hd t fun _ h => h).bind fun t' _ _ _ => .ret t' a h
  | fault t f => exact .fault t f
  | fuel t => exact .fuel t
  | thrown t x h => exact (hd t fun _ h => h).bind fun t' _ _ _ => .thrown t' x h
  | call t c k hc _ ih =>
    exact .call t c _ hc fun r hr => ih r hr fun t' ht => hd t' fun _ h => ht (List.mem_cons_of_mem _ h)

theorem Conf.exec {p : Prog α} {t0 : List Event} (h : Conf M A X Q t0 p) {t : List Event} {o : Except Stop α} (he : Exec p t o)
    (ht : ∀ ev ∈ t, A ev) :
    (∀ t1 ev t2, t = t1 ++ ev :: t2 → M (t1.reverse ++ t0) ev.call) ∧ (∀ x, o = .error (.thrown x) → X x) ∧ ∀ a, o = .ok a → Q a := by
  induction h generalizing t with
  | ret t a h => obtain ⟨rfl, rfl⟩ := exec_ret.mp he; exact ⟨by simp, by simp, fun _ e => by cases e; exact h⟩
  | fault t f => obtain ⟨rfl, rfl⟩ := exec_stop.mp he; exact ⟨by simp, by simp, by simp⟩
  | fuel t => obtain ⟨rfl, rfl⟩ := exec_stop.mp he; exact ⟨by simp, by simp, by simp⟩
  | thrown t x h => obtain ⟨rfl, rfl⟩ := exec_stop.mp he; exact ⟨by simp, fun _ e => by cases e; exact h, by simp⟩
  | call t c k hc _ ih =>
    cases he with
    | call _ _ r t' _ h =>
      obtain ⟨h1, h2, h3⟩ := ih r (ht _ (List.mem_cons_self ..)) h fun ev he => ht ev (List.mem_cons_of_mem _ he)
      refine ⟨fun t1 ev t2 e => ?_, h2, h3⟩
      cases t1 with
      | nil => cases e; exact hc
      | cons e1 t1 =>
        cases e
        have := h1 t1 ev t2 rfl
        rwa [List.reverse_cons, List.append_assoc]

theorem Conf.ofRes {t : List Event} {r : Res α} (h : ∀ a, r = .ok a → Q a) : Conf M A X Q t (Prog.ofRes r) := by
  cases r with
  | ok a => exact .ret _ _ (h a rfl)
  | error f => exact .fault _ _

theorem Conf.report {t : List Event} {h : Handler} {ec : EcArg} {c : Code} {d : α} (hp : X (h.error ("in ".toList ++ h.fn) c)) :
    Conf M A X (fun _ => True) t (h.report ec c d) := by
  cases ec
  · exact .thrown _ _ hp
  · exact .ret _ _ trivial

theorem Conf.reportMsg {t : List Event} {h : Handler} {ec : EcArg} {c : Code} {m : Str} {d : α}
    (hp : X (h.error ("in ".toList ++ h.fn ++ ": ".toList ++ m) c)) : Conf M A X (fun _ => True) t (h.reportMsg ec c m d) := by
  cases ec
  · exact .thrown _ _ hp
  · exact .ret _ _ trivial

end Asap
