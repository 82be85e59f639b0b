import Verif.Os.Ghost
import Verif.Ops.Recursive

/-!
# Programs that run into no fault

`Sound A Q p`: if every answer is in `A`, the program `p` ends in no fault (it returns, throws `filesystem_error` or runs out of rounds)
and each result is in `Q`.
-/

namespace Asap
variable {α β : Type} {A : Event → Prop} {Q : α → Prop} {R : β → Prop}

inductive Sound (A : Event → Prop) {α : Type} (Q : α → Prop) : Prog α → Prop where
  | ret (a : α) (h : Q a) : Sound A Q (.ret a)
  | fuel : Sound A Q (.stop .fuel)
  | thrown (x : FsError) : Sound A Q (.stop (.thrown x))
  | call (c : Sys) (k : c.Ret → Prog α) (h : ∀ r, A ⟨c, r⟩ → Sound A Q (k r)) : Sound A Q (.call c k)

theorem Sound.bind {p : Prog α} {f : α → Prog β} (h : Sound A Q p) (hf : ∀ a, Q a → Sound A R (f a)) : Sound A R (p.bind f) := by
  induction h with
  | ret a h => exact hf a h
  | fuel => exact .fuel
  | thrown x => exact .thrown x
  | call c k _ ih => exact .call c _ ih

theorem Sound.mono {Q' : α → Prop} {p : Prog α} (h : Sound A Q p) (hQ : ∀ a, Q a → Q' a) : Sound A Q' p := by
  induction h with
  | ret a h => exact .ret a (hQ a h)
  | fuel => exact .fuel
  | thrown x => exact .thrown x
  | call c k _ ih => exact .call c k ih

theorem Sound.finally' {p : Prog α} {d : Prog Unit} (h : Sound A Q p) (hd : Sound A (fun _ => True) d) : Sound A Q (p.finally' d) := by
  induction h with
  | ret a h => exact hd.bind fun _ _ => .ret a h
  | fuel => exact .fuel
  | thrown x => exact hd.bind fun _ _ => .thrown x
  | call c k _ ih => exact .call c _ ih

theorem Sound.onThrow {p : Prog α} {d : Prog Unit} (h : Sound A Q p) (hd : Sound A (fun _ => True) d) : Sound A Q (p.onThrow d) := by
  induction h with
  | ret a h => exact .ret a h
  | fuel => exact .fuel
  | thrown x => exact hd.bind fun _ _ => .thrown x
  | call c k _ ih => exact .call c _ ih

theorem Sound.exec {p : Prog α} (h : Sound A Q p) {t : List Event} {o : Except Stop α} (he : Exec p t o) (ht : ∀ ev ∈ t, A ev) :
    (∀ f, o ≠ .error (.fault f)) ∧ ∀ a, o = .ok a → Q a := by
  induction h generalizing t with
  | ret a h => obtain ⟨rfl, rfl⟩ := exec_ret.mp he; exact ⟨by simp, fun _ e => by cases e; exact h⟩
  | fuel => obtain ⟨rfl, rfl⟩ := exec_stop.mp he; exact ⟨by simp, by simp⟩
  | thrown x => obtain ⟨rfl, rfl⟩ := exec_stop.mp he; exact ⟨by simp, by simp⟩
  | call c k _ ih =>
    cases he with
    | call _ _ r t' _ h => exact ih r (ht _ (List.mem_cons_self ..)) h fun ev he => ht ev (List.mem_cons_of_mem _ he)

theorem Sound.ofRes {r : Res α} (h : ∃ a, r = .ok a ∧ Q a) : Sound A Q (Prog.ofRes r) := by
  obtain ⟨a, rfl, h⟩ := h
  exact .ret _ h

theorem Sound.report {Q : α × EcArg → Prop} {h : Handler} {ec : EcArg} {c : Code} {d : α} (hQ : Q (d, .ref c)) : Sound A Q (h.report ec c d) := by
  cases ec
  · exact .thrown _
  · exact .ret _ hQ

theorem Sound.reportMsg {Q : α × EcArg → Prop} {h : Handler} {ec : EcArg} {c : Code} {m : Str} {d : α} (hQ : Q (d, .ref c)) :
    Sound A Q (h.reportMsg ec c m d) := by
  cases ec
  · exact .thrown _
  · exact .ret _ hQ

end Asap
