import Verif.Path.Total
import Verif.Path.Iter
import Verif.Path.Quoted

/-!
# Path values obtainable through the public interface
-/

namespace Asap
open Spec

/-- The values that histories of path operations produce, starting from
default-constructed variables, as long as `parent_path` does not elide its return
move or is not used. -/
def Reach (p : Path) : Prop :=
  ∃ (el : Bool) (ops : List Op) (σ : Store) (v : Nat),
    (el = false ∨ ∀ d s, Op.parentPath d s ∉ ops) ∧
    execAll el ops (fun _ => .default) = .ok σ ∧ σ v = p

theorem execAll_good {el : Bool} : ∀ {ops : List Op} {σ σ' : Store},
    (el = false ∨ ∀ d s, Op.parentPath d s ∉ ops) → AllGood true σ → execAll el ops σ = .ok σ' → AllGood true σ'
  | [], σ, σ', _, h, he => by cases he; exact h
  | op :: ops, σ, σ', hel, h, he => by
    simp only [execAll] at he
    rcases exec_good (op := op) h (b := true) (el := el) (by
      rcases hel with hel | hel
      · exact Or.inl hel
      · exact Or.inr (fun d s e => hel d s (by simp [e]))) (Or.inl rfl) with ⟨σ1, h1, h2⟩ | ⟨h1, _⟩
    · rw [h1] at he
      refine execAll_good (ops := ops) ?_ h2 he
      rcases hel with hel | hel
      · exact Or.inl hel
      · exact Or.inr (fun d s hm => hel d s (by simp [hm]))
    · rw [h1] at he; cases he

theorem Reach.good {p : Path} (h : Reach p) : Good true p := by
  obtain ⟨el, ops, σ, v, h1, h2, rfl⟩ := h
  exact execAll_good h1 (fun _ => good_default (b := true)) h2 v

theorem Reach.loose {p : Path} (h : Reach p) : Loose p := h.good.loose

theorem Reach.shape {p : Path} (h : Reach p) : Shape p := h.good.shape

/-- String-built paths. -/
theorem reach_mkPath (s : Str) : Reach (mkPath .posix s) :=
  ⟨false, [.ctor 0 s], _, 0, Or.inl rfl, rfl, rfl⟩

theorem reach_default : Reach .default := ⟨false, [], _, 0, Or.inl rfl, rfl, rfl⟩

/-- One more operation on a single variable. -/
theorem Reach.step {p q : Path} (h : Reach p)
    (hop : ∀ (el : Bool) (σ : Store) (v : Nat), σ v = p → ∃ (o : Op) (σ' : Store),
      (∀ d s, o ≠ Op.parentPath d s) ∧ o.exec el σ = .ok σ' ∧ σ' v = q) : Reach q := by
  obtain ⟨el, ops, σ, v, h1, h2, h3⟩ := h
  obtain ⟨o, σ', ho, h4, h5⟩ := hop el σ v h3
  refine ⟨el, ops ++ [o], σ', v, ?_, ?_, h5⟩
  · rcases h1 with h1 | h1
    · exact Or.inl h1
    · right
      intro d s hm
      simp at hm
      rcases hm with hm | hm
      · exact h1 d s hm
      · exact ho d s hm.symm
  · rw [execAll_append, h2]
    show execAll el [o] σ = _
    simp only [execAll, h4]
    rfl

/-- Path values including the result of `parent_path` with an elided return. -/
inductive Value : Path → Prop
  | reach {p} : Reach p → Value p
  | parent {p q} (el : Bool) : Reach p → parentPath .posix el p = .ok q → Value q

theorem Value.shape {p : Path} (h : Value p) : Shape p := by
  cases h with
  | reach h => exact h.shape
  | parent el h hq =>
    obtain ⟨q, h1, h2, _⟩ := h.loose.parentPath el
    rw [h1] at hq; cases hq; exact h2

/-- The text of a result. -/
def textOf (r : Res Path) : Res Str := r.map Path.pathname

end Asap
