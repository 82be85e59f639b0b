import Verif.Path.WinFirm

/-!
# C118: histories of path operations on Windows
-/

namespace Asap
open Spec

/-- C118, partial: no fault, if `parent_path` does not elide its return (or is not
used), and `lexically_normal` is not combined with `remove_filename`/
`replace_filename`. Missing: the excluded combinations, where the property is false
(`c118_violated`); `c118_fault_partial` bounds what can go wrong. -/
theorem c118_no_fault_partial (el : Bool) (ops : List Op)
    (h1 : el = false ∨ ∀ d s, Op.parentPath d s ∉ ops)
    (h2 : (∀ d s, Op.normal d s ∉ ops) ∨ ∀ d s, Op.removeFilename d ∉ ops ∧ Op.replaceFilename d s ∉ ops) :
    ∃ σ, execAllOn .windows el ops (fun _ => .default) = .ok σ := by
  have key : ∀ (b : Bool) (ops : List Op) (σ : Store), (el = false ∨ ∀ d s, Op.parentPath d s ∉ ops) →
      (b = true ∨ ∀ d s, Op.normal d s ∉ ops) →
      (b = false ∨ ∀ d s, Op.removeFilename d ∉ ops ∧ Op.replaceFilename d s ∉ ops) →
      AllFirm b σ → ∃ σ', execAllOn .windows el ops σ = .ok σ' := by
    intro b ops
    induction ops with
    | nil => intro σ _ _ _ _; exact ⟨σ, rfl⟩
    | cons op ops ih =>
      intro σ g1 g2 g3 hg
      rcases execOn_firm (op := op) (el := el) hg (g1.imp id fun g d s e => g d s (by simp [e]))
        (g2.imp id fun g d s e => g d s (by simp [e])) with ⟨σ1, k1, k2⟩ | ⟨_, d, hop, hbt, _⟩
      · simp only [execAllOn, k1, bind, Except.bind]
        exact ih σ1 (g1.imp id fun g d s hm => g d s (by simp [hm])) (g2.imp id fun g d s hm => g d s (by simp [hm]))
          (g3.imp id fun g d s => ⟨fun hm => (g d s).1 (by simp [hm]), fun hm => (g d s).2 (by simp [hm])⟩) k2
      · rcases g3 with g3 | g3
        · rw [g3] at hbt; cases hbt
        · rcases hop with rfl | ⟨s, rfl⟩
          · exact absurd (List.mem_cons_self) (g3 d 0).1
          · exact absurd (List.mem_cons_self) (g3 d s).2
  rcases h2 with h2 | h2
  · exact key false ops _ h1 (.inr h2) (.inl rfl) (fun _ => .dflt)
  · exact key true ops _ h1 (.inl rfl) (.inr h2) (fun _ => .dflt)

/-- C118, partial: without elision, the only fault any history can run into is
`remove_filename` or `replace_filename` on a path whose only element is `..` and that is
not the parse of `..`. -/
theorem c118_fault_partial (el : Bool) (ops : List Op) (e : Fault)
    (h1 : el = false ∨ ∀ d s, Op.parentPath d s ∉ ops)
    (he : execAllOn .windows el ops (fun _ => .default) = .error e) :
    e = .ub ∧ ∃ pre op post σ d, ops = pre ++ op :: post ∧ execAllOn .windows el pre (fun _ => .default) = .ok σ ∧
      (op = .removeFilename d ∨ ∃ s, op = .replaceFilename d s) ∧
      (σ d).names = ["..".toList] ∧ σ d ≠ mkPath .windows "..".toList := by
  have key : ∀ (ops : List Op) (σ : Store), (el = false ∨ ∀ d s, Op.parentPath d s ∉ ops) →
      AllFirm true σ → execAllOn .windows el ops σ = .error e →
      e = .ub ∧ ∃ pre op post σ' d, ops = pre ++ op :: post ∧ execAllOn .windows el pre σ = .ok σ' ∧
      (op = .removeFilename d ∨ ∃ s, op = .replaceFilename d s) ∧
      (σ' d).names = ["..".toList] ∧ σ' d ≠ mkPath .windows "..".toList := by
    intro ops
    induction ops with
    | nil => intro σ _ _ h; cases h
    | cons op ops ih =>
      intro σ h1 hg h
      rcases execOn_firm (op := op) (el := el) hg (h1.imp id fun g d s e => g d s (by simp [e])) (Or.inl rfl) with
        ⟨σ1, g1, g2⟩ | ⟨g1, d, hop, _, ht, hx⟩
      · simp only [execAllOn, g1, bind, Except.bind] at h
        obtain ⟨k1, pre, op', post, σ', d, k2, k3, k4⟩ := ih σ1 (h1.imp id fun g d s hm => g d s (by simp [hm])) g2 h
        refine ⟨k1, op :: pre, op', post, σ', d, by rw [k2]; rfl, ?_, k4⟩
        simp only [execAllOn, g1, bind, Except.bind]; exact k3
      · simp only [execAllOn, g1, bind, Except.bind] at h
        cases h
        refine ⟨rfl, [], op, ops, σ, d, rfl, rfl, hop, hx, ?_⟩
        intro hc
        rw [hc] at ht
        exact absurd ht (by decide)
  exact key ops _ h1 (fun _ => .dflt) he

/-- The full statement of C118 fails. With every compiler: `..\` normalised, then
`remove_filename`. With copy elision in `parent_path`: `foo\bar` gives undefined
behaviour in `remove_filename`, and `C:\\\\a\b` makes `relative_path` throw. -/
theorem c118_violated :
    (∀ el, execAllOn .windows el [.ctor 0 "..\\".toList, .normal 0 0, .removeFilename 0] (fun _ => .default)
      = .error .ub) ∧
    (execAllOn .windows true [.ctor 0 "foo\\bar".toList, .parentPath 0 0, .removeFilename 0] (fun _ => .default)
      = .error .ub) ∧
    (execAllOn .windows true [.ctor 0 "C:\\\\\\\\a\\b".toList, .parentPath 0 0, .relativePath 0 0] (fun _ => .default)
      = .error .outOfRange) := by
  refine ⟨fun el => ?_, rfl, rfl⟩
  cases el <;> rfl

example : ∃ σ, execAllOn .windows false [.ctor 0 "C:\\a\\b".toList, .copy 1 0, .ctor 2 "x/c:".toList, .append 0 2,
    .parentPath 2 0, .removeFilename 2, .concatPath 1 2, .relative 3 0 2, .moveAssign 4 3, .element 5 0 4]
    (fun _ => .default) = .ok σ ∧ (σ 2).pathname = "C:\\a\\b\\".toList ∧ (σ 4).pathname = "..\\x\\c:".toList ∧
    (σ 3).pathname = [] ∧ (σ 5).type = .filename := ⟨_, rfl, by decide⟩

end Asap
