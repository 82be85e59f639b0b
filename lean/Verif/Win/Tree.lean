import Verif.Dir.Kernel

/-!
# Trees of files, for Windows

As in `Verif/Props/RemoveA.lean`, for any kind `κ` of files.
-/

namespace Asap
namespace Spec

/-- The entries of a directory: name, file, and its own entries if it is a directory. -/
inductive WinTree (κ : Type) where
  | nil
  | node (name : Str) (file : κ) (sub rest : WinTree κ)

/-- A file with its entries. -/
abbrev WinNode (κ : Type) := κ × WinTree κ

section
variable {κ : Type}

/-- The number of files in a tree. -/
def WinTree.size : WinTree κ → Nat
  | .nil => 0
  | .node _ _ sub rest => 1 + sub.size + rest.size

def WinTree.names : WinTree κ → List Str
  | .nil => []
  | .node w _ _ rest => w :: rest.names

def WinTree.child : WinTree κ → Str → Option (WinNode κ)
  | .nil, _ => none
  | .node v t sub rest, w => if v = w then some (t, sub) else rest.child w

/-- Put another file, or none, in the place of an entry. -/
def WinTree.set : WinTree κ → Str → Option (WinNode κ) → WinTree κ
  | .nil, _, _ => .nil
  | .node v t sub rest, w, y =>
    if v = w then (match y with
      | none => rest
      | some (t', sub') => .node v t' sub' rest)
    else .node v t sub (rest.set w y)

/-- The file reached through the names `ws`. -/
def winFind : Option (WinNode κ) → List Str → Option (WinNode κ)
  | x, [] => x
  | none, _ :: _ => none
  | some (_, sub), w :: ws => winFind (sub.child w) ws

/-- Put another file, or none, there. -/
def winPut : Option (WinNode κ) → List Str → Option (WinNode κ) → Option (WinNode κ)
  | _, [], y => y
  | none, _ :: _, _ => none
  | some (t, sub), w :: ws, y => some (t, sub.set w (winPut (sub.child w) ws y))

/-- The number of files in a node, itself included. -/
def winTotal (x : WinNode κ) : Nat := 1 + x.2.size

end

end Spec
open Spec
namespace Win
section
variable {κ : Type}

theorem wt_find_append (x : Option (WinNode κ)) (ws : List Str) (w : Str) {t : κ} {sub : WinTree κ} (h : winFind x ws = some (t, sub)) :
    winFind x (ws ++ [w]) = sub.child w := by
  induction ws generalizing x with
  | nil => simp only [winFind] at h; subst h; simp [winFind]
  | cons v vs ih =>
    cases x with
    | none => simp [winFind] at h
    | some c => obtain ⟨t', s'⟩ := c; simp only [winFind, List.cons_append] at h ⊢; exact ih _ h

theorem wt_child_set_some {s : WinTree κ} {w : Str} {c y : WinNode κ} (h : s.child w = some c) : (s.set w (some y)).child w = some y := by
  induction s with
  | nil => simp [WinTree.child] at h
  | node v t sub rest _ ih =>
    simp only [WinTree.child, WinTree.set] at h ⊢
    split <;> rename_i hv
    · simp [WinTree.child, hv]
    · rw [if_neg hv] at h
      simp only [WinTree.child, if_neg hv]
      exact ih h

theorem wt_set_set {s : WinTree κ} {w : Str} {y : WinNode κ} {z : Option (WinNode κ)} : (s.set w (some y)).set w z = s.set w z := by
  induction s with
  | nil => rfl
  | node v t sub rest _ ih =>
    simp only [WinTree.set]
    split <;> rename_i hv
    · simp [WinTree.set, hv]
    · simp [WinTree.set, hv, ih]

theorem wt_set_child {s : WinTree κ} {w : Str} {c : WinNode κ} (h : s.child w = some c) : s.set w (some c) = s := by
  induction s with
  | nil => rfl
  | node v t sub rest _ ih =>
    simp only [WinTree.set, WinTree.child] at h ⊢
    split <;> rename_i hv
    · rw [if_pos hv] at h; cases h; rfl
    · rw [if_neg hv] at h; rw [ih h]

theorem wt_find_put {x : Option (WinNode κ)} {ws : List Str} {c y : WinNode κ} (h : winFind x ws = some c) : winFind (winPut x ws (some y)) ws = some y := by
  induction ws generalizing x with
  | nil => rfl
  | cons v vs ih =>
    cases x with
    | none => simp [winFind] at h
    | some b =>
      obtain ⟨t', s'⟩ := b
      simp only [winFind, winPut] at h ⊢
      have hc : ∃ z, s'.child v = some z := by
        cases hx : s'.child v with
        | none => rw [hx] at h; cases vs <;> simp [winFind] at h
        | some z => exact ⟨z, rfl⟩
      obtain ⟨z, hz⟩ := hc
      rw [hz] at h ⊢
      have h2 : ∃ u, winPut (some z) vs (some y) = some u := by
        obtain ⟨zt, zs⟩ := z
        cases vs with
        | nil => exact ⟨y, rfl⟩
        | cons a as => exact ⟨_, rfl⟩
      obtain ⟨u, hu⟩ := h2
      rw [hu, wt_child_set_some hz, ← hu]
      exact ih h

theorem wt_put_put {x : Option (WinNode κ)} {ws : List Str} {c y : WinNode κ} {z : Option (WinNode κ)} (h : winFind x ws = some c) :
    winPut (winPut x ws (some y)) ws z = winPut x ws z := by
  induction ws generalizing x with
  | nil => rfl
  | cons v vs ih =>
    cases x with
    | none => simp [winFind] at h
    | some b =>
      obtain ⟨t', s'⟩ := b
      simp only [winFind, winPut] at h ⊢
      have hc : ∃ z, s'.child v = some z := by
        cases hx : s'.child v with
        | none => rw [hx] at h; cases vs <;> simp [winFind] at h
        | some z => exact ⟨z, rfl⟩
      obtain ⟨b, hb⟩ := hc
      rw [hb] at h ⊢
      have h2 : ∃ u, winPut (some b) vs (some y) = some u := by
        obtain ⟨zt, zs⟩ := b
        cases vs with
        | nil => exact ⟨y, rfl⟩
        | cons a as => exact ⟨_, rfl⟩
      obtain ⟨u, hu⟩ := h2
      rw [hu, wt_child_set_some hb, wt_set_set, ← hu, ih h]

theorem wt_put_append {x : Option (WinNode κ)} {ws : List Str} {w : Str} {t : κ} {sub : WinTree κ} {y : Option (WinNode κ)}
    (h : winFind x ws = some (t, sub)) : winPut x (ws ++ [w]) y = winPut x ws (some (t, sub.set w y)) := by
  induction ws generalizing x with
  | nil => simp only [winFind] at h; subst h; simp [winPut]
  | cons v vs ih =>
    cases x with
    | none => simp [winFind] at h
    | some b =>
      obtain ⟨t', s'⟩ := b
      simp only [winFind, winPut, List.cons_append] at h ⊢
      rw [ih h]

theorem wt_names_set (s : WinTree κ) (w : Str) : (s.set w none).names = s.names.erase w := by
  induction s with
  | nil => rfl
  | node v t sub rest _ ih =>
    simp only [WinTree.set, WinTree.names, List.erase_cons]
    by_cases hv : v = w
    · simp [hv]
    · simp [hv, WinTree.names, ih]

theorem wt_size_set {s : WinTree κ} {w : Str} {c : WinNode κ} (h : s.child w = some c) : (s.set w none).size + winTotal c = s.size := by
  induction s with
  | nil => simp [WinTree.child] at h
  | node v t sub rest _ ih =>
    simp only [WinTree.set, WinTree.child, WinTree.size] at h ⊢
    by_cases hv : v = w
    · simp only [hv, if_true, Option.some.injEq] at h ⊢; subst h; simp only [winTotal]; omega
    · simp only [hv, if_false] at h ⊢; have := ih h; simp only [WinTree.size]; omega

theorem wt_child_of_mem {s : WinTree κ} {w : Str} (h : w ∈ s.names) : ∃ c, s.child w = some c := by
  induction s with
  | nil => simp [WinTree.names] at h
  | node v t sub rest _ ih =>
    simp only [WinTree.names, List.mem_cons, WinTree.child] at h ⊢
    by_cases hv : v = w
    · exact ⟨(t, sub), by simp [hv]⟩
    · simp only [hv, if_false]; exact ih (by rcases h with h | h; exact absurd h.symm hv; exact h)

theorem wt_names_length_le (s : WinTree κ) : s.names.length ≤ s.size := by
  induction s with
  | nil => simp [WinTree.names, WinTree.size]
  | node v t sub rest _ ih => simp only [WinTree.names, WinTree.size, List.length_cons]; omega

theorem wt_names_nil {s : WinTree κ} (h : s.names = []) : s = .nil := by
  cases s with
  | nil => rfl
  | node => simp [WinTree.names] at h

end
end Win
end Asap
