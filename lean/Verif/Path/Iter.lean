import Verif.Path.Model

/-!
# Model of `path::iterator`

An iterator of the path `p` (the pointer `path_`). Default-constructed iterators
(null `path_`) and comparisons between iterators of different path objects
are not modelled.
-/

namespace Asap

/-- `path::iterator` (`include/filesystem/fs_path.h:393-450`): the offset of
`cur_` in `components_` and `at_end_`. The pointer `path_` is a parameter of the
operations. -/
structure Iter where
  cur : Nat
  atEnd : Bool
  deriving DecidableEq, Repr

/-- `path::begin` (`src/fs_path.cpp:393-398`). -/
def Path.begin (p : Path) : Iter :=
  if p.type = .multi then ⟨0, false⟩
  else ⟨0, p.isEmpty⟩

/-- `path::end` (`src/fs_path.cpp:400-405`). -/
def Path.end' (p : Path) : Iter :=
  if p.type = .multi then ⟨p.comps.length, false⟩
  else ⟨0, true⟩

/-- `iterator::operator++` (`src/fs_path.cpp:407-417`). -/
def Iter.incr (p : Path) (it : Iter) : Res Iter :=
  if p.type = .multi then if it.cur = p.comps.length then .error .assertFail else .ok { it with cur := it.cur + 1 }
  else if it.atEnd then .error .assertFail else .ok { it with atEnd := true }

/-- `iterator::operator--` (`src/fs_path.cpp:419-429`). -/
def Iter.decr (p : Path) (it : Iter) : Res Iter :=
  if p.type = .multi then if it.cur = 0 then .error .assertFail else .ok { it with cur := it.cur - 1 }
  else if it.atEnd then .ok { it with atEnd := false } else .error .assertFail

/-- `iterator::operator*` (`src/fs_path.cpp:431-438`). An offset beyond the end
would be undefined behaviour. -/
def Iter.deref (p : Path) (it : Iter) : Res Path :=
  if p.type = .multi then
    if it.cur = p.comps.length then .error .assertFail
    else match p.comps[it.cur]? with
      | some c => .ok c.toPath
      | none => .error .ub
  else .ok p

/-- `iterator::equals` (`src/fs_path.cpp:440-451`) for iterators of one path. -/
def Iter.equals (p : Path) (a b : Iter) : Bool :=
  if p.type = .multi then a.cur == b.cur
  else a.atEnd == b.atEnd

/-- The loop `for (it = begin(); it != end(); ++it) out.push_back(*it)` with a step
bound; `none` if the bound is exceeded. -/
def Iter.collect (p : Path) : Nat → Iter → Option (Res (List Path))
  | 0, _ => none
  | fuel + 1, it =>
    if it.equals p p.end' then some (.ok [])
    else match it.deref p, it.incr p with
      | .ok x, .ok it' =>
        match Iter.collect p fuel it' with
        | some (.ok xs) => some (.ok (x :: xs))
        | r => r
      | .error e, _ => some (.error e)
      | _, .error e => some (.error e)

/-- The `i`-th position. -/
def Path.iterAt (p : Path) (i : Nat) : Iter :=
  if p.type = .multi then ⟨i, false⟩
  else ⟨0, decide (i = p.elems.length)⟩

section
variable (p : Path)

theorem elems_multi (h : p.type = .multi) : p.elems = p.comps.map Comp.toPath := by
  simp [Path.elems, h]

theorem elems_single (h : p.type ≠ .multi) : p.elems = if p.isEmpty then [] else [p] := by
  unfold Path.elems
  split
  · rename_i h'; exact absurd h' h
  · rfl

theorem iterAt_begin : p.iterAt 0 = p.begin := by
  by_cases h : p.type = .multi
  · simp [Path.iterAt, Path.begin, h]
  · unfold Path.iterAt Path.begin
    simp only [h, if_false, elems_single p h]
    cases p.isEmpty <;> simp

theorem iterAt_end : p.iterAt p.elems.length = p.end' := by
  by_cases h : p.type = .multi
  · simp [Path.iterAt, Path.end', h, elems_multi p h]
  · unfold Path.iterAt Path.end'
    simp [h]

theorem iterAt_incr {i : Nat} (hi : i < p.elems.length) :
    (p.iterAt i).incr p = .ok (p.iterAt (i + 1)) := by
  by_cases h : p.type = .multi
  · rw [elems_multi p h] at hi
    simp at hi
    simp [Path.iterAt, Iter.incr, h]
    omega
  · unfold Path.iterAt Iter.incr
    simp only [h, if_false]
    rw [elems_single p h] at hi ⊢
    cases he : p.isEmpty
    · simp [he] at hi ⊢; simp [hi]
    · simp [he] at hi

theorem iterAt_decr {i : Nat} (hi : i < p.elems.length) :
    (p.iterAt (i + 1)).decr p = .ok (p.iterAt i) := by
  by_cases h : p.type = .multi
  · simp [Path.iterAt, Iter.decr, h]
  · unfold Path.iterAt Iter.decr
    simp only [h, if_false]
    rw [elems_single p h] at hi ⊢
    cases he : p.isEmpty
    · simp [he] at hi ⊢; simp [hi]
    · simp [he] at hi

theorem iterAt_deref {i : Nat} (hi : i < p.elems.length) :
    (p.iterAt i).deref p = .ok p.elems[i] := by
  by_cases h : p.type = .multi
  · have hi' := hi
    rw [elems_multi p h] at hi'
    simp at hi'
    have : p.comps.length ≠ i := by omega
    simp [Path.iterAt, Iter.deref, h, elems_multi p h, hi', Ne.symm this]
  · unfold Iter.deref
    rw [if_neg h]
    have he := elems_single p h
    cases hp : p.isEmpty
    · rw [hp] at he
      simp at he
      have : i = 0 := by rw [he] at hi; simpa using hi
      subst this
      simp [he]
    · rw [hp] at he
      simp at he
      rw [he] at hi; simp at hi

theorem iterAt_equals {i j : Nat} (hi : i ≤ p.elems.length) (hj : j ≤ p.elems.length) :
    (p.iterAt i).equals p (p.iterAt j) = true ↔ i = j := by
  by_cases h : p.type = .multi
  · simp [Path.iterAt, Iter.equals, h]
  · unfold Path.iterAt Iter.equals
    simp only [h, if_false]
    rw [elems_single p h] at hi hj ⊢
    cases he : p.isEmpty
    · simp [he] at hi hj ⊢
      omega
    · simp [he] at hi hj ⊢; omega

/-- Iterating from `begin()` to `end()` yields `Path.elems`. -/
theorem collect_elems : Iter.collect p (p.elems.length + 1) p.begin = some (.ok p.elems) := by
  rw [← iterAt_begin]
  have key : ∀ k i, k + i = p.elems.length →
      Iter.collect p (k + 1) (p.iterAt i) = some (.ok (p.elems.drop i)) := by
    intro k
    induction k with
    | zero =>
      intro i hi
      rw [Iter.collect, ← iterAt_end, if_pos]
      · simp; omega
      · rw [iterAt_equals p (by omega) (by omega)]; omega
    | succ k ih =>
      intro i hi
      rw [Iter.collect, ← iterAt_end, if_neg]
      · rw [iterAt_deref p (by omega), iterAt_incr p (by omega)]
        simp only
        rw [ih (i + 1) (by omega)]
        simp only
        rw [List.drop_eq_getElem_cons (i := i) (by omega)]
      · rw [iterAt_equals p (by omega) (by omega)]; omega
  simpa using key p.elems.length 0 (by omega)

end

end Asap
