import Verif.Path.Source
import Verif.Props.CStr

/-!
# C121: paths from character sequences in every form
-/

namespace Asap
namespace Spec

/-- The memory holds the text `s` and a terminator; what comes after does not matter. -/
def Terminated (mem s : Str) : Prop := '\x00' ∉ s ∧ ∃ rest, mem = s ++ '\x00' :: rest

/-- The text `s` is what a caller means by a source. -/
def Means : Source → Str → Prop
  | .string x, s => s = x
  | .pointer none, _ => False
  | .pointer (some mem), s => Terminated mem s
  | .iterator mem, s => Terminated mem s
  | .range mem n, s => s.length = n ∧ ∃ rest, mem = s ++ rest

end Spec
open Spec

theorem stringFromIter_eq : ∀ (mem str : Str), stringFromIter mem str = (stringFromIter mem []).map (str ++ ·)
  | [], _ => rfl
  | c :: mem, str => by
    unfold stringFromIter
    split
    · simp [Except.map]
    · rw [stringFromIter_eq mem (str ++ [c]), stringFromIter_eq mem ([] ++ [c])]
      cases stringFromIter mem [] <;> simp [Except.map]

theorem strLen_eq : ∀ (mem : Str) (n : Nat), strLen mem n = (strLen mem 0).map (n + ·)
  | [], _ => rfl
  | c :: mem, n => by
    unfold strLen
    split
    · simp [Except.map]
    · rw [strLen_eq mem (n + 1), strLen_eq mem (0 + 1)]
      cases strLen mem 0 <;> simp [Except.map]; omega

theorem terminated_cons {c : Char} {mem s : Str} : Terminated (c :: mem) s ↔
    (c = '\x00' ∧ s = []) ∨ (c ≠ '\x00' ∧ ∃ s', s = c :: s' ∧ Terminated mem s') := by
  constructor
  · rintro ⟨h1, rest, h2⟩
    cases s with
    | nil => simp only [List.nil_append, List.cons.injEq] at h2; exact .inl ⟨h2.1, rfl⟩
    | cons d s =>
      simp only [List.cons_append, List.cons.injEq] at h2
      obtain ⟨rfl, h2⟩ := h2
      rw [List.mem_cons, not_or] at h1
      exact .inr ⟨fun e => h1.1 e.symm, s, rfl, h1.2, rest, h2⟩
  · rintro (⟨rfl, rfl⟩ | ⟨h, s', rfl, h1, rest, rfl⟩)
    · exact ⟨by simp, mem, rfl⟩
    · exact ⟨by simp [h1, Ne.symm h], rest, rfl⟩

/-- Both ways of reading up to the terminator do that. -/
theorem reading (mem : Str) :
    (∃ s, Terminated mem s ∧ stringFromIter mem [] = .ok s ∧ strLen mem 0 = .ok s.length) ∨
    ((∀ s, ¬ Terminated mem s) ∧ stringFromIter mem [] = .error .ub ∧ strLen mem 0 = .error .ub) := by
  induction mem with
  | nil =>
    refine .inr ⟨?_, rfl, rfl⟩
    rintro s ⟨-, rest, h⟩
    simp at h
  | cons c mem ih =>
    by_cases hc : c = '\x00'
    · exact .inl ⟨[], terminated_cons.mpr (.inl ⟨hc, rfl⟩), by simp [stringFromIter, hc], by simp [strLen, hc]⟩
    · rcases ih with ⟨s, h1, h2, h3⟩ | ⟨h1, h2, h3⟩
      · refine .inl ⟨c :: s, terminated_cons.mpr (.inr ⟨hc, s, rfl, h1⟩), ?_, ?_⟩
        · rw [stringFromIter, if_neg hc, stringFromIter_eq, h2]
          rfl
        · rw [strLen, if_neg hc, strLen_eq, h3]
          simp [Except.map, Nat.add_comm]
      · refine .inr ⟨fun s hs => ?_, ?_, ?_⟩
        · rcases terminated_cons.mp hs with ⟨h, -⟩ | ⟨-, s', -, h⟩
          · exact hc h
          · exact h1 s' h
        · rw [stringFromIter, if_neg hc, stringFromIter_eq, h2]
          rfl
        · rw [strLen, if_neg hc, strLen_eq, h3]
          rfl

theorem terminated_unique {mem s s' : Str} (h : Terminated mem s) (h' : Terminated mem s') : s = s' := by
  induction mem generalizing s s' with
  | nil => obtain ⟨-, rest, h⟩ := h; simp at h
  | cons c mem ih =>
    rcases terminated_cons.mp h with ⟨h1, rfl⟩ | ⟨h1, a, rfl, h2⟩ <;> rcases terminated_cons.mp h' with ⟨h3, rfl⟩ | ⟨h3, b, rfl, h4⟩
    · rfl
    · exact absurd h1 h3
    · exact absurd h3 h1
    · rw [ih h2 h4]

/-- A source is read as the text it means; undefined behaviour is left to sources that mean none. -/
theorem convert_iff (x : Source) (s : Str) : (x.convert = .ok s ↔ Means x s) ∧
    (x.convert = .error .ub ↔ ∀ s, ¬ Means x s) := by
  have fin : ∀ {r : Res Str} {M : Str → Prop}, ((∃ z, M z ∧ (∀ y, M y → z = y) ∧ r = .ok z) ∨ ((∀ y, ¬ M y) ∧ r = .error .ub)) →
      (r = .ok s ↔ M s) ∧ (r = .error .ub ↔ ∀ s, ¬ M s) := by
    rintro r M (⟨z, h1, h2, rfl⟩ | ⟨h1, rfl⟩)
    · refine ⟨⟨fun e => by cases e; exact h1, fun h => by rw [h2 s h]⟩, by simp, fun h => absurd h1 (h z)⟩
    · exact ⟨⟨by simp, fun h => absurd h (h1 s)⟩, fun _ => h1, fun _ => rfl⟩
  cases x with
  | string a => exact fin (.inl ⟨a, rfl, fun y hy => hy.symm, rfl⟩)
  | pointer m =>
    cases m with
    | none => exact fin (.inr ⟨fun _ h => h, rfl⟩)
    | some mem =>
      rcases reading mem with ⟨z, h1, h2, h3⟩ | ⟨h1, h2, h3⟩
      · refine fin (.inl ⟨z, h1, fun y hy => terminated_unique h1 hy, ?_⟩)
        obtain ⟨-, rest, rfl⟩ := h1
        simp [Source.convert, h3, bind, Except.bind, pure, Except.pure]
      · refine fin (.inr ⟨h1, ?_⟩)
        simp [Source.convert, h3, bind, Except.bind]
  | iterator mem =>
    rcases reading mem with ⟨z, h1, h2, h3⟩ | ⟨h1, h2, h3⟩
    · exact fin (.inl ⟨z, h1, fun y hy => terminated_unique h1 hy, h2⟩)
    · exact fin (.inr ⟨h1, h2⟩)
  | range mem n =>
    by_cases hn : n ≤ mem.length
    · refine fin (.inl ⟨mem.take n, ⟨by simp [hn], mem.drop n, by simp⟩, ?_, by simp [Source.convert, hn]⟩)
      rintro y ⟨rfl, rest, rfl⟩
      simp
    · refine fin (.inr ⟨?_, by simp [Source.convert, hn]⟩)
      rintro y ⟨rfl, rest, rfl⟩
      simp at hn

/-- C121. From whatever form of character sequence, on either platform, a path is made, assigned, appended, concatenated and
compared as if the text meant had been given as a string: a string and a pair of iterators mean all their characters, a
pointer or iterator means what comes before the first null character, whatever comes after. -/
theorem c121_source (pl : Plat) (x : Source) (s : Str) (h : Means x s) (p : Path) :
    pathOf pl x = .ok (mkPath pl s) ∧
    assignFrom pl p x = .ok (mkPath pl s) ∧
    appendFrom pl p x = append pl p (mkPath pl s) ∧
    concatFrom pl p x = .ok (mkPath pl (p.pathname ++ s)) ∧
    compareFrom pl p x = .ok (p.compare (mkPath pl s)) := by
  have hx := (convert_iff x s).1.mpr h
  have hp : pathOf pl x = .ok (mkPath pl s) := by simp [pathOf, hx, bind, Except.bind, pure, Except.pure]
  refine ⟨hp, ?_, ?_, ?_, ?_⟩
  · simp only [assignFrom, hp, bind, Except.bind, pure, Except.pure]
    rfl
  · simp only [appendFrom, hp, bind, Except.bind]
  · simp only [concatFrom, hx, bind, Except.bind, pure, Except.pure, concat]
  · simp only [compareFrom, hp, bind, Except.bind, pure, Except.pure]

/-- C121. Memory is read behind its end only if the source has no terminator or not as many characters as said. -/
theorem c121_reads (pl : Plat) (x : Source) : pathOf pl x = .error .ub ↔ ∀ s, ¬ Means x s := by
  rw [← (convert_iff x []).2]
  cases h : x.convert <;> simp [pathOf, h, bind, Except.bind, pure, Except.pure]

/-- C121. The path made from `c_str()` of a path has the same text if that has no null character; otherwise it is cut. -/
theorem c121_c_str (pl : Plat) (p : Path) : pathOf pl p.cStr = .ok (mkPath pl (cString p.pathname)) ∧
    ('\x00' ∉ p.pathname → pathOf pl p.cStr = .ok (mkPath pl p.pathname)) := by
  have key : ∀ s : Str, Terminated (s ++ ['\x00']) (cString s) := by
    intro s
    induction s with
    | nil => exact terminated_cons.mpr (.inl ⟨rfl, rfl⟩)
    | cons c s ih =>
      refine terminated_cons.mpr ?_
      by_cases hc : c = '\x00'
      · exact .inl ⟨hc, by simp [cString, hc]⟩
      · exact .inr ⟨hc, cString s, by simp [cString, hc], ih⟩
  have h := (c121_source pl p.cStr (cString p.pathname) (key _) .default).1
  exact ⟨h, fun hn => by rw [h, cString_of hn]⟩

example : Means (.pointer (some "a/b\x00junk".toList)) "a/b".toList :=
  ⟨by decide, "junk".toList, rfl⟩
example : Means (.string "a\x00b".toList) "a\x00b".toList ∧ Means (.range "abc".toList 2) "ab".toList := ⟨rfl, rfl, "c".toList, rfl⟩
example : ∀ s, ¬ Means (.iterator "ab".toList) s := by
  rw [← c121_reads .posix]
  rfl

end Asap
