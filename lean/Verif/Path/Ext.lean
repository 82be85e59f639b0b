import Verif.Path.Shape

/-!
# Extensions: closed form of `FindExtension`
-/

namespace Asap
open Spec

theorem last_dot (w : Str) : '.' ∉ w ∨ ∃ a b, '.' ∉ b ∧ w = a ++ '.' :: b := by
  induction w with
  | nil => left; simp
  | cons c w ih =>
    rcases ih with h | ⟨a, b, hb, rfl⟩
    · by_cases hc : c = '.'
      · subst hc; right; exact ⟨[], w, h, rfl⟩
      · left; simp [h, Ne.symm hc]
    · right; exact ⟨c :: a, b, hb, rfl⟩

theorem takeWhile_noDot : ∀ {w : Str} (r : Str), '.' ∉ w →
    (w ++ r).takeWhile (· != '.') = w ++ r.takeWhile (· != '.')
  | [], _, _ => rfl
  | c :: w, r, h => by
    simp at h
    simp [Ne.symm h.1, takeWhile_noDot r h.2]

theorem afterDot_dot (a : Str) {b : Str} (hb : '.' ∉ b) : afterDot (a ++ '.' :: b) = b := by
  have := takeWhile_noDot (w := b.reverse) ('.' :: a.reverse) (by simpa using hb)
  simp at this
  simp [afterDot, this]

theorem findIdx_dot : ∀ {b : Str} (r : Str), '.' ∉ b →
    (b ++ '.' :: r).findIdx? (· == '.') = some b.length
  | [], r, _ => by simp [List.findIdx?_cons]
  | c :: b, r, h => by
    simp at h
    have := findIdx_dot (b := b) r h.2
    rw [List.cons_append, List.findIdx?_cons]
    simp [Ne.symm h.1, this]

theorem rfindDot_dot (a : Str) {b : Str} (hb : '.' ∉ b) : rfindDot (a ++ '.' :: b) = some a.length := by
  have h := findIdx_dot (b := b.reverse) a.reverse (by simpa using hb)
  have e : (a ++ '.' :: b).reverse = b.reverse ++ '.' :: a.reverse := by simp
  rw [rfindDot, e, h]
  simp

theorem rfindDot_none {w : Str} (h : '.' ∉ w) : rfindDot w = none := by
  have : w.reverse.findIdx? (· == '.') = none := by
    rw [List.findIdx?_eq_none_iff]
    intro x hx
    simp at hx
    simp
    rintro rfl
    exact h hx
  rw [rfindDot, this]

/-- Position of the extension found by the code in a filename. -/
def extPos (w : Str) : Option Nat :=
  if w.length ≤ 2 ∧ w.head? = some '.' then none
  else match rfindDot w with
    | some 0 => none
    | r => r

theorem extPos_none {w : Str} (h : ¬ HasExt w) : extPos w = none := by
  unfold extPos
  split
  · rfl
  · rename_i hn
    rcases last_dot w with hd | ⟨a, b, hb, rfl⟩
    · rw [rfindDot_none hd]
    · cases a with
      | nil => rw [rfindDot_dot [] hb]; rfl
      | cons c a =>
        exfalso
        apply h
        refine ⟨?_, by simp⟩
        intro he
        simp at he
        obtain ⟨rfl, he⟩ := he
        cases a with
        | nil => simp at he; subst he; simp at hn
        | cons x xs => simp at he

theorem extPos_some {w : Str} (h : HasExt w) :
    ∃ a b, '.' ∉ b ∧ a ≠ [] ∧ w = a ++ '.' :: b ∧ extPos w = some a.length := by
  rcases last_dot w with hd | ⟨a, b, hb, rfl⟩
  · exact absurd (List.mem_of_mem_tail h.2) hd
  · have ha : a ≠ [] := by
      rintro rfl
      exact hb (by simpa using h.2)
    refine ⟨a, b, hb, ha, rfl, ?_⟩
    unfold extPos
    have hn : ¬ ((a ++ '.' :: b).length ≤ 2 ∧ (a ++ '.' :: b).head? = some '.') := by
      rintro ⟨h1, h2⟩
      cases a with
      | nil => exact ha rfl
      | cons c a =>
        simp at h1 h2
        subst h2
        have ha0 : a = [] := by
          cases a with
          | nil => rfl
          | cons _ _ => simp at h1; omega
        subst ha0
        have hb0 : b = [] := by
          cases b with
          | nil => rfl
          | cons _ _ => simp at h1
        subst hb0
        exact h.1 rfl
    rw [if_neg hn, rfindDot_dot a hb]
    cases a with
    | nil => exact absurd rfl ha
    | cons c a => rfl

theorem extOf_dot {a b : Str} (hb : '.' ∉ b) (h : HasExt (a ++ '.' :: b)) :
    extOf (a ++ '.' :: b) = '.' :: b := by
  simp [extOf, h, afterDot_dot a hb]

theorem stemOf_dot {a b : Str} (hb : '.' ∉ b) (h : HasExt (a ++ '.' :: b)) :
    stemOf (a ++ '.' :: b) = a := by
  simp [stemOf, extOf_dot hb h]

theorem extOf_none {w : Str} (h : ¬ HasExt w) : extOf w = [] := by simp [extOf, h]

theorem stemOf_none {w : Str} (h : ¬ HasExt w) : stemOf w = w := by simp [stemOf, extOf_none h]

theorem Shape.extSource {p : Path} (h : Shape p) :
    extSource p = if filePart p.pathname ≠ [] then some (filePart p.pathname)
      else if p.pathname = [] then (if p.type = .filename then some [] else none)
      else if filenames p.pathname = [] then none else some [] := by
  cases h with
  | dflt => rfl
  | empt => rfl
  | file s hs => simp [Asap.extSource, filePart_noSlash hs.2, hs.1]
  | root => rfl
  | multi s cs h1 h2 h3 =>
    have hk := getLast?_key h3
    rw [keysOf_getLast h1] at hk
    simp only [Asap.extSource]
    cases hc : cs.getLast? with
    | none => rw [hc] at hk; simp at hk
    | some c =>
      rw [hc] at hk
      simp only [Option.map_some, Option.some.injEq, Comp.key] at hk
      by_cases hf : filePart s = []
      · by_cases hn : filenames s = []
        · simp [hf, hn] at hk
          simp [hf, hn, hk.2, h1]
        · simp [hf, hn] at hk
          simp [hf, hn, hk.2, hk.1, h1]
      · simp [hf] at hk
        simp [hf, hk.1, hk.2]

theorem Shape.findExtension {p : Path} (h : Shape p) :
    findExtension p = if filePart p.pathname = [] then none
      else some (filePart p.pathname, extPos (filePart p.pathname)) := by
  rw [Asap.findExtension, h.extSource]
  by_cases hf : filePart p.pathname = []
  · rw [if_pos hf]
    by_cases h1 : p.pathname = []
    · have hf0 : filePart ([] : Str) = [] := rfl
      by_cases h2 : p.type = .filename <;> simp [hf0, h1, h2]
    · by_cases h2 : filenames p.pathname = [] <;> simp [hf, h1, h2]
  · rw [if_neg hf]
    simp only [ne_eq, hf, not_false_eq_true, if_true]
    cases hw : filePart p.pathname with
    | nil => exact absurd hw hf
    | cons c w =>
      simp only [extPos, List.head?_cons, Option.some.injEq]
      split
      · rfl
      · rfl

theorem Shape.stem {p : Path} (h : Shape p) :
    stem .posix p = if filePart p.pathname = [] then .default
      else mkPath .posix (stemOf (filePart p.pathname)) := by
  rw [Asap.stem, h.findExtension]
  by_cases hf : filePart p.pathname = []
  · simp [hf]
  · simp only [hf, if_false]
    by_cases he : HasExt (filePart p.pathname)
    · obtain ⟨a, b, hb, ha, hw, hp⟩ := extPos_some he
      rw [hw] at he ⊢
      rw [← hw, hp, hw, stemOf_dot hb he]
      simp [ha]
    · rw [extPos_none he, stemOf_none he]

theorem Shape.extension {p : Path} (h : Shape p) :
    extension .posix p = if extOf (filePart p.pathname) = [] then .default
      else mkPath .posix (extOf (filePart p.pathname)) := by
  rw [Asap.extension, h.findExtension]
  by_cases hf : filePart p.pathname = []
  · simp [hf, extOf, HasExt]
  · simp only [hf, if_false]
    by_cases he : HasExt (filePart p.pathname)
    · obtain ⟨a, b, hb, ha, hw, hp⟩ := extPos_some he
      rw [hw] at he ⊢
      rw [← hw, hp, hw, extOf_dot hb he]
      simp [ha]
    · rw [extPos_none he, extOf_none he]
      simp

theorem stemOf_append_extOf (w : Str) : stemOf w ++ extOf w = w := by
  by_cases he : HasExt w
  · obtain ⟨a, b, hb, ha, rfl, hp⟩ := extPos_some he
    rw [stemOf_dot hb he, extOf_dot hb he]
  · rw [stemOf_none he, extOf_none he, List.append_nil]

theorem noSlash_of_append_left {a b : Str} (h : '/' ∉ a ++ b) : '/' ∉ a := by
  intro h'; exact h (by simp [h'])

theorem noSlash_of_append_right {a b : Str} (h : '/' ∉ a ++ b) : '/' ∉ b := by
  intro h'; exact h (by simp [h'])

theorem stemOf_noSlash {w : Str} (h : '/' ∉ w) : '/' ∉ stemOf w := by
  rw [← stemOf_append_extOf w] at h; exact noSlash_of_append_left h

theorem extOf_noSlash {w : Str} (h : '/' ∉ w) : '/' ∉ extOf w := by
  rw [← stemOf_append_extOf w] at h; exact noSlash_of_append_right h

theorem stemOf_ne_nil {w : Str} (h : w ≠ []) : stemOf w ≠ [] := by
  by_cases he : HasExt w
  · obtain ⟨a, b, hb, ha, rfl, hp⟩ := extPos_some he
    rwa [stemOf_dot hb he]
  · rwa [stemOf_none he]

theorem stored_noSlash {w : Str} (h : '/' ∉ w) : stored w = w := by
  apply stored_eq_self
  intro hn
  rw [filenames_noSlash h] at hn
  left
  by_cases hw : w = []
  · exact hw
  · simp [hw] at hn

theorem Shape.stem_pathname {p : Path} (h : Shape p) :
    (Asap.stem .posix p).pathname = stemOf (filePart p.pathname) := by
  rw [h.stem]
  split
  · rename_i hf; rw [hf]; rfl
  · rw [mkPath_pathname, stored_noSlash (stemOf_noSlash (filePart_noSlash' _))]

theorem Shape.extension_pathname {p : Path} (h : Shape p) :
    (Asap.extension .posix p).pathname = extOf (filePart p.pathname) := by
  rw [h.extension]
  split
  · rename_i hf; rw [hf]; rfl
  · rw [mkPath_pathname, stored_noSlash (extOf_noSlash (filePart_noSlash' _))]

end Asap
