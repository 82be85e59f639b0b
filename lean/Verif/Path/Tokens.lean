import Verif.Path.Model

/-!
# Tokens: what the scanning loop of `SplitComponents` finds

`toks pl off s` lists the maximal separator-free runs of `s` as filename
elements, with offsets starting at `off`. Lemmas about concatenation and the
agreement with the model's `scanLoop`.
-/

namespace Asap

/-- Maximal separator-free runs of the remaining text; `cur` is the run being
read, which started at offset `off`. -/
def toksGo (pl : Plat) : Str → Nat → Str → List Comp
  | [], off, cur => if cur = [] then [] else [⟨cur, .filename, off⟩]
  | c :: cs, off, cur =>
    if isSep pl c then
      (if cur = [] then [] else [⟨cur, .filename, off⟩]) ++ toksGo pl cs (off + cur.length + 1) []
    else toksGo pl cs off (cur ++ [c])

/-- Maximal separator-free runs of `s`, offsets starting at `off`. -/
def toks (pl : Plat) (off : Nat) (s : Str) : List Comp := toksGo pl s off []

/-- No separator occurs in the text. -/
def NoSep (pl : Plat) (s : Str) : Prop := ∀ c ∈ s, isSep pl c = false

instance (pl : Plat) (s : Str) : Decidable (NoSep pl s) := by unfold NoSep; infer_instance

theorem noSep_nil (pl : Plat) : NoSep pl [] := by simp [NoSep]

theorem noSep_cons {pl : Plat} {c : Char} {s : Str} :
    NoSep pl (c :: s) ↔ isSep pl c = false ∧ NoSep pl s := by
  simp [NoSep]

theorem noSep_append {pl : Plat} {a b : Str} :
    NoSep pl (a ++ b) ↔ NoSep pl a ∧ NoSep pl b := by
  simp [NoSep, or_imp, forall_and]

/-- A token list with at most one token. -/
def tok1 (off : Nat) (w : Str) : List Comp := if w = [] then [] else [⟨w, .filename, off⟩]

theorem toksGo_noSep {pl : Plat} : ∀ (w : Str) (off : Nat) (cur : Str), NoSep pl w →
    toksGo pl w off cur = tok1 off (cur ++ w)
  | [], off, cur, _ => by simp [toksGo, tok1]
  | c :: w, off, cur, h => by
    rw [noSep_cons] at h
    simp [toksGo, h.1, toksGo_noSep w off (cur ++ [c]) h.2]

theorem toksGo_sep {pl : Plat} {d : Char} (hd : isSep pl d = true) :
    ∀ (w : Str) (off : Nat) (cur b : Str), NoSep pl w →
    toksGo pl (w ++ d :: b) off cur =
      tok1 off (cur ++ w) ++ toksGo pl b (off + (cur ++ w).length + 1) []
  | [], off, cur, b, _ => by simp [toksGo, tok1, hd]
  | c :: w, off, cur, b, h => by
    rw [noSep_cons] at h
    simp [toksGo, h.1, toksGo_sep hd w off (cur ++ [c]) b h.2]

theorem toks_noSep {pl : Plat} {w : Str} (off : Nat) (h : NoSep pl w) :
    toks pl off w = tok1 off w := by simp [toks, toksGo_noSep w off [] h]

theorem toks_nil (pl : Plat) (off : Nat) : toks pl off [] = [] := by simp [toks, toksGo]

theorem toks_sep_cons {pl : Plat} {d : Char} (hd : isSep pl d = true) (off : Nat) (b : Str) :
    toks pl off (d :: b) = toks pl (off + 1) b := by
  simp [toks, toksGo, hd]

theorem toks_seg {pl : Plat} {d : Char} (hd : isSep pl d = true) {w : Str} (hw : NoSep pl w)
    (off : Nat) (b : Str) :
    toks pl off (w ++ d :: b) = tok1 off w ++ toks pl (off + w.length + 1) b := by
  simp [toks, toksGo_sep hd w off [] b hw]

/-- Induction on the number of separators: a text is separator-free, or a
separator-free run, a separator, and a text. -/
theorem seg_induction {pl : Plat} {P : Str → Prop}
    (h0 : ∀ w, NoSep pl w → P w)
    (h1 : ∀ w d b, NoSep pl w → isSep pl d = true → P b → P (w ++ d :: b)) :
    ∀ s, P s := by
  have key : ∀ (s cur : Str), NoSep pl cur → P (cur ++ s) := by
    intro s
    induction s with
    | nil => intro cur h; simpa using h0 cur h
    | cons c s ih =>
      intro cur h
      by_cases hc : isSep pl c = true
      · exact h1 cur c s h hc (by simpa using ih [] (noSep_nil pl))
      · have := ih (cur ++ [c]) (by
          rw [noSep_append]; exact ⟨h, by simp [NoSep]; simpa using hc⟩)
        simpa using this
  intro s
  simpa using key s [] (noSep_nil pl)

theorem toks_append_sep {pl : Plat} {d : Char} (hd : isSep pl d = true) (a b : Str) :
    ∀ off, toks pl off (a ++ d :: b) = toks pl off a ++ toks pl (off + a.length + 1) b := by
  induction a using seg_induction (pl := pl) with
  | h0 w hw => intro off; rw [toks_seg hd hw, toks_noSep off hw]
  | h1 w e a hw he ih =>
    intro off
    rw [List.append_assoc, List.cons_append, toks_seg he hw, toks_seg he hw, ih]
    simp [Nat.add_assoc, Nat.add_comm, Nat.add_left_comm]

/-- Induction from the right: the last separator splits off the last run. -/
theorem last_seg (pl : Plat) : ∀ s : Str, NoSep pl s ∨
    ∃ a d w, isSep pl d = true ∧ NoSep pl w ∧ s = a ++ d :: w := by
  intro s
  induction s with
  | nil => left; exact noSep_nil pl
  | cons c s ih =>
    rcases ih with h | ⟨a, d, w, hd, hw, rfl⟩
    · by_cases hc : isSep pl c = true
      · right; exact ⟨[], c, s, hc, h, rfl⟩
      · left; rw [noSep_cons]; exact ⟨by simpa using hc, h⟩
    · right; exact ⟨c :: a, d, w, hd, hw, rfl⟩

theorem toks_names_off {pl : Plat} (s : Str) : ∀ off off',
    (toks pl off s).map Comp.name = (toks pl off' s).map Comp.name := by
  induction s using seg_induction (pl := pl) with
  | h0 w hw =>
    intro off off'; rw [toks_noSep off hw, toks_noSep off' hw]; simp only [tok1]; split <;> simp
  | h1 w d b hw hd ih =>
    intro off off'
    rw [toks_seg hd hw, toks_seg hd hw]
    simp only [List.map_append]
    rw [ih (off + w.length + 1) (off' + w.length + 1)]
    congr 1
    simp only [tok1]; split <;> simp

theorem toks_mem {pl : Plat} (s : Str) : ∀ off, ∀ c ∈ toks pl off s,
    c.type = .filename ∧ c.name ≠ [] ∧ NoSep pl c.name ∧ off ≤ c.pos := by
  induction s using seg_induction (pl := pl) with
  | h0 w hw =>
    intro off c hc
    rw [toks_noSep off hw, tok1] at hc
    split at hc
    · simp at hc
    · simp at hc; subst hc; exact ⟨rfl, by assumption, hw, Nat.le_refl _⟩
  | h1 w d b hw hd ih =>
    intro off c hc
    rw [toks_seg hd hw, List.mem_append] at hc
    rcases hc with hc | hc
    · rw [tok1] at hc
      split at hc
      · simp at hc
      · simp at hc; subst hc; exact ⟨rfl, by assumption, hw, Nat.le_refl _⟩
    · have := ih _ c hc
      exact ⟨this.1, this.2.1, this.2.2.1, by have := this.2.2.2; omega⟩

/-- `pos + rest.length = s.length` and the cursor matches. -/
theorem scan_spec (pl : Plat) (s : Str) : ∀ (rest : Str) (pos back : Nat) (acc : List Comp),
    back ≤ pos → pos + rest.length = s.length → s.drop pos = rest →
    let r := scanLoop pl s rest pos back acc
    back ≤ r.1 ∧ r.1 ≤ s.length ∧
    r.2 ++ (if r.1 = s.length then [] else [addFilename s r.1 (s.length - r.1)]) =
      acc ++ toksGo pl rest back ((s.drop back).take (pos - back)) ∧
    (rest ≠ [] → (r.1 = s.length ↔ ∃ c, rest.getLast? = some c ∧ isSep pl c = true))
  | [], pos, back, acc, hbp, hlen, hdrop => by
    simp at hlen
    simp only [scanLoop, toksGo, ne_eq, not_true_eq_false, false_imp_iff, and_true]
    refine ⟨Nat.le_refl _, by omega, ?_⟩
    by_cases hb : back = s.length
    · have : pos - back = 0 := by omega
      simp [hb]
    · have h1 : (List.take (pos - back) (List.drop back s)) ≠ [] := by
        intro h
        have := congrArg List.length h
        simp at this
        omega
      simp [hb, addFilename, hlen]
      omega
  | c :: cs, pos, back, acc, hbp, hlen, hdrop => by
    simp at hlen
    have hcs : s.drop (pos + 1) = cs := by
      have := congrArg List.tail hdrop
      simpa using this
    have hslice : (s.drop back).take (pos - back) ++ [c] = (s.drop back).take (pos + 1 - back) := by
      have h1 : pos + 1 - back = (pos - back) + 1 := by omega
      have h3 : (s.drop back).drop (pos - back) = c :: cs := by
        rw [List.drop_drop, ← hdrop]; congr 1; omega
      have h2 : (s.drop back)[pos - back]? = some c := by
        have := List.head?_drop (l := s.drop back) (i := pos - back)
        rw [h3] at this
        simpa using this.symm
      rw [h1, List.take_add_one, h2]; rfl
    by_cases hc : isSep pl c = true
    · have ih := scan_spec pl s cs (pos + 1) (pos + 1)
        (if back ≠ pos then acc ++ [addFilename s back (pos - back)] else acc)
        (Nat.le_refl _) (by omega) hcs
      simp only [scanLoop, hc, if_true]
      refine ⟨by have := ih.1; omega, ih.2.1, ?_, ?_⟩
      · rw [ih.2.2.1]
        simp only [toksGo, hc, if_true]
        have hl : ((s.drop back).take (pos - back)).length = pos - back := by
          simp; omega
        rw [hl]
        have e1 : back + (pos - back) + 1 = pos + 1 := by omega
        rw [e1]
        have e2 : pos + 1 - (pos + 1) = 0 := by omega
        rw [e2, List.take_zero]
        by_cases hb : back = pos
        · have : pos - back = 0 := by omega
          simp [hb]
        · have h1 : (List.take (pos - back) (List.drop back s)) ≠ [] := by
            intro h
            have := congrArg List.length h
            simp at this
            omega
          simp [hb, h1, addFilename]
      · intro _
        by_cases hcs0 : cs = []
        · subst hcs0
          simp [scanLoop, hc]
          simp at hlen; exact hlen
        · rw [ih.2.2.2 hcs0]
          cases cs with
          | nil => exact absurd rfl hcs0
          | cons x xs => simp [List.getLast?_cons_cons]
    · have ih := scan_spec pl s cs (pos + 1) back acc (by omega) (by omega) hcs
      simp only [scanLoop, hc]
      refine ⟨ih.1, ih.2.1, ?_, ?_⟩
      · rw [← hslice] at ih
        rw [if_neg (by simp), ih.2.2.1]
        simp [toksGo, hc]
      · intro _
        by_cases hcs0 : cs = []
        · subst hcs0
          simp [scanLoop, hc]
          simp at hlen; omega
        · rw [if_neg (by simp), ih.2.2.2 hcs0]
          cases cs with
          | nil => exact absurd rfl hcs0
          | cons x xs => simp [List.getLast?_cons_cons]

end Asap
