import Verif.Path.Loose

/-!
# Comparison and hashing in terms of element sequences
-/

namespace Asap
open Spec

theorem strLt_iff : ∀ (a b : Str), strLt a b = true ↔ textLt a b
  | [], [] => by simp [strLt, textLt, lexLt]
  | [], _ :: _ => by simp [strLt, textLt, lexLt]
  | _ :: _, [] => by simp [strLt, textLt, lexLt]
  | a :: as, b :: bs => by
    have ih := strLt_iff as bs
    unfold textLt at ih
    have hv : ∀ x y : Char, x.val < y.val ↔ x.toNat < y.toNat := fun x y => by
      rw [UInt32.lt_iff_toNat_lt]; rfl
    simp only [strLt, textLt, lexLt, hv]
    by_cases h1 : a.toNat < b.toNat
    · simp [h1]
    · by_cases h2 : b.toNat < a.toNat
      · have : a ≠ b := by rintro rfl; omega
        simp [h1, h2, this]
      · have : a = b := by
          apply Char.ext
          apply UInt32.toNat_inj.mp
          show a.toNat = b.toNat
          omega
        subst this
        simp [ih]

/-- `lexLt` of a strict total order is one. -/
structure StrictTotal {α : Type} (lt : α → α → Prop) : Prop where
  irrefl : ∀ a, ¬ lt a a
  trans : ∀ a b c, lt a b → lt b c → lt a c
  tri : ∀ a b, lt a b ∨ a = b ∨ lt b a

theorem StrictTotal.asymm {α : Type} {lt : α → α → Prop} (h : StrictTotal lt) {a b : α}
    (h1 : lt a b) : ¬ lt b a := fun h2 => h.irrefl a (h.trans a b a h1 h2)

theorem lexLt_strictTotal {α : Type} {lt : α → α → Prop} (h : StrictTotal lt) :
    StrictTotal (lexLt lt) where
  irrefl := by
    intro a
    induction a with
    | nil => simp [lexLt]
    | cons x xs ih => simp [lexLt, h.irrefl, ih]
  trans := by
    intro a
    induction a with
    | nil =>
      intro b c h1 h2
      cases c with
      | nil => cases b <;> simp [lexLt] at h2
      | cons _ _ => simp [lexLt]
    | cons x xs ih =>
      intro b c h1 h2
      cases b with
      | nil => simp [lexLt] at h1
      | cons y ys =>
        cases c with
        | nil => simp [lexLt] at h2
        | cons z zs =>
          simp only [lexLt] at h1 h2 ⊢
          rcases h1 with h1 | ⟨rfl, h1⟩
          · rcases h2 with h2 | ⟨rfl, h2⟩
            · exact Or.inl (h.trans _ _ _ h1 h2)
            · exact Or.inl h1
          · rcases h2 with h2 | ⟨rfl, h2⟩
            · exact Or.inl h2
            · exact Or.inr ⟨rfl, ih _ _ h1 h2⟩
  tri := by
    intro a
    induction a with
    | nil => intro b; cases b <;> simp [lexLt]
    | cons x xs ih =>
      intro b
      cases b with
      | nil => simp [lexLt]
      | cons y ys =>
        simp only [lexLt]
        rcases h.tri x y with h1 | rfl | h1
        · exact Or.inl (Or.inl h1)
        · rcases ih ys with h2 | rfl | h2
          · exact Or.inl (Or.inr ⟨rfl, h2⟩)
          · exact Or.inr (Or.inl rfl)
          · exact Or.inr (Or.inr (Or.inr ⟨rfl, h2⟩))
        · exact Or.inr (Or.inr (Or.inl h1))

theorem charLt_strictTotal : StrictTotal (fun a b : Char => a.toNat < b.toNat) where
  irrefl := by intro a; omega
  trans := by intro a b c; omega
  tri := by
    intro a b
    rcases Nat.lt_trichotomy a.toNat b.toNat with h | h | h
    · exact Or.inl h
    · right; left
      apply Char.ext
      apply UInt32.toNat_inj.mp
      exact h
    · exact Or.inr (Or.inr h)

theorem textLt_strictTotal : StrictTotal textLt := lexLt_strictTotal charLt_strictTotal

/-- The order on element sequences. -/
abbrev seqLt : List Str → List Str → Prop := lexLt textLt

theorem seqLt_strictTotal : StrictTotal seqLt := lexLt_strictTotal textLt_strictTotal

theorem doCompare_spec : ∀ (as bs : List Str) (k : Int), 0 < k →
    (doCompare as bs k < 0 ↔ seqLt as bs) ∧ (doCompare as bs k = 0 ↔ as = bs) ∧
    (0 < doCompare as bs k ↔ seqLt bs as)
  | [], [], k, h => by simp [doCompare, seqLt, lexLt]
  | [], b :: bs, k, h => by simp [doCompare, seqLt, lexLt]; omega
  | a :: as, [], k, h => by simp [doCompare, seqLt, lexLt]; omega
  | a :: as, b :: bs, k, h => by
    have ih := doCompare_spec as bs (k + 1) (by omega)
    have tt := textLt_strictTotal
    have e1 := strLt_iff a b
    have e2 := strLt_iff b a
    simp only [doCompare, seqLt, lexLt, List.cons.injEq]
    by_cases h1 : textLt a b
    · have h2 := tt.asymm h1
      have h3 : a ≠ b := by rintro rfl; exact tt.irrefl _ h1
      rw [eq_true h1] at e1
      simp [e1, h1, h2, h3, Ne.symm h3]; omega
    · by_cases h2 : textLt b a
      · have h3 : a ≠ b := by rintro rfl; exact tt.irrefl _ h2
        rw [eq_false h1] at e1
        rw [eq_true h2] at e2
        simp [e1, e2, h1, h2, h3, Ne.symm h3]; omega
      · have h3 : a = b := by
          rcases tt.tri a b with h | h | h
          · exact absurd h h1
          · exact h
          · exact absurd h h2
        subst h3
        rw [eq_false h1] at e1
        simpa [e1, tt.irrefl a] using ih

theorem strCompare_spec (a b : Str) :
    (strCompare a b < 0 ↔ seqLt [a] [b]) ∧ (strCompare a b = 0 ↔ [a] = [b]) ∧
    (0 < strCompare a b ↔ seqLt [b] [a]) := by
  have := doCompare_spec [a] [b] 1 (by omega)
  simpa [doCompare, strCompare] using this

/-- The elements of an empty-text single-element path seen by `compare`: its text
counts as one (empty) element. -/
theorem seq_empty {ns : List Str} (h : ns ≠ []) (h' : ns.head? ≠ some []) :
    (seqLt [[]] ns ↔ seqLt [] ns) ∧ (¬ [[]] = ns) ∧ (seqLt ns [[]] ↔ seqLt ns []) := by
  cases ns with
  | nil => exact absurd rfl h
  | cons n ns =>
    cases n with
    | nil => simp at h'
    | cons c n => simp [seqLt, lexLt, textLt]

theorem elements_head_ne (s : Str) : (elements s).head? ≠ some [] := by
  rw [← keysOf_names, List.head?_map, keysOf_head]
  split
  · simp
  · cases hf : (filenames s).head? with
    | none => simp
    | some w =>
      have := (filenames_mem (List.mem_of_head? hf)).1
      simpa using this

theorem elements_ne_nil {s : Str} (h : s ≠ []) : elements s ≠ [] := by
  rw [← keysOf_names]; simp [keysOf_ne_nil h]

section
variable {p q : Path}

theorem Shape.comps_names (h : Shape p) (ht : p.type = .multi) :
    p.comps.map Comp.name = elements p.pathname := by
  have := h.names
  rw [← this]
  simp [Path.names, Path.elems, ht, Comp.toPath]

/-- Single-element representation: one element, or the empty text. -/
theorem Shape.single (h : Shape p) (ht : p.type ≠ .multi) (hne : p.pathname ≠ []) :
    elements p.pathname = [p.pathname] := by
  have := h.names
  rw [← this]
  cases h with
  | dflt => exact absurd rfl ht
  | empt => exact absurd rfl hne
  | file s hs => simp [Path.names, Path.elems, Path.isEmpty, hs.1]
  | root => rfl
  | multi => exact absurd rfl ht

/-- Sign of `compare`. -/
theorem Shape.compare (hp : Shape p) (hq : Shape q) :
    (p.compare q < 0 ↔ seqLt (elements p.pathname) (elements q.pathname)) ∧
    (p.compare q = 0 ↔ elements p.pathname = elements q.pathname) ∧
    (0 < p.compare q ↔ seqLt (elements q.pathname) (elements p.pathname)) := by
  unfold Path.compare
  by_cases he : (p.isEmpty && q.isEmpty) = true
  · simp [Path.isEmpty] at he
    simp [Path.isEmpty, he.1, he.2, elements_nil, seqLt, lexLt]
  · rw [if_neg he]
    simp [Path.isEmpty] at he
    by_cases hpt : p.type = .multi
    · by_cases hqt : q.type = .multi
      · have e : compareTypes p q = doCompare (elements p.pathname) (elements q.pathname) 1 := by
          rw [compareTypes, hpt, hqt, hp.comps_names hpt, hq.comps_names hqt]
        rw [e]
        exact doCompare_spec _ _ 1 (by omega)
      · have hd := doCompare_spec (elements p.pathname) [q.pathname] 1 (by omega)
        have e : compareTypes p q =
              doCompare (elements p.pathname) [q.pathname] 1 := by
          rw [compareTypes, hpt, hp.comps_names hpt]
          cases hqt' : q.type <;> first | exact absurd hqt' hqt | rfl
        rw [e]
        by_cases hqe : q.pathname = []
        · have hpe : p.pathname ≠ [] := fun h => he h hqe
          rw [hqe] at hd
          rw [hqe, elements_nil]
          have hs := seq_empty (elements_ne_nil hpe) (elements_head_ne p.pathname)
          refine ⟨hd.1.trans hs.2.2, ?_, hd.2.2.trans hs.1⟩
          constructor
          · intro h; exact absurd (hd.2.1.mp h).symm hs.2.1
          · intro h; exact absurd h (elements_ne_nil hpe)
        · rw [hq.single hqt hqe]; exact hd
    · by_cases hqt : q.type = .multi
      · have hd := doCompare_spec [p.pathname] (elements q.pathname) 1 (by omega)
        have e : compareTypes p q =
              doCompare [p.pathname] (elements q.pathname) 1 := by
          rw [compareTypes, hqt, hq.comps_names hqt]
          cases hpt' : p.type <;> first | exact absurd hpt' hpt | rfl
        rw [e]
        by_cases hpe : p.pathname = []
        · have hqe : q.pathname ≠ [] := he hpe
          rw [hpe] at hd
          rw [hpe, elements_nil]
          have hs := seq_empty (elements_ne_nil hqe) (elements_head_ne q.pathname)
          refine ⟨hd.1.trans hs.1, ?_, hd.2.2.trans hs.2.2⟩
          constructor
          · intro h; exact absurd (hd.2.1.mp h) hs.2.1
          · intro h; exact absurd h.symm (elements_ne_nil hqe)
        · rw [hp.single hpt hpe]; exact hd
      · have hd := strCompare_spec p.pathname q.pathname
        have e : compareTypes p q =
              strCompare p.pathname q.pathname := by
          rw [compareTypes]
          cases hpt' : p.type <;> first | exact absurd hpt' hpt | (cases hqt' : q.type <;> first | exact absurd hqt' hqt | rfl)
        rw [e]
        by_cases hpe : p.pathname = []
        · have hqe : q.pathname ≠ [] := he hpe
          rw [hq.single hqt hqe]
          rw [hpe] at hd
          rw [hpe, elements_nil]
          have hs := seq_empty (ns := [q.pathname]) (by simp) (by simpa using hqe)
          refine ⟨hd.1.trans hs.1, ?_, hd.2.2.trans hs.2.2⟩
          constructor
          · intro h; exact absurd (hd.2.1.mp h) hs.2.1
          · intro h; simp at h
        · rw [hp.single hpt hpe]
          by_cases hqe : q.pathname = []
          · rw [hqe] at hd
            rw [hqe, elements_nil]
            have hs := seq_empty (ns := [p.pathname]) (by simp) (by simpa using hpe)
            refine ⟨hd.1.trans hs.2.2, ?_, hd.2.2.trans hs.1⟩
            constructor
            · intro h; exact absurd (hd.2.1.mp h).symm hs.2.1
            · intro h; simp at h
          · rw [hq.single hqt hqe]; exact hd

theorem Shape.eqv (hp : Shape p) (hq : Shape q) :
    p.eqv q = true ↔ elements p.pathname = elements q.pathname := by
  simp only [Path.eqv, beq_iff_eq]
  exact (hp.compare hq).2.1

theorem Shape.lt (hp : Shape p) (hq : Shape q) :
    p.lt q = true ↔ seqLt (elements p.pathname) (elements q.pathname) := by
  simp only [Path.lt, decide_eq_true_eq]
  exact (hp.compare hq).1

end

end Asap
