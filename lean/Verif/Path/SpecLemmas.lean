import Verif.Path.Split

/-!
# Text-level facts about the specification vocabulary
-/

namespace Asap
open Spec

theorem noSep_posix {s : Str} : NoSep .posix s ↔ '/' ∉ s := by
  constructor
  · intro h hc; have := h _ hc; simp at this
  · intro h c hc; simp; rintro rfl; exact h hc

theorem pieces_noSlash : ∀ {w : Str}, '/' ∉ w → pieces w = [w]
  | [], _ => rfl
  | c :: w, h => by
    simp at h
    simp [pieces, pieces_noSlash h.2, Ne.symm h.1]

theorem pieces_seg : ∀ {w : Str} (b : Str), '/' ∉ w → pieces (w ++ '/' :: b) = w :: pieces b
  | [], b, _ => by simp [pieces]
  | c :: w, b, h => by
    simp at h
    simp [pieces, pieces_seg b h.2, Ne.symm h.1]

theorem filenames_nil : filenames [] = [] := by simp [filenames, pieces]

theorem filenames_noSlash {w : Str} (h : '/' ∉ w) : filenames w = if w = [] then [] else [w] := by
  rw [filenames, pieces_noSlash h]
  by_cases hw : w = [] <;> simp [hw]

theorem filenames_seg {w : Str} (b : Str) (h : '/' ∉ w) :
    filenames (w ++ '/' :: b) = (if w = [] then [] else [w]) ++ filenames b := by
  rw [filenames, pieces_seg b h, filenames]
  by_cases hw : w = [] <;> simp [hw]

theorem slash_induction {P : Str → Prop} (h0 : ∀ w, '/' ∉ w → P w)
    (h1 : ∀ w b, '/' ∉ w → P b → P (w ++ '/' :: b)) : ∀ s, P s := by
  intro s
  refine seg_induction (pl := .posix) (P := P) ?_ ?_ s
  · intro w hw; exact h0 w (noSep_posix.mp hw)
  · intro w d b hw hd hb; simp at hd; subst hd; exact h1 w b (noSep_posix.mp hw) hb

theorem last_slash (s : Str) : '/' ∉ s ∨ ∃ a w, '/' ∉ w ∧ s = a ++ '/' :: w := by
  rcases last_seg .posix s with h | ⟨a, d, w, hd, hw, rfl⟩
  · left; exact noSep_posix.mp h
  · simp at hd; subst hd; right; exact ⟨a, w, noSep_posix.mp hw, rfl⟩

theorem filenames_append_slash (a b : Str) :
    filenames (a ++ '/' :: b) = filenames a ++ filenames b := by
  induction a using slash_induction with
  | h0 w hw => rw [filenames_seg b hw, filenames_noSlash hw]
  | h1 w a hw ih =>
    rw [List.append_assoc, List.cons_append, filenames_seg _ hw, filenames_seg _ hw, ih]
    simp

theorem filenames_slash_cons (b : Str) : filenames ('/' :: b) = filenames b := by
  simpa [filenames_nil] using filenames_append_slash [] b

theorem filenames_slash_end (a : Str) : filenames (a ++ ['/']) = filenames a := by
  simpa [filenames_nil] using filenames_append_slash a []

theorem filenames_mem {s w : Str} (h : w ∈ filenames s) : IsName w := by
  induction s using slash_induction with
  | h0 v hv =>
    rw [filenames_noSlash hv] at h
    split at h
    · simp at h
    · simp at h; subst h; exact ⟨by assumption, hv⟩
  | h1 v b hv ih =>
    rw [filenames_seg b hv, List.mem_append] at h
    rcases h with h | h
    · split at h
      · simp at h
      · simp at h; subst h; exact ⟨by assumption, hv⟩
    · exact ih h

theorem filenames_eq_nil_iff (s : Str) : filenames s = [] ↔ s.all (· == '/') = true := by
  induction s using slash_induction with
  | h0 w hw =>
    rw [filenames_noSlash hw]
    cases w with
    | nil => simp
    | cons c w => simp at hw; simp [Ne.symm hw.1]
  | h1 w b hw ih =>
    rw [filenames_seg b hw]
    simp only [List.append_eq_nil_iff, ih, List.all_append, List.all_cons, Bool.and_eq_true]
    cases w with
    | nil => simp
    | cons c w => simp at hw; simp [Ne.symm hw.1]

theorem toks_names (s : Str) : ∀ off, (toks .posix off s).map Comp.name = filenames s := by
  induction s using slash_induction with
  | h0 w hw =>
    intro off
    rw [toks_noSep off (noSep_posix.mpr hw), filenames_noSlash hw, tok1]; split <;> simp
  | h1 w b hw ih =>
    intro off
    rw [toks_seg (by simp) (noSep_posix.mpr hw), filenames_seg b hw, List.map_append, ih]
    congr 1
    rw [tok1]; split <;> simp

theorem toks_nil_iff_filenames (s : Str) (off : Nat) : toks .posix off s = [] ↔ filenames s = [] := by
  rw [toks_eq_nil_iff, filenames_eq_nil_iff]

theorem head?_append_ne_nil {a b : Str} (h : a ≠ []) : (a ++ b).head? = a.head? := by
  cases a with
  | nil => exact absurd rfl h
  | cons c a => rfl

theorem endsSlash_iff {s : Str} : endsSlash s = true ↔ s.getLast? = some '/' := by
  simp [endsSlash]

theorem startsSlash_iff {s : Str} : startsSlash s = true ↔ s.head? = some '/' := by
  simp [startsSlash]

theorem endsSlash_append_slash (a : Str) : endsSlash (a ++ ['/']) = true := by
  simp [endsSlash]

theorem endsSlash_of_noSlash {a w : Str} (hw : '/' ∉ w) (hne : w ≠ []) :
    endsSlash (a ++ w) = false := by
  rw [Bool.eq_false_iff, ne_eq, endsSlash_iff, List.getLast?_append]
  intro h
  have : w.getLast? = some '/' := by
    cases hg : w.getLast? with
    | none => rw [List.getLast?_eq_none_iff] at hg; exact absurd hg hne
    | some c => simpa [hg] using h
  exact hw (List.mem_of_getLast? this)

/-! ### `dirPart` and `filePart` -/

theorem takeWhile_noSlash : ∀ {w : Str} (r : Str), '/' ∉ w →
    (w ++ r).takeWhile (· != '/') = w ++ r.takeWhile (· != '/')
  | [], _, _ => rfl
  | c :: w, r, h => by
    simp at h
    simp [Ne.symm h.1, takeWhile_noSlash r h.2]

theorem dropWhile_noSlash : ∀ {w : Str} (r : Str), '/' ∉ w →
    (w ++ r).dropWhile (· != '/') = r.dropWhile (· != '/')
  | [], _, _ => rfl
  | c :: w, r, h => by
    simp at h
    simp [Ne.symm h.1, dropWhile_noSlash r h.2]

theorem filePart_noSlash {w : Str} (h : '/' ∉ w) : filePart w = w := by
  have := takeWhile_noSlash (w := w.reverse) [] (by simpa using h)
  simp at this
  simp [filePart, this]

theorem dirPart_noSlash {w : Str} (h : '/' ∉ w) : dirPart w = [] := by
  have := dropWhile_noSlash (w := w.reverse) [] (by simpa using h)
  simp at this
  simp [dirPart, this]

theorem filePart_slash (a : Str) {w : Str} (h : '/' ∉ w) : filePart (a ++ '/' :: w) = w := by
  have := takeWhile_noSlash (w := w.reverse) ('/' :: a.reverse) (by simpa using h)
  simp at this
  simp [filePart, this]

theorem dirPart_slash (a : Str) {w : Str} (h : '/' ∉ w) : dirPart (a ++ '/' :: w) = a ++ ['/'] := by
  have := dropWhile_noSlash (w := w.reverse) ('/' :: a.reverse) (by simpa using h)
  simp at this
  simp [dirPart, this]

theorem dirPart_append_filePart (s : Str) : dirPart s ++ filePart s = s := by
  rcases last_slash s with h | ⟨a, w, hw, rfl⟩
  · simp [dirPart_noSlash h, filePart_noSlash h]
  · simp [dirPart_slash a hw, filePart_slash a hw]

theorem filePart_noSlash' (s : Str) : '/' ∉ filePart s := by
  rcases last_slash s with h | ⟨a, w, hw, rfl⟩
  · rwa [filePart_noSlash h]
  · rwa [filePart_slash a hw]

theorem filenames_dir_file (s : Str) :
    filenames s = filenames (dirPart s) ++ (if filePart s = [] then [] else [filePart s]) := by
  rcases last_slash s with h | ⟨a, w, hw, rfl⟩
  · simp [dirPart_noSlash h, filePart_noSlash h, filenames_noSlash h, filenames_nil]
  · rw [dirPart_slash a hw, filePart_slash a hw, filenames_append_slash, filenames_slash_end,
      filenames_noSlash hw]

theorem filePart_eq_nil_iff (s : Str) : filePart s = [] ↔ s = [] ∨ endsSlash s = true := by
  rcases last_slash s with h | ⟨a, w, hw, rfl⟩
  · rw [filePart_noSlash h]
    constructor
    · intro h; exact Or.inl h
    · rintro (h' | h')
      · exact h'
      · rw [endsSlash_iff] at h'; exact absurd (List.mem_of_getLast? h') h
  · rw [filePart_slash a hw]
    constructor
    · rintro rfl; right; exact endsSlash_append_slash a
    · rintro (h' | h')
      · simp at h'
      · by_cases hne : w = []
        · exact hne
        · have := endsSlash_of_noSlash (a := a ++ ['/']) hw hne
          simp at this
          rw [this] at h'; simp at h'

theorem dirPart_nil_or_slash (s : Str) : dirPart s = [] ∨ ∃ a, dirPart s = a ++ ['/'] := by
  rcases last_slash s with h | ⟨a, w, hw, rfl⟩
  · left; exact dirPart_noSlash h
  · right; exact ⟨a, dirPart_slash a hw⟩

/-! ### `join` and `render` -/

theorem join_cons {w : Str} {ws : List Str} (h : ws ≠ []) : join (w :: ws) = w ++ '/' :: join ws := by
  cases ws with
  | nil => exact absurd rfl h
  | cons v vs => rfl

theorem filenames_join : ∀ {ns : List Str}, (∀ w ∈ ns, IsName w) → filenames (join ns) = ns
  | [], _ => by simp [join, filenames_nil]
  | [w], h => by
    have := h w (by simp)
    simp [join, filenames_noSlash this.2, this.1]
  | w :: v :: vs, h => by
    have hw := h w (by simp)
    have ih := filenames_join (ns := v :: vs) (fun x hx => h x (by simp [hx]))
    rw [join_cons (by simp), filenames_seg _ hw.2, ih]
    simp [hw.1]

theorem join_concat : ∀ {ns : List Str} (w : Str), ns ≠ [] → join (ns ++ [w]) = join ns ++ '/' :: w
  | [], w, h => absurd rfl h
  | [v], w, _ => by simp [join]
  | v :: u :: us, w, _ => by
    have := join_concat (ns := u :: us) w (by simp)
    rw [List.cons_append, join_cons (by simp), this, join_cons (w := v) (ws := u :: us) (by simp)]
    simp

theorem join_append : ∀ {ns ms : List Str}, ns ≠ [] → ms ≠ [] →
    join (ns ++ ms) = join ns ++ '/' :: join ms
  | [], ms, h, _ => absurd rfl h
  | [v], ms, _, h => by simp [join_cons h, join]
  | v :: u :: us, ms, _, h => by
    have := join_append (ns := u :: us) (ms := ms) (by simp) h
    rw [List.cons_append, join_cons (by simp), this, join_cons (w := v) (ws := u :: us) (by simp)]
    simp

theorem join_ne_nil : ∀ {ns : List Str}, (∀ w ∈ ns, IsName w) → ns ≠ [] → join ns ≠ []
  | [], _, h => absurd rfl h
  | [w], hn, _ => (hn w (by simp)).1
  | w :: v :: vs, _, _ => by rw [join_cons (by simp)]; simp

theorem join_head_ne : ∀ {ns : List Str}, (∀ w ∈ ns, IsName w) → (join ns).head? ≠ some '/'
  | [], _ => by simp [join]
  | [w], hn => by
    have hw := hn w (by simp)
    intro h
    exact hw.2 (List.mem_of_head? h)
  | w :: v :: vs, hn => by
    have hw := hn w (by simp)
    rw [join_cons (by simp), head?_append_ne_nil hw.1]
    intro h
    exact hw.2 (List.mem_of_head? h)

theorem join_getLast_ne : ∀ {ns : List Str}, (∀ w ∈ ns, IsName w) → (join ns).getLast? ≠ some '/'
  | [], _ => by simp [join]
  | [w], hn => by
    have hw := hn w (by simp)
    intro h
    exact hw.2 (List.mem_of_getLast? h)
  | w :: v :: vs, hn => by
    have ih := join_getLast_ne (ns := v :: vs) (fun x hx => hn x (by simp [hx]))
    have hne := join_ne_nil (ns := v :: vs) (fun x hx => hn x (by simp [hx])) (by simp)
    rw [join_cons (by simp), List.getLast?_append]
    cases hj : join (v :: vs) with
    | nil => exact absurd hj hne
    | cons c cs =>
      rw [hj] at ih
      rw [List.getLast?_cons_cons]
      cases hg : (c :: cs).getLast? with
      | none => simp at hg
      | some d => rw [hg] at ih; simpa using ih

theorem filenames_render {abs tr : Bool} {ns : List Str} (h : ∀ w ∈ ns, IsName w) :
    filenames (render abs ns tr) = ns := by
  have hj := filenames_join h
  cases abs <;> cases tr <;>
    simp [render, hj, filenames_slash_cons, filenames_slash_end,
      -List.cons_append]

theorem startsSlash_render {abs tr : Bool} {ns : List Str} (h : ∀ w ∈ ns, IsName w)
    (htr : tr = true → ns ≠ []) : startsSlash (render abs ns tr) = abs := by
  cases abs with
  | true => simp [render, startsSlash]
  | false =>
    rw [Bool.eq_false_iff, ne_eq, startsSlash_iff]
    simp only [render, Bool.false_eq_true, if_false, List.nil_append]
    by_cases hns : ns = []
    · subst hns
      cases tr with
      | true => exact absurd rfl (htr rfl)
      | false => simp [join]
    · rw [head?_append_ne_nil (join_ne_nil h hns)]
      exact join_head_ne h

theorem endsSlash_render {abs tr : Bool} {ns : List Str} (h : ∀ w ∈ ns, IsName w)
    (hns : ns ≠ []) : endsSlash (render abs ns tr) = tr := by
  cases tr with
  | true => simp [render, endsSlash]
  | false =>
    rw [Bool.eq_false_iff, ne_eq, endsSlash_iff]
    simp only [render, Bool.false_eq_true, if_false, List.append_nil]
    rw [List.getLast?_append]
    have h1 := join_getLast_ne h
    have h2 := join_ne_nil h hns
    cases hg : (join ns).getLast? with
    | none => rw [List.getLast?_eq_none_iff] at hg; exact absurd hg h2
    | some c => rw [hg] at h1; simpa using h1

theorem elements_render {abs tr : Bool} {ns : List Str} (h : ∀ w ∈ ns, IsName w)
    (htr : tr = true → ns ≠ []) :
    elements (render abs ns tr) =
      (if abs then [['/']] else []) ++ ns ++ (if tr then [[]] else []) := by
  rw [elements, filenames_render h, startsSlash_render h htr]
  by_cases hns : ns = []
  · subst hns
    cases tr with
    | true => exact absurd rfl (htr rfl)
    | false => simp
  · rw [endsSlash_render h hns]
    simp [hns]

end Asap
