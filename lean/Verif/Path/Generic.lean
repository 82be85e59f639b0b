import Verif.Path.Compare

/-!
# Generic format
-/

namespace Asap
open Spec

/-- Normal spelling of a text: filenames joined by single slashes. -/
def genericText (s : Str) : Str :=
  render (startsSlash s) (filenames s) (endsSlash s && !(filenames s).isEmpty)

theorem genericGo_names : ∀ (ns : List Str) (add : Bool) (acc : Str),
    genericGo (ns.map fun n => ⟨n, [], .filename⟩) add acc =
      acc ++ (if add ∧ ns ≠ [] then ['/'] else []) ++ join ns
  | [], add, acc => by simp [genericGo, join]
  | n :: ns, add, acc => by
    rw [List.map_cons, genericGo]
    simp only [decide_true]
    rw [genericGo_names ns]
    cases ns with
    | nil => cases add <;> simp [join]
    | cons m ms => cases add <;> simp [join]

theorem genericGo_keys (s : Str) :
    genericGo ((keysOf s).map fun k : Str × PType => (⟨k.1, [], k.2⟩ : Path)) false [] = genericText s := by
  have key : ∀ (ns : List Str) (acc : Str) (e : Bool), (e = true → ns ≠ []) →
      genericGo ((ns.map (·, PType.filename) ++ (if e then [(([] : Str), PType.filename)] else [])).map
        fun k : Str × PType => (⟨k.1, [], k.2⟩ : Path)) false acc = acc ++ join ns ++ (if e then ['/'] else []) := by
    intro ns acc e he
    have e1 : (ns.map (·, PType.filename) ++ (if e then [(([] : Str), PType.filename)] else [])).map
        (fun k : Str × PType => (⟨k.1, [], k.2⟩ : Path)) =
        (ns ++ (if e then [[]] else [])).map fun n => ⟨n, [], .filename⟩ := by
      cases e <;> simp
    rw [e1, genericGo_names]
    cases e with
    | false => simp
    | true => simp [join_concat [] (he rfl)]
  unfold keysOf genericText render
  have he : (endsSlash s = true ∧ filenames s ≠ []) ↔ (endsSlash s && !(filenames s).isEmpty) = true := by
    simp
  simp only [he]
  have hne : (endsSlash s && !(filenames s).isEmpty) = true → filenames s ≠ [] := by simp
  cases hst : startsSlash s
  · simpa using key (filenames s) [] _ hne
  · have := key (filenames s) ['/'] _ hne
    simp only [if_true, List.cons_append, List.nil_append, List.map_cons, genericGo]
    simpa using this

section
variable {p : Path}

theorem Shape.genericString (h : Shape p) : genericString p = genericText p.pathname := by
  rw [← genericGo_keys]
  cases h with
  | dflt => rfl
  | empt => rfl
  | file s hs =>
    simp [Asap.genericString, Path.elems, Path.isEmpty, hs.1, keysOf_name hs, genericGo]
  | root => rfl
  | multi s cs h1 h2 h3 =>
    rw [← h3]
    simp only [Asap.genericString, Path.elems, List.map_map]
    rfl

end

theorem genericText_names (s : Str) : ∀ w ∈ filenames s, IsName w := fun _ h => filenames_mem h

theorem filenames_genericText (s : Str) : filenames (genericText s) = filenames s :=
  filenames_render (genericText_names s)

theorem startsSlash_genericText (s : Str) : startsSlash (genericText s) = startsSlash s :=
  startsSlash_render (genericText_names s) (by simp)

theorem elements_genericText (s : Str) : elements (genericText s) = elements s := by
  rw [genericText, elements_render (genericText_names s) (by simp), elements]
  simp

theorem genericText_eq_iff (s t : Str) : genericText s = genericText t ↔ elements s = elements t := by
  constructor
  · intro h; rw [← elements_genericText s, h, elements_genericText]
  · intro h
    have h1 : startsSlash s = startsSlash t := by
      have := congrArg List.head? h
      rw [← keysOf_names, ← keysOf_names, List.head?_map, List.head?_map, keysOf_head, keysOf_head] at this
      have aux : ∀ u : Str, ((filenames u).head?.map (·, PType.filename)).map Prod.fst ≠ some ['/'] := by
        intro u hu
        cases hf : (filenames u).head? with
        | none => simp [hf] at hu
        | some w =>
          simp [hf] at hu
          have := (filenames_mem (List.mem_of_head? hf)).2
          simp [hu] at this
      cases hs : startsSlash s <;> cases ht : startsSlash t
      · rfl
      · exfalso; simp only [hs, ht] at this; exact aux s this
      · exfalso; simp only [hs, ht] at this; exact aux t this.symm
      · rfl
    have h2 : filenames s ++ (if endsSlash s = true ∧ filenames s ≠ [] then [[]] else []) =
        filenames t ++ (if endsSlash t = true ∧ filenames t ≠ [] then [[]] else []) := by
      unfold elements at h
      rw [h1, List.append_assoc, List.append_assoc] at h
      exact List.append_cancel_left h
    have hfil : ∀ u : Str, (filenames u ++ (if endsSlash u = true ∧ filenames u ≠ [] then [[]] else [])).filter
        (· ≠ []) = filenames u := by
      intro u
      rw [List.filter_append]
      have a1 : (filenames u).filter (· ≠ []) = filenames u := by
        rw [List.filter_eq_self]
        intro w hw
        simpa using (filenames_mem hw).1
      rw [a1]
      split <;> simp
    have h3 : filenames s = filenames t := by
      rw [← hfil s, ← hfil t, h2]
    have h4 : (endsSlash s && !(filenames s).isEmpty) = (endsSlash t && !(filenames t).isEmpty) := by
      rw [h3] at h2
      have := List.append_cancel_left h2
      rw [h3]
      by_cases hx : filenames t = []
      · simp [hx]
      · simp only [hx, ne_eq, not_false_eq_true, and_true] at this
        cases he1 : endsSlash s <;> cases he2 : endsSlash t <;> simp [he1, he2] at this ⊢
    rw [genericText, genericText, h1, h3, ← h3, h4, h3]

/-- No two consecutive slashes, by recursion. -/
def NoDouble : Str → Prop
  | [] => True
  | [_] => True
  | a :: b :: s => ¬ (a = '/' ∧ b = '/') ∧ NoDouble (b :: s)

theorem noDouble_iff : ∀ s : Str, NoDouble s ↔ ¬ ['/', '/'] <:+: s
  | [] => by simp [NoDouble]
  | [a] => by
    simp only [NoDouble, true_iff]
    intro h
    have := h.length_le
    simp at this
  | a :: b :: s => by
    rw [NoDouble, noDouble_iff (b :: s), List.infix_cons_iff (l₂ := b :: s)]
    have : (['/', '/'] <+: a :: b :: s) ↔ (a = '/' ∧ b = '/') := by
      simp [eq_comm]
    rw [this, not_or]

theorem noDouble_name : ∀ {w : Str}, '/' ∉ w → NoDouble w
  | [], _ => trivial
  | [_], _ => trivial
  | a :: b :: w, h => by
    simp at h
    refine ⟨fun h' => h.1 h'.1.symm, noDouble_name (by simp [h])⟩

theorem noDouble_append : ∀ {a b : Str}, NoDouble a → NoDouble b →
    ¬ (a.getLast? = some '/' ∧ b.head? = some '/') → NoDouble (a ++ b)
  | [], b, _, hb, _ => hb
  | [x], [], _, _, _ => trivial
  | [x], y :: b, _, hb, h => by
    refine ⟨fun h' => h ?_, hb⟩
    simp [h'.1, h'.2]
  | x :: y :: a, b, ha, hb, h => by
    refine ⟨ha.1, ?_⟩
    exact noDouble_append (a := y :: a) ha.2 hb (by simpa [List.getLast?_cons_cons] using h)

theorem noDouble_join : ∀ {ns : List Str}, (∀ w ∈ ns, IsName w) → NoDouble (join ns)
  | [], _ => trivial
  | [w], h => noDouble_name (h w (by simp)).2
  | w :: v :: vs, h => by
    have hw := h w (by simp)
    have hvs : ∀ x ∈ v :: vs, IsName x := fun x hx => h x (by simp at hx ⊢; right; exact hx)
    rw [join_cons (by simp)]
    apply noDouble_append (noDouble_name hw.2)
    · have := noDouble_append (a := ['/']) (b := join (v :: vs)) trivial (noDouble_join hvs)
        (fun h' => join_head_ne hvs h'.2)
      simpa using this
    · intro h'
      exact hw.2 (List.mem_of_getLast? h'.1)

theorem noDouble_render {abs tr : Bool} {ns : List Str} (h : ∀ w ∈ ns, IsName w)
    (htr : tr = true → ns ≠ []) : NoDouble (render abs ns tr) := by
  unfold render
  apply noDouble_append
  · apply noDouble_append
    · split <;> trivial
    · exact noDouble_join h
    · intro h'; exact join_head_ne h h'.2
  · split <;> trivial
  · intro h'
    by_cases htr' : tr = true
    · have hne := htr htr'
      have := h'.1
      rw [List.getLast?_append] at this
      have hj := join_getLast_ne h
      cases hx : (join ns).getLast? with
      | none => rw [List.getLast?_eq_none_iff] at hx; exact join_ne_nil h hne hx
      | some c => rw [hx] at this hj; simp at this; exact hj (by simp [this])
    · simp [htr'] at h'

theorem noDouble_genericText (s : Str) : ¬ ['/', '/'] <:+: genericText s := by
  rw [← noDouble_iff]
  exact noDouble_render (genericText_names s) (by simp)

end Asap
