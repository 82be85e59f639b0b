import Verif.Path.Normal
import Verif.Path.NormSpec

/-!
# The stack machine computes the specified normal form
-/

namespace Asap
open Spec

/-- Invariant of the stack: no `.`, `..` only at the front and only if relative. -/
structure NSt.Inv (st : NSt) : Prop where
  noDot : dot ∉ st.ns
  ups : ∀ a b, st.ns = a ++ dotdot :: b → ∀ w ∈ a, w = dotdot
  rel : dotdot ∈ st.ns → st.abs = false

theorem ups_append {ns : List Str} {e : Str}
    (h : ∀ a b, ns = a ++ dotdot :: b → ∀ w ∈ a, w = dotdot) (he : e = dotdot → ∀ w ∈ ns, w = dotdot) :
    ∀ a b, ns ++ [e] = a ++ dotdot :: b → ∀ w ∈ a, w = dotdot := by
  intro a b hab w hw
  rcases eq_nil_or_snoc b with rfl | ⟨b', x, rfl⟩
  · have h2 := List.append_inj' hab rfl
    have : e = dotdot := by simpa using h2.2
    apply he this
    rw [h2.1]; exact hw
  · have e2 : a ++ dotdot :: (b' ++ [x]) = (a ++ dotdot :: b') ++ [x] := by simp
    rw [e2] at hab
    have h2 := List.append_inj' hab rfl
    exact h a b' h2.1 w hw

theorem ups_prefix {ms ns : List Str}
    (h : ∀ a b, ms ++ ns = a ++ dotdot :: b → ∀ w ∈ a, w = dotdot) :
    ∀ a b, ms = a ++ dotdot :: b → ∀ w ∈ a, w = dotdot := by
  intro a b hab
  exact h a (b ++ ns) (by rw [hab]; simp)

theorem NSt.Inv.step {st : NSt} (h : st.Inv) (e : Str) : (st.step e).Inv := by
  unfold NSt.step
  split
  · exact ⟨by simp, by simp, by simp⟩
  · split
    · exact ⟨h.noDot, h.ups, h.rel⟩
    · rename_i h1 h2
      split
      · rename_i h3
        subst h3
        rcases eq_nil_or_snoc st.ns with hns | ⟨ms, w, hns⟩
        · rw [hns]
          simp only [List.getLast?_nil]
          split
          · exact ⟨by simp, by simp, by simp⟩
          · exact ⟨by simp [dot], by simpa using ups_append (ns := []) (e := dotdot) (by simp) (by simp), by simp⟩
        · rw [hns]
          simp only [List.getLast?_concat, List.dropLast_concat]
          have hd := h.noDot
          have hu := h.ups
          have hr := h.rel
          rw [hns] at hd hu hr
          split
          · rename_i hw
            subst hw
            refine ⟨?_, ?_, ?_⟩
            · simp at hd
              simp [hd]
            · refine ups_append hu ?_
              intro _ v hv
              simp at hv
              rcases hv with hv | hv
              · exact hu ms [] rfl v hv
              · exact hv
            · intro _; exact hr (by simp)
          · refine ⟨?_, ups_prefix hu, ?_⟩
            · simp at hd; exact hd.1
            · intro hm; exact hr (by simp [hm])
      · rename_i h3
        refine ⟨?_, ups_append h.ups (fun h4 => absurd h4 h3), ?_⟩
        · simp at h2
          simp [h.noDot, Ne.symm h2.2]
        · intro hm
          simp at hm
          rcases hm with hm | hm
          · exact h.rel hm
          · exact absurd hm.symm h3

theorem NSt.Inv.fold {st : NSt} (h : st.Inv) (l : List Str) : (l.foldl NSt.step st).Inv := by
  induction l generalizing st with
  | nil => exact h
  | cons e l ih => exact ih (h.step e)

theorem NSt.init_inv : NSt.init.Inv := ⟨by simp [NSt.init], by simp [NSt.init], by simp [NSt.init]⟩

/-! ### The fold from the root -/

/-- Run the machine on the elements after the root. -/
def run (abs : Bool) (l : List Str) : NSt := l.foldl NSt.step ⟨abs, [], false⟩

theorem elements_rel (s : Str) :
    elements s = (if startsSlash s then [['/']] else []) ++ relElements s := by
  simp [elements, relElements]

theorem fold_run (s : Str) :
    (elements s).foldl NSt.step NSt.init = run (startsSlash s) (relElements s) := by
  rw [elements_rel, run]
  cases startsSlash s
  · rfl
  · simp [NSt.step, NSt.init]

/-- Elements after the root: filenames and maybe a final empty entry. -/
def RelWf (l : List Str) : Prop :=
  ∃ (ns : List Str) (tr : Bool), (∀ w ∈ ns, IsName w) ∧ l = ns ++ (if tr then [[]] else [])

theorem relElements_wf (s : Str) : RelWf (relElements s) := by
  refine ⟨filenames s, endsSlash s && !(filenames s).isEmpty, fun w h => filenames_mem h, ?_⟩
  simp [relElements]

theorem RelWf.mem {l : List Str} (h : RelWf l) {w : Str} (hw : w ∈ l) : w = [] ∨ IsName w := by
  obtain ⟨ns, tr, h1, rfl⟩ := h
  simp at hw
  rcases hw with hw | hw
  · exact Or.inr (h1 w hw)
  · cases tr <;> simp at hw; exact Or.inl hw

theorem Spec.IsName.ne_slash {w : Str} (h : IsName w) : w ≠ ['/'] := by
  rintro rfl; exact h.2 (by simp)

/-- Well-formedness of machine states is kept. -/
theorem NSt.Wf.step {st : NSt} (h : st.Wf) {e : Str} (he : e = [] ∨ IsName e) : (st.step e).Wf := by
  unfold NSt.step
  split
  · exact ⟨by simp, by simp⟩
  · split
    · exact ⟨h.names, by simp⟩
    · rename_i h1 h2
      have hen : IsName e := by
        rcases he with he | he
        · simp [he] at h2
        · exact he
      split
      · rcases eq_nil_or_snoc st.ns with hns | ⟨ms, w, hns⟩
        · rw [hns]
          simp only [List.getLast?_nil]
          split
          · exact ⟨by simp, by simp⟩
          · exact ⟨by simpa using hen, by simp⟩
        · rw [hns]
          simp only [List.getLast?_concat, List.dropLast_concat]
          have hn := h.names
          rw [hns] at hn
          split
          · refine ⟨?_, by simp⟩
            intro v hv
            rw [List.mem_append] at hv
            rcases hv with hv | hv
            · exact hn v hv
            · simp at hv; subst hv; exact hen
          · exact ⟨fun v hv => hn v (by simp [hv]), by simp⟩
      · refine ⟨?_, by simp⟩
        intro v hv
        simp at hv
        rcases hv with hv | rfl
        · exact h.names v hv
        · exact hen

theorem NSt.Wf.fold {l : List Str} : ∀ {st : NSt}, st.Wf → (∀ e ∈ l, e = [] ∨ IsName e) →
    (l.foldl NSt.step st).Wf := by
  induction l with
  | nil => intro st h _; exact h
  | cons e l ih =>
    intro st h he
    exact ih (h.step (he e (by simp))) (fun x hx => he x (by simp [hx]))

theorem run_wf (abs : Bool) {l : List Str} (h : RelWf l) : (run abs l).Wf :=
  NSt.Wf.fold ⟨by simp, by simp⟩ (fun _ he => h.mem he)

theorem run_inv (abs : Bool) (l : List Str) : (run abs l).Inv :=
  NSt.Inv.fold ⟨by simp, by simp, by simp⟩ l

theorem step_abs (st : NSt) {e : Str} (h : e ≠ ['/']) : (st.step e).abs = st.abs := by
  unfold NSt.step
  rw [if_neg h]
  split
  · rfl
  · split
    · split
      · split
        · rename_i h; simp [h]
        · rename_i h; simp at h; simp [h]
      · split <;> rfl
    · rfl

theorem fold_abs {l : List Str} : ∀ (st : NSt), (∀ e ∈ l, e ≠ ['/']) →
    (l.foldl NSt.step st).abs = st.abs := by
  induction l with
  | nil => intro st _; rfl
  | cons e l ih =>
    intro st he
    rw [List.foldl_cons, ih _ (fun x hx => he x (by simp [hx])), step_abs _ (he e (by simp))]

theorem RelWf.ne_slash {l : List Str} (h : RelWf l) : ∀ e ∈ l, e ≠ ['/'] := by
  intro e he
  rcases h.mem he with h | h
  · subst h; simp
  · exact h.ne_slash

theorem run_abs (abs : Bool) {l : List Str} (h : RelWf l) : (run abs l).abs = abs :=
  fold_abs _ h.ne_slash

/-! ### Normal form -/

theorem normalText_eq (s : Str) (hs : s ≠ []) :
    normalText s = (if (run (startsSlash s) (relElements s)).finish.text = [] then dot
      else (run (startsSlash s) (relElements s)).finish.text) := by
  simp only [normalText, hs, if_false, fold_run]

theorem NSt.finish_ns (st : NSt) : st.finish.ns = st.ns := by unfold NSt.finish; split <;> rfl

theorem NSt.finish_abs (st : NSt) : st.finish.abs = st.abs := by unfold NSt.finish; split <;> rfl

theorem NSt.Wf.finish {st : NSt} (h : st.Wf) : st.finish.Wf := by
  unfold NSt.finish; split
  · exact ⟨h.names, by simp⟩
  · exact h

theorem NSt.Inv.finish {st : NSt} (h : st.Inv) : st.finish.Inv := by
  unfold NSt.finish; split
  · exact ⟨h.noDot, h.ups, h.rel⟩
  · exact h

theorem isNormal_dot : IsNormal dot where
  noDouble := by rw [← noDouble_iff]; trivial
  noDot := fun _ => rfl
  upsFirst := by
    intro a b h
    have : filenames dot = [dot] := by decide
    rw [this] at h
    cases a with
    | nil => simp
    | cons x a => simp at h
  upsRel := fun _ => rfl
  noUpTrail := fun _ => rfl

theorem isNormal_text {st : NSt} (hw : st.Wf) (hi : st.Inv)
    (hl : st.ns.getLast? = some dotdot → st.tr = false) : IsNormal st.text := by
  have hf := filenames_render (abs := st.abs) (tr := st.tr) hw.names
  have hs := startsSlash_render (abs := st.abs) hw.names hw.trail
  unfold NSt.text
  refine ⟨?_, ?_, ?_, ?_, ?_⟩
  · rw [← noDouble_iff]; exact noDouble_render hw.names hw.trail
  · rw [hf]; intro h; exact absurd h hi.noDot
  · rw [hf]; exact hi.ups
  · rw [hf, hs]; exact hi.rel
  · rw [hf]
    intro h
    have hne : st.ns ≠ [] := by intro h'; rw [h'] at h; simp at h
    rw [endsSlash_render hw.names hne]
    exact hl h

theorem finish_trail {st : NSt} : st.finish.ns.getLast? = some dotdot → st.finish.tr = false := by
  rw [NSt.finish_ns]
  intro h
  simp [NSt.finish, h]

theorem normalText_isNormal (s : Str) : IsNormal (normalText s) := by
  by_cases hs : s = []
  · subst hs
    have : normalText [] = [] := by simp [normalText]
    rw [this]
    exact ⟨by rw [← noDouble_iff]; trivial, by simp [filenames_nil], by simp [filenames_nil], by simp [filenames_nil],
      by simp [filenames_nil]⟩
  · rw [normalText_eq s hs]
    split
    · exact isNormal_dot
    · exact isNormal_text (run_wf _ (relElements_wf s)).finish (run_inv _ _).finish finish_trail

/-! ### Normal texts are unchanged -/

theorem genericText_of_noDouble : ∀ (s : Str), NoDouble s → genericText s = s := by
  intro s
  induction s using slash_induction with
  | h0 w hw =>
    intro _
    by_cases h0 : w = []
    · subst h0; rfl
    · simp [genericText, startsSlash_name hw, endsSlash_name hw, filenames_noSlash hw, h0, render, join]
  | h1 w b hw ih =>
    intro hnd
    have hb : NoDouble b ∧ startsSlash b = false := by
      rw [noDouble_iff] at hnd
      constructor
      · rw [noDouble_iff]
        intro h
        exact hnd (h.trans ⟨w ++ ['/'], [], by simp⟩)
      · cases b with
        | nil => rfl
        | cons c b =>
          rw [Bool.eq_false_iff]
          intro h
          simp [startsSlash] at h
          subst h
          exact hnd ⟨w, b, by simp⟩
    have ihb := ih hb.1
    unfold genericText at ihb ⊢
    rw [hb.2] at ihb
    have hes : b ≠ [] → endsSlash (w ++ '/' :: b) = endsSlash b := by
      intro hne
      unfold endsSlash
      rw [List.getLast?_append]
      cases b with
      | nil => exact absurd rfl hne
      | cons c b =>
        rw [List.getLast?_cons_cons]
        cases h : (c :: b).getLast? with
        | none => simp at h
        | some x => rfl
    rw [filenames_append_slash, filenames_noSlash hw]
    by_cases hb0 : b = []
    · subst hb0
      have : endsSlash (w ++ ['/']) = true := by simp [endsSlash]
      rw [this, filenames_nil]
      by_cases hw0 : w = []
      · subst hw0; rfl
      · have hst : startsSlash (w ++ ['/']) = false := by
          have := startsSlash_name hw
          cases w with
          | nil => exact absurd rfl hw0
          | cons x w => simpa [startsSlash] using this
        simp [hst, hw0, render, join]
    · rw [hes hb0]
      have hfb : filenames b ≠ [] := by
        intro h
        rw [filenames_eq_nil_iff] at h
        cases b with
        | nil => exact hb0 rfl
        | cons c b => simp at h; simp [startsSlash, h.1] at hb
      by_cases hw0 : w = []
      · subst hw0
        simp [startsSlash, render, hfb] at ihb ⊢
        exact ihb
      · have hst : startsSlash (w ++ '/' :: b) = false := by
          have := startsSlash_name hw
          cases w with
          | nil => exact absurd rfl hw0
          | cons x w => simpa [startsSlash] using this
        rw [hst]
        simp only [hw0, if_false, List.singleton_append]
        simp only [render] at ihb ⊢
        rw [join_cons hfb]
        simp [hfb] at ihb ⊢
        exact ihb

/-- Running over an already normal list of filenames changes nothing. -/
theorem fold_names : ∀ (ns pre : List Str) (abs tr : Bool), (∀ w ∈ ns, IsName w) →
    dot ∉ ns → (∀ a b, pre ++ ns = a ++ dotdot :: b → ∀ w ∈ a, w = dotdot) →
    (dotdot ∈ ns → abs = false) →
    ns.foldl NSt.step ⟨abs, pre, tr⟩ = ⟨abs, pre ++ ns, if ns = [] then tr else false⟩
  | [], pre, abs, tr, _, _, _, _ => by simp
  | w :: ns, pre, abs, tr, hn, hd, hu, hr => by
    have hw := hn w (by simp)
    have hwd : w ≠ dot := by rintro rfl; exact hd (by simp)
    have hstep : NSt.step ⟨abs, pre, tr⟩ w = ⟨abs, pre ++ [w], false⟩ := by
      unfold NSt.step
      rw [if_neg hw.ne_slash, if_neg (by simp [hw.1, hwd])]
      split
      · rename_i hwdd
        subst hwdd
        have habs := hr (by simp)
        have hpre := hu pre ns rfl
        rcases eq_nil_or_snoc pre with rfl | ⟨ms, l, rfl⟩
        · simp [habs]
        · have := hpre l (by simp)
          simp [this]
      · rfl
    rw [List.foldl_cons, hstep, fold_names ns (pre ++ [w]) abs false (fun x hx => hn x (by simp [hx]))
      (fun h => hd (by simp [h])) (by simpa using hu) (fun h => hr (by simp [h]))]
    simp

theorem step_empty (st : NSt) : st.step [] = ⟨st.abs, st.ns, !st.ns.isEmpty⟩ := by
  simp [NSt.step]

theorem normalText_of_isNormal {s : Str} (h : IsNormal s) : normalText s = s := by
  by_cases hs : s = []
  · subst hs; simp [normalText]
  · by_cases hd : dot ∈ filenames s
    · rw [h.noDot hd]; decide
    · rw [normalText_eq s hs]
      have hrun : run (startsSlash s) (relElements s) =
          ⟨startsSlash s, filenames s, endsSlash s && !(filenames s).isEmpty⟩ := by
        have := fold_names (filenames s) [] (startsSlash s) false (fun w h => filenames_mem h) hd
          (by simpa using h.upsFirst) h.upsRel
        unfold run relElements
        rw [List.foldl_append, this]
        by_cases he : endsSlash s = true
        · by_cases hn : filenames s = []
          · simp [hn]
          · simp [he, hn, step_empty]
        · simp [he]
      rw [hrun]
      have hfin : NSt.finish ⟨startsSlash s, filenames s, endsSlash s && !(filenames s).isEmpty⟩ =
          ⟨startsSlash s, filenames s, endsSlash s && !(filenames s).isEmpty⟩ := by
        unfold NSt.finish
        split
        · rename_i hl
          simp [h.noUpTrail hl]
        · rfl
      rw [hfin]
      have hg := genericText_of_noDouble s ((noDouble_iff s).mpr h.noDouble)
      have ht : NSt.text ⟨startsSlash s, filenames s, endsSlash s && !(filenames s).isEmpty⟩ = s := hg
      rw [ht, if_neg hs]

theorem normalText_idem (s : Str) : normalText (normalText s) = normalText s :=
  normalText_of_isNormal (normalText_isNormal s)

/-! ### The result is reached by rewriting -/

theorem Spec.Rws.trans {abs : Bool} {l m n : List Str} (h1 : Rws abs l m) (h2 : Rws abs m n) : Rws abs l n := by
  induction h2 with
  | refl => exact h1
  | tail _ h ih => exact ih.tail h

theorem Spec.Rws.one {abs : Bool} {l m : List Str} (h : Rw abs l m) : Rws abs l m := (Rws.refl l).tail h

/-- Elements of a state after the root. -/
def NSt.rel (st : NSt) : List Str := st.ns ++ (if st.tr then [[]] else [])

theorem rws_step_mid {st : NSt} (hi : st.Inv) (hn : ∀ w ∈ st.ns, IsName w) {e : Str} (he : e = [] ∨ IsName e)
    {rest : List Str} (hr : rest ≠ []) (hlast : e ≠ []) :
    Rws st.abs (st.ns ++ e :: rest) ((st.step e).ns ++ rest) := by
  have hen : IsName e := by
    rcases he with he | he
    · exact absurd he hlast
    · exact he
  unfold NSt.step
  rw [if_neg hen.ne_slash]
  split
  · rename_i h
    rcases h with h | h
    · exact absurd h hen.1
    · subst h; exact .one (.dotSep _ _ hr)
  · split
    · rename_i h
      subst h
      rcases eq_nil_or_snoc st.ns with hns | ⟨ms, w, hns⟩
      · rw [hns]
        simp only [List.getLast?_nil]
        cases ha : st.abs
        · exact .refl _
        · exact .one (.root _ rfl)
      · rw [hns]
        simp only [List.getLast?_concat, List.dropLast_concat]
        split
        · simpa using Rws.refl _
        · rename_i h2
          have hw : IsPlain w := by
            refine ⟨hn w (by simp [hns]), ?_, h2⟩
            rintro rfl
            exact hi.noDot (by simp [hns])
          have := Rw.upSep (abs := st.abs) ms w rest hw hr
          simpa using Rws.one this
    · simpa using Rws.refl _

theorem rws_step_last {st : NSt} (hi : st.Inv) (hn : ∀ w ∈ st.ns, IsName w) {e : Str} (he : e = [] ∨ IsName e) :
    Rws st.abs (st.ns ++ [e]) (st.step e).rel := by
  have hne : e ≠ ['/'] := by
    rcases he with he | he
    · subst he; simp
    · exact he.ne_slash
  unfold NSt.step
  rw [if_neg hne]
  split
  · rename_i h
    by_cases hns : st.ns = []
    · rcases h with h | h
      · subst h; simpa [NSt.rel, hns] using Rws.one (Rw.lone (abs := st.abs))
      · subst h; simpa [NSt.rel, hns] using Rws.one (Rw.dotOnly (abs := st.abs))
    · rcases h with h | h
      · subst h; simpa [NSt.rel, hns] using Rws.refl _
      · subst h; simpa [NSt.rel, hns] using Rws.one (Rw.dotEnd (abs := st.abs) st.ns hns)
  · split
    · rename_i h
      subst h
      rcases eq_nil_or_snoc st.ns with hns | ⟨ms, w, hns⟩
      · rw [hns]
        simp only [List.getLast?_nil]
        cases ha : st.abs
        · simpa [NSt.rel] using Rws.refl _
        · simpa [NSt.rel] using Rws.one (Rw.root (abs := true) [] rfl)
      · rw [hns]
        simp only [List.getLast?_concat, List.dropLast_concat]
        split
        · simpa [NSt.rel] using Rws.refl _
        · rename_i h2
          have hw : IsPlain w := by
            refine ⟨hn w (by simp [hns]), ?_, h2⟩
            rintro rfl
            exact hi.noDot (by simp [hns])
          by_cases hms : ms = []
          · subst hms
            simpa [NSt.rel] using Rws.one (Rw.upOnly (abs := st.abs) w hw)
          · simpa [NSt.rel, hms] using Rws.one (Rw.upEnd (abs := st.abs) ms w hw hms)
    · simpa [NSt.rel] using Rws.refl _

theorem rws_fold : ∀ (l : List Str) (st : NSt), st.Inv → st.Wf → RelWf l → (l = [] → st.tr = false) →
    Rws st.abs (st.ns ++ l) (l.foldl NSt.step st).rel
  | [], st, _, _, _, h => by simpa [NSt.rel, h rfl] using Rws.refl _
  | [e], st, hi, hw, hl, _ => rws_step_last hi hw.names (hl.mem (by simp))
  | e :: e' :: rest, st, hi, hw, hl, _ => by
    obtain ⟨ns, tr, hns, hleq⟩ := hl
    have hen : IsName e := by
      cases ns with
      | nil => cases tr <;> simp at hleq
      | cons n ns => simp at hleq; rw [hleq.1]; exact hns n (by simp)
    have hl' : RelWf (e' :: rest) := by
      cases ns with
      | nil => cases tr <;> simp at hleq
      | cons n ns =>
        simp at hleq
        exact ⟨ns, tr, fun w hw => hns w (by simp [hw]), hleq.2⟩
    have h1 := rws_step_mid hi hw.names (Or.inr hen) (rest := e' :: rest) (by simp) hen.1
    have h2 := rws_fold (e' :: rest) (st.step e) (hi.step e) (hw.step (Or.inr hen)) hl' (by simp)
    rw [step_abs _ hen.ne_slash] at h2
    exact h1.trans h2

theorem rws_run (abs : Bool) {l : List Str} (h : RelWf l) : Rws abs l (run abs l).finish.rel := by
  have h1 := rws_fold l ⟨abs, [], false⟩ ⟨by simp, by simp, by simp⟩ ⟨by simp, by simp⟩ h (by simp)
  simp only [List.nil_append] at h1
  refine h1.trans ?_
  show Rws abs (run abs l).rel _
  unfold NSt.finish
  split
  · rename_i hl
    rcases eq_nil_or_snoc (run abs l).ns with hns | ⟨ms, w, hns⟩
    · rw [hns] at hl; simp at hl
    · rw [hns] at hl
      simp at hl
      subst hl
      cases htr : (run abs l).tr
      · simpa [NSt.rel, htr] using Rws.refl _
      · simpa [NSt.rel, htr, hns] using Rws.one (Rw.upTrail (abs := abs) ms)
  · exact .refl _

/-! ### Rewriting does not change the machine's result -/

theorem step_ns (st st' : NSt) (e : Str) (h1 : st.abs = st'.abs) (h2 : st.ns = st'.ns) :
    st.step e = st'.step e := by
  unfold NSt.step; rw [h1, h2]

theorem fold_ns {l : List Str} (hl : l ≠ []) (st st' : NSt) (h1 : st.abs = st'.abs) (h2 : st.ns = st'.ns) :
    l.foldl NSt.step st = l.foldl NSt.step st' := by
  cases l with
  | nil => exact absurd rfl hl
  | cons e l => rw [List.foldl_cons, List.foldl_cons, step_ns st st' e h1 h2]

theorem step_dot (st : NSt) : st.step dot = ⟨st.abs, st.ns, !st.ns.isEmpty⟩ := by simp [NSt.step]

theorem step_plain (st : NSt) {w : Str} (h : IsPlain w) : st.step w = ⟨st.abs, st.ns ++ [w], false⟩ := by
  simp [NSt.step, h.1.ne_slash, h.1.1, h.2.1, h.2.2]

theorem step_up (st : NSt) {w : Str} (h : IsPlain w) :
    (st.step w).step dotdot = ⟨st.abs, st.ns, !st.ns.isEmpty⟩ := by
  rw [step_plain st h]
  simp [NSt.step, h.2.2]

theorem rw_run {abs : Bool} {l l' : List Str} (h : Rw abs l l') : (run abs l).finish = (run abs l').finish := by
  unfold run
  cases h with
  | dotSep l₁ l₂ h =>
    rw [List.foldl_append, List.foldl_append, List.foldl_cons, step_dot]
    exact congrArg NSt.finish (fold_ns h _ (l₁.foldl NSt.step ⟨abs, [], false⟩) rfl rfl)
  | dotEnd l₁ h => rw [List.foldl_append, List.foldl_append]; simp [step_dot, step_empty]
  | dotOnly => rfl
  | upSep l₁ w l₂ hw h =>
    rw [List.foldl_append, List.foldl_append, List.foldl_cons, List.foldl_cons, step_up _ hw]
    exact congrArg NSt.finish (fold_ns h _ (l₁.foldl NSt.step ⟨abs, [], false⟩) rfl rfl)
  | upEnd l₁ w hw h =>
    rw [List.foldl_append, List.foldl_append]; simp [step_up _ hw, step_empty]
  | upOnly w hw => simp [step_up _ hw]
  | root l h =>
    subst h
    rw [List.foldl_cons]
    simp [NSt.step]
  | lone => simp [step_empty]
  | upTrail l₁ =>
    rw [List.foldl_append, List.foldl_append]
    simp only [List.foldl_cons, List.foldl_nil, step_empty]
    generalize l₁.foldl NSt.step ⟨abs, [], false⟩ = st
    unfold NSt.step
    rw [if_neg (by simp), if_neg (by simp), if_pos rfl]
    rcases eq_nil_or_snoc st.ns with hns | ⟨ms, w, hns⟩
    · rw [hns]
      cases st.abs <;> simp [NSt.finish]
    · rw [hns]
      simp only [List.getLast?_concat, List.dropLast_concat]
      split
      · simp [NSt.finish]
      · rfl

theorem rws_run_eq {abs : Bool} {l l' : List Str} (h : Rws abs l l') :
    (run abs l).finish = (run abs l').finish := by
  induction h with
  | refl => rfl
  | tail _ h ih => rw [ih, rw_run h]

/-- What a reduced list looks like. -/
theorem reduced_run {abs : Bool} {l : List Str} (hw : RelWf l) (hr : Reduced abs l) :
    (run abs l).finish.rel = l := by
  obtain ⟨ns, tr, hn, rfl⟩ := hw
  have htr : tr = true → ns ≠ [] := by
    rintro rfl rfl
    exact hr _ Rw.lone
  have hd : dot ∉ ns := by
    intro hm
    obtain ⟨a, b, rfl⟩ := List.append_of_mem hm
    by_cases hb : b ++ (if tr then [[]] else []) = []
    · simp at hb
      obtain ⟨rfl, htr0⟩ := hb
      by_cases ha : a = []
      · subst ha
        apply hr []
        simpa [htr0] using Rw.dotOnly (abs := abs)
      · apply hr (a ++ [[]])
        simpa [htr0] using Rw.dotEnd (abs := abs) a ha
    · apply hr (a ++ (b ++ (if tr then [[]] else [])))
      simpa using Rw.dotSep (abs := abs) a _ hb
  have hadj : ∀ a w b, ns = a ++ w :: dotdot :: b → w = dotdot := by
    intro a w b hab
    false_or_by_contra
    rename_i hne
    have hp : IsPlain w := by
      refine ⟨hn w (by simp [hab]), ?_, hne⟩
      rintro rfl
      exact hd (by simp [hab])
    subst hab
    by_cases hb : b ++ (if tr then [[]] else []) = []
    · simp at hb
      obtain ⟨rfl, htr0⟩ := hb
      by_cases ha : a = []
      · subst ha
        apply hr []
        simpa [htr0] using Rw.upOnly (abs := abs) w hp
      · apply hr (a ++ [[]])
        simpa [htr0] using Rw.upEnd (abs := abs) a w hp ha
    · apply hr (a ++ (b ++ (if tr then [[]] else [])))
      simpa using Rw.upSep (abs := abs) a w _ hp hb
  have hu : ∀ (a b : List Str), ns = a ++ dotdot :: b → ∀ w ∈ a, w = dotdot := by
    have key : ∀ (n : Nat) (a b : List Str), a.length = n → ns = a ++ dotdot :: b → ∀ w ∈ a, w = dotdot := by
      intro n
      induction n with
      | zero => intro a b ha _ w hw; simp at ha; subst ha; simp at hw
      | succ n ih =>
        intro a b ha hab w hw
        rcases eq_nil_or_snoc a with rfl | ⟨a', x, rfl⟩
        · simp at hw
        · have hx : x = dotdot := hadj a' x b (by simpa using hab)
          simp at hw
          rcases hw with hw | hw
          · subst hx
            exact ih a' (dotdot :: b) (by simpa using ha) (by simpa using hab) w hw
          · rw [hw, hx]
    intro a b hab
    exact key a.length a b rfl hab
  have hrel : dotdot ∈ ns → abs = false := by
    intro hm
    cases habs : abs
    · rfl
    · exfalso
      obtain ⟨a, b, hab⟩ := List.append_of_mem hm
      have := hu a b hab
      cases a with
      | nil =>
        subst habs
        apply hr (b ++ (if tr then [[]] else []))
        rw [hab]
        simpa using Rw.root (abs := true) (b ++ (if tr then [[]] else [])) rfl
      | cons x a =>
        have hx := this x (by simp)
        subst hx habs
        apply hr ((a ++ dotdot :: b) ++ (if tr then [[]] else []))
        rw [hab]
        exact Rw.root (abs := true) ((a ++ dotdot :: b) ++ (if tr then [[]] else [])) rfl
  have hfold := fold_names ns [] abs false hn hd (by simpa using hu) hrel
  have hrun : run abs (ns ++ (if tr then [[]] else [])) = ⟨abs, ns, tr⟩ := by
    unfold run
    rw [List.foldl_append, hfold]
    cases tr
    · simp
    · have := htr rfl
      simp [step_empty, this]
  rw [hrun]
  unfold NSt.finish
  split
  · rename_i hl
    cases tr
    · rfl
    · exfalso
      rcases eq_nil_or_snoc ns with hns | ⟨ms, w, hns⟩
      · rw [hns] at hl; simp at hl
      · simp only [hns, List.getLast?_concat, Option.some.injEq] at hl
        subst hl
        apply hr (ms ++ [dotdot])
        rw [hns]
        simpa using Rw.upTrail (abs := abs) ms
  · rfl

/-- No step applies to the result. -/
theorem run_reduced (abs : Bool) {l : List Str} (hw : RelWf l) : Reduced abs (run abs l).finish.rel := by
  intro l' h
  have hwf := (run_wf abs hw).finish
  have hinv := (run_inv abs l).finish
  have habs : (run abs l).finish.abs = abs := by rw [NSt.finish_abs, run_abs abs hw]
  have htr := finish_trail (st := run abs l)
  generalize (run abs l).finish = st at *
  have hmem : ∀ w ∈ st.rel, w = [] ∨ w ∈ st.ns := by
    intro w hw
    simp [NSt.rel] at hw
    rcases hw with hw | hw
    · exact Or.inr hw
    · exact Or.inl hw.2
  have hnodot : dot ∉ st.rel := by
    intro hm
    rcases hmem _ hm with h | h
    · simp at h
    · exact hinv.noDot h
  -- `..` after something else
  have hadj : ∀ a w b, st.rel = a ++ w :: dotdot :: b → w = dotdot := by
    intro a w b hab
    rcases eq_nil_or_snoc b with rfl | ⟨b', x, rfl⟩
    · cases htr' : st.tr
      · simp [NSt.rel, htr'] at hab
        exact hinv.ups (a ++ [w]) [] (by simp [hab]) w (by simp)
      · simp [NSt.rel, htr'] at hab
        have := congrArg List.getLast? hab
        simp at this
    · cases htr' : st.tr
      · simp [NSt.rel, htr'] at hab
        exact hinv.ups (a ++ [w]) (b' ++ [x]) (by simp [hab]) w (by simp)
      · simp only [NSt.rel, htr', if_true] at hab
        have e : a ++ w :: dotdot :: (b' ++ [x]) = (a ++ w :: dotdot :: b') ++ [x] := by simp
        rw [e] at hab
        have := (List.append_inj' hab rfl).1
        exact hinv.ups (a ++ [w]) b' (by simp [this]) w (by simp)
  generalize hl : st.rel = r at *
  cases h with
  | dotSep l₁ l₂ h => exact hnodot (by simp)
  | dotEnd l₁ h => exact hnodot (by simp)
  | dotOnly => exact hnodot (by simp)
  | upSep l₁ w l₂ hw h => exact hw.2.2 (hadj l₁ w l₂ rfl)
  | upEnd l₁ w hw h => exact hw.2.2 (hadj l₁ w [] rfl)
  | upOnly w hw => exact hw.2.2 (hadj [] w [] rfl)
  | root l h =>
    have : dotdot ∈ st.ns := by
      rcases hmem dotdot (by simp) with h | h
      · simp at h
      · exact h
    have := hinv.rel this
    rw [habs, h] at this
    cases this
  | lone =>
    cases htr' : st.tr
    · simp [NSt.rel, htr'] at hl
      have := hwf.names [] (by simp [hl])
      exact this.1 rfl
    · simp [NSt.rel, htr'] at hl
      exact hwf.trail htr' hl
  | upTrail l₁ =>
    cases htr' : st.tr
    · simp [NSt.rel, htr'] at hl
      have := hwf.names [] (by simp [hl])
      exact this.1 rfl
    · simp only [NSt.rel, htr', if_true] at hl
      have e : l₁ ++ [dotdot, []] = (l₁ ++ [dotdot]) ++ [[]] := by simp
      rw [e] at hl
      have := (List.append_inj' hl rfl).1
      rw [htr (by rw [this]; simp)] at htr'
      cases htr'

/-! ### Spelling -/

theorem join_trail {ns : List Str} (h : ns ≠ []) : join (ns ++ [[]]) = join ns ++ ['/'] :=
  join_concat [] h

theorem text_spell {st : NSt} (hw : st.Wf) :
    (if st.text = [] then dot else st.text) = spell st.abs st.rel := by
  have hnil : st.text = [] ↔ st.ns = [] ∧ st.abs = false := by
    constructor
    · intro ht
      have h1 := filenames_render (abs := st.abs) (tr := st.tr) hw.names
      have h2 := startsSlash_render (abs := st.abs) hw.names hw.trail
      unfold NSt.text at ht
      rw [ht] at h1 h2
      exact ⟨h1.symm, h2.symm⟩
    · rintro ⟨h1, h2⟩
      have : st.tr = false := by
        cases htr : st.tr
        · rfl
        · exact absurd h1 (hw.trail htr)
      simp [NSt.text, h1, h2, this, render, join]
  have hrel : st.rel = [] ↔ st.ns = [] := by
    constructor
    · intro h; simp [NSt.rel] at h; exact h.1
    · intro h
      have : st.tr = false := by
        cases htr : st.tr
        · rfl
        · exact absurd h (hw.trail htr)
      simp [NSt.rel, h, this]
  unfold spell
  by_cases h : st.text = []
  · rw [if_pos h, if_pos ⟨(hnil.mp h).2, hrel.mpr (hnil.mp h).1⟩]
  · rw [if_neg h, if_neg]
    · cases htr : st.tr
      · simp [NSt.text, NSt.rel, htr, render]
      · have := hw.trail htr
        simp [NSt.text, NSt.rel, htr, render, join_trail this]
    · rintro ⟨h1, h2⟩
      exact h (hnil.mpr ⟨hrel.mp h2, h1⟩)

theorem normalText_spell {s : Str} (hs : s ≠ []) :
    normalText s = spell (startsSlash s) (run (startsSlash s) (relElements s)).finish.rel := by
  rw [normalText_eq s hs, text_spell (run_wf _ (relElements_wf s)).finish, NSt.finish_abs,
    run_abs _ (relElements_wf s)]

theorem Spec.Rw.wf {abs : Bool} {l l' : List Str} (h : Rw abs l l') (hw : RelWf l) : RelWf l' := by
  -- all entries but the last are names; steps keep the order and only add a final empty entry
  have key : ∀ l : List Str, RelWf l ↔ (∀ w ∈ l.dropLast, IsName w) ∧ (∀ w, l.getLast? = some w → w = [] ∨ IsName w) := by
    intro l
    constructor
    · rintro ⟨ns, tr, hn, rfl⟩
      cases tr
      · simp only [Bool.false_eq_true, if_false, List.append_nil]
        exact ⟨fun w h => hn w (List.dropLast_subset _ h), fun w h => Or.inr (hn w (List.mem_of_getLast? h))⟩
      · simp only [if_true, List.dropLast_concat, List.getLast?_concat]
        exact ⟨hn, by rintro w h; simp at h; exact Or.inl h⟩
    · rintro ⟨h1, h2⟩
      rcases eq_nil_or_snoc l with rfl | ⟨ms, x, rfl⟩
      · exact ⟨[], false, by simp, by simp⟩
      · simp only [List.dropLast_concat, List.getLast?_concat] at h1 h2
        rcases h2 x rfl with rfl | hx
        · exact ⟨ms, true, h1, by simp⟩
        · exact ⟨ms ++ [x], false, by
            intro w hw
            simp at hw
            rcases hw with hw | rfl
            · exact h1 w hw
            · exact hx, by simp⟩
  have key2 : ∀ l₁ l₂ : List Str, l₂ ≠ [] → (RelWf (l₁ ++ l₂) ↔ (∀ w ∈ l₁, IsName w) ∧ RelWf l₂) := by
    intro l₁ l₂ hne
    rw [key, key, List.dropLast_append_of_ne_nil hne, List.getLast?_append]
    have : ∀ w, (l₂.getLast?.or l₁.getLast? = some w) ↔ l₂.getLast? = some w := by
      intro w
      cases hx : l₂.getLast? with
      | none => rw [List.getLast?_eq_none_iff] at hx; exact absurd hx hne
      | some y => simp
    simp only [this, List.mem_append, or_imp, forall_and]
    exact and_assoc
  have hnil : RelWf [[]] := ⟨[], true, by simp, rfl⟩
  have hnil0 : RelWf [] := ⟨[], false, by simp, rfl⟩
  cases h with
  | dotSep l₁ l₂ h =>
    have h1 := (key2 l₁ (dot :: l₂) (by simp)).mp hw
    have h2 := (key2 [dot] l₂ h).mp h1.2
    exact (key2 l₁ l₂ h).mpr ⟨h1.1, h2.2⟩
  | dotEnd l₁ h =>
    have h1 := (key2 l₁ [dot] (by simp)).mp hw
    exact (key2 l₁ [[]] (by simp)).mpr ⟨h1.1, hnil⟩
  | dotOnly => exact hnil0
  | upSep l₁ w l₂ hp h =>
    have h1 := (key2 l₁ (w :: dotdot :: l₂) (by simp)).mp hw
    have h2 := (key2 [w, dotdot] l₂ h).mp h1.2
    exact (key2 l₁ l₂ h).mpr ⟨h1.1, h2.2⟩
  | upEnd l₁ w hp h =>
    have h1 := (key2 l₁ [w, dotdot] (by simp)).mp hw
    exact (key2 l₁ [[]] (by simp)).mpr ⟨h1.1, hnil⟩
  | upOnly w hp => exact hnil0
  | root _ h =>
    by_cases hl : l' = []
    · subst hl; exact hnil0
    · exact ((key2 [dotdot] l' hl).mp hw).2
  | lone => exact hnil0
  | upTrail l₁ =>
    have h1 := (key2 l₁ [dotdot, []] (by simp)).mp hw
    have h2 : RelWf [dotdot] := ⟨[dotdot], false, by simp [IsName], by simp⟩
    exact (key2 l₁ [dotdot] (by simp)).mpr ⟨h1.1, h2⟩

theorem Spec.Rws.wf {abs : Bool} {l l' : List Str} (h : Rws abs l l') (hw : RelWf l) : RelWf l' := by
  induction h with
  | refl => exact hw
  | tail _ h ih => exact h.wf ih

/-! ### Denotation -/

section
variable (W : World)

theorem walk_append (n : W.Node) (l₁ l₂ : List Str) :
    walk W n (l₁ ++ l₂) = (walk W n l₁).bind fun m => walk W m l₂ := by
  induction l₁ generalizing n with
  | nil => rfl
  | cons e l ih =>
    simp only [List.cons_append, walk]
    split
    · exact ih _
    · split
      · split
        · exact ih _
        · rfl
      · split
        · split
          · exact ih _
          · rfl
        · split
          · exact ih _
          · rfl

theorem walk_dot (n : W.Node) (l : List Str) :
    walk W n (dot :: l) = if W.isDir n then walk W n l else none := by simp [walk]

theorem walk_empty (n : W.Node) (l : List Str) :
    walk W n ([] :: l) = if W.isDir n then walk W n l else none := by simp [walk]

theorem walk_dotdot (n : W.Node) (l : List Str) :
    walk W n (dotdot :: l) = if W.isDir n then walk W (W.parent n) l else none := by simp [walk]

theorem walk_up {n m : W.Node} {w : Str} (hw : IsPlain w) {l : List Str}
    (h : walk W n (w :: dotdot :: l) = some m) : W.isDir n = true ∧ walk W n l = some m := by
  have e : walk W n (w :: dotdot :: l) = match W.child n w with
      | some m => walk W m (dotdot :: l)
      | none => none := by
    rw [walk]
    simp only [hw.1.ne_slash, hw.1.1, hw.2.1, hw.2.2, if_false, or_self]
    cases W.child n w <;> rfl
  rw [e] at h
  cases hc : W.child n w with
  | none => simp [hc] at h
  | some x =>
    simp only [hc, walk_dotdot] at h
    split at h
    · rw [W.parent_child n w x hc] at h
      exact ⟨W.child_dir n w x hc, h⟩
    · cases h

theorem rw_walk {abs : Bool} {l l' : List Str} (h : Rw abs l l') {b n : W.Node}
    (hb : abs = true → b = W.root) (hw : walk W b l = some n) : walk W b l' = some n := by
  cases h with
  | dotSep l₁ l₂ h =>
    rw [walk_append] at hw ⊢
    cases hx : walk W b l₁ with
    | none => simp [hx] at hw
    | some m =>
      simp only [hx, Option.bind_some, walk_dot] at hw ⊢
      split at hw
      · exact hw
      · cases hw
  | dotEnd l₁ h =>
    rw [walk_append] at hw ⊢
    cases hx : walk W b l₁ with
    | none => simp [hx] at hw
    | some m => simpa only [hx, Option.bind_some, walk_dot, walk_empty] using hw
  | dotOnly =>
    rw [walk_dot] at hw
    split at hw
    · exact hw
    · cases hw
  | upSep l₁ w l₂ hp h =>
    rw [walk_append] at hw ⊢
    cases hx : walk W b l₁ with
    | none => simp [hx] at hw
    | some m =>
      simp only [hx, Option.bind_some] at hw ⊢
      exact (walk_up W hp hw).2
  | upEnd l₁ w hp h =>
    rw [walk_append] at hw ⊢
    cases hx : walk W b l₁ with
    | none => simp [hx] at hw
    | some m =>
      simp only [hx, Option.bind_some] at hw ⊢
      have := walk_up W hp hw
      rw [walk_empty, if_pos this.1]
      exact this.2
  | upOnly w hp => exact (walk_up W hp hw).2
  | root l h =>
    rw [hb h] at hw ⊢
    rw [walk_dotdot, W.parent_root, W.root_dir] at hw
    simpa using hw
  | lone =>
    rw [walk_empty] at hw
    split at hw
    · exact hw
    · cases hw
  | upTrail l₁ =>
    rw [walk_append] at hw ⊢
    cases hx : walk W b l₁ with
    | none => simp [hx] at hw
    | some m =>
      simp only [hx, Option.bind_some, walk_dotdot, walk_empty] at hw ⊢
      split at hw
      · rename_i hd
        rw [if_pos hd]
        split at hw
        · exact hw
        · cases hw
      · cases hw

theorem rws_walk {abs : Bool} {l l' : List Str} (h : Rws abs l l') {b n : W.Node}
    (hb : abs = true → b = W.root) (hw : walk W b l = some n) : walk W b l' = some n := by
  induction h with
  | refl => exact hw
  | tail _ h ih => exact rw_walk W h hb ih

/-- Elements of a spelled list. -/
theorem elements_text {st : NSt} (hw : st.Wf) :
    elements (if st.text = [] then dot else st.text) =
      if st.text = [] then [dot] else (if st.abs then [['/']] else []) ++ st.rel := by
  split
  · decide
  · rw [NSt.text, elements_render hw.names hw.trail]
    simp [NSt.rel]

theorem walk_normal {s : Str} (hs : s ≠ []) {b n : W.Node} (hb : W.isDir b = true)
    (hw : walk W b (elements s) = some n) : walk W b (elements (normalText s)) = some n := by
  have hwf := run_wf (startsSlash s) (relElements_wf s)
  have habs := run_abs (startsSlash s) (relElements_wf s)
  rw [normalText_eq s hs, elements_text hwf.finish, NSt.finish_abs, habs]
  rw [elements_rel] at hw
  have hrws := rws_run (startsSlash s) (relElements_wf s)
  cases hst : startsSlash s
  · rw [hst] at hw hrws
    have := rws_walk W hrws (b := b) (by simp) (by simpa using hw)
    split
    · rename_i ht
      have hrel : (run false (relElements s)).finish.rel = [] := by
        have h1 := filenames_render (abs := (run false (relElements s)).finish.abs)
          (tr := (run false (relElements s)).finish.tr) (ns := (run false (relElements s)).finish.ns) 
          (by rw [hst] at hwf; exact hwf.finish.names)
        rw [NSt.text] at ht
        rw [ht] at h1
        have h2 : (run false (relElements s)).finish.tr = false := by
          cases htr : (run false (relElements s)).finish.tr
          · rfl
          · rw [hst] at hwf; exact absurd h1.symm (hwf.finish.trail htr)
        simp [NSt.rel, h2, ← h1, filenames_nil]
      rw [hrel] at this
      simp [walk] at this
      subst this
      simp [walk, hb]
    · simpa using this
  · rw [hst] at hw hrws hwf habs
    have hw' : walk W W.root (relElements s) = some n := by
      simpa [walk] using hw
    have := rws_walk W hrws (b := W.root) (by simp) hw'
    split
    · rename_i ht
      exfalso
      have h1 := startsSlash_render (abs := (run true (relElements s)).finish.abs)
        hwf.finish.names hwf.finish.trail
      rw [NSt.text] at ht
      rw [ht, NSt.finish_abs, habs] at h1
      cases h1
    · simpa [walk] using this

end

end Asap
