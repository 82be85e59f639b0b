import Verif.Path.NormLemmas

/-!
# `lexically_relative` (POSIX): closed form and inversion of append
-/

namespace Asap
open Spec

/-- An element text as the path object iteration yields. -/
def elemPath (w : Str) : Path := ⟨w, [], if w = ['/'] then .rootDir else .filename⟩

theorem keysOf_elements (s : Str) :
    keysOf s = (elements s).map fun w => (w, if w = ['/'] then PType.rootDir else .filename) := by
  unfold keysOf elements
  simp only [List.map_append]
  congr 1
  · congr 1
    · split <;> simp
    · apply List.map_congr_left
      intro w hw
      simp [(filenames_mem hw).ne_slash]
  · split <;> simp

theorem Shape.elems {p : Path} (h : Shape p) : p.elems = (elements p.pathname).map elemPath := by
  rw [elems_keys h, keysOf_elements, List.map_map]
  rfl

/-- Element texts: a slash, a filename or nothing. -/
def IsElem (w : Str) : Prop := w = ['/'] ∨ w = [] ∨ IsName w

theorem elements_isElem {s w : Str} (h : w ∈ elements s) : IsElem w := by
  unfold elements at h
  simp only [List.mem_append] at h
  rcases h with (h | h) | h
  · split at h <;> simp at h; exact Or.inl h
  · exact Or.inr (Or.inr (filenames_mem h))
  · split at h <;> simp at h; exact Or.inr (Or.inl h)

theorem elemPath_shape {w : Str} (h : IsElem w) : Shape (elemPath w) := by
  rcases h with h | h | h
  · subst h; exact .root
  · subst h; exact .empt
  · have := h.ne_slash
    simp only [elemPath, this, if_false]; exact .file w h

theorem elemPath_eqv {v w : Str} (hv : IsElem v) (hw : IsElem w) :
    (elemPath v).eqv (elemPath w) = true ↔ v = w := by
  rw [(elemPath_shape hv).eqv (elemPath_shape hw)]
  have key : ∀ {u : Str}, IsElem u → elements u = if u = [] then [] else [u] := by
    intro u hu
    rcases hu with h | h | h
    · subst h; decide
    · subst h; decide
    · simp [h.1, elements_name h]
  simp only [elemPath, key hv, key hw]
  constructor
  · intro h
    by_cases h1 : v = []
    · by_cases h2 : w = []
      · rw [h1, h2]
      · rw [if_pos h1, if_neg h2] at h; simp at h
    · by_cases h2 : w = []
      · rw [if_neg h1, if_pos h2] at h; simp at h
      · rw [if_neg h1, if_neg h2] at h; simpa using h
  · rintro rfl; rfl

/-- Remove the longest common prefix. -/
def strip : List Str → List Str → List Str × List Str
  | a :: as, b :: bs => if a = b then strip as bs else (a :: as, b :: bs)
  | as, bs => (as, bs)

theorem mismatch_strip : ∀ (as bs : List Str), (∀ w ∈ as, IsElem w) → (∀ w ∈ bs, IsElem w) →
    mismatch (as.map elemPath) (bs.map elemPath) =
      ((strip as bs).1.map elemPath, (strip as bs).2.map elemPath)
  | [], bs, _, _ => by cases bs <;> simp [mismatch, strip]
  | a :: as, [], _, _ => by simp [mismatch, strip]
  | a :: as, b :: bs, ha, hb => by
    have hab := elemPath_eqv (ha a (by simp)) (hb b (by simp))
    have ih := mismatch_strip as bs (fun w hw => ha w (by simp [hw])) (fun w hw => hb w (by simp [hw]))
    simp only [List.map_cons, mismatch, strip]
    by_cases h : a = b
    · rw [if_pos (hab.mpr h), if_pos h]; exact ih
    · rw [if_neg (fun h' => h (hab.mp h')), if_neg h]; rfl

/-- The common prefix and what follows. -/
theorem strip_spec : ∀ (as bs : List Str), ∃ c, as = c ++ (strip as bs).1 ∧ bs = c ++ (strip as bs).2
  | [], bs => ⟨[], by cases bs <;> simp [strip]⟩
  | a :: as, [] => ⟨[], by simp [strip]⟩
  | a :: as, b :: bs => by
    by_cases h : a = b
    · subst h
      obtain ⟨c, h1, h2⟩ := strip_spec as bs
      refine ⟨a :: c, ?_, ?_⟩
      · simp only [strip, if_true, List.cons_append]; rw [← h1]
      · simp only [strip, if_true, List.cons_append]; rw [← h2]
    · exact ⟨[], by simp [strip, h]⟩

theorem strip_head : ∀ (as bs : List Str) (x y : Str), (strip as bs).1.head? = some x →
    (strip as bs).2.head? = some y → x ≠ y
  | [], bs, x, y, h1, h2 => by cases bs <;> simp [strip] at h1
  | a :: as, [], x, y, h1, h2 => by simp [strip] at h2
  | a :: as, b :: bs, x, y, h1, h2 => by
    by_cases h : a = b
    · simp only [strip, h, if_true] at h1 h2
      exact strip_head as bs x y h1 h2
    · simp only [strip, h, if_false, List.head?_cons, Option.some.injEq] at h1 h2
      rw [← h1, ← h2]; exact h

/-- Any common prefix leaves at least the stripped rest. -/
theorem strip_suffix : ∀ (c as bs : List Str), strip (c ++ as) (c ++ bs) = strip as bs
  | [], as, bs => rfl
  | x :: c, as, bs => by simp [strip, strip_suffix c as bs]

theorem strip_self (as : List Str) : strip as as = ([], []) := by
  have := strip_suffix as [] []
  simpa [strip] using this

/-- Net number of levels of the remaining base elements. -/
def upCount (bs : List Str) : Int :=
  bs.foldl (fun n b => if isDotDot b then n - 1 else if isDot b then n else n + 1) 0

theorem relCount_elems (bs : List Str) : relCount (bs.map elemPath) = upCount bs := by
  simp only [relCount, upCount, List.foldl_map]
  rfl

/-- Appending elements one by one. -/
theorem appendFold : ∀ (l : List Str) {ret : Path} {st : NSt}, Sim ret st → st.abs = false →
    RelWf l → (l = [] → st.tr = false) → (st.tr = true → False) →
    ∃ r, (l.map elemPath).foldlM (append .posix) ret = .ok r ∧ Loose r ∧ Safe r ∧
      r.pathname = join (st.ns ++ l)
  | [], ret, st, h, ha, _, htr, _ => by
    refine ⟨ret, rfl, h.loose, h.safe, ?_⟩
    rw [h.text, NSt.text, ha, htr rfl]
    simp [render]
  | e :: l, ret, st, h, ha, hl, _, hnt => by
    obtain ⟨ns, tr, hns, hleq⟩ := hl
    cases ns with
    | nil =>
      cases tr with
      | false => simp at hleq
      | true =>
        simp at hleq
        obtain ⟨rfl, rfl⟩ := hleq
        obtain ⟨r, h1, h2⟩ := h.appendEmpty (e := elemPath []) .empt rfl
        refine ⟨r, ?_, h2.loose, h2.safe, ?_⟩
        · rw [List.map_cons, List.foldlM_cons, h1]; rfl
        · rw [h2.text, NSt.text, ha]
          by_cases hn : st.ns = []
          · simp [hn, render, join]
          · simp [hn, render, join_trail hn]
    | cons n ns =>
      simp at hleq
      obtain ⟨rfl, rfl⟩ := hleq
      have hn := hns e (by simp)
      obtain ⟨r, h1, h2⟩ := h.appendName (e := elemPath e) (elemPath_shape (Or.inr (Or.inr hn))) hn rfl
      obtain ⟨r', h3, h4, h5, h6⟩ := appendFold (ns ++ if tr then [[]] else []) h2 ha
        ⟨ns, tr, fun w hw => hns w (by simp [hw]), rfl⟩ (by simp) (by simp)
      refine ⟨r', ?_, h4, h5, ?_⟩
      · rw [List.map_cons, List.foldlM_cons, h1]; exact h3
      · rw [h6]; simp

/-- Text of `lexically_relative`. -/
def relText (s b : Str) : Str :=
  if startsSlash s = startsSlash b then
    match strip (elements s) (elements b) with
    | ([], []) => dot
    | (as, bs) => if upCount bs < 0 then [] else join (List.replicate (upCount bs).toNat dotdot ++ as)
  else []

/-- Suffixes of the elements that do not contain the root are filenames and
maybe a final empty entry. -/
theorem relWf_suffix {l c as : List Str} (hl : RelWf l) (h : l = c ++ as) : RelWf as := by
  induction c generalizing l with
  | nil => rw [h] at hl; simpa using hl
  | cons x c ih =>
    obtain ⟨ns, tr, hns, hleq⟩ := hl
    rw [h] at hleq
    cases ns with
    | nil =>
      cases tr with
      | false => simp at hleq
      | true =>
        simp at hleq
        exact ⟨[], false, by simp, by simp [hleq.2.2]⟩
    | cons n ns =>
      simp at hleq
      exact ih (l := ns ++ if tr then [[]] else []) ⟨ns, tr, fun w hw => hns w (by simp [hw]), rfl⟩ hleq.2.symm

theorem strip_rel {s b : Str} (h : startsSlash s = startsSlash b) :
    strip (elements s) (elements b) = strip (relElements s) (relElements b) := by
  rw [elements_rel s, elements_rel b, h, strip_suffix]

theorem replicate_map (n : Nat) : (List.replicate n (mkPath .posix ['.', '.'])) =
    (List.replicate n dotdot).map elemPath := by
  have : mkPath .posix ['.', '.'] = elemPath dotdot := by decide
  rw [List.map_replicate, this]

theorem relWf_ups {as : List Str} (h : RelWf as) (n : Nat) : RelWf (List.replicate n dotdot ++ as) := by
  obtain ⟨ns, tr, h1, rfl⟩ := h
  refine ⟨List.replicate n dotdot ++ ns, tr, ?_, by simp⟩
  intro w hw
  rw [List.mem_append] at hw
  rcases hw with hw | hw
  · have := List.eq_of_mem_replicate hw
    subst this; constructor <;> decide
  · exact h1 w hw

theorem Shape.lexicallyRelative {p base : Path} (hp : Shape p) (hb : Shape base) :
    ∃ r, lexicallyRelative .posix p base = .ok r ∧ Loose r ∧ Safe r ∧
      r.pathname = relText p.pathname base.pathname := by
  simp only [Asap.lexicallyRelative, hp.rootName, hb.rootName, rootName_default_eqv, hp.isAbsolute,
    hb.isAbsolute, hp.hasRootDirectory, hb.hasRootDirectory, bind, Except.bind, pure, Except.pure]
  by_cases hab : startsSlash p.pathname = startsSlash base.pathname
  · rw [if_neg (by simp), if_neg (by simp [hab]), if_neg (by simp [hab])]
    rw [hp.elems, hb.elems, mismatch_strip _ _ (fun _ => elements_isElem) (fun _ => elements_isElem)]
    simp only [relText, hab, if_true, strip_rel hab]
    obtain ⟨c, hc1, hc2⟩ := strip_spec (relElements p.pathname) (relElements base.pathname)
    have hwa := relWf_suffix (relElements_wf _) hc1
    generalize strip (relElements p.pathname) (relElements base.pathname) = ab at *
    obtain ⟨as, bs⟩ := ab
    simp only at hwa
    have main : ∃ r, (if relCount (bs.map elemPath) ≥ 0 then
        (do
          let ups ← (List.replicate (relCount (bs.map elemPath)).toNat (mkPath Plat.posix ['.', '.'])).foldlM
            (Asap.append Plat.posix) Path.default
          (as.map elemPath).foldlM (Asap.append Plat.posix) ups)
        else Except.ok Path.default) = .ok r ∧ Loose r ∧ Safe r ∧
        r.pathname = (if upCount bs < 0 then [] else join (List.replicate (upCount bs).toNat dotdot ++ as)) := by
      rw [relCount_elems]
      by_cases hn : upCount bs < 0
      · rw [if_neg (by omega), if_pos hn]
        exact ⟨_, rfl, .dflt, by simp [Safe, IsName, Path.default], rfl⟩
      · rw [if_pos (by omega), if_neg hn]
        obtain ⟨r, h1, h2, h3, h4⟩ := appendFold _ Sim.init rfl (relWf_ups hwa (upCount bs).toNat)
          (by simp [NSt.init]) (by simp [NSt.init])
        refine ⟨r, ?_, h2, h3, by simpa [NSt.init] using h4⟩
        rw [List.map_append, List.foldlM_append] at h1
        rw [replicate_map]
        exact h1
    cases as with
    | nil =>
      cases bs with
      | nil => exact ⟨_, rfl, mkPath_loose _, mkPath_safe _, by decide⟩
      | cons b bs => simpa [bind, Except.bind] using main
    | cons a as => simpa [bind, Except.bind] using main
  · rw [if_neg (by simp), if_pos hab]
    exact ⟨_, rfl, .dflt, by simp [Safe, IsName, Path.default], by simp [relText, hab]; rfl⟩

/-! ### Inversion of append -/

theorem upCount_acc (bs : List Str) : ∀ n : Int,
    bs.foldl (fun n b => if isDotDot b then n - 1 else if isDot b then n else n + 1) n = n + upCount bs := by
  unfold upCount
  induction bs with
  | nil => simp
  | cons b bs ih =>
    intro n
    rw [List.foldl_cons, List.foldl_cons, ih, ih (if isDotDot b = true then _ else _)]
    split
    · omega
    · split <;> omega

/-- Without `..` the count is the number of entries other than `.`. -/
theorem upCount_plain : ∀ (bs : List Str), dotdot ∉ bs →
    upCount bs = ((bs.filter (· ≠ dot)).length : Int)
  | [], _ => rfl
  | b :: bs, h => by
    have ih := upCount_plain bs (fun h' => h (by simp [h']))
    have hb : b ≠ dotdot := by rintro rfl; exact h (by simp)
    have e : upCount (b :: bs) = (if isDot b then 0 else 1) + upCount bs := by
      unfold upCount
      rw [List.foldl_cons, upCount_acc]
      have : isDotDot b = false := by simp [isDotDot, hb]
      simp [this, upCount]
    rw [e, ih]
    by_cases hd : b = dot
    · subst hd; simp [isDot]
    · simp [isDot, hd]; omega

/-- Entering a base without `..`. -/
theorem fold_plain : ∀ (bs : List Str) (st : NSt), (∀ w ∈ bs, IsName w) → dotdot ∉ bs →
    (bs.foldl NSt.step st).abs = st.abs ∧ (bs.foldl NSt.step st).ns = st.ns ++ bs.filter (· ≠ dot)
  | [], st, _, _ => by simp
  | b :: bs, st, hn, hd => by
    have hb := hn b (by simp)
    have hbd : b ≠ dotdot := by rintro rfl; exact hd (by simp)
    obtain ⟨h1, h2⟩ := fold_plain bs (st.step b) (fun w hw => hn w (by simp [hw])) (fun h => hd (by simp [h]))
    rw [List.foldl_cons, h1, h2]
    by_cases h : b = dot
    · subst h; simp [step_dot]
    · rw [step_plain st ⟨hb, h, hbd⟩]; simp [h]

/-- Leaving again. -/
theorem fold_ups : ∀ (n : Nat) (ms : List Str) (st : NSt) (ns : List Str), ms.length = n →
    st.ns = ns ++ ms → dotdot ∉ ms →
    ((List.replicate n dotdot).foldl NSt.step st).abs = st.abs ∧
    ((List.replicate n dotdot).foldl NSt.step st).ns = ns
  | 0, ms, st, ns, hl, hs, _ => by simp at hl; subst hl; simpa using hs
  | n + 1, ms, st, ns, hl, hs, hd => by
    rcases eq_nil_or_snoc ms with rfl | ⟨ms', w, rfl⟩
    · simp at hl
    · have hw : w ≠ dotdot := by rintro rfl; exact hd (by simp)
      have hstep : st.step dotdot = ⟨st.abs, ns ++ ms', !(ns ++ ms').isEmpty⟩ := by
        unfold NSt.step
        rw [if_neg (by simp), if_neg (by simp), if_pos rfl, hs, ← List.append_assoc]
        simp only [List.getLast?_concat, List.dropLast_concat]
        rw [if_neg hw]
      obtain ⟨h1, h2⟩ := fold_ups n ms' (st.step dotdot) ns (by simpa using hl) (by rw [hstep])
        (fun h => hd (by simp [h]))
      rw [List.replicate_succ, List.foldl_cons, h1, h2, hstep]
      exact ⟨rfl, rfl⟩

theorem startsSlash_appendText {s t : Str} (ht : startsSlash t = false) :
    startsSlash (appendText s t) = startsSlash s := by
  unfold appendText
  cases s with
  | nil => simpa [filePart, startsSlash_nil] using ht
  | cons c s => simp [startsSlash]

theorem endsSlash_append {s t : Str} (ht : t ≠ []) : endsSlash (s ++ t) = endsSlash t := by
  unfold endsSlash
  rw [List.getLast?_append]
  cases h : t.getLast? with
  | none => rw [List.getLast?_eq_none_iff] at h; exact absurd h ht
  | some x => rfl

theorem filenames_appendText (s t : Str) :
    filenames (appendText s t) = filenames s ++ filenames t := by
  unfold appendText
  by_cases hf : filePart s = []
  · rw [if_pos hf, List.append_nil]
    rcases last_slash s with h | ⟨a, w, hw, rfl⟩
    · rw [filePart_noSlash h] at hf; subst hf; simp [filenames_nil]
    · rw [filePart_slash a hw] at hf
      subst hf
      rw [filenames_slash_end, List.append_assoc, List.singleton_append, filenames_append_slash]
  · rw [if_neg hf, List.append_assoc, List.singleton_append, filenames_append_slash]

/-- Elements of an append with a non-empty relative right operand. -/
theorem relElements_appendText {s t : Str} (ht : startsSlash t = false) (hne : t ≠ []) :
    relElements (appendText s t) = filenames s ++ relElements t := by
  have hft : filenames t ≠ [] := by
    intro h
    rw [filenames_eq_nil_iff] at h
    cases t with
    | nil => exact hne rfl
    | cons c t => simp at h; simp [startsSlash, h.1] at ht
  unfold relElements
  rw [filenames_appendText]
  have : endsSlash (appendText s t) = endsSlash t := endsSlash_append hne
  rw [this, List.append_assoc]
  simp [hft]

theorem relElements_join {l : List Str} (hl : RelWf l) (hne : join l ≠ []) :
    startsSlash (join l) = false ∧ relElements (join l) = l := by
  obtain ⟨ns, tr, hn, rfl⟩ := hl
  cases tr with
  | false =>
    simp only [Bool.false_eq_true, if_false, List.append_nil]
    have e : join ns = render false ns false := by simp [render]
    rw [e]
    refine ⟨startsSlash_render hn (by simp), ?_⟩
    unfold relElements
    rw [filenames_render hn]
    by_cases h0 : ns = []
    · simp [h0]
    · rw [endsSlash_render hn h0]; simp
  | true =>
    have h0 : ns ≠ [] := by rintro rfl; simp [join] at hne
    simp only [if_true]
    have e : join (ns ++ [[]]) = render false ns true := by simp [render, join_trail h0]
    rw [e]
    refine ⟨startsSlash_render hn (by simp [h0]), ?_⟩
    unfold relElements
    rw [filenames_render hn, endsSlash_render hn h0]
    simp [h0]

/-- What the machine reports for a text: the root flag and filenames of the
normal form. -/
theorem normalText_names {s : Str} (hs : s ≠ []) :
    startsSlash (normalText s) = startsSlash s ∧
    filenames (normalText s) =
      (if startsSlash s = false ∧ (run (startsSlash s) (relElements s)).ns = [] then [dot]
       else (run (startsSlash s) (relElements s)).ns) := by
  have hwf := (run_wf (startsSlash s) (relElements_wf s)).finish
  have habs := run_abs (startsSlash s) (relElements_wf s)
  have h1 := filenames_render (abs := (run (startsSlash s) (relElements s)).finish.abs)
    (tr := (run (startsSlash s) (relElements s)).finish.tr) hwf.names
  have h2 := startsSlash_render (abs := (run (startsSlash s) (relElements s)).finish.abs) hwf.names hwf.trail
  have hns := NSt.finish_ns (run (startsSlash s) (relElements s))
  rw [NSt.finish_abs, habs] at h2
  rw [normalText_eq s hs]
  split
  · rename_i ht
    rw [NSt.text] at ht
    rw [ht, hns] at h1
    have h2' : startsSlash s = false := by
      have hx := habs
      rw [← NSt.finish_abs] at hx
      rw [hx] at ht
      rw [← h2, ht]; rfl
    refine ⟨by rw [h2']; decide, ?_⟩
    rw [if_pos ⟨h2', h1.symm⟩]; decide
  · rename_i ht
    refine ⟨by rw [NSt.text, NSt.finish_abs, habs]; exact h2, ?_⟩
    rw [if_neg]
    · rw [NSt.text, h1, hns]
    · rintro ⟨h3, h4⟩
      apply ht
      have htr : (run (startsSlash s) (relElements s)).finish.tr = false := by
        cases htr : (run (startsSlash s) (relElements s)).finish.tr
        · rfl
        · exact absurd (by rw [NSt.finish_ns]; exact h4) (hwf.trail htr)
      rw [NSt.text, htr, NSt.finish_ns, h4, NSt.finish_abs, habs, h3]; rfl

/-- All entries before the last are filenames. -/
theorem RelWf.prefix_names {l c d : List Str} (hl : RelWf l) (h : l = c ++ d) (hd : d ≠ []) :
    ∀ w ∈ c, IsName w := by
  obtain ⟨ns, tr, hns, hleq⟩ := hl
  intro w hw
  have hdl : w ∈ l.dropLast := by
    rw [h, List.dropLast_append_of_ne_nil hd]; simp [hw]
  rw [hleq] at hdl
  cases tr with
  | false => simp at hdl; exact hns w (List.dropLast_subset _ hdl)
  | true => simp at hdl; exact hns w hdl

/-- Appending the relative path to the base and normalising gives the same
filenames; the same text if something of `p` follows the common prefix. -/
theorem rel_inverts {c as bs : List Str} {p base : Str} (hp : p ≠ [])
    (habs : startsSlash p = startsSlash base)
    (hs : relElements p = c ++ as) (hb : relElements base = c ++ bs)
    (hstrip : strip (relElements p) (relElements base) = (as, bs))
    (hd : dotdot ∉ bs) (he : [] ∉ bs) (hr : relText p base ≠ []) :
    startsSlash (normalText (appendText base (relText p base))) = startsSlash (normalText p) ∧
    filenames (normalText (appendText base (relText p base))) = filenames (normalText p) ∧
    (as ≠ [] → normalText (appendText base (relText p base)) = normalText p) := by
  have hwp := relElements_wf p
  have hwb := relElements_wf base
  -- from equal machine states to the claims
  have finish : ∀ r : Str, r ≠ [] → startsSlash r = false →
      (run (startsSlash p) (filenames base ++ relElements r)).ns = (run (startsSlash p) (relElements p)).ns →
      (as ≠ [] → run (startsSlash p) (filenames base ++ relElements r) = run (startsSlash p) (relElements p)) →
      startsSlash (normalText (appendText base r)) = startsSlash (normalText p) ∧
      filenames (normalText (appendText base r)) = filenames (normalText p) ∧
      (as ≠ [] → normalText (appendText base r) = normalText p) := by
    intro r hrne hrs h1 h2
    have hne : appendText base r ≠ [] := by simp [appendText, hrne]
    have hss : startsSlash (appendText base r) = startsSlash p := by
      rw [startsSlash_appendText hrs, habs]
    have hre := relElements_appendText (s := base) hrs hrne
    obtain ⟨a1, a2⟩ := normalText_names hne
    obtain ⟨b1, b2⟩ := normalText_names hp
    refine ⟨by rw [a1, b1, hss], ?_, ?_⟩
    · rw [a2, b2, hss, hre, h1]
    · intro has
      rw [normalText_eq _ hne, normalText_eq _ hp, hss, hre, h2 has]
  by_cases h0 : as = [] ∧ bs = []
  · obtain ⟨rfl, rfl⟩ := h0
    have hrt : relText p base = dot := by
      rw [relText, if_pos habs, strip_rel habs, hstrip]
    rw [hrt]
    refine finish dot (by simp) (by decide) ?_ (by simp)
    have hpb : relElements p = relElements base := by rw [hs, hb]
    have hdot : relElements dot = [dot] := by decide
    rw [hdot, hpb]
    unfold run
    rw [List.foldl_append]
    simp only [List.foldl_cons, List.foldl_nil, step_dot]
    conv => rhs; rw [relElements, List.foldl_append]
    split <;> simp [step_empty]
  · have hc : ∀ w ∈ c, IsName w := by
      by_cases has : as = []
      · exact hwb.prefix_names hb (fun h => h0 ⟨has, h⟩)
      · exact hwp.prefix_names hs has
    have hbn : ∀ w ∈ bs, IsName w := by
      intro w hw
      rcases hwb.mem (w := w) (by rw [hb]; simp [hw]) with h | h
      · subst h; exact absurd hw he
      · exact h
    have hfb : filenames base = c ++ bs := by
      rw [← hb]
      unfold relElements
      split
      · rename_i htr
        exfalso
        have : ([] : Str) ∈ relElements base := by simp [relElements, htr]
        rw [hb] at this
        simp at this
        rcases this with h | h
        · exact (hc _ h).1 rfl
        · exact he h
      · simp
    have hn := upCount_plain bs hd
    have hrt : relText p base = join (List.replicate (bs.filter (· ≠ dot)).length dotdot ++ as) := by
      rw [relText, if_pos habs, strip_rel habs, hstrip]
      have e : ∀ (as bs : List Str), ¬ (as = [] ∧ bs = []) →
          (match (as, bs) with
            | ([], []) => dot
            | (as, bs) => if upCount bs < 0 then [] else join (List.replicate (upCount bs).toNat dotdot ++ as))
          = if upCount bs < 0 then [] else join (List.replicate (upCount bs).toNat dotdot ++ as) := by
        intro as bs h
        cases as <;> cases bs <;> simp_all
      rw [e as bs h0, if_neg (by omega), hn]
      simp
    have hwa : RelWf as := relWf_suffix hwp hs
    obtain ⟨hj1, hj2⟩ := relElements_join (relWf_ups hwa (bs.filter (· ≠ dot)).length) (by rw [← hrt]; exact hr)
    rw [← hrt] at hj1 hj2
    have key := fold_plain bs (c.foldl NSt.step ⟨startsSlash p, [], false⟩) hbn hd
    have key2 := fold_ups (bs.filter (· ≠ dot)).length (bs.filter (· ≠ dot))
      (bs.foldl NSt.step (c.foldl NSt.step ⟨startsSlash p, [], false⟩)) _ rfl key.2
      (fun h => hd ((List.mem_filter.mp h).1))
    refine finish _ hr hj1 ?_ ?_
    · rw [hj2, hfb, hs]
      unfold run
      simp only [List.foldl_append]
      by_cases has : as = []
      · subst has
        simpa using key2.2
      · rw [fold_ns has _ (c.foldl NSt.step ⟨startsSlash p, [], false⟩) (by rw [key2.1, key.1]) key2.2]
    · intro has
      rw [hj2, hfb, hs]
      unfold run
      simp only [List.foldl_append]
      rw [fold_ns has _ (c.foldl NSt.step ⟨startsSlash p, [], false⟩) (by rw [key2.1, key.1]) key2.2]

end Asap
