import Verif.Path.WinNormal
import Verif.Path.Rel

/-!
# `lexically_relative` on Windows
-/

namespace Asap
open Spec

/-- A filename element. -/
def fileP (n : Str) : Path := ⟨n, [], .filename⟩

theorem fileP_names (n : Str) : (fileP n).names = if n = [] then [] else [n] := by
  cases n <;> rfl

theorem fileP_good (n : Str) : WinGood (fileP n) := by
  refine ⟨?_, ?_, by simp [fileP]⟩
  · rw [fileP_names]; by_cases h : n = [] <;> simp [h, fileP]
  · rw [fileP_names]; by_cases h : n = [] <;> simp [h]

theorem fileP_eqv (a b : Str) : (fileP a).eqv (fileP b) = true ↔ a = b := by
  rw [Path.eqv, beq_iff_eq, ((fileP_good a).compare (fileP_good b)).2.1, fileP_names, fileP_names]
  by_cases ha : a = [] <;> by_cases hb : b = [] <;> simp [ha, hb]

theorem mismatch_fileP : ∀ (as bs : List Str), mismatch (as.map fileP) (bs.map fileP) =
    ((strip as bs).1.map fileP, (strip as bs).2.map fileP)
  | [], bs => by cases bs <;> simp [mismatch, strip]
  | a :: as, [] => by simp [mismatch, strip]
  | a :: as, b :: bs => by
    have hab := fileP_eqv a b
    simp only [List.map_cons, mismatch, strip]
    by_cases h : a = b
    · rw [if_pos (hab.mpr h), if_pos h, mismatch_fileP as bs]
    · rw [if_neg (fun h' => h (hab.mp h')), if_neg h]; rfl

theorem mismatch_common : ∀ (A X Y : List Path), (∀ a ∈ A, a.eqv a = true) → mismatch (A ++ X) (A ++ Y) = mismatch X Y
  | [], _, _, _ => rfl
  | a :: A, X, Y, h => by
    simp only [List.cons_append, mismatch]
    rw [if_pos (h a (by simp)), mismatch_common A X Y (fun b hb => h b (by simp [hb]))]

theorem win_elems_split (s : Str) : (mkPath .windows s).elems = (winRootComps s).map Comp.toPath ++ (winRel s).map fileP := by
  by_cases hs : s = []
  · subst hs; rfl
  rw [win_elems hs, winComps_eq, List.map_append, List.map_append, List.append_assoc]
  congr 1
  rw [Spec.winRel, List.map_append]
  congr 1
  · rw [← toks_winNames (winTail s) (winRootLen s), List.map_map]
    apply List.map_congr_left
    intro c hc
    simp [Comp.toPath, fileP, (toks_mem _ _ _ hc).1]
  · rw [winTrail]
    split <;> rfl

theorem winRootElems_good (s : Str) : ∀ e ∈ (winRootComps s).map Comp.toPath, WinGood e := by
  intro e he
  apply (winGood_mkPath s).element
  rw [win_elems_split]; simp [he]

theorem WinGood.eqv_self {p : Path} (h : WinGood p) : p.eqv p = true := by
  rw [Path.eqv, beq_iff_eq, (h.compare h).2.1]

theorem winRootElems_eq {s t : Str} (hr : winRootName s = winRootName t) (hd : winHasDir s = winHasDir t) :
    (winRootComps s).map Comp.toPath = (winRootComps t).map Comp.toPath := by
  have hl : winRootLen s = winRootLen t := by rw [← winRootName_length, ← winRootName_length, hr]
  rw [winRootComps, winRootComps, hr, hd, hl]

/-! ### Appending elements -/

theorem WinSim.init : WinSim [] .default ⟨false, [], false⟩ :=
  ⟨⟨⟨.inl rfl, rfl⟩, by simp, by simp, by simp⟩, by simp, .dflt rfl⟩

theorem WinSim.initDir : WinSim [] (mkPath .windows ['\\']) ⟨true, [], false⟩ :=
  ⟨⟨⟨.inl rfl, rfl⟩, by simp, by simp, by simp⟩, by simp, .parsed⟩

theorem WinSim.appendNames {r : Str} : ∀ (ns : List Str) {ret : Path} {st : NSt}, WinSim r ret st → (∀ w ∈ ns, PlainName w) →
    ∃ q, (ns.map fileP).foldlM (append .windows) ret = .ok q ∧
      WinSim r q ⟨st.abs, st.ns ++ ns, if ns = [] then st.tr else false⟩ ∧ (ns = [] → q = ret) ∧ (ns ≠ [] → ∃ u, q = mkPath .windows u)
  | [], ret, st, h, _ => ⟨ret, rfl, by simpa using h, fun _ => rfl, by simp⟩
  | w :: ns, ret, st, h, hp => by
    have hw := hp w (by simp)
    have e := h.loose.append (.inr hw) h.wf.facts.stored
    obtain ⟨q, h1, h2⟩ := h.appendName hw
    obtain ⟨q', g1, g2, g3, g4⟩ := h2.appendNames ns (fun v hv => hp v (by simp [hv]))
    refine ⟨q', ?_, ?_, by simp, fun _ => ?_⟩
    · rw [List.map_cons, List.foldlM_cons]
      show (append .windows ret ⟨w, [], .filename⟩ >>= _) = _
      rw [h1]
      exact g1
    · simpa using g2
    · by_cases hn : ns = []
      · rw [g3 hn]
        rw [h1] at e
        exact ⟨_, Except.ok.inj e⟩
      · exact g4 hn

theorem WinSim.appends {r : Str} {l : List Str} {ret : Path} {st : NSt} (h : WinSim r ret st) (ht : st.tr = false)
    (hw : RelWf l) (hp : ∀ w ∈ l, w = [] ∨ PlainName w) :
    ∃ q st', (l.map fileP).foldlM (append .windows) ret = .ok q ∧ WinSim r q st' ∧ st'.abs = st.abs ∧
      st'.rel = (if st.ns ++ l = [[]] then [] else st.ns ++ l) ∧
      (l = [] → q = ret) ∧ (l ≠ [] → q = mkPath .windows (winText r st')) := by
  obtain ⟨ns, tr, hns, rfl⟩ := hw
  have hpn : ∀ w ∈ ns, PlainName w := by
    intro w hw
    rcases hp w (by simp [hw]) with h' | h'
    · exact absurd h' (hns w hw).1
    · exact h'
  have hne : ∀ l : List Str, st.ns ++ ns ++ l = [[]] → st.ns = [] ∧ ns = [] := by
    intro l hl
    have hmem : ∀ w ∈ st.ns ++ ns, w ≠ [] := by
      intro w hw
      rcases List.mem_append.mp hw with hw | hw
      · exact (h.wf.plain w hw).1
      · exact (hns w hw).1
    cases hx : st.ns ++ ns with
    | nil => exact List.append_eq_nil_iff.mp hx
    | cons w ws =>
      rw [hx] at hl
      simp at hl
      exact absurd hl.1 (hmem w (by rw [hx]; simp))
  have text : ∀ {q : Path} {st' : NSt}, WinSim r q st' → (∃ u, q = mkPath .windows u) → q = mkPath .windows (winText r st') := by
    rintro q st' hq ⟨u, rfl⟩
    have := hq.loose.pathname hq.wf.facts.stored
    rw [← this, win_reparse]
  obtain ⟨q, h1, h2, h3, h4⟩ := h.appendNames ns hpn
  cases tr with
  | false =>
    simp only [Bool.false_eq_true, if_false, List.append_nil]
    refine ⟨q, _, h1, h2, rfl, ?_, h3, fun hn => text h2 (h4 hn)⟩
    have e : (if ns = [] then st.tr else false) = false := by rw [ht]; simp
    rw [NSt.rel]
    simp only [e, Bool.false_eq_true, if_false, List.append_nil]
    rw [if_neg]
    intro hh
    have := hne [] (by simpa using hh)
    rw [this.1, this.2] at hh
    simp at hh
  | true =>
    have e := h2.loose.append (.inl rfl) h2.wf.facts.stored
    obtain ⟨q', g1, g2⟩ := h2.appendEmpty
    refine ⟨q', _, ?_, g2, rfl, ?_, by simp, fun _ => text g2 ?_⟩
    · rw [if_pos rfl, List.map_append, List.foldlM_append, h1]
      show (append .windows q ⟨[], [], .filename⟩ >>= fun q => pure q) = _
      rw [g1]; rfl
    · rw [NSt.rel]
      simp only [if_true]
      by_cases hx : st.ns ++ ns = []
      · rw [hx]
        obtain ⟨a, b⟩ := List.append_eq_nil_iff.mp hx
        simp [a, b]
      · rw [if_pos (by simpa using hx), if_neg, List.append_assoc]
        intro hh
        have := hne [[]] (by simpa using hh)
        exact hx (by simp [this])
    · rw [g1] at e
      exact ⟨_, Except.ok.inj e⟩

/-! ### The count -/

theorem relCount_fileP (bs : List Str) : relCount (bs.map fileP) = upCount bs := by
  simp only [relCount, upCount, List.foldl_map]
  rfl

theorem upCount_filter : ∀ bs : List Str, upCount bs =
    ((bs.filter fun b => b ≠ dot ∧ b ≠ dotdot).length : Int) - ((bs.filter (· = dotdot)).length : Int)
  | [] => rfl
  | b :: bs => by
    have ih := upCount_filter bs
    have e : upCount (b :: bs) = (if isDotDot b then -1 else if isDot b then 0 else 1) + upCount bs := by
      rw [upCount, List.foldl_cons, upCount_acc]
      split
      · rfl
      · split <;> rfl
    rw [e, ih]
    by_cases h1 : b = dotdot
    · subst h1
      simp [isDotDot]
      omega
    · by_cases h2 : b = dot
      · subst h2
        simp [isDotDot, isDot]
      · simp [isDotDot, isDot, h1, h2]
        omega

/-! ### `lexically_relative` -/

/-- The elements of the result, after a common root. -/
def winRelElems (as bs : List Str) : List Str :=
  if as = [] ∧ bs = [] then [dot]
  else if upCount bs < 0 then []
  else if List.replicate (upCount bs).toNat dotdot ++ as = [[]] then []
  else List.replicate (upCount bs).toNat dotdot ++ as

theorem dotdot_plain : PlainName dotdot := ⟨by simp, by simp [winSep], by simp⟩

/-- The part of `lexically_relative` after the comparison of the roots. -/
def relBody (as bs : List Path) : Res Path :=
  match as, bs with
  | [], [] => .ok (mkPath .windows ['.'])
  | _, _ =>
    if relCount bs ≥ 0 then
      ((List.replicate (relCount bs).toNat (mkPath .windows ['.', '.'])).foldlM (append .windows) .default) >>= fun ups =>
        as.foldlM (append .windows) ups
    else .ok .default

theorem win_relative_body (as bs : List Str) (hw : RelWf as) (hp : ∀ w ∈ as, w = [] ∨ PlainName w) :
    ∃ r, relBody (as.map fileP) (bs.map fileP) = .ok r ∧
      r.names = winRelElems as bs ∧ ((r = .default ∧ r.names = []) ∨ ∃ st, WinSim [] r st ∧ st.abs = false ∧ st.rel = r.names ∧
        r = mkPath .windows (winText [] st)) := by
  have hdot : PlainName dot := ⟨by simp, by simp [winSep], by simp⟩
  by_cases h0 : as = [] ∧ bs = []
  · obtain ⟨rfl, rfl⟩ := h0
    refine ⟨_, rfl, by decide, .inr ⟨⟨false, [dot], false⟩, ⟨⟨⟨.inl rfl, rfl⟩, by simpa using hdot, by simp, by simp⟩, by simp, .parsed⟩,
      rfl, by decide, by decide⟩⟩
  · have main : ∃ r, (if relCount (bs.map fileP) ≥ 0 then
          ((List.replicate (relCount (bs.map fileP)).toNat (mkPath .windows ['.', '.'])).foldlM (append .windows) .default) >>= fun ups =>
            (as.map fileP).foldlM (append .windows) ups
        else (.ok .default : Res Path)) = .ok r ∧
      r.names = winRelElems as bs ∧ ((r = .default ∧ r.names = []) ∨ ∃ st, WinSim [] r st ∧ st.abs = false ∧ st.rel = r.names ∧
        r = mkPath .windows (winText [] st)) := by
      rw [relCount_fileP, winRelElems, if_neg h0]
      by_cases hn : upCount bs < 0
      · rw [if_neg (by omega), if_pos hn]
        exact ⟨_, rfl, rfl, .inl ⟨rfl, rfl⟩⟩
      · rw [if_pos (by omega), if_neg hn]
        obtain ⟨q, st, h1, h2, h3, h4, h5, h6⟩ := WinSim.init.appends rfl (relWf_ups hw (upCount bs).toNat) (by
          intro w hw
          rcases List.mem_append.mp hw with hw | hw
          · rw [List.eq_of_mem_replicate hw]; exact .inr dotdot_plain
          · exact hp w hw)
        have hrep : (List.replicate (upCount bs).toNat (mkPath .windows ['.', '.'])) =
            (List.replicate (upCount bs).toNat dotdot).map fileP := by rw [List.map_replicate]; rfl
        rw [List.map_append, List.foldlM_append] at h1
        rw [hrep]
        refine ⟨q, h1, ?_⟩
        simp only [List.nil_append] at h4
        by_cases hl : List.replicate (upCount bs).toNat dotdot ++ as = []
        · have hq := h5 hl
          subst hq
          rw [hl]
          exact ⟨rfl, .inl ⟨rfl, rfl⟩⟩
        · have hq := h6 hl
          have hnames : q.names = st.rel := by
            rw [hq, win_names, winElements_rel, h2.wf.facts.len, h2.wf.facts.dir, h2.wf.winRel, h3]; simp
          exact ⟨by rw [hnames, h4], .inr ⟨st, h2, h3, hnames.symm, hq⟩⟩
    obtain ⟨r, h1, h2⟩ := main
    refine ⟨r, ?_, h2⟩
    cases as with
    | nil =>
      cases bs with
      | nil => exact absurd ⟨rfl, rfl⟩ h0
      | cons b bs => exact h1
    | cons a as => exact h1

/-- What `lexically_relative` computes, by cases on the roots. -/
theorem win_relative_cases (s t : Str) : lexicallyRelative .windows (mkPath .windows s) (mkPath .windows t) =
    if winRootName s ≠ winRootName t ∨ (winUnc s = false ∧ winHasDir s ≠ winHasDir t) ∨ (winHasDir s = false ∧ winHasDir t = true) then
      .ok .default
    else
      relBody (mismatch (mkPath .windows s).elems (mkPath .windows t).elems).1
        (mismatch (mkPath .windows s).elems (mkPath .windows t).elems).2 := by
  simp only [lexicallyRelative, win_rootName_eqv, win_isAbsolute, win_hasRootDirectory]
  by_cases hr : winRootName s = winRootName t
  · have hu : winUnc s = winUnc t := by
      rw [winUnc, winUnc, ← winRootName_length, ← winRootName_length, hr]
    simp only [hr, decide_true, Bool.not_true, Bool.false_eq_true, if_false, bind, Except.bind, hu, pure, Except.pure,
      ne_eq, not_true, false_or]
    cases winUnc t <;> cases winHasDir s <;> cases winHasDir t <;>
      simp only [Bool.or_false, Bool.or_true, Bool.not_true, Bool.not_false, Bool.and_true, Bool.and_false, Bool.false_eq_true,
        if_true, if_false, not_true, not_false_eq_true, and_true, and_false, or_false, or_true,
        Bool.true_eq_false] <;> rfl
  · simp only [hr, decide_false, Bool.not_false, if_true, ne_eq, not_false_eq_true, true_or]
    rfl

theorem win_relative {s t : Str} (hr : winRootName s = winRootName t) (hd : winHasDir s = winHasDir t)
    (hp : ∀ n ∈ winNames (winTail s), PlainName n) :
    ∃ r, lexicallyRelative .windows (mkPath .windows s) (mkPath .windows t) = .ok r ∧
      r.names = winRelElems (strip (winRel s) (winRel t)).1 (strip (winRel s) (winRel t)).2 ∧
      ((r = .default ∧ r.names = []) ∨ ∃ st, WinSim [] r st ∧ st.abs = false ∧ st.rel = r.names ∧
        r = mkPath .windows (winText [] st)) := by
  obtain ⟨c, e1, e2⟩ := strip_spec (winRel s) (winRel t)
  have hmem : ∀ w ∈ winRel s, w = [] ∨ PlainName w := by
    intro n hn
    rw [winRel, List.mem_append] at hn
    rcases hn with hn | hn
    · exact .inr (hp n hn)
    · split at hn <;> simp at hn; exact .inl hn
  obtain ⟨r, h1, h2⟩ := win_relative_body _ (strip (winRel s) (winRel t)).2 (relWf_suffix (winRel_wf s) e1)
    (fun w hw => hmem w (by rw [e1]; simp [hw]))
  refine ⟨r, ?_, h2⟩
  rw [win_relative_cases, if_neg (by rw [hd]; cases winHasDir t <;> simp [hr]), win_elems_split, win_elems_split,
    ← winRootElems_eq hr hd, mismatch_common _ _ _ (fun a ha => (winRootElems_good s a ha).eqv_self), mismatch_fileP]
  exact h1

/-- Appending a text without root. -/
theorem win_append_rel {t u : Str} (hr : winRootLen u = 0) (hd : winHasDir u = false) (hn : winNames (winTail u) ≠ []) :
    ∃ v, append .windows (mkPath .windows t) (mkPath .windows u) = .ok (mkPath .windows v) ∧ v ≠ [] ∧
      winRootName v = winRootName t ∧ winHasDir v = (winHasDir t || winUnc t) ∧
      winNames (winTail v) = winNames (winTail t) ++ winNames (winTail u) ∧
      winRel v = winNames (winTail t) ++ winRel u := by
  have hu : winUnc u = false := by simp [winUnc, hr]
  obtain ⟨R, X, q1, q2, q3, q4, q5, q6, q7⟩ := winAppendText_parts (s := t) (t := u) hd (fun _ => hr)
  obtain ⟨p1, p2, p3, p4⟩ := parts_facts q2
  have hX : X ≠ [] := by
    rintro rfl
    have h1 : winNames [] = [] := by decide
    rw [h1] at q6
    exact hn (List.append_eq_nil_iff.mp q6.symm).2
  refine ⟨winAppendText t u, ?_, ?_, ?_⟩
  · rw [win_append_cases, if_neg]
    rintro (h | h)
    · simp [hu, hd] at h
    · exact h.1 hr
  · rw [q1]; simp [hX]
  rw [q1]
  refine ⟨p2.trans q3, ?_, by rw [p1, q6], ?_⟩
  · rw [p3, q5]; cases winHasDir t <;> cases winUnc t <;> rfl
  · rw [winRel, p1, q6, p4 hX, winRel, List.append_assoc]
    congr 2
    simp only [hn, ne_eq, not_false_eq_true, and_true, true_and, not_true, false_and, or_false] at q7 ⊢
    by_cases he : winEndsSep u = true
    · rw [if_pos he, if_pos (q7.mpr he)]
    · rw [if_neg he, if_neg (fun h => he (q7.mp h))]

/-- Walking back from the base. -/
theorem rel_run {c as bs ps bb : List Str} (abs : Bool) (hwp : RelWf ps) (hwb : RelWf bb) (hs : ps = c ++ as) (hb : bb = c ++ bs)
    (hd : dotdot ∉ bs) (he : [] ∉ bs) (h0 : ¬ (as = [] ∧ bs = [])) :
    (∀ w ∈ c ++ bs, w ≠ []) ∧
    (run abs (c ++ bs ++ (List.replicate (bs.filter (· ≠ dot)).length dotdot ++ as))).ns = (run abs ps).ns ∧
    (as ≠ [] → run abs (c ++ bs ++ (List.replicate (bs.filter (· ≠ dot)).length dotdot ++ as)) = run abs ps) := by
  have hc : ∀ w ∈ c, IsName w := by
    by_cases has : as = []
    · exact hwb.prefix_names hb (fun h => h0 ⟨has, h⟩)
    · exact hwp.prefix_names hs has
  have hbn : ∀ w ∈ bs, IsName w := by
    intro w hw
    rcases hwb.mem (w := w) (by rw [hb]; simp [hw]) with h | h
    · subst h; exact absurd hw he
    · exact h
  have key := fold_plain bs (c.foldl NSt.step ⟨abs, [], false⟩) hbn hd
  have key2 := fold_ups (bs.filter (· ≠ dot)).length (bs.filter (· ≠ dot))
    (bs.foldl NSt.step (c.foldl NSt.step ⟨abs, [], false⟩)) _ rfl key.2
    (fun h => hd ((List.mem_filter.mp h).1))
  refine ⟨?_, ?_, ?_⟩
  · intro w hw
    rcases List.mem_append.mp hw with h | h
    · exact (hc w h).1
    · exact (hbn w h).1
  · rw [hs]
    unfold run
    simp only [List.foldl_append]
    by_cases has : as = []
    · subst has
      simpa using key2.2
    · rw [fold_ns has _ (c.foldl NSt.step ⟨abs, [], false⟩) (by rw [key2.1, key.1]) key2.2]
  · intro has
    rw [hs]
    unfold run
    simp only [List.foldl_append]
    rw [fold_ns has _ (c.foldl NSt.step ⟨abs, [], false⟩) (by rw [key2.1, key.1]) key2.2]

end Asap
