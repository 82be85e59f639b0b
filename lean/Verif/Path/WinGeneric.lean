import Verif.Path.WinCompare
import Verif.Path.Generic
import Verif.Path.WinFile

/-!
# Generic format of Windows paths
-/

namespace Asap
open Spec

/-- With generic separators. -/
def slashed (s : Str) : Str := s.map fun c => if c = '\\' then '/' else c

/-- A Windows text in generic format. -/
def winGeneric (s : Str) : Str :=
  slashed (winRootName s) ++ render (winHasDir s) (winNames (winTail s)) (winEndsSep s && !(winNames (winTail s)).isEmpty)

/-- A nonempty piece between separators. -/
def WinName (w : Str) : Prop := w ≠ [] ∧ ∀ c ∈ w, winSep c = false

theorem WinName.isName {w : Str} (h : WinName w) : IsName w := by
  refine ⟨h.1, fun hc => ?_⟩
  have := h.2 _ hc
  simp [winSep] at this

theorem winName_mem {s w : Str} (h : w ∈ winNames s) : WinName w := winNames_mem h

theorem winNames_join : ∀ {ns : List Str}, (∀ w ∈ ns, WinName w) → winNames (join ns) = ns
  | [], _ => winNames_nil
  | [w], h => by
    have := h w (by simp)
    rw [join, winNames_noSep this.2, if_neg this.1]
  | w :: v :: ns, h => by
    have hw := h w (by simp)
    rw [join_cons (by simp), winNames_seg _ hw.2 (by rfl), if_neg hw.1, winNames_join (fun n hn => h n (by simp [hn]))]
    rfl

theorem join_win_head : ∀ {ns : List Str}, (∀ w ∈ ns, WinName w) → (join ns).head?.any winSep = false
  | [], _ => rfl
  | [w], h => by
    obtain ⟨h1, h2⟩ := h w (by simp)
    match w with
    | [] => exact absurd rfl h1
    | c :: w => exact h2 c (by simp)
  | w :: v :: ns, h => by
    obtain ⟨h1, h2⟩ := h w (by simp)
    match w with
    | [] => exact absurd rfl h1
    | c :: w => rw [join_cons (by simp)]; exact h2 c (by simp)

theorem join_win_ends : ∀ {ns : List Str}, (∀ w ∈ ns, WinName w) → winEndsSep (join ns) = false
  | [], _ => rfl
  | [w], h => by
    obtain ⟨_, h2⟩ := h w (by simp)
    rw [join, winEndsSep]
    cases hl : w.getLast? with
    | none => rfl
    | some c => exact h2 c (List.mem_of_getLast? hl)
  | w :: v :: ns, h => by
    have hvs : ∀ x ∈ v :: ns, WinName x := fun x hx => h x (List.mem_cons_of_mem _ hx)
    have ih := join_win_ends hvs
    have hne : join (v :: ns) ≠ [] := join_ne_nil (fun x hx => (hvs x hx).isName) (by simp)
    rw [join_cons (by simp), show w ++ '/' :: join (v :: ns) = (w ++ ['/']) ++ join (v :: ns) by simp, winEndsSep_append hne]
    exact ih

theorem render_facts {abs tr : Bool} {ns : List Str} (h : ∀ w ∈ ns, WinName w) (htr : tr = true → ns ≠ []) :
    winNames (render abs ns tr) = ns ∧ (render abs ns tr).head?.any winSep = abs ∧
      (ns ≠ [] → winEndsSep (render abs ns tr) = tr) := by
  have hj := winNames_join h
  have hjn : ns ≠ [] → join ns ≠ [] := join_ne_nil (fun x hx => (h x hx).isName)
  refine ⟨?_, ?_, ?_⟩
  · cases abs <;> cases tr <;> simp [render, hj]
    · exact (winNames_sep_end (by rfl) _).trans hj
    · exact (winNames_sep_cons (by rfl) _).trans hj
    · exact (winNames_sep_cons (by rfl) _).trans ((winNames_sep_end (by rfl) _).trans hj)
  · cases abs with
    | true => simp [render, winSep]
    | false =>
      cases tr with
      | false => simpa [render] using join_win_head h
      | true =>
        simp only [render]
        simp only [if_false, List.nil_append, if_true, Bool.false_eq_true]
        rw [head_any_append, if_neg (hjn (htr rfl))]
        exact join_win_head h
  · intro hns
    cases tr with
    | true => simp [render, winEndsSep, winSep]
    | false =>
      simp only [render, Bool.false_eq_true, if_false, List.append_nil]
      rw [winEndsSep_append (hjn hns)]
      exact join_win_ends h

theorem winRootLen_name {w z : Str} (h : WinName w) (h0 : winRootLen w = 0) (hz : z = [] ∨ z.head?.any winSep = true) :
    winRootLen (w ++ z) = 0 := by
  rcases hz with rfl | hz
  · simpa using h0
  match w with
  | [] => exact absurd rfl h.1
  | [a] =>
    have ha := h.2 a (by simp)
    match z with
    | [] => rfl
    | [b] =>
      have hb : winSep b = true := by simpa using hz
      have : b ≠ ':' := by rintro rfl; revert hb; decide
      simp [winRootLen, this]
    | b :: c :: z =>
      have hb : winSep b = true := by simpa using hz
      have : b ≠ ':' := by rintro rfl; revert hb; decide
      simp [winRootLen, this, ha]
  | [a, b] =>
    have ha := h.2 a (by simp)
    have hb : b ≠ ':' := by rintro rfl; simp [winRootLen, ha] at h0
    match z with
    | [] => simpa using h0
    | c :: z => simp [winRootLen, ha, hb]
  | a :: b :: c :: w =>
    have ha := h.2 a (by simp)
    have hb : b ≠ ':' := by rintro rfl; simp [winRootLen, ha] at h0
    simp [winRootLen, ha, hb]

/-- The first piece of a text with neither root name nor root directory. -/
theorem winNames_first {s : Str} (h0 : winRootLen s = 0) (hd : winHasDir s = false) {w : Str} {ns : List Str}
    (hn : winNames (winTail s) = w :: ns) : winRootLen w = 0 := by
  rw [winTail_of_zero h0] at hn
  rw [winHasDir, winTail_of_zero h0] at hd
  have hsplit : s = s.takeWhile (!winSep ·) ++ s.dropWhile (!winSep ·) := List.takeWhile_append_dropWhile.symm
  have hw : ∀ c ∈ s.takeWhile (!winSep ·), winSep c = false := by
    intro c hc
    have := mem_takeWhile_imp hc
    simpa using this
  have hne : s.takeWhile (!winSep ·) ≠ [] := by
    intro h
    match s with
    | [] => rw [winNames_nil] at hn; cases hn
    | c :: s =>
      simp only [List.head?_cons, Option.any_some] at hd
      simp [hd] at h
  have hfirst : w = s.takeWhile (!winSep ·) := by
    cases hx : s.dropWhile (!winSep ·) with
    | nil =>
      rw [hx, List.append_nil] at hsplit
      rw [hsplit, winNames_noSep hw, if_neg hne] at hn
      simp at hn
      exact hn.1.symm
    | cons d b =>
      have hdd : winSep d = true := by
        have := head?_dropWhile_sep (q := (!winSep ·)) (s := s) (c := d) (by rw [hx]; rfl)
        simpa using this
      rw [hx] at hsplit
      rw [hsplit, winNames_seg b hw hdd, if_neg hne] at hn
      simp at hn
      exact hn.1.symm
  rw [hfirst]
  rw [hsplit] at h0
  exact winRootLen_prefix h0

theorem winRootLen_render {s : Str} (h0 : winRootLen s = 0) (tr : Bool) (htr : tr = true → winNames (winTail s) ≠ []) :
    winRootLen (render (winHasDir s) (winNames (winTail s)) tr) = 0 := by
  have hm : ∀ w ∈ winNames (winTail s), WinName w := fun w hw => winName_mem hw
  cases hd : winHasDir s with
  | true =>
    have hh : ∀ z, z = join (winNames (winTail s)) ++ (if tr then ['/'] else []) → z.head? ≠ some '/' := by
      rintro z rfl
      by_cases hns : winNames (winTail s) = []
      · have : tr = false := by cases tr; rfl; exact absurd hns (htr rfl)
        simp [hns, this, join]
      · have h1 := join_ne_nil (fun x hx => (hm x hx).isName) hns
        have h2 := join_head_ne (fun x hx => (hm x hx).isName)
        rw [List.head?_append]
        cases hx : (join (winNames (winTail s))).head? with
        | none => simp at hx; exact absurd hx h1
        | some c => rw [hx] at h2; exact h2
    have := hh _ rfl
    have e : render true (winNames (winTail s)) tr = '/' :: (join (winNames (winTail s)) ++ (if tr then ['/'] else [])) := by
      simp [render]
    rw [e]
    generalize join (winNames (winTail s)) ++ (if tr then ['/'] else []) = z at this ⊢
    match z, this with
    | [], _ => rfl
    | [b], _ => simp [winRootLen, winSep]
    | b :: c :: z, this =>
      have hb : b ≠ '/' := by rintro rfl; exact this rfl
      simp [winRootLen, winSep, hb]
  | false =>
    cases hns : winNames (winTail s) with
    | nil =>
      have : tr = false := by cases tr; rfl; exact absurd hns (htr rfl)
      simp [render, this, join, winRootLen]
    | cons w ns =>
      have hw := hm w (by simp [hns])
      have h1 := winNames_first h0 hd hns
      have : ∃ z, render false (w :: ns) tr = w ++ z ∧ (z = [] ∨ z.head?.any winSep = true) := by
        cases ns with
        | nil => cases tr <;> simp [render, join, winSep]
        | cons v ns =>
          refine ⟨'/' :: (join (v :: ns) ++ if tr then ['/'] else []), by simp [render, join_cons], .inr rfl⟩
      obtain ⟨z, hz, hz'⟩ := this
      rw [hz]
      exact winRootLen_name hw h1 hz'

theorem winPrefer_slashed (s : Str) : winPrefer (slashed s) = winPrefer s := by
  simp only [winPrefer, slashed, List.map_map]
  apply List.map_congr_left
  intro c _
  by_cases h : c = '\\'
  · subst h; rfl
  · simp [h]

theorem winSep_slash (c : Char) : winSep (if c = '\\' then '/' else c) = winSep c := by
  by_cases h : c = '\\'
  · subst h; rfl
  · simp [h]

theorem IsRoot.slashed {r : Str} (h : IsRoot r) : IsRoot (slashed r) := by
  cases h with
  | drive a h =>
    have := winSep_slash a
    exact .drive _ (by rw [this]; exact h)
  | unc a c w h hc hw =>
    refine .unc _ _ _ (by rw [winSep_slash]; exact h) (by rw [winSep_slash]; exact hc) ?_
    intro d hd
    obtain ⟨e, he, rfl⟩ := List.mem_map.mp hd
    rw [winSep_slash]; exact hw e he

/-- The parts of the generic text. -/
theorem winGeneric_parts (s : Str) : winRootLen (winGeneric s) = (slashed (winRootName s)).length := by
  have hl : (slashed (winRootName s)).length = winRootLen s := by rw [slashed, List.length_map, winRootName_length]
  have hm : ∀ w ∈ winNames (winTail s), WinName w := fun w hw => winName_mem hw
  have htr : (winEndsSep s && !(winNames (winTail s)).isEmpty) = true → winNames (winTail s) ≠ [] := by simp
  by_cases h0 : winRootLen s = 0
  · have : winRootName s = [] := (winRootName_nil s).mpr h0
    rw [winGeneric, this]
    exact winRootLen_render h0 _ htr
  · obtain ⟨h1, h2⟩ := isRoot_take h0
    have hr : IsRoot (slashed (winRootName s)) := h1.prefer.slashed
    rw [winGeneric]
    apply hr.len
    rw [hl]
    rcases h2 with h2 | h2
    · exact .inl h2
    · right
      have hrf := (render_facts (abs := winHasDir s) hm htr).2.1
      intro c hc
      rw [hc] at hrf
      cases hd : winHasDir s with
      | true => rw [hd] at hrf; simpa using hrf
      | false =>
        exfalso
        have : winTail s = [] := by
          cases hx : winTail s with
          | nil => rfl
          | cons c x =>
            rw [winHasDir, hx] at hd
            have := h2 c (by rw [hx]; rfl)
            simp [this] at hd
        rw [hd, this, winNames_nil] at hc
        simp [render, join] at hc

theorem winElements_generic (s : Str) : winElements (winGeneric s) = winElements s := by
  have hm : ∀ w ∈ winNames (winTail s), WinName w := fun w hw => winName_mem hw
  have htr : (winEndsSep s && !(winNames (winTail s)).isEmpty) = true → winNames (winTail s) ≠ [] := by simp
  obtain ⟨r1, r2, r3⟩ := render_facts (abs := winHasDir s) hm htr
  rw [winGeneric, winElements_parts (winGeneric_parts s), r1, r2, winElements, winPrefer_slashed]
  have hp : winPrefer (winRootName s) = winRootName s := winPrefer_idem _
  have hnil : slashed (winRootName s) = [] ↔ winRootLen s = 0 := by
    rw [← winRootName_nil]; simp [slashed]
  rw [hp]
  congr 1
  · by_cases h0 : winRootLen s = 0
    · rw [if_pos (hnil.mpr h0), if_pos h0]
    · rw [if_neg (fun h => h0 (hnil.mp h)), if_neg h0]
  · by_cases hns : winNames (winTail s) = []
    · simp [hns]
    · rw [r3 hns]; simp [hns]

/-- The elements determine the parts. -/
theorem winElements_inj {s t : Str} (h : winElements s = winElements t) : winRootName s = winRootName t ∧
    winHasDir s = winHasDir t ∧ winNames (winTail s) = winNames (winTail t) ∧
    ((winEndsSep s = true ∧ winNames (winTail s) ≠ []) ↔ (winEndsSep t = true ∧ winNames (winTail t) ≠ [])) := by
  have hnotroot : ∀ (u : Str), winRootLen u = 0 → ∀ e es, winElements u = e :: es → ¬ IsRoot e := by
    intro u h0 e es he hr
    rw [winElements, if_pos h0, List.nil_append] at he
    cases hd : winHasDir u with
    | true => rw [hd] at he; simp at he; rw [← he.1] at hr; cases hr
    | false =>
      rw [hd] at he
      simp only [Bool.false_eq_true, if_false, List.nil_append] at he
      cases hns : winNames (winTail u) with
      | nil => rw [hns] at he; simp at he
      | cons w ns =>
        rw [hns] at he
        simp at he
        have := winNames_first h0 hd hns
        rw [he.1] at this
        have h2 := hr.len [] (.inr (by simp))
        rw [List.append_nil, this] at h2
        cases hr <;> simp at h2
  have hroot : ∀ u, winRootLen u ≠ 0 → IsRoot (winRootName u) := fun u hu => (isRoot_take hu).1.prefer
  have hR : winRootName s = winRootName t ∧ (winRootLen s = 0 ↔ winRootLen t = 0) := by
    by_cases h1 : winRootLen s = 0 <;> by_cases h2 : winRootLen t = 0
    · rw [(winRootName_nil s).mpr h1, (winRootName_nil t).mpr h2]; exact ⟨rfl, by simp [h1, h2]⟩
    · exfalso
      have he : winElements s = winRootName t :: ((if winHasDir t then [['\\']] else []) ++ winNames (winTail t) ++
          (if winEndsSep t ∧ winNames (winTail t) ≠ [] then [[]] else [])) := by
        rw [h, winElements, if_neg h2]; simp
      exact hnotroot s h1 _ _ he (hroot t h2)
    · exfalso
      have he : winElements t = winRootName s :: ((if winHasDir s then [['\\']] else []) ++ winNames (winTail s) ++
          (if winEndsSep s ∧ winNames (winTail s) ≠ [] then [[]] else [])) := by
        rw [← h, winElements, if_neg h1]; simp
      exact hnotroot t h2 _ _ he (hroot s h1)
    · rw [winElements, winElements, if_neg h1, if_neg h2] at h
      simp only [List.singleton_append, List.cons_append, List.cons.injEq] at h
      exact ⟨h.1, by simp [h1, h2]⟩
  have h' : (if winHasDir s then [['\\']] else []) ++ winNames (winTail s) ++
        (if winEndsSep s ∧ winNames (winTail s) ≠ [] then [[]] else []) =
      (if winHasDir t then [['\\']] else []) ++ winNames (winTail t) ++
        (if winEndsSep t ∧ winNames (winTail t) ≠ [] then [[]] else []) := by
    rw [winElements, winElements, hR.1] at h
    simp only [hR.2, List.append_assoc] at h
    simpa using h
  have hdir : ∀ u, winHasDir u = false → ∀ e es, winNames (winTail u) ++
      (if winEndsSep u ∧ winNames (winTail u) ≠ [] then [[]] else []) = e :: es → e ≠ ['\\'] := by
    intro u _ e es he
    cases hns : winNames (winTail u) with
    | nil => rw [hns] at he; simp at he
    | cons w ns =>
      rw [hns] at he
      simp at he
      rintro rfl
      have := (winName_mem (w := w) (by rw [hns]; simp)).2 '\\' (by rw [he.1]; simp)
      revert this; decide
  have hD : winHasDir s = winHasDir t := by
    cases h1 : winHasDir s <;> cases h2 : winHasDir t
    · rfl
    · rw [h1, h2] at h'
      simp only [Bool.false_eq_true, if_false, if_true, List.nil_append, List.append_assoc, List.singleton_append] at h'
      exact absurd rfl (hdir s h1 _ _ h')
    · rw [h1, h2] at h'
      simp only [Bool.false_eq_true, if_false, if_true, List.nil_append, List.append_assoc, List.singleton_append] at h'
      exact absurd rfl (hdir t h2 _ _ h'.symm)
    · rfl
  rw [hD, List.append_assoc, List.append_assoc] at h'
  have h2 := List.append_cancel_left h'
  have hfil : ∀ u : Str, (winNames (winTail u) ++ (if winEndsSep u ∧ winNames (winTail u) ≠ [] then [[]] else [])).filter
      (· ≠ []) = winNames (winTail u) := by
    intro u
    rw [List.filter_append]
    have a1 : (winNames (winTail u)).filter (· ≠ []) = winNames (winTail u) := by
      rw [List.filter_eq_self]
      intro w hw
      simpa using (winName_mem hw).1
    rw [a1]
    split <;> simp
  have h3 : winNames (winTail s) = winNames (winTail t) := by rw [← hfil s, ← hfil t, h2]
  refine ⟨hR.1, hD, h3, ?_⟩
  rw [h3] at h2
  have := List.append_cancel_left h2
  rw [h3]
  by_cases ha : winEndsSep s = true ∧ winNames (winTail t) ≠ []
  · by_cases hb : winEndsSep t = true ∧ winNames (winTail t) ≠ []
    · exact ⟨fun _ => hb, fun _ => ha⟩
    · rw [if_pos ha, if_neg hb] at this; cases this
  · by_cases hb : winEndsSep t = true ∧ winNames (winTail t) ≠ []
    · rw [if_neg ha, if_pos hb] at this; cases this
    · exact ⟨fun h => absurd h ha, fun h => absurd h hb⟩

theorem winGeneric_eq (s t : Str) : winGeneric s = winGeneric t ↔ winElements s = winElements t := by
  constructor
  · intro h; rw [← winElements_generic s, h, winElements_generic]
  · intro h
    obtain ⟨h1, h2, h3, h4⟩ := winElements_inj h
    have : (winEndsSep s && !(winNames (winTail s)).isEmpty) = (winEndsSep t && !(winNames (winTail t)).isEmpty) := by
      rw [Bool.eq_iff_iff]; simpa using h4
    rw [winGeneric, winGeneric, this, h1, h2, h3]

/-- The elements of a parsed path. -/
theorem win_elems {s : Str} (hs : s ≠ []) : (mkPath .windows s).elems = (winComps s).map Comp.toPath := by
  by_cases hsing : ∃ c, winComps s = [c]
  · obtain ⟨c, hc⟩ := hsing
    rw [win_single hc hs, hc]
    obtain ⟨h1, h2, _⟩ := winComps_single hc
    cases hcc : c.type <;> first | exact absurd hcc h2 | simp [Path.elems, Path.isEmpty, h1, Comp.toPath, hcc]
  · rw [win_multi (fun c hc => hsing ⟨c, hc⟩) hs]; rfl

theorem genericGo_files : ∀ (cs : List Comp) (add : Bool) (acc : Str), (∀ c ∈ cs, c.type = .filename) →
    genericGo (cs.map Comp.toPath) add acc = acc ++ (if add ∧ cs ≠ [] then ['/'] else []) ++ join (cs.map Comp.name)
  | [], add, acc, _ => by simp [genericGo, join]
  | c :: cs, add, acc, h => by
    have hc := h c (by simp)
    rw [List.map_cons, genericGo]
    simp only [Comp.toPath, hc, decide_true]
    rw [genericGo_files cs _ _ (fun d hd => h d (by simp [hd]))]
    cases cs with
    | nil => cases add <;> simp [join]
    | cons d ds => cases add <;> simp [join]

theorem win_genericString (s : Str) : genericString (mkPath .windows s) = winGeneric s := by
  by_cases hs : s = []
  · subst hs; rfl
  rw [genericString, win_elems hs, winComps_eq]
  have htk : ∀ c ∈ toks .windows (winRootLen s) (winTail s) ++ winTrail s, c.type = .filename := by
    intro c hc
    rcases List.mem_append.mp hc with hc | hc
    · exact (toks_mem _ _ _ hc).1
    · rw [winTrail] at hc; split at hc
      · simp at hc; rw [hc]
      · cases hc
  have hgo : ∀ acc, genericGo ((toks .windows (winRootLen s) (winTail s) ++ winTrail s).map Comp.toPath) false acc =
      acc ++ (join (winNames (winTail s)) ++ if (winEndsSep s && !(winNames (winTail s)).isEmpty) = true then ['/'] else []) := by
    intro acc
    rw [genericGo_files _ _ _ htk, List.map_append, toks_winNames, winTrail]
    by_cases ht : winEndsSep s = true ∧ winNames (winTail s) ≠ []
    · have ht' : (winEndsSep s && !(winNames (winTail s)).isEmpty) = true := by simpa using ht
      rw [if_pos ht, ht', List.map_cons, List.map_nil, join_concat [] ht.2]
      simp
    · have ht' : (winEndsSep s && !(winNames (winTail s)).isEmpty) = false := by
        rw [← Bool.not_eq_true]; simpa using ht
      rw [if_neg ht, ht']
      simp
  rw [winRootComps, winGeneric, render, List.append_assoc, List.append_assoc, List.map_append]
  by_cases h0 : winRootLen s = 0
  · rw [if_pos h0, (winRootName_nil s).mpr h0]
    cases hd : winHasDir s with
    | true =>
      rw [if_pos rfl]
      simp only [List.map_nil, List.nil_append, List.singleton_append, List.map_cons, genericGo, Comp.toPath]
      have := hgo ['/']
      simpa [slashed] using this
    | false =>
      rw [if_neg (by simp)]
      simp only [List.map_nil, List.nil_append]
      have := hgo []
      simpa [slashed] using this
  · rw [if_neg h0]
    cases hd : winHasDir s with
    | true =>
      rw [if_pos rfl]
      simp only [List.nil_append, List.singleton_append, List.map_cons, List.map_nil, genericGo, Comp.toPath]
      have := hgo (slashed (winRootName s) ++ ['/'])
      simpa [slashed] using this
    | false =>
      rw [if_neg (by simp)]
      simp only [List.nil_append, List.singleton_append, List.map_cons, List.map_nil, genericGo, Comp.toPath]
      have := hgo (slashed (winRootName s))
      simpa [slashed] using this

theorem slashed_clean (s : Str) : '\\' ∉ slashed s := by
  intro h
  obtain ⟨c, _, hc⟩ := List.mem_map.mp h
  split at hc
  · revert hc; decide
  · exact absurd hc (by assumption)

theorem join_clean : ∀ {ns : List Str}, (∀ w ∈ ns, WinName w) → '\\' ∉ join ns
  | [], _ => by simp [join]
  | [w], h => fun hc => by
    have := (h w (by simp)).2 _ hc
    revert this; decide
  | w :: v :: ns, h => by
    rw [join_cons (by simp), List.mem_append, List.mem_cons]
    rintro (hc | hc | hc)
    · have := (h w (by simp)).2 _ hc
      revert this; decide
    · revert hc; decide
    · exact join_clean (fun x hx => h x (List.mem_cons_of_mem _ hx)) hc

/-- Only a network name has two slashes in a row, at the very start. -/
theorem winGeneric_slashes (s : Str) : '\\' ∉ winGeneric s ∧ ¬ ['/', '/'] <:+: (winGeneric s).tail ∧
    (['/', '/'] <+: winGeneric s ↔ winUnc s = true) := by
  have hm : ∀ w ∈ winNames (winTail s), WinName w := fun w hw => winName_mem hw
  have htr : (winEndsSep s && !(winNames (winTail s)).isEmpty) = true → winNames (winTail s) ≠ [] := by simp
  have hnd := noDouble_render (abs := winHasDir s) (fun x hx => (hm x hx).isName) htr
  have hl : (slashed (winRootName s)).length = winRootLen s := by rw [slashed, List.length_map, winRootName_length]
  refine ⟨?_, ?_⟩
  · rw [winGeneric, List.mem_append, render, List.mem_append, List.mem_append]
    rintro (hc | (hc | hc) | hc)
    · exact slashed_clean _ hc
    · split at hc <;> simp at hc
    · exact join_clean hm hc
    · split at hc <;> simp at hc
  · rw [winGeneric, ← noDouble_iff, winUnc]
    generalize render (winHasDir s) (winNames (winTail s)) (winEndsSep s && !(winNames (winTail s)).isEmpty) = X at hnd ⊢
    by_cases h0 : winRootLen s = 0
    · rw [(winRootName_nil s).mpr h0, h0, slashed, List.map_nil, List.nil_append]
      match X, hnd with
      | [], _ => simp [NoDouble]
      | [a], _ => simp [NoDouble]
      | a :: b :: X, hnd =>
        refine ⟨hnd.2, ?_⟩
        have := hnd.1
        simp only [List.cons_prefix_cons, List.nil_prefix, and_true]
        constructor
        · rintro ⟨rfl, rfl⟩; exact absurd ⟨rfl, rfl⟩ this
        · intro h; cases h
    · have hr : IsRoot (slashed (winRootName s)) := (isRoot_take h0).1.prefer.slashed
      have hcl := slashed_clean (winRootName s)
      rw [← hl]
      generalize slashed (winRootName s) = r at hr hcl ⊢
      cases hr with
      | drive a h =>
        refine ⟨noDouble_append (a := [':']) trivial hnd (by simp), ?_⟩
        simp
      | unc a c w h hc hw =>
        have ha : a = '/' := by
          simp only [winSep, Bool.or_eq_true, beq_iff_eq] at h
          rcases h with h | h
          · exact h
          · subst h; simp at hcl
        subst ha
        have hslash : '/' ∉ c :: w := by
          intro h'
          rcases List.mem_cons.mp h' with rfl | h'
          · revert hc; decide
          · have := hw _ h'; revert this; decide
        refine ⟨?_, by simp⟩
        show NoDouble ('/' :: c :: w ++ X)
        apply noDouble_append _ hnd
        · rintro ⟨h1, _⟩
          rw [List.getLast?_cons_cons] at h1
          exact hslash (List.mem_of_getLast? h1)
        · refine ⟨?_, noDouble_name hslash⟩
          rintro ⟨_, rfl⟩
          exact hslash (by simp)

end Asap
