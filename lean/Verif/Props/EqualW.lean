import Verif.Props.WinU

/-!
# C127: equal paths on Windows are interchangeable
-/

namespace Asap
open Spec

/-- The parts of equal paths are the same. -/
theorem winElements_parts_eq {s t : Str} (h : winElements s = winElements t) : winRootName s = winRootName t ∧ winRootLen s = winRootLen t ∧
    winUnc s = winUnc t ∧ winHasDir s = winHasDir t ∧ winNames (winTail s) = winNames (winTail t) ∧ winFile s = winFile t ∧
    winRel s = winRel t := by
  obtain ⟨a, b, c, d⟩ := winElements_inj h
  have hl : winRootLen s = winRootLen t := by rw [← winRootName_length s, ← winRootName_length t, a]
  have hr : winRel s = winRel t := by
    rw [winRel, winRel, c]
    rw [c] at d
    congr 1
    simp only [d]
  refine ⟨a, hl, by rw [winUnc, winUnc, hl], b, c, ?_, hr⟩
  unfold winFile
  rw [c]
  by_cases hn : winNames (winTail t) = []
  · simp [hn]
  · rw [c] at d
    have : winEndsSep s = winEndsSep t := by
      rw [Bool.eq_iff_iff]
      exact ⟨fun e => (d.mp ⟨e, hn⟩).1, fun e => (d.mpr ⟨e, hn⟩).1⟩
    rw [this]

/-- A text continued: what its names are is settled by the names before. -/
theorem winNames_glue {a b x : Str} (ha : a ≠ []) (hb : b ≠ []) (hn : winNames a = winNames b) (he : winEndsSep a = winEndsSep b) :
    winNames (a ++ x) = winNames (b ++ x) := by
  cases h : winEndsSep a with
  | true => rw [winNames_append_end (.inr h), winNames_append_end (.inr (he ▸ h)), hn]
  | false =>
    have key : ∀ a : Str, a ≠ [] → winEndsSep a = false → ∃ c w, winNames a = c ++ [w] ∧ winNames (a ++ x) = c ++ winNames (w ++ x) := by
      intro a ha h
      obtain ⟨c, w, rfl, hw, hc⟩ := win_last_sep a
      have hne : w ≠ [] := by
        rintro rfl
        rw [List.append_nil] at h ha
        rcases hc with hc | hc
        · exact ha hc
        · rw [hc] at h; cases h
      refine ⟨winNames c, w, ?_, ?_⟩
      · rw [winNames_append_end hc, winNames_noSep hw, if_neg hne]
      · rw [List.append_assoc, winNames_append_end hc]
    obtain ⟨c, w, e1, e2⟩ := key a ha h
    obtain ⟨c', w', e3, e4⟩ := key b hb (he ▸ h)
    rw [e1, e3] at hn
    obtain ⟨rfl, hw⟩ := List.append_inj' hn rfl
    cases hw
    rw [e2, e4]

/-- The stored text of a path, continued, has the same root name. -/
theorem winStored_root (s x : Str) (h : winNames (winTail s) ≠ [] ∧ 2 ≤ s.length ∨ winRootLen s ≠ 0 ∧ winHasDir s = true) :
    winRootLen (winStoredRoot s ++ (winStoredRest s ++ x)) = (winStoredRoot s).length := by
  obtain ⟨r1, r2, r3⟩ := winStoredRoot_facts s
  obtain ⟨t1, t2, t3⟩ := winStoredRest_facts s
  by_cases h0 : winRootLen s = 0
  · rw [h0] at r2
    have hR : winStoredRoot s = [] := List.length_eq_zero_iff.mp r2
    obtain ⟨hn, hl⟩ := h.resolve_right (fun h => h.1 h0)
    rw [hR, t3 hn, winTail_of_zero h0, List.nil_append, List.length_nil]
    rw [winTail_of_zero h0] at hn
    match s, hl with
    | [a, b], _ =>
      have hnb : ¬ (winSep a = true ∧ winSep b = true) := by
        rintro ⟨ha, hb⟩
        rw [winNames_sep_cons ha, winNames_sep_cons hb, winNames_nil] at hn
        exact hn rfl
      have hc : ¬ (!winSep a && b == ':') = true := by
        intro hc
        simp only [winRootLen] at h0
        rw [if_pos hc] at h0; cases h0
      cases x with
      | nil => simp only [List.append_nil, winRootLen]; rw [if_neg hc]
      | cons c x =>
        simp only [List.cons_append, List.nil_append, winRootLen]
        rw [if_neg (by
          intro hu
          simp only [Bool.and_eq_true, beq_iff_eq] at hu
          exact hnb ⟨hu.1.1, hu.1.2 ▸ hu.1.1⟩), if_neg hc]
    | a :: b :: c :: rest, _ =>
      simp only [List.cons_append, winRootLen] at h0 ⊢
      split at h0
      · omega
      · rename_i hu
        rw [if_neg hu]
        split at h0
        · cases h0
        · rename_i hc
          rw [if_neg hc]
  · have hroot := r3 h0
    refine hroot.len _ ?_
    by_cases h2 : winRootLen s = 2
    · exact .inl (by rw [r2, h2])
    · right
      intro c hc
      cases hd : winHasDir s with
      | true =>
        rw [hd] at t2
        cases hT : winStoredRest s with
        | nil => rw [hT] at t2; cases t2
        | cons d T =>
          rw [hT] at t2 hc
          simp only [List.cons_append, List.head?_cons, Option.some.injEq] at hc
          simpa [hc] using t2
      | false =>
        exfalso
        have hn : winNames (winTail s) ≠ [] := by
          rcases h with h | h
          · exact h.1
          · rw [hd] at h; cases h.2
        have := (isRoot_take h0).2.resolve_left h2
        rw [winHasDir] at hd
        cases hT : winTail s with
        | nil => rw [hT] at hn; exact hn winNames_nil
        | cons d T =>
          rw [hT] at hd this
          simp [this d rfl] at hd

/-- A path of one character that is a name has no other spelling. -/
theorem win_short {s t : Str} (h : winElements s = winElements t) (hn : winNames (winTail s) ≠ []) (hl : s.length < 2) : t = s := by
  match s, hl with
  | [], _ => exact absurd winNames_nil hn
  | [a], _ =>
    obtain ⟨_, e2, _, e3, e4, _, _⟩ := winElements_parts_eq h
    obtain ⟨_, _, _, e5⟩ := winElements_inj h
    have h0 : winRootLen t = 0 := e2.symm
    rw [winTail_of_zero (s := [a]) rfl] at hn
    have ha : winSep a = false := by
      cases ha : winSep a with
      | false => rfl
      | true => rw [winNames_sep_cons ha] at hn; exact absurd winNames_nil hn
    have hna : winNames [a] = [[a]] := by rw [winNames_noSep (by simpa using ha), if_neg (by simp)]
    have hes : winEndsSep [a] = false := by simp [winEndsSep, ha]
    rw [winTail_of_zero (s := [a]) rfl, winTail_of_zero h0, hna] at e4
    have het : winEndsSep t = false := by
      cases het : winEndsSep t with
      | false => rfl
      | true =>
        have := (e5.mpr ⟨het, by rw [winTail_of_zero h0, ← e4]; simp⟩).1
        rw [hes] at this; cases this
    have hdt : winHasDir t = false := by rw [← e3, winHasDir, winTail_of_zero (s := [a]) rfl]; simpa using ha
    rw [winHasDir, winTail_of_zero h0] at hdt
    obtain ⟨b, w, rfl, hw, hb⟩ := win_last_sep t
    have hwne : w ≠ [] := by
      rintro rfl
      rw [List.append_nil] at het e4
      rcases hb with rfl | hb
      · rw [winNames_nil] at e4; cases e4
      · rw [hb] at het; cases het
    rw [winNames_append_end hb, winNames_noSep hw, if_neg hwne] at e4
    obtain ⟨hb0, hw0⟩ := List.append_inj' (s₁ := []) e4 rfl
    have : b = [] := by
      refine head_of_names_nil hb0.symm ?_
      cases b with
      | nil => rfl
      | cons c b => simpa using hdt
    subst this
    cases hw0
    rfl

theorem winStoredRest_ends {s : Str} (h : winNames (winTail s) = []) (hd : winHasDir s = true) : winEndsSep (winStoredRest s) = true := by
  obtain ⟨t1, t2, _⟩ := winStoredRest_facts s
  rw [hd] at t2
  rw [h] at t1
  cases he : winEndsSep (winStoredRest s) with
  | true => rfl
  | false =>
    obtain ⟨b, w, e, hw, hb⟩ := win_last_sep (winStoredRest s)
    rw [e] at he t1 t2
    have hwne : w ≠ [] := by
      rintro rfl
      rw [List.append_nil] at he t2
      rcases hb with rfl | hb
      · cases t2
      · rw [hb] at he; cases he
    rw [winNames_append_end hb, winNames_noSep hw, if_neg hwne] at t1
    simp at t1

theorem win_concat {s t : Str} (h : winElements s = winElements t) (x : Str) :
    (concat .windows (mkPath .windows s) x).eqv (concat .windows (mkPath .windows t) x) = true := by
  obtain ⟨e1, e2, _, e3, e4, _, _⟩ := winElements_parts_eq h
  obtain ⟨_, _, _, e5⟩ := winElements_inj h
  by_cases hst : s = t
  · subst hst; exact (c57_equal _ _).mpr rfl
  unfold concat
  rw [c57_equal, win_pathname, win_pathname]
  -- texts that are stored in the same way
  have bare : ∀ u : Str, winNames (winTail u) = [] → winHasDir u = false → winStoredRoot u = winRootName u ∧ winStoredRest u = [] := by
    intro u hn hd
    refine ⟨by rw [winStoredRoot, if_pos ⟨hd, hn⟩], ?_⟩
    rw [winHasDir] at hd
    have ht := head_of_names_nil hn hd
    rw [winStoredRest]
    split
    · rename_i h
      rw [winTail_of_zero h.1] at ht
      exact absurd ht h.2.2
    · exact ht
  have slash : ∀ u : Str, winNames (winTail u) = [] → winHasDir u = true → winRootLen u = 0 →
      winStoredRoot u = [] ∧ winStoredRest u = ['\\'] := by
    intro u hn hd h0
    refine ⟨List.length_eq_zero_iff.mp (by rw [(winStoredRoot_facts u).2.1, h0]), ?_⟩
    rw [winStoredRest, if_pos ⟨h0, hn, by rintro rfl; cases hd⟩]
  by_cases hn : winNames (winTail s) = []
  · by_cases hd : winHasDir s = true
    · by_cases h0 : winRootLen s = 0
      · obtain ⟨a1, a2⟩ := slash s hn hd h0
        obtain ⟨b1, b2⟩ := slash t (e4 ▸ hn) (e3 ▸ hd) (e2 ▸ h0)
        rw [a1, a2, b1, b2]
      · have es := winStored_root s x (.inr ⟨h0, hd⟩)
        have et := winStored_root t x (.inr ⟨e2 ▸ h0, e3 ▸ hd⟩)
        rw [List.append_assoc, List.append_assoc, winElements_parts es, winElements_parts et]
        exact parts s t x e1 e2 e3 e4 (by rw [winStoredRest_ends hn hd, winStoredRest_ends (e4 ▸ hn) (e3 ▸ hd)]) (.inl hd)
    · rw [Bool.not_eq_true] at hd
      obtain ⟨a1, a2⟩ := bare s hn hd
      obtain ⟨b1, b2⟩ := bare t (e4 ▸ hn) (e3 ▸ hd)
      rw [a1, a2, b1, b2, e1]
  · have hn' : winNames (winTail t) ≠ [] := e4 ▸ hn
    have ls : 2 ≤ s.length := by
      rcases Nat.lt_or_ge s.length 2 with hl | hl
      · exact absurd (win_short h hn hl).symm hst
      · exact hl
    have lt : 2 ≤ t.length := by
      rcases Nat.lt_or_ge t.length 2 with hl | hl
      · exact absurd (win_short h.symm hn' hl) hst
      · exact hl
    have es := winStored_root s x (.inl ⟨hn, ls⟩)
    have et := winStored_root t x (.inl ⟨hn', lt⟩)
    rw [List.append_assoc, List.append_assoc, winElements_parts es, winElements_parts et]
    have : winEndsSep s = winEndsSep t := by
      rw [Bool.eq_iff_iff]
      exact ⟨fun e => (e5.mp ⟨e, hn⟩).1, fun e => (e5.mpr ⟨e, hn'⟩).1⟩
    exact parts s t x e1 e2 e3 e4 (by rw [winEndsSep_rest hn, winEndsSep_rest hn', this]) (.inr hn)
where
  parts (s t x : Str) (e1 : winRootName s = winRootName t) (e2 : winRootLen s = winRootLen t) (e3 : winHasDir s = winHasDir t)
      (e4 : winNames (winTail s) = winNames (winTail t)) (he : winEndsSep (winStoredRest s) = winEndsSep (winStoredRest t))
      (hne : winHasDir s = true ∨ winNames (winTail s) ≠ []) :
      (if winStoredRoot s = [] then [] else [winPrefer (winStoredRoot s)]) ++
        (if (winStoredRest s ++ x).head?.any winSep then [['\\']] else []) ++ winNames (winStoredRest s ++ x) ++
        (if winEndsSep (winStoredRest s ++ x) ∧ winNames (winStoredRest s ++ x) ≠ [] then [[]] else []) =
      (if winStoredRoot t = [] then [] else [winPrefer (winStoredRoot t)]) ++
        (if (winStoredRest t ++ x).head?.any winSep then [['\\']] else []) ++ winNames (winStoredRest t ++ x) ++
        (if winEndsSep (winStoredRest t ++ x) ∧ winNames (winStoredRest t ++ x) ≠ [] then [[]] else []) := by
    have ne : ∀ u : Str, winHasDir u = true ∨ winNames (winTail u) ≠ [] → winStoredRest u ≠ [] := by
      intro u hu hr
      obtain ⟨t1, t2, _⟩ := winStoredRest_facts u
      rw [hr] at t1 t2
      rcases hu with hu | hu
      · rw [hu] at t2; cases t2
      · exact hu (by rw [← t1, winNames_nil])
    have hs := ne s hne
    have ht := ne t (by rw [← e3, ← e4]; exact hne)
    have hd : ∀ u : Str, winStoredRest u ≠ [] → (winStoredRest u ++ x).head?.any winSep = winHasDir u := by
      intro u hu
      rw [← (winStoredRest_facts u).2.1]
      cases h : winStoredRest u with
      | nil => exact absurd h hu
      | cons c r => rfl
    have hr : (winStoredRoot s = []) = (winStoredRoot t = []) := by
      rw [← List.length_eq_zero_iff, ← List.length_eq_zero_iff, (winStoredRoot_facts s).2.1, (winStoredRoot_facts t).2.1, e2]
    have hnn : winNames (winStoredRest s ++ x) = winNames (winStoredRest t ++ x) :=
      winNames_glue hs ht (by rw [(winStoredRest_facts s).1, (winStoredRest_facts t).1, e4]) he
    have hee : winEndsSep (winStoredRest s ++ x) = winEndsSep (winStoredRest t ++ x) := by
      by_cases hx : x = []
      · rw [hx, List.append_nil, List.append_nil, he]
      · rw [winEndsSep_append hx, winEndsSep_append hx]
    rw [hd s hs, hd t ht, (winStoredRoot_facts s).1, (winStoredRoot_facts t).1, e1, e3, hnn, hee]
    simp only [hr]

/-- The directories of equal paths are equal. -/
theorem win_dir_eq {s t : Str} (h : winElements s = winElements t) : winElements (winDirText s) = winElements (winDirText t) := by
  obtain ⟨e1, _, _, e3, e4, e5, _⟩ := winElements_parts_eq h
  obtain ⟨p, _, p1, _, _, _, p2, _⟩ := c92_remove s
  obtain ⟨q, _, q1, _, _, _, q2, _⟩ := c92_remove t
  rw [← win_names, ← win_names, ← p1, ← q1, p2, q2, e1, e3, e4, e5]

/-- A text with a filename, by its directory and filename. -/
theorem win_whole_eq {u v : Str} (hu : winFile u ≠ []) (hf : winFile u = winFile v)
    (hd : winElements (winDirText u) = winElements (winDirText v)) : winElements u = winElements v := by
  have parts : ∀ w, winFile w ≠ [] → winNames (winTail w) ≠ [] ∧ winEndsSep w = false := by
    intro w hw
    have hw' := mt (winFile_eq_nil w).mpr hw
    refine ⟨fun h => hw' (.inl h), ?_⟩
    cases h : winEndsSep w with
    | false => rfl
    | true => exact absurd (.inr h) hw'
  obtain ⟨n1, n2⟩ := parts u hu
  obtain ⟨m1, m2⟩ := parts v (hf ▸ hu)
  obtain ⟨b, _, _, _, _, _, g6, g7, g8, g9, g10, _⟩ := win_dir_file n1 n2
  obtain ⟨c, _, _, _, _, _, k6, k7, k8, k9, k10, _⟩ := win_dir_file m1 m2
  obtain ⟨e1, e2, _, e3, e4, _, _⟩ := winElements_parts_eq hd
  rw [g7, k7] at e4
  rw [winElements, winElements, ← g8, ← g9, ← g10, ← k8, ← k9, ← k10, e1, e2, e3, g6, k6, e4, hf, n2, m2]

/-- The relative parts of equal paths are equal, even if they begin with what is then a root name. -/
theorem win_rel_eq {u v : Str} (hu : u.head?.any winSep = false) (hv : v.head?.any winSep = false) (hn : winNames u = winNames v)
    (he : winNames u ≠ [] → winEndsSep u = winEndsSep v) : winElements u = winElements v := by
  by_cases h0 : winNames u = []
  · rw [head_of_names_nil h0 hu, head_of_names_nil (hn ▸ h0) hv]
  replace he := he h0
  -- the first name and what follows
  have first : ∀ x : Str, x.head?.any winSep = false → winNames x ≠ [] → ∃ w z, x = w ++ z ∧ w ≠ [] ∧ (∀ c ∈ w, winSep c = false) ∧
      (z = [] ∨ z.head?.any winSep = true) ∧ winNames x = w :: winNames z := by
    intro x hx hne
    induction x using win_induction with
    | h0 w hw =>
      have : w ≠ [] := by rintro rfl; exact hne winNames_nil
      exact ⟨w, [], by simp, this, hw, .inl rfl, by rw [winNames_noSep hw, if_neg this, winNames_nil]⟩
    | h1 w d b hw hd ih =>
      have : w ≠ [] := by rintro rfl; simp [hd] at hx
      exact ⟨w, d :: b, rfl, this, hw, .inr (by simpa using hd), by
        rw [winNames_seg b hw hd, if_neg this, winNames_sep_cons hd]; rfl⟩
  obtain ⟨w, y, rfl, hw, hws, hy, e1⟩ := first u hu h0
  obtain ⟨w', z, rfl, hw', hws', hz, e2⟩ := first v hv (hn ▸ h0)
  rw [e1, e2] at hn
  obtain ⟨rfl, hnn⟩ := List.cons.inj hn
  have hends : ∀ x : Str, x = [] ∨ x.head?.any winSep = true → winEndsSep (w ++ x) = (decide (x ≠ []) && winEndsSep x) := by
    intro x _
    by_cases hx : x = []
    · subst hx
      rw [List.append_nil]
      have : winEndsSep w = false := by
        rw [winEndsSep]
        cases hl : w.getLast? with
        | none => rfl
        | some c => exact hws c (List.mem_of_getLast? hl)
      simp [this]
    · rw [winEndsSep_append hx]; simp [hx]
  rw [hends y hy, hends z hz] at he
  have hyz : y = [] ↔ z = [] := by
    have one : ∀ a b : Str, (b = [] ∨ b.head?.any winSep = true) → winNames a = winNames b →
        (decide (a ≠ []) && winEndsSep a) = (decide (b ≠ []) && winEndsSep b) → a = [] → b = [] := by
      rintro a b hb hab hq rfl
      rcases hb with rfl | hb
      · rfl
      · exfalso
        rw [winNames_nil] at hab
        obtain ⟨b', w', rfl, hw2, hb2⟩ := win_last_sep b
        have hbe : winEndsSep (b' ++ w') = false := by
          have : b' ++ w' ≠ [] := by intro hc; rw [hc] at hb; cases hb
          simpa [this] using hq.symm
        have hw2ne : w' ≠ [] := by
          rintro rfl
          rw [List.append_nil] at hb hbe
          rcases hb2 with rfl | hb2
          · cases hb
          · rw [hb2] at hbe; cases hbe
        rw [winNames_append_end hb2, winNames_noSep hw2, if_neg hw2ne] at hab
        simp at hab
    exact ⟨one y z hz hnn he, one z y hy hnn.symm he.symm⟩
  have hyz' : (y = [] ∧ z = []) ∨ (y ≠ [] ∧ z ≠ [] ∧ winEndsSep y = winEndsSep z) := by
    by_cases h : y = []
    · exact .inl ⟨h, hyz.mp h⟩
    · have h' : z ≠ [] := fun hc => h (hyz.mpr hc)
      exact .inr ⟨h, h', by simpa [h, h'] using he⟩
  rcases hyz' with ⟨rfl, rfl⟩ | ⟨hy0, hz0, hee⟩
  · rfl
  have hyh : y.head?.any winSep = true := hy.resolve_left hy0
  have hzh : z.head?.any winSep = true := hz.resolve_left hz0
  by_cases hr : winRootLen w = 0
  · have k : ∀ x : Str, x.head?.any winSep = true → winRootLen ([] ++ (w ++ x)) = ([] : Str).length := by
      intro x hx
      have : winRootLen (w ++ x) = 0 := winRootLen_name ⟨hw, hws⟩ hr (.inr hx)
      exact this
    have e := winElements_parts (k y hyh)
    have e' := winElements_parts (k z hzh)
    rw [List.nil_append] at e e'
    have hh : ∀ x : Str, (w ++ x).head? = w.head? := by
      intro x
      cases w with
      | nil => exact absurd rfl hw
      | cons c w => rfl
    rw [e, e', hh, hh, e1, e2, hnn, winEndsSep_append hy0, winEndsSep_append hz0, hee]
  · -- a drive
    have hwd : ∃ a w2, w = a :: ':' :: w2 ∧ winSep a = false := by
      match w with
      | [] => exact absurd rfl hw
      | [_] => exact absurd rfl hr
      | a :: b :: w2 =>
        have ha := hws a (by simp)
        refine ⟨a, w2, ?_, ha⟩
        have : b = ':' := by
          apply Classical.byContradiction
          intro hb
          apply hr
          cases w2 <;> simp [winRootLen, ha, hb]
        rw [this]
    obtain ⟨a, w2, rfl, ha⟩ := hwd
    have k : ∀ x : Str, winRootLen ([a, ':'] ++ (w2 ++ x)) = [a, ':'].length := by
      intro x
      show winRootLen (a :: ':' :: (w2 ++ x)) = 2
      cases w2 ++ x <;> simp [winRootLen, ha]
    have e := winElements_parts (k y)
    have e' := winElements_parts (k z)
    have hh : ∀ x : Str, x.head?.any winSep = true → (w2 ++ x).head?.any winSep = decide (w2 = []) := by
      intro x hx
      cases w2 with
      | nil => simpa using hx
      | cons c w2 =>
        have := hws c (by simp)
        simp [this]
    have hnames : ∀ x : Str, x.head?.any winSep = true → winNames (w2 ++ x) = (if w2 = [] then [] else [w2]) ++ winNames x := by
      intro x hx
      cases x with
      | nil => cases hx
      | cons d x =>
        have hd : winSep d = true := by simpa using hx
        rw [winNames_seg x (fun c hc => hws c (by simp [hc])) hd, winNames_sep_cons hd]
    show winElements ([a, ':'] ++ (w2 ++ y)) = winElements ([a, ':'] ++ (w2 ++ z))
    rw [e, e', hh y hyh, hh z hzh, hnames y hyh, hnames z hzh, hnn, winEndsSep_append hy0, winEndsSep_append hz0, hee]

theorem head_dropWhile_winSep (x : Str) : (x.dropWhile winSep).head?.any winSep = false := by
  cases h : (x.dropWhile winSep).head? with
  | none => rfl
  | some c => exact head?_dropWhile_sep h

theorem winRelative_ends {s : Str} (hn : winNames (winTail s) ≠ []) : winEndsSep (winRelative s) = winEndsSep s := by
  have hne : winRelative s ≠ [] := by rw [ne_eq, winRelative_nil]; exact hn
  have e : s = s.take (winRootLen s) ++ ((winTail s).takeWhile winSep ++ winRelative s) := by
    rw [winRelative, List.takeWhile_append_dropWhile, winTail, List.take_append_drop]
  conv => rhs; rw [e]
  rw [← List.append_assoc, winEndsSep_append hne]

/-- A text with a filename is stored as it is. -/
theorem win_text_of_file {s : Str} (hf : winFile s ≠ []) : (mkPath .windows s).pathname = s := by
  have hs : s ≠ [] := by rintro rfl; exact hf rfl
  by_cases hsing : ∃ c, winComps s = [c]
  · obtain ⟨c, hc⟩ := hsing
    obtain ⟨init, h1, h2⟩ := winComps_dir_file hf
    rw [win_single hc hs]
    rw [hc] at h1
    have : c = ⟨winFile s, .filename, (winDirText s).length⟩ := by
      have := congrArg List.getLast? h1
      simpa using this
    exact (winComps_single hc).2.2.2 (by rw [this])
  · rw [win_multi (fun c hc => hsing ⟨c, hc⟩) hs]

/-- C127. What the observers say of equal paths on Windows is the same; only `native()` and its like tell them apart. -/
theorem c127_observers {s t : Str} (h : (mkPath .windows s).eqv (mkPath .windows t) = true) :
    (mkPath .windows s).names = (mkPath .windows t).names ∧
    genericString (mkPath .windows s) = genericString (mkPath .windows t) ∧
    isAbsolute .windows (mkPath .windows s) = isAbsolute .windows (mkPath .windows t) ∧
    hasRootName (mkPath .windows s) = hasRootName (mkPath .windows t) ∧
    (rootName (mkPath .windows s)).pathname = (rootName (mkPath .windows t)).pathname ∧
    hasRootDirectory .windows (mkPath .windows s) = hasRootDirectory .windows (mkPath .windows t) ∧
    textOf (rootDirectory .windows (mkPath .windows s)) = textOf (rootDirectory .windows (mkPath .windows t)) ∧
    hasFilename .windows (mkPath .windows s) = hasFilename .windows (mkPath .windows t) ∧
    textOf (filename .windows (mkPath .windows s)) = textOf (filename .windows (mkPath .windows t)) ∧
    hasStem (mkPath .windows s) = hasStem (mkPath .windows t) ∧
    hasExtension (mkPath .windows s) = hasExtension (mkPath .windows t) ∧
    (stem .windows (mkPath .windows s)).pathname = (stem .windows (mkPath .windows t)).pathname ∧
    (extension .windows (mkPath .windows s)).pathname = (extension .windows (mkPath .windows t)).pathname ∧
    ∀ f, hashValue f (mkPath .windows s) = hashValue f (mkPath .windows t) := by
  have hw := (c57_equal s t).mp h
  obtain ⟨e1, e2, e3, e4, e5, e6, e7⟩ := winElements_parts_eq hw
  obtain ⟨_, _, _, d⟩ := winElements_inj hw
  have hends : winNames (winTail s) ≠ [] → winEndsSep s = winEndsSep t := by
    intro hn
    rw [Bool.eq_iff_iff]
    exact ⟨fun e => (d.mp ⟨e, hn⟩).1, fun e => (d.mpr ⟨e, e5 ▸ hn⟩).1⟩
  refine ⟨by rw [win_names, win_names, hw], ?_, by rw [win_isAbsolute, win_isAbsolute, e3, e4],
    by rw [win_hasRootName, win_hasRootName, e2], by rw [win_rootName, win_rootName, e1],
    by rw [win_hasRootDirectory, win_hasRootDirectory, e4], ?_, ?_, ?_, ?_, ?_, by rw [win_stem, win_stem, e6],
    by rw [win_extension, win_extension, e6], fun f => c89_hash (.parsed s) (.parsed t) f h⟩
  · rw [win_genericString, win_genericString, winGeneric, winGeneric, e1, e4, e5]
    by_cases hn : winNames (winTail t) = []
    · simp [hn]
    · rw [hends (e5 ▸ hn)]
  · obtain ⟨q, h1, h2⟩ := win_rootDirectory s
    obtain ⟨q', h1', h2'⟩ := win_rootDirectory t
    rw [h1, h1']
    show Except.ok q.pathname = Except.ok q'.pathname
    rw [h2, h2', e4]
  · rw [win_hasFilename, win_hasFilename]
    congr 1
    rw [decide_eq_decide]
    constructor
    · rintro ⟨h1, h2⟩; exact ⟨e5 ▸ h1, by rw [← hends h1]; exact h2⟩
    · rintro ⟨h1, h2⟩; rw [← e5] at h1; exact ⟨h1, by rw [hends h1]; exact h2⟩
  · obtain ⟨q, h1, h2⟩ := win_filename s
    obtain ⟨q', h1', h2'⟩ := win_filename t
    rw [h1, h1']
    show Except.ok q.pathname = Except.ok q'.pathname
    rw [h2, h2', e6]
  · rw [hasStem, hasStem, win_findExtension, win_findExtension, e6]
  · rw [hasExtension, hasExtension, win_findExtension, win_findExtension, e6]

/-- C127. The same operation on equal paths on Windows gives equal paths. -/
theorem c127_operations {s t x y : Str} (h : (mkPath .windows s).eqv (mkPath .windows t) = true)
    (hx : (mkPath .windows x).eqv (mkPath .windows y) = true) :
    (∃ p q, append .windows (mkPath .windows s) (mkPath .windows x) = .ok p ∧
      append .windows (mkPath .windows t) (mkPath .windows y) = .ok q ∧ p.eqv q = true) ∧
    (∀ z, (concat .windows (mkPath .windows s) z).eqv (concat .windows (mkPath .windows t) z) = true) ∧
    (∃ p q, removeFilename .windows (mkPath .windows s) = .ok p ∧ removeFilename .windows (mkPath .windows t) = .ok q ∧
      p.eqv q = true) ∧
    (∃ p q, replaceFilename .windows (mkPath .windows s) (mkPath .windows x) = .ok p ∧
      replaceFilename .windows (mkPath .windows t) (mkPath .windows y) = .ok q ∧ p.eqv q = true) ∧
    (∀ e : Path, ∃ p q, replaceExtension .windows (mkPath .windows s) e = .ok p ∧
      replaceExtension .windows (mkPath .windows t) e = .ok q ∧ p.eqv q = true) ∧
    (∃ p q, relativePath .windows (mkPath .windows s) = .ok p ∧ relativePath .windows (mkPath .windows t) = .ok q ∧
      p.names = q.names) ∧
    (rootPath .windows (mkPath .windows s)).pathname = (rootPath .windows (mkPath .windows t)).pathname := by
  have hw := (c57_equal s t).mp h
  have hwx := (c57_equal x y).mp hx
  have happ : ∀ {s t : Str}, winElements s = winElements t → ∃ p q, append .windows (mkPath .windows s) (mkPath .windows x) = .ok p ∧
      append .windows (mkPath .windows t) (mkPath .windows y) = .ok q ∧ p.eqv q = true := by
    intro s t hw
    obtain ⟨u, h1, h2⟩ := win_append s x
    obtain ⟨v, h3, h4⟩ := win_append t y
    refine ⟨_, _, h1, h3, (c57_equal u v).mpr ?_⟩
    obtain ⟨e1, e2, e3, e4, e5, e6, e7⟩ := winElements_parts_eq hw
    obtain ⟨f1, f2, f3, f4, f5, f6, f7⟩ := winElements_parts_eq hwx
    obtain ⟨_, _, _, d⟩ := winElements_inj hwx
    have d' : (winNames (winTail x) ≠ [] ∧ winEndsSep x = true) ↔ (winNames (winTail y) ≠ [] ∧ winEndsSep y = true) := by
      rw [And.comm, d, And.comm]
    rw [h2, h4, winAppended, winAppended, hwx, f1, f4, f5, e1, e2, e3, e4, e5]
    rw [f5] at d d'
    simp only [d, d']
  obtain ⟨e1, e2, e3, e4, e5, e6, e7⟩ := winElements_parts_eq hw
  refine ⟨happ hw, win_concat hw, ?_, ?_, ?_, ?_, ?_⟩
  · exact ⟨_, _, win_removeFilename s, win_removeFilename t, (c57_equal _ _).mpr (win_dir_eq hw)⟩
  · obtain ⟨p, q, h1, h2, h3⟩ := happ (win_dir_eq hw)
    refine ⟨p, q, ?_, ?_, h3⟩
    · rw [replaceFilename, win_removeFilename]; exact h1
    · rw [replaceFilename, win_removeFilename]; exact h2
  · intro e
    obtain ⟨b, b1, b2, _⟩ := c93_replace_extension s e
    obtain ⟨c, c1, c2, _⟩ := c93_replace_extension t e
    refine ⟨_, _, b2, c2, ?_⟩
    rw [win_extension] at b1 c1
    by_cases hx : extOf (winFile s) = []
    · rw [hx, List.append_nil] at b1
      rw [← e6, hx, List.append_nil] at c1
      rw [b1, c1]
      exact win_concat hw _
    · have hf : winFile s ≠ [] := by intro hc; rw [hc] at hx; exact hx rfl
      obtain ⟨b', k1, k2, k3⟩ := win_eraseExtension s
      obtain ⟨c', l1, l2, l3⟩ := win_eraseExtension t
      have hb : b = winDirText s ++ stemOf (winFile s) := by
        rw [← k3 hf]; exact List.append_cancel_right (b1.trans k2.symm)
      have hc : c = winDirText t ++ stemOf (winFile t) := by
        rw [← l3 (e6 ▸ hf)]; exact List.append_cancel_right (c1.trans l2.symm)
      obtain ⟨m1, m2⟩ := win_change_ext (b := []) hf (.inl rfl) (by simp)
      obtain ⟨n1, n2⟩ := win_change_ext (s := t) (b := []) (e6 ▸ hf) (.inl rfl) (by simp)
      rw [List.append_nil, List.append_nil, ← hb] at m1
      rw [List.append_nil, ← hb] at m2
      rw [List.append_nil, List.append_nil, ← hc] at n1
      rw [List.append_nil, ← hc] at n2
      have hbf : winFile b ≠ [] := by rw [m1]; exact stemOf_ne_nil hf
      have hcf : winFile c ≠ [] := by rw [n1]; exact stemOf_ne_nil (e6 ▸ hf)
      have hbc : winElements b = winElements c :=
        win_whole_eq hbf (by rw [m1, n1, e6]) (by rw [m2, n2]; exact win_dir_eq hw)
      have := win_concat hbc (if e.pathname = [] then [] else if e.pathname.head? = some '.' then e.pathname else '.' :: e.pathname)
      unfold concat at this
      rwa [win_text_of_file hbf, win_text_of_file hcf] at this
  · obtain ⟨p, h1, h2⟩ := win_relativePath s
    obtain ⟨q, h3, h4⟩ := win_relativePath t
    refine ⟨p, q, h1, h3, ?_⟩
    have hp : p.names = winElements (winRelative s) := by
      rcases h2 with rfl | ⟨rfl, h2⟩
      · rw [win_names]
      · rw [h2]; rfl
    have hq : q.names = winElements (winRelative t) := by
      rcases h4 with rfl | ⟨rfl, h4⟩
      · rw [win_names]
      · rw [h4]; rfl
    obtain ⟨_, _, _, d⟩ := winElements_inj hw
    rw [hp, hq]
    refine win_rel_eq (head_dropWhile_winSep _) (head_dropWhile_winSep _) ?_ ?_
    · rw [winRelative, winRelative, winNames_dropWhile, winNames_dropWhile, e5]
    · intro hn
      rw [winRelative, winNames_dropWhile] at hn
      have hn' : winNames (winTail t) ≠ [] := e5 ▸ hn
      rw [winRelative_ends hn, winRelative_ends hn', Bool.eq_iff_iff]
      exact ⟨fun e => (d.mp ⟨e, hn⟩).1, fun e => (d.mpr ⟨e, hn'⟩).1⟩
  · have : winRootPath s = winRootPath t := by rw [winRootPath, winRootPath, e1, e4]
    rcases win_rootPath s with h1 | ⟨h1, h1'⟩ <;> rcases win_rootPath t with h2 | ⟨h2, h2'⟩
    · rw [h1, h2, this]
    · rw [h1, h2, this, h2']; rfl
    · rw [h1, h2, ← this, h1']; rfl
    · rw [h1, h2]

/-- Equal paths have the same element objects. -/
theorem win_comps_eq {s t : Str} (h : winElements s = winElements t) : (winComps s).map Comp.toPath = (winComps t).map Comp.toPath := by
  obtain ⟨e1, e2, _, e3, e4, _, _⟩ := winElements_parts_eq h
  obtain ⟨_, _, _, d⟩ := winElements_inj h
  have htoks : ∀ (off : Nat) (x : Str), (toks .windows off x).map Comp.toPath = (winNames x).map fun n => ⟨n, [], .filename⟩ := by
    intro off x
    rw [← toks_winNames x off, List.map_map]
    apply List.map_congr_left
    intro c hc
    show (⟨c.name, [], c.type⟩ : Path) = ⟨c.name, [], .filename⟩
    rw [(toks_mem _ _ _ hc).1]
  have hroot : ∀ u : Str, (winRootComps u).map Comp.toPath = (if winRootLen u = 0 then [] else [⟨winRootName u, [], .rootName⟩]) ++
      (if winHasDir u then [⟨['\\'], [], .rootDir⟩] else []) := by
    intro u
    rw [winRootComps, List.map_append]
    congr 1 <;> split <;> rfl
  have htrail : ∀ u : Str, (winTrail u).map Comp.toPath = if winEndsSep u = true ∧ winNames (winTail u) ≠ [] then [⟨[], [], .filename⟩] else [] := by
    intro u
    rw [winTrail]
    split <;> rfl
  simp only [winComps_eq, List.map_append, htoks, hroot, htrail, e1, e2, e3]
  rw [e4] at d ⊢
  simp only [d]

theorem win_nil_eq {s t : Str} (h : winElements s = winElements t) : s = [] ↔ t = [] := by
  have k : ∀ u, winElements u = [] → u = [] := by
    intro u hu
    apply Classical.byContradiction
    intro hne
    have := win_names u
    rw [hu, Path.names, win_elems hne, List.map_map] at this
    exact winComps_ne hne (List.map_eq_nil_iff.mp this)
  constructor
  · rintro rfl; exact k t (by rw [← h]; rfl)
  · rintro rfl; exact k s (by rw [h]; rfl)

theorem win_elems_eq {s t : Str} (h : winElements s = winElements t) : (mkPath .windows s).elems = (mkPath .windows t).elems := by
  by_cases hs : s = []
  · rw [hs, (win_nil_eq h).mp hs]
  · rw [win_elems hs, win_elems (fun ht => hs ((win_nil_eq h).mpr ht)), win_comps_eq h]

/-- `parent_path` looks at names and types only. -/
theorem parentComps_map {a b : List Comp} (h : a.map Comp.toPath = b.map Comp.toPath) :
    (parentComps a).map (List.map Comp.toPath) = (parentComps b).map (List.map Comp.toPath) := by
  have hl := congrArg List.getLast? h
  rw [List.getLast?_map, List.getLast?_map] at hl
  have hd : a.dropLast.map Comp.toPath = b.dropLast.map Comp.toPath := by rw [List.map_dropLast, List.map_dropLast, h]
  have hdd : a.dropLast.dropLast.map Comp.toPath = b.dropLast.dropLast.map Comp.toPath := by
    simp only [List.map_dropLast, h]
  have hnil : a.dropLast = [] ↔ b.dropLast = [] := by
    rw [← List.map_eq_nil_iff (f := Comp.toPath), hd, List.map_eq_nil_iff]
  unfold parentComps
  cases ha : a.getLast? with
  | none =>
    cases hb : b.getLast? with
    | none => rfl
    | some d => rw [ha, hb] at hl; cases hl
  | some c =>
    cases hb : b.getLast? with
    | none => rw [ha, hb] at hl; cases hl
    | some d =>
      rw [ha, hb] at hl
      have hn : c.name = d.name := congrArg Path.pathname (Option.some.inj hl)
      simp only [hn, hnil]
      split
      · split
        · rfl
        · exact congrArg Except.ok hdd
      · exact congrArg Except.ok hd

theorem rejoin_map (pl : Plat) : ∀ {a b : List Comp} (acc : Str), a.map Comp.toPath = b.map Comp.toPath → rejoin pl a acc = rejoin pl b acc
  | [], [], _, _ => rfl
  | [c], [d], acc, h => by
    have hn : c.name = d.name := congrArg Path.pathname (List.cons.inj h).1
    simp only [rejoin, hn]
  | c :: c' :: cs, d :: d' :: ds, acc, h => by
    have hn : c.name = d.name := congrArg Path.pathname (List.cons.inj h).1
    simp only [rejoin, hn]
    exact rejoin_map pl _ (List.cons.inj h).2
  | [_], _ :: _ :: _, _, h => by simp at h
  | _ :: _ :: _, [_], _, h => by simp at h
  | [], _ :: _, _, h => by simp at h
  | _ :: _, [], _, h => by simp at h

/-- C127. The lexical operations on equal paths on Windows give the very same result, and so do `parent_path`, but for the
positions of the elements, and `has_parent_path`. -/
theorem c127_lexical {s t x y : Str} (el : Bool) (h : (mkPath .windows s).eqv (mkPath .windows t) = true)
    (hx : (mkPath .windows x).eqv (mkPath .windows y) = true) :
    lexicallyNormal .windows el (mkPath .windows s) = lexicallyNormal .windows el (mkPath .windows t) ∧
    lexicallyRelative .windows (mkPath .windows s) (mkPath .windows x) = lexicallyRelative .windows (mkPath .windows t) (mkPath .windows y) ∧
    (∃ p q, parentPath .windows el (mkPath .windows s) = .ok p ∧ parentPath .windows el (mkPath .windows t) = .ok q ∧
      p.names = q.names ∧ (p.pathname = [] ↔ q.pathname = []) ∧
      (winNames (winTail s) ≠ [] → p.pathname = q.pathname)) := by
  have hw := (c57_equal s t).mp h
  have hwx := (c57_equal x y).mp hx
  obtain ⟨e1, e2, e3, e4, e5, e6, e7⟩ := winElements_parts_eq hw
  obtain ⟨f1, f2, f3, f4, f5, f6, f7⟩ := winElements_parts_eq hwx
  have hnil : ∀ u, (mkPath .windows u).pathname = [] ↔ u = [] := by
    intro u
    rw [(Spec.WinValue.parsed u).good.empty, win_names]
    constructor
    · intro hu
      exact (win_nil_eq (s := []) (t := u) hu.symm).mp rfl
    · rintro rfl; rfl
  have hemp : ∀ u, (mkPath .windows u).isEmpty = decide (u = []) := by
    intro u
    have := hnil u
    by_cases hu : u = []
    · subst hu; rfl
    · rw [decide_eq_false hu, Path.isEmpty, List.isEmpty_eq_false_iff]
      exact fun h => hu (this.mp h)
  refine ⟨?_, ?_, ?_⟩
  · simp only [lexicallyNormal, win_elems_eq hw, hemp, win_nil_eq hw]
  · have hr : (rootName (mkPath .windows s)).eqv (rootName (mkPath .windows x)) =
        (rootName (mkPath .windows t)).eqv (rootName (mkPath .windows y)) := by
      rw [win_rootName_eqv, win_rootName_eqv, e1, f1]
    simp only [lexicallyRelative, hr, win_isAbsolute, win_hasRootDirectory, win_elems_eq hw, win_elems_eq hwx, e3, e4, f3, f4]
  · obtain ⟨p, h1, h2, _, _⟩ := c92_parent_partial s el
    obtain ⟨q, k1, k2, _, _⟩ := c92_parent_partial t el
    refine ⟨p, q, h1, k1, ?_⟩
    by_cases hn : winNames (winTail s) = []
    · rw [h2 hn, k2 (e5 ▸ hn), win_names, win_names, hw]
      refine ⟨rfl, ?_, fun h => absurd hn h⟩
      rw [hnil, hnil, win_nil_eq hw]
    · have hs : s ≠ [] := by rintro rfl; exact hn rfl
      have ht : t ≠ [] := fun h => hs ((win_nil_eq hw).mpr h)
      have hrel : hasRelativePath .windows (mkPath .windows s) = .ok true ∧ hasRelativePath .windows (mkPath .windows t) = .ok true := by
        have : ∀ u, winNames (winTail u) ≠ [] → hasRelativePath .windows (mkPath .windows u) = .ok true := by
          intro u hu
          obtain ⟨r, r1, r2⟩ := win_relativePath u
          have hne : winRelative u ≠ [] := by rw [ne_eq, winRelative_nil]; exact hu
          rcases r2 with rfl | ⟨_, r2⟩
          · rw [hasRelativePath, r1]
            show Except.ok (!(mkPath .windows (winRelative u)).isEmpty) = _
            rw [hemp, decide_eq_false hne]; rfl
          · exact absurd r2 hne
        exact ⟨this s hn, this t (e5 ▸ hn)⟩
      have hlen : (winComps s).length = (winComps t).length := by simpa using congrArg List.length (win_comps_eq hw)
      by_cases hsing : ∃ c, winComps s = [c]
      · obtain ⟨c, hc⟩ := hsing
        have : ∃ d, winComps t = [d] := by
          rw [hc] at hlen
          exact List.length_eq_one_iff.mp hlen.symm
        obtain ⟨d, hd⟩ := this
        have hm := win_comps_eq hw
        rw [hc, hd] at hm
        have hcd := (List.cons.inj hm).1
        have : mkPath .windows s = mkPath .windows t := by
          rw [win_single hc hs, win_single hd ht]; exact hcd
        rw [this, k1, Except.ok.injEq] at h1
        subst h1
        exact ⟨rfl, Iff.rfl, fun _ => rfl⟩
      · have hsing' : ∀ d, winComps t ≠ [d] := by
          intro d hd
          rw [hd] at hlen
          exact hsing (List.length_eq_one_iff.mp hlen)
        have hm := parentComps_map (win_comps_eq hw)
        have ps : parentPath .windows el (mkPath .windows s) = (parentComps (winComps s)).map fun kept =>
            returned .windows el ⟨rejoin .windows kept [], kept, .multi⟩ := by
          simp only [parentPath, hrel.1, bind, Except.bind, pure, Except.pure]
          rw [win_multi (fun c hc => hsing ⟨c, hc⟩) hs]
          simp only [Bool.not_true, Bool.false_eq_true, if_false, if_true]
          cases parentComps (winComps s) <;> rfl
        have pt : parentPath .windows el (mkPath .windows t) = (parentComps (winComps t)).map fun kept =>
            returned .windows el ⟨rejoin .windows kept [], kept, .multi⟩ := by
          simp only [parentPath, hrel.2, bind, Except.bind, pure, Except.pure]
          rw [win_multi hsing' ht]
          simp only [Bool.not_true, Bool.false_eq_true, if_false, if_true]
          cases parentComps (winComps t) <;> rfl
        rw [ps] at h1
        rw [pt] at k1
        cases ha : parentComps (winComps s) with
        | error e => rw [ha] at h1; cases h1
        | ok a =>
          cases hb : parentComps (winComps t) with
          | error e => rw [hb] at k1; cases k1
          | ok b =>
            rw [ha, hb] at hm
            rw [ha] at h1
            rw [hb] at k1
            have hab : a.map Comp.toPath = b.map Comp.toPath := Except.ok.inj hm
            have hp : p = returned .windows el ⟨rejoin .windows a [], a, .multi⟩ := (Except.ok.inj h1).symm
            have hq : q = returned .windows el ⟨rejoin .windows b [], b, .multi⟩ := (Except.ok.inj k1).symm
            have hj := rejoin_map .windows [] hab
            rw [hp, hq, hj]
            cases el with
            | false => exact ⟨rfl, Iff.rfl, fun _ => rfl⟩
            | true =>
              refine ⟨?_, Iff.rfl, fun _ => rfl⟩
              show (Path.elems ⟨_, a, .multi⟩).map Path.pathname = (Path.elems ⟨_, b, .multi⟩).map Path.pathname
              simp only [Path.elems, hab]

/-- Two spellings of one path, with both kinds of separators and a run of them. -/
example : (mkPath .windows "c:\\a//b.x".toList).eqv (mkPath .windows "c:/a\\b.x".toList) = true ∧
    (mkPath .windows "c:\\a//b.x".toList).pathname ≠ (mkPath .windows "c:/a\\b.x".toList).pathname := by decide

end Asap
