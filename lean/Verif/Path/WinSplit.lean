import Verif.Path.Total
import Verif.Path.WinSpec

/-!
# Closed form of `SplitComponents` on Windows
-/

namespace Asap
open Spec

theorem isSep_windows (c : Char) : isSep .windows c = winSep c := by
  simp [isSep, winSep]

theorem preferSlashes_windows (s : Str) : preferSlashes .windows s = winPrefer s := rfl

/-- Parsing in terms of the root part, on both platforms. -/
theorem split_some {pl : Plat} {s : Str} {root : List Comp} {pos0 : Nat} (hs : s ≠ [])
    (hr : splitRoot pl s = some (root, pos0)) (hpos : pos0 ≤ s.length) (hroot : ∀ c ∈ root, c.type ≠ .filename) :
    splitComponents pl s = .ok (trim ⟨s, root ++ toks pl pos0 (s.drop pos0) ++
      (if s.getLast?.any (isSep pl) = true ∧ toks pl pos0 (s.drop pos0) ≠ [] then [⟨[], .filename, s.length⟩] else []),
      .multi⟩) := by
  obtain ⟨q, htot⟩ := splitComponents_total pl s
  obtain ⟨lc, hlc⟩ : ∃ lc, s.getLast? = some lc := by
    rw [← Option.isSome_iff_exists]; simp [hs]
  have sp := scan_spec pl s (s.drop pos0) pos0 pos0 root (Nat.le_refl _) (by simp; omega) rfl
  simp only [Nat.sub_self, List.take_zero] at sp
  obtain ⟨hb1, hb2, hcomps, hiff⟩ := sp
  rw [show toksGo pl (s.drop pos0) pos0 [] = toks pl pos0 (s.drop pos0) from rfl] at hcomps
  unfold splitComponents at htot ⊢
  simp only [hlc, hr] at htot ⊢
  rw [show max pos0 s.length = s.length by omega] at htot ⊢
  by_cases hback : (scanLoop pl s (s.drop pos0) pos0 pos0 root).1 = s.length
  · rw [if_pos hback, List.append_nil] at hcomps
    rw [if_neg (by simp [hback])] at htot ⊢
    simp only [hcomps] at htot ⊢
    by_cases hsep : isSep pl lc = true
    · simp only [hsep, if_true] at htot ⊢
      by_cases ht : toks pl pos0 (s.drop pos0) = []
      · rw [ht, List.append_nil] at htot ⊢
        cases hl : root.getLast? with
        | none => rw [hl] at htot; cases htot
        | some c =>
          have hc := hroot c (List.mem_of_getLast? hl)
          simp [hc]
      · obtain ⟨c, hc⟩ : ∃ c, (toks pl pos0 (s.drop pos0)).getLast? = some c := by
          rw [← Option.isSome_iff_exists]; simp [ht]
        have hl : (root ++ toks pl pos0 (s.drop pos0)).getLast? = some c := by
          rw [List.getLast?_append]; simp [hc]
        have hty := (toks_mem (s.drop pos0) pos0 c (List.mem_of_getLast? hc)).1
        simp [hl, hty, hsep, ht]
    · simp [hsep]
  · rw [if_neg hback] at hcomps
    rw [if_pos hback]
    simp only [hcomps]
    have hne : s.drop pos0 ≠ [] := by
      intro h
      apply hback
      rw [h]
      have : s.length ≤ pos0 := by simpa using h
      simp [scanLoop]; omega
    have hnsep : ¬ isSep pl lc = true := by
      intro h
      apply hback
      refine (hiff hne).mpr ⟨lc, ?_, h⟩
      rw [List.getLast?_drop, if_neg (by simp at hne; omega)]
      exact hlc
    simp [hnsep]

theorem drop_takeWhile_length (q : Char → Bool) : ∀ s : Str, s.drop (s.takeWhile q).length = s.dropWhile q
  | [] => rfl
  | c :: s => by
    by_cases h : q c = true
    · simp [h, drop_takeWhile_length q s]
    · simp [h]

/-- The position of the end of a root name. -/
theorem findSep_eq (pl : Plat) : ∀ (s : Str) (pos : Nat), findSep pl s pos = pos + (s.takeWhile (!isSep pl ·)).length
  | [], pos => by simp [findSep]
  | c :: cs, pos => by
    by_cases h : isSep pl c = true
    · simp [findSep, h]
    · simp only [findSep, h]
      rw [if_neg (by simp), findSep_eq pl cs (pos + 1)]
      simp [h]; omega

/-- Root elements of a Windows text. -/
def winRootComps (s : Str) : List Comp :=
  (if winRootLen s = 0 then [] else [⟨winRootName s, .rootName, 0⟩]) ++
  (if winHasDir s then [⟨['\\'], .rootDir, winRootLen s⟩] else [])

/-- All elements of a Windows text, before `Trim`. -/
def winComps (s : Str) : List Comp :=
  winRootComps s ++ toks .windows (winRootLen s) (winTail s) ++
  (if winEndsSep s = true ∧ toks .windows (winRootLen s) (winTail s) ≠ [] then [⟨[], .filename, s.length⟩] else [])

theorem winPrefer_sep {c : Char} (h : winSep c = true) : winPrefer [c] = ['\\'] := by
  simp only [winSep, Bool.or_eq_true, beq_iff_eq] at h
  rcases h with rfl | rfl <;> rfl

theorem winRootLen_le : ∀ s : Str, winRootLen s ≤ s.length
  | [] => by simp [winRootLen]
  | [_] => by simp [winRootLen]
  | [a, b] => by simp only [winRootLen]; split <;> simp
  | a :: b :: c :: rest => by
    simp only [winRootLen]
    have : (rest.takeWhile (!winSep ·)).length ≤ rest.length := (List.takeWhile_prefix _).length_le
    split
    · simp only [List.length_cons]; omega
    · split <;> simp

theorem addRootDir_eq {s : Str} {pos : Nat} {c : Char} (h : (s.drop pos).head? = some c) (hc : winSep c = true) :
    addRootDir .windows s pos = ⟨['\\'], .rootDir, pos⟩ := by
  have : (s.drop pos).take 1 = [c] := by
    cases hd : s.drop pos with
    | nil => rw [hd] at h; simp at h
    | cons x xs => rw [hd] at h; simp at h; simp [h]
  simp only [addRootDir, this, preferSlashes_windows, winPrefer_sep hc]

/-- The root part of a Windows text, up to the separators after it. -/
theorem splitRoot_windows {s : Str} (hs : s ≠ []) :
    (splitRoot .windows s = none ∧ s.all (· == '/') = true ∧ winRootLen s = 0) ∨
    ∃ k, splitRoot .windows s = some (winRootComps s, k) ∧ k ≤ s.length ∧
      toks .windows k (s.drop k) = toks .windows (winRootLen s) (winTail s) := by
  cases s with
  | nil => exact absurd rfl hs
  | cons a t =>
  by_cases ha : winSep a = true
  · -- leading separator
    simp only [splitRoot, isSep_windows, ha, if_true]
    by_cases hu : (a :: t).length > 2 ∧ t.head? = some a
    · obtain ⟨hu1, hu2⟩ := hu
      rw [if_pos ⟨trivial, hu1, hu2⟩]
      match t, hu1, hu2 with
      | b :: c :: rest, hu1, hu2 =>
      simp only [List.head?_cons, Option.some.injEq] at hu2
      subst hu2
      simp only [List.tail_cons, List.head?_cons, List.drop_succ_cons, List.drop_zero]
      by_cases hc : winSep c = true
      · right
        refine ⟨0, ?_, Nat.zero_le _, ?_⟩
        · have hl : winRootLen (b :: b :: c :: rest) = 0 := by simp [winRootLen, hc, ha]
          have hd : winHasDir (b :: b :: c :: rest) = true := by simp [winHasDir, winTail, hl, ha]
          rw [if_neg (by simp [hc]), winRootComps, if_pos hl, hl, if_pos hd,
            addRootDir_eq (c := b) (by simp) ha]
          rfl
        · have hl : winRootLen (b :: b :: c :: rest) = 0 := by simp [winRootLen, hc, ha]
          simp [winTail, hl]
      · right
        have hc' : winSep c = false := by simpa using hc
        have hl : winRootLen (b :: b :: c :: rest) = 3 + (rest.takeWhile (!winSep ·)).length := by
          simp [winRootLen, hc', ha]
        have hf : findSep .windows rest 3 = winRootLen (b :: b :: c :: rest) := by
          rw [findSep_eq, hl]; simp only [isSep_windows]
        rw [if_pos (by simp [hc']), hf]
        have hne : winRootLen (b :: b :: c :: rest) ≠ 0 := by rw [hl]; omega
        refine ⟨winRootLen (b :: b :: c :: rest), ?_, winRootLen_le _, rfl⟩
        have hname : addRootName .windows (b :: b :: c :: rest) (winRootLen (b :: b :: c :: rest)) =
            ⟨winRootName (b :: b :: c :: rest), .rootName, 0⟩ := rfl
        -- what follows the root name starts with a separator
        have hdw : rest = rest.takeWhile (!winSep ·) ++ rest.dropWhile (!winSep ·) :=
          (List.takeWhile_append_dropWhile).symm
        have htail : winTail (b :: b :: c :: rest) = rest.dropWhile (!winSep ·) := by
          rw [winTail, hl]
          rw [show 3 + (rest.takeWhile (!winSep ·)).length = (rest.takeWhile (!winSep ·)).length + 1 + 1 + 1 by omega]
          simp only [List.drop_succ_cons]
          exact drop_takeWhile_length _ rest
        by_cases hlt : winRootLen (b :: b :: c :: rest) < (b :: b :: c :: rest).length
        · rw [if_pos hlt, hname]
          cases hd : rest.dropWhile (!winSep ·) with
          | nil =>
            exfalso
            rw [hd] at hdw
            simp only [List.append_nil] at hdw
            have : rest.length = (rest.takeWhile (!winSep ·)).length := by rw [← hdw]
            rw [hl] at hlt
            simp only [List.length_cons] at hlt; omega
          | cons x xs =>
            have hx : winSep x = true := by
              have := List.head_dropWhile_not (p := (!winSep ·)) (l := rest) (by rw [hd]; simp)
              simpa [hd] using this
            have hdir : winHasDir (b :: b :: c :: rest) = true := by simp [winHasDir, htail, hd, hx]
            rw [winRootComps, if_neg hne, if_pos hdir,
              addRootDir_eq (c := x) (by rw [← winTail, htail, hd]; rfl) hx]
            rfl
        · rw [if_neg hlt, hname]
          have : winTail (b :: b :: c :: rest) = [] := by rw [winTail]; simp only [List.drop_eq_nil_iff]; omega
          have hdir : winHasDir (b :: b :: c :: rest) = false := by simp [winHasDir, this]
          rw [winRootComps, if_neg hne, hdir]
          rfl
    · rw [if_neg (by rintro ⟨_, h1, h2⟩; exact hu ⟨h1, h2⟩)]
      have hl : winRootLen (a :: t) = 0 := by
        match t with
        | [] => rfl
        | [b] => simp [winRootLen, ha]
        | b :: c :: rest =>
          have : b ≠ a := by rintro rfl; exact hu ⟨by simp, by simp⟩
          simp [winRootLen, ha, this]
      by_cases hall : (a :: t).all (· == '/') = true
      · left
        rw [if_pos hall]
        exact ⟨rfl, hall, hl⟩
      · right
        rw [if_neg hall]
        refine ⟨1, ?_, by simp, ?_⟩
        · have hd : winHasDir (a :: t) = true := by simp [winHasDir, winTail, hl, ha]
          rw [winRootComps, if_pos hl, hl, if_pos hd, addRootDir_eq (c := a) (by simp) ha]
          rfl
        · rw [winTail, hl]
          simp only [List.drop_succ_cons, List.drop_zero]
          rw [toks_sep_cons (by rw [isSep_windows]; exact ha)]
  · -- no leading separator
    right
    have ha' : winSep a = false := by simpa using ha
    simp only [splitRoot, isSep_windows, ha']
    rw [if_neg (by simp)]
    by_cases hd : (a :: t).length > 1 ∧ t.head? = some ':'
    · rw [if_pos ⟨trivial, hd.1, hd.2⟩]
      match t, hd.1, hd.2 with
      | b :: t, _, h2 =>
      simp only [List.head?_cons, Option.some.injEq] at h2
      subst h2
      simp only [List.tail_cons]
      have hl : winRootLen (a :: ':' :: t) = 2 := by
        cases t with
        | nil => simp [winRootLen, ha']
        | cons c t => simp [winRootLen, ha']
      have htail : winTail (a :: ':' :: t) = t := by simp [winTail, hl]
      have hname : addRootName .windows (a :: ':' :: t) 2 = ⟨winRootName (a :: ':' :: t), .rootName, 0⟩ := by
        rw [winRootName, hl]; rfl
      refine ⟨2, ?_, by simp, by rw [hl, htail]; rfl⟩
      rw [hname]
      cases t with
      | nil =>
        have hdir : winHasDir [a, ':'] = false := by simp [winHasDir, htail]
        rw [winRootComps, if_neg (by omega), hdir]
        rfl
      | cons c t =>
        simp only [List.head?_cons]
        by_cases hc : winSep c = true
        · have hdir : winHasDir (a :: ':' :: c :: t) = true := by simp [winHasDir, htail, hc]
          rw [if_pos hc, winRootComps, if_neg (by omega), if_pos hdir, hl, addRootDir_eq (c := c) (by simp) hc]
          rfl
        · have hdir : winHasDir (a :: ':' :: c :: t) = false := by simp [winHasDir, htail, hc]
          rw [if_neg hc, winRootComps, if_neg (by omega), hdir]
          rfl
    · rw [if_neg (by rintro ⟨_, h1, h2⟩; exact hd ⟨h1, h2⟩)]
      have hl : winRootLen (a :: t) = 0 := by
        match t with
        | [] => rfl
        | [b] =>
          have : b ≠ ':' := by rintro rfl; exact hd ⟨by simp, by simp⟩
          simp [winRootLen, this]
        | b :: c :: rest =>
          have : b ≠ ':' := by rintro rfl; exact hd ⟨by simp, by simp⟩
          simp [winRootLen, ha', this]
      have hdir : winHasDir (a :: t) = false := by simp [winHasDir, winTail, hl, ha']
      refine ⟨0, ?_, Nat.zero_le _, by rw [winTail, hl]⟩
      rw [winRootComps, if_pos hl, hdir]
      rfl

theorem winRootComps_type (s : Str) : ∀ c ∈ winRootComps s, c.type ≠ .filename := by
  intro c hc
  simp only [winRootComps, List.mem_append] at hc
  rcases hc with hc | hc
  · split at hc
    · simp at hc
    · simp at hc; simp [hc]
  · split at hc
    · simp at hc; simp [hc]
    · simp at hc

theorem toks_all_slash_win : ∀ (s : Str) (off : Nat), (s.all winSep) = true → toks .windows off s = []
  | [], off, _ => toks_nil _ _
  | c :: s, off, h => by
    simp only [List.all_cons, Bool.and_eq_true] at h
    rw [toks_sep_cons (by rw [isSep_windows]; exact h.1), toks_all_slash_win s _ h.2]

/-- Parsing of every non-empty Windows text. -/
theorem split_windows {s : Str} (hs : s ≠ []) :
    splitComponents .windows s = .ok (trim ⟨s, winComps s, .multi⟩) := by
  rcases splitRoot_windows hs with ⟨h1, h2, h3⟩ | ⟨k, h1, h2, h3⟩
  · have hlast : ∃ lc, s.getLast? = some lc := by
      rw [← Option.isSome_iff_exists]; simp [hs]
    obtain ⟨lc, hlc⟩ := hlast
    have hall : s.all winSep = true := by
      rw [List.all_eq_true] at h2 ⊢
      intro c hc
      have := h2 c hc
      simp only [winSep, this, Bool.true_or]
    have ht : toks .windows (winRootLen s) (winTail s) = [] := by
      rw [winTail, h3]; exact toks_all_slash_win s 0 hall
    have hd : winHasDir s = true := by
      cases s with
      | nil => exact absurd rfl hs
      | cons a t => simp only [List.all_cons, Bool.and_eq_true] at hall; simp [winHasDir, winTail, h3, hall.1]
    have hrd : addRootDir .windows s 0 = ⟨['\\'], .rootDir, 0⟩ := by
      cases s with
      | nil => exact absurd rfl hs
      | cons a t =>
        simp only [List.all_cons, Bool.and_eq_true] at hall
        exact addRootDir_eq (c := a) (by simp) hall.1
    have hc : winComps s = [⟨['\\'], .rootDir, 0⟩] := by
      rw [h3] at ht
      simp [winComps, ht, winRootComps, h3, hd]
    rw [hc]
    simp [splitComponents, hlc, h1, hrd, trim]
  · rw [split_some hs h1 h2 (winRootComps_type s), h3]
    have : (s.getLast?.any (isSep .windows)) = winEndsSep s := by
      simp only [winEndsSep]
      congr 1
    rw [this]
    rfl

theorem mkPath_windows (s : Str) : mkPath .windows s =
    if s = [] then ⟨[], [], .filename⟩ else trim ⟨s, winComps s, .multi⟩ := by
  by_cases hs : s = []
  · subst hs; rfl
  · rw [if_neg hs]; simp [mkPath, split_windows hs]

end Asap
