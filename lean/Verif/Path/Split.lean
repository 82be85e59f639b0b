import Verif.Path.Tokens
import Verif.Path.Spec

/-!
# Closed form of `SplitComponents` on POSIX
-/

namespace Asap

@[simp] theorem isSep_posix (c : Char) : isSep .posix c = (c == '/') := by
  simp [isSep]

@[simp] theorem prefSep_posix : prefSep .posix = '/' := rfl

@[simp] theorem preferSlashes_posix (s : Str) : preferSlashes .posix s = s := rfl

theorem isSep_slash (pl : Plat) : isSep pl '/' = true := by simp [isSep]

/-- Root elements of a POSIX text. -/
def rootComps (s : Str) : List Comp :=
  if s.head? = some '/' then [⟨['/'], .rootDir, 0⟩] else []

/-- Trailing empty element of a POSIX text. -/
def trailComps (s : Str) : List Comp :=
  if s.getLast? = some '/' ∧ toks .posix 0 s ≠ [] then [⟨[], .filename, s.length⟩] else []

/-- All elements of a POSIX text, before `Trim`. -/
def rawComps (s : Str) : List Comp := rootComps s ++ toks .posix 0 s ++ trailComps s

theorem toks_all_slash : ∀ (s : Str) (off : Nat), (s.all (· == '/')) = true → toks .posix off s = []
  | [], off, _ => toks_nil _ _
  | c :: s, off, h => by
    simp only [List.all_cons, Bool.and_eq_true] at h
    rw [toks_sep_cons (by simpa using h.1), toks_all_slash s _ h.2]

theorem toks_eq_nil_iff (s : Str) : ∀ off : Nat, toks .posix off s = [] ↔ s.all (· == '/') = true := by
  induction s using seg_induction (pl := .posix) with
  | h0 w hw =>
    intro off
    rw [toks_noSep off hw, tok1]
    cases w with
    | nil => simp
    | cons c w =>
      rw [noSep_cons] at hw
      simp at hw
      simp [hw.1]
  | h1 w d b hw hd ih =>
    intro off
    rw [toks_seg hd hw]
    simp only [List.append_eq_nil_iff, ih, List.all_append, List.all_cons, Bool.and_eq_true]
    simp at hd
    subst hd
    rw [tok1]
    cases w with
    | nil => simp
    | cons c w =>
      rw [noSep_cons] at hw
      simp at hw
      simp [hw.1]

theorem split_posix (s : Str) : splitComponents .posix s =
    .ok (if s = [] then ⟨[], [], .filename⟩ else trim ⟨s, rawComps s, .multi⟩) := by
  unfold splitComponents
  cases s with
  | nil => simp
  | cons c0 rest =>
    have hne : (c0 :: rest) ≠ [] := by simp
    generalize hs : c0 :: rest = s at *
    rw [if_neg hne]
    obtain ⟨lc, hlc⟩ : ∃ lc, s.getLast? = some lc := by
      rw [← Option.isSome_iff_exists]; simp [hne]
    simp only [hlc]
    by_cases h0 : c0 = '/'
    · -- leading slash
      subst h0
      by_cases hall : s.all (· == '/') = true
      · have hr : splitRoot .posix s = none := by subst hs; simp [splitRoot]; simpa using hall
        rw [hr]
        simp only [trim, rawComps, rootComps, toks_all_slash s 0 hall, trailComps]
        subst hs
        simp [addRootDir]
      · have hr : splitRoot .posix s = some ([addRootDir .posix s 0], 1) := by
          subst hs; simp [splitRoot]; simpa using hall
        rw [hr]
        have hrc : rootComps s = [addRootDir .posix s 0] := by subst hs; simp [rootComps, addRootDir]
        have ht : toks .posix 0 s = toks .posix 1 rest := by
          subst hs; rw [toks_sep_cons (by simp)]
        have htne : toks .posix 0 s ≠ [] := by rw [ne_eq, toks_eq_nil_iff]; exact hall
        have hl : s.length = rest.length + 1 := by subst hs; simp
        have hd1 : s.drop 1 = rest := by subst hs; simp
        have hrest : rest ≠ [] := by
          intro h; subst h; subst hs; simp at hall
        have hlast : rest.getLast? = some lc := by
          cases rest with
          | nil => exact absurd rfl hrest
          | cons x xs => subst hs; rw [List.getLast?_cons_cons] at hlc; exact hlc
        have sp := scan_spec .posix s rest 1 1 [addRootDir .posix s 0] (Nat.le_refl _) (by omega) hd1
        simp only [Nat.sub_self, List.take_zero] at sp
        obtain ⟨hb1, hb2, hcomps, hiff⟩ := sp
        have hiff := hiff hrest
        simp only [hd1]
        have hmax : max 1 s.length = s.length := by omega
        rw [hmax]
        by_cases hlc' : lc = '/'
        · subst hlc'
          have hback : (scanLoop .posix s rest 1 1 [addRootDir .posix s 0]).1 = s.length :=
            hiff.mpr ⟨'/', hlast, by simp⟩
          rw [if_pos hback, List.append_nil] at hcomps
          have htk : toksGo .posix rest 1 [] = toks .posix 0 s := by rw [ht, toks]
          rw [htk] at hcomps
          rw [if_neg (by simp [hback])]
          simp only [hcomps]
          have hgl : ∃ c, ([addRootDir .posix s 0] ++ toks .posix 0 s).getLast? = some c ∧ c.type = .filename := by
            rw [List.getLast?_append]
            obtain ⟨c, hc⟩ : ∃ c, (toks .posix 0 s).getLast? = some c := by
              rw [← Option.isSome_iff_exists]; simp [htne]
            refine ⟨c, by simp [hc], (toks_mem s 0 c (List.mem_of_getLast? hc)).1⟩
          obtain ⟨c, hc1, hc2⟩ := hgl
          simp only [hc1]
          simp [rawComps, hrc, trailComps, hlc, htne, hc2]
        · have hback : (scanLoop .posix s rest 1 1 [addRootDir .posix s 0]).1 ≠ s.length := by
            intro h
            obtain ⟨c, h1, h2⟩ := hiff.mp h
            rw [hlast] at h1; simp at h1; subst h1; simp at h2; exact hlc' h2
          rw [if_neg hback] at hcomps
          have htk : toksGo .posix rest 1 [] = toks .posix 0 s := by rw [ht, toks]
          rw [htk] at hcomps
          rw [if_pos hback]
          simp only [hcomps]
          simp [rawComps, hrc, trailComps, hlc, hlc']
    · -- no leading slash
      have hr : splitRoot .posix s = some ([], 0) := by subst hs; simp [splitRoot, h0]
      rw [hr]
      have hrc : rootComps s = [] := by subst hs; simp [rootComps, h0]
      have htne : toks .posix 0 s ≠ [] := by
        rw [ne_eq, toks_eq_nil_iff]; subst hs; simp [h0]
      have sp := scan_spec .posix s s 0 0 [] (Nat.le_refl _) (by omega) (by simp)
      simp only [Nat.sub_self, List.take_zero, List.nil_append] at sp
      obtain ⟨hb1, hb2, hcomps, hiff⟩ := sp
      have hiff := hiff hne
      simp only [List.drop_zero]
      have hmax : max 0 s.length = s.length := by omega
      rw [hmax]
      have htk : toksGo .posix s 0 [] = toks .posix 0 s := by rw [toks]
      rw [htk] at hcomps
      by_cases hlc' : lc = '/'
      · subst hlc'
        have hback : (scanLoop .posix s s 0 0 []).1 = s.length := hiff.mpr ⟨'/', hlc, by simp⟩
        rw [if_pos hback, List.append_nil] at hcomps
        rw [if_neg (by simp [hback])]
        simp only [hcomps]
        obtain ⟨c, hc⟩ : ∃ c, (toks .posix 0 s).getLast? = some c := by
          rw [← Option.isSome_iff_exists]; simp [htne]
        have hc2 := (toks_mem s 0 c (List.mem_of_getLast? hc)).1
        simp only [hc]
        simp [rawComps, hrc, trailComps, hlc, htne, hc2]
      · have hback : (scanLoop .posix s s 0 0 []).1 ≠ s.length := by
          intro h
          obtain ⟨c, h1, h2⟩ := hiff.mp h
          rw [hlc] at h1; simp at h1; subst h1; simp at h2; exact hlc' h2
        rw [if_neg hback] at hcomps
        rw [if_pos hback]
        simp only [hcomps]
        simp [rawComps, hrc, trailComps, hlc, hlc']

theorem mkPath_posix (s : Str) : mkPath .posix s =
    if s = [] then ⟨[], [], .filename⟩ else trim ⟨s, rawComps s, .multi⟩ := by
  simp [mkPath, split_posix]

end Asap
