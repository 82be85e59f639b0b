import Verif.Path.WinParent

/-!
# `parent_path()` on Windows, whether or not there is a root directory
-/

namespace Asap
open Spec

theorem winJoin_rootLen : ∀ {ns : List Str}, (∀ n ∈ ns, PlainName n) → winRootLen (winJoin ns) = 0
  | [], _ => rfl
  | [w], h => (h w (by simp)).rootLen
  | w :: v :: ns, h => by
    have hw := h w (by simp)
    rw [winJoin]
    · obtain ⟨h1, h2, h3⟩ := hw
      match w with
      | [] => exact absurd rfl h1
      | [a] =>
        have ha := h2 a (by simp)
        match hx : winJoin (v :: ns) with
        | [] => simp [winRootLen]
        | c :: x => simp [winRootLen, ha]
      | a :: b :: w =>
        have ha := h2 a (by simp)
        have hb : b ≠ ':' := by rintro rfl; exact h3 (by simp)
        match w with
        | [] => simp [winRootLen, ha, hb]
        | c :: w => simp [winRootLen, ha, hb]
    · simp

/-- `parent_path()` of a path with plain names drops the last name. -/
theorem win_parent_any {s : Str} (hn : winNames (winTail s) ≠ []) (hp : ∀ n ∈ winNames (winTail s), PlainName n) :
    ∃ v, (parentPath .windows false (mkPath .windows s) = .ok (mkPath .windows v) ∨
        parentPath .windows false (mkPath .windows s) = .ok .default ∧ v = []) ∧ winRootName v = winRootName s ∧
      winHasDir v = winHasDir s ∧ winNames (winTail v) = (winNames (winTail s)).dropLast ∧
      (winEndsSep v = true → winNames (winTail v) = []) := by
  cases hd : winHasDir s with
  | true =>
    obtain ⟨v, h1, h2, h3, h4, h5⟩ := win_parent hd hn hp
    exact ⟨v, .inl h1, h2, h3, h4, h5⟩
  | false =>
    have hs : s ≠ [] := by rintro rfl; exact hn rfl
    have hplain' : ∀ n ∈ (winNames (winTail s)).dropLast, PlainName n := fun n h => hp n (List.dropLast_subset _ h)
    have hends : winEndsSep (winJoin (winNames (winTail s)).dropLast) = false := winJoin_ends hplain'
    have htop : (winJoin (winNames (winTail s)).dropLast).head?.any winSep = false := by
      cases h : (winJoin (winNames (winTail s)).dropLast).head? with
      | none => rfl
      | some c => exact winJoin_head hplain' c h
    by_cases hsing : ∃ c, winComps s = [c]
    · obtain ⟨c, hc⟩ := hsing
      obtain ⟨l, h1, h2, _⟩ := winComps_last s hs
      rw [hc, List.getLast?_singleton, Option.some.injEq] at h1
      subst h1
      have hf := h2.mpr hn
      have hz := (winComps_file hc hf).1
      refine ⟨[], .inr ⟨?_, rfl⟩, ((winRootName_nil s).mpr hz).symm, rfl, ?_, by simp [winEndsSep]⟩
      · rw [parentPath, win_hasRelative]
        show (if _ then _ else _) = _
        rw [if_neg (by simp [hn]), win_single hc hs]
        show (if _ then _ else _) = _
        rw [if_neg (by rw [hf]; simp)]
        rfl
      · have : (winNames (winTail s)).length = 1 := by
          have h3 := congrArg List.length hc
          rw [winComps_eq] at h3
          have h4 : (toks .windows (winRootLen s) (winTail s)).length = (winNames (winTail s)).length := by
            rw [← toks_winNames _ (winRootLen s), List.length_map]
          have h5 : (winNames (winTail s)).length ≠ 0 := by simpa using hn
          simp only [List.length_append, h4, List.length_singleton] at h3
          omega
        rw [winTail, List.drop_nil, winNames_nil]
        apply List.eq_nil_of_length_eq_zero |>.comp Eq.symm |> fun h => (h ?_).symm
        rw [List.length_dropLast, this]
    · have hpar : parentPath .windows false (mkPath .windows s) = .ok (mkPath .windows (rejoin .windows
          (winRootComps s ++ (toks .windows (winRootLen s) (winTail s)).dropLast) [])) := by
        rw [parentPath, win_hasRelative]
        show (if _ then _ else _) = _
        rw [if_neg (by simp [hn]), win_multi (fun c hc => hsing ⟨c, hc⟩) hs]
        show (if _ then _ else _) = _
        rw [if_pos rfl, win_parentComps hn]
        rfl
      refine ⟨_, .inl hpar, ?_⟩
      have hnames : ((toks .windows (winRootLen s) (winTail s)).dropLast).map Comp.name = (winNames (winTail s)).dropLast := by
        rw [List.map_dropLast, toks_winNames]
      have hplain : ∀ c ∈ (toks .windows (winRootLen s) (winTail s)).dropLast, PlainName c.name := by
        intro c hc
        apply hp
        rw [← toks_winNames _ (winRootLen s)]
        exact List.mem_map_of_mem (List.dropLast_subset _ hc)
      generalize (toks .windows (winRootLen s) (winTail s)).dropLast = ts at hnames hplain
      by_cases hz : winRootLen s = 0
      · have e : rejoin .windows (winRootComps s ++ ts) [] = winJoin (winNames (winTail s)).dropLast := by
          rw [winRootComps, if_pos hz, hd]
          show rejoin .windows ts [] = _
          rw [rejoin_plain ts _ hplain, hnames]
          rfl
        rw [e]
        have hl := winJoin_rootLen hplain'
        have ht := winTail_of_zero hl
        refine ⟨by rw [(winRootName_nil s).mpr hz, (winRootName_nil _).mpr hl], by rw [winHasDir, ht]; exact htop, ?_, ?_⟩
        · rw [ht, winNames_winJoin hplain']
        · rw [hends]; simp
      · have hR : IsRoot (winRootName s) := (isRoot_take hz).1.prefer
        have h2 : winRootLen s = 2 := by
          rcases (isRoot_take hz).2 with h | h
          · exact h
          · cases hx : winTail s with
            | nil => rw [hx] at hn; exact absurd rfl hn
            | cons c x =>
              have := h c (by rw [hx]; rfl)
              rw [winHasDir, hx] at hd
              simp [this] at hd
        have hlen2 : (winRootName s).length = 2 := by rw [winRootName_length, h2]
        have happ : appendSepIfNeeded .windows (winRootName s) = winRootName s := by
          generalize winRootName s = r at hR hlen2
          cases hR with
          | drive a h => simp [appendSepIfNeeded]
          | unc a c w h hc hw => simp at hlen2
        have e : rejoin .windows (winRootComps s ++ ts) [] = winRootName s ++ winJoin (winNames (winTail s)).dropLast := by
          rw [winRootComps, if_neg hz, hd, ← hnames]
          show rejoin .windows (⟨winRootName s, .rootName, 0⟩ :: ts) [] = _
          cases ts with
          | nil => simp [rejoin, winJoin]
          | cons t ts =>
            rw [rejoin, List.nil_append, happ, rejoin_plain (t :: ts) _ hplain]
            simp
        rw [e]
        obtain ⟨p1, p2, p3, p4⟩ := parts_facts (hR.len (winJoin (winNames (winTail s)).dropLast) (.inl hlen2))
        refine ⟨by rw [p2]; exact winPrefer_idem _, by rw [p3]; exact htop, by rw [p1, winNames_winJoin hplain'], ?_⟩
        rw [p1, winNames_winJoin hplain']
        intro he
        apply Classical.byContradiction
        intro hne
        have : winJoin (winNames (winTail s)).dropLast ≠ [] := by
          intro h
          have := winNames_winJoin hplain'
          rw [h, winNames_nil] at this
          exact hne this.symm
        rw [p4 this, hends] at he
        cases he

end Asap
