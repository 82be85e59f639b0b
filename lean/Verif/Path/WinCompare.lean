import Verif.Props.WinD

/-!
# Comparing Windows paths
-/

namespace Asap
open Spec

/-- What `compare` and iteration need of an object: an empty text and no elements go together, the first element is
not empty, and a component is a single element. -/
structure WinGood (p : Path) : Prop where
  empty : p.pathname = [] ↔ p.names = []
  first : p.names.head? ≠ some []
  comps : ∀ c ∈ p.comps, c.type ≠ .multi

theorem winGood_default : WinGood .default := ⟨⟨fun _ => rfl, fun _ => rfl⟩, by simp [Path.default, Path.names, Path.elems], by simp [Path.default]⟩

theorem winComps_type {s : Str} {c : Comp} (h : c ∈ winComps s) : c.type ≠ .multi := by
  rw [winComps_eq, List.mem_append, List.mem_append, winRootComps, winTrail] at h
  rcases h with (h | h) | h
  · rcases List.mem_append.mp h with h | h <;> split at h <;> simp at h <;> subst h <;> simp
  · have := (toks_mem _ _ _ h).1
    rw [this]; simp
  · split at h <;> simp at h; subst h; simp

theorem winGood_mkPath (s : Str) : WinGood (mkPath .windows s) := by
  refine ⟨?_, by rw [win_names]; exact winElements_head_ne s, ?_⟩
  · by_cases hs : s = []
    · subst hs; exact ⟨fun _ => rfl, fun _ => rfl⟩
    · constructor
      · intro h
        exfalso
        rw [win_pathname_eq] at h
        match hc : winComps s with
        | [] => exact winComps_ne hs hc
        | [c] => rw [hc] at h; exact (winComps_single hc).1 h
        | _ :: _ :: _ => rw [hc] at h; exact hs h
      · intro h
        exfalso
        rw [mkPath_windows, if_neg hs, trim_names (fun c hc => ⟨(winComps_single hc).1, (winComps_single hc).2.1⟩)] at h
        exact winComps_ne hs (by simpa using h)
  · by_cases hs : s = []
    · subst hs; intro c hc; cases hc
    · by_cases hsing : ∃ c, winComps s = [c]
      · obtain ⟨c, hc⟩ := hsing
        rw [win_single hc hs]; intro c hc; cases hc
      · rw [win_multi (fun c hc => hsing ⟨c, hc⟩) hs]
        intro c hc
        exact winComps_type hc

theorem WinGood.preferred {p : Path} (h : WinGood p) : WinGood (makePreferred .windows p) := by
  obtain ⟨n, cs, t⟩ := p
  obtain ⟨h1, h2, h3⟩ := h
  have hn : winPrefer n = [] ↔ n = [] := by simp [winPrefer]
  cases t
  case multi => exact ⟨hn.trans h1, h2, h3⟩
  all_goals
    refine ⟨?_, ?_, h3⟩ <;> simp only [makePreferred, preferSlashes_windows, Path.names, Path.elems, Path.isEmpty] <;>
      cases n <;> simp [winPrefer]

theorem WinGood.element {p e : Path} (h : WinGood p) (he : e ∈ p.elems) : WinGood e := by
  obtain ⟨n, cs, t⟩ := p
  obtain ⟨h1, h2, h3⟩ := h
  have key : ∀ (m : Str) (u : PType), u ≠ .multi → WinGood ⟨m, [], u⟩ := by
    intro m u hu
    refine ⟨?_, ?_, by simp⟩ <;> cases u <;> first | exact absurd rfl hu | (cases m <;> simp [Path.names, Path.elems, Path.isEmpty])
  cases t <;> simp only [Path.elems] at he
  case multi =>
    obtain ⟨c, hc, rfl⟩ := List.mem_map.mp he
    exact key _ _ (h3 c hc)
  all_goals
    split at he
    · cases he
    · rw [List.mem_singleton.mp he]
      exact ⟨h1, h2, h3⟩

theorem compareTypes_spec (p q : Path) :
    (compareTypes p q < 0 ↔ seqLt (compareKeys p) (compareKeys q)) ∧ (compareTypes p q = 0 ↔ compareKeys p = compareKeys q) ∧
    (0 < compareTypes p q ↔ seqLt (compareKeys q) (compareKeys p)) := by
  obtain ⟨n, cs, t⟩ := p
  obtain ⟨n', cs', t'⟩ := q
  have h1 := fun a b => doCompare_spec a b 1 (by omega)
  have h2 := strCompare_spec n n'
  cases t <;> cases t' <;> simp only [compareTypes, compareKeys, h1, h2] <;> simp

/-- The sign of `compare`. -/
theorem WinGood.compare {p q : Path} (hp : WinGood p) (hq : WinGood q) :
    (p.compare q < 0 ↔ seqLt p.names q.names) ∧ (p.compare q = 0 ↔ p.names = q.names) ∧ (0 < p.compare q ↔ seqLt q.names p.names) := by
  have hsp := compareTypes_spec p q
  rw [Path.compare]
  by_cases ep : p.pathname = []
  · by_cases eq : q.pathname = []
    · rw [if_pos (by simp [Path.isEmpty, ep, eq]), hp.empty.mp ep, hq.empty.mp eq]
      simp [seqLt, lexLt]
    · rw [if_neg (by simp [Path.isEmpty, eq])]
      rw [compareKeys_names q eq] at hsp
      have hqn : q.names ≠ [] := fun h => eq (hq.empty.mpr h)
      have hs := seq_empty hqn hq.first
      rw [hp.empty.mp ep]
      rcases compareKeys_empty ep (hp.empty.mp ep) with h | h <;> rw [h] at hsp
      · exact hsp
      · exact ⟨hsp.1.trans hs.1, ⟨fun h => absurd (hsp.2.1.mp h) hs.2.1, fun h => absurd h.symm hqn⟩, hsp.2.2.trans hs.2.2⟩
  · rw [if_neg (by simp [Path.isEmpty, ep])]
    rw [compareKeys_names p ep] at hsp
    have hpn : p.names ≠ [] := fun h => ep (hp.empty.mpr h)
    have hs := seq_empty hpn hp.first
    by_cases eq : q.pathname = []
    · rw [hq.empty.mp eq]
      rcases compareKeys_empty eq (hq.empty.mp eq) with h | h <;> rw [h] at hsp
      · exact hsp
      · exact ⟨hsp.1.trans hs.2.2, ⟨fun h => absurd (hsp.2.1.mp h).symm hs.2.1, fun h => absurd h hpn⟩, hsp.2.2.trans hs.1⟩
    · rw [compareKeys_names q eq] at hsp
      exact hsp

end Asap
