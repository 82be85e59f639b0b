import Verif.Path.Hist

/-!
# Facts promised in the comments of `Verif/Path/Model.lean`
-/

namespace Asap
open Spec

theorem scanLoop_ne_nil (pl : Plat) (s : Str) : ∀ (cs : Str) (pos back : Nat) (acc : List Comp),
    acc ≠ [] → (scanLoop pl s cs pos back acc).2 ≠ []
  | [], _, _, _, h => h
  | c :: cs, pos, back, acc, h => by
    unfold scanLoop
    split
    · apply scanLoop_ne_nil
      split <;> simp [h]
    · exact scanLoop_ne_nil pl s cs _ _ _ h

theorem scanLoop_pending (pl : Plat) (s : Str) : ∀ (cs : Str) (pos back : Nat) (acc : List Comp),
    back < pos → (scanLoop pl s cs pos back acc).1 ≠ back → (scanLoop pl s cs pos back acc).2 ≠ []
  | [], _, _, _, _, h => absurd rfl h
  | c :: cs, pos, back, acc, hb, h => by
    unfold scanLoop at h ⊢
    split
    · apply scanLoop_ne_nil
      rw [if_pos (by omega)]; simp
    · rename_i hc
      rw [if_neg hc] at h
      exact scanLoop_pending pl s cs _ _ _ (by omega) h

/-- The root part always yields an element if the text starts with a separator. -/
theorem splitRoot_sep {pl : Plat} {c : Char} {cs : Str} (hc : isSep pl c = true)
    {root : List Comp} {pos : Nat} (h : splitRoot pl (c :: cs) = some (root, pos)) : root ≠ [] := by
  simp only [splitRoot, hc, if_true] at h
  split at h
  · rename_i hw
    split at h
    · rename_i hn
      rcases cs with _ | ⟨a, _ | ⟨b, ds⟩⟩ <;> simp at hw hn
    · split at h
      · split at h <;> (cases h; simp)
      · cases h; simp
  · split at h
    · cases h
    · cases h; simp

/-- Without a leading separator the root part is empty only if scanning starts at 0. -/
theorem splitRoot_nosep {pl : Plat} {c : Char} {cs : Str} (hc : isSep pl c = false)
    {root : List Comp} {pos : Nat} (h : splitRoot pl (c :: cs) = some (root, pos)) :
    root ≠ [] ∨ pos = 0 := by
  simp only [splitRoot, hc] at h
  split at h
  · rename_i h'; cases h'
  · split at h
    · split at h
      · split at h <;> (cases h; left; simp)
      · cases h; left; simp
    · cases h; right; rfl

/-- Parsing never faults: `components_.back()` (`src/fs_path.cpp:97`) is only
evaluated on a non-empty vector, on both platforms and for every text. -/
theorem splitComponents_total (pl : Plat) (s : Str) : ∃ p, splitComponents pl s = .ok p := by
  unfold splitComponents
  split
  · exact ⟨_, rfl⟩
  · rename_i lastCh hl
    split
    · exact ⟨_, rfl⟩
    · rename_i root pos0 hroot
      simp only
      split
      · exact ⟨_, rfl⟩
      · rename_i hback
        split
        · split
          · rename_i hnone
            exfalso
            have hnil : (scanLoop pl s (s.drop pos0) pos0 pos0 root).2 = [] := by simpa using hnone
            cases s with
            | nil => simp at hl
            | cons c cs =>
              cases hc : isSep pl c
              · rcases splitRoot_nosep hc hroot with h | h
                · exact scanLoop_ne_nil _ _ _ _ _ _ h hnil
                · subst h
                  have hback' : (scanLoop pl (c :: cs) (c :: cs) 0 0 root).1 = max 0 (c :: cs).length := by
                    simpa using hback
                  simp only [List.drop_zero] at hnil
                  simp only [scanLoop, hc] at hback' hnil
                  refine scanLoop_pending pl (c :: cs) cs 1 0 root (by omega) ?_ hnil
                  intro h0
                  simp only [Bool.false_eq_true, if_false, Nat.zero_add] at hback'
                  rw [h0] at hback'
                  simp at hback'
              · exact scanLoop_ne_nil _ _ _ _ _ _ (splitRoot_sep hc hroot) hnil
          · split <;> exact ⟨_, rfl⟩
        · exact ⟨_, rfl⟩

/-- The constructor is exactly the parse: the fallback in `mkPath` is never used. -/
theorem mkPath_spec (pl : Plat) (s : Str) : splitComponents pl s = .ok (mkPath pl s) := by
  obtain ⟨p, hp⟩ := splitComponents_total pl s
  simp [mkPath, hp]

/-- The two branches of `operator/=` (`src/fs_path.cpp:576-595`) give the same object. -/
theorem append_capacity_irrelevant (pl : Plat) (b : Bool) (self p : Path) :
    appendWith pl b self p = append pl self p := by
  cases b
  · rfl
  · unfold append appendWith appendFinish
    simp

/-- Elements of a parsed POSIX path re-parse to themselves, so that a move of an
element during `std::vector` reallocation changes nothing. -/
theorem reparse_elem (s : Str) : ∀ e ∈ (mkPath .posix s).elems, e.moved .posix = e := by
  intro e he
  rw [(mkPath_loose s).shape.elems] at he
  simp only [List.mem_map] at he
  obtain ⟨w, hw, rfl⟩ := he
  rcases elements_isElem hw with h | h | h
  · subst h; rfl
  · subst h; rfl
  · simp only [Path.moved, elemPath, h.ne_slash, if_false]
    exact mkPath_name h

end Asap
