import Verif.Os.KernelLemmas
import Verif.Os.KernelDir
import Verif.Path.NormLemmas

/-!
# Directories stay in order

The names of a directory are names, none occurs twice, and each leads to an inode. Every call of the file system keeps this.
-/

namespace Asap
namespace Spec.Vol

/-- The entries of a directory are in order. -/
def Orderly (d : Vol) : Body → Prop
  | .dir _ es => (es.map Prod.fst).Nodup ∧ ∀ v k, (v, k) ∈ es → IsName v ∧ v ≠ dot ∧ v ≠ dotdot ∧ (d.node k).isSome = true
  | _ => True

/-- All directories are in order. -/
def Tidy (d : Vol) : Prop := ∀ n i, d.node n = some i → d.Orderly i.body

theorem Orderly.mono {d d' : Vol} (hs : ∀ k, (d.node k).isSome = true → (d'.node k).isSome = true) {b : Body} (h : d.Orderly b) : d'.Orderly b := by
  cases b with
  | file s => trivial
  | link t => trivial
  | dir up es => exact ⟨h.1, fun v k hv => ⟨(h.2 v k hv).1, (h.2 v k hv).2.1, (h.2 v k hv).2.2.1, hs k (h.2 v k hv).2.2.2⟩⟩

theorem Tidy.edit {d d' : Vol} {f : Nat → INode → INode} (h : Edit d d' f) (hf : ∀ k i, d.node k = some i → d.Orderly (f k i).body) : d'.Tidy := by
  intro n i hn
  rw [h.node] at hn
  cases hd : d.node n with
  | none => rw [hd] at hn; cases hn
  | some j =>
    rw [hd] at hn
    cases hn
    exact (hf n j hd).mono fun k hk => by rw [h.isSome]; exact hk

theorem Tidy.set {d : Vol} (h : d.Tidy) (n : Nat) {i : INode} (hi : d.Orderly i.body) : (d.set n i).Tidy := by
  have hs : ∀ k, (d.node k).isSome = true → ((d.set n i).node k).isSome = true := by
    intro k hk
    rw [node_set]
    split
    · rfl
    · exact hk
  intro k j hk
  rw [node_set] at hk
  split at hk
  · cases hk; exact hi.mono hs
  · exact (h k j hk).mono hs

theorem Tidy.leave {d : Vol} (h : d.Tidy) (n : Nat) (w : Str) : (d.leave n w).Tidy := by
  refine Tidy.edit (leave_edit d n w) fun k i hk => ?_
  have hi := h k i hk
  simp only [at1]
  split
  · obtain ⟨b, mo, l⟩ := i
    cases b with
    | file s => trivial
    | link t => trivial
    | dir up es =>
      refine ⟨List.Nodup.sublist (List.filter_sublist.map Prod.fst) hi.1, fun v c hv => hi.2 v c (List.mem_filter.mp hv).1⟩
  · exact hi

theorem Tidy.relink {d : Vol} (h : d.Tidy) (n : Nat) (g : Nat → Nat) : (d.relink n g).Tidy := by
  refine Tidy.edit (relink_edit d n g) fun k i hk => ?_
  have hi := h k i hk
  simp only [at1]
  split <;> exact hi

theorem Tidy.moved {d : Vol} (h : d.Tidy) (m n : Nat) : (d.moved m n).Tidy := by
  refine Tidy.edit (moved_edit d m n) fun k i hk => ?_
  have hi := h k i hk
  simp only [at1]
  split
  · obtain ⟨b, mo, l⟩ := i
    cases b <;> exact hi
  · exact hi

/-- There is no entry of this name. -/
def Lacks (d : Vol) (n : Nat) (w : Str) : Prop := ∀ up es mo l, d.node n = some ⟨.dir up es, mo, l⟩ → w ∉ es.map Prod.fst

theorem Tidy.enter {d : Vol} (h : d.Tidy) {n : Nat} {w : Str} {c : Nat} (hw : IsName w ∧ w ≠ dot ∧ w ≠ dotdot) (hc : (d.node c).isSome = true)
    (hn : d.Lacks n w) : (d.enter n w c).Tidy := by
  refine Tidy.edit (enter_edit d n w c) fun k i hk => ?_
  have hi := h k i hk
  simp only [at1]
  split
  · rename_i hkn
    subst hkn
    obtain ⟨b, mo, l⟩ := i
    cases b with
    | file s => trivial
    | link t => trivial
    | dir up es =>
      refine ⟨by simpa using ⟨fun x hx => hn _ _ _ _ hk (List.mem_map.mpr ⟨(w, x), hx, rfl⟩), hi.1⟩, fun v e hv => ?_⟩
      rcases List.mem_cons.mp hv with h1 | h1
      · cases h1; exact ⟨hw.1, hw.2.1, hw.2.2, hc⟩
      · exact hi.2 v e h1
  · exact hi

theorem lookup_some_mem {es : List (Str × Nat)} {v : Str} {i : Nat} (h : es.lookup v = some i) : (v, i) ∈ es := by
  induction es with
  | nil => cases h
  | cons e es ih =>
    obtain ⟨a, b⟩ := e
    rw [List.lookup_cons] at h
    split at h
    · rename_i hva
      cases h
      simp only [beq_iff_eq] at hva
      subst hva
      exact List.mem_cons_self
    · exact List.mem_cons_of_mem _ (ih h)

theorem lookup_of_mem {es : List (Str × Nat)} {v : Str} (h : v ∈ es.map Prod.fst) : ∃ k, es.lookup v = some k := by
  induction es with
  | nil => simp at h
  | cons e es ih =>
    obtain ⟨u, k⟩ := e
    rw [List.lookup_cons]
    by_cases hu : v = u
    · subst hu; exact ⟨k, by simp⟩
    · rw [show (v == u) = false by simpa using hu]
      simp only [List.map_cons, List.mem_cons] at h
      exact ih (by rcases h with h | h; exact absurd h hu; exact h)

theorem Tidy.lacks {d : Vol} (h : d.Tidy) {n : Nat} {w : Str} (hl : d.look n w = .error .ENOENT) (hw : w ≠ dotdot) : d.Lacks n w := by
  intro up es mo l hn hm
  obtain ⟨up', es', mo', l', hn', -, h1⟩ := look_missing hl
  rw [hn] at hn'
  cases hn'
  obtain ⟨k, hk⟩ := lookup_of_mem hm
  have := ((h n _ hn).2 _ _ (lookup_some_mem hk)).2.2.2
  rw [h1 hw k hk] at this
  cases this

/-- The same names, or fewer. -/
theorem Lacks.edit {d d' : Vol} {f : Nat → INode → INode} (he : Edit d d' f) {n : Nat} {w : Str} (h : d.Lacks n w)
    (hf : ∀ i up es, (f n i).body = .dir up es → ∃ up' es', i.body = .dir up' es' ∧ ∀ v ∈ es.map Prod.fst, v ∈ es'.map Prod.fst) : d'.Lacks n w := by
  intro up es mo l hn hm
  rw [he.node] at hn
  cases hd : d.node n with
  | none => rw [hd] at hn; cases hn
  | some i =>
    rw [hd] at hn
    have hb : f n i = ⟨.dir up es, mo, l⟩ := by simpa using hn
    obtain ⟨up', es', h1, h2⟩ := hf i up es (by rw [hb])
    obtain ⟨b, mo', l'⟩ := i
    cases h1
    exact h _ _ _ _ hd (h2 w hm)

theorem Lacks.leave {d : Vol} {n : Nat} {w : Str} (h : d.Lacks n w) (n' : Nat) (w' : Str) : (d.leave n' w').Lacks n w := by
  refine h.edit (leave_edit d n' w') fun i up es hb => ?_
  simp only [at1] at hb
  split at hb
  · obtain ⟨b, mo, l⟩ := i
    cases b with
    | file s => cases hb
    | link t => cases hb
    | dir up' es' =>
      cases hb
      exact ⟨_, _, rfl, fun v hv => (List.filter_sublist.map Prod.fst).subset hv⟩
  · exact ⟨_, _, hb, fun v hv => hv⟩

theorem Lacks.left (d : Vol) (n : Nat) (w : Str) : (d.leave n w).Lacks n w := by
  intro up es mo l hn hm
  rw [(leave_edit d n w).node] at hn
  cases hd : d.node n with
  | none => rw [hd] at hn; cases hn
  | some i =>
    rw [hd] at hn
    obtain ⟨b, mo', l'⟩ := i
    simp only [Option.map_some, at1, if_true] at hn
    cases b with
    | file s => cases hn
    | link t => cases hn
    | dir up' es' =>
      cases hn
      obtain ⟨e, h1, h2⟩ := List.mem_map.mp hm
      have := (List.mem_filter.mp h1).2
      simp [h2] at this

theorem Lacks.relink {d : Vol} {n : Nat} {w : Str} (h : d.Lacks n w) (m : Nat) (g : Nat → Nat) : (d.relink m g).Lacks n w := by
  refine h.edit (relink_edit d m g) fun i up es hb => ?_
  simp only [at1] at hb
  split at hb <;> exact ⟨_, _, hb, fun v hv => hv⟩

/-- A name that can be entered is a name. -/
theorem placeOf_name {d : Vol} {n : Nat} {ws : List Str} (hw : ∀ w ∈ ws, w = [] ∨ IsName w) {m : Nat} {w : Str}
    (h : d.placeOf n ws = .ok (m, w)) : w = [] ∨ IsName w := by
  rcases placeOf_ok.mp h with ⟨-, -, h⟩ | ⟨vs, h, -⟩
  · exact .inl h
  · exact hw w (by rw [h]; simp)

theorem place_isName {d : Vol} {p : Str} {m : Nat} {w : Str} (h : d.place p = .ok (m, w)) : w = [] ∨ IsName w :=
  placeOf_name (fun _ hw => (relElements_wf p).mem hw) (place_ok.mp h).2

theorem Tidy.make {d : Vol} (h : d.Tidy) {pl : Except Errno (Nat × Str)} (hpl : ∀ n w, pl = .ok (n, w) → w = [] ∨ IsName w)
    {i : Nat → INode} (hi : ∀ n, d.Orderly (i n).body) : (d.make pl i).2.Tidy := by
  unfold Vol.make
  split
  · exact h
  · rename_i n w
    split
    · exact h
    · rename_i hl
      split
      · exact h
      · rename_i hdd
        split
        · exact h
        · rename_i hfresh
          obtain ⟨up, es, mo, l, hn, hw, -⟩ := look_missing hl
          have hne : n ≠ d.next := by
            rintro rfl
            rw [hn] at hfresh; simp at hfresh
          have hname : IsName w := (hpl n w rfl).resolve_left fun h => hw (.inl h)
          have h2 : ((d.set d.next (i n)).enter n w d.next).Tidy := by
            refine (h.set d.next (hi n)).enter ⟨hname, fun h => hw (.inr h), hdd⟩ (by rw [node_set, if_pos rfl]; rfl) ?_
            intro up' es' mo' l' hn'
            rw [node_set, if_neg hne] at hn'
            exact h.lacks hl hdd _ _ _ _ hn'
          exact fun k j hk => (h2 k j hk).mono fun _ hx => hx
    · exact h

theorem Tidy.hardLink {d : Vol} (h : d.Tidy) (a b : Str) : (d.hardLink a b).2.Tidy := by
  unfold Vol.hardLink
  split
  · exact h
  · exact h
  · rename_i m n w h1 h2
    split
    · exact h
    · rename_i hl
      split
      · exact h
      · split
        · exact h
        · rename_i hdd
          obtain ⟨up, es, mo, l, hn, hw, -⟩ := look_missing hl
          have hname : IsName w := (place_isName h2).resolve_left fun h => hw (.inl h)
          obtain ⟨n', w', -, h5⟩ := findLink_ok.mp h1
          refine (h.relink m _).enter ⟨hname, fun h => hw (.inr h), hdd⟩ ?_ ((h.lacks hl hdd).relink _ _)
          rw [(relink_edit d m _).isSome]
          exact look_isSome h5
    · exact h

theorem Tidy.erase {d : Vol} (h : d.Tidy) (p : Str) : (d.erase p).2.Tidy := by
  unfold Vol.erase
  split
  · exact h
  · split
    · exact h
    · split
      · exact h
      · split
        · exact h
        · exact (h.leave _ _).relink _ _

theorem Tidy.resize {d : Vol} (h : d.Tidy) (p : Str) (len : BitVec 64) : (d.resize p len).2.Tidy := by
  unfold Vol.resize
  split
  · exact h
  · split
    · split
      · exact h
      · exact h.set _ trivial
    · exact h
    · exact h

theorem Tidy.chmod {d : Vol} (h : d.Tidy) (p : Str) (mode : Mode) : (d.chmod p mode).2.Tidy := by
  unfold Vol.chmod
  split
  · exact h
  · split
    · rename_i b mo l hn
      exact h.set _ (show d.Orderly b from h _ ⟨b, mo, l⟩ hn)
    · exact h

theorem Tidy.move {d : Vol} (h : d.Tidy) (a b : Str) : (d.move a b).2.Tidy := by
  unfold Vol.move
  split
  · exact h
  · exact h
  · rename_i n w n' w' h1 h2
    split
    · exact h
    · rename_i m hm
      split
      · exact h
      · rename_i hsp
        split
        · exact h
        · have hw' : IsName w' ∧ w' ≠ dot ∧ w' ≠ dotdot := by
            have hs : special w' = false := by
              simp only [Bool.or_eq_true, not_or] at hsp
              simpa using hsp.2
            obtain ⟨h3, h4⟩ := special_false.mp hs
            exact ⟨(place_isName h2).resolve_left fun h => h3 (.inl h), fun h => h3 (.inr h), h4⟩
          have hms := look_isSome hm
          split
          · rename_i m' hm'
            split
            · exact h
            · split
              · exact h
              · split
                · exact h
                · split
                  · exact h
                  · refine (Tidy.relink (Tidy.enter ((h.leave n w).leave n' w') hw' ?_ (Lacks.left _ _ _)) _ _).moved _ _
                    rw [(leave_edit _ _ _).isSome, (leave_edit _ _ _).isSome]; exact hms
          · rename_i hl
            refine (Tidy.enter (h.leave n w) hw' ?_ ((h.lacks hl hw'.2.2).leave _ _)).moved _ _
            rw [(leave_edit _ _ _).isSome]; exact hms
          · exact h

end Spec.Vol
open Spec

/-- Every call keeps the directories in order. -/
theorem answer_tidy {d : Vol} (h : d.Tidy) (c : Sys) : (answer c d).2.Tidy := by
  cases c
  case mkdir p mode =>
    refine h.make (fun n w hp => ?_) fun n => ⟨by simp, by simp⟩
    split at hp
    · cases hp
    · exact Vol.placeOf_name (fun v hv => .inr (filenames_mem hv)) hp
  case symlink t l =>
    unfold answer
    dsimp only
    split
    · exact h
    · split
      · exact h
      · exact h.make (fun n w hp => Vol.place_isName hp) fun n => trivial
  case link a b => exact h.hardLink a b
  case remove p => exact h.erase p
  case rename a b => exact h.move a b
  case truncate p len => exact h.resize p len
  case fchmodat p mode nf =>
    unfold answer
    dsimp only
    split
    · exact h
    · exact h.chmod p mode
  all_goals exact h

theorem answerDir_tidy {s : Os Vol} (h : s.disk.Tidy) (c : Sys) : (answerDir c s).2.disk.Tidy := by
  cases c
  case opendir p =>
    show (match s.disk.listing p with
      | .error e => ((.error e : Except Errno Nat), s)
      | .ok l => (.ok (fresh s.table), ⟨s.disk, (fresh s.table, l) :: s.table⟩)).2.disk.Tidy
    cases s.disk.listing p <;> exact h
  case readdir n =>
    show (readNext n s).2.disk.Tidy
    unfold readNext
    split <;> exact h
  case closedir n => exact h
  all_goals exact answer_tidy h _

/-- Whatever program is run, the directories are in order afterwards. -/
theorem eval_tidy {α : Type} (p : Prog α) {s : Os Vol} (h : s.disk.Tidy) : (p.eval kernelDir s).2.disk.Tidy := by
  induction p generalizing s with
  | ret a => exact h
  | stop x => exact h
  | call c k ih => exact ih _ (answerDir_tidy h c)

theorem onVol_tidy {α : Type} (p : Prog α) {d : Vol} (h : d.Tidy) : (onVol p d).2.Tidy := by
  unfold onVol
  induction p generalizing d with
  | ret a => exact h
  | stop x => exact h
  | call c k ih => exact ih _ (answer_tidy h c)

end Asap
