import Verif.Props.WinO
import Verif.Dir.Kernel

/-!
# Windows with searches of directories

The counterpart of `Verif/Dir/Kernel.lean`: the disk is left open, `WinLaws` says what a search may show of it and what the
other calls do to it.
-/

namespace Asap
namespace Spec

/-- A disk, the searches under way (with the text searched for and the entries still to be shown), and the last error. -/
structure WinOs (τ : Type) where
  disk : τ
  table : List (Nat × Str × List FindData)
  last : Code

/-- What is assumed of a disk: the listing a search may show, or its failure; and the effect of the calls that do not concern
searches, given the texts of the searches under way. -/
structure WinLaws (τ : Type) where
  opens : τ → Str → Except Errno (List FindData) → Prop
  does : τ → List Str → Event → τ → Prop

/-- A search shows the listing taken at its start, which is not empty, then fails with 18 (`ERROR_NO_MORE_FILES`). A call
that fails sets the last error, closing a search does not change it, other calls may. Using a search that is not open may do anything. -/
def WinLaws.step {τ : Type} (L : WinLaws τ) (s : WinOs τ) (ev : Event) (s' : WinOs τ) : Prop :=
  match ev with
  | ⟨.win (.findFirst q), .error e⟩ => L.opens s.disk q (.error e) ∧ s' = { s with last := some e }
  | ⟨.win (.findFirst q), .ok (d, ent)⟩ => d ∉ s.table.map Prod.fst ∧ s'.disk = s.disk ∧
    ∃ l, L.opens s.disk q (.ok (ent :: l)) ∧ s'.table = (d, q, l) :: s.table
  | ⟨.win (.findNext d), r⟩ => match s.table.find? (·.1 = d) with
    | some (_, _, []) => ∃ e, e.winValue = 18 ∧ r = .error e ∧ s' = { s with last := some e }
    | some (_, q, ent :: rest) => r = .ok ent ∧ s'.disk = s.disk ∧ s'.table = s.table.map fun x => if x.1 = d then (d, q, rest) else x
    | none => True
  | ⟨.win (.findClose d), _⟩ => d ∈ s.table.map Prod.fst → s' = { s with table := s.table.filter (·.1 ≠ d) }
  | ⟨.win .lastError, c⟩ => c = s.last ∧ s' = s
  | ev => L.does s.disk (s.table.map (·.2.1)) ev s'.disk ∧ s'.table = s.table

/-- The number of entries `.` and `..`. -/
def findDots (l : List FindData) : Nat := l.countP fun e => dotName e.name

end Spec
open Spec
namespace Win

section
variable {τ : Type} {L : WinLaws τ} {δ : τ} {T : List (Nat × Str × List FindData)} {α : Type}

/-- With any last error at the start, and none said about the one at the end. -/
def wpW (L : WinLaws τ) (Q : Except Stop α → τ → List (Nat × Str × List FindData) → Prop) (p : Prog α) (δ : τ)
    (T : List (Nat × Str × List FindData)) : Prop :=
  ∀ l, wp L.step (fun o s => Q o s.disk s.table) p ⟨δ, T, l⟩

theorem wpW_ret {Q : Except Stop α → τ → List (Nat × Str × List FindData) → Prop} {a : α} (h : Q (.ok a) δ T) :
    wpW L Q (.ret a) δ T := fun _ => h

theorem wpW_bind {β : Type} {Q : Except Stop β → τ → List (Nat × Str × List FindData) → Prop} {p : Prog α} {f : α → Prog β}
    (h : wpW L (fun o δ T => match o with
      | .ok a => wpW L Q (f a) δ T
      | .error x => Q (.error x) δ T) p δ T) : wpW L Q (p.bind f) δ T := by
  intro l
  apply wp_bind
  refine wp_mono ?_ (h l)
  intro o s h'
  cases o with
  | ok a => exact h' s.last
  | error x => exact h'

theorem wpW_mono {Q R : Except Stop α → τ → List (Nat × Str × List FindData) → Prop} {p : Prog α}
    (hQR : ∀ o δ T, Q o δ T → R o δ T) (h : wpW L Q p δ T) : wpW L R p δ T :=
  fun l => wp_mono (fun o s h => hQR o s.disk s.table h) (h l)

theorem wtFind_head (d : Nat) (q : Str) (l : List FindData) : ((d, q, l) :: T).find? (·.1 = d) = some (d, q, l) := by
  simp [List.find?]

theorem wtFilter_keys {d : Nat} (h : d ∉ T.map Prod.fst) : T.filter (·.1 ≠ d) = T := by
  rw [List.filter_eq_self]
  intro x hx
  simp only [ne_eq, decide_not, Bool.not_eq_true', decide_eq_false_iff_not]
  rintro rfl
  exact h (List.mem_map.mpr ⟨x, hx, rfl⟩)

theorem wtMap_keys {d : Nat} {y : Nat × Str × List FindData} (h : d ∉ T.map Prod.fst) :
    T.map (fun x => if x.1 = d then y else x) = T := by
  conv => rhs; rw [← List.map_id T]
  apply List.map_congr_left
  intro x hx
  rw [if_neg]; rfl
  rintro rfl
  exact h (List.mem_map.mpr ⟨x, hx, rfl⟩)

/-- Closing the search opened last. -/
theorem wpW_close {Q : Except Stop Stream → τ → List (Nat × Str × List FindData) → Prop} {s : Stream} {d : Nat} {q : Str}
    {l : List FindData} (hs : s.handle = some d) (hd : d ∉ T.map Prod.fst) (hQ : Q (.ok { s with handle := none }) δ T) :
    wpW L Q (Stream.close s) δ ((d, q, l) :: T) := by
  intro last
  unfold Stream.close
  rw [hs]
  intro r σ' h
  simp only [WinLaws.step] at h
  have h := h (by simp)
  rw [List.filter_cons, if_neg (by simp), wtFilter_keys hd] at h
  subst h
  exact hQ

theorem wpW_destroy {Q : Except Stop Unit → τ → List (Nat × Str × List FindData) → Prop} {s : Stream} {d : Nat} {q : Str}
    {l : List FindData} (hs : s.handle = some d) (hd : d ∉ T.map Prod.fst) (hQ : Q (.ok ()) δ T) :
    wpW L Q (destroy (some s)) δ ((d, q, l) :: T) := by
  unfold destroy
  apply wpW_bind
  exact wpW_close hs hd (wpW_ret hQ)

/-- Reading the next entry. -/
theorem wpW_advance {Q : Except Stop (Bool × Stream × Code) → τ → List (Nat × Str × List FindData) → Prop} {s : Stream} {d n : Nat}
    {q root : Str} {l : List FindData} (hs : s.handle = some d) (hr : s.root = mkPath .windows root) (hn : findDots l < n)
    (hL : ∀ e ∈ l, ¬ dotName e.name → PlainName e.name) (hd : d ∉ T.map Prod.fst)
    (hdone : (∀ e ∈ l, dotName e.name) → Q (.ok (false, { s with handle := none }, none)) δ T)
    (hent : ∀ pre ent rest, l = pre ++ ent :: rest → (∀ e ∈ pre, dotName e.name) → ¬ dotName ent.name →
      Q (.ok (true, atEntry s root ent, none)) δ ((d, q, rest) :: T)) :
    wpW L Q (Stream.advance n s) δ ((d, q, l) :: T) := by
  obtain ⟨hdl, sroot, entry⟩ := s
  cases hs
  induction n generalizing l with
  | zero => omega
  | succ n ih =>
    unfold Stream.advance
    intro last r σ' h
    simp only [WinLaws.step, wtFind_head] at h
    cases l with
    | nil =>
      obtain ⟨e, he, rfl, rfl⟩ := h
      dsimp only
      rw [if_pos (show e.winValue = ERROR_NO_MORE_FILES from he)]
      refine wpW_bind ?_ _
      refine wpW_close rfl hd ?_
      exact wpW_ret (hdone (by simp))
    | cons ent rest =>
      obtain ⟨rfl, h1, h⟩ := h
      rw [List.map_cons, if_pos rfl, wtMap_keys hd] at h
      obtain ⟨δ1, T1, l1⟩ := σ'
      cases h
      cases h1
      dsimp only
      by_cases hdot : dotName ent.name
      · rw [if_pos ((isDots_iff _).mpr hdot)]
        refine ih (by simp only [findDots, List.countP_cons, hdot, decide_true, if_true] at hn ⊢; omega)
          (fun e he => hL e (by simp [he])) (fun h => hdone (by simpa using ⟨hdot, h⟩))
          (fun pre a b he hp ha => hent (ent :: pre) a b (by rw [he]; rfl) (by simpa using ⟨hdot, hp⟩) ha) l1
      · rw [if_neg (by rw [isDots_iff]; exact hdot), setEntry_plain hr (hL ent (by simp) hdot), Prog.ret_bind]
        exact hent [] ent rest rfl (by simp) hdot

/-- Skipping `.` and `..` at the start. -/
theorem wpW_skipDots {Q : Except Stop (Option FindData) → WinOs τ → Prop} {d n : Nat} {ent : FindData} {q : Str}
    {l : List FindData} {last : Code} (hn : findDots (ent :: l) < n) (hd : d ∉ T.map Prod.fst)
    (hdone : ∀ e, e.winValue = 18 → (∀ e ∈ ent :: l, dotName e.name) → Q (.ok none) ⟨δ, T, some e⟩)
    (hent : ∀ pre ent' rest last, ent :: l = pre ++ ent' :: rest → (∀ e ∈ pre, dotName e.name) → ¬ dotName ent'.name →
      Q (.ok (some ent')) ⟨δ, (d, q, rest) :: T, last⟩) :
    wp L.step Q (Win.skipDots d n ent) ⟨δ, (d, q, l) :: T, last⟩ := by
  induction n generalizing ent l last with
  | zero => omega
  | succ n ih =>
    unfold Win.skipDots
    by_cases hdot : dotName ent.name
    · rw [if_pos ((isDots_iff _).mpr hdot)]
      intro r σ' h
      simp only [WinLaws.step, wtFind_head] at h
      cases l with
      | nil =>
        obtain ⟨e, he, rfl, rfl⟩ := h
        intro r σ' h
        simp only [WinLaws.step] at h
        have h := h (by simp)
        rw [List.filter_cons, if_neg (by simp), wtFilter_keys hd] at h
        subst h
        exact hdone e he (by simpa using hdot)
      | cons ent' rest =>
        obtain ⟨rfl, h1, h⟩ := h
        rw [List.map_cons, if_pos rfl, wtMap_keys hd] at h
        obtain ⟨δ1, T1, l1⟩ := σ'
        cases h
        cases h1
        refine ih (by simp only [findDots, List.countP_cons, hdot, decide_true, if_true] at hn ⊢; omega)
          (fun e he h => hdone e he (by simpa using ⟨hdot, by simpa using h⟩))
          (fun pre a b last he hp ha => hent (ent :: pre) a b last (by rw [he]; rfl) (by simpa using ⟨hdot, hp⟩) ha)
    · rw [if_neg (by rw [isDots_iff]; exact hdot)]
      exact hent [] ent l last rfl (by simp) hdot

/-- Opening a directory. -/
theorem wpW_new {Q : Except Stop (DirIter × EcArg) → τ → List (Nat × Str × List FindData) → Prop} {root : Str} {n : Nat}
    {opts : DirOptions} {c : Code}
    (herr : ∀ e, L.opens δ (searchText (mkPath .windows root).pathname) (.error e) → Q (.ok (none, .ref (openCode opts e))) δ T)
    (hn : ∀ l, L.opens δ (searchText (mkPath .windows root).pathname) (.ok l) →
      findDots l < n ∧ ∀ e ∈ l, ¬ dotName e.name → PlainName e.name)
    (hdone : ∀ l, L.opens δ (searchText (mkPath .windows root).pathname) (.ok l) → l ≠ [] → (∀ e ∈ l, dotName e.name) →
      Q (.ok (none, .ref none)) δ T)
    (hent : ∀ l d pre ent rest, L.opens δ (searchText (mkPath .windows root).pathname) (.ok l) → l = pre ++ ent :: rest →
      (∀ e ∈ pre, dotName e.name) → ¬ dotName ent.name → d ∉ T.map Prod.fst →
      Q (.ok (some (atEntry ⟨some d, mkPath .windows root, .default⟩ root ent), .ref none)) δ
        ((d, searchText (mkPath .windows root).pathname, rest) :: T)) :
    wpW L Q (DirIter.new n (mkPath .windows root) opts (.ref c)) δ T := by
  have fin : ∀ (e : Errno) (last : Code), Q (.ok (none, .ref (openCode opts e))) δ T →
      wp L.step (fun o s => Q o s.disk s.table)
        ((match openError opts (some e) with
          | some e' => ((Handler.report ⟨"directory_iterator::directory_iterator(...)".toList, some (mkPath .windows root), none⟩ (EcArg.ref (openError opts (some e))) (some e') ()).bind fun y => .ret ((none : DirIter), y.2))
          | none => .ret ((none : DirIter), EcArg.ref (openError opts (some e)))) : Prog (DirIter × EcArg)) ⟨δ, T, last⟩ := by
    intro e last hQ
    have : openError opts (some e) = openCode opts e := rfl
    rw [this]
    cases ho : openCode opts e with
    | none => rw [ho] at hQ; exact hQ
    | some e' => rw [ho] at hQ; exact hQ
  intro last
  unfold DirIter.new Stream.new
  rw [pattern_text]
  simp only [Prog.call_bind, clear_ref]
  rintro (e | ⟨d, ent⟩) σ' h
  · simp only [WinLaws.step] at h
    obtain ⟨h, rfl⟩ := h
    exact fin e _ (herr e h)
  · simp only [WinLaws.step] at h
    obtain ⟨hd, h1, l, h, h2⟩ := h
    obtain ⟨δ1, T1, l1⟩ := σ'
    cases h1
    cases h2
    obtain ⟨h3, h4⟩ := hn _ h
    dsimp only
    rw [Prog.bind_assoc]
    apply wp_bind
    refine wpW_skipDots h3 hd (fun e he hall => ?_) (fun pre ent' rest last he hp hx => ?_)
    · simp only [Prog.call_bind]
      intro r σ' h5
      simp only [WinLaws.step] at h5
      obtain ⟨rfl, rfl⟩ := h5
      have := hdone _ h (by simp) hall
      have hoc : openCode opts e = none := by
        unfold openCode endCode
        rw [if_neg (by rw [he]; decide), if_pos he]
      exact fin e _ (by rw [hoc]; exact this)
    · have hw : PlainName ent'.name := h4 ent' (by rw [he]; simp) hx
      dsimp only
      rw [setEntry_plain (root := root) rfl hw]
      simp only [Prog.ret_bind]
      exact hent _ d pre ent' rest h he hp hx hd

/-- Going on to the next entry. -/
theorem wpW_incr {Q : Except Stop (DirIter × EcArg) → τ → List (Nat × Str × List FindData) → Prop} {s : Stream} {d n : Nat}
    {q root : Str} {l : List FindData} {c : Code} (hs : s.handle = some d) (hr : s.root = mkPath .windows root) (hn : findDots l < n)
    (hL : ∀ e ∈ l, ¬ dotName e.name → PlainName e.name) (hd : d ∉ T.map Prod.fst)
    (hdone : (∀ e ∈ l, dotName e.name) → Q (.ok (none, .ref none)) δ T)
    (hent : ∀ pre ent rest, l = pre ++ ent :: rest → (∀ e ∈ pre, dotName e.name) → ¬ dotName ent.name →
      Q (.ok (some (atEntry s root ent), .ref none)) δ ((d, q, rest) :: T)) :
    wpW L Q (DirIter.incr n (some s) (.ref c)) δ ((d, q, l) :: T) := by
  unfold DirIter.incr
  simp only [clear_ref]
  apply wpW_bind
  refine wpW_advance hs hr hn hL hd (fun h => ?_) (fun pre ent rest hl hp h => ?_)
  · exact wpW_ret (hdone h)
  · exact wpW_ret (hent pre ent rest hl hp h)

end

end Win

/-- Laws that allow something for every call in every state give a system that does. -/
theorem Spec.WinLaws.total {τ : Type} {L : WinLaws τ} (h1 : ∀ δ x, ∃ r, L.opens δ x r ∧ r ≠ .ok [])
    (h2 : ∀ δ T (c : Sys), ∃ (r : c.Ret) (δ' : τ), L.does δ T ⟨c, r⟩ δ') (s : WinOs τ) (c : Sys) :
    ∃ (r : c.Ret) (s' : WinOs τ), L.step s ⟨c, r⟩ s' := by
  have other : ∀ c : Sys, ∃ (r : c.Ret) (δ' : τ), L.does s.disk (s.table.map (·.2.1)) ⟨c, r⟩ δ' := fun c => h2 _ _ c
  cases c with
  | win w =>
    cases w with
    | findFirst q =>
      obtain ⟨r, hr, hne⟩ := h1 s.disk q
      rcases r with e | l
      · exact ⟨.error e, { s with last := some e }, hr, rfl⟩
      · cases l with
        | nil => exact absurd rfl hne
        | cons ent l =>
          obtain ⟨d, hd⟩ := exists_other (s.table.map Prod.fst)
          exact ⟨.ok (d, ent), ⟨s.disk, (d, q, l) :: s.table, s.last⟩, hd, rfl, l, hr, rfl⟩
    | findNext d =>
      cases h : s.table.find? (·.1 = d) with
      | none => exact ⟨.error (.ofWin 18), s, by simp only [WinLaws.step, h]⟩
      | some x =>
        obtain ⟨d', q, l⟩ := x
        cases l with
        | nil => exact ⟨.error (.ofWin 18), _, by simp only [WinLaws.step, h]; exact ⟨_, rfl, rfl, rfl⟩⟩
        | cons ent l =>
          exact ⟨.ok ent, ⟨s.disk, s.table.map fun x => if x.1 = d then (d, q, l) else x, s.last⟩, by
            simp only [WinLaws.step, h]; exact ⟨trivial, trivial, trivial⟩⟩
    | findClose d => exact ⟨.ok (), _, fun _ => rfl⟩
    | lastError => exact ⟨s.last, s, rfl, rfl⟩
    | _ =>
      obtain ⟨r, δ', h⟩ := other _
      exact ⟨r, ⟨δ', s.table, s.last⟩, h, rfl⟩
  | _ =>
    obtain ⟨r, δ', h⟩ := other _
    exact ⟨r, ⟨δ', s.table, s.last⟩, h, rfl⟩

end Asap
