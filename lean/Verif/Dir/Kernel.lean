import Verif.Dir.StreamLemmas
import Verif.Os.Ghost

/-!
# An operating system with directory streams

The state is that of the disk and the open directory streams, each with the entries it will still show. The
disk is left open here: `Laws` says what `opendir` may show of it and what the other calls do to it.
-/

namespace Asap
namespace Spec

/-- A disk and the open directory streams. -/
structure Os (τ : Type) where
  disk : τ
  table : List (Nat × List Dirent)

/-- What is assumed of a disk: the listing `opendir` may show (or its failure), and the effect of the calls that
do not concern directory streams. -/
structure Laws (τ : Type) where
  opens : τ → Str → Except Errno (List Dirent) → Prop
  does : τ → Event → τ → Prop

/-- A stream shows the listing taken when it was opened, then ends. Reading or closing a stream that is not open
may do anything. -/
def Laws.step {τ : Type} (L : Laws τ) (s : Os τ) (ev : Event) (s' : Os τ) : Prop :=
  match ev with
  | ⟨.opendir p, .error e⟩ => L.opens s.disk p (.error e) ∧ s' = s
  | ⟨.opendir p, .ok d⟩ => ∃ l, L.opens s.disk p (.ok l) ∧ d ∉ s.table.map Prod.fst ∧ s' = ⟨s.disk, (d, l) :: s.table⟩
  | ⟨.readdir d, r⟩ => match s.table.find? (·.1 = d) with
    | some (_, []) => r = .ok none ∧ s' = s
    | some (_, ent :: rest) => r = .ok (some ent) ∧ s' = ⟨s.disk, s.table.map fun x => if x.1 = d then (d, rest) else x⟩
    | none => True
  | ⟨.closedir d, _⟩ => d ∈ s.table.map Prod.fst → s' = ⟨s.disk, s.table.filter (·.1 ≠ d)⟩
  | ev => L.does s.disk ev s'.disk ∧ s'.table = s.table

/-- The number of entries `.` and `..`. -/
def dotCount (l : List Dirent) : Nat := l.countP fun e => e.dot

end Spec
open Spec

section
variable {τ : Type} {L : Laws τ} {δ : τ} {T : List (Nat × List Dirent)}

theorem tfind_head (d : Nat) (l : List Dirent) : ((d, l) :: T).find? (·.1 = d) = some (d, l) := by
  simp [List.find?]

theorem tfilter_keys {d : Nat} (h : d ∉ T.map Prod.fst) : T.filter (·.1 ≠ d) = T := by
  rw [List.filter_eq_self]
  intro x hx
  simp only [ne_eq, decide_not, Bool.not_eq_true', decide_eq_false_iff_not]
  rintro rfl
  exact h (List.mem_map.mpr ⟨x, hx, rfl⟩)

theorem tmap_keys {d : Nat} {l : List Dirent} (h : d ∉ T.map Prod.fst) :
    T.map (fun x => if x.1 = d then (d, l) else x) = T := by
  conv => rhs; rw [← List.map_id T]
  apply List.map_congr_left
  intro x hx
  rw [if_neg]; rfl
  rintro rfl
  exact h (List.mem_map.mpr ⟨x, hx, rfl⟩)

/-- Closing the handle opened last. -/
theorem wpK_close {Q : Except Stop Stream → Os τ → Prop} {s : Stream} {d : Nat} {l : List Dirent}
    (hs : s.handle = some d) (hd : d ∉ T.map Prod.fst) (hQ : Q (.ok s.closed) ⟨δ, T⟩) :
    wp L.step Q s.close ⟨δ, (d, l) :: T⟩ := by
  unfold Stream.close
  rw [hs]
  intro r σ' h
  simp only [Laws.step] at h
  have h := h (by simp)
  rw [List.filter_cons, if_neg (by simp), tfilter_keys hd] at h
  subst h
  exact hQ

theorem wpK_destroy {Q : Except Stop Unit → Os τ → Prop} {s : Stream} {d : Nat} {l : List Dirent}
    (hs : s.handle = some d) (hd : d ∉ T.map Prod.fst) (hQ : Q (.ok ()) ⟨δ, T⟩) :
    wp L.step Q (DirIter.destroy (some s)) ⟨δ, (d, l) :: T⟩ := by
  unfold DirIter.destroy
  apply wp_bind
  exact wpK_close hs hd hQ

/-- Reading the next entry. -/
theorem wpK_advance {Q : Except Stop (Bool × Stream × Code) → Os τ → Prop} {s : Stream} {d n : Nat} {l : List Dirent}
    (hs : s.handle = some d) (hr : Shape s.root) (hn : dotCount l < n) (hL : ∀ e ∈ l, IsName e.name)
    (hd : d ∉ T.map Prod.fst)
    (hdone : (∀ e ∈ l, e.dot) → Q (.ok (false, s.closed, none)) ⟨δ, T⟩)
    (hent : ∀ pre ent rest, l = pre ++ ent :: rest → (∀ e ∈ pre, e.dot) → ¬ ent.dot →
      Q (.ok (true, s.at ent (entryPath s.root ent.name), none)) ⟨δ, (d, rest) :: T⟩) :
    wp L.step Q (s.advance n) ⟨δ, (d, l) :: T⟩ := by
  obtain ⟨hdl, root, entry⟩ := s
  cases hs
  have hs : (⟨some d, root, entry⟩ : Stream).handle = some d := rfl
  induction n generalizing l with
  | zero => omega
  | succ n ih =>
    unfold Stream.advance
    rw [hs]
    intro r σ' h
    simp only [Laws.step, tfind_head] at h
    cases l with
    | nil =>
      obtain ⟨rfl, rfl⟩ := h
      apply wp_bind
      exact wpK_close hs hd (hdone (by simp))
    | cons ent rest =>
      obtain ⟨rfl, rfl⟩ := h
      rw [List.map_cons, if_pos rfl, tmap_keys hd]
      dsimp only
      by_cases hdot : ent.dot
      · rw [if_pos hdot]
        refine ih (by simp only [dotCount, List.countP_cons, hdot, decide_true, if_true] at hn ⊢; omega) (fun e he => hL e (by simp [he]))
          (fun h => hdone (by simpa using ⟨hdot, h⟩)) (fun pre a b he hp ha => hent (ent :: pre) a b (by rw [he]; rfl) (by simpa using ⟨hdot, hp⟩) ha)
      · rw [if_neg hdot, if_neg (hL ent (by simp)).1, append_name hr]
        exact hent [] ent rest rfl (by simp) hdot

/-- The path of an entry whose name is a name. -/
theorem entryPath_eq {root : Path} {w : Str} (hw : IsName w) : entryPath root w = mkPath .posix (appendText root.pathname w) := by
  unfold entryPath
  rw [if_neg]
  obtain ⟨h1, h2⟩ := hw
  cases w with
  | nil => exact absurd rfl h1
  | cons c cs =>
    simp only [List.mem_cons, not_or] at h2
    simp [startsSlash, Ne.symm h2.1]

/-- Opening a directory. -/
theorem wpK_new {Q : Except Stop (DirIter × EcArg) → Os τ → Prop} {p : Path} (hp : Shape p) {n : Nat} {opts : DirOptions} {c : Code}
    (herr : ∀ e, L.opens δ p.pathname (.error e) → Q (.ok (none, .ref (if opts.has .skipDenied ∧ e = .EACCES then none else some e))) ⟨δ, T⟩)
    (hn : ∀ l, L.opens δ p.pathname (.ok l) → dotCount l < n ∧ ∀ e ∈ l, IsName e.name)
    (hdone : ∀ l, L.opens δ p.pathname (.ok l) → (∀ e ∈ l, e.dot) → Q (.ok (none, .ref none)) ⟨δ, T⟩)
    (hent : ∀ l d pre ent rest, L.opens δ p.pathname (.ok l) → l = pre ++ ent :: rest → (∀ e ∈ pre, e.dot) → ¬ ent.dot →
      d ∉ T.map Prod.fst →
      Q (.ok (some (Stream.at ⟨some d, p, .default⟩ ent (mkPath .posix (appendText p.pathname ent.name))), .ref none)) ⟨δ, (d, rest) :: T⟩) :
    wp L.step Q (DirIter.new n p opts (.ref c)) ⟨δ, T⟩ := by
  unfold DirIter.new
  simp only [clear_ref, Prog.bind_eq]
  apply wp_bind
  unfold Stream.new
  intro r σ' h
  cases r with
  | error e =>
    simp only [Laws.step] at h
    obtain ⟨h, rfl⟩ := h
    have := herr e h
    dsimp only
    split <;> rename_i hc
    · rw [if_pos hc] at this
      simpa only [wp, Stream.good, Option.isSome_none, Bool.not_false, if_true, EcArg.assign] using this
    · rw [if_neg hc] at this
      simpa only [wp, Stream.good, Option.isSome_none, Bool.not_false, if_true, EcArg.assign, Handler.report, Prog.ret_bind] using this
  | ok d =>
    simp only [Laws.step] at h
    obtain ⟨l, h, hd, rfl⟩ := h
    obtain ⟨h1, h2⟩ := hn l h
    apply wp_bind
    refine wpK_advance rfl hp h1 h2 hd (fun hx => ?_) (fun pre ent rest hl hpre hx => ?_)
    · simpa only [wp, Stream.closed_good, Bool.not_false, if_true, EcArg.assign] using hdone l h hx
    · have := hent l d pre ent rest h hl hpre hx hd
      rw [entryPath_eq (h2 ent (by simp [hl]))]
      simpa only [wp, Stream.good, Stream.at, Option.isSome_some, Bool.not_true, Bool.false_eq_true, if_false, EcArg.assign] using this

/-- Going on to the next entry. -/
theorem wpK_incr {Q : Except Stop (DirIter × EcArg) → Os τ → Prop} {s : Stream} {d n : Nat} {l : List Dirent} {c : Code}
    (hs : s.Live d) (hn : dotCount l < n) (hL : ∀ e ∈ l, IsName e.name) (hd : d ∉ T.map Prod.fst)
    (hdone : (∀ e ∈ l, e.dot) → Q (.ok (none, .ref none)) ⟨δ, T⟩)
    (hent : ∀ pre ent rest, l = pre ++ ent :: rest → (∀ e ∈ pre, e.dot) → ¬ ent.dot →
      Q (.ok (some (s.at ent (mkPath .posix (appendText s.root.pathname ent.name))), .ref none)) ⟨δ, (d, rest) :: T⟩) :
    wp L.step Q (DirIter.incr n (some s) (.ref c)) ⟨δ, (d, l) :: T⟩ := by
  unfold DirIter.incr
  simp only [clear_ref, Prog.bind_eq]
  apply wp_bind
  refine wpK_advance hs.handle hs.root hn hL hd (fun h => hdone h) (fun pre ent rest hl hp h => ?_)
  rw [entryPath_eq (hL ent (by simp [hl]))]
  exact hent pre ent rest hl hp h

end

theorem exists_other (l : List Nat) : ∃ d, d ∉ l := by
  refine ⟨l.sum + 1, fun h => ?_⟩
  have : ∀ (l : List Nat) (d : Nat), d ∈ l → d ≤ l.sum := by
    intro l
    induction l with
    | nil => simp
    | cons a l ih =>
      intro d hd
      rcases List.mem_cons.mp hd with rfl | hd
      · simp
      · simp only [List.sum_cons]; have := ih d hd; omega
  have := this l _ h
  omega

/-- Laws that allow something for every call in every state give a system that does. -/
theorem Spec.Laws.total {τ : Type} {L : Laws τ} (h1 : ∀ δ x, ∃ r, L.opens δ x r)
    (h2 : ∀ δ (c : Sys), ∃ (r : c.Ret) (δ' : τ), L.does δ ⟨c, r⟩ δ') (s : Os τ) (c : Sys) :
    ∃ (r : c.Ret) (s' : Os τ), L.step s ⟨c, r⟩ s' := by
  cases c with
  | opendir x =>
    obtain ⟨r, hr⟩ := h1 s.disk x
    cases r with
    | error e => exact ⟨.error e, s, hr, rfl⟩
    | ok l =>
      obtain ⟨d, hd⟩ := exists_other (s.table.map Prod.fst)
      exact ⟨.ok d, _, l, hr, hd, rfl⟩
  | readdir d =>
    cases h : s.table.find? (·.1 = d) with
    | none => exact ⟨.ok none, s, by simp only [Laws.step, h]⟩
    | some x =>
      obtain ⟨d', l⟩ := x
      cases l with
      | nil => exact ⟨.ok none, s, by simp [Laws.step, h]⟩
      | cons e l => exact ⟨.ok (some e), _, by simp only [Laws.step, h]; exact ⟨trivial, rfl⟩⟩
  | closedir d => exact ⟨.ok (), _, fun _ => rfl⟩
  | _ =>
    obtain ⟨r, δ', h⟩ := h2 s.disk _
    exact ⟨r, ⟨δ', s.table⟩, h, rfl⟩

end Asap
