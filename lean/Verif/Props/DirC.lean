import Verif.Props.DirB

/-!
# C47: directory handles

Any answers of the operating system are allowed here, except that `opendir` does not hand out a handle
that is open.
-/

namespace Asap
namespace Spec

/-- The directory handles that are open, after an event; `none` once a handle that is not open has been
read or closed. -/
def useDir (s : Option (List Nat)) (ev : Event) : Option (List Nat) :=
  match s, ev with
  | none, _ => none
  | some ds, ⟨.opendir _, .ok d⟩ => some (d :: ds)
  | some ds, ⟨.closedir d, _⟩ => if d ∈ ds then some (ds.erase d) else none
  | some ds, ⟨.readdir d, _⟩ => if d ∈ ds then some ds else none
  | some ds, _ => some ds

/-- The operating system never hands out a handle that is open. -/
def freshDir (s : Option (List Nat)) (ev : Event) : Prop :=
  match s, ev with
  | some ds, ⟨.opendir _, .ok d⟩ => d ∉ ds
  | _, _ => True

/-- A client of a recursive iterator: actions at any time, also at the end; then the iterator is destroyed.
With the throwing forms, an exception ends the client. -/
def driveRec (n : Nat) (ec : EcArg) : List Act → RecIter → Prog Unit
  | [], it => closeAll ((it.impl.map Prod.fst).getD [])
  | .disable :: acts, it => driveRec n ec acts it.disable
  | .incr :: acts, it => do
    let (it, _) ← it.incr n ec
    driveRec n ec acts it
  | .pop :: acts, it => do
    let (it, _) ← it.pop n ec
    driveRec n ec acts it

/-- The client from the constructor on. -/
def lifeRec (n : Nat) (p : Path) (opts : DirOptions) (acts : List Act) (ec : EcArg) : Prog Unit := do
  let (it, _) ← RecIter.new n p opts ec
  driveRec n ec acts it

/-- A client of a plain iterator: `k` increments, then the iterator is destroyed. -/
def driveDir (n : Nat) (ec : EcArg) : Nat → DirIter → Prog Unit
  | 0, it => it.destroy
  | k + 1, it => do
    let (it, _) ← it.incr n ec
    driveDir n ec k it

/-- The client from the constructor on. -/
def lifeDir (n : Nat) (p : Path) (opts : DirOptions) (k : Nat) (ec : EcArg) : Prog Unit := do
  let (it, _) ← DirIter.new n p opts ec
  driveDir n ec k it

end Spec
open Spec

abbrev dstep (s : Option (List Nat)) (e : Event) (s' : Option (List Nat)) : Prop := s' = useDir s e ∧ freshDir s e

/-- The open handles are `hs` and `base`. -/
def Holds (hs base : List Nat) (s : Option (List Nat)) : Prop := ∃ ds, s = some ds ∧ ds.Perm (hs ++ base) ∧ ds.Nodup

theorem Holds.ne_none {hs base : List Nat} {s : Option (List Nat)} (h : Holds hs base s) : s ≠ none := by
  obtain ⟨ds, rfl, _⟩ := h; simp

theorem Holds.opened {hs base : List Nat} {s : Option (List Nat)} {p : Str} {d : Nat} (h : Holds hs base s)
    (hf : freshDir s ⟨.opendir p, (.ok d : Except Errno Nat)⟩) :
    Holds (d :: hs) base (useDir s ⟨.opendir p, (.ok d : Except Errno Nat)⟩) := by
  obtain ⟨ds, rfl, h1, h2⟩ := h
  exact ⟨d :: ds, rfl, h1.cons d, List.nodup_cons.mpr ⟨hf, h2⟩⟩

theorem Holds.closed {hs base : List Nat} {s : Option (List Nat)} {d : Nat} {r : Except Errno Unit} (h : Holds (d :: hs) base s) :
    Holds hs base (useDir s ⟨.closedir d, r⟩) := by
  obtain ⟨ds, rfl, h1, h2⟩ := h
  have hm : d ∈ ds := h1.symm.subset (by simp)
  refine ⟨ds.erase d, by simp [useDir, hm], ?_, h2.erase d⟩
  have := h1.erase d
  simpa using this

theorem Holds.read {hs base : List Nat} {s : Option (List Nat)} {d : Nat} {r : Except Errno (Option Dirent)} (h : Holds (d :: hs) base s) :
    Holds (d :: hs) base (useDir s ⟨.readdir d, r⟩) := by
  obtain ⟨ds, rfl, h1, h2⟩ := h
  have hm : d ∈ ds := h1.symm.subset (by simp)
  exact ⟨ds, by simp [useDir, hm], h1, h2⟩

theorem Holds.perm {hs hs' base : List Nat} {s : Option (List Nat)} (h : Holds hs base s) (hp : hs.Perm hs') : Holds hs' base s := by
  obtain ⟨ds, rfl, h1, h2⟩ := h
  exact ⟨ds, rfl, h1.trans (hp.append_right base), h2⟩

/-- The handle of a stream. -/
def Stream.held (s : Stream) : List Nat := s.handle.toList

def heldAll (ss : List Stream) : List Nat := ss.flatMap Stream.held

/-- Post-conditions: `P` if the program returns; after an exception only `base` is open; in any case no
handle has been misused, and only if `bad` a null stream has been read. -/
def Then (bad : Prop) (base : List Nat) {α : Type} (P : α → Option (List Nat) → Prop) (o : Except Stop α) (s : Option (List Nat)) : Prop :=
  match o with
  | .ok a => P a s
  | .error (.thrown _) => Holds [] base s
  | .error x => (x = .fault .badStream → bad) ∧ s ≠ none

theorem then_bind {bad : Prop} {base : List Nat} {α β : Type} {P : α → Option (List Nat) → Prop} {R : β → Option (List Nat) → Prop} {p : Prog α} {f : α → Prog β}
    {s : Option (List Nat)} (h : wp dstep (Then bad base P) p s) (hf : ∀ a s, P a s → wp dstep (Then bad base R) (f a) s) :
    wp dstep (Then bad base R) (p.bind f) s := by
  apply wp_bind
  refine wp_mono ?_ h
  rintro (x | a) s h
  · cases x <;> exact h
  · exact hf a s h

theorem then_mono {bad : Prop} {base : List Nat} {α : Type} {P R : α → Option (List Nat) → Prop} {p : Prog α}
    {s : Option (List Nat)} (h : wp dstep (Then bad base P) p s) (hf : ∀ a s, P a s → R a s) :
    wp dstep (Then bad base R) p s := by
  refine wp_mono ?_ h
  rintro (x | a) s h
  · cases x <;> exact h
  · exact hf a s h

theorem then_ret {bad : Prop} {base : List Nat} {α : Type} {P : α → Option (List Nat) → Prop} {a : α} {s : Option (List Nat)} (h : P a s) :
    wp dstep (Then bad base P) (.ret a) s := h

variable {bad : Prop} {base : List Nat}

theorem wpD_close (s : Stream) (hs : List Nat) {σ : Option (List Nat)} (h : Holds (s.held ++ hs) base σ) :
    wp dstep (Then bad base fun s' σ' => s' = { s with handle := none } ∧ Holds hs base σ') s.close σ := by
  unfold Stream.close
  unfold Stream.held at h
  split
  · rename_i d hd
    rw [hd] at h
    rintro r σ' ⟨rfl, _⟩
    exact ⟨rfl, h.closed⟩
  · rename_i hd
    rw [hd] at h
    obtain ⟨_, _, _⟩ := s
    cases hd
    exact ⟨rfl, h⟩

theorem wpD_closeAll (ss : List Stream) (hs : List Nat) {σ : Option (List Nat)} (h : Holds (heldAll ss ++ hs) base σ) :
    wp dstep (Then bad base fun _ σ' => Holds hs base σ') (closeAll ss) σ := by
  induction ss generalizing hs σ with
  | nil => exact h
  | cons s ss ih =>
    unfold closeAll
    simp only [Prog.bind_eq]
    refine then_bind (ih (s.held ++ hs) (h.perm ?_)) fun _ σ' h' => then_bind (wpD_close s hs h') fun _ _ h'' => h''.2
    simp only [heldAll, List.flatMap_cons]
    rw [← List.append_assoc]
    exact (List.perm_append_comm).append_right _

/-- A stream on an open directory, with paths in their regular form. -/
def Stream.Well (s : Stream) : Prop := s.good = true ∧ Shape s.root ∧ Shape s.entry.path

theorem wpD_advance (n : Nat) (s : Stream) {d : Nat} (hd : s.handle = some d) (hr : Shape s.root) (hs : List Nat) {σ : Option (List Nat)}
    (h : Holds (d :: hs) base σ) :
    wp dstep (Then bad base fun r σ' => (r.1 = true → (r.2.1.handle = some d ∧ r.2.1.Well) ∧ Holds (d :: hs) base σ') ∧
      (r.1 = false → r.2.1 = { s with handle := none } ∧ Holds hs base σ')) (s.advance n) σ := by
  induction n generalizing σ with
  | zero => exact ⟨by simp, h.ne_none⟩
  | succ n ih =>
    unfold Stream.advance
    rw [hd]
    rintro r σ' ⟨rfl, _⟩
    have hσ := h.read (r := r)
    generalize useDir σ ⟨.readdir d, r⟩ = σ' at hσ
    have hcl : ∀ c : Code, wp dstep (Then bad base fun r σ' => (r.1 = true → (r.2.1.handle = some d ∧ r.2.1.Well) ∧ Holds (d :: hs) base σ') ∧
      (r.1 = false → r.2.1 = { s with handle := none } ∧ Holds hs base σ')) (s.close.bind fun s => .ret (false, s, c)) σ' := by
      intro c
      refine then_bind (wpD_close s hs (by simpa [Stream.held, hd] using hσ)) fun s' σ'' h' => ?_
      exact then_ret ⟨fun h => Bool.noConfusion h, fun _ => h'⟩
    rcases r with e | (_ | ent)
    · exact hcl _
    · exact hcl _
    · dsimp only
      split
      · exact ih hσ
      · split
        · exact hcl _
        · simp only [Prog.bind_eq]
          rw [append_name hr]
          refine then_ret ⟨fun _ => ⟨⟨rfl, rfl, hr, ?_⟩, hσ⟩, by intro h; cases h⟩
          unfold entryPath
          split <;> exact mkPath_shape _

theorem wpD_new (n : Nat) {p : Path} (hp : Shape p) (opts : DirOptions) (hs : List Nat) {σ : Option (List Nat)} (h : Holds hs base σ) :
    wp dstep (Then bad base fun r σ' => Holds (r.1.held ++ hs) base σ' ∧ (r.1.good = true → r.1.Well)) (Stream.new n p opts) σ := by
  unfold Stream.new
  rintro r σ' ⟨rfl, hf⟩
  rcases r with e | d
  · have : useDir σ ⟨.opendir p.pathname, (.error e : Except Errno Nat)⟩ = σ := by
      obtain ⟨ds, rfl, _⟩ := h; rfl
    dsimp only
    rw [this]
    split <;> exact ⟨h, by intro h; cases h⟩
  · simp only [Prog.bind_eq]
    refine then_bind (wpD_advance n ⟨some d, p, .default⟩ rfl hp hs (h.opened hf)) fun r σ' h' => ?_
    refine then_ret ?_
    obtain ⟨b, s, c⟩ := r
    cases b with
    | true => obtain ⟨⟨h1, h3⟩, h2⟩ : (s.handle = some d ∧ _) ∧ _ := h'.1 rfl; exact ⟨by simpa [Stream.held, h1] using h2, fun _ => h3⟩
    | false =>
      obtain ⟨h1, h2⟩ : s = ⟨none, p, .default⟩ ∧ _ := h'.2 rfl; replace h1 : s.handle = none := by rw [h1]
      exact ⟨by simpa [Stream.held, h1] using h2, by simp [Stream.good, h1]⟩

theorem wpD_report {α : Type} (hd : Handler) (ec : EcArg) (c : Code) (a : α) {σ : Option (List Nat)} (h : Holds [] base σ) :
    wp dstep (Then bad base fun _ σ' => Holds [] base σ') (hd.report ec c a) σ := by
  unfold Handler.report; cases ec <;> exact h

theorem wpD_reportMsg {α : Type} (hd : Handler) (ec : EcArg) (c : Code) (m : Str) (a : α) {σ : Option (List Nat)} (h : Holds [] base σ) :
    wp dstep (Then bad base fun _ σ' => Holds [] base σ') (hd.reportMsg ec c m a) σ := by
  unfold Handler.reportMsg; cases ec <;> exact h

/-! ## `directory_iterator` -/

/-- What an iterator holds open. -/
def DirIter.held : DirIter → List Nat
  | none => []
  | some s => s.held

theorem wpD_dirNew (n : Nat) {p : Path} (hp : Shape p) (opts : DirOptions) (ec : EcArg) {σ : Option (List Nat)} (h : Holds [] base σ) :
    wp dstep (Then bad base fun r σ' => Holds (DirIter.held r.1) base σ' ∧ ∀ s, r.1 = some s → s.Well) (DirIter.new n p opts ec) σ := by
  unfold DirIter.new
  simp only [Prog.bind_eq]
  refine then_bind (wpD_new n hp opts [] h) fun r σ' h' => ?_
  obtain ⟨h', hw⟩ := h'
  rw [List.append_nil] at h'
  split
  · rename_i hg
    have : r.1.held = [] := by
      simp only [Stream.good, Bool.not_eq_true', Option.isSome_eq_false_iff, Option.isNone_iff_eq_none] at hg
      simp [Stream.held, hg]
    rw [this] at h'
    split
    · exact then_bind (wpD_report _ _ _ _ h') fun _ _ h => then_ret ⟨h, by intro s h; cases h⟩
    · exact ⟨h', by intro s h; cases h⟩
  · rename_i hg
    refine ⟨h', ?_⟩
    rintro s ⟨⟩
    exact hw (by simpa using hg)

theorem wpD_dirIncr (n : Nat) (it : DirIter) (ec : EcArg) {σ : Option (List Nat)} (h : Holds it.held base σ) (hg : ∀ s, it = some s → s.Well) :
    wp dstep (Then bad base fun r σ' => Holds (DirIter.held r.1) base σ' ∧ ∀ s, r.1 = some s → s.Well) (DirIter.incr n it ec) σ := by
  unfold DirIter.incr
  cases it with
  | none =>
    simp only [Prog.bind_eq]
    exact then_bind (wpD_reportMsg _ _ _ _ _ h) fun _ _ h => then_ret ⟨h, by intro s h; cases h⟩
  | some s =>
    have hw := hg s rfl
    obtain ⟨d, hd⟩ := Option.isSome_iff_exists.mp hw.1
    simp only [Prog.bind_eq]
    refine then_bind (wpD_advance n s hd hw.2.1 [] (by simpa [DirIter.held, Stream.held, hd] using h)) fun r σ' h' => ?_
    obtain ⟨b, s', c⟩ := r
    cases b with
    | true =>
      obtain ⟨⟨h1, h3⟩, h2⟩ : (s'.handle = some d ∧ _) ∧ _ := h'.1 rfl
      refine ⟨by simpa [DirIter.held, Stream.held, h1] using h2, ?_⟩
      rintro s ⟨⟩
      exact h3
    | false =>
      obtain ⟨h1, h2⟩ : s' = { s with handle := none } ∧ _ := h'.2 rfl; replace h1 : s'.handle = none := by rw [h1]
      simp only [Bool.false_eq_true, if_false]
      cases c with
      | none => exact ⟨h2, by intro s h; cases h⟩
      | some e => exact then_bind (wpD_reportMsg _ _ _ _ _ h2) fun _ _ h => then_ret ⟨h, by intro s h; cases h⟩

theorem wpD_destroy (it : DirIter) {σ : Option (List Nat)} (hs : List Nat) (h : Holds (it.held ++ hs) base σ) :
    wp dstep (Then bad base fun _ σ' => Holds hs base σ') it.destroy σ := by
  unfold DirIter.destroy
  cases it with
  | none => exact h
  | some s =>
    simp only [Prog.bind_eq]
    exact then_bind (wpD_close s hs h) fun _ _ h => h.2

/-! ## `recursive_directory_iterator` -/

/-- The streams of an iterator. -/
def RecIter.streams (it : RecIter) : List Stream := (it.impl.map Prod.fst).getD []

/-- What the iterator holds open, and it has not lost a stream. -/
def RecOk (base : List Nat) (it : RecIter) (σ : Option (List Nat)) : Prop :=
  Holds (heldAll it.streams) base σ ∧ (it.impl ≠ none → it.streams ≠ []) ∧ ∀ s ∈ it.streams, s.Well

theorem held_good {s : Stream} (h : s.good = true) : ∃ d, s.handle = some d ∧ s.held = [d] := by
  obtain ⟨d, hd⟩ := Option.isSome_iff_exists.mp h
  exact ⟨d, hd, by simp [Stream.held, hd]⟩

theorem held_moved (s : Stream) : s.moved.held = s.held := rfl

theorem Stream.Well.moved {s : Stream} (h : s.Well) : s.moved.Well := ⟨h.1, mkPath_shape _, mkPath_shape _⟩

theorem recOk_end {it : RecIter} {σ : Option (List Nat)} (hi : it.impl = none) (h : Holds [] base σ) : RecOk base it σ := by
  refine ⟨by simpa [RecIter.streams, hi, heldAll] using h, fun h => absurd hi h, ?_⟩
  simp [RecIter.streams, hi]

theorem wpD_advanceStack (n : Nat) (ss : List Stream) {σ : Option (List Nat)} (h : Holds (heldAll ss) base σ)
    (hg : ∀ s ∈ ss, s.Well) :
    wp dstep (Then bad base fun r σ' => Holds (heldAll r.1) base σ' ∧ (r.2 = none → ∀ s ∈ r.1, s.Well)) (advanceStack n ss) σ := by
  induction ss generalizing σ with
  | nil => exact ⟨h, by intro _ s hs; cases hs⟩
  | cons s ss ih =>
    unfold advanceStack
    simp only [Prog.bind_eq]
    obtain ⟨d, hd, hh⟩ := held_good (hg s (by simp)).1
    simp only [heldAll, List.flatMap_cons, hh] at h
    refine then_bind (wpD_advance n s hd (hg s (by simp)).2.1 (heldAll ss) (by simpa [heldAll] using h)) fun r σ' h' => ?_
    obtain ⟨b, s', c⟩ := r
    cases b with
    | true =>
      obtain ⟨⟨h1, h3⟩, h2⟩ : (s'.handle = some d ∧ _) ∧ _ := h'.1 rfl
      refine ⟨by simpa [heldAll, Stream.held, h1] using h2, fun _ x hx => ?_⟩
      rcases List.mem_cons.mp hx with rfl | hx
      · exact h3
      · exact hg x (by simp [hx])
    | false =>
      obtain ⟨h1, h2⟩ : s' = { s with handle := none } ∧ _ := h'.2 rfl; replace h1 : s'.handle = none := by rw [h1]
      simp only [Bool.false_eq_true, if_false]
      cases c with
      | none => exact ih h2 fun x hx => hg x (by simp [hx])
      | some e => exact ⟨by simpa [heldAll, Stream.held, h1] using h2, by intro h; cases h⟩

theorem wpD_recNew (n : Nat) {p : Path} (hp : Shape p) (opts : DirOptions) (ec : EcArg) {σ : Option (List Nat)} (h : Holds [] base σ) :
    wp dstep (Then bad base fun r σ' => RecOk base r.1 σ') (RecIter.new n p opts ec) σ := by
  unfold RecIter.new
  simp only [Prog.bind_eq]
  refine then_bind (wpD_new n hp opts [] h) fun r σ' h' => ?_
  obtain ⟨h', hw⟩ := h'
  rw [List.append_nil] at h'
  split
  · refine then_bind (P := fun _ σ' => Holds [] base σ') ?_ fun _ _ h => then_ret (recOk_end rfl h)
    apply wp_finally
    unfold Handler.report
    have hdes := wpD_destroy (bad := bad) (some r.1) (base := base) (σ := σ') [] (by simpa [DirIter.held] using h')
    cases ec with
    | null =>
      refine ⟨fun _ => wp_mono ?_ hdes, fun h => absurd trivial h⟩
      rintro (x | a) s h
      · cases x <;> exact h
      · exact h
    | ref c =>
      refine ⟨fun _ => wp_mono ?_ hdes, fun h => absurd trivial h⟩
      rintro (x | a) s h
      · cases x <;> exact h
      · exact h
  · split
    · rename_i hg
      have : r.1.held = [] := by
        simp only [Stream.good, Bool.not_eq_true', Option.isSome_eq_false_iff, Option.isNone_iff_eq_none] at hg
        simp [Stream.held, hg]
      rw [this] at h'
      exact recOk_end rfl h'
    · rename_i hg
      refine ⟨by simpa [RecIter.streams, heldAll, held_moved] using h', by simp [RecIter.streams], ?_⟩
      intro s hs
      simp only [RecIter.streams, Option.map_some, Option.getD_some, List.mem_singleton] at hs
      subst hs
      exact (hw (by simpa using hg)).moved

theorem wpD_recAdvance (n : Nat) (it : RecIter) (ec : EcArg) {σ : Option (List Nat)} (h : RecOk base it σ) :
    wp dstep (Then bad base fun r σ' => RecOk base r.1 σ') (it.advance n ec) σ := by
  unfold RecIter.advance
  split
  · rename_i hi
    have h0 : Holds [] base σ := by simpa [RecIter.streams, hi, heldAll] using h.1
    simp only [Prog.bind_eq]
    exact then_bind (wpD_reportMsg _ _ _ _ _ h0) fun _ _ h => then_ret (recOk_end hi h)
  · rename_i ss opts hi
    simp only [RecOk, RecIter.streams, hi, Option.map_some, Option.getD_some] at h
    simp only [Prog.bind_eq]
    refine then_bind (wpD_advanceStack n ss h.1 h.2.2) fun r σ' h' => ?_
    split
    · refine then_bind (wpD_closeAll r.1 [] (by simpa using h'.1)) fun _ σ'' h'' => ?_
      exact then_bind (wpD_reportMsg _ _ _ _ _ h'') fun _ _ h => then_ret (recOk_end rfl h)
    · rename_i hc
      split
      · rename_i he
        rw [List.isEmpty_iff] at he
        refine then_ret (recOk_end rfl ?_)
        have := h'.1
        rw [he] at this
        exact this
      · rename_i he
        rw [List.isEmpty_iff] at he
        exact ⟨h'.1, fun _ => he, h'.2 hc⟩

/-- Calls that do not concern directory handles. -/
def Spec.Neutral : Sys → Prop
  | .opendir _ | .readdir _ | .closedir _ => False
  | _ => True

theorem useDir_neutral {c : Sys} (h : Neutral c) (r : c.Ret) (σ : Option (List Nat)) : useDir σ ⟨c, r⟩ = σ := by
  cases σ with
  | none => rfl
  | some ds => cases c <;> first | exact h.elim | rfl

/-- Abnormal ends of `p` are neither exceptions nor uses of a null stream. -/
inductive Tame {α : Type} : Prog α → Prop where
  | ret (a : α) : Tame (.ret a)
  | fuel : Tame (.stop .fuel)
  | fault (f : Fault) (h : f ≠ .badStream) : Tame (.stop (.fault f))
  | call (c : Sys) (k : c.Ret → Prog α) (h : ∀ r, Tame (k r)) : Tame (.call c k)

theorem Tame.bind {α β : Type} {p : Prog α} {f : α → Prog β} (h : Tame p) (hf : ∀ a, Tame (f a)) : Tame (p.bind f) := by
  induction h with
  | ret a => exact hf a
  | fuel => exact .fuel
  | fault f h => exact .fault f h
  | call c k _ ih => exact .call c _ ih

/-- Dependent on what the first part returns. -/
theorem Tame.bindAll {α β : Type} {p : Prog α} {f : α → Prog β} {Q : α → Prop} (h : Tame p) (hQ : All Q p) (hf : ∀ a, Q a → Tame (f a)) :
    Tame (p.bind f) := by
  induction h with
  | ret a => cases hQ with | ret _ h => exact hf a h
  | fuel => exact .fuel
  | fault f h => exact .fault f h
  | call c k _ ih => cases hQ with | call _ _ h => exact .call c _ fun r => ih r (h r)

theorem tame_report {α : Type} (h : Handler) (c : Code) (m : Code) (a : α) : Tame (h.report (.ref c) m a) := .ret _
theorem tame_reportMsg {α : Type} (h : Handler) (c : Code) (m : Code) (s : Str) (a : α) : Tame (h.reportMsg (.ref c) m s a) := .ret _
theorem tame_useStat (st : Option Stat) : Tame (Prog.useStat st) := by
  cases st
  · exact .fault _ (by decide)
  · exact .ret _

theorem i64_fault {x : Int} {f : Fault} (h : i64 x = .error f) : f ≠ .badStream := by
  unfold i64 at h
  split at h
  · cases h
  · cases h; decide

theorem timeFromSpec_fault {s n : Int} {f : Fault} (h : timeFromSpec s n = .error f) : f ≠ .badStream := by
  have key : ∀ {x : Int} {g : Int → Res Int}, (∀ a, ∀ f, g a = .error f → f ≠ .badStream) → ∀ f, (i64 x >>= g) = .error f → f ≠ .badStream := by
    intro x g hg f h
    cases hx : i64 x with
    | error f' => rw [hx] at h; cases h; exact i64_fault hx
    | ok v => rw [hx] at h; exact hg v f h
  unfold timeFromSpec at h
  split at h
  · exact key (fun a f => i64_fault) f h
  · exact key (fun a => key fun b => key fun c f => i64_fault) f h

theorem tame_getFileStatus (p : Path) (st : Option Stat) (c : Code) : Tame (getFileStatus p st (.ref c)) := by
  rw [getFileStatus_ref]
  refine .call _ _ fun r => ?_
  cases r <;> exact .ret _

theorem tame_updateBasic (b : Bool) (e : Entry) (c : Code) : Tame (updateBasic b e (.ref c)) := by
  unfold updateBasic
  simp only [Prog.bind_eq, clear_ref]
  refine (tame_getFileStatus _ _ _).bind fun r => ?_
  split
  · exact .ret _
  · refine Tame.bind ?_ fun c => Tame.bind ?_ fun c => Tame.bind ?_ fun c => .ret _
    · split
      · split
        · exact (tame_useStat _).bind fun _ => .ret _
        · exact .ret _
      · exact .ret _
    · split
      · exact (tame_useStat _).bind fun _ => .ret _
      · exact .ret _
    · split
      · refine (tame_useStat _).bind fun st => Tame.bind ?_ fun _ => .ret _
        unfold extractLastWriteTime
        simp only [Prog.bind_eq, clear_ref]
        split
        · refine Tame.bind ?_ fun _ => .ret _
          unfold Prog.ofRes
          split
          · exact .ret _
          · rename_i h; exact .fault _ (timeFromSpec_fault h)
        · exact .ret _
      · exact .ret _

theorem tame_getSymLinkFileType (e : Entry) (c : Code) : Tame (getSymLinkFileType e (.ref c)) := by
  unfold getSymLinkFileType
  simp only [Prog.bind_eq, clear_ref]
  refine Tame.bindAll (Q := fun r => r.2.2.IsRef) ?_ ?_ fun r hr => ?_
  · split
    · exact (tame_updateBasic ..).bind fun _ => .ret _
    · exact .ret _
  · split
    · exact .bind (all_updateBasic ..) fun _ h => .ret _ h
    · exact .ret _ ⟨_, rfl⟩
  · obtain ⟨b, e', ec⟩ := r
    obtain ⟨c', rfl⟩ := hr
    split
    · exact .ret _
    · split
      · exact .ret _
      · refine Tame.bind ?_ fun _ => .ret _
        split
        · exact .ret _
        · exact .ret _

theorem tame_getFileType (e : Entry) (c : Code) : Tame (getFileType e (.ref c)) := by
  unfold getFileType
  simp only [Prog.bind_eq, clear_ref]
  split
  · refine Tame.bindAll (tame_updateBasic ..) (all_updateBasic ..) ?_
    rintro ⟨e, ec⟩ ⟨c, rfl⟩
    exact .ret _
  · exact .ret _

theorem wpD_neutral {α : Type} {Q : α → Prop} {p : Prog α} (hp : Only Neutral Q p) (hn : Tame p)
    {hs : List Nat} {σ : Option (List Nat)} (h : Holds hs base σ) :
    wp dstep (Then bad base fun a σ' => Q a ∧ Holds hs base σ') p σ := by
  induction hp generalizing σ with
  | ret a hq => exact ⟨hq, h⟩
  | stop x =>
    cases hn with
    | fuel => exact ⟨by simp, h.ne_none⟩
    | fault f hf => exact ⟨fun he => by cases he; exact absurd rfl hf, h.ne_none⟩
  | call c k hc _ ih =>
    rintro r σ' ⟨rfl, _⟩
    cases hn with
    | call _ _ hn => exact ih r (hn r) (by rw [useDir_neutral hc]; exact h)

theorem neutral_updateBasic (b : Bool) (e : Entry) (ec : EcArg) : Only Neutral (fun r => r.1.path = e.path) (updateBasic b e ec) := by
  unfold updateBasic getFileStatus createFileStatus extractLastWriteTime
  simp only [Prog.bind_eq]
  only <;> first | exact only_reportMsg .. | exact only_report .. | exact only_useStat _ | exact only_ofRes _

theorem neutral_handleError (m : Str) (e : Entry) (c : Code) (b : Bool) (ec : EcArg) :
    Only Neutral (fun _ => True) (handleError m e c b ec) := by
  unfold handleError; only

theorem neutral_getSymLinkFileType (e : Entry) (ec : EcArg) :
    Only Neutral (fun r => r.1.2.path = e.path) (getSymLinkFileType e ec) := by
  unfold getSymLinkFileType
  simp only [Prog.bind_eq]
  refine Only.bind (Q := fun r : Bool × Entry × EcArg => r.2.1.path = e.path) ?_ fun r hr => ?_
  · split
    · exact (neutral_updateBasic ..).bind fun _ h => .ret _ h
    · exact .ret _ rfl
  · split
    · exact .ret _ hr
    · split
      · exact .ret _ hr
      · refine Only.bind (Q := fun _ => True) ?_ fun _ _ => .ret _ hr
        split
        · exact (neutral_handleError ..).bind fun _ _ => .ret _ trivial
        · exact .ret _ trivial

theorem neutral_getFileType (e : Entry) (ec : EcArg) :
    Only Neutral (fun r => r.1.2.path = e.path) (getFileType e ec) := by
  unfold getFileType
  simp only [Prog.bind_eq]
  have : ∀ r : Entry × EcArg, r.1.path = e.path → Only Neutral (fun r => r.1.2.path = e.path)
      (if r.2 ≠ EcArg.null then (Prog.ret ((FType.none, r.1), r.2) : Prog ((FType × Entry) × EcArg)) else
        Prog.bind (if (!FStatus.exists' { type := r.1.cache.type }) = true then
          (handleError "in directory_entry::GetSymLinkFileType".toList r.1 (some .ENOENT) false r.2).bind fun x => .ret x.2
          else .ret r.2) fun ec => .ret ((r.1.cache.type, r.1), ec)) := by
    intro r hr
    split
    · exact .ret _ hr
    · refine Only.bind (Q := fun _ => True) ?_ fun _ _ => .ret _ hr
      split
      · exact (neutral_handleError ..).bind fun _ _ => .ret _ trivial
      · exact .ret _ trivial
  split
  · exact (neutral_updateBasic ..).bind fun r h => this r h
  · exact this _ rfl

theorem wpD_recTry (n : Nat) (it : RecIter) (ec : EcArg) {σ : Option (List Nat)} (h : RecOk base it σ) :
    wp dstep (Then bad base fun r σ' => RecOk base r.1.2 σ') (it.tryRecursion n ec) σ := by
  unfold RecIter.tryRecursion
  split
  · rename_i hi
    have h0 : Holds [] base σ := by simpa [RecIter.streams, hi, heldAll] using h.1
    simp only [Prog.bind_eq]
    exact then_bind (wpD_reportMsg _ _ _ _ _ h0) fun _ _ h => then_ret (recOk_end hi h)
  · rename_i hi
    exact absurd (by simp [RecIter.streams, hi]) (h.2.1 (by simp [hi]))
  · rename_i cur ss opts hi
    simp only [RecOk, RecIter.streams, hi, Option.map_some, Option.getD_some] at h
    simp only [Prog.bind_eq]
    refine then_bind (P := fun r σ' => r.2.1.path = cur.entry.path ∧ Holds (heldAll (cur :: ss)) base σ') ?_ ?_
    · split
      · refine then_bind (wpD_neutral (neutral_getSymLinkFileType _ _) (tame_getSymLinkFileType _ _) h.1) fun _ _ h => ?_
        exact then_ret h
      · refine then_bind (wpD_neutral (neutral_getFileType _ _) (tame_getFileType _ _) h.1) fun _ _ h => ?_
        exact then_ret h
    · rintro ⟨skip, e, m⟩ σ' ⟨he, h'⟩
      have hcur : ∀ x ∈ ({ cur with entry := e } : Stream) :: ss, x.Well := by
        intro x hx
        rcases List.mem_cons.mp hx with rfl | hx
        · have := h.2.2 cur (by simp)
          exact ⟨this.1, this.2.1, by rw [show ({ cur with entry := e } : Stream).entry.path = cur.entry.path from he]; exact this.2.2⟩
        · exact h.2.2 x (by simp [hx])
      refine then_bind (P := fun r σ' => Holds ((r.1.map Stream.held).getD [] ++ heldAll (cur :: ss)) base σ' ∧
        ∀ s, r.1 = some s → s.Well) ?_ ?_
      · split
        · refine then_bind (wpD_new n (hcur _ (List.mem_cons_self ..)).2.2 opts _ h') fun r σ'' h'' => ?_
          split
          · rename_i hg
            refine then_ret ⟨h''.1, ?_⟩
            rintro s ⟨⟩; exact h''.2 hg
          · rename_i hg
            have : r.1.held = [] := by
              simp only [Stream.good, Bool.not_eq_true, Option.isSome_eq_false_iff, Option.isNone_iff_eq_none] at hg
              simp [Stream.held, hg]
            rw [this] at h''
            exact then_ret ⟨h''.1, by rintro s ⟨⟩⟩
        · exact then_ret ⟨h', by rintro s ⟨⟩⟩
      · rintro ⟨pushed, m⟩ σ'' ⟨h1, h2⟩
        cases pushed with
        | some s =>
          refine then_ret ⟨h1, by simp [RecIter.streams], ?_⟩
          intro x hx
          simp only [RecIter.streams, Option.map_some, Option.getD_some] at hx
          rcases List.mem_cons.mp hx with rfl | hx
          · exact (h2 s rfl).moved
          · exact hcur x hx
        | none =>
          cases m with
          | none => exact then_ret ⟨h1, by simp [RecIter.streams], hcur⟩
          | some e =>
            dsimp only
            split
            · exact then_ret ⟨h1, by simp [RecIter.streams], hcur⟩
            · refine then_bind (wpD_closeAll (_ :: ss) [] (by rw [List.append_nil]; exact h1)) fun _ σ3 h3 => ?_
              exact then_bind (wpD_reportMsg _ _ _ _ _ h3) fun _ _ h => then_ret (recOk_end rfl h)

theorem wpD_recIncr (n : Nat) (it : RecIter) (ec : EcArg) {σ : Option (List Nat)} (h : RecOk base it σ) :
    wp dstep (Then bad base fun r σ' => RecOk base r.1 σ') (it.incr n ec) σ := by
  unfold RecIter.incr
  simp only [Prog.bind_eq]
  refine then_bind (P := fun r σ' => RecOk base r.2.1 σ') ?_ ?_
  · split
    · exact then_bind (wpD_recTry n it _ h) fun _ _ h => then_ret h
    · exact then_ret h
  · rintro ⟨d, it, ec⟩ σ' h
    split
    · exact then_ret h
    · exact wpD_recAdvance n _ _ h

theorem wpD_recPop (n : Nat) (it : RecIter) (ec : EcArg) {σ : Option (List Nat)} (h : RecOk base it σ) :
    wp dstep (Then bad base fun r σ' => RecOk base r.1 σ') (it.pop n ec) σ := by
  unfold RecIter.pop
  split
  · rename_i hi
    have h0 : Holds [] base σ := by simpa [RecIter.streams, hi, heldAll] using h.1
    simp only [Prog.bind_eq]
    exact then_bind (wpD_reportMsg _ _ _ _ _ h0) fun _ _ h => then_ret (recOk_end hi h)
  · rename_i hi
    exact absurd (by simp [RecIter.streams, hi]) (h.2.1 (by simp [hi]))
  · rename_i s ss opts hi
    simp only [RecOk, RecIter.streams, hi, Option.map_some, Option.getD_some] at h
    simp only [Prog.bind_eq]
    refine then_bind (wpD_close s (heldAll ss) (by simpa [heldAll] using h.1)) fun _ σ' h' => ?_
    split
    · rename_i he
      rw [List.isEmpty_iff] at he
      subst he
      exact then_ret (recOk_end rfl h'.2)
    · rename_i he
      rw [List.isEmpty_iff] at he
      exact wpD_recAdvance n _ _ ⟨h'.2, fun _ => he, fun x hx => h.2.2 x (by simp [show x ∈ ss from hx])⟩

theorem wpD_driveRec (n : Nat) (ec : EcArg) (acts : List Act) (it : RecIter) {σ : Option (List Nat)} (h : RecOk base it σ) :
    wp dstep (Then bad base fun _ σ' => Holds [] base σ') (driveRec n ec acts it) σ := by
  induction acts generalizing it σ with
  | nil => exact wpD_closeAll _ [] (by rw [List.append_nil]; exact h.1)
  | cons a acts ih =>
    cases a with
    | disable => exact ih _ h
    | incr => exact then_bind (wpD_recIncr n it ec h) fun r σ' h' => ih r.1 h'
    | pop => exact then_bind (wpD_recPop n it ec h) fun r σ' h' => ih r.1 h'

theorem wpD_driveDir (n : Nat) (ec : EcArg) (k : Nat) (it : DirIter) {σ : Option (List Nat)} (h : Holds it.held base σ)
    (hg : ∀ s, it = some s → s.Well) :
    wp dstep (Then bad base fun _ σ' => Holds [] base σ') (driveDir n ec k it) σ := by
  induction k generalizing it σ with
  | zero => exact wpD_destroy it [] (by simpa using h)
  | succ k ih => exact then_bind (wpD_dirIncr n it ec h hg) fun r σ' h' => ih r.1 h'.1 h'.2

theorem holds_nil {s : Option (List Nat)} (h : Holds [] [] s) : s = some [] := by
  obtain ⟨ds, rfl, h1, _⟩ := h
  rw [List.Perm.eq_nil h1]

theorem then_final {α : Type} {o : Except Stop α} {s : Option (List Nat)} (h : Then False [] (fun _ σ' => Holds [] [] σ') o s) :
    s ≠ none ∧ o ≠ .error (.fault .badStream) ∧ ((∃ v, o = .ok v) ∨ (∃ x, o = .error (.thrown x)) → s = some []) := by
  rcases o with x | v
  · cases x with
    | thrown x => exact ⟨h.ne_none, by simp, fun _ => holds_nil h⟩
    | fault f => exact ⟨h.2, fun he => by cases he; exact h.1 rfl, by rintro (⟨v, ⟨⟩⟩ | ⟨x, ⟨⟩⟩)⟩
    | fuel => exact ⟨h.2, by simp, by rintro (⟨v, ⟨⟩⟩ | ⟨x, ⟨⟩⟩)⟩
  · exact ⟨h.ne_none, by simp, fun _ => holds_nil h⟩

/-- C47 for an iterator with a single owner: whatever the operating system answers and whatever the client does,
only open handles are read or closed, and when the iterator is gone (destroyed, or the client ended by an
exception) every handle it opened has been closed once. Copies of iterators: see `c47_shared_partial`. -/
theorem c47_recursive {n : Nat} {p : Path} (hp : Value p) {opts : DirOptions} {acts : List Act} {ec : EcArg} {t : List Event} {o : Except Stop Unit}
    {s : Option (List Nat)} (h : Exec (lifeRec n p opts acts ec) t o)
    (hs : Steps (fun s e s' => s' = useDir s e ∧ freshDir s e) (some []) t s) :
    s ≠ none ∧ o ≠ .error (.fault .badStream) ∧ ((∃ v, o = .ok v) ∨ (∃ x, o = .error (.thrown x)) → s = some []) := by
  have h0 : Holds [] [] (some []) := ⟨[], rfl, .refl _, List.nodup_nil⟩
  exact then_final (wp_sound (then_bind (wpD_recNew n hp.shape opts ec h0) fun r σ' h' => wpD_driveRec n ec acts r.1 h') h hs)

/-- C47 for `directory_iterator` with a single owner. -/
theorem c47_directory {n : Nat} {p : Path} (hp : Value p) {opts : DirOptions} {k : Nat} {ec : EcArg} {t : List Event} {o : Except Stop Unit}
    {s : Option (List Nat)} (h : Exec (lifeDir n p opts k ec) t o)
    (hs : Steps (fun s e s' => s' = useDir s e ∧ freshDir s e) (some []) t s) :
    s ≠ none ∧ o ≠ .error (.fault .badStream) ∧ ((∃ v, o = .ok v) ∨ (∃ x, o = .error (.thrown x)) → s = some []) := by
  have h0 : Holds [] [] (some []) := ⟨[], rfl, .refl _, List.nodup_nil⟩
  exact then_final (wp_sound (then_bind (wpD_dirNew n hp.shape opts ec h0) fun r σ' h' => wpD_driveDir n ec k r.1 h'.1 h'.2) h hs)

end Asap
