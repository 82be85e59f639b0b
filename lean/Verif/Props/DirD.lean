import Verif.Dir.Shared
import Verif.Props.DirC

/-!
# C47 with copies of iterators

Copies share their streams. A client makes, copies, assigns, moves, destroys and uses any number of
iterators in any order.
-/

namespace Asap
namespace Spec

/-- What a client does next; variables are numbered in the order of their construction. -/
inductive Cmd where
  | openDir (p : Path) (opts : DirOptions)
  | openRec (p : Path) (opts : DirOptions)
  | copy (i : Nat)
  | assign (i j : Nat)
  | move (i j : Nat)
  | drop (i : Nat)
  | incr (i : Nat)
  | pop (i : Nat)
  | disable (i : Nat)

/-- The paths opened are values a program can hold. -/
def Cmd.Proper : Cmd → Prop
  | .openDir p _ | .openRec p _ => Value p
  | _ => True

/-- The variable exists and no other variable has moved its position since it was set (the rule of input
iterators: incrementing one copy invalidates the others). -/
def freshVar (H : Heap) (i : Nat) : Bool := ((H.vars[i]?).map Var.fresh).getD false

/-- The client; at its end all variables are destroyed. A strict client leaves out increments and pops of
stale copies. -/
def useAll (n : Nat) (strict : Bool) : List Cmd → Heap → Prog Unit
  | [], H => do
    let _ ← H.releaseAll H.vars.length
    .ret ()
  | .openDir p opts :: cs, H => do
    let (it, _) ← DirIter.new n p opts (.ref none)
    useAll n strict cs (H.add (it.map fun s => ⟨[s], opts, false⟩))
  | .openRec p opts :: cs, H => do
    let (it, _) ← RecIter.new n p opts (.ref none)
    useAll n strict cs (H.add (it.impl.map fun x => ⟨x.1, x.2, true⟩))
  | .copy i :: cs, H => useAll n strict cs (H.copy i)
  | .assign i j :: cs, H => do
    let H ← H.assign i j
    useAll n strict cs H
  | .move i j :: cs, H => do
    let H ← H.move i j
    useAll n strict cs H
  | .drop i :: cs, H => do
    let H ← H.release i
    useAll n strict cs H
  | .incr i :: cs, H =>
    if strict && !freshVar H i then useAll n strict cs H
    else do
      let H ← H.incr n i
      useAll n strict cs H
  | .pop i :: cs, H =>
    if strict && !freshVar H i then useAll n strict cs H
    else do
      let H ← H.pop n i
      useAll n strict cs H
  | .disable i :: cs, H => useAll n strict cs (H.disable i)

end Spec
open Spec

variable {bad : Prop}

/-- Paths in their regular form. -/
def Stream.Fit (s : Stream) : Prop := Shape s.root ∧ Shape s.entry.path

def FitAll (ss : List Stream) : Prop := ∀ s ∈ ss, s.Fit

/-- A stack whose streams are all open. -/
def Live (ss : List Stream) : Prop := ss ≠ [] ∧ ∀ s ∈ ss, s.good = true

theorem wpS_advance (n : Nat) (s : Stream) (hf : s.Fit) (hb : s.good = true ∨ bad) (hs : List Nat) {σ : Option (List Nat)}
    (h : Holds (s.held ++ hs) [] σ) :
    wp dstep (Then bad [] fun r σ' => Holds (r.2.1.held ++ hs) [] σ' ∧ r.2.1.Fit ∧ (r.1 = true → r.2.1.good = true) ∧
      (r.1 = false → r.2.1.handle = none)) (s.advance n) σ := by
  cases hd : s.handle with
  | none =>
    rcases hb with hb | hb
    · rw [Stream.good, hd] at hb; cases hb
    · cases n with
      | zero => exact ⟨by simp, h.ne_none⟩
      | succ n =>
        unfold Stream.advance
        rw [hd]
        exact ⟨fun _ => hb, h.ne_none⟩
  | some d =>
    refine then_mono (wpD_advance n s hd hf.1 hs (by simpa [Stream.held, hd] using h)) fun r σ' h' => ?_
    obtain ⟨b, s', c⟩ := r
    cases b with
    | true =>
      obtain ⟨⟨h1, h3⟩, h2⟩ : (s'.handle = some d ∧ _) ∧ _ := h'.1 rfl
      exact ⟨by simpa [Stream.held, h1] using h2, h3.2, fun _ => h3.1, fun h => Bool.noConfusion h⟩
    | false =>
      obtain ⟨h1, h2⟩ : s' = { s with handle := none } ∧ _ := h'.2 rfl
      subst h1
      exact ⟨by simpa [Stream.held] using h2, hf, fun h => Bool.noConfusion h, fun _ => rfl⟩

theorem wpS_advanceStack (n : Nat) (ss : List Stream) (hf : FitAll ss) (hb : (∀ s ∈ ss, s.good = true) ∨ bad) (hs : List Nat)
    {σ : Option (List Nat)} (h : Holds (heldAll ss ++ hs) [] σ) :
    wp dstep (Then bad [] fun r σ' => Holds (heldAll r.1 ++ hs) [] σ' ∧ FitAll r.1 ∧
      ((∀ s ∈ ss, s.good = true) → r.2 = none → ∀ s ∈ r.1, s.good = true)) (advanceStack n ss) σ := by
  induction ss generalizing σ with
  | nil => exact ⟨h, hf, fun h _ => h⟩
  | cons s ss ih =>
    unfold advanceStack
    simp only [Prog.bind_eq]
    have hf' : FitAll ss := fun x hx => hf x (by simp [hx])
    refine then_bind (wpS_advance n s (hf s (by simp)) (hb.imp (fun h => h s (by simp)) id) (heldAll ss ++ hs)
      (by simpa [heldAll] using h)) fun r σ' h' => ?_
    obtain ⟨b, s', c⟩ := r
    obtain ⟨h1, h2, h3, h4⟩ := h'
    cases b with
    | true =>
      refine ⟨by simpa [heldAll] using h1, ?_, fun hg _ x hx => ?_⟩
      · intro x hx
        rcases List.mem_cons.mp hx with rfl | hx
        · exact h2
        · exact hf' x hx
      · rcases List.mem_cons.mp hx with rfl | hx
        · exact h3 rfl
        · exact hg x (by simp [hx])
    | false =>
      simp only [Bool.false_eq_true, if_false]
      cases c with
      | none =>
        have : s'.held = [] := by simp [Stream.held, show s'.handle = none from h4 rfl]
        refine then_mono (ih hf' (hb.imp (fun h x hx => h x (by simp [hx])) id) (by simpa [this] using h1)) fun r σ'' h'' => ?_
        exact ⟨h''.1, h''.2.1, fun hg => h''.2.2 fun x hx => hg x (by simp [hx])⟩
      | some e =>
        refine ⟨by simpa [heldAll] using h1, ?_, fun _ h => nomatch h⟩
        intro x hx
        rcases List.mem_cons.mp hx with rfl | hx
        · exact h2
        · exact hf' x hx

/-- After an operation on the shared stack `ss`, beside other handles `hs`. -/
def Left (ss : List Stream) (hs : List Nat) (left : After) (σ : Option (List Nat)) : Prop :=
  Holds (heldAll left.1 ++ hs) [] σ ∧ FitAll left.1 ∧ (Live ss → left.2 = false → Live left.1)

theorem wpS_dirIncr (n : Nat) (s : Stream) (hf : s.Fit) (hb : s.good = true ∨ bad) (hs : List Nat) {σ : Option (List Nat)}
    (h : Holds (s.held ++ hs) [] σ) (c : Code) :
    wp dstep (Then bad [] fun r σ' => Left [s] hs r.1 σ') (sharedDirIncr n s (.ref c)) σ := by
  unfold sharedDirIncr
  simp only [Prog.bind_eq]
  refine then_bind (wpS_advance n s hf hb hs h) fun r σ' h' => ?_
  obtain ⟨b, s', m⟩ := r
  obtain ⟨h1, h2, h3, h4⟩ := h'
  cases b with
  | true =>
    refine ⟨by simpa [heldAll] using h1, ?_, fun _ _ => ⟨by simp, ?_⟩⟩
    · intro x hx; obtain rfl : x = s' := by simpa using hx
      exact h2
    · intro x hx; obtain rfl : x = s' := by simpa using hx
      exact h3 rfl
  | false =>
    have : ∀ l : After, l = ([{ s' with root := s'.root.clear .posix }], true) → Left [s] hs l σ' := by
      rintro _ rfl
      refine ⟨by simpa [heldAll, Stream.held] using h1, ?_, fun _ h => nomatch h⟩
      intro x hx; obtain rfl : x = { s' with root := s'.root.clear .posix } := by simpa using hx
      exact ⟨mkPath_shape [], h2.2⟩
    simp only [Bool.false_eq_true, if_false]
    cases m with
    | none => exact this _ rfl
    | some e => exact this _ rfl

theorem wpS_sharedAdvance (n : Nat) (ss : List Stream) (hf : FitAll ss) (hb : (∀ s ∈ ss, s.good = true) ∨ bad) (hs : List Nat)
    {σ : Option (List Nat)} (h : Holds (heldAll ss ++ hs) [] σ) (c : Code) :
    wp dstep (Then bad [] fun r σ' => Left ss hs r.1 σ') (sharedAdvance n ss (.ref c)) σ := by
  unfold sharedAdvance
  simp only [Prog.bind_eq]
  refine then_bind (wpS_advanceStack n ss hf hb hs h) fun r σ' h' => ?_
  obtain ⟨st, m⟩ := r
  obtain ⟨h1, h2, h3⟩ := h'
  cases m with
  | none =>
    refine ⟨h1, h2, fun hl he => ⟨?_, h3 hl.2 rfl⟩⟩
    rintro rfl
    cases he
  | some e =>
    cases st with
    | nil => exact ⟨h1, h2, fun _ h => nomatch h⟩
    | cons s st =>
      refine ⟨by simpa [heldAll, Stream.held] using h1, ?_, fun _ h => nomatch h⟩
      intro x hx
      rcases List.mem_cons.mp hx with rfl | hx
      · exact ⟨mkPath_shape [], (h2 s (by simp)).2⟩
      · exact h2 x (by simp [hx])

theorem wpS_try (n : Nat) (ss : List Stream) (opts : DirOptions) (hf : FitAll ss) (hb : Live ss ∨ bad) (hs : List Nat)
    {σ : Option (List Nat)} (h : Holds (heldAll ss ++ hs) [] σ) (c : Code) :
    wp dstep (Then bad [] fun r σ' => Left ss hs r.2.1 σ' ∧ r.2.2.IsRef ∧ (r.2.1.2 = true → r.2.2.isSet = true)) (sharedTry n ss opts (.ref c)) σ := by
  unfold sharedTry
  cases ss with
  | nil =>
    rcases hb with hb | hb
    · exact absurd rfl hb.1
    · exact ⟨fun _ => hb, h.ne_none⟩
  | cons cur ss =>
    simp only [Prog.bind_eq]
    refine then_bind (P := fun r σ' => r.2.1.path = cur.entry.path ∧ Holds (heldAll (cur :: ss) ++ hs) [] σ') ?_ ?_
    · split
      · refine then_bind (wpD_neutral (neutral_getSymLinkFileType _ _) (tame_getSymLinkFileType _ _) h) fun _ _ h => ?_
        exact then_ret h
      · refine then_bind (wpD_neutral (neutral_getFileType _ _) (tame_getFileType _ _) h) fun _ _ h => ?_
        exact then_ret h
    · rintro ⟨skip, e, m⟩ σ' ⟨he, h'⟩
      have hcur : FitAll (({ cur with entry := e } : Stream) :: ss) := by
        intro x hx
        rcases List.mem_cons.mp hx with rfl | hx
        · have := hf cur (by simp)
          exact ⟨this.1, by rw [show ({ cur with entry := e } : Stream).entry.path = cur.entry.path from he]; exact this.2⟩
        · exact hf x (by simp [hx])
      have hlive : Live (cur :: ss) → Live (({ cur with entry := e } : Stream) :: ss) := by
        rintro ⟨_, hg⟩
        refine ⟨by simp, fun x hx => ?_⟩
        rcases List.mem_cons.mp hx with rfl | hx
        · exact hg cur (by simp)
        · exact hg x (by simp [hx])
      refine then_bind (P := fun r σ' => Holds ((r.1.map Stream.held).getD [] ++ (heldAll (cur :: ss) ++ hs)) [] σ' ∧
        ∀ s, r.1 = some s → s.Well) ?_ ?_
      · split
        · refine then_bind (wpD_new n (hcur _ (List.mem_cons_self ..)).2 opts _ h') fun r σ'' h'' => ?_
          split
          · rename_i hg
            refine then_ret ⟨h''.1, ?_⟩
            rintro s ⟨⟩; exact h''.2 hg
          · rename_i hg
            have : r.1.held = [] := by
              simp only [Stream.good, Bool.not_eq_true, Option.isSome_eq_false_iff, Option.isNone_iff_eq_none] at hg
              simp [Stream.held, hg]
            rw [this] at h''
            exact then_ret ⟨h''.1, by rintro s ⟨⟩⟩
        · exact then_ret ⟨h', by rintro s ⟨⟩⟩
      · rintro ⟨pushed, m⟩ σ'' ⟨h1, h2⟩
        cases pushed with
        | some s =>
          refine then_ret ⟨⟨by simpa [heldAll, Stream.held, Stream.moved] using h1, ?_, fun hl _ => ⟨by simp, ?_⟩⟩, ⟨_, rfl⟩, fun h => nomatch h⟩
          · intro x hx
            rcases List.mem_cons.mp hx with rfl | hx
            · exact (h2 s rfl).moved.2
            · exact hcur x hx
          · intro x hx
            rcases List.mem_cons.mp hx with rfl | hx
            · exact (h2 s rfl).1
            · exact (hlive hl).2 x hx
        | none =>
          have hsame : Left (cur :: ss) hs (({ cur with entry := e } : Stream) :: ss, false) σ'' :=
            ⟨by simpa [heldAll, Stream.held] using h1, hcur, fun hl _ => hlive hl⟩
          cases m with
          | none => exact then_ret ⟨hsame, ⟨_, rfl⟩, fun h => nomatch h⟩
          | some e =>
            dsimp only
            split
            · exact then_ret ⟨hsame, ⟨_, rfl⟩, fun h => nomatch h⟩
            · refine then_ret ⟨⟨by simpa [heldAll, Stream.held] using h1, ?_, fun _ h => nomatch h⟩, ⟨_, rfl⟩, fun _ => rfl⟩
              intro x hx
              rcases List.mem_cons.mp hx with rfl | hx
              · exact ⟨(hcur _ (List.mem_cons_self ..)).1, mkPath_shape []⟩
              · exact hcur x (by simp [hx])

theorem wpS_incr (n : Nat) (ss : List Stream) (opts : DirOptions) (rec : Bool) (hf : FitAll ss) (hb : Live ss ∨ bad) (hs : List Nat)
    {σ : Option (List Nat)} (h : Holds (heldAll ss ++ hs) [] σ) (c : Code) :
    wp dstep (Then bad [] fun r σ' => Left ss hs r.1 σ') (sharedIncr n ss opts rec (.ref c)) σ := by
  unfold sharedIncr
  simp only [Prog.bind_eq]
  refine then_bind (P := fun r σ' => Left ss hs r.2.1 σ' ∧ r.2.2.IsRef ∧ (r.2.1.2 = true → r.1 = true)) ?_ ?_
  · split
    · refine then_bind (wpS_try n ss opts hf hb hs h _) fun r σ' h' => then_ret ⟨h'.1, h'.2.1, fun hd => ?_⟩
      simp [h'.2.2 hd]
    · exact then_ret ⟨⟨h, hf, fun hl _ => hl⟩, ⟨_, rfl⟩, fun h => nomatch h⟩
  · rintro ⟨done, ⟨ss', d⟩, ec⟩ σ' ⟨h1, ⟨c', rfl⟩, h2⟩
    split
    · exact then_ret h1
    · rename_i hd
      have hd' : d = false := by
        cases d with
        | false => rfl
        | true => exact absurd (h2 rfl) hd
      refine then_bind (wpS_sharedAdvance n ss' h1.2.1 (hb.imp (fun hl => (h1.2.2 hl hd').2) id) hs h1.1 _) fun r σ'' h'' => then_ret ?_
      exact ⟨h''.1, h''.2.1, fun hl he => h''.2.2 (h1.2.2 hl hd') he⟩

theorem wpS_pop (n : Nat) (ss : List Stream) (hf : FitAll ss) (hb : Live ss ∨ bad) (hs : List Nat)
    {σ : Option (List Nat)} (h : Holds (heldAll ss ++ hs) [] σ) (c : Code) :
    wp dstep (Then bad [] fun r σ' => Left ss hs r.1 σ') (sharedPop n ss (.ref c)) σ := by
  unfold sharedPop
  cases ss with
  | nil =>
    rcases hb with hb | hb
    · exact absurd rfl hb.1
    · exact ⟨fun _ => hb, h.ne_none⟩
  | cons s ss =>
    simp only [Prog.bind_eq]
    have hf' : FitAll ss := fun x hx => hf x (by simp [hx])
    refine then_bind (wpD_close s (heldAll ss ++ hs) (by simpa [heldAll] using h)) fun _ σ' h' => ?_
    split
    · rename_i he
      rw [List.isEmpty_iff] at he
      subst he
      exact then_ret ⟨h'.2, hf', fun _ h => nomatch h⟩
    · rename_i he
      rw [List.isEmpty_iff] at he
      refine then_mono (wpS_sharedAdvance n ss hf' (hb.imp (fun hl x hx => hl.2 x (by simp [hx])) id) hs h'.2 _) fun r σ'' h'' => ?_
      exact ⟨h''.1, h''.2.1, fun hl he' => h''.2.2 ⟨he, fun x hx => hl.2 x (by simp [hx])⟩ he'⟩

/-! ## The heap -/

/-- All handles of all shared objects. -/
def Heap.held (H : Heap) : List Nat := H.cells.flatMap fun c => heldAll c.stack

/-- The handles of all shared objects but `k`. -/
def Heap.rest (H : Heap) (k : Nat) : List Nat := (H.cells.take k ++ H.cells.drop (k + 1)).flatMap fun c => heldAll c.stack

theorem held_split {H : Heap} {k : Nat} {c : Cell} (h : H.cells[k]? = some c) : H.held.Perm (heldAll c.stack ++ H.rest k) := by
  obtain ⟨hk, rfl⟩ := List.getElem?_eq_some_iff.mp h
  unfold Heap.held Heap.rest
  conv => lhs; rw [← List.take_append_drop k H.cells, List.drop_eq_getElem_cons hk]
  simp only [List.flatMap_append, List.flatMap_cons]
  rw [← List.append_assoc, ← List.append_assoc]
  exact List.perm_append_comm.append_right _

theorem held_set {H : Heap} {k : Nat} (hk : k < H.cells.length) (c : Cell) (vs : List Var) :
    (Heap.held ⟨H.cells.set k c, vs⟩).Perm (heldAll c.stack ++ H.rest k) := by
  have := held_split (H := ⟨H.cells.set k c, vs⟩) (k := k) (c := c) (by simp [hk])
  have hr : Heap.rest ⟨H.cells.set k c, vs⟩ k = H.rest k := by
    unfold Heap.rest
    simp only [List.take_set, List.drop_set]
    rw [List.set_eq_of_length_le (by simp; omega)]
    simp
  rw [hr] at this
  exact this

/-- The heap is in order: all open handles belong to it, objects without owner have no streams, and fresh
variables (but `skip`) find their streams open. -/
structure InOrder (skip : Option Nat) (H : Heap) (σ : Option (List Nat)) : Prop where
  held : Holds H.held [] σ
  fit : ∀ (k : Nat) (c : Cell), H.cells[k]? = some c → FitAll c.stack
  inb : ∀ (j : Nat) (v : Var) (k : Nat), H.vars[j]? = some v → v.ref = some k → k < H.cells.length
  orphan : ∀ (k : Nat) (c : Cell), H.cells[k]? = some c → (∀ (j : Nat) (v : Var), H.vars[j]? = some v → v.ref ≠ some k) → c.stack = []
  live : ∀ (j : Nat) (v : Var) (k : Nat) (c : Cell), H.vars[j]? = some v → some j ≠ skip → v.fresh = true → v.ref = some k →
    H.cells[k]? = some c → Live c.stack

/-- The variables after `i` let go. -/
def letGo (vs : List Var) (i : Nat) : List Var :=
  match vs[i]? with
  | some v => vs.set i { v with ref := none }
  | none => vs

theorem letGo_get (vs : List Var) (i j : Nat) :
    (letGo vs i)[j]? = if i = j then (vs[j]?).map fun v => { v with ref := none } else vs[j]? := by
  unfold letGo
  cases h : vs[i]? with
  | none => by_cases hij : i = j <;> simp_all
  | some v =>
    obtain ⟨hi, _⟩ := List.getElem?_eq_some_iff.mp h
    simp only [List.getElem?_set, hi, if_true]
    by_cases hij : i = j
    · subst hij; simp [h]
    · simp [hij]

theorem wpH_release {i : Nat} {H : Heap} {σ : Option (List Nat)} (h : InOrder (some i) H σ) :
    wp dstep (Then bad [] fun H' σ' => InOrder none H' σ' ∧ H'.vars = letGo H.vars i) (H.release i) σ := by
  unfold Heap.release
  cases hv : H.vars[i]? with
  | none =>
    refine ⟨⟨h.held, h.fit, h.inb, h.orphan, fun j v k c hj _ => h.live j v k c hj ?_⟩, by simp [letGo, hv]⟩
    rintro ⟨⟩
    rw [hv] at hj; cases hj
  | some v =>
    obtain ⟨hi, _⟩ := List.getElem?_eq_some_iff.mp hv
    have hgo : H.vars.set i { v with ref := none } = letGo H.vars i := by simp [letGo, hv]
    have hget := letGo_get H.vars i
    cases hr : v.ref with
    | none =>
      dsimp only
      rw [hr]
      have hsame : letGo H.vars i = H.vars := by
        rw [← hgo]
        apply List.ext_getElem?
        intro j
        rw [hgo, hget]
        split
        · rename_i hij; subst hij
          rw [hv]
          obtain ⟨_, _, _⟩ := v
          cases hr
          rfl
        · rfl
      refine ⟨⟨h.held, h.fit, h.inb, h.orphan, fun j w k c hj _ hf hw hc => ?_⟩, hsame.symm⟩
      by_cases hij : some j = some i
      · cases hij
        rw [hv] at hj; cases hj
        rw [hr] at hw; cases hw
      · exact h.live j w k c hj hij hf hw hc
    | some k =>
      dsimp only
      rw [hr]
      dsimp only
      rw [hgo]
      have hk := h.inb i v k hv hr
      have hkc : H.cells[k]? = some H.cells[k] := by simp [hk]
      have hlive : ∀ (j : Nat) (w : Var) (k' : Nat), (letGo H.vars i)[j]? = some w → w.ref = some k' →
          j ≠ i ∧ H.vars[j]? = some w := by
        intro j w k' hj hw
        rw [hget] at hj
        split at hj
        · rename_i hij; subst hij
          rw [hv] at hj
          cases hj
          cases hw
        · rename_i hij
          exact ⟨fun h => hij h.symm, hj⟩
      split
      · rename_i hany
        obtain ⟨w, hw, hwk⟩ := List.any_eq_true.mp hany
        obtain ⟨jw, hjw⟩ := List.getElem?_of_mem hw
        refine ⟨⟨h.held, h.fit, fun j w k' hj hw => h.inb j w k' (hlive j w k' hj hw).2 hw, ?_, ?_⟩, rfl⟩
        · intro k' c hc hno
          apply h.orphan k' c hc
          intro j u hj hu
          by_cases hij : i = j
          · subst hij
            rw [hv] at hj; cases hj
            rw [hr] at hu; cases hu
            exact hno jw w hjw (by simpa using hwk)
          · exact hno j u (by show (letGo H.vars i)[j]? = some u; rw [hget, if_neg hij]; exact hj) hu
        · intro j w k' c hj _ hf hw hc
          have := hlive j w k' hj hw
          exact h.live j w k' c this.2 (by simpa using this.1) hf hw hc
      · rename_i hany
        rw [hkc]
        simp only [Prog.bind_eq]
        refine then_bind (wpD_closeAll H.cells[k].stack (H.rest k) (h.held.perm (held_split hkc))) fun _ σ' h' => then_ret ?_
        have hnok : ∀ (j : Nat) (w : Var), (letGo H.vars i)[j]? = some w → w.ref ≠ some k := by
          intro j w hj hw
          exact hany (List.any_eq_true.mpr ⟨w, List.mem_of_getElem? hj, by simpa using hw⟩)
        refine ⟨⟨?_, ?_, ?_, ?_, ?_⟩, rfl⟩
        · exact h'.perm (held_set hk { H.cells[k] with stack := [] } _).symm
        · intro k' c hc
          rw [List.getElem?_set] at hc
          split at hc
          · simp only [Option.some.injEq] at hc
            subst hc
            intro s hs; cases hs
          · exact h.fit k' c hc
        · intro j w k' hj hw
          simpa using h.inb j w k' (hlive j w k' hj hw).2 hw
        · intro k' c hc hno
          rw [List.getElem?_set] at hc
          split at hc
          · simp only [Option.some.injEq] at hc
            subst hc
            rfl
          · rename_i hkk
            apply h.orphan k' c hc
            intro j u hj hu
            by_cases hij : i = j
            · subst hij
              rw [hv] at hj; cases hj
              rw [hr] at hu; cases hu
              exact hkk rfl
            · exact hno j u (by show (letGo H.vars i)[j]? = some u; rw [hget, if_neg hij]; exact hj) hu
        · intro j w k' c hj _ hf hw hc
          have h1 := hlive j w k' hj hw
          rw [List.getElem?_set] at hc
          split at hc
          · rename_i hkk; subst hkk
            exact absurd hw (hnok j w hj)
          · exact h.live j w k' c h1.2 (by simpa using h1.1) hf hw hc

theorem InOrder.weaken {H : Heap} {σ : Option (List Nat)} (h : InOrder none H σ) (i : Nat) : InOrder (some i) H σ :=
  ⟨h.held, h.fit, h.inb, h.orphan, fun j v k c hj _ => h.live j v k c hj (by simp)⟩

/-- A program that does not throw meets its post-condition whatever is required after exceptions. -/
theorem then_rebase {α : Type} {base : List Nat} {P : α → Option (List Nat) → Prop} {p : Prog α} (hn : NoThrow (fun _ => True) p)
    {σ : Option (List Nat)} (h : wp dstep (Then bad base P) p σ) : wp dstep (Then bad [] P) p σ := by
  induction hn generalizing σ with
  | ret a => exact h
  | fault f => exact h
  | fuel => exact h
  | call c k _ ih => exact fun r σ' hs => ih r trivial (h r σ' hs)

theorem inOrder_add {H : Heap} {σ σ' : Option (List Nat)} (h : InOrder none H σ) (c : Option Cell)
    (hh : Holds ((c.map fun c => heldAll c.stack).getD []) H.held σ') (hf : ∀ c', c = some c' → FitAll c'.stack ∧ Live c'.stack) :
    InOrder none (H.add c) σ' := by
  cases c with
  | none =>
    have hv : ∀ (j : Nat) (v : Var) (k : Nat), (H.vars ++ [⟨none, true, true⟩])[j]? = some v → v.ref = some k → H.vars[j]? = some v := by
      intro j v k hj hk
      rw [List.getElem?_append] at hj
      split at hj
      · exact hj
      · rename_i hl
        rw [List.getElem?_singleton] at hj
        split at hj
        · cases hj; cases hk
        · cases hj
    refine ⟨by simpa [Heap.add, Heap.held, Holds] using hh, h.fit, fun j v k hj hk => h.inb j v k (hv j v k hj hk) hk, ?_,
      fun j v k c hj hs hf hk => h.live j v k c (hv j v k hj hk) hs hf hk⟩
    intro k c hc hno
    refine h.orphan k c hc fun j v hj => hno j v ?_
    show (H.vars ++ [_])[j]? = some v
    rw [List.getElem?_append_left (List.getElem?_eq_some_iff.mp hj).1]; exact hj
  | some c =>
    have hv : ∀ (j : Nat) (v : Var), (H.vars ++ [⟨some H.cells.length, true, true⟩])[j]? = some v →
        H.vars[j]? = some v ∨ v = ⟨some H.cells.length, true, true⟩ := by
      intro j v hj
      rw [List.getElem?_append] at hj
      split at hj
      · exact .inl hj
      · rw [List.getElem?_singleton] at hj
        split at hj
        · cases hj; exact .inr rfl
        · cases hj
    have hcell : ∀ (k : Nat) (c' : Cell), (H.cells ++ [c])[k]? = some c' → H.cells[k]? = some c' ∨ (k = H.cells.length ∧ c' = c) := by
      intro k c' hk
      rw [List.getElem?_append] at hk
      split at hk
      · exact .inl hk
      · rename_i hl
        rw [List.getElem?_singleton] at hk
        split at hk
        · cases hk; exact .inr ⟨by omega, rfl⟩
        · cases hk
    refine ⟨?_, ?_, ?_, ?_, ?_⟩
    · have : Holds (heldAll c.stack ++ H.held) [] σ' := by simpa [Holds] using hh
      refine this.perm ?_
      simp only [Heap.add, Heap.held, List.flatMap_append, List.flatMap_cons, List.flatMap_nil, List.append_nil]
      exact List.perm_append_comm
    · intro k c' hk
      rcases hcell k c' hk with hk | ⟨_, rfl⟩
      · exact h.fit k c' hk
      · exact (hf _ rfl).1
    · intro j v k hj hk
      simp only [Heap.add, List.length_append, List.length_singleton]
      rcases hv j v hj with hj | rfl
      · have := h.inb j v k hj hk; omega
      · cases hk; omega
    · intro k c' hk hno
      rcases hcell k c' hk with hk | ⟨rfl, rfl⟩
      · refine h.orphan k c' hk fun j v hj => hno j v ?_
        show (H.vars ++ [_])[j]? = some v
        rw [List.getElem?_append_left (List.getElem?_eq_some_iff.mp hj).1]; exact hj
      · exact absurd rfl (hno H.vars.length ⟨some H.cells.length, true, true⟩ (by simp [Heap.add]))
    · intro j v k c' hj hs hfr hk hc
      rcases hv j v hj with hj | rfl
      · rcases hcell k c' hc with hc | ⟨rfl, _⟩
        · exact h.live j v k c' hj hs hfr hk hc
        · have := h.inb j v _ hj hk; omega
      · cases hk
        rcases hcell _ c' hc with hc | ⟨_, rfl⟩
        · have := (List.getElem?_eq_some_iff.mp hc).1; omega
        · exact (hf _ rfl).2

theorem inOrder_copy {H : Heap} {σ : Option (List Nat)} (h : InOrder none H σ) (i : Nat) : InOrder none (H.copy i) σ := by
  unfold Heap.copy
  split
  · rename_i v hi
    have hv : ∀ (j : Nat) (w : Var), (H.vars ++ [v])[j]? = some w → ∃ j' : Nat, H.vars[j']? = some w := by
      intro j w hj
      rw [List.getElem?_append] at hj
      split at hj
      · exact ⟨_, hj⟩
      · rw [List.getElem?_singleton] at hj
        split at hj
        · cases hj; exact ⟨_, hi⟩
        · cases hj
    refine ⟨h.held, h.fit, fun j w k hj => ?_, fun k c hc hno => ?_, fun j w k c hj _ => ?_⟩
    · obtain ⟨j', hj'⟩ := hv j w hj
      exact h.inb j' w k hj'
    · refine h.orphan k c hc fun j v hj => hno j v ?_
      show (H.vars ++ [_])[j]? = some v
      rw [List.getElem?_append_left (List.getElem?_eq_some_iff.mp hj).1]; exact hj
    · obtain ⟨j', hj'⟩ := hv j w hj
      exact h.live j' w k c hj' (by simp)
  · exact h

/-- Setting a variable that owns nothing to what another one holds. -/
theorem inOrder_set {H : Heap} {σ : Option (List Nat)} (h : InOrder none H σ) {i j : Nat} {v : Var} (hj : H.vars[j]? = some v)
    (hi : ∀ w, H.vars[i]? = some w → w.ref = none) : InOrder none { H with vars := H.vars.set i v } σ := by
  have hv : ∀ (l : Nat) (w : Var), (H.vars.set i v)[l]? = some w → ∃ l' : Nat, H.vars[l']? = some w := by
    intro l w hl
    rw [List.getElem?_set] at hl
    split at hl
    · split at hl
      · cases hl; exact ⟨_, hj⟩
      · cases hl
    · exact ⟨_, hl⟩
  refine ⟨h.held, h.fit, fun l w k hl => ?_, fun k c hc hno => ?_, fun l w k c hl _ => ?_⟩
  · obtain ⟨l', hl'⟩ := hv l w hl
    exact h.inb l' w k hl'
  · refine h.orphan k c hc fun l w hl hw => ?_
    by_cases hil : i = l
    · subst hil
      rw [hi w hl] at hw; cases hw
    · exact hno l w (by show (H.vars.set i v)[l]? = some w; rw [List.getElem?_set_ne hil]; exact hl) hw
  · obtain ⟨l', hl'⟩ := hv l w hl
    exact h.live l' w k c hl' (by simp)

/-- Two variables hold the same: one may let go. -/
theorem inOrder_twin {H : Heap} {σ : Option (List Nat)} (h : InOrder none H σ) {i j : Nat} {v : Var} (hij : i ≠ j)
    (hi : H.vars[i]? = some v) (hj : H.vars[j]? = some v) : InOrder none { H with vars := H.vars.set j { v with ref := none } } σ := by
  have hv : ∀ (l : Nat) (w : Var) (k : Nat), (H.vars.set j { v with ref := none })[l]? = some w → w.ref = some k → H.vars[l]? = some w := by
    intro l w k hl hk
    rw [List.getElem?_set] at hl
    split at hl
    · split at hl
      · cases hl; cases hk
      · cases hl
    · exact hl
  refine ⟨h.held, h.fit, fun l w k hl hk => h.inb l w k (hv l w k hl hk) hk, fun k c hc hno => ?_,
    fun l w k c hl hs hf hk => h.live l w k c (hv l w k hl hk) hs hf hk⟩
  refine h.orphan k c hc fun l w hl hw => ?_
  by_cases hjl : j = l
  · subst hjl
    rw [hj] at hl; cases hl
    exact hno i v (by show (H.vars.set j _)[i]? = some v; rw [List.getElem?_set_ne (fun h => hij h.symm)]; exact hi) hw
  · exact hno l w (by show (H.vars.set j _)[l]? = some w; rw [List.getElem?_set_ne hjl]; exact hl) hw

theorem wpH_assign {H : Heap} {σ : Option (List Nat)} (h : InOrder none H σ) (i j : Nat) :
    wp dstep (Then bad [] fun H' σ' => InOrder none H' σ') (H.assign i j) σ := by
  unfold Heap.assign
  split
  · exact h
  · rename_i hij
    split
    · rename_i v hv
      simp only [Prog.bind_eq]
      refine then_bind (wpH_release (h.weaken i)) fun H' σ' h' => then_ret ?_
      refine inOrder_set h'.1 (j := j) ?_ fun w hw => ?_
      · rw [h'.2, letGo_get, if_neg hij]; exact hv
      · rw [h'.2, letGo_get, if_pos rfl] at hw
        obtain ⟨u, _, rfl⟩ := Option.map_eq_some_iff.mp hw
        rfl
    · exact h

theorem wpH_move {H : Heap} {σ : Option (List Nat)} (h : InOrder none H σ) (i j : Nat) :
    wp dstep (Then bad [] fun H' σ' => InOrder none H' σ') (H.move i j) σ := by
  unfold Heap.move
  split
  · exact h
  · rename_i hij
    obtain ⟨hij, hlen⟩ := not_or.mp hij
    split
    · rename_i v hv
      simp only [Prog.bind_eq]
      refine then_bind (wpH_release (h.weaken i)) fun H' σ' h' => then_ret ?_
      have hj : H'.vars[j]? = some v := by rw [h'.2, letGo_get, if_neg hij]; exact hv
      have hi : i < H'.vars.length := by
        have : H'.vars[i]? ≠ none := by
          rw [h'.2, letGo_get, if_pos rfl]
          simp; omega
        simpa using this
      have h1 := inOrder_set h'.1 (i := i) (j := j) hj fun w hw => by
        rw [h'.2, letGo_get, if_pos rfl] at hw
        obtain ⟨u, _, rfl⟩ := Option.map_eq_some_iff.mp hw
        rfl
      refine inOrder_twin h1 hij ?_ ?_
      · simp [hi]
      · show (H'.vars.set i v)[j]? = some v
        rw [List.getElem?_set_ne hij]; exact hj
    · exact h

theorem inOrder_disable {H : Heap} {σ : Option (List Nat)} (h : InOrder none H σ) (i : Nat) : InOrder none (H.disable i) σ := by
  unfold Heap.disable
  split
  · rename_i v hi
    have hlt := (List.getElem?_eq_some_iff.mp hi).1
    have hv : ∀ (j : Nat) (w : Var), (H.vars.set i { v with recursion := false })[j]? = some w →
        ∃ u : Var, H.vars[j]? = some u ∧ u.ref = w.ref ∧ u.fresh = w.fresh := by
      intro j w hj
      rw [List.getElem?_set] at hj
      split at hj
      · rename_i hij; subst hij
        simp only [Option.some.injEq] at hj
        subst hj
        exact ⟨v, hi, rfl, rfl⟩
      · exact ⟨w, hj, rfl, rfl⟩
    refine ⟨h.held, h.fit, fun j w k hj hk => ?_, fun k c hc hno => ?_, fun j w k c hj _ hf hk => ?_⟩
    · obtain ⟨u, h1, h2, h3⟩ := hv j w hj
      exact h.inb j u k h1 (h2.trans hk)
    · refine h.orphan k c hc fun j u hj hu => ?_
      by_cases hij : i = j
      · subst hij
        rw [hi] at hj; cases hj
        exact hno i { v with recursion := false } (by simp [hlt]) hu
      · exact hno j u (by show (H.vars.set i _)[j]? = some u; rw [List.getElem?_set_ne hij]; exact hj) hu
    · obtain ⟨u, h1, h2, h3⟩ := hv j w hj
      exact h.live j u k c h1 (by simp) (h3.trans hf) (h2.trans hk)
  · exact h

theorem wpH_store {H : Heap} {σ σ' : Option (List Nat)} (h : InOrder none H σ) {i k : Nat} {c : Cell} {v : Var} (hv : H.vars[i]? = some v)
    (hk : v.ref = some k) (hc : H.cells[k]? = some c) {left : After} (hl : Left c.stack (H.rest k) left σ') (rec : Bool) :
    wp dstep (Then bad [] fun H' σ' => InOrder none H' σ') (H.store i k c v left rec) σ' := by
  have hlt := (List.getElem?_eq_some_iff.mp hv).1
  have hkl := (List.getElem?_eq_some_iff.mp hc).1
  have hw : ∀ (j : Nat) (w : Var), ((H.vars.map fun w => if w.ref = some k then { w with fresh := false } else w).set i
      { v with recursion := rec })[j]? = some w →
      ∃ u : Var, H.vars[j]? = some u ∧ u.ref = w.ref ∧ (j ≠ i → w.fresh = true → u.fresh = true ∧ w.ref ≠ some k) ∧ (j = i → w.fresh = u.fresh) := by
    intro j w hj
    rw [List.getElem?_set] at hj
    split at hj
    · rename_i hij; subst hij
      simp only [List.length_map, hlt, if_true, Option.some.injEq] at hj
      subst hj
      exact ⟨v, hv, rfl, fun h => absurd rfl h, fun _ => rfl⟩
    · rename_i hij
      rw [List.getElem?_map, Option.map_eq_some_iff] at hj
      obtain ⟨u, hu, rfl⟩ := hj
      refine ⟨u, hu, ?_, fun _ hf => ?_, fun h => absurd h.symm hij⟩
      · split <;> rfl
      · split at hf
        · cases hf
        · rename_i hne
          rw [if_neg hne]
          exact ⟨hf, hne⟩
  have hback : ∀ (j : Nat) (u : Var), H.vars[j]? = some u → ∃ w : Var, ((H.vars.map fun w => if w.ref = some k then { w with fresh := false } else w).set i
      { v with recursion := rec })[j]? = some w ∧ w.ref = u.ref := by
    intro j u hj
    rw [List.getElem?_set]
    split
    · rename_i hij; subst hij
      simp only [List.length_map, hlt, if_true]
      rw [hv] at hj; cases hj
      exact ⟨_, rfl, rfl⟩
    · rw [List.getElem?_map, hj]
      refine ⟨_, rfl, ?_⟩
      dsimp only
      split <;> rfl
  have hcell : ∀ (k' : Nat) (c' : Cell), (H.cells.set k { c with stack := left.1 })[k']? = some c' →
      (k' = k ∧ c' = { c with stack := left.1 }) ∨ (k' ≠ k ∧ H.cells[k']? = some c') := by
    intro k' c' hc'
    rw [List.getElem?_set] at hc'
    split at hc'
    · rename_i hkk; subst hkk
      simp only [Option.some.injEq] at hc'
      exact .inl ⟨rfl, hc'.symm⟩
    · rename_i hkk
      exact .inr ⟨fun h => hkk h.symm, hc'⟩
  have key : InOrder (if left.2 then some i else none) ⟨H.cells.set k { c with stack := left.1 },
      (H.vars.map fun w => if w.ref = some k then { w with fresh := false } else w).set i { v with recursion := rec }⟩ σ' := by
    refine ⟨hl.1.perm (held_set hkl { c with stack := left.1 } _).symm, ?_, ?_, ?_, ?_⟩
    · intro k' c' hc'
      rcases hcell k' c' hc' with ⟨rfl, rfl⟩ | ⟨_, hc'⟩
      · exact hl.2.1
      · exact h.fit k' c' hc'
    · intro j w k' hj hk'
      obtain ⟨u, hu, hr, _⟩ := hw j w hj
      simpa using h.inb j u k' hu (hr.trans hk')
    · intro k' c' hc' hno
      rcases hcell k' c' hc' with ⟨rfl, rfl⟩ | ⟨_, hc'⟩
      · obtain ⟨w, hw1, hw2⟩ := hback i v hv
        exact absurd (hw2.trans hk) (hno i w hw1)
      · refine h.orphan k' c' hc' fun j u hj hu => ?_
        obtain ⟨w, hw1, hw2⟩ := hback j u hj
        exact hno j w hw1 (hw2.trans hu)
    · intro j w k' c' hj hs hf hk' hc'
      obtain ⟨u, hu, hr, hne, heq⟩ := hw j w hj
      by_cases hji : j = i
      · subst hji
        rw [hv] at hu; cases hu
        obtain rfl : k = k' := by rw [hk, hk'] at hr; exact Option.some.inj hr
        rcases hcell _ c' hc' with ⟨_, rfl⟩ | ⟨hkk, _⟩
        · refine hl.2.2 (h.live j v k c hv (by simp) (heq rfl ▸ hf) hk hc) ?_
          cases hb : left.2 with
          | false => rfl
          | true => simp [hb] at hs
        · exact absurd rfl hkk
      · obtain ⟨h1, h2⟩ := hne hji hf
        rcases hcell _ c' hc' with ⟨rfl, rfl⟩ | ⟨hkk, hc'⟩
        · exact absurd hk' h2
        · exact h.live j u k' c' hu (by simp) h1 (hr.trans hk') hc'
  unfold Heap.store
  dsimp only
  split
  · rename_i hb
    rw [if_pos hb] at key
    exact then_mono (wpH_release key) fun _ _ h => h.1
  · rename_i hb
    rw [if_neg hb] at key
    exact key

theorem wpH_through {H : Heap} {σ : Option (List Nat)} (h : InOrder none H σ) {i : Nat} (hb : freshVar H i = true ∨ bad)
    {f : Var → Cell → Prog (After × Bool)}
    (hf : ∀ (v : Var) (c : Cell) (hs : List Nat), FitAll c.stack → Live c.stack ∨ bad → Holds (heldAll c.stack ++ hs) [] σ →
      wp dstep (Then bad [] fun r σ' => Left c.stack hs r.1 σ') (f v c) σ) :
    wp dstep (Then bad [] fun H' σ' => InOrder none H' σ') (H.through i f) σ := by
  unfold Heap.through
  cases hv : H.vars[i]? with
  | none => exact h
  | some v =>
    dsimp only
    cases hk : v.ref with
    | none => exact h
    | some k =>
      dsimp only
      have hkl := h.inb i v k hv hk
      have hc : H.cells[k]? = some H.cells[k] := by simp [hkl]
      rw [hc]
      simp only [Prog.bind_eq]
      refine then_bind (hf v H.cells[k] (H.rest k) (h.fit k _ hc) (hb.imp (fun hfr => ?_) id) (h.held.perm (held_split hc))) fun r σ' h' => ?_
      · refine h.live i v k _ hv (by simp) ?_ hk hc
        simpa [freshVar, hv] using hfr
      · exact wpH_store h hv hk hc h' _

theorem wpH_incr (n : Nat) {H : Heap} {σ : Option (List Nat)} (h : InOrder none H σ) {i : Nat} (hb : freshVar H i = true ∨ bad) :
    wp dstep (Then bad [] fun H' σ' => InOrder none H' σ') (H.incr n i) σ := by
  refine wpH_through h hb fun v c hs hfit hlb hh => ?_
  split
  · simp only [Prog.bind_eq]
    exact then_bind (wpS_incr n c.stack c.opts v.recursion hfit hlb hs hh none) fun _ _ h => then_ret h
  · cases hst : c.stack with
    | nil =>
      rw [hst] at hlb hh
      rcases hlb with hlb | hlb
      · exact absurd rfl hlb.1
      · exact ⟨fun _ => hlb, hh.ne_none⟩
    | cons s ss =>
      rw [hst] at hlb hh hfit
      dsimp only
      simp only [Prog.bind_eq]
      refine then_bind (wpS_dirIncr n s (hfit s (by simp)) (hlb.imp (fun h => h.2 s (by simp)) id) (heldAll ss ++ hs)
        (by simpa [heldAll] using hh) none) fun r σ' h' => then_ret ⟨by simpa [heldAll] using h'.1, ?_, fun hl hd => ⟨?_, ?_⟩⟩
      · intro x hx
        rcases List.mem_append.mp hx with hx | hx
        · exact h'.2.1 x hx
        · exact hfit x (by simp [hx])
      · intro he
        have h1 := h'.2.2 ⟨by simp, by simpa using hl.2 s (by simp)⟩ hd
        exact h1.1 (List.append_eq_nil_iff.mp he).1
      · intro x hx
        have h1 := h'.2.2 ⟨by simp, by simpa using hl.2 s (by simp)⟩ hd
        rcases List.mem_append.mp hx with hx | hx
        · exact h1.2 x hx
        · exact hl.2 x (by simp [hx])

theorem wpH_pop (n : Nat) {H : Heap} {σ : Option (List Nat)} (h : InOrder none H σ) {i : Nat} (hb : freshVar H i = true ∨ bad) :
    wp dstep (Then bad [] fun H' σ' => InOrder none H' σ') (H.pop n i) σ := by
  refine wpH_through h hb fun v c hs hfit hlb hh => ?_
  split
  · simp only [Prog.bind_eq]
    exact then_bind (wpS_pop n c.stack hfit hlb hs hh none) fun _ _ h => then_ret h
  · exact then_ret ⟨hh, hfit, fun hl _ => hl⟩

theorem wpH_releaseAll (m : Nat) {H : Heap} {σ : Option (List Nat)} (h : InOrder none H σ) :
    wp dstep (Then bad [] fun H' σ' => InOrder none H' σ' ∧ ∀ j : Nat, H'.vars[j]? =
      if j < m then (H.vars[j]?).map (fun v => { v with ref := none }) else H.vars[j]?) (H.releaseAll m) σ := by
  induction m generalizing H σ with
  | zero => exact ⟨h, fun j => by simp⟩
  | succ i ih =>
    unfold Heap.releaseAll
    simp only [Prog.bind_eq]
    refine then_bind (wpH_release (h.weaken i)) fun H' σ' h' => then_mono (ih h'.1) fun H'' σ'' h'' => ⟨h''.1, fun j => ?_⟩
    rw [h''.2 j, h'.2, letGo_get]
    by_cases h1 : j < i
    · rw [if_pos h1, if_neg (by omega), if_pos (by omega)]
    · rw [if_neg h1]
      by_cases h2 : i = j
      · rw [if_pos h2, if_pos (by omega)]
      · rw [if_neg h2, if_neg (by omega)]

theorem wpH_useAll (n : Nat) (strict : Bool) (cs : List Cmd) (hcs : ∀ c ∈ cs, c.Proper) {H : Heap} {σ : Option (List Nat)}
    (h : InOrder none H σ) :
    wp dstep (Then (strict = false) [] fun _ σ' => Holds [] [] σ') (useAll n strict cs H) σ := by
  induction cs generalizing H σ with
  | nil =>
    unfold useAll
    simp only [Prog.bind_eq]
    refine then_bind (wpH_releaseAll H.vars.length h) fun H' σ' h' => then_ret ?_
    have hz : H'.held = [] := by
      unfold Heap.held
      rw [List.flatMap_eq_nil_iff]
      intro c hc
      obtain ⟨k, hk⟩ := List.getElem?_of_mem hc
      have : c.stack = [] := by
        refine h'.1.orphan k c hk fun j v hj hv => ?_
        rw [h'.2 j] at hj
        split at hj
        · obtain ⟨u, _, rfl⟩ := Option.map_eq_some_iff.mp hj
          cases hv
        · rename_i hlt
          rw [List.getElem?_eq_none (by omega)] at hj
          cases hj
      rw [this]; rfl
    have := h'.1.held
    rwa [hz] at this
  | cons cmd cs ih =>
    have hp := hcs cmd (by simp)
    have ih := fun {H : Heap} {σ : Option (List Nat)} => ih (fun c hc => hcs c (by simp [hc])) (H := H) (σ := σ)
    have hrest : Holds [] H.held σ := by simpa [Holds] using h.held
    cases cmd with
    | openDir p opts =>
      simp only [useAll, Prog.bind_eq]
      refine then_bind (then_rebase (rel_dirIterNew n p opts none).noThrow (wpD_dirNew n hp.shape opts _ hrest)) fun r σ' h' => ih ?_
      refine inOrder_add h _ ?_ ?_
      · cases hr : r.1 <;> simpa [hr, DirIter.held, heldAll] using h'.1
      · intro c' hc
        obtain ⟨s, hs, rfl⟩ := Option.map_eq_some_iff.mp hc
        have := h'.2 s hs
        refine ⟨fun x hx => ?_, by simp, fun x hx => ?_⟩
        · obtain rfl : x = s := by simpa using hx
          exact this.2
        · obtain rfl : x = s := by simpa using hx
          exact this.1
    | openRec p opts =>
      simp only [useAll, Prog.bind_eq]
      refine then_bind (then_rebase (rel_recIterNew n p opts none).noThrow (wpD_recNew n hp.shape opts _ hrest)) fun r σ' h' => ih ?_
      refine inOrder_add h _ ?_ ?_
      · have := h'.1
        unfold RecIter.streams at this
        cases hr : r.1.impl <;> simpa [hr, heldAll] using this
      · intro c' hc
        obtain ⟨s, hs, rfl⟩ := Option.map_eq_some_iff.mp hc
        have hst : r.1.streams = s.1 := by simp [RecIter.streams, hs]
        have h2 := h'.2.1 (by simp [hs])
        have h3 := h'.2.2
        rw [hst] at h2 h3
        exact ⟨fun x hx => (h3 x hx).2, h2, fun x hx => (h3 x hx).1⟩
    | copy i => exact ih (inOrder_copy h i)
    | assign i j =>
      simp only [useAll, Prog.bind_eq]
      exact then_bind (wpH_assign h i j) fun _ _ h => ih h
    | move i j =>
      simp only [useAll, Prog.bind_eq]
      exact then_bind (wpH_move h i j) fun _ _ h => ih h
    | drop i =>
      simp only [useAll, Prog.bind_eq]
      exact then_bind (wpH_release (h.weaken i)) fun _ _ h => ih h.1
    | incr i =>
      simp only [useAll, Prog.bind_eq]
      split
      · exact ih h
      · rename_i hf
        refine then_bind (wpH_incr n h ?_) fun _ _ h => ih h
        cases hs : strict <;> simp [hs] at hf ⊢
        exact hf
    | pop i =>
      simp only [useAll, Prog.bind_eq]
      split
      · exact ih h
      · rename_i hf
        refine then_bind (wpH_pop n h ?_) fun _ _ h => ih h
        cases hs : strict <;> simp [hs] at hf ⊢
        exact hf
    | disable i => exact ih (inOrder_disable h i)

/-- C47 for any number of iterators and copies used in any order, whatever the operating system answers: only open
handles are read or closed, and when all iterators are gone every handle has been closed once. A null stream is
read only by clients that use a copy after another copy of it has been incremented. -/
theorem c47_shared_partial {n : Nat} {strict : Bool} {cs : List Cmd} (hcs : ∀ c ∈ cs, c.Proper) {t : List Event} {o : Except Stop Unit}
    {s : Option (List Nat)} (h : Exec (useAll n strict cs .empty) t o)
    (hs : Steps (fun s e s' => s' = useDir s e ∧ freshDir s e) (some []) t s) :
    s ≠ none ∧ (strict = true → o ≠ .error (.fault .badStream)) ∧
      ((∃ v, o = .ok v) ∨ (∃ x, o = .error (.thrown x)) → s = some []) := by
  have h0 : InOrder none Heap.empty (some []) :=
    ⟨⟨[], rfl, .refl _, List.nodup_nil⟩, fun k c h => by simp [Heap.empty] at h, fun j v k h => by simp [Heap.empty] at h,
      fun k c h => by simp [Heap.empty] at h, fun j v k c h => by simp [Heap.empty] at h⟩
  have hw := wp_sound (wpH_useAll n strict cs hcs h0) h hs
  rcases o with x | v
  · cases x with
    | thrown x => exact ⟨hw.ne_none, by simp, fun _ => holds_nil hw⟩
    | fault f => exact ⟨hw.2, (fun hst he => by cases he; rw [hw.1 rfl] at hst; cases hst), by rintro (⟨v, ⟨⟩⟩ | ⟨x, ⟨⟩⟩)⟩
    | fuel => exact ⟨hw.2, by simp, by rintro (⟨v, ⟨⟩⟩ | ⟨x, ⟨⟩⟩)⟩
  · exact ⟨hw.ne_none, by simp, fun _ => holds_nil hw⟩

/-- The answers allowed do not exclude any call. -/
theorem dstep_total (s : Option (List Nat)) (c : Sys) : ∃ (r : c.Ret) (s' : Option (List Nat)), dstep s ⟨c, r⟩ s' := by
  by_cases hc : ∃ p, c = .opendir p
  · obtain ⟨p, rfl⟩ := hc
    exact ⟨.error .ENOENT, _, rfl, by unfold freshDir; split <;> simp_all⟩
  · cases c with
    | opendir p => exact absurd ⟨p, rfl⟩ hc
    | pathconf => exact ⟨(0 : Int), _, rfl, by unfold freshDir; split <;> simp_all⟩
    | getenv x => exact ⟨none, _, rfl, by unfold freshDir; split <;> simp_all⟩
    | winTest q x => exact ⟨(false, none), _, rfl, by unfold freshDir; split <;> simp_all⟩
    | port c => exact ⟨c.fails, _, rfl, by unfold freshDir; split <;> simp_all⟩
    | win c => exact ⟨c.fails, _, rfl, by unfold freshDir; split <;> simp_all⟩
    | _ => exact ⟨.error .ENOENT, _, rfl, by unfold freshDir; split <;> simp_all⟩

/-- Executions exist for every client. -/
example (n : Nat) (strict : Bool) (cs : List Cmd) : ∃ t o s, Exec (useAll n strict cs .empty) t o ∧ Steps dstep (some []) t s :=
  exec_exists dstep_total _ _

/-- Two copies of an iterator over the directory `d` with the one file `a`. -/
def Spec.twoCopies : List Cmd := [.openDir (mkPath .posix "d".toList) .none, .copy 0, .incr 0, .incr 1]

/-- The calls and answers up to the last increment. -/
def Spec.oneFile : List Event :=
  [⟨.opendir "d".toList, (.ok 3 : Except Errno Nat)⟩, ⟨.readdir 3, (.ok (some ⟨"a".toList, .reg⟩) : Except Errno (Option Dirent))⟩,
   ⟨.readdir 3, (.ok none : Except Errno (Option Dirent))⟩, ⟨.closedir 3, (.ok () : Except Errno Unit)⟩]

/-- C47 is violated by copies: after one copy has reached the end, incrementing another (which does not compare equal to
the end iterator) reads a null stream. -/
theorem c47_violated : (∀ c ∈ twoCopies, c.Proper) ∧
    Exec (useAll 9 false twoCopies .empty) oneFile (.error (.fault .badStream)) ∧ Steps dstep (some []) oneFile (some []) := by
  refine ⟨?_, feed_exec (by rfl), ?_⟩
  · simp [twoCopies, Cmd.Proper]
    exact .reach (reach_mkPath _)
  · repeat first
      | exact .nil _
      | refine .cons ⟨rfl, by simp [freshDir]⟩ ?_

/-- The same client without the stale increment closes everything. -/
example : Exec (useAll 9 true twoCopies .empty) oneFile (.ok ()) := feed_exec (by rfl)

end Asap
