import Verif.Props.WinL
import Verif.Props.DirC

/-!
# C77: search handles on Windows

The handles of `FindFirstFileW`. Any answers of the system are allowed here, except that it does not hand out a handle
that is open.
-/

namespace Asap
namespace Spec

/-- The search handles that are open, after an event; `none` once a handle that is not open has been used or closed. -/
def useFind (s : Option (List Nat)) (ev : Event) : Option (List Nat) :=
  match s, ev with
  | none, _ => none
  | some ds, ⟨.win (.findFirst _), .ok (d, _)⟩ => some (d :: ds)
  | some ds, ⟨.win (.findClose d), _⟩ => if d ∈ ds then some (ds.erase d) else none
  | some ds, ⟨.win (.findNext d), _⟩ => if d ∈ ds then some ds else none
  | some ds, _ => some ds

/-- The system never hands out a handle that is open. -/
def freshFind (s : Option (List Nat)) (ev : Event) : Prop :=
  match s, ev with
  | some ds, ⟨.win (.findFirst _), .ok (d, _)⟩ => d ∉ ds
  | _, _ => True

/-- No call of the run used or closed a search handle that was not open; if it returned or threw, exactly the handles
that were open before are open. -/
def FindsClosed {α : Type} (t : List Event) (o : Except Stop α) : Prop :=
  ∀ (ds : List Nat) (s : Option (List Nat)), ds.Nodup →
    Steps (fun s e s' => s' = useFind s e ∧ freshFind s e) (some ds) t s →
    s ≠ none ∧ ((∃ v, o = .ok v) ∨ (∃ x, o = .error (.thrown x)) → ∃ ds', s = some ds' ∧ ds'.Perm ds)

/-- A client of a recursive iterator: actions at any time, also at the end; then the iterator is destroyed.
With the throwing forms, an exception ends the client. -/
def driveWinRec (n : Nat) (ec : EcArg) : List Act → RecIter → Prog Unit
  | [], it => Win.closeAll ((it.impl.map Prod.fst).getD [])
  | .disable :: acts, it => driveWinRec n ec acts it.disable
  | .incr :: acts, it => (Win.RecIter.incr n it ec).bind fun x => driveWinRec n ec acts x.1
  | .pop :: acts, it => (Win.RecIter.pop n it ec).bind fun x => driveWinRec n ec acts x.1

/-- A client of a plain iterator: `k` increments, then the iterator is destroyed. -/
def driveWinDir (n : Nat) (ec : EcArg) : Nat → DirIter → Prog Unit
  | 0, it => Win.destroy it
  | k + 1, it => (Win.DirIter.incr n it ec).bind fun x => driveWinDir n ec k x.1

end Spec
open Spec

namespace Win

/-- The law of search handles. -/
abbrev fstep (s : Option (List Nat)) (e : Event) (s' : Option (List Nat)) : Prop := s' = useFind s e ∧ freshFind s e

theorem Holds.opened {hs base : List Nat} {s : Option (List Nat)} {p : Str} {d : Nat} {ent : FindData} (h : Holds hs base s)
    (hf : freshFind s ⟨.win (.findFirst p), (.ok (d, ent) : Except Errno (Nat × FindData))⟩) :
    Holds (d :: hs) base (useFind s ⟨.win (.findFirst p), (.ok (d, ent) : Except Errno (Nat × FindData))⟩) := by
  obtain ⟨ds, rfl, h1, h2⟩ := h
  exact ⟨d :: ds, rfl, h1.cons d, List.nodup_cons.mpr ⟨hf, h2⟩⟩

theorem Holds.closed {hs base : List Nat} {s : Option (List Nat)} {d : Nat} {r : Except Errno Unit} (h : Holds (d :: hs) base s) :
    Holds hs base (useFind s ⟨.win (.findClose d), r⟩) := by
  obtain ⟨ds, rfl, h1, h2⟩ := h
  have hm : d ∈ ds := h1.symm.subset (by simp)
  refine ⟨ds.erase d, by simp [useFind, hm], ?_, h2.erase d⟩
  have := h1.erase d
  simpa using this

theorem Holds.read {hs base : List Nat} {s : Option (List Nat)} {d : Nat} {r : Except Errno FindData} (h : Holds (d :: hs) base s) :
    Holds (d :: hs) base (useFind s ⟨.win (.findNext d), r⟩) := by
  obtain ⟨ds, rfl, h1, h2⟩ := h
  have hm : d ∈ ds := h1.symm.subset (by simp)
  exact ⟨ds, by simp [useFind, hm], h1, h2⟩

/-- Post-conditions: `P` if the program returns; after an exception only `base` is open; in any case no handle has
been misused. -/
def Ended (base : List Nat) {α : Type} (P : α → Option (List Nat) → Prop) (o : Except Stop α) (s : Option (List Nat)) : Prop :=
  match o with
  | .ok a => P a s
  | .error (.thrown _) => Holds [] base s
  | .error _ => s ≠ none

variable {α β : Type} {base : List Nat} {P : α → Option (List Nat) → Prop} {R : β → Option (List Nat) → Prop}

theorem ended_bind {p : Prog α} {f : α → Prog β} {s : Option (List Nat)} (h : wp fstep (Ended base P) p s)
    (hf : ∀ a s, P a s → wp fstep (Ended base R) (f a) s) : wp fstep (Ended base R) (p.bind f) s := by
  apply wp_bind
  refine wp_mono ?_ h
  rintro (x | a) s h
  · cases x <;> exact h
  · exact hf a s h

theorem ended_ret {a : α} {s : Option (List Nat)} (h : P a s) : wp fstep (Ended base P) (.ret a) s := h

/-! ## Calls that are not about searching -/

/-- A call about a search. -/
def findCall : WinCall → Bool
  | .findFirst _ | .findNext _ | .findClose _ => true
  | _ => false

/-- Not a call about a search. -/
def NoFind : Sys → Prop
  | .win c => findCall c = false
  | _ => True

theorem useFind_noFind {c : Sys} (h : NoFind c) (r : c.Ret) (σ : Option (List Nat)) : useFind σ ⟨c, r⟩ = σ := by
  cases σ with
  | none => rfl
  | some ds =>
    cases c with
    | win c => cases c <;> first | rfl | exact absurd h (by simp [NoFind, findCall])
    | _ => rfl

theorem wpF_noFind {p : Prog α} {Q : α → Prop} (hp : Only NoFind Q p) {hs : List Nat} {σ : Option (List Nat)}
    (hn : NoThrow (fun _ => True) p) (h : Holds hs base σ) :
    wp fstep (Ended base fun a σ' => Q a ∧ Holds hs base σ') p σ := by
  induction hp generalizing σ with
  | ret a hq => exact ⟨hq, h⟩
  | stop x => cases hn <;> exact h.ne_none
  | call c k hc _ ih =>
    rintro r σ' ⟨rfl, _⟩
    cases hn with
    | call _ _ hn => exact ih r (hn r trivial) (by rw [useFind_noFind hc]; exact h)

theorem wpF_noFind' {p : Prog α} {Q : α → Prop} (hp : Only NoFind Q p) {σ : Option (List Nat)} (h : Holds [] base σ) :
    wp fstep (Ended base fun _ σ' => Holds [] base σ') p σ := by
  induction hp generalizing σ with
  | ret a hq => exact h
  | stop x => cases x <;> first | exact h | exact h.ne_none
  | call c k hc _ ih =>
    rintro r σ' ⟨rfl, _⟩
    exact ih r (by rw [useFind_noFind hc]; exact h)

theorem nf_report (h : Handler) (ec : EcArg) (c : Code) (d : α) : Only NoFind (fun _ => True) (h.report ec c d) := by
  cases ec
  · exact .stop _
  · exact .ret _ trivial

theorem nf_reportMsg (h : Handler) (ec : EcArg) (c : Code) (m : Str) (d : α) :
    Only NoFind (fun _ => True) (h.reportMsg ec c m d) := by
  cases ec
  · exact .stop _
  · exact .ret _ trivial

theorem nf_bind {p : Prog α} {f : α → Prog β} (h : Only NoFind (fun _ => True) p)
    (hf : ∀ a, Only NoFind (fun _ => True) (f a)) : Only NoFind (fun _ => True) (p.bind f) := h.bind fun a _ => hf a

theorem nf_withFile {p : Path} {o : WinOpen} {fail : Errno → Prog α} {body : Nat → Prog α}
    (hf : ∀ e, Only NoFind (fun _ => True) (fail e)) (hb : ∀ h, Only NoFind (fun _ => True) (body h)) :
    Only NoFind (fun _ => True) (withFile p o fail body) := by
  refine .call _ _ rfl ?_
  rintro (e | h)
  · exact hf e
  · exact (hb h).finally' (.call _ _ rfl fun _ => .ret _ trivial)

theorem noFind_win {c : WinCall} : NoFind (.win c) ↔ findCall c = false := Iff.rfl

/-- Proves that a program does not search. -/
macro "nofind" : tactic => `(tactic|
  (try simp only [only_call, noFind_win, findCall, true_and]
   repeat' first
    | with_reducible exact Only.ret _ trivial
    | with_reducible exact Only.stop _
    | with_reducible exact nf_report _ _ _ _
    | with_reducible exact nf_reportMsg _ _ _ _ _
    | with_reducible exact Only.ofRes _
    | with_reducible refine nf_withFile (fun e => ?_) (fun h => ?_)
    | with_reducible refine nf_bind ?_ (fun a => ?_)
    | with_reducible intro r
    | split
    | simp only [only_call, noFind_win, findCall, true_and]))

theorem nf_status (p : Path) (ec : EcArg) : Only NoFind (fun _ => True) (status p ec) := by
  unfold status targetAttrs
  nofind

theorem nf_isReparsePointSymlink (p : Path) (ec : EcArg) : Only NoFind (fun _ => True) (isReparsePointSymlink p ec) := by
  unfold isReparsePointSymlink
  nofind

theorem nf_symlinkStatus (p : Path) (ec : EcArg) : Only NoFind (fun _ => True) (symlinkStatus p ec) := by
  unfold symlinkStatus
  nofind <;> exact nf_isReparsePointSymlink ..

theorem nf_isDirectoryP (p : Path) (ec : EcArg) : Only NoFind (fun _ => True) (isDirectoryP p ec) := by
  unfold isDirectoryP
  nofind <;> exact nf_status ..

theorem nf_readSymlink (p : Path) (ec : EcArg) : Only NoFind (fun _ => True) (readSymlink p ec) := by
  unfold readSymlink
  nofind

theorem nf_createSymlinkAs (f : Str) (d : Bool) (a b : Path) (ec : EcArg) :
    Only NoFind (fun _ => True) (createSymlinkAs f d a b ec) := by
  unfold createSymlinkAs
  nofind

theorem nf_createHardLink (a b : Path) (ec : EcArg) : Only NoFind (fun _ => True) (createHardLink a b ec) := by
  unfold createHardLink
  nofind

theorem nf_createDirectoryLike (a b : Path) (ec : EcArg) : Only NoFind (fun _ => True) (createDirectoryLike a b ec) := by
  unfold createDirectoryLike
  nofind

theorem nf_copySymlink (a b : Path) (ec : EcArg) : Only NoFind (fun _ => True) (copySymlink a b ec) := by
  unfold copySymlink createDirectorySymlink createSymlink
  nofind <;> first | exact nf_readSymlink .. | exact nf_isDirectoryP .. | exact nf_createSymlinkAs ..

theorem nf_equivalent (p q : Path) (ec : EcArg) : Only NoFind (fun _ => True) (equivalent p q ec) := by
  unfold equivalent
  nofind

theorem nf_lastWriteTime (c : SysClock) (p : Path) (ec : EcArg) : Only NoFind (fun _ => True) (lastWriteTime c p ec) := by
  unfold lastWriteTime
  nofind

theorem nf_copyFile (c : SysClock) (a b : Path) (o : CopyOptions) (ec : EcArg) :
    Only NoFind (fun _ => True) (copyFile c a b o ec) := by
  unfold copyFile shouldCopy doCopy
  nofind <;> first | exact nf_status .. | exact nf_equivalent .. | exact nf_lastWriteTime ..

theorem nf_remove (p : Path) (ec : EcArg) : Only NoFind (fun _ => True) (remove p ec) := by
  unfold remove
  nofind

theorem nf_updateBasic (b : Bool) (e : Entry) (ec : EcArg) : Only NoFind (fun _ => True) (updateBasic b e ec) := by
  unfold updateBasic basicReparse basicOpen captureErrno
  nofind <;> exact nf_isReparsePointSymlink ..

theorem nf_handleError (m : Str) (e : Entry) (c : Code) (b : Bool) (ec : EcArg) :
    Only NoFind (fun _ => True) (handleError m e c b ec) := by
  unfold handleError
  nofind

theorem nf_recursionType (o : DirOptions) (e : Entry) : Only NoFind (fun _ => True) (recursionType o e) := by
  unfold recursionType getSymLinkFileType getFileType
  nofind <;> first | exact nf_updateBasic .. | exact nf_handleError ..

/-! ## Streams -/

theorem wpF_close (s : Stream) (hs : List Nat) {σ : Option (List Nat)} (h : Holds (s.held ++ hs) base σ) :
    wp fstep (Ended base fun s' σ' => s' = { s with handle := none } ∧ Holds hs base σ') (Stream.close s) σ := by
  unfold Stream.close
  unfold Stream.held at h
  split
  · rename_i d hd
    rw [hd] at h
    rintro r σ' ⟨rfl, _⟩
    exact ⟨rfl, Holds.closed h⟩
  · rename_i hd
    rw [hd] at h
    obtain ⟨_, _, _⟩ := s
    cases hd
    exact ⟨rfl, h⟩

theorem wpF_closeAll (ss : List Stream) (hs : List Nat) {σ : Option (List Nat)} (h : Holds (heldAll ss ++ hs) base σ) :
    wp fstep (Ended base fun _ σ' => Holds hs base σ') (closeAll ss) σ := by
  induction ss generalizing hs σ with
  | nil => exact h
  | cons s ss ih =>
    unfold closeAll
    refine ended_bind (ih (s.held ++ hs) (h.perm ?_)) fun _ σ' h' => ended_bind (wpF_close s hs h') fun _ _ h'' => h''.2
    simp only [heldAll, List.flatMap_cons]
    rw [← List.append_assoc]
    exact (List.perm_append_comm).append_right _

theorem wpF_setEntry (s : Stream) (ent : FindData) (hs : List Nat) {σ : Option (List Nat)} (h : Holds hs base σ) :
    wp fstep (Ended base fun s' σ' => s'.handle = s.handle ∧ Holds hs base σ') (setEntry s ent) σ := by
  unfold setEntry
  cases append .windows s.root (mkPath .windows ent.name) with
  | error f => exact h.ne_none
  | ok p => exact ⟨rfl, h⟩

theorem wpF_advance (n : Nat) (s : Stream) (hs : List Nat) {σ : Option (List Nat)} (h : Holds (s.held ++ hs) base σ) :
    wp fstep (Ended base fun r σ' => Holds (r.2.1.held ++ hs) base σ' ∧ (r.1 = true → r.2.1.handle = s.handle) ∧
      (r.1 = false → r.2.1.handle = none)) (Stream.advance n s) σ := by
  induction n generalizing σ with
  | zero => exact h.ne_none
  | succ n ih =>
    unfold Stream.advance
    split
    · rename_i hd
      exact ⟨h, by intro h; (try cases h), fun _ => hd⟩
    · rename_i d hd
      rintro r σ' ⟨rfl, _⟩
      have hσ : Holds (d :: hs) base σ := by simpa [Stream.held, hd] using h
      have hσ := Holds.read (r := r) hσ
      generalize useFind σ ⟨.win (.findNext d), r⟩ = σ' at hσ
      have hσ' : Holds (s.held ++ hs) base σ' := by simpa [Stream.held, hd] using hσ
      rcases r with e | ent
      · refine ended_bind (wpF_close s hs hσ') fun s' σ'' h' => ?_
        obtain ⟨rfl, h'⟩ := h'
        exact ended_ret ⟨by simpa [Stream.held] using h', fun h => Bool.noConfusion h, fun _ => rfl⟩
      · dsimp only
        split
        · exact ih hσ'
        · refine ended_bind (wpF_setEntry s ent _ hσ) fun s' σ'' h' => ?_
          refine ended_ret ⟨?_, fun _ => h'.1, fun h => Bool.noConfusion h⟩
          simpa [Stream.held, h'.1, hd] using h'.2

theorem wpF_skipDots (d : Nat) (n : Nat) (ent : FindData) (hs : List Nat) {σ : Option (List Nat)} (h : Holds (d :: hs) base σ) :
    wp fstep (Ended base fun r σ' => if r = none then Holds hs base σ' else Holds (d :: hs) base σ') (skipDots d n ent) σ := by
  induction n generalizing ent σ with
  | zero => exact h.ne_none
  | succ n ih =>
    unfold skipDots
    split
    · rintro r σ' ⟨rfl, _⟩
      have hσ := Holds.read (r := r) h
      generalize useFind σ ⟨.win (.findNext d), r⟩ = σ' at hσ
      rcases r with e | ent
      · rintro r σ'' ⟨rfl, _⟩
        exact Holds.closed hσ
      · exact ih ent hσ
    · exact h

theorem wpF_new (n : Nat) (p : Path) (opts : DirOptions) (hs : List Nat) {σ : Option (List Nat)} (h : Holds hs base σ) :
    wp fstep (Ended base fun r σ' => Holds (r.1.held ++ hs) base σ') (Stream.new n p opts) σ := by
  unfold Stream.new
  rintro r σ' ⟨rfl, hf⟩
  rcases r with e | ⟨d, ent⟩
  · have : useFind σ ⟨.win (.findFirst (pattern p.pathname)), (.error e : Except Errno (Nat × FindData))⟩ = σ := by
      obtain ⟨ds, rfl, _⟩ := h; rfl
    dsimp only
    rw [this]
    exact h
  · refine ended_bind (wpF_skipDots d n ent hs (Holds.opened h hf)) fun r σ' h' => ?_
    rcases r with _ | ent
    · rintro c σ'' ⟨rfl, _⟩
      rw [useFind_noFind (show NoFind (.win .lastError) from rfl)]
      exact h'
    · refine ended_bind (wpF_setEntry _ ent _ h') fun s' σ'' h'' => ended_ret ?_
      simpa [Stream.held, h''.1] using h''.2

theorem wpF_report (hd : Handler) (ec : EcArg) (c : Code) (a : α) {σ : Option (List Nat)} (h : Holds [] base σ) :
    wp fstep (Ended base fun _ σ' => Holds [] base σ') (hd.report ec c a) σ := by
  unfold Handler.report; cases ec <;> exact h

theorem wpF_reportMsg (hd : Handler) (ec : EcArg) (c : Code) (m : Str) (a : α) {σ : Option (List Nat)} (h : Holds [] base σ) :
    wp fstep (Ended base fun _ σ' => Holds [] base σ') (hd.reportMsg ec c m a) σ := by
  unfold Handler.reportMsg; cases ec <;> exact h

/-! ## `directory_iterator` -/

theorem held_bad {s : Stream} (h : (!s.good) = true) : s.held = [] := by
  simp only [Stream.good, Bool.not_eq_true', Option.isSome_eq_false_iff, Option.isNone_iff_eq_none] at h
  simp [Stream.held, h]

/-- What is known of every value a program returns. -/
theorem ended_all {p : Prog α} {Q : α → Prop} (hQ : All Q p) {σ : Option (List Nat)} (h : wp fstep (Ended base P) p σ) :
    wp fstep (Ended base fun a σ' => P a σ' ∧ Q a) p σ := by
  induction hQ generalizing σ with
  | ret a hq => exact ⟨h, hq⟩
  | stop x => cases x <;> exact h
  | call c k _ ih => exact fun r σ' hs => ih r (h r σ' hs)

theorem ended_mono {p : Prog α} {P' : α → Option (List Nat) → Prop} {σ : Option (List Nat)} (h : wp fstep (Ended base P) p σ)
    (hf : ∀ a s, P a s → P' a s) : wp fstep (Ended base P') p σ := by
  refine wp_mono ?_ h
  rintro (x | a) s h
  · cases x <;> exact h
  · exact hf a s h

theorem wpF_dirNew (n : Nat) (p : Path) (opts : DirOptions) (ec : EcArg) {σ : Option (List Nat)} (h : Holds [] base σ) :
    wp fstep (Ended base fun r σ' => Holds (DirIter.held r.1) base σ' ∧ (r.2.isSet = true → r.1 = none)) (DirIter.new n p opts ec) σ := by
  unfold DirIter.new
  refine ended_bind (ended_all (all_streamNew n p opts) (wpF_new n p opts [] h)) fun r σ' h' => ?_
  obtain ⟨h', hc⟩ := h'
  rw [List.append_nil] at h'
  split
  · rename_i hg
    rw [held_bad hg] at h'
    split
    · exact ended_bind (wpF_report _ _ _ _ h') fun _ _ h => ended_ret ⟨h, fun _ => rfl⟩
    · exact ⟨h', fun _ => rfl⟩
  · rename_i hg
    refine ⟨h', ?_⟩
    rw [hc (by simpa using hg)]
    intro h
    cases ec <;> cases h

theorem wpF_dirIncr (n : Nat) (it : DirIter) (ec : EcArg) {σ : Option (List Nat)} (h : Holds it.held base σ) :
    wp fstep (Ended base fun r σ' => Holds (DirIter.held r.1) base σ' ∧ (r.2.isSet = true → r.1 = none)) (DirIter.incr n it ec) σ := by
  unfold DirIter.incr
  cases it with
  | none => exact ended_bind (wpF_reportMsg _ _ _ _ _ h) fun _ _ h => ended_ret ⟨h, fun _ => rfl⟩
  | some s =>
    refine ended_bind (wpF_advance n s [] (by simpa [DirIter.held] using h)) fun r σ' h' => ?_
    obtain ⟨b, s', c⟩ := r
    cases b with
    | true =>
      refine ⟨by simpa [DirIter.held] using h'.1, ?_⟩
      intro h
      cases ec <;> cases h
    | false =>
      have h1 : s'.handle = none := h'.2.2 rfl
      have h2 : Holds [] base σ' := by simpa [Stream.held, h1] using h'.1
      simp only [Bool.false_eq_true, if_false]
      cases c with
      | none => exact ⟨h2, fun _ => rfl⟩
      | some e => exact ended_bind (wpF_reportMsg _ _ _ _ _ h2) fun _ _ h => ended_ret ⟨h, fun _ => rfl⟩

theorem wpF_destroy (it : DirIter) {σ : Option (List Nat)} (hs : List Nat) (h : Holds (it.held ++ hs) base σ) :
    wp fstep (Ended base fun _ σ' => Holds hs base σ') (destroy it) σ := by
  unfold destroy
  cases it with
  | none => exact h
  | some s => exact ended_bind (wpF_close s hs h) fun _ _ h => h.2

/-- `report` with the iterator destroyed on the way out. -/
theorem wpF_reportDestroy (hd : Handler) (ec : EcArg) (c : Code) (s : Stream) {σ : Option (List Nat)} (h : Holds s.held base σ) :
    wp fstep (Ended base fun _ σ' => Holds [] base σ') (Prog.finally' (hd.report ec c ()) (destroy (some s))) σ := by
  apply wp_finally
  unfold Handler.report
  have hdes := wpF_destroy (some s) (base := base) (σ := σ) [] (by simpa [DirIter.held] using h)
  cases ec with
  | null =>
    refine ⟨fun _ => wp_mono ?_ hdes, fun h => absurd trivial h⟩
    rintro (x | a) s h
    · cases x <;> exact h
    · exact h
  | ref c =>
    refine ⟨fun _ => wp_mono ?_ hdes, fun h => absurd trivial h⟩
    rintro (x | a) s h
    · cases x <;> exact h
    · exact h

/-! ## `recursive_directory_iterator` -/

/-- What the iterator holds open. -/
def RecHolds (base : List Nat) (it : RecIter) (σ : Option (List Nat)) : Prop := Holds (heldAll it.streams) base σ

theorem recHolds_end {it : RecIter} {σ : Option (List Nat)} (hi : it.impl = none) (h : Holds [] base σ) : RecHolds base it σ := by
  simpa [RecHolds, RecIter.streams, hi, heldAll] using h

theorem wpF_advanceStack (n : Nat) (ss : List Stream) {σ : Option (List Nat)} (h : Holds (heldAll ss) base σ) :
    wp fstep (Ended base fun r σ' => Holds (heldAll r.1) base σ') (advanceStack n ss) σ := by
  induction ss generalizing σ with
  | nil => exact h
  | cons s ss ih =>
    unfold advanceStack
    refine ended_bind (wpF_advance n s (heldAll ss) (by simpa [heldAll] using h)) fun r σ' h' => ?_
    obtain ⟨b, s', c⟩ := r
    cases b with
    | true => exact ended_ret (by simpa [heldAll] using h'.1)
    | false =>
      have h1 : s'.handle = none := h'.2.2 rfl
      simp only [Bool.false_eq_true, if_false]
      cases c with
      | none => exact ih (by simpa [Stream.held, h1] using h'.1)
      | some e => exact ended_ret (by simpa [heldAll] using h'.1)

theorem wpF_recNew (n : Nat) (p : Path) (opts : DirOptions) (ec : EcArg) {σ : Option (List Nat)} (h : Holds [] base σ) :
    wp fstep (Ended base fun r σ' => RecHolds base r.1 σ') (RecIter.new n p opts ec) σ := by
  unfold RecIter.new
  refine ended_bind (wpF_new n p opts [] h) fun r σ' h' => ?_
  rw [List.append_nil] at h'
  split
  · exact ended_bind (wpF_reportDestroy _ _ _ _ h') fun _ _ h => ended_ret (recHolds_end rfl h)
  · split
    · rename_i hg
      rw [held_bad hg] at h'
      exact ended_ret (recHolds_end rfl h')
    · exact ended_ret (by simpa [RecHolds, RecIter.streams, heldAll, Stream.held, Stream.moved] using h')

theorem wpF_recAdvance (n : Nat) (it : RecIter) (ec : EcArg) {σ : Option (List Nat)} (h : RecHolds base it σ) :
    wp fstep (Ended base fun r σ' => RecHolds base r.1 σ') (RecIter.advance n it ec) σ := by
  unfold RecIter.advance
  split
  · rename_i hi
    have h0 : Holds [] base σ := by simpa [RecHolds, RecIter.streams, hi, heldAll] using h
    exact ended_bind (wpF_reportMsg _ _ _ _ _ h0) fun _ _ h => ended_ret (recHolds_end hi h)
  · rename_i ss opts hi
    simp only [RecHolds, RecIter.streams, hi, Option.map_some, Option.getD_some] at h
    refine ended_bind (wpF_advanceStack n ss h) fun r σ' h' => ?_
    split
    · refine ended_bind (wpF_closeAll r.1 [] (by simpa using h')) fun _ σ'' h'' => ?_
      exact ended_bind (wpF_reportMsg _ _ _ _ _ h'') fun _ _ h => ended_ret (recHolds_end rfl h)
    · split
      · rename_i he
        rw [List.isEmpty_iff] at he
        rw [he] at h'
        exact ended_ret (recHolds_end rfl h')
      · exact ended_ret h'

theorem wpF_recTry (n : Nat) (it : RecIter) (ec : EcArg) {σ : Option (List Nat)} (h : RecHolds base it σ) :
    wp fstep (Ended base fun r σ' => RecHolds base r.1.2 σ') (RecIter.tryRecursion n it ec) σ := by
  unfold RecIter.tryRecursion
  split
  · rename_i hi
    have h0 : Holds [] base σ := by simpa [RecHolds, RecIter.streams, hi, heldAll] using h
    exact ended_bind (wpF_reportMsg _ _ _ _ _ h0) fun _ _ h => ended_ret (recHolds_end hi h)
  · exact h.ne_none
  · rename_i cur ss opts hi
    simp only [RecHolds, RecIter.streams, hi, Option.map_some, Option.getD_some] at h
    refine ended_bind (wpF_noFind (nf_recursionType ..) (noThrow_recursionType ..) h) ?_
    rintro ⟨skip, e, m⟩ σ' ⟨-, h'⟩
    refine ended_bind (P := fun r σ' => Holds ((r.1.map Stream.held).getD [] ++ heldAll (cur :: ss)) base σ') ?_ ?_
    · split
      · refine ended_bind (wpF_new n _ opts _ h') fun r σ'' h'' => ?_
        split
        · exact ended_ret h''
        · rename_i hg
          rw [held_bad (by simpa using hg)] at h''
          exact ended_ret h''
      · exact ended_ret h'
    · rintro ⟨pushed, m⟩ σ'' h1
      cases pushed with
      | some s => exact ended_ret h1
      | none =>
        cases m with
        | none => exact ended_ret h1
        | some e =>
          dsimp only
          split
          · exact ended_ret h1
          · refine ended_bind (wpF_closeAll (_ :: ss) [] (by rw [List.append_nil]; exact h1)) fun _ σ3 h3 => ?_
            exact ended_bind (wpF_reportMsg _ _ _ _ _ h3) fun _ _ h => ended_ret (recHolds_end rfl h)

theorem wpF_recIncr (n : Nat) (it : RecIter) (ec : EcArg) {σ : Option (List Nat)} (h : RecHolds base it σ) :
    wp fstep (Ended base fun r σ' => RecHolds base r.1 σ') (RecIter.incr n it ec) σ := by
  unfold RecIter.incr
  refine ended_bind (P := fun r σ' => RecHolds base r.2.1 σ') ?_ ?_
  · split
    · exact ended_bind (wpF_recTry n it _ h) fun _ _ h => ended_ret h
    · exact ended_ret h
  · rintro ⟨d, it, ec⟩ σ' h
    split
    · exact ended_ret h
    · exact wpF_recAdvance n _ _ h

theorem wpF_recPop (n : Nat) (it : RecIter) (ec : EcArg) {σ : Option (List Nat)} (h : RecHolds base it σ) :
    wp fstep (Ended base fun r σ' => RecHolds base r.1 σ') (RecIter.pop n it ec) σ := by
  unfold RecIter.pop
  split
  · rename_i hi
    have h0 : Holds [] base σ := by simpa [RecHolds, RecIter.streams, hi, heldAll] using h
    exact ended_bind (wpF_reportMsg _ _ _ _ _ h0) fun _ _ h => ended_ret (recHolds_end hi h)
  · exact h.ne_none
  · rename_i s ss opts hi
    simp only [RecHolds, RecIter.streams, hi, Option.map_some, Option.getD_some] at h
    refine ended_bind (wpF_close s (heldAll ss) (by simpa [heldAll] using h)) fun _ σ' h' => ?_
    split
    · rename_i he
      rw [List.isEmpty_iff] at he
      subst he
      exact ended_ret (recHolds_end rfl h'.2)
    · exact wpF_recAdvance n _ _ h'.2

theorem wpF_driveRec (n : Nat) (ec : EcArg) (acts : List Act) (it : RecIter) {σ : Option (List Nat)} (h : RecHolds base it σ) :
    wp fstep (Ended base fun _ σ' => Holds [] base σ') (driveWinRec n ec acts it) σ := by
  induction acts generalizing it σ with
  | nil => exact wpF_closeAll _ [] (by rw [List.append_nil]; exact h)
  | cons a acts ih =>
    cases a with
    | disable => exact ih _ h
    | incr => exact ended_bind (wpF_recIncr n it ec h) fun r σ' h' => ih r.1 h'
    | pop => exact ended_bind (wpF_recPop n it ec h) fun r σ' h' => ih r.1 h'

theorem wpF_driveDir (n : Nat) (ec : EcArg) (k : Nat) (it : DirIter) {σ : Option (List Nat)} (h : Holds it.held base σ) :
    wp fstep (Ended base fun _ σ' => Holds [] base σ') (driveWinDir n ec k it) σ := by
  induction k generalizing it σ with
  | zero => exact wpF_destroy it [] (by simpa using h)
  | succ k ih => exact ended_bind (wpF_dirIncr n it ec h) fun r σ' h' => ih r.1 h'.1

/-! ## Operations that walk directories -/

/-- A program run inside another that holds handles open: it does not throw. -/
theorem ended_inner {p : Prog α} {hs : List Nat} {σ : Option (List Nat)} (hn : NoThrow (fun _ => True) p)
    (h : Holds hs base σ) (hp : Holds [] (hs ++ base) σ → wp fstep (Ended (hs ++ base) fun _ σ' => Holds [] (hs ++ base) σ') p σ) :
    wp fstep (Ended base fun _ σ' => Holds hs base σ') p σ := by
  have key : ∀ σ, wp fstep (Ended (hs ++ base) fun _ σ' => Holds [] (hs ++ base) σ') p σ →
      wp fstep (Ended base fun _ σ' => Holds hs base σ') p σ := by
    intro σ
    clear h hp
    induction hn generalizing σ with
    | ret a => exact fun h => h
    | call c k _ ih => exact fun h r σ' hs => ih r trivial σ' (h r σ' hs)
    | _ => exact fun h => h
  exact key σ (hp h)

theorem wpF_isEmpty (n : Nat) (p : Path) (ec : EcArg) {σ : Option (List Nat)} (h : Holds [] base σ) :
    wp fstep (Ended base fun _ σ' => Holds [] base σ') (isEmptyFile n p ec) σ := by
  unfold isEmptyFile
  rintro r σ' ⟨rfl, _⟩
  rw [useFind_noFind (show NoFind (.win (.getAttrsEx p.pathname)) from rfl)]
  rcases r with e | a
  · exact wpF_report _ _ _ _ h
  · dsimp only
    split
    · unfold isEmptyDirectory
      refine ended_bind (wpF_dirNew n p _ _ h) fun r σ' h' => ?_
      refine ended_bind (wpF_destroy r.1 [] (by simpa using h'.1)) fun _ σ'' h'' => ?_
      split <;> exact ended_ret h''
    · exact ended_ret h

theorem wpF_removeLoop (rec : Path → Prog (BitVec 64 × Code)) (hr : ∀ p, NoThrow (fun _ => True) (rec p))
    (hrec : ∀ p base σ, Holds [] base σ → wp fstep (Ended base fun _ σ' => Holds [] base σ') (rec p) σ)
    (n : Nat) (it : DirIter) (count : BitVec 64) {σ : Option (List Nat)} (h : Holds it.held base σ) :
    wp fstep (Ended base fun _ σ' => Holds [] base σ') (removeLoop rec n it count) σ := by
  induction n generalizing it count σ with
  | zero => exact h.ne_none
  | succ n ih =>
    cases it with
    | none => exact ended_ret h
    | some s =>
      unfold removeLoop
      refine ended_bind (ended_inner (hr _) h fun h => hrec _ _ _ h) fun x σ' h' => ?_
      split
      · exact ended_bind (wpF_destroy (some s) [] (by simpa using h')) fun _ _ h => ended_ret h
      · refine ended_bind (wpF_dirIncr n (some s) _ h') fun y σ'' h'' => ?_
        split
        · rename_i e he
          have : y.1 = none := h''.2 (by
            cases hy : y.2 with
            | null => rw [hy] at he; cases he
            | ref c => rw [hy] at he; cases (show c = some e from he); rfl)
          have h3 := h''.1
          rw [this] at h3
          exact ended_ret h3
        · exact ih _ _ h''.1

theorem wpF_doRemoveAll (n : Nat) (p : Path) {base : List Nat} {σ : Option (List Nat)} (h : Holds [] base σ) :
    wp fstep (Ended base fun _ σ' => Holds [] base σ') (doRemoveAll n p) σ := by
  induction n generalizing p base σ with
  | zero => exact h.ne_none
  | succ n ih =>
    unfold doRemoveAll
    refine ended_bind (wpF_noFind' (nf_symlinkStatus ..) h) fun st σ' h' => ?_
    split
    · exact ended_ret h'
    · refine ended_bind (P := fun _ σ' => Holds [] base σ') ?_ fun y σ'' h'' => ?_
      · split
        · refine ended_bind (wpF_dirNew n p _ _ h') fun x σ'' h'' => ?_
          split
          · rename_i e he
            have : x.1 = none := h''.2 (by
              cases hy : x.2 with
              | null => rw [hy] at he; cases he
              | ref c => rw [hy] at he; cases (show c = some e from he); rfl)
            have h3 := h''.1
            rw [this] at h3
            exact ended_ret h3
          · exact wpF_removeLoop _ (noThrow_doRemoveAll n) (fun p base σ h => ih p h) n _ _ h''.1
        · exact ended_ret h'
      · split
        · exact ended_ret h''
        · refine ended_bind (wpF_noFind' (nf_remove ..) h'') fun z σ3 h3 => ?_
          split <;> exact ended_ret h3

theorem wpF_removeAll (n : Nat) (p : Path) (ec : EcArg) {σ : Option (List Nat)} (h : Holds [] base σ) :
    wp fstep (Ended base fun _ σ' => Holds [] base σ') (removeAll n p ec) σ := by
  unfold removeAll
  dsimp only
  split
  · exact ended_ret h
  · refine ended_bind (wpF_doRemoveAll n p h) fun x σ' h' => ?_
    split
    · split
      · exact ended_ret h'
      · exact wpF_report _ _ _ _ h'
    · exact ended_ret h'

theorem wpF_onThrow {p : Prog α} (s : Stream) {σ : Option (List Nat)}
    (h : wp fstep (Ended (s.held ++ base) fun _ σ' => Holds [] (s.held ++ base) σ') p σ) :
    wp fstep (Ended base fun _ σ' => Holds s.held base σ') (Prog.onThrow p (destroy (some s))) σ := by
  induction p generalizing σ with
  | ret a => exact h
  | stop x =>
    cases x with
    | thrown x =>
      have h : Holds [] (s.held ++ base) σ := h
      have h' : Holds ((DirIter.held (some s)) ++ []) base σ := by simpa [DirIter.held, Holds] using h
      exact wp_bind (wp_mono (by
        rintro (x | a) s h
        · cases x <;> exact h
        · exact h) (wpF_destroy (some s) [] h'))
    | fault f => exact h
    | fuel => exact h
  | call c k ih => exact fun r σ' hs => ih r (h r σ' hs)

theorem wpF_copyLoop (hd : Handler) (rec : Path → Path → EcArg → Prog (Unit × EcArg)) (to : Path)
    (hrec : ∀ p q ec base σ, Holds [] base σ → wp fstep (Ended base fun _ σ' => Holds [] base σ') (rec p q ec) σ)
    (n : Nat) (it : DirIter) (m2 : Code) (ec : EcArg) {σ : Option (List Nat)} (h : Holds it.held base σ) :
    wp fstep (Ended base fun _ σ' => Holds [] base σ') (copyLoop hd rec to n it m2 ec) σ := by
  induction n generalizing it m2 ec σ with
  | zero => exact h.ne_none
  | succ n ih =>
    cases it with
    | none => exact ended_ret h
    | some s =>
      unfold copyLoop
      split
      · exact wpF_reportDestroy _ _ _ _ h
      · cases filename .windows s.entry.path with
        | error f => exact h.ne_none
        | ok f =>
          simp only [Prog.ofRes, Prog.ret_bind]
          cases append .windows to f with
          | error f => exact h.ne_none
          | ok t =>
            simp only [Prog.ret_bind]
            refine ended_bind (wpF_onThrow s (hrec _ _ _ _ _ (by simpa [DirIter.held, Holds] using h))) fun x σ' h' => ?_
            split
            · exact ended_bind (wpF_destroy (some s) [] (by simpa [DirIter.held] using h')) fun _ _ h => ended_ret h
            · exact ended_bind (wpF_dirIncr n (some s) _ h') fun y σ'' h'' => ih _ _ _ h''.1

theorem wpF_copyDir (hd : Handler) (rec : Path → Path → EcArg → Prog (Unit × EcArg)) (n : Nat) (src to : Path) (t : FStatus)
    (hrec : ∀ p q ec base σ, Holds [] base σ → wp fstep (Ended base fun _ σ' => Holds [] base σ') (rec p q ec) σ)
    (ec : EcArg) {σ : Option (List Nat)} (h : Holds [] base σ) :
    wp fstep (Ended base fun _ σ' => Holds [] base σ') (copyDir rec n hd src to t ec) σ := by
  unfold copyDir
  refine ended_bind (P := fun _ σ' => Holds [] base σ') ?_ fun ec σ' h' => ?_
  · split
    · exact ended_bind (wpF_noFind' (nf_createDirectoryLike ..) h) fun _ _ h => ended_ret h
    · exact ended_ret h
  · split
    · exact ended_ret h'
    · refine ended_bind (wpF_dirNew n src _ _ h') fun x σ'' h'' => ?_
      split
      · rename_i hx
        have h3 := h''.1
        rw [h''.2 hx] at h3
        exact ended_ret h3
      · exact wpF_copyLoop hd rec to hrec n _ _ _ h''.1

theorem wpF_copyDispatch (c : SysClock) (rec : Path → Path → EcArg → Prog (Unit × EcArg)) (n : Nat) (hd : Handler) (src to : Path)
    (hrec : ∀ p q ec base σ, Holds [] base σ → wp fstep (Ended base fun _ σ' => Holds [] base σ') (rec p q ec) σ)
    (opts : CopyOptions) (f t : FStatus) (ec : EcArg) {σ : Option (List Nat)} (h : Holds [] base σ) :
    wp fstep (Ended base fun _ σ' => Holds [] base σ') (copyDispatch c rec n hd src to opts f t ec) σ := by
  unfold copyDispatch
  dsimp only
  split
  · split
    · exact ended_ret h
    · split
      · exact wpF_noFind' (nf_copySymlink ..) h
      · exact wpF_report _ _ _ _ h
  · split
    · split
      · exact ended_ret h
      · split
        · exact wpF_noFind' (nf_createSymlinkAs ..) h
        · split
          · exact wpF_noFind' (nf_createHardLink ..) h
          · split
            · refine wpF_noFind' (Q := fun _ => True) ?_ h
              nofind
              exact nf_copyFile ..
            · exact ended_bind (wpF_noFind' (nf_copyFile ..) h) fun _ _ h => ended_ret h
    · split
      · exact wpF_report _ _ _ _ h
      · split
        · exact wpF_copyDir hd rec n src to t hrec ec h
        · exact ended_ret h

theorem wpF_copy (c : SysClock) (n : Nat) (src to : Path) (opts : CopyOptions) (ec : EcArg) {base : List Nat}
    {σ : Option (List Nat)} (h : Holds [] base σ) :
    wp fstep (Ended base fun _ σ' => Holds [] base σ') (copy c n src to opts ec) σ := by
  induction n generalizing src to ec base σ with
  | zero => exact h.ne_none
  | succ n ih =>
    unfold copy
    refine ended_bind (P := fun _ σ' => Holds [] base σ') ?_ fun f σ h => ?_
    · split
      · exact wpF_noFind' (nf_symlinkStatus ..) h
      · exact wpF_noFind' (nf_status ..) h
    · split
      · exact wpF_report _ _ _ _ h
      · refine ended_bind (P := fun _ σ' => Holds [] base σ') ?_ fun t σ h => ?_
        · split
          · exact wpF_noFind' (nf_symlinkStatus ..) h
          · exact wpF_noFind' (nf_status ..) h
        · split
          · exact wpF_report _ _ _ _ h
          · split
            · exact wpF_report _ _ _ _ h
            · refine ended_bind (P := fun _ σ' => Holds [] base σ') ?_ fun t σ h => ?_
              · split
                · exact wpF_noFind' (nf_equivalent ..) h
                · exact ended_ret h
              · split
                · exact wpF_report _ _ _ _ h
                · split
                  · exact wpF_report _ _ _ _ h
                  · exact wpF_copyDispatch c _ n _ _ _ (fun p q ec base σ h => ih p q ec h) _ _ _ _ h

theorem findsClosed {p : Prog α} (hp : ∀ base σ, Holds [] base σ → wp fstep (Ended base fun _ σ' => Holds [] base σ') p σ)
    {t : List Event} {o : Except Stop α} (h : Exec p t o) : FindsClosed t o := by
  intro ds s hd hs
  have h0 : Holds [] ds (some ds) := ⟨ds, rfl, .refl _, hd⟩
  have := wp_sound (hp ds _ h0) h hs
  have fin : Holds [] ds s → ∃ ds', s = some ds' ∧ ds'.Perm ds := by
    rintro ⟨ds', rfl, h1, _⟩
    exact ⟨ds', rfl, h1⟩
  rcases o with x | v
  · cases x with
    | thrown x => exact ⟨Holds.ne_none this, fun _ => fin this⟩
    | fault f => exact ⟨this, by rintro (⟨v, ⟨⟩⟩ | ⟨x, ⟨⟩⟩)⟩
    | fuel => exact ⟨this, by rintro (⟨v, ⟨⟩⟩ | ⟨x, ⟨⟩⟩)⟩
  · exact ⟨Holds.ne_none this, fun _ => fin this⟩

end Win

/-- **C77** for a `recursive_directory_iterator` with a single owner: whatever the system answers and whatever the client
does, only open search handles are used or closed, and when the iterator is gone (destroyed, or the client ended by
an exception) every handle it opened has been closed once. -/
theorem c77_recursive {n : Nat} {p : Path} {opts : DirOptions} {acts : List Act} {ec ec' : EcArg} {t : List Event}
    {o : Except Stop Unit}
    (h : Exec ((Win.RecIter.new n p opts ec).bind fun x => driveWinRec n ec' acts x.1) t o) : FindsClosed t o :=
  Win.findsClosed (fun _ _ h => Win.ended_bind (Win.wpF_recNew n p opts ec h) fun r _ h' => Win.wpF_driveRec n ec' acts r.1 h') h

/-- **C77** for `directory_iterator` with a single owner. -/
theorem c77_directory {n : Nat} {p : Path} {opts : DirOptions} {k : Nat} {ec ec' : EcArg} {t : List Event}
    {o : Except Stop Unit}
    (h : Exec ((Win.DirIter.new n p opts ec).bind fun x => driveWinDir n ec' k x.1) t o) : FindsClosed t o :=
  Win.findsClosed (fun _ _ h => Win.ended_bind (Win.wpF_dirNew n p opts ec h) fun r _ h' => Win.wpF_driveDir n ec' k r.1 h'.1) h

/-- **C77** for the operations that walk directories. -/
theorem c77_operations {n : Nat} {p q : Path} {c : SysClock} {opts : CopyOptions} {ec : EcArg} {t : List Event} :
    (∀ {o}, Exec (Win.isEmptyFile n p ec) t o → FindsClosed t o) ∧
    (∀ {o}, Exec (Win.removeAll n p ec) t o → FindsClosed t o) ∧
    (∀ {o}, Exec (Win.copy c n p q opts ec) t o → FindsClosed t o) :=
  ⟨fun h => Win.findsClosed (fun _ _ h => Win.wpF_isEmpty n p ec h) h,
   fun h => Win.findsClosed (fun _ _ h => Win.wpF_removeAll n p ec h) h,
   fun h => Win.findsClosed (fun _ _ h => Win.wpF_copy c n p q opts ec h) h⟩

/-- The hypotheses are met: an iteration over a directory with `.` and one file, the handle 7 opened and closed, while
another search goes on with handle 3. -/
example :
    let ent (n : Str) : FindData := { name := n, attrs := 0#32, tag := 0#32 }
    let t : List Event := [⟨.win (.findFirst "d\\*".toList), (.ok (7, ent ".".toList) : Except Errno (Nat × FindData))⟩,
      ⟨.win (.findNext 7), (.ok (ent "f".toList) : Except Errno FindData)⟩,
      ⟨.win (.findClose 7), (.ok () : Except Errno Unit)⟩]
    Exec ((Win.DirIter.new 3 (mkPath .windows "d".toList) .none .null).bind fun x => driveWinDir 3 .null 0 x.1) t (.ok ()) ∧
    Steps (fun s e s' => s' = useFind s e ∧ freshFind s e) (some [3]) t (some [3]) :=
  ⟨feed_exec (by decide +kernel), steps_cons.mpr ⟨_, ⟨rfl, (by decide : (7 : Nat) ∉ [3])⟩, steps_cons.mpr ⟨_, ⟨rfl, trivial⟩,
    steps_cons.mpr ⟨_, ⟨rfl, trivial⟩, steps_nil.mpr rfl⟩⟩⟩⟩

end Asap
