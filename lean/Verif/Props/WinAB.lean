import Verif.Win.Sec
import Verif.Os.Ghost
import Verif.Props.WinB

/-!
# C102: the calls of GetPermissions and SetPermissions

Any answers of the system are allowed.
-/

namespace Asap
namespace Spec

/-- The memory to which a trustee points is held. -/
def HeldName (ms : List Nat) : SecName → Prop
  | .ownerOf sd | .groupOf sd => sd ∈ ms
  | .named _ => True
  | .null => False

instance (ms : List Nat) (n : SecName) : Decidable (HeldName ms n) := by
  cases n <;> unfold HeldName <;> infer_instance

/-- The memory held after an event; `none` once memory that is not held has been used or freed. -/
def useMem (s : Option (List Nat)) (ev : Event) : Option (List Nat) :=
  match s, ev with
  | none, _ => none
  | some ms, ⟨.win (.sec (.getInfo _ _)), .ok m⟩ => some (m :: ms)
  | some ms, ⟨.win (.sec .alloc), some m⟩ => some (m :: ms)
  | some ms, ⟨.win (.sec (.setEntries l)), r⟩ =>
    if ∀ a ∈ l, HeldName ms a.name then match r with
      | .ok m => some (m :: ms)
      | .error _ => some ms
    else none
  | some ms, ⟨.win (.sec (.free m)), _⟩ => if m ∈ ms then some (ms.erase m) else none
  | some ms, ⟨.win (.sec (.rights sd _ n)), _⟩ => if sd ∈ ms ∧ HeldName ms n then some ms else none
  | some ms, ⟨.win (.sec (.equalSid sd)), _⟩ => if sd ∈ ms then some ms else none
  | some ms, ⟨.win (.sec (.setInfo _ acl)), _⟩ => if acl ∈ ms then some ms else none
  | some ms, _ => some ms

/-- No call of the run used or freed memory that was not held; if it returned or threw, exactly the memory that was held
before is held. -/
def MemSafe {α : Type} (t : List Event) (o : Except Stop α) : Prop :=
  ∀ (ms : List Nat) (s : Option (List Nat)), Steps (fun s e s' => s' = useMem s e) (some ms) t s →
    s ≠ none ∧ ((∃ v, o = .ok v) ∨ (∃ x, o = .error (.thrown x)) → s = some ms)

/-- All but memory that is got or freed. -/
def working (e : Event) : Bool :=
  match e with
  | ⟨.win (.sec (.free _)), _⟩ => false
  | ⟨.win (.sec .alloc), some _⟩ => false
  | _ => true

/-- The entry for `SetEntriesInAcl` as in C59; the owner and the group are those in `sd`. -/
def entryIn (sd : Nat) (a : SecAce) : Option Ace :=
  match a.name with
  | .ownerOf d => if d = sd then some ⟨.owner, a.deny, a.access⟩ else none
  | .groupOf d => if d = sd then some ⟨.group, a.deny, a.access⟩ else none
  | .named x => if x = "Everyone".toList then some ⟨.everyone, a.deny, a.access⟩ else none
  | .null => none

/-- The runs of `SetPermissions`, without memory that is got or freed: the owner and the group of the file are looked up,
the list of C59 is made and set. The first failure ends it. -/
inductive Stores (p : Str) (prms : Perms) : List Event → Except Stop Code → Prop where
  | noInfo (e : Errno) : Stores p prms [⟨.win (.sec (.getInfo p false)), (.error e : Except Errno Nat)⟩] (.ok (some e))
  | noMemory (sd : Nat) (w : List Event) (last : Code) : w = [] ∨ (∃ same : Bool, w = [⟨.win (.sec (.equalSid sd)), same⟩]) →
      Stores p prms (⟨.win (.sec (.getInfo p false)), (.ok sd : Except Errno Nat)⟩ :: w ++
          [⟨.win (.sec .alloc), (none : Option Nat)⟩, ⟨.win .lastError, last⟩])
        (match last with
          | some e => .ok (some e)
          | none => .error (.fault .assertFail))
  | noList (sd : Nat) (same : Bool) (l : List SecAce) (e : Errno) : l.map (entryIn sd) = (explicitEntries prms same).map some →
      Stores p prms [⟨.win (.sec (.getInfo p false)), (.ok sd : Except Errno Nat)⟩, ⟨.win (.sec (.equalSid sd)), same⟩,
        ⟨.win (.sec (.setEntries l)), (.error e : Except Errno Nat)⟩] (.ok (some e))
  | set (sd : Nat) (same : Bool) (l : List SecAce) (acl : Nat) (r : Except Errno Unit) :
      l.map (entryIn sd) = (explicitEntries prms same).map some →
      Stores p prms [⟨.win (.sec (.getInfo p false)), (.ok sd : Except Errno Nat)⟩, ⟨.win (.sec (.equalSid sd)), same⟩,
        ⟨.win (.sec (.setEntries l)), (.ok acl : Except Errno Nat)⟩, ⟨.win (.sec (.setInfo p acl)), r⟩]
        (match r with
          | .ok () => .ok none
          | .error e => .ok (some e))

/-- How `GetEffectiveRightsFromAcl` is asked about the owner, the group and everyone. -/
def trusteeFor (sd : Nat) : Sid → SecKind × SecName
  | .owner => (.user, .ownerOf sd)
  | .group => (.group, .groupOf sd)
  | .everyone => (.wellKnownGroup, .named "EVERYONE".toList)

/-- One question about rights, and the answer: an error `ERROR_INVALID_ACL` (1336) stands for `permission_denied`, for any other
error the last error is taken. -/
inductive Asks (sd : Nat) (who : Sid) : List Event → Except Errno Mask → Prop where
  | ok (m : Mask) : Asks sd who [⟨.win (.sec (.rights sd (trusteeFor sd who).1 (trusteeFor sd who).2)), (.ok m : Except Errno Mask)⟩] (.ok m)
  | acl (e : Errno) : e.winValue = 1336 →
      Asks sd who [⟨.win (.sec (.rights sd (trusteeFor sd who).1 (trusteeFor sd who).2)), (.error e : Except Errno Mask)⟩] (.error .EACCES)
  | other (e e' : Errno) : e.winValue ≠ 1336 →
      Asks sd who [⟨.win (.sec (.rights sd (trusteeFor sd who).1 (trusteeFor sd who).2)), (.error e : Except Errno Mask)⟩,
        ⟨.win .lastError, (some e' : Code)⟩] (.error e')

/-- A failing question when there is no last error. -/
inductive AsksNone (sd : Nat) (who : Sid) : List Event → Prop where
  | mk (e : Errno) : e.winValue ≠ 1336 →
      AsksNone sd who [⟨.win (.sec (.rights sd (trusteeFor sd who).1 (trusteeFor sd who).2)), (.error e : Except Errno Mask)⟩,
        ⟨.win .lastError, (none : Code)⟩]

/-- The group is asked about unless it is the owner; `m` is arbitrary if it is not. -/
inductive AsksGroup (sd : Nat) (m : Mask) : Bool → List Event → Prop where
  | same : AsksGroup sd m true [⟨.win (.sec (.equalSid sd)), true⟩]
  | other (w : List Event) : Asks sd .group w (.ok m) → AsksGroup sd m false (⟨.win (.sec (.equalSid sd)), false⟩ :: w)

/-- What is answered after a failing question: nothing for files that are not found, `perms::unknown` for files that are in use,
without an error; otherwise the error. -/
def failedRights (e : Errno) : Perms × Code :=
  if e.winValue ∈ [2, 3, 15, 21, 53, 87, 123, 161] then (0, none)
  else if e.winValue = 32 then (0xFFFF#32, none)
  else (0, some e)

/-- The runs of `GetPermissions`, without memory that is freed. -/
inductive Fetches (p : Str) (attr : Mask) : List Event → Except Stop (Perms × Code) → Prop where
  | noInfo (e : Errno) (last : Code) :
      Fetches p attr [⟨.win (.sec (.getInfo p true)), (.error e : Except Errno Nat)⟩, ⟨.win .lastError, last⟩]
        (match last with
          | some e' => .ok (0xFFFF#32, some e')
          | none => .error (.fault .assertFail))
  | owner (sd : Nat) (w : List Event) (e : Errno) : Asks sd .owner w (.error e) →
      Fetches p attr (⟨.win (.sec (.getInfo p true)), (.ok sd : Except Errno Nat)⟩ :: w) (.ok (failedRights e))
  | group (sd : Nat) (w w' : List Event) (m : Mask) (e : Errno) : Asks sd .owner w (.ok m) → Asks sd .group w' (.error e) →
      Fetches p attr (⟨.win (.sec (.getInfo p true)), (.ok sd : Except Errno Nat)⟩ :: w ++ ⟨.win (.sec (.equalSid sd)), false⟩ :: w')
        (.ok (failedRights e))
  | everyone (sd : Nat) (w w' w'' : List Event) (m m' : Mask) (same : Bool) (e : Errno) : Asks sd .owner w (.ok m) →
      AsksGroup sd m' same w' → Asks sd .everyone w'' (.error e) →
      Fetches p attr (⟨.win (.sec (.getInfo p true)), (.ok sd : Except Errno Nat)⟩ :: w ++ w' ++ w'') (.ok (failedRights e))
  | done (sd : Nat) (w w' w'' : List Event) (m : Sid → Mask) (same : Bool) (q : Perms) : Asks sd .owner w (.ok (m .owner)) →
      AsksGroup sd (m .group) same w' → Asks sd .everyone w'' (.ok (m .everyone)) →
      getPermissions same attr (fun s => .ok (m s)) = .ok (q, none) →
      Fetches p attr (⟨.win (.sec (.getInfo p true)), (.ok sd : Except Errno Nat)⟩ :: w ++ w' ++ w'') (.ok (q, none))
  | noOwner (sd : Nat) (w : List Event) : AsksNone sd .owner w →
      Fetches p attr (⟨.win (.sec (.getInfo p true)), (.ok sd : Except Errno Nat)⟩ :: w) (.error (.fault .assertFail))
  | noGroup (sd : Nat) (w w' : List Event) (m : Mask) : Asks sd .owner w (.ok m) → AsksNone sd .group w' →
      Fetches p attr (⟨.win (.sec (.getInfo p true)), (.ok sd : Except Errno Nat)⟩ :: w ++ ⟨.win (.sec (.equalSid sd)), false⟩ :: w')
        (.error (.fault .assertFail))
  | noEveryone (sd : Nat) (w w' w'' : List Event) (m m' : Mask) (same : Bool) : Asks sd .owner w (.ok m) →
      AsksGroup sd m' same w' → AsksNone sd .everyone w'' →
      Fetches p attr (⟨.win (.sec (.getInfo p true)), (.ok sd : Except Errno Nat)⟩ :: w ++ w' ++ w'') (.error (.fault .assertFail))

end Spec
open Spec

namespace Win

/-- The law of memory. -/
abbrev mstep (s : Option (List Nat)) (e : Event) (s' : Option (List Nat)) : Prop := s' = useMem s e

/-- Nothing is gained or lost. -/
abbrev Keeps (ms : List Nat) {α : Type} (_ : Except Stop α) (s : Option (List Nat)) : Prop := s = some ms

theorem wp_capture {Q : Except Stop Errno → Option (List Nat) → Prop} {ms : List Nat}
    (h0 : Q (.error (.fault .assertFail)) (some ms)) (h1 : ∀ e, Q (.ok e) (some ms)) :
    wp mstep Q captureErrno (some ms) := by
  intro r s' hs
  cases hs
  cases r with
  | none => exact h0
  | some e => exact h1 e

theorem keeps_trusteeRights {tr : TrusteeType} {kind : SecKind} {name : SecName} {bit : Perms} {sd : Nat} {attr : Mask}
    {ms : List Nat} (h1 : sd ∈ ms) (h2 : HeldName ms name) :
    wp mstep (Keeps ms) (trusteeRights tr kind name bit sd attr) (some ms) := by
  intro r s' hs
  have : s' = some ms := by
    rw [hs]; simp only [useMem]; rw [if_pos ⟨h1, h2⟩]
  subst this
  cases r with
  | error e =>
    dsimp only
    split
    · rfl
    · apply wp_bind
      exact wp_capture rfl fun e => rfl
  | ok mask =>
    dsimp only
    cases mapAccessMaskToPerms flagTest mask tr (if flagTest attr FILE_ATTRIBUTE_DIRECTORY then .directory else .regular) with
    | error f => rfl
    | ok v => rfl

theorem keeps_fetchRights {sd : Nat} {attr : Mask} {ec : EcArg} {ms : List Nat} (h : sd ∈ ms) :
    wp mstep (Keeps ms) (fetchRights sd attr ec) (some ms) := by
  unfold fetchRights
  apply wp_bind
  refine wp_mono ?_ (keeps_trusteeRights h h)
  rintro (x | ⟨u, cu⟩) s rfl
  · rfl
  cases cu with
  | some e => rfl
  | none =>
    dsimp only
    intro same s' hs
    have : s' = some ms := by
      rw [hs]; simp only [useMem]; rw [if_pos h]
    subst this
    apply wp_bind
    have hg : wp mstep (Keeps ms) (if !same then trusteeRights .group .group (.groupOf sd) Perms.groupRead sd attr
        else .ret (Perms.none, none)) (some ms) := by
      split
      · exact keeps_trusteeRights h h
      · rfl
    refine wp_mono ?_ hg
    rintro (x | ⟨g, cg⟩) s rfl
    · rfl
    cases cg with
    | some e => rfl
    | none =>
      dsimp only
      apply wp_bind
      refine wp_mono ?_ (keeps_trusteeRights h trivial)
      rintro (x | ⟨o, co⟩) s rfl
      · rfl
      cases co with
      | some e => rfl
      | none => rfl

/-- The end of a run that held `ms` at its start. -/
abbrev MemEnd (ms : List Nat) {α : Type} (o : Except Stop α) (s : Option (List Nat)) : Prop :=
  s ≠ none ∧ (Unwinds o → s = some ms)

theorem memSafe_of_wp {α : Type} {p : Prog α} (h : ∀ ms, wp mstep (MemEnd ms) p (some ms)) {t : List Event}
    {o : Except Stop α} (he : Exec p t o) : MemSafe t o := by
  intro ms s hs
  obtain ⟨h1, h2⟩ := wp_sound (h ms) he hs
  refine ⟨h1, fun ho => h2 ?_⟩
  rcases ho with ⟨v, rfl⟩ | ⟨x, rfl⟩ <;> trivial

theorem wp_localFree {Q : Except Stop Unit → Option (List Nat) → Prop} {m : Nat} {ms : List Nat} (h : Q (.ok ()) (some ms)) :
    wp mstep Q (localFree m) (some (m :: ms)) := by
  intro r s' hs
  have : s' = some ms := by
    rw [hs]; simp [useMem]
  subst this
  exact h

theorem wp_report {α : Type} {ms : List Nat} (h : Handler) (ec : EcArg) (c : Code) (v : α) :
    wp mstep (MemEnd ms) (h.report ec c v) (some ms) := by
  cases ec with
  | null => exact ⟨by simp, fun _ => rfl⟩
  | ref c => exact ⟨by simp, fun _ => rfl⟩

theorem mem_fetchPermissions (p : Path) (attr : Mask) (ec : EcArg) (ms : List Nat) :
    wp mstep (MemEnd ms) (fetchPermissions p attr ec) (some ms) := by
  unfold fetchPermissions
  rintro (e | sd) s' hs
  · cases hs
    apply wp_bind
    refine wp_capture ⟨by simp, fun h => h.elim⟩ fun e => ?_
    exact wp_report ..
  · cases hs
    dsimp only
    apply wp_finally
    refine wp_mono ?_ (keeps_fetchRights (ms := sd :: ms) (by simp))
    rintro o s rfl
    exact ⟨fun _ => wp_localFree ⟨by simp, fun _ => rfl⟩, fun h => ⟨by simp, fun h' => absurd h' h⟩⟩

/-- The end of the making of entries: the memory of the entries is held besides `base`. -/
def AcesEnd (base : List Nat) (o : Except Stop (Except Errno Unit × Aces)) (s : Option (List Nat)) : Prop :=
  match o with
  | .ok x => s = some (x.2.map Prod.fst ++ base)
  | .error x => s ≠ none ∧ ¬ Unwinds (.error x : Except Stop Unit)

section
variable {base : List Nat} {k : Aces → Prog (Except Errno Unit × Aces)} {P : Aces → Prop}

theorem mem_addAce {tr : TrusteeType} {sid : SecName} {deny : Bool} {access : Mask} {aces : Aces}
    (hk : ∀ m, wp mstep (AcesEnd base) (k ((m, aceOf tr sid access deny) :: aces))
      (some (m :: (aces.map Prod.fst ++ base)))) :
    wp mstep (AcesEnd base) (addAce tr sid deny access k aces) (some (aces.map Prod.fst ++ base)) := by
  unfold addAce makeAce
  rw [Prog.call_bind]
  intro r s' hs
  cases r with
  | none =>
    cases hs
    show wp mstep (AcesEnd base) (captureErrno.bind fun e => .ret (.error e, aces)) (some _)
    apply wp_bind
    refine wp_capture ?_ fun e => ?_
    · exact ⟨by simp, id⟩
    · rfl
  | some m =>
    cases hs
    exact hk m

/-- The names in the entries point to memory in `base`. -/
def Points (base : List Nat) (aces : Aces) : Prop := ∀ a ∈ aces, HeldName base a.2.name

theorem Points.cons {aces : Aces} (h : Points base aces) {m : Nat} {tr : TrusteeType} {sid : SecName} {access : Mask}
    {deny : Bool} (hs : tr = .others ∨ HeldName base sid) : Points base ((m, aceOf tr sid access deny) :: aces) := by
  intro a ha
  rcases List.mem_cons.mp ha with rfl | ha
  · rcases hs with rfl | hs
    · exact trivial
    · cases tr
      · exact hs
      · exact hs
      · exact trivial
      · exact trivial
      · exact trivial
  · exact h a ha

theorem mem_addIf {tr : TrusteeType} {sid : SecName} {deny : Bool} {access : Mask} {aces : Aces}
    (hs : tr = .others ∨ HeldName base sid) (hp : Points base aces)
    (hk : ∀ aces, Points base aces → wp mstep (AcesEnd base) (k aces) (some (aces.map Prod.fst ++ base))) :
    wp mstep (AcesEnd base) (addIf tr sid deny access k aces) (some (aces.map Prod.fst ++ base)) := by
  unfold addIf
  split
  · exact mem_addAce fun m => hk _ (hp.cons hs)
  · exact hk _ hp
end

theorem held_append {base : List Nat} {n : SecName} (h : HeldName base n) (ms : List Nat) : HeldName (ms ++ base) n := by
  cases n with
  | null => exact h
  | named s => trivial
  | ownerOf d => exact List.mem_append_right _ h
  | groupOf d => exact List.mem_append_right _ h

theorem mem_applyAces {base : List Nat} (p : Str) (aces : Aces) (hp : Points base aces) :
    wp mstep (AcesEnd base) (applyAces p aces) (some (aces.map Prod.fst ++ base)) := by
  unfold applyAces
  have hall : ∀ a ∈ aces.map Prod.snd, HeldName (aces.map Prod.fst ++ base) a.name := by
    intro a ha
    obtain ⟨x, hx, rfl⟩ := List.mem_map.mp ha
    exact held_append (hp x hx) _
  rintro (e | acl) s' hs
  · have : s' = some (aces.map Prod.fst ++ base) := by
      rw [hs]; simp only [useMem]; rw [if_pos hall]
    subst this
    rfl
  · have : s' = some (acl :: (aces.map Prod.fst ++ base)) := by
      rw [hs]; simp only [useMem]; rw [if_pos hall]
    subst this
    apply wp_finally
    intro r s' hs
    have : s' = some (acl :: (aces.map Prod.fst ++ base)) := by
      rw [hs]; simp [useMem]
    subst this
    exact ⟨fun _ => wp_localFree rfl, fun h => absurd trivial h⟩

theorem mem_denyAll {base : List Nat} (p : Str) (aces : Aces) (hp : Points base aces) :
    wp mstep (AcesEnd base) (denyAll p aces) (some (aces.map Prod.fst ++ base)) := by
  unfold denyAll
  split
  · exact mem_addAce fun m => mem_applyAces p _ (hp.cons (.inl rfl))
  · exact mem_applyAces p _ hp

theorem mem_ownerAces {base : List Nat} (p : Str) {sd : Nat} (h : sd ∈ base) (prms : Perms) (aces : Aces) (hp : Points base aces) :
    wp mstep (AcesEnd base) (ownerAces p sd prms aces) (some (aces.map Prod.fst ++ base)) :=
  mem_addIf (.inr h) hp fun _ hp => mem_addIf (.inr h) hp fun _ hp => mem_denyAll p _ hp

theorem mem_groupAces {base : List Nat} (p : Str) {sd : Nat} (h : sd ∈ base) (prms : Perms) (aces : Aces) (hp : Points base aces) :
    wp mstep (AcesEnd base) (groupAces p sd prms aces) (some (aces.map Prod.fst ++ base)) := by
  unfold groupAces
  intro same s' hs
  have : s' = some (aces.map Prod.fst ++ base) := by
    rw [hs]; simp only [useMem]; rw [if_pos (List.mem_append_right _ h)]
  subst this
  dsimp only
  split
  · exact mem_addIf (.inr h) hp fun _ hp => mem_addIf (.inr h) hp fun _ hp => mem_ownerAces p h prms _ hp
  · exact mem_ownerAces p h prms _ hp

theorem wp_freeAces {ms : List Nat} : ∀ (aces : Aces) {Q : Except Stop Unit → Option (List Nat) → Prop}, Q (.ok ()) (some ms) →
    wp mstep Q (freeAces aces) (some (aces.map Prod.fst ++ ms))
  | [], _, h => h
  | a :: as, _, h => by
    unfold freeAces
    apply wp_bind
    exact wp_localFree (wp_freeAces as h)

theorem mem_storePermissions (p : Path) (prms : Perms) (ec : EcArg) (ms : List Nat) :
    wp mstep (MemEnd ms) (storePermissions p prms ec) (some ms) := by
  unfold storePermissions
  rintro (e | sd) s' hs
  · cases hs
    exact wp_report ..
  · cases hs
    dsimp only
    apply wp_bind
    have h1 : wp mstep (AcesEnd (sd :: ms)) (storeAces p.pathname sd prms) (some (([] : Aces).map Prod.fst ++ sd :: ms)) :=
      mem_addIf (.inl rfl) (fun a ha => by cases ha) fun _ hp => mem_groupAces _ (by simp) _ _ hp
    refine wp_mono ?_ h1
    rintro (x | ⟨r, aces⟩) s h
    · refine ⟨h.1, fun hu => absurd ?_ h.2⟩
      cases x with
      | thrown e => trivial
      | fault f => exact hu
      | fuel => exact hu
    · cases h
      dsimp only
      apply wp_bind
      refine wp_freeAces aces ?_
      dsimp only
      apply wp_bind
      refine wp_localFree ?_
      cases r with
      | ok u => exact ⟨by simp, fun _ => rfl⟩
      | error e => exact wp_report ..

end Win
open Win

/-- **C102**: memory. -/
theorem c102_memory (p : Path) (ec : EcArg) :
    (∀ (attr : Mask) (t : List Event) (o : Except Stop (Perms × EcArg)), Exec (Win.fetchPermissions p attr ec) t o → MemSafe t o) ∧
    (∀ (prms : Perms) (t : List Event) (o : Except Stop (Unit × EcArg)), Exec (Win.storePermissions p prms ec) t o → MemSafe t o) :=
  ⟨fun attr _ _ he => memSafe_of_wp (mem_fetchPermissions p attr ec) he,
    fun prms _ _ he => memSafe_of_wp (mem_storePermissions p prms ec) he⟩

namespace Win

/-- The trace without memory that is got or freed. -/
def Wk (s : List Event) (e : Event) (s' : List Event) : Prop := s' = if working e then s ++ [e] else s

theorem steps_wk : ∀ (s t : List Event), Steps Wk s t (s ++ t.filter working)
  | s, [] => by simpa using Steps.nil s
  | s, e :: t => by
    refine .cons rfl ?_
    have := steps_wk (if working e then s ++ [e] else s) t
    cases h : working e <;> simp only [h, List.filter_cons, if_true, Bool.false_eq_true, if_false] at this ⊢
    · exact this
    · simpa using this

theorem wp_wk {α : Type} {Q : Except Stop α → List Event → Prop} {p : Prog α} {t : List Event} {o : Except Stop α}
    (h : wp Wk Q p []) (he : Exec p t o) : Q o (t.filter working) := by
  simpa using wp_sound h he (steps_wk [] t)

/-- The code left by what `storeAces` answers. -/
def storeCode (o : Except Stop (Except Errno Unit × Aces)) : Except Stop Code :=
  match o with
  | .ok (.ok (), _) => .ok none
  | .ok (.error e, _) => .ok (some e)
  | .error x => .error x

section
variable {p : Str} {prms : Perms} {sd : Nat} {k : Aces → Prog (Except Errno Unit × Aces)}

/-- The entries made so far. -/
def Made (sd : Nat) (aces : Aces) (l : List Ace) : Prop := aces.map (fun a => entryIn sd a.2) = l.map some

/-- `Stores`, of an outcome of `storeAces`. -/
abbrev StoreEnd (p : Str) (prms : Perms) (o : Except Stop (Except Errno Unit × Aces)) (s : List Event) : Prop :=
  Stores p prms s (storeCode o)

/-- The run so far. -/
abbrev gotInfo (p : Str) (sd : Nat) (w : List Event) : List Event :=
  ⟨.win (.sec (.getInfo p false)), (.ok sd : Except Errno Nat)⟩ :: w

theorem wk_addAce {tr : TrusteeType} {sid : SecName} {deny : Bool} {access : Mask} {aces : Aces} {w : List Event}
    (hw : w = [] ∨ ∃ same : Bool, w = [⟨.win (.sec (.equalSid sd)), same⟩])
    (hk : ∀ m, wp Wk (StoreEnd p prms) (k ((m, aceOf tr sid access deny) :: aces)) (gotInfo p sd w)) :
    wp Wk (StoreEnd p prms) (addAce tr sid deny access k aces) (gotInfo p sd w) := by
  unfold addAce makeAce
  rw [Prog.call_bind]
  intro r s' hs
  cases r with
  | some m =>
    cases hs
    exact hk m
  | none =>
    cases hs
    show wp Wk (StoreEnd p prms) (captureErrno.bind fun e => .ret (.error e, aces)) _
    unfold captureErrno
    rw [Prog.call_bind]
    intro last s' hs
    cases hs
    have := Stores.noMemory (p := p) (prms := prms) sd w last hw
    cases last with
    | none => simpa [wp, StoreEnd, storeCode, working, gotInfo] using this
    | some e => simpa [wp, StoreEnd, storeCode, working, gotInfo] using this

theorem wk_addIf {tr : TrusteeType} {sid : SecName} {deny : Bool} {access : Mask} {aces : Aces} {w : List Event} {l : List Ace}
    {who : Sid} (hw : w = [] ∨ ∃ same : Bool, w = [⟨.win (.sec (.equalSid sd)), same⟩]) (hl : Made sd aces l)
    (he : entryIn sd (aceOf tr sid access deny) = some ⟨who, deny, access⟩)
    (hk : ∀ aces, Made sd aces (pushAce l who deny access) → wp Wk (StoreEnd p prms) (k aces) (gotInfo p sd w)) :
    wp Wk (StoreEnd p prms) (addIf tr sid deny access k aces) (gotInfo p sd w) := by
  unfold addIf
  by_cases h : access ≠ 0
  · rw [if_pos h]
    refine wk_addAce hw fun m => hk _ ?_
    unfold pushAce
    rw [if_pos h]
    unfold Made
    rw [List.map_cons, List.map_cons, he, hl]
  · rw [if_neg h]
    refine hk _ ?_
    unfold pushAce
    rw [if_neg h]
    exact hl

theorem wk_applyAces {aces : Aces} {same : Bool} (hl : Made sd aces (explicitEntries prms same)) :
    wp Wk (StoreEnd p prms) (applyAces p aces) (gotInfo p sd [⟨.win (.sec (.equalSid sd)), same⟩]) := by
  have hl' : (aces.map Prod.snd).map (entryIn sd) = (explicitEntries prms same).map some := by
    rw [List.map_map]; exact hl
  unfold applyAces
  rintro (e | acl) s' hs
  · cases hs
    exact .noList sd same _ e hl'
  · cases hs
    apply wp_finally
    intro r s' hs
    cases hs
    refine ⟨fun _ => ?_, fun h => absurd trivial h⟩
    intro u s' hs
    cases hs
    have := Stores.set (p := p) (prms := prms) sd same _ acl r hl'
    cases r with
    | ok u => exact this
    | error e => exact this

theorem wk_denyAll {aces : Aces} {same : Bool} {l : List Ace} (hl : Made sd aces l)
    (he : explicitEntries prms same = if l = [] then [⟨.everyone, true, GENERIC_ALL⟩] else l) :
    wp Wk (StoreEnd p prms) (denyAll p aces) (gotInfo p sd [⟨.win (.sec (.equalSid sd)), same⟩]) := by
  unfold denyAll
  cases l with
  | nil =>
    have : aces = [] := by
      have h : aces.map (fun a => entryIn sd a.2) = [] := hl
      simpa using h
    subst this
    refine wk_addAce (.inr ⟨same, rfl⟩) fun m => wk_applyAces ?_
    rw [he]
    rfl
  | cons a l =>
    have : aces.isEmpty = false := by
      cases aces with
      | nil => cases hl
      | cons b bs => rfl
    rw [this]
    refine wk_applyAces ?_
    rw [he]
    exact hl

theorem entryIn_owner (tr : TrusteeType) (h : tr = .owner ∨ tr = .group) (access : Mask) (deny : Bool) :
    entryIn sd (aceOf tr (.ownerOf sd) access deny) = some ⟨.owner, deny, access⟩ := by
  rcases h with rfl | rfl <;> simp [aceOf, entryIn]

theorem entryIn_group (access : Mask) (deny : Bool) :
    entryIn sd (aceOf .group (.groupOf sd) access deny) = some ⟨.group, deny, access⟩ := by
  simp [aceOf, entryIn]

theorem wk_storeAces : wp Wk (StoreEnd p prms) (storeAces p sd prms) (gotInfo p sd []) := by
  refine wk_addIf (who := .everyone) (l := []) (.inl rfl) rfl rfl fun aces h1 => ?_
  unfold groupAces
  intro same s' hs
  cases hs
  dsimp only
  cases same with
  | false =>
    refine wk_addIf (w := [⟨.win (.sec (.equalSid sd)), false⟩]) (.inr ⟨_, rfl⟩) h1 (entryIn_group ..) fun aces h1 => ?_
    refine wk_addIf (.inr ⟨_, rfl⟩) h1 (entryIn_group ..) fun aces h1 => ?_
    refine wk_addIf (.inr ⟨_, rfl⟩) h1 (entryIn_owner _ (.inl rfl) ..) fun aces h1 => ?_
    refine wk_addIf (.inr ⟨_, rfl⟩) h1 (entryIn_owner _ (.inr rfl) ..) fun aces h1 => ?_
    exact wk_denyAll h1 rfl
  | true =>
    refine wk_addIf (w := [⟨.win (.sec (.equalSid sd)), true⟩]) (.inr ⟨_, rfl⟩) h1 (entryIn_owner _ (.inl rfl) ..) fun aces h1 => ?_
    refine wk_addIf (.inr ⟨_, rfl⟩) h1 (entryIn_owner _ (.inr rfl) ..) fun aces h1 => ?_
    exact wk_denyAll h1 rfl

theorem wk_localFree {Q : Except Stop Unit → List Event → Prop} {m : Nat} {s : List Event} (h : Q (.ok ()) s) :
    wp Wk Q (localFree m) s := by
  intro r s' hs
  cases hs
  exact h

theorem wk_freeAces : ∀ (aces : Aces) {Q : Except Stop Unit → List Event → Prop} {s : List Event}, Q (.ok ()) s →
    wp Wk Q (freeAces aces) s
  | [], _, _, h => h
  | a :: as, _, _, h => by
    unfold freeAces
    apply wp_bind
    exact wk_localFree (wk_freeAces as h)

end

/-- The code left in the argument. -/
def leftCode {α : Type} (o : Except Stop (α × EcArg)) : Except Stop Code :=
  match o with
  | .ok x => .ok x.2.code
  | .error x => .error x

theorem wk_storePermissions (p : Path) (prms : Perms) (c : Code) :
    wp Wk (fun o s => Stores p.pathname prms s (leftCode o)) (storePermissions p prms (.ref c)) [] := by
  unfold storePermissions
  rintro (e | sd) s' hs
  · cases hs
    exact .noInfo e
  · cases hs
    dsimp only
    apply wp_bind
    refine wp_mono ?_ wk_storeAces
    rintro (x | ⟨r, aces⟩) s h
    · exact h
    · dsimp only
      apply wp_bind
      refine wk_freeAces aces ?_
      dsimp only
      apply wp_bind
      refine wk_localFree ?_
      cases r with
      | ok u => exact h
      | error e => exact h

end Win

/-- **C102**: `SetPermissions` makes the list that C59 is about and sets it, once; every failure is reported. -/
theorem c102_store (p : Path) (prms : Perms) (c : Code) (t : List Event) (o : Except Stop (Unit × EcArg))
    (he : Exec (Win.storePermissions p prms (.ref c)) t o) : Stores p.pathname prms (t.filter working) (leftCode o) :=
  wp_wk (wk_storePermissions p prms c) he

namespace Win

/-- What is computed from the rights of one trustee. -/
def rightsOf (tr : TrusteeType) (bit : Perms) (attr m : Mask) : Perms :=
  match trusteePermissions tr bit (.ok m) attr with
  | .ok x => x.1
  | .error _ => 0

theorem trusteePermissions_ok {tr : TrusteeType} (h : tr = .owner ∨ tr = .group ∨ tr = .others) (bit : Perms) (attr m : Mask) :
    trusteePermissions tr bit (.ok m) attr = .ok (rightsOf tr bit attr m, none) := by
  have : ∃ q, trusteePermissions tr bit (.ok m) attr = .ok (q, none) := by
    obtain ⟨k, hk⟩ : ∃ k, digit tr = some k := by
      rcases h with rfl | rfl | rfl <;> exact ⟨_, rfl⟩
    obtain ⟨q, hq, -⟩ := c59_map m tr k hk (if flagTest attr FILE_ATTRIBUTE_DIRECTORY then .directory else .regular)
      (by cases flagTest attr FILE_ATTRIBUTE_DIRECTORY <;> decide)
    simp only [trusteePermissions]
    rw [hq]
    exact ⟨_, rfl⟩
  obtain ⟨q, hq⟩ := this
  rw [hq]
  unfold rightsOf
  rw [hq]

theorem exec_trusteeRights {tr : TrusteeType} {kind : SecKind} {name : SecName} {bit : Perms} {sd : Nat} {attr : Mask} {who : Sid}
    (h : tr = .owner ∨ tr = .group ∨ tr = .others) (hw : trusteeFor sd who = (kind, name))
    {Q : Except Stop (Perms × Code) → List Event → Prop} {s : List Event}
    (h1 : ∀ w m, Asks sd who w (.ok m) → Q (.ok (rightsOf tr bit attr m, none)) (s ++ w))
    (h2 : ∀ w e, Asks sd who w (.error e) → Q (.ok (0, some e)) (s ++ w))
    (h3 : ∀ w, AsksNone sd who w → Q (.error (.fault .assertFail)) (s ++ w)) :
    wp Wk Q (trusteeRights tr kind name bit sd attr) s := by
  obtain ⟨rfl, rfl⟩ : (trusteeFor sd who).1 = kind ∧ (trusteeFor sd who).2 = name := by rw [hw]; exact ⟨rfl, rfl⟩
  rintro (e | m) s' hs
  · cases hs
    dsimp only
    split
    · rename_i he
      exact h2 _ _ (.acl e he)
    · rename_i he
      unfold captureErrno
      rw [Prog.call_bind]
      intro last s' hs
      cases hs
      cases last with
      | none => simpa [wp, working] using h3 _ (.mk e he)
      | some e' => simpa [wp, working, Perms.none] using h2 _ _ (.other e e' he)
  · cases hs
    have h0 := trusteePermissions_ok h bit attr m
    simp only [trusteePermissions] at h0
    have h4 := h1 _ m (.ok m)
    dsimp only
    cases hm : mapAccessMaskToPerms flagTest m tr (if flagTest attr FILE_ATTRIBUTE_DIRECTORY then .directory else .regular) with
    | error f => rw [hm] at h0; cases h0
    | ok v =>
      rw [hm] at h0
      have h5 : (if flagTest attr FILE_ATTRIBUTE_READONLY = true then flagClear v bit else v) = rightsOf tr bit attr m := by
        have h6 : Except.ok (ε := Fault) ((if flagTest attr FILE_ATTRIBUTE_READONLY = true then flagClear v bit else v), (none : Option WinCode)) =
            .ok (rightsOf tr bit attr m, none) := h0
        injection h6 with h6
        exact (Prod.mk.inj h6).1
      show Q (.ok ((if flagTest attr FILE_ATTRIBUTE_READONLY = true then flagClear v bit else v), none)) _
      rw [h5]
      exact h4

theorem failure_eq (e : Errno) : permissionsFailure e (.ref none) = ((failedRights e).1, .ref (failedRights e).2) := by
  have hi : isNotFoundError e.winValue = decide (e.winValue ∈ [2, 3, 15, 21, 53, 87, 123, 161]) := by
    rw [Bool.eq_iff_iff]
    simp only [isNotFoundError, Bool.or_eq_true, beq_iff_eq, decide_eq_true_eq, List.mem_cons, List.not_mem_nil, or_false]
    omega
  unfold permissionsFailure failedRights
  simp only [hi, decide_eq_true_eq]
  split
  · rfl
  · split
    · rename_i h; rw [if_pos (show e.winValue = 32 from h)]; rfl
    · rename_i h; rw [if_neg (show ¬ e.winValue = 32 from h)]; rfl

/-- What a run of `GetPermissions` leaves. -/
def leftBoth {α : Type} (o : Except Stop (α × EcArg)) : Except Stop (α × Code) :=
  match o with
  | .ok x => .ok (x.1, x.2.code)
  | .error x => .error x

theorem getPermissions_ok (same : Bool) (attr : Mask) (m : Sid → Mask) :
    getPermissions same attr (fun s => .ok (m s)) = .ok (rightsOf .owner Perms.ownerRead attr (m .owner) |||
      (if !same then rightsOf .group Perms.groupRead attr (m .group) else Perms.none) |||
      rightsOf .others Perms.othersRead attr (m .everyone), none) := by
  unfold getPermissions
  rw [trusteePermissions_ok (.inl rfl), trusteePermissions_ok (.inr (.inl rfl)), trusteePermissions_ok (.inr (.inr rfl))]
  cases same <;> rfl

theorem wk_fetchRights {p : Str} {attr : Mask} {sd : Nat} :
    wp Wk (fun o s => Fetches p attr s (leftBoth o)) (fetchRights sd attr (.ref none))
      [⟨.win (.sec (.getInfo p true)), (.ok sd : Except Errno Nat)⟩] := by
  unfold fetchRights
  apply wp_bind
  refine exec_trusteeRights (who := .owner) (.inl rfl) rfl (fun w m hw => ?_) (fun w e hw => ?_) (fun w hw => ?_)
  · dsimp only
    intro same s' hs
    cases hs
    apply wp_bind
    -- after the group
    have next : ∀ (w' : List Event) (m' : Mask), AsksGroup sd m' same w' →
        wp Wk (fun o s => Fetches p attr s (leftBoth o))
          ((trusteeRights .others .wellKnownGroup (.named "EVERYONE".toList) Perms.othersRead sd attr).bind fun o =>
            match o.2 with
            | some e => .ret (permissionsFailure e (.ref none))
            | none => .ret (rightsOf .owner Perms.ownerRead attr m |||
                (if !same then rightsOf .group Perms.groupRead attr m' else Perms.none) ||| o.1, .ref none))
          (⟨.win (.sec (.getInfo p true)), (.ok sd : Except Errno Nat)⟩ :: w ++ w') := by
      intro w' m' hw'
      apply wp_bind
      refine exec_trusteeRights (who := .everyone) (.inr (.inr rfl)) rfl (fun w'' m'' hw'' => ?_) (fun w'' e hw'' => ?_) (fun w'' hw'' => ?_)
      · refine .done sd w w' w'' (fun s => match s with | .owner => m | .group => m' | .everyone => m'') same _ hw hw' hw'' ?_
        rw [getPermissions_ok]
      · dsimp only
        rw [failure_eq]
        exact .everyone sd w w' w'' m m' same e hw hw' hw''
      · exact .noEveryone sd w w' w'' m m' same hw hw' hw''
    cases same with
    | true => exact next _ 0 .same
    | false =>
      refine exec_trusteeRights (who := .group) (.inr (.inl rfl)) rfl (fun w' m' hw' => ?_) (fun w' e hw' => ?_) (fun w' hw' => ?_)
      · have hl : (⟨.win (.sec (.getInfo p true)), (.ok sd : Except Errno Nat)⟩ :: w ++ ⟨.win (.sec (.equalSid sd)), false⟩ :: w' : List Event) =
            ([⟨.win (.sec (.getInfo p true)), (.ok sd : Except Errno Nat)⟩] ++ w ++ [⟨.win (.sec (.equalSid sd)), false⟩]) ++ w' := by simp
        have := next _ m' (.other w' hw')
        rw [hl] at this
        exact this
      · dsimp only
        rw [failure_eq]
        have := Fetches.group (p := p) (attr := attr) sd w w' m e hw hw'
        simpa [wp, leftBoth, working, EcArg.code] using this
      · have := Fetches.noGroup (p := p) (attr := attr) sd w w' m hw hw'
        simpa [wp, leftBoth, working, EcArg.code] using this
  · dsimp only
    rw [failure_eq]
    exact .owner sd w e hw
  · exact .noOwner sd w hw

theorem wk_fetchPermissions (p : Path) (attr : Mask) (c : Code) :
    wp Wk (fun o s => Fetches p.pathname attr s (leftBoth o)) (fetchPermissions p attr (.ref c)) [] := by
  unfold fetchPermissions
  rintro (e | sd) s' hs
  · cases hs
    dsimp only
    unfold captureErrno
    rw [Prog.call_bind]
    intro last s' hs
    cases hs
    have := Fetches.noInfo (p := p.pathname) (attr := attr) e last
    cases last with
    | none => exact this
    | some e' => exact this
  · cases hs
    dsimp only
    apply wp_finally
    refine wp_mono ?_ wk_fetchRights
    intro o s h
    exact ⟨fun _ => wk_localFree h, fun _ => h⟩

end Win

/-- **C102**: the runs of `GetPermissions`. -/
theorem c102_fetch (p : Path) (attr : Mask) (c : Code) (t : List Event) (o : Except Stop (Perms × EcArg))
    (he : Exec (Win.fetchPermissions p attr (.ref c)) t o) : Fetches p.pathname attr (t.filter working) (leftBoth o) :=
  wp_wk (wk_fetchPermissions p attr c) he

end Asap
