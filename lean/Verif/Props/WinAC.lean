import Verif.Props.WinAB
import Verif.Props.WinE

/-!
# C102, C103: permissions read back, and library calls with the calls of `src/windows/permissions.cpp`
-/

namespace Asap
namespace Spec

/-- The entry for `SetEntriesInAcl`, whatever descriptor the owner and the group are in. -/
def entryAny (a : SecAce) : Option Ace :=
  match a.name with
  | .ownerOf _ => some ⟨.owner, a.deny, a.access⟩
  | .groupOf _ => some ⟨.group, a.deny, a.access⟩
  | .named x => if x = "Everyone".toList then some ⟨.everyone, a.deny, a.access⟩ else none
  | .null => none

/-- Who is asked about. -/
def sidOf : SecName → Option Sid
  | .ownerOf _ => some .owner
  | .groupOf _ => some .group
  | .named x => if x = "EVERYONE".toList then some .everyone else none
  | .null => none

/-- The access list of one file, the lists in security descriptors and those made by `SetEntriesInAcl`. -/
structure Acls where
  file : List Ace
  info : Nat → List Ace
  made : Nat → List Ace

/-- What Windows does for the file `p` while nobody else changes its permissions, as assumed in C59; `same`: its owner is its
group, `member`: the owner is a member of the group. -/
def AclLaw (p : Str) (same member : Bool) (s : Acls) (e : Event) (s' : Acls) : Prop :=
  match e with
  | ⟨.win (.sec (.getInfo q _)), .ok sd⟩ => q = p → s' = { s with info := fun d => if d = sd then s.file else s.info d }
  | ⟨.win (.sec (.equalSid _)), b⟩ => b = same ∧ s' = s
  | ⟨.win (.sec (.rights sd _ n)), r⟩ => s' = s ∧ ∀ w, sidOf n = some w → r = .ok (rights (s.info sd) (holds member w))
  | ⟨.win (.sec (.setEntries l)), .ok a⟩ => s' = { s with made := fun d => if d = a then newAcl (l.filterMap entryAny) else s.made d }
  | ⟨.win (.sec (.setInfo q a)), .ok ()⟩ => q = p → s' = { s with file := s.made a }
  | _ => s' = s

end Spec
open Spec
namespace Win

theorem steps_working {p : Str} {same member : Bool} {s s' : Acls} {t : List Event}
    (h : Steps (AclLaw p same member) s t s') : Steps (AclLaw p same member) s (t.filter working) s' := by
  induction h with
  | nil s => exact .nil s
  | @cons s s1 s2 e t h1 h2 ih =>
    rw [List.filter_cons]
    cases hw : working e with
    | true => exact .cons h1 ih
    | false =>
      have : s1 = s := by
        obtain ⟨c, r⟩ := e
        cases c with
        | win w =>
          cases w with
          | sec x =>
            cases x with
            | free m => exact h1
            | alloc =>
              cases r with
              | none => cases hw
              | some m => exact h1
            | _ => cases hw
          | _ => cases hw
        | _ => cases hw
      subst this
      exact ih

theorem entryAny_of {sd : Nat} {a : SecAce} {x : Ace} (h : entryIn sd a = some x) : entryAny a = some x := by
  unfold entryIn at h
  unfold entryAny
  cases ha : a.name with
  | null => rw [ha] at h; exact h
  | named y => rw [ha] at h; exact h
  | ownerOf d => rw [ha] at h; dsimp only at h ⊢; split at h; exact h; cases h
  | groupOf d => rw [ha] at h; dsimp only at h ⊢; split at h; exact h; cases h

theorem entries_any {sd : Nat} {l : List SecAce} {es : List Ace} (h : l.map (entryIn sd) = es.map some) :
    l.filterMap entryAny = es := by
  induction l generalizing es with
  | nil =>
    cases es with
    | nil => rfl
    | cons e es => cases h
  | cons a l ih =>
    cases es with
    | nil => cases h
    | cons e es =>
      rw [List.map_cons, List.map_cons] at h
      injection h with h1 h2
      rw [List.filterMap_cons_some (entryAny_of h1), ih h2]

/-- After a successful `SetPermissions`, the file has the list of C59. -/
theorem stored_acl {p : Str} {prms : Perms} {same member : Bool} {s s' : Acls} {t : List Event}
    (h : Stores p prms t (.ok none)) (hs : Steps (AclLaw p same member) s t s') :
    s'.file = newAcl (explicitEntries prms same) := by
  generalize ho : (Except.ok none : Except Stop Code) = o at h
  cases h with
  | noInfo e => cases ho
  | noMemory sd w last hw => cases last <;> cases ho
  | noList sd same l e hl => cases ho
  | set sd b l acl r hl =>
    cases r with
    | error e => cases ho
    | ok u =>
      obtain ⟨s1, h1, hs⟩ := steps_cons.mp hs
      obtain ⟨s2, h2, hs⟩ := steps_cons.mp hs
      obtain ⟨s3, h3, hs⟩ := steps_cons.mp hs
      obtain ⟨s4, h4, hs⟩ := steps_cons.mp hs
      cases steps_nil.mp hs
      obtain ⟨rfl, rfl⟩ := h2
      have h3 : s3 = { s2 with made := fun d => if d = acl then newAcl (l.filterMap entryAny) else s2.made d } := h3
      have h4 : s' = { s3 with file := s3.made acl } := h4 rfl
      subst h3
      subst h4
      simp only [if_true]
      rw [entries_any hl]

theorem asks_rights {p : Str} {same member : Bool} {sd : Nat} {who : Sid} {w : List Event} {r : Except Errno Mask} {s s' : Acls}
    (h : Asks sd who w r) (hs : Steps (AclLaw p same member) s w s') : s' = s ∧ r = .ok (rights (s.info sd) (holds member who)) := by
  have hwho : sidOf (trusteeFor sd who).2 = some who := by cases who <;> rfl
  cases h with
  | ok m =>
    obtain ⟨s1, h1, hs⟩ := steps_cons.mp hs
    cases steps_nil.mp hs
    exact ⟨h1.1, h1.2 who hwho⟩
  | acl e he =>
    obtain ⟨s1, h1, hs⟩ := steps_cons.mp hs
    cases h1.2 who hwho
  | other e e' he =>
    obtain ⟨s1, h1, hs⟩ := steps_cons.mp hs
    cases h1.2 who hwho

/-- What `GetPermissions` answers, given the list of the file. -/
theorem fetched_perms {p : Str} {attr : Mask} {q : Perms} {same member : Bool} {s s' : Acls} {t : List Event}
    (h : Fetches p attr t (.ok (q, none))) (hs : Steps (AclLaw p same member) s t s') :
    getPermissions same attr (fun w => .ok (rights s.file (holds member w))) = .ok (q, none) := by
  have info : ∀ {sd : Nat} {w : List Event}, Steps (AclLaw p same member) s
      (⟨.win (.sec (.getInfo p true)), (.ok sd : Except Errno Nat)⟩ :: w) s' →
      ∃ s1, Steps (AclLaw p same member) s1 w s' ∧ s1.info sd = s.file := by
    intro sd w hs
    obtain ⟨s1, h1, hs⟩ := steps_cons.mp hs
    have h1 : s1 = { s with info := fun d => if d = sd then s.file else s.info d } := h1 rfl
    exact ⟨s1, hs, by rw [h1]; simp⟩
  generalize ho : (Except.ok (q, none) : Except Stop (Perms × Code)) = o at h
  cases h with
  | noInfo e last => cases last <;> cases ho
  | owner sd w e h1 =>
    obtain ⟨s1, hs, -⟩ := info hs
    cases (asks_rights h1 hs).2
  | group sd w w' m e h1 h2 =>
    obtain ⟨s1, hs, -⟩ := info hs
    obtain ⟨s2, hs, hs'⟩ := steps_append.mp hs
    obtain ⟨s3, -, hs'⟩ := steps_cons.mp hs'
    cases (asks_rights h2 hs').2
  | everyone sd w w' w'' m m' b e h1 h2 h3 =>
    rw [List.append_assoc] at hs
    obtain ⟨s1, hs, -⟩ := info hs
    obtain ⟨s2, hs, hs'⟩ := steps_append.mp hs
    obtain ⟨s3, hs', hs''⟩ := steps_append.mp hs'
    cases (asks_rights h3 hs'').2
  | noOwner sd w h1 => cases ho
  | noGroup sd w w' m h1 h2 => cases ho
  | noEveryone sd w w' w'' m m' b h1 h2 h3 => cases ho
  | done sd w w' w'' m b q' h1 h2 h3 h4 =>
    cases ho
    rw [List.append_assoc] at hs
    obtain ⟨s1, hs, hf⟩ := info hs
    obtain ⟨s2, hs, hs'⟩ := steps_append.mp hs
    obtain ⟨s3, hs', hs''⟩ := steps_append.mp hs'
    obtain ⟨rfl, hm1⟩ := asks_rights h1 hs
    have hg : s3 = s2 ∧ b = same ∧ (same = false → m .group = rights s.file (holds member .group)) := by
      cases h2 with
      | same =>
        obtain ⟨s4, h5, hs'⟩ := steps_cons.mp hs'
        cases steps_nil.mp hs'
        exact ⟨h5.2, h5.1, fun h => by rw [← h5.1] at h; cases h⟩
      | other w0 h0 =>
        obtain ⟨s4, h5, hq⟩ := steps_cons.mp hs'
        obtain ⟨h6, rfl⟩ := h5
        obtain ⟨rfl, hm⟩ := asks_rights h0 hq
        injection hm with hm
        exact ⟨rfl, h6, fun _ => by rw [hm, hf]⟩
    obtain ⟨rfl, rfl, hg⟩ := hg
    obtain ⟨-, hm3⟩ := asks_rights h3 hs''
    injection hm1 with hm1
    injection hm3 with hm3
    rw [getPermissions_ok] at h4 ⊢
    rw [← h4, hm1, hm3, hf]
    cases b with
    | true => rfl
    | false => rw [hg rfl]

end Win

/-- **C102**: what `SetPermissions` sets is what `GetPermissions` reads back, as C59 has it: the calls that both make carry it over. -/
theorem c102_readback (p : Path) (prms q : Perms) (attr : Mask) (c c' : Code) (same member : Bool) (s s' : Acls) (t t' : List Event)
    (h1 : Exec (Win.storePermissions p prms (.ref c)) t (.ok ((), .ref none)))
    (h2 : Exec (Win.fetchPermissions p attr (.ref c')) t' (.ok (q, .ref none)))
    (hl : Steps (AclLaw p.pathname same member) s (t ++ t') s') : readBack prms same member attr = .ok (q, none) := by
  obtain ⟨s1, hs, hs'⟩ := steps_append.mp hl
  have h3 := Win.stored_acl (c102_store p prms c t _ h1) (Win.steps_working hs)
  have h4 := Win.fetched_perms (c102_fetch p attr c' t' _ h2) (Win.steps_working hs')
  rw [h3] at h4
  exact h4

namespace Spec

/-- `GetPermissions` or `SetPermissions` taken as one call. -/
def wholeSec (e : Event) : Prop :=
  match e.call with
  | .win (.getPerms _ _) | .win (.setPerms _ _) => True
  | _ => False

/-- `t'` is `t` with the calls of each `GetPermissions` and `SetPermissions` put together. -/
inductive Folds : List Event → List Event → Prop where
  | nil : Folds [] []
  | other (e : Event) {t t' : List Event} : ¬ wholeSec e → Folds t t' → Folds (e :: t) (e :: t')
  | fetch (w : List Event) (p : Str) (attr : Mask) (q : Perms) (c : Code) {t t' : List Event} :
      Fetches p attr (w.filter working) (.ok (q, c)) → Folds t t' →
      Folds (w ++ t) (⟨.win (.getPerms p attr), (match c with
        | some e => .error e
        | none => .ok q : Except Errno Mode)⟩ :: t')
  | store (w : List Event) (p : Str) (prms : Perms) (c : Code) {t t' : List Event} :
      Stores p prms (w.filter working) (.ok c) → Folds t t' →
      Folds (w ++ t) (⟨.win (.setPerms p prms), (match c with
        | some e => .error e
        | none => .ok () : Except Errno Unit)⟩ :: t')

/-- A `GetPermissions` or `SetPermissions` in which an assertion fails: there is an error to be reported but no last error. -/
def FailsAssert (w : List Event) : Prop :=
  (∃ p attr, Fetches p attr (w.filter working) (.error (.fault .assertFail))) ∨
    ∃ p prms, Stores p prms (w.filter working) (.error (.fault .assertFail))

/-- `WinLaw`, with the calls for permissions, and with the last error (the second component): a failing call for permissions sets
it, and getting or freeing memory does not. -/
def SecLaw (D : WinDisk) (s : Handles × Code) (e : Event) (s' : Handles × Code) : Prop :=
  match e with
  | ⟨.win (.sec (.getInfo p _)), .error e⟩ => s' = (s.1, some e) ∧ (Absent e → D.look p = none)
  | ⟨.win (.sec (.rights _ _ _)), .error e⟩ => s' = (s.1, some e)
  | ⟨.win (.sec .alloc), none⟩ => s'.1 = s.1 ∧ s'.2 ≠ none
  | ⟨.win (.sec .alloc), some _⟩ => s' = s
  | ⟨.win (.sec (.free _)), _⟩ => s' = s
  | ⟨.win .lastError, r⟩ => r = s.2 ∧ s' = s
  | e => WinLaw D s.1 e s'.1

/-- `WinWilling`, with the calls for permissions. -/
def SecWilling (e : Event) : Prop :=
  match e with
  | ⟨.win (.sec (.getInfo _ _)), .error e⟩ | ⟨.win (.sec (.rights _ _ _)), .error e⟩ => Absent e
  | e => WinWilling e

end Spec
open Spec
namespace Win

theorem unfoldSec_other {α : Type} {c : Sys} {k : c.Ret → Prog α} (h : ∀ r, ¬ wholeSec ⟨c, r⟩) :
    unfoldSec (.call c k) = .call c fun r => unfoldSec (k r) := by
  cases c with
  | win w =>
    cases w with
    | getPerms p a => exact absurd trivial (h (.error .EPERM))
    | setPerms p a => exact absurd trivial (h (.error .EPERM))
    | _ => rfl
  | _ => rfl

theorem fetches_error {p : Str} {attr : Mask} {t : List Event} {x : Stop} (h : Fetches p attr t (.error x)) :
    x = .fault .assertFail := by
  generalize ho : (Except.error x : Except Stop (Perms × Code)) = o at h
  cases h with
  | noInfo e last => cases last <;> cases ho; rfl
  | _ => cases ho; try rfl

theorem stores_error {p : Str} {prms : Perms} {t : List Event} {x : Stop} (h : Stores p prms t (.error x)) :
    x = .fault .assertFail := by
  generalize ho : (Except.error x : Except Stop Code) = o at h
  cases h with
  | noMemory sd w last hw => cases last <;> cases ho; rfl
  | set sd b l acl r hl => cases r <;> cases ho
  | _ => cases ho

theorem seen_eq {α : Type} (x : α × EcArg) : seen x = (match x.2.code with
    | some e => .error e
    | none => .ok x.1) := rfl

theorem replay {α : Type} (p : Prog α) (t : List Event) (o : Except Stop α) (h : Exec (unfoldSec p) t o) :
    (∃ t', Exec p t' o ∧ Folds t t') ∨
      o = .error (.fault .assertFail) ∧ ∃ t0 w t', t = t0 ++ w ∧ Folds t0 t' ∧ FailsAssert w := by
  induction p generalizing t with
  | ret a => cases h; exact .inl ⟨[], .ret a, .nil⟩
  | stop x => cases h; exact .inl ⟨[], .stop x, .nil⟩
  | call c k ih =>
    by_cases hc : ∀ r, ¬ wholeSec ⟨c, r⟩
    · rw [unfoldSec_other hc] at h
      obtain ⟨r, u, rfl, hu⟩ := exec_call.mp h
      rcases ih r u hu with ⟨t', h1, h2⟩ | ⟨ho, t0, w, t', rfl, h1, h2⟩
      · exact .inl ⟨⟨c, r⟩ :: t', .call _ _ _ _ _ h1, .other _ (hc r) h2⟩
      · exact .inr ⟨ho, ⟨c, r⟩ :: t0, w, _, rfl, .other _ (hc r) h1, h2⟩
    · cases c with
      | win w =>
        cases w with
        | getPerms p a =>
          have h : Exec ((fetchPermissions ⟨p, [], .filename⟩ a (.ref none)).bind fun x => unfoldSec (k (seen x))) t o := h
          rcases exec_bind.mp h with ⟨x, h1, rfl⟩ | ⟨x, w, t, rfl, h1, h2⟩
          · have h3 := c102_fetch _ _ _ _ _ h1
            cases fetches_error h3
            exact .inr ⟨rfl, [], t, [], rfl, .nil, .inl ⟨p, a, h3⟩⟩
          · have h3 := c102_fetch _ _ _ _ _ h1
            rcases ih (seen x) t h2 with ⟨t', h4, h5⟩ | ⟨ho, t0, w', t', rfl, h4, h5⟩
            · exact .inl ⟨_, .call _ _ _ _ _ h4, .fetch w p a x.1 x.2.code h3 h5⟩
            · exact .inr ⟨ho, w ++ t0, w', _, (List.append_assoc ..).symm, .fetch w p a x.1 x.2.code h3 h4, h5⟩
        | setPerms p m =>
          have h : Exec ((storePermissions ⟨p, [], .filename⟩ m (.ref none)).bind fun x => unfoldSec (k (seen x))) t o := h
          rcases exec_bind.mp h with ⟨x, h1, rfl⟩ | ⟨x, w, t, rfl, h1, h2⟩
          · have h3 := c102_store _ _ _ _ _ h1
            cases stores_error h3
            exact .inr ⟨rfl, [], t, [], rfl, .nil, .inr ⟨p, m, h3⟩⟩
          · have h3 := c102_store _ _ _ _ _ h1
            rcases ih (seen x) t h2 with ⟨t', h4, h5⟩ | ⟨ho, t0, w', t', rfl, h4, h5⟩
            · exact .inl ⟨_, .call _ _ _ _ _ h4, .store w p m x.2.code h3 h5⟩
            · exact .inr ⟨ho, w ++ t0, w', _, (List.append_assoc ..).symm, .store w p m x.2.code h3 h4, h5⟩
        | _ => exact absurd (fun _ => id) hc
      | _ => exact absurd (fun _ => id) hc

theorem steps_secWorking {D : WinDisk} {s s' : Handles × Code} {t : List Event} (h : Steps (SecLaw D) s t s') :
    Steps (SecLaw D) s (t.filter working) s' := by
  induction h with
  | nil s => exact .nil s
  | @cons s s1 s2 e t h1 h2 ih =>
    rw [List.filter_cons]
    cases hw : working e with
    | true => exact .cons h1 ih
    | false =>
      have : s1 = s := by
        obtain ⟨c, r⟩ := e
        cases c with
        | win w =>
          cases w with
          | sec x =>
            cases x with
            | free m => exact h1
            | alloc =>
              cases r with
              | none => cases hw
              | some m => exact h1
            | _ => cases hw
          | _ => cases hw
        | _ => cases hw
      subst this
      exact ih

/-- One question leaves the handles alone; the error is the last error. -/
theorem asks_law {D : WinDisk} {sd : Nat} {who : Sid} {w : List Event} {r : Except Errno Mask} {s s' : Handles × Code}
    (h : Asks sd who w r) (hs : Steps (SecLaw D) s w s') : s'.1 = s.1 := by
  cases h with
  | ok m =>
    obtain ⟨s1, h1, hs⟩ := steps_cons.mp hs
    cases steps_nil.mp hs
    exact h1
  | acl e he =>
    obtain ⟨s1, h1, hs⟩ := steps_cons.mp hs
    cases steps_nil.mp hs
    cases h1
    rfl
  | other e e' he =>
    obtain ⟨s1, h1, hs⟩ := steps_cons.mp hs
    obtain ⟨s2, h2, hs⟩ := steps_cons.mp hs
    cases steps_nil.mp hs
    cases h1
    cases h2.2
    rfl

theorem asksNone_law {D : WinDisk} {sd : Nat} {who : Sid} {w : List Event} {s s' : Handles × Code}
    (h : AsksNone sd who w) (hs : Steps (SecLaw D) s w s') : False := by
  cases h with
  | mk e he =>
    obtain ⟨s1, h1, hs⟩ := steps_cons.mp hs
    obtain ⟨s2, h2, hs⟩ := steps_cons.mp hs
    cases h1
    cases h2.1

theorem asks_willing {sd : Nat} {who : Sid} {w : List Event} {e : Errno} {D : WinDisk} {s s' : Handles × Code}
    (h : Asks sd who w (.error e)) (hs : Steps (SecLaw D) s w s') (hw : ∀ x ∈ w, SecWilling x) : Absent e := by
  generalize hr : (Except.error e : Except Errno Mask) = r at h
  cases h with
  | ok m => cases hr
  | acl e0 he =>
    have : Absent e0 := hw _ (List.mem_singleton.mpr rfl)
    unfold Absent at this
    rw [he] at this
    exact absurd this (by decide)
  | other e0 e1 he =>
    cases hr
    have h0 : Absent e0 := hw _ (List.mem_cons_self ..)
    obtain ⟨s1, h1, hs⟩ := steps_cons.mp hs
    obtain ⟨s2, h2, hs⟩ := steps_cons.mp hs
    cases h1
    cases h2.1
    exact h0

theorem asksGroup_law {D : WinDisk} {sd : Nat} {m : Mask} {b : Bool} {w : List Event} {s s' : Handles × Code}
    (h : AsksGroup sd m b w) (hs : Steps (SecLaw D) s w s') : s'.1 = s.1 := by
  cases h with
  | same =>
    obtain ⟨s1, h1, hs⟩ := steps_cons.mp hs
    cases steps_nil.mp hs
    exact h1
  | other w h =>
    obtain ⟨s1, h1, hs⟩ := steps_cons.mp hs
    exact (asks_law h hs).trans h1

theorem failedRights_error {e e' : Errno} {q : Perms} (h : failedRights e = (q, some e')) : e' = e ∧ ¬ Absent e := by
  unfold failedRights at h
  split at h
  · cases h
  · split at h
    · cases h
    · cases h
      exact ⟨rfl, by assumption⟩

theorem fetches_law {D : WinDisk} {p : Str} {attr : Mask} {w : List Event} {o : Except Stop (Perms × Code)} {s s' : Handles × Code}
    (h : Fetches p attr w o) (hs : Steps (SecLaw D) s w s') :
    s'.1 = s.1 ∧ ∃ q c, o = .ok (q, c) ∧ ∀ e, c = some e → (Absent e → D.look p = none) ∧ ((∀ x ∈ w, SecWilling x) → Absent e) := by
  have fr : ∀ {e : Errno}, ((∀ x ∈ w, SecWilling x) → Absent e) → ∃ q c, (Except.ok (failedRights e) : Except Stop (Perms × Code)) = .ok (q, c) ∧
      ∀ e', c = some e' → (Absent e' → D.look p = none) ∧ ((∀ x ∈ w, SecWilling x) → Absent e') := by
    intro e hw
    refine ⟨(failedRights e).1, (failedRights e).2, rfl, fun e' he => ?_⟩
    have hq : failedRights e = ((failedRights e).1, some e') := by rw [← he]
    obtain ⟨rfl, hn⟩ := failedRights_error hq
    exact ⟨fun ha => absurd ha hn, hw⟩
  have info : ∀ {sd : Nat} {w : List Event}, Steps (SecLaw D) s (⟨.win (.sec (.getInfo p true)), (.ok sd : Except Errno Nat)⟩ :: w) s' →
      ∃ s1, s1.1 = s.1 ∧ Steps (SecLaw D) s1 w s' := by
    intro sd w hs
    obtain ⟨s1, h1, hs⟩ := steps_cons.mp hs
    exact ⟨s1, h1, hs⟩
  cases h with
  | noInfo e last =>
    obtain ⟨s1, h1, hs⟩ := steps_cons.mp hs
    obtain ⟨s2, h2, hs⟩ := steps_cons.mp hs
    cases steps_nil.mp hs
    obtain ⟨h1, ha⟩ := h1
    cases h1
    obtain ⟨h2, h3⟩ := h2
    cases h2
    cases h3
    exact ⟨rfl, _, _, rfl, fun e' he => by cases he; exact ⟨ha, fun hw => hw _ (List.mem_cons_self ..)⟩⟩
  | owner sd w e h1 =>
    obtain ⟨s1, e1, hs⟩ := info hs
    exact ⟨(asks_law h1 hs).trans e1, fr fun hw => asks_willing h1 hs fun x hx => hw x (List.mem_cons_of_mem _ hx)⟩
  | group sd w w' m e h1 h2 =>
    obtain ⟨s1, e1, hs⟩ := info hs
    obtain ⟨s2, hs, hs2⟩ := steps_append.mp hs
    obtain ⟨s3, e3, hs3⟩ := steps_cons.mp hs2
    exact ⟨(asks_law h2 hs3).trans (Eq.trans e3 ((asks_law h1 hs).trans e1)), fr fun hw => asks_willing h2 hs3 fun x hx => hw x
      (List.mem_append_right _ (List.mem_cons_of_mem _ hx))⟩
  | everyone sd w w' w'' m m' b e h1 h2 h3 =>
    rw [List.append_assoc] at hs
    obtain ⟨s1, e1, hs⟩ := info hs
    obtain ⟨s2, hs, hs2⟩ := steps_append.mp hs
    obtain ⟨s3, hs2, hs3⟩ := steps_append.mp hs2
    exact ⟨(asks_law h3 hs3).trans ((asksGroup_law h2 hs2).trans ((asks_law h1 hs).trans e1)), fr fun hw => asks_willing h3 hs3
      fun x hx => hw x (List.mem_append_right _ hx)⟩
  | done sd w w' w'' m b q h1 h2 h3 h4 =>
    rw [List.append_assoc] at hs
    obtain ⟨s1, e1, hs⟩ := info hs
    obtain ⟨s2, hs, hs2⟩ := steps_append.mp hs
    obtain ⟨s3, hs2, hs3⟩ := steps_append.mp hs2
    exact ⟨(asks_law h3 hs3).trans ((asksGroup_law h2 hs2).trans ((asks_law h1 hs).trans e1)), _, _, rfl, fun e he => by cases he⟩
  | noOwner sd w h1 =>
    obtain ⟨s1, e1, hs⟩ := info hs
    exact (asksNone_law h1 hs).elim
  | noGroup sd w w' m h1 h2 =>
    obtain ⟨s1, e1, hs⟩ := info hs
    obtain ⟨s2, hs, hs2⟩ := steps_append.mp hs
    obtain ⟨s3, e3, hs3⟩ := steps_cons.mp hs2
    exact (asksNone_law h2 hs3).elim
  | noEveryone sd w w' w'' m m' b h1 h2 h3 =>
    rw [List.append_assoc] at hs
    obtain ⟨s1, e1, hs⟩ := info hs
    obtain ⟨s2, hs, hs2⟩ := steps_append.mp hs
    obtain ⟨s3, hs2, hs3⟩ := steps_append.mp hs2
    exact (asksNone_law h3 hs3).elim

theorem stores_law {D : WinDisk} {p : Str} {prms : Perms} {w : List Event} {o : Except Stop Code} {s s' : Handles × Code}
    (h : Stores p prms w o) (hs : Steps (SecLaw D) s w s') : s'.1 = s.1 ∧ ∃ c, o = .ok c := by
  cases h with
  | noInfo e =>
    obtain ⟨s1, h1, hs⟩ := steps_cons.mp hs
    cases steps_nil.mp hs
    cases h1.1
    exact ⟨rfl, _, rfl⟩
  | noMemory sd w last hw =>
    obtain ⟨s1, h1, hs⟩ := steps_cons.mp hs
    obtain ⟨s2, hs, hs2⟩ := steps_append.mp hs
    have h2 : s2.1 = s1.1 := by
      rcases hw with rfl | ⟨b, rfl⟩
      · cases steps_nil.mp hs; rfl
      · obtain ⟨s3, h3, hs⟩ := steps_cons.mp hs
        cases steps_nil.mp hs
        exact h3
    obtain ⟨s3, h3, hs2⟩ := steps_cons.mp hs2
    obtain ⟨s4, h4, hs2⟩ := steps_cons.mp hs2
    cases steps_nil.mp hs2
    obtain ⟨h4, h5⟩ := h4
    cases h5
    cases last with
    | none => exact absurd h4.symm h3.2
    | some e => exact ⟨h3.1.trans (h2.trans h1), _, rfl⟩
  | noList sd b l e hl =>
    obtain ⟨s1, h1, hs⟩ := steps_cons.mp hs
    obtain ⟨s2, h2, hs⟩ := steps_cons.mp hs
    obtain ⟨s3, h3, hs⟩ := steps_cons.mp hs
    cases steps_nil.mp hs
    exact ⟨Eq.trans h3 (Eq.trans h2 h1), _, rfl⟩
  | set sd b l acl r hl =>
    obtain ⟨s1, h1, hs⟩ := steps_cons.mp hs
    obtain ⟨s2, h2, hs⟩ := steps_cons.mp hs
    obtain ⟨s3, h3, hs⟩ := steps_cons.mp hs
    obtain ⟨s4, h4, hs⟩ := steps_cons.mp hs
    cases steps_nil.mp hs
    refine ⟨Eq.trans h4 (Eq.trans h3 (Eq.trans h2 h1)), ?_⟩
    cases r <;> exact ⟨_, rfl⟩

/-- Any other call obeys the law without the last error. -/
theorem secLaw_other {D : WinDisk} {s s' : Handles × Code} {e : Event} (h : SecLaw D s e s') : WinLaw D s.1 e s'.1 := by
  obtain ⟨c, r⟩ := e
  cases c with
  | win w =>
    cases w with
    | sec x =>
      cases x with
      | getInfo p d =>
        cases r with
        | error e => have := h.1; cases this; exact rfl
        | ok m => exact h
      | rights sd k n =>
        cases r with
        | error e => cases h; exact rfl
        | ok m => exact h
      | alloc =>
        cases r with
        | none => exact h.1
        | some m => cases h; exact rfl
      | free m => cases h; exact rfl
      | _ => exact h
    | lastError => have := h.2; cases this; exact rfl
    | _ => exact h
  | _ => exact h

theorem secWilling_other {e : Event} (h : SecWilling e) : WinWilling e := by
  obtain ⟨c, r⟩ := e
  cases c with
  | win w =>
    cases w with
    | sec x => exact trivial
    | _ => exact h
  | _ => exact h

theorem folds_law {D : WinDisk} {t t' : List Event} (h : Folds t t') {s s' : Handles × Code} (hs : Steps (SecLaw D) s t s') :
    Steps (WinLaw D) s.1 t' s'.1 ∧ ((∀ e ∈ t, SecWilling e) → ∀ e ∈ t', WinWilling e) := by
  induction h generalizing s with
  | nil => cases steps_nil.mp hs; exact ⟨.nil _, fun _ _ h => nomatch h⟩
  | other e hn h ih =>
    obtain ⟨s1, h1, hs⟩ := steps_cons.mp hs
    obtain ⟨h2, h3⟩ := ih hs
    refine ⟨.cons (secLaw_other h1) h2, fun hw x hx => ?_⟩
    rcases List.mem_cons.mp hx with rfl | hx
    · exact secWilling_other (hw _ (List.mem_cons_self ..))
    · exact h3 (fun e he => hw e (List.mem_cons_of_mem _ he)) x hx
  | fetch w p a q c hf h ih =>
    obtain ⟨s1, h1, hs⟩ := steps_append.mp hs
    obtain ⟨h2, h3⟩ := ih hs
    obtain ⟨h4, q', c', hqc, h5⟩ := fetches_law hf (steps_secWorking h1)
    cases hqc
    rw [h4] at h2
    refine ⟨.cons ⟨rfl, ?_⟩ h2, fun hw x hx => ?_⟩
    · cases c with
      | none => exact trivial
      | some e => exact (h5 e rfl).1
    · rcases List.mem_cons.mp hx with rfl | hx
      · cases c with
        | none => exact trivial
        | some e => exact (h5 e rfl).2 fun x hx => hw x (List.mem_append_left _ (List.mem_filter.mp hx).1)
      · exact h3 (fun e he => hw e (List.mem_append_right _ he)) x hx
  | store w p m c hf h ih =>
    obtain ⟨s1, h1, hs⟩ := steps_append.mp hs
    obtain ⟨h2, h3⟩ := ih hs
    obtain ⟨h4, -⟩ := stores_law hf (steps_secWorking h1)
    rw [h4] at h2
    refine ⟨.cons rfl h2, fun hw x hx => ?_⟩
    rcases List.mem_cons.mp hx with rfl | hx
    · exact trivial
    · exact h3 (fun e he => hw e (List.mem_append_right _ he)) x hx

end Win

/-- **C103**: a library call with the calls of `GetPermissions` and `SetPermissions` does what it does with these as one call each,
for any answers of the system; or else an assertion fails in one of them for want of a last error. -/
theorem c103_replay {α : Type} (p : Prog α) (t : List Event) (o : Except Stop α) (h : Exec (Win.unfoldSec p) t o) :
    (∃ t', Exec p t' o ∧ Folds t t') ∨
      o = .error (.fault .assertFail) ∧ ∃ t0 w t', t = t0 ++ w ∧ Folds t0 t' ∧ FailsAssert w := Win.replay p t o h

/-- **C103**: where failing calls for permissions set the last error, no assertion fails, and what is proved of library calls that
obey `WinLaw` carries over. -/
theorem c103_law {α : Type} (D : WinDisk) (p : Prog α) (t : List Event) (o : Except Stop α) (s s' : Handles × Code)
    (h : Exec (Win.unfoldSec p) t o) (hl : Steps (SecLaw D) s t s') :
    ∃ t', Exec p t' o ∧ Steps (WinLaw D) s.1 t' s'.1 ∧ ((∀ e ∈ t, SecWilling e) → ∀ e ∈ t', WinWilling e) := by
  rcases c103_replay p t o h with ⟨t', h1, h2⟩ | ⟨-, t0, w, t', rfl, -, h2⟩
  · exact ⟨t', h1, Win.folds_law h2 hl⟩
  · obtain ⟨s1, -, hl⟩ := steps_append.mp hl
    rcases h2 with ⟨p, a, h2⟩ | ⟨p, a, h2⟩
    · obtain ⟨-, q, c, h3, -⟩ := Win.fetches_law h2 (Win.steps_secWorking hl)
      cases h3
    · obtain ⟨-, c, h3⟩ := Win.stores_law h2 (Win.steps_secWorking hl)
      cases h3

/-- **C103** for `status`: C65 with the calls of `GetPermissions`. -/
theorem c103_status (D : WinDisk) (p : Path) (c : Code) (t : List Event) (o : Except Stop (FStatus × EcArg)) (last : Code)
    (s : Handles × Code) (h : Exec (Win.unfoldSec (Win.status p (.ref c))) t o) (hl : Steps (SecLaw D) (noHandles, last) t s) :
    Says (D.goal p.pathname ≠ none) (fileKind (D.goal p.pathname)) (∀ e ∈ t, SecWilling e) o := by
  obtain ⟨t', h1, h2, h3⟩ := c103_law D _ t o _ _ h hl
  obtain ⟨st, ec, h4, h5, h6⟩ := c65_status D p c t' o _ h1 h2
  exact ⟨st, ec, h4, h5, fun hw => h6 (h3 hw)⟩

/-- **C103** for `exists`. -/
theorem c103_exists (D : WinDisk) (p : Path) (c : Code) (t : List Event) (o : Except Stop (Bool × EcArg)) (last : Code)
    (s : Handles × Code) (h : Exec (Win.unfoldSec (Win.existsP p (.ref c))) t o) (hl : Steps (SecLaw D) (noHandles, last) t s) :
    ∃ b ec, o = .ok (b, ec) ∧ (b = false → ec = .ref none → D.goal p.pathname = none) ∧
      ((∀ e ∈ t, SecWilling e) → b = (D.goal p.pathname).isSome ∧ ec = .ref none) := by
  obtain ⟨t', h1, h2, h3⟩ := c103_law D _ t o _ _ h hl
  obtain ⟨b, ec, h4, h5, h6⟩ := c65_exists D p c t' o _ h1 h2
  exact ⟨b, ec, h4, h5, fun hw => h6 (h3 hw)⟩

/-- Every call has an answer that obeys the law. -/
theorem secLaw_total (D : WinDisk) (s : Handles × Code) (c : Sys) : ∃ (r : c.Ret) (s' : Handles × Code), SecLaw D s ⟨c, r⟩ s' := by
  have h : ¬ Absent (.other 50) := by decide
  have other : ∀ c : Sys, (∀ (r : c.Ret) (s' : Handles × Code), WinLaw D s.1 ⟨c, r⟩ s'.1 → SecLaw D s ⟨c, r⟩ s') →
      ∃ (r : c.Ret) (s' : Handles × Code), SecLaw D s ⟨c, r⟩ s' := by
    intro c hc
    obtain ⟨r, hs, h⟩ := winLaw_total D s.1 c
    exact ⟨r, (hs, none), hc _ _ h⟩
  cases c with
  | win w =>
    cases w with
    | sec x =>
      cases x with
      | getInfo p d => exact ⟨(.error (.other 50) : Except Errno Nat), _, rfl, fun x => absurd x h⟩
      | rights sd k n => exact ⟨(.error (.other 50) : Except Errno Mask), _, rfl⟩
      | alloc => exact ⟨(some 0 : Option Nat), s, rfl⟩
      | free m => exact ⟨(() : Unit), s, rfl⟩
      | _ => exact other _ fun _ _ h => h
    | lastError => exact ⟨s.2, s, rfl, rfl⟩
    | _ => exact other _ fun _ _ h => h
  | _ => exact other _ fun _ _ h => h

/-! ## Cases -/

namespace Spec

/-- Setting the permissions 0640 of `f`: the calls made and their answers. -/
def storeTrace : List Event :=
  [⟨.win (.sec (.getInfo "f".toList false)), (.ok 1 : Except Errno Nat)⟩, ⟨.win (.sec (.equalSid 1)), false⟩,
    ⟨.win (.sec .alloc), (some 2 : Option Nat)⟩, ⟨.win (.sec .alloc), (some 3 : Option Nat)⟩,
    ⟨.win (.sec (.setEntries [⟨.user, .ownerOf 1, false, accessOf false true false⟩,
      ⟨.group, .groupOf 1, false, accessOf true false false⟩])), (.ok 4 : Except Errno Nat)⟩,
    ⟨.win (.sec (.setInfo "f".toList 4)), (.ok () : Except Errno Unit)⟩, ⟨.win (.sec (.free 4)), ()⟩,
    ⟨.win (.sec (.free 3)), ()⟩, ⟨.win (.sec (.free 2)), ()⟩, ⟨.win (.sec (.free 1)), ()⟩]

/-- Reading them. -/
def fetchTrace : List Event :=
  [⟨.win (.sec (.getInfo "f".toList true)), (.ok 5 : Except Errno Nat)⟩,
    ⟨.win (.sec (.rights 5 .user (.ownerOf 5))), (.ok (rights (newAcl (explicitEntries 0o640#32 false)) (holds true .owner)) : Except Errno Mask)⟩,
    ⟨.win (.sec (.equalSid 5)), false⟩,
    ⟨.win (.sec (.rights 5 .group (.groupOf 5))), (.ok (rights (newAcl (explicitEntries 0o640#32 false)) (holds true .group)) : Except Errno Mask)⟩,
    ⟨.win (.sec (.rights 5 .wellKnownGroup (.named "EVERYONE".toList))),
      (.ok (rights (newAcl (explicitEntries 0o640#32 false)) (holds true .everyone)) : Except Errno Mask)⟩,
    ⟨.win (.sec (.free 5)), ()⟩]

end Spec

/-- The permissions 0640 are set and read back. -/
example : Exec (Win.storePermissions (mkPath .windows "f".toList) 0o640#32 (.ref none)) storeTrace (.ok ((), .ref none)) ∧
    Exec (Win.fetchPermissions (mkPath .windows "f".toList) 0x20#32 (.ref none)) fetchTrace (.ok (0o640#32, .ref none)) ∧
    ∃ s s', Steps (AclLaw "f".toList false true) s (storeTrace ++ fetchTrace) s' :=
  ⟨feed_exec (by rfl), feed_exec (by rfl), ⟨[], fun _ => [], fun _ => []⟩, _,
    .cons (fun _ => rfl) (.cons ⟨rfl, rfl⟩ (.cons rfl (.cons rfl (.cons rfl (.cons (fun _ => rfl) (.cons rfl (.cons rfl (.cons rfl
      (.cons rfl (.cons (fun _ => rfl) (.cons ⟨rfl, fun w h => by cases h; rfl⟩ (.cons ⟨rfl, rfl⟩
        (.cons ⟨rfl, fun w h => by cases h; rfl⟩ (.cons ⟨rfl, fun w h => by cases h; rfl⟩ (.cons rfl (.nil _))))))))))))))))⟩

/-- No memory for the second entry: the error is reported and what was got is freed. -/
example : Exec (Win.storePermissions (mkPath .windows "f".toList) 0o640#32 (.ref none))
    [⟨.win (.sec (.getInfo "f".toList false)), (.ok 1 : Except Errno Nat)⟩, ⟨.win (.sec (.equalSid 1)), false⟩,
      ⟨.win (.sec .alloc), (some 2 : Option Nat)⟩, ⟨.win (.sec .alloc), (none : Option Nat)⟩,
      ⟨.win .lastError, (some (.other 1008) : Code)⟩, ⟨.win (.sec (.free 2)), ()⟩, ⟨.win (.sec (.free 1)), ()⟩]
    (.ok ((), .ref (some (.other 1008)))) := feed_exec (by rfl)

/-- **C102 is violated**: the error of `GetNamedSecurityInfoW` is the value it returns, here 5, access denied; `GetPermissions`
reports the last error instead, here that of an earlier call. Without a last error an assertion fails. A file in use is no error. -/
theorem c102_violated :
    Exec (Win.fetchPermissions (mkPath .windows "f".toList) 0x20#32 (.ref none))
      [⟨.win (.sec (.getInfo "f".toList true)), (.error .EACCES : Except Errno Nat)⟩, ⟨.win .lastError, (some .ENOENT : Code)⟩]
      (.ok (0xFFFF#32, .ref (some .ENOENT))) ∧
    Exec (Win.fetchPermissions (mkPath .windows "f".toList) 0x20#32 (.ref none))
      [⟨.win (.sec (.getInfo "f".toList true)), (.error .EACCES : Except Errno Nat)⟩, ⟨.win .lastError, (none : Code)⟩]
      (.error (.fault .assertFail)) ∧
    Exec (Win.fetchPermissions (mkPath .windows "f".toList) 0x20#32 (.ref none))
      [⟨.win (.sec (.getInfo "f".toList true)), (.ok 1 : Except Errno Nat)⟩,
        ⟨.win (.sec (.rights 1 .user (.ownerOf 1))), (.error (.ofWin 32) : Except Errno Mask)⟩,
        ⟨.win .lastError, (some (.ofWin 32) : Code)⟩, ⟨.win (.sec (.free 1)), ()⟩]
      (.ok (0xFFFF#32, .ref none)) :=
  ⟨feed_exec (by rfl), feed_exec (by rfl), feed_exec (by rfl)⟩

/-- `status` of the link `l` on the sample disk, with the calls of `GetPermissions`, obeys the law and fails nowhere. -/
example : ∃ t s, Exec (Win.unfoldSec (Win.status (mkPath .windows "l".toList) (.ref none))) t (.ok (⟨.directory, 0o777#32⟩, .ref none)) ∧
    Steps (SecLaw sampleDisk) (noHandles, none) t s ∧ ∀ e ∈ t, SecWilling e := by
  refine ⟨[⟨.win (.getAttrs "l".toList), (.ok 0x410#32 : Except Errno (BitVec 32))⟩,
      ⟨.win (.createFile "l".toList Win.follow), (.ok 4 : Except Errno Nat)⟩,
      ⟨.win (.attrTag 4), (.ok 0x10#32 : Except Errno (BitVec 32))⟩,
      ⟨.win (.closeHandle 4), (.ok () : Except Errno Unit)⟩,
      ⟨.win (.sec (.getInfo "l".toList true)), (.ok 5 : Except Errno Nat)⟩,
      ⟨.win (.sec (.rights 5 .user (.ownerOf 5))), (.ok 0x1f01ff#32 : Except Errno Mask)⟩,
      ⟨.win (.sec (.equalSid 5)), false⟩,
      ⟨.win (.sec (.rights 5 .group (.groupOf 5))), (.ok 0x1f01ff#32 : Except Errno Mask)⟩,
      ⟨.win (.sec (.rights 5 .wellKnownGroup (.named "EVERYONE".toList))), (.ok 0x1f01ff#32 : Except Errno Mask)⟩,
      ⟨.win (.sec (.free 5)), ()⟩], (_, none), feed_exec (by rfl),
    .cons (s' := (_, none)) ⟨rfl, _, rfl, by decide, by decide⟩ (.cons (s' := (_, none)) ⟨rfl, _, rfl, rfl⟩
      (.cons (s' := (_, none)) ⟨rfl, _, rfl, by decide, by decide⟩ (.cons (s' := (_, none)) rfl (.cons (s' := (_, none)) rfl
        (.cons (s' := (_, none)) rfl (.cons (s' := (_, none)) rfl (.cons (s' := (_, none)) rfl (.cons (s' := (_, none)) rfl
          (.cons rfl (.nil _)))))))))), ?_⟩
  simp [SecWilling, WinWilling]

/-- **C103 is violated** where failing calls do not set the last error (that they do is not documented): `status` says `not_found`
of a file that is there and whose attributes were read, or an assertion fails. -/
theorem c103_violated :
    Exec (Win.unfoldSec (Win.status (mkPath .windows "f".toList) (.ref none)))
      [⟨.win (.getAttrs "f".toList), (.ok 0x20#32 : Except Errno (BitVec 32))⟩,
        ⟨.win (.sec (.getInfo "f".toList true)), (.error .EACCES : Except Errno Nat)⟩, ⟨.win .lastError, (some .ENOENT : Code)⟩]
      (.ok (⟨.notFound, 0#32⟩, .ref (some .ENOENT))) ∧
    Exec (Win.unfoldSec (Win.status (mkPath .windows "f".toList) (.ref none)))
      [⟨.win (.getAttrs "f".toList), (.ok 0x20#32 : Except Errno (BitVec 32))⟩,
        ⟨.win (.sec (.getInfo "f".toList true)), (.error .EACCES : Except Errno Nat)⟩, ⟨.win .lastError, (none : Code)⟩]
      (.error (.fault .assertFail)) :=
  ⟨feed_exec (by rfl), feed_exec (by rfl)⟩

end Asap
