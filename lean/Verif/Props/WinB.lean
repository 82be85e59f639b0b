import Verif.Win.Perms

/-!
# C59: Windows permissions

What Windows does with the entries is assumed as follows (`Spec.newAcl`, `Spec.rights`): `SetEntriesInAcl` puts the
denials first and otherwise keeps the order, generic rights are mapped as for files, and the effective rights of a
trustee are found by walking the list, where the first entry that mentions a right decides.
-/

namespace Asap
namespace Spec

/-- Generic rights mapped to the specific rights of files (`FILE_GENERIC_READ` and so on). -/
def specific (m : Mask) : Mask :=
  (m &&& 0x0fffffff#32) |||
  (if m.getLsbD 31 then 0x120089#32 else 0) |||   -- FILE_GENERIC_READ
  (if m.getLsbD 30 then 0x120116#32 else 0) |||   -- FILE_GENERIC_WRITE
  (if m.getLsbD 29 then 0x1200a0#32 else 0) |||   -- FILE_GENERIC_EXECUTE
  (if m.getLsbD 28 then 0x1f01ff#32 else 0)       -- FILE_ALL_ACCESS

/-- The list made by `SetEntriesInAcl` without an old list. -/
def newAcl (entries : List Ace) : List Ace := entries.filter (·.deny) ++ entries.filter (!·.deny)

/-- The rights allowed to a trustee with the identifiers `holds`, given those `allowed` and `denied` so far. -/
def rightsFrom (holds : Sid → Bool) : List Ace → (allowed denied : Mask) → Mask
  | [], allowed, _ => allowed
  | a :: as, allowed, denied =>
    if !holds a.sid then rightsFrom holds as allowed denied
    else if a.deny then rightsFrom holds as allowed (denied ||| (specific a.access &&& ~~~ allowed))
    else rightsFrom holds as (allowed ||| (specific a.access &&& ~~~ denied)) denied

/-- The effective rights of a trustee. -/
def rights (acl : List Ace) (holds : Sid → Bool) : Mask := rightsFrom holds acl 0 0

/-- The identifiers held by the owner, a member of the group, and anybody else. `member`: the owner is a member of
the group. -/
def holds (member : Bool) : Sid → Sid → Bool
  | .owner, s => s = .owner || s = .everyone || (member && s = .group)
  | .group, s => s = .group || s = .everyone
  | .everyone, s => s = .everyone

/-- What reading back gives after `SetPermissions` has set `prms`. -/
def readBack (prms : Perms) (same member : Bool) (attr : Mask) : Res (Perms × Option WinCode) :=
  getPermissions same attr fun s => .ok (rights (newAcl (explicitEntries prms same)) (holds member s))

/-- The bits of one of the three classes. -/
structure Class where
  r : Bool
  w : Bool
  x : Bool
  deriving DecidableEq, Repr

/-- The bits of `prms` at `k`, `k+1`, `k+2`: the digit of the octal notation. -/
def classAt (prms : Perms) (k : Nat) : Class := ⟨prms.getLsbD (k + 2), prms.getLsbD (k + 1), prms.getLsbD k⟩

/-- Inclusion. -/
def Class.sub (a b : Class) : Bool := (!a.r || b.r) && (!a.w || b.w) && (!a.x || b.x)

/-- No bits. -/
def Class.nothing : Class := ⟨false, false, false⟩

end Spec
open Spec

theorem flagTest_bit (p : Perms) (k : Nat) (hk : k < 32) : flagTest p (BitVec.twoPow 32 k) = p.getLsbD k := by
  rw [flagTest, BitVec.and_twoPow]
  cases p.getLsbD k
  · have : (0#32 == BitVec.twoPow 32 k) = false := by
      rw [beq_eq_false_iff_ne]
      intro h
      have h2 : (0#32).getLsbD k = (BitVec.twoPow 32 k).getLsbD k := by rw [← h]
      simp [hk] at h2
    simpa using this
  · simp

/-- The entries, as a function of the nine bits. -/
def entries9 (u g o : Class) (same : Bool) : List Ace :=
  let aces := pushAce [] .everyone false (accessOf o.r o.w o.x)
  let aces := if !same then
      let aces := pushAce aces .group false (accessOf (g.r && !o.r) (g.w && !o.w) (g.x && !o.x))
      pushAce aces .group true (accessOf (!g.r && o.r) (!g.w && o.w) (!g.x && o.x))
    else aces
  let aces := pushAce aces .owner false (accessOf (u.r && !(g.r || o.r)) (u.w && !(g.w || o.w)) (u.x && !(g.x || o.x)))
  let aces := pushAce aces .owner true (accessOf (!u.r && (g.r || o.r)) (!u.w && (g.w || o.w)) (!u.x && (g.x || o.x)))
  if aces = [] then [⟨.everyone, true, Win.GENERIC_ALL⟩] else aces

theorem entries_eq (p : Perms) (same : Bool) :
    explicitEntries p same = entries9 (classAt p 6) (classAt p 3) (classAt p 0) same := by
  have h := fun k hk => flagTest_bit p k hk
  have h8 : flagTest p Perms.ownerRead = p.getLsbD 8 := h 8 (by omega)
  have h7 : flagTest p Perms.ownerWrite = p.getLsbD 7 := h 7 (by omega)
  have h6 : flagTest p Perms.ownerExec = p.getLsbD 6 := h 6 (by omega)
  have h5 : flagTest p Perms.groupRead = p.getLsbD 5 := h 5 (by omega)
  have h4 : flagTest p Perms.groupWrite = p.getLsbD 4 := h 4 (by omega)
  have h3 : flagTest p Perms.groupExec = p.getLsbD 3 := h 3 (by omega)
  have h2 : flagTest p Perms.othersRead = p.getLsbD 2 := h 2 (by omega)
  have h1 : flagTest p Perms.othersWrite = p.getLsbD 1 := h 1 (by omega)
  have h0 : flagTest p Perms.othersExec = p.getLsbD 0 := h 0 (by omega)
  simp only [explicitEntries, h0, h1, h2, h3, h4, h5, h6, h7, h8]
  rfl

/-- Reading back, as a function of the nine bits. -/
def back9 (u g o : Class) (same member : Bool) (attr : Mask) : Res (Perms × Option WinCode) :=
  getPermissions same attr fun s => .ok (rights (newAcl (entries9 u g o same)) (holds member s))

/-- The attributes matter only through two flags. -/
theorem back9_attr (u g o : Class) (same member : Bool) (attr : Mask)
    (hro : flagTest attr Win.FILE_ATTRIBUTE_READONLY = false) :
    back9 u g o same member attr =
      back9 u g o same member (if flagTest attr Win.FILE_ATTRIBUTE_DIRECTORY then Win.FILE_ATTRIBUTE_DIRECTORY else 0#32) := by
  have h1 : ∀ d : Bool, flagTest (if d then Win.FILE_ATTRIBUTE_DIRECTORY else 0#32) Win.FILE_ATTRIBUTE_READONLY = false := by
    decide
  have h2 : ∀ d : Bool, flagTest (if d then Win.FILE_ATTRIBUTE_DIRECTORY else 0#32) Win.FILE_ATTRIBUTE_DIRECTORY = d := by
    decide
  simp only [back9, getPermissions, trusteePermissions, hro, h1, h2]

namespace Spec

/-- Reading back gave exactly the nine bits asked for, and no error. -/
def Faithful (u g o : Class) (r : Res (Perms × Option WinCode)) : Bool :=
  match r with
  | .ok (q, none) => classAt q 6 = u && classAt q 3 = g && classAt q 0 = o && q &&& 0o777#32 = q
  | _ => false

/-- When it does. The identifiers of owner and group being equal, the group must have no bits; anyway a class that
lacks a bit of a more general class must have no bits at all, and a bit that only owner and group have is kept for
the owner just if they are a member of the group. -/
def keeps (u g o : Class) (same member : Bool) : Bool :=
  if same then g == .nothing && (o.sub u || u == .nothing)
  else
    (o.sub g || g == .nothing) &&
    (u == .nothing || (o.sub u && g.sub u && if member then o.sub g else g.sub o))

end Spec

theorem faithful9 : ∀ (ur uw ux gr gw gx or ow ox same member dir : Bool),
    Faithful ⟨ur, uw, ux⟩ ⟨gr, gw, gx⟩ ⟨or, ow, ox⟩ (back9 ⟨ur, uw, ux⟩ ⟨gr, gw, gx⟩ ⟨or, ow, ox⟩ same member
      (if dir then Win.FILE_ATTRIBUTE_DIRECTORY else 0#32)) = keeps ⟨ur, uw, ux⟩ ⟨gr, gw, gx⟩ ⟨or, ow, ox⟩ same member := by
  decide +kernel

/-- **C59**, exactly: the permissions read back after setting `prms` on a file or directory that is not read-only
are the nine bits of `prms` if and only if `keeps` holds of them. -/
theorem c59_exact (prms : Perms) (same member : Bool) (attr : Mask)
    (hro : flagTest attr Win.FILE_ATTRIBUTE_READONLY = false) :
    Faithful (classAt prms 6) (classAt prms 3) (classAt prms 0) (readBack prms same member attr) =
      keeps (classAt prms 6) (classAt prms 3) (classAt prms 0) same member := by
  have h := faithful9 (classAt prms 6).r (classAt prms 6).w (classAt prms 6).x (classAt prms 3).r (classAt prms 3).w
    (classAt prms 3).x (classAt prms 0).r (classAt prms 0).w (classAt prms 0).x same member
    (flagTest attr Win.FILE_ATTRIBUTE_DIRECTORY)
  rw [← back9_attr _ _ _ _ _ _ hro] at h
  rw [readBack, entries_eq]
  exact h

/-- **C59** for the permission sets in which the owner has every bit of the group and the group every bit of the
others, when the owner is a member of the group (a different identifier) or the group has no more bits than the
others. Missing: all other sets, for which `c59_exact` says when it fails. -/
theorem c59_partial (prms : Perms) (member : Bool) (attr : Mask)
    (hro : flagTest attr Win.FILE_ATTRIBUTE_READONLY = false)
    (h1 : (classAt prms 3).sub (classAt prms 6) = true) (h2 : (classAt prms 0).sub (classAt prms 3) = true)
    (h3 : member = true ∨ classAt prms 3 = classAt prms 0) :
    Faithful (classAt prms 6) (classAt prms 3) (classAt prms 0) (readBack prms false member attr) = true := by
  rw [c59_exact _ _ _ _ hro]
  revert h1 h2 h3
  generalize classAt prms 6 = u
  generalize classAt prms 3 = g
  generalize classAt prms 0 = o
  obtain ⟨ur, uw, ux⟩ := u
  obtain ⟨gr, gw, gx⟩ := g
  obtain ⟨or, ow, ox⟩ := o
  revert ur uw ux gr gw gx or ow ox member
  decide +kernel

/-- `rwxr-x--x` on a directory whose owner is in its group. -/
example : (classAt 0o751 3).sub (classAt 0o751 6) = true ∧ (classAt 0o751 0).sub (classAt 0o751 3) = true ∧
    flagTest Win.FILE_ATTRIBUTE_DIRECTORY Win.FILE_ATTRIBUTE_READONLY = false := by decide

/-- A read-only file reads back without any read permission, whatever was set. -/
theorem c59_readOnly (same : Bool) (attr : Mask) (rts : Sid → Mask)
    (hro : flagTest attr Win.FILE_ATTRIBUTE_READONLY = true) :
    ∃ q, getPermissions same attr (fun s => .ok (rts s)) = .ok (q, none) ∧
      (classAt q 6).r = false ∧ (classAt q 3).r = false ∧ (classAt q 0).r = false := by
  have key : ∀ (t : TrusteeType) (bit : Perms) (m : Mask), t = .owner ∧ bit = Perms.ownerRead ∨
      t = .group ∧ bit = Perms.groupRead ∨ t = .others ∧ bit = Perms.othersRead →
      ∃ q, trusteePermissions t bit (.ok m) attr = .ok (q, none) ∧
        (classAt q 6).r = false ∧ (classAt q 3).r = false ∧ (classAt q 0).r = false := by
    intro t bit m h
    simp only [trusteePermissions, mapAccessMaskToPerms, hro]
    generalize flagTest attr Win.FILE_ATTRIBUTE_DIRECTORY = d
    have h1 : ¬ ((if d = true then FType.directory else .regular) = .none ∨
        (if d = true then FType.directory else .regular) = .unknown ∨
        (if d = true then FType.directory else .regular) = .notFound) := by cases d <;> decide
    rw [if_neg h1]
    split
    · refine ⟨_, rfl, ?_⟩
      rcases h with ⟨_, rfl⟩ | ⟨_, rfl⟩ | ⟨_, rfl⟩ <;> decide
    · generalize flagTest m _ = r
      generalize flagTest m _ = w
      generalize flagTest m _ = x
      rcases h with ⟨rfl, rfl⟩ | ⟨rfl, rfl⟩ | ⟨rfl, rfl⟩ <;> revert r w x <;> simp only [posixRow] <;>
        intro r w x <;> cases r <;> cases w <;> cases x <;> exact ⟨_, rfl, by decide⟩
  have hor : ∀ (a b : Perms) (k : Nat), (classAt (a ||| b) k).r = ((classAt a k).r || (classAt b k).r) := by
    intro a b k; simp [classAt]
  obtain ⟨u, hu, u1, u2, u3⟩ := key .owner Perms.ownerRead (rts .owner) (.inl ⟨rfl, rfl⟩)
  obtain ⟨g, hg, g1, g2, g3⟩ := key .group Perms.groupRead (rts .group) (.inr (.inl ⟨rfl, rfl⟩))
  obtain ⟨o, ho, o1, o2, o3⟩ := key .others Perms.othersRead (rts .everyone) (.inr (.inr ⟨rfl, rfl⟩))
  cases same
  · refine ⟨u ||| g ||| o, ?_, ?_, ?_, ?_⟩
    · simp only [getPermissions, hu, hg, ho, bind, Except.bind]; rfl
    all_goals simp [*]
  · refine ⟨u ||| Perms.none ||| o, ?_, ?_, ?_, ?_⟩
    · simp only [getPermissions, hu, ho, bind, Except.bind]; rfl
    all_goals simp [*]; try decide

/-- Non-vacuity: a read-only attribute. -/
example : flagTest 0x21#32 Win.FILE_ATTRIBUTE_READONLY = true := by decide

/-- **C59** violated. Setting `rw-r--rw-` (646) on a plain file leaves the group without read permission; setting
`rw-r-----` (640) leaves an owner who is not in the group with write permission only; and with equal identifiers the
group bits are lost. -/
theorem c59_violated :
    readBack 0o646 false true 0 = .ok (0o006, none) ∧
    readBack 0o640 false false 0 = .ok (0o240, none) ∧
    readBack 0o640 true true 0 = .ok (0o200, none) := by decide

/-- The meaning of `FlagTest`: had it meant "some flag is set", the mapping would not tell the operations apart, as
the repository's tests (`test/windows/win_permissions_test.cpp:56-95`) require. -/
theorem c59_flagTest :
    mapAccessMaskToPerms flagTest Win.fileExec .owner .regular = .ok Perms.ownerExec ∧
    mapAccessMaskToPerms (fun a b => a &&& b != 0) Win.fileExec .owner .regular = .ok Perms.ownerAll := by decide

namespace Spec

/-- All the rights in `need` are in the mask. -/
def grants (mask need : Mask) : Bool := mask &&& need = need

/-- Where the digit of a class starts. -/
def digit : TrusteeType → Option Nat
  | .owner => some 6
  | .group => some 3
  | .others => some 0
  | _ => none

end Spec

/-- `MapAccessMaskToPerms` for an existing file and any mask: the digit of the class has exactly the operations all
of whose rights (`FILE_GENERIC_READ`, `FILE_GENERIC_WRITE`, for a directory with `FILE_DELETE_CHILD`, and
`FILE_GENERIC_EXECUTE`) are in the mask, and no other bit is set. -/
theorem c59_map (mask : Mask) (t : TrusteeType) (k : Nat) (hk : digit t = some k) (type : FType)
    (ht : type ≠ .none ∧ type ≠ .unknown ∧ type ≠ .notFound) :
    ∃ q, mapAccessMaskToPerms flagTest mask t type = .ok q ∧
      classAt q k = ⟨grants mask 0x120089#32, grants mask (if type = .directory then 0x120156#32 else 0x120116#32),
        grants mask 0x1200a0#32⟩ ∧
      q &&& (7#32 <<< k) = q := by
  have hn : ¬ (type = .none ∨ type = .unknown ∨ type = .notFound) := by
    rintro (h | h | h)
    · exact ht.1 h
    · exact ht.2.1 h
    · exact ht.2.2 h
  have er : (if type = .directory then Win.dirRead else Win.fileRead) = 0x120089#32 := by split <;> rfl
  have ew : (if type = .directory then Win.dirWrite else Win.fileWrite) =
      (if type = .directory then 0x120156#32 else 0x120116#32) := by split <;> rfl
  have ex : (if type = .directory then Win.dirExec else Win.fileExec) = 0x1200a0#32 := by split <;> rfl
  have hg : ∀ a b, flagTest a b = grants a b := by
    intro a b; simp only [flagTest, grants]; rw [Bool.eq_iff_iff]; simp
  simp only [mapAccessMaskToPerms, if_neg hn, er, ew, ex, hg]
  have hz : ∀ need : Mask, need ≠ 0 → grants 0#32 need = false := by
    intro need h
    simp only [grants, decide_eq_false_iff_not]
    intro h2
    exact h (by rw [← h2]; simp)
  split
  · rename_i h0
    have h0 : mask = 0#32 := h0
    subst h0
    rw [hz _ (by decide), hz _ (by split <;> decide), hz _ (by decide)]
    refine ⟨_, rfl, ?_⟩
    cases t <;> simp only [digit] at hk <;> cases hk <;> decide
  · generalize grants mask 0x120089#32 = r
    generalize grants mask _ = w
    generalize grants mask 0x1200a0#32 = x
    cases t <;> simp only [digit] at hk <;> cases hk <;> simp only [posixRow] <;>
      cases r <;> cases w <;> cases x <;> exact ⟨_, rfl, by decide, by decide⟩

/-- Full control for the group of a directory. -/
example : digit .group = some 3 ∧ FType.directory ≠ .none ∧ FType.directory ≠ .unknown ∧
    mapAccessMaskToPerms flagTest 0x1f01ff#32 .group .directory = .ok 0o070 := by decide

/-- The other two trustees index the table of permissions out of bounds as soon as one operation is granted. -/
theorem c59_map_oob : mapAccessMaskToPerms flagTest 0x1f01ff#32 .admins .regular = .error .ub := by decide

end Asap
