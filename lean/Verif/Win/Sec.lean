import Verif.Win.Ops

/-!
# Windows permissions, call by call

`GetPermissions` and `SetPermissions` (`src/windows/permissions.cpp`) as the calls they make, and library calls in which
they are replaced by these calls. What they compute is in `Verif.Win.Perms`.
Simplified: memory for the containers is never exhausted; the owner and the group are in every security descriptor.
-/

namespace Asap
namespace Win

/-- From `winerror.h`. -/
def ERROR_INVALID_ACL : Nat := 1336

/-- The deleter `::LocalFree` of the smart pointers (`src/windows/permissions.cpp:346-347, 439-440`). -/
def localFree (m : Nat) : Prog Unit := .call (.win (.sec (.free m))) fun _ => .ret ()

/-- `GetOwnerPermissions`, `GetGroupPermissions`, `GetOthersPermissions` (`src/windows/permissions.cpp:206-322`); they
differ in the trustee and the bit cleared. The second component is what is in `ec` afterwards. -/
def trusteeRights (trustee : TrusteeType) (kind : SecKind) (name : SecName) (readBit : Perms) (sd : Nat) (attr : Mask) :
    Prog (Perms × Code) :=
  .call (.win (.sec (.rights sd kind name))) fun
    | .error e =>
      if e.winValue = ERROR_INVALID_ACL then .ret (Perms.none, some .EACCES)
      else captureErrno.bind fun e => .ret (Perms.none, some e)
    | .ok mask =>
      (Prog.ofRes (mapAccessMaskToPerms flagTest mask trustee
        (if flagTest attr FILE_ATTRIBUTE_DIRECTORY then .directory else .regular))).bind fun prms =>
          .ret (if flagTest attr FILE_ATTRIBUTE_READONLY then flagClear prms readBit else prms, none)

/-- `ProcessPermissionsFailure` (`src/windows/permissions.cpp:136-152`) with a set error. -/
def permissionsFailure (e : Errno) (ec : EcArg) : Perms × EcArg :=
  if isNotFoundError e.winValue then (Perms.none, ec)
  else if e.winValue = ERROR_SHARING_VIOLATION then (Perms.unknown, ec)
  else (Perms.none, ec.assign (some e))

/-- `GetPermissions` after the security descriptor was fetched (`src/windows/permissions.cpp:349-376`). -/
def fetchRights (sd : Nat) (attr : Mask) (ec : EcArg) : Prog (Perms × EcArg) :=
  (trusteeRights .owner .user (.ownerOf sd) Perms.ownerRead sd attr).bind fun u =>
    match u.2 with
    | some e => .ret (permissionsFailure e ec)
    | none => .call (.win (.sec (.equalSid sd))) fun (same : Bool) =>
      (if !same then trusteeRights .group .group (.groupOf sd) Perms.groupRead sd attr
        else .ret (Perms.none, none)).bind fun g =>
          match g.2 with
          | some e => .ret (permissionsFailure e ec)
          | none => (trusteeRights .others .wellKnownGroup (.named "EVERYONE".toList) Perms.othersRead sd attr).bind fun o =>
            match o.2 with
            | some e => .ret (permissionsFailure e ec)
            | none => .ret (u.1 ||| g.1 ||| o.1, ec)

/-- `GetPermissions` (`src/windows/permissions.cpp:325-377`). The value returned by `GetNamedSecurityInfoW` is only
compared with `ERROR_SUCCESS`; the error reported is the last error. -/
def fetchPermissions (p : Path) (attr : Mask) (ec : EcArg) : Prog (Perms × EcArg) :=
  let h : Handler := ⟨"permissions".toList, some p, none⟩
  let ec := ec.clear
  .call (.win (.sec (.getInfo p.pathname true))) fun
    | .error _ => captureErrno.bind fun e => h.report ec (some e) Perms.unknown
    | .ok sd => Prog.finally' (fetchRights sd attr ec) (localFree sd)

/-- What `MakeAce` fills in (`src/windows/permissions.cpp:385-415`). -/
def aceOf (trustee : TrusteeType) (sid : SecName) (access : Mask) (deny : Bool) : SecAce :=
  match trustee with
  | .system => ⟨.wellKnownGroup, .named "System".toList, deny, access⟩
  | .admins => ⟨.wellKnownGroup, .named "Administrators".toList, deny, access⟩
  | .others => ⟨.wellKnownGroup, .named "Everyone".toList, deny, access⟩
  | .owner => ⟨.user, sid, deny, access⟩
  | .group => ⟨.group, sid, deny, access⟩

/-- `MakeAce` (`src/windows/permissions.cpp:379-418`): the memory and what is in it. -/
def makeAce (trustee : TrusteeType) (sid : SecName) (access : Mask) (deny : Bool) : Prog (Option (Nat × SecAce)) :=
  .call (.win (.sec .alloc)) fun
    | none => .ret none
    | some m => .ret (some (m, aceOf trustee sid access deny))

/-- `aces` (`src/windows/permissions.cpp:443`): the memory of the entries and what is in it, from the front. -/
abbrev Aces := List (Nat × SecAce)

/-- Making one entry and putting it in front (e.g. `src/windows/permissions.cpp:464-470`); `k` is what follows. The answer is
what is reported, and what is in `aces` at the end, to be freed. -/
def addAce (trustee : TrusteeType) (sid : SecName) (deny : Bool) (access : Mask)
    (k : Aces → Prog (Except Errno Unit × Aces)) (aces : Aces) : Prog (Except Errno Unit × Aces) :=
  (makeAce trustee sid access deny).bind fun
    | none => captureErrno.bind fun e => .ret (.error e, aces)
    | some a => k (a :: aces)

/-- `if (access != 0) ...` (e.g. `src/windows/permissions.cpp:463-471`). -/
def addIf (trustee : TrusteeType) (sid : SecName) (deny : Bool) (access : Mask)
    (k : Aces → Prog (Except Errno Unit × Aces)) (aces : Aces) : Prog (Except Errno Unit × Aces) :=
  if access ≠ 0 then addAce trustee sid deny access k aces else k aces

/-- The new list is made and set (`src/windows/permissions.cpp:606-631`). -/
def applyAces (p : Str) (aces : Aces) : Prog (Except Errno Unit × Aces) :=
  .call (.win (.sec (.setEntries (aces.map Prod.snd)))) fun
    | .error e => .ret (.error e, aces)
    | .ok acl => Prog.finally' (.call (.win (.sec (.setInfo p acl))) fun r => .ret (r, aces)) (localFree acl)

/-- `if (aces.empty())` (`src/windows/permissions.cpp:596-604`). -/
def denyAll (p : Str) (aces : Aces) : Prog (Except Errno Unit × Aces) :=
  if aces.isEmpty then addAce .others .null true GENERIC_ALL (applyAces p) aces else applyAces p aces

/-- The entries of the owner (`src/windows/permissions.cpp:534-594`); the second is made with `TrusteeType::group`. -/
def ownerAces (p : Str) (sd : Nat) (prms : Perms) (aces : Aces) : Prog (Except Errno Unit × Aces) :=
  let t (b : Perms) : Bool := flagTest prms b
  addIf .owner (.ownerOf sd) false
    (accessOf (t Perms.ownerRead && !(t Perms.groupRead || t Perms.othersRead))
      (t Perms.ownerWrite && !(t Perms.groupWrite || t Perms.othersWrite))
      (t Perms.ownerExec && !(t Perms.groupExec || t Perms.othersExec)))
    (addIf .group (.ownerOf sd) true
      (accessOf (!t Perms.ownerRead && (t Perms.groupRead || t Perms.othersRead))
        (!t Perms.ownerWrite && (t Perms.groupWrite || t Perms.othersWrite))
        (!t Perms.ownerExec && (t Perms.groupExec || t Perms.othersExec)))
      (denyAll p)) aces

/-- The entries of the group (`src/windows/permissions.cpp:485-532`). -/
def groupAces (p : Str) (sd : Nat) (prms : Perms) (aces : Aces) : Prog (Except Errno Unit × Aces) :=
  let t (b : Perms) : Bool := flagTest prms b
  .call (.win (.sec (.equalSid sd))) fun (same : Bool) =>
    if !same then
      addIf .group (.groupOf sd) false
        (accessOf (t Perms.groupRead && !t Perms.othersRead) (t Perms.groupWrite && !t Perms.othersWrite)
          (t Perms.groupExec && !t Perms.othersExec))
        (addIf .group (.groupOf sd) true
          (accessOf (!t Perms.groupRead && t Perms.othersRead) (!t Perms.groupWrite && t Perms.othersWrite)
            (!t Perms.groupExec && t Perms.othersExec))
          (ownerAces p sd prms)) aces
    else ownerAces p sd prms aces

/-- The entry of everyone and all that follows (`src/windows/permissions.cpp:442-631`). -/
def storeAces (p : Str) (sd : Nat) (prms : Perms) : Prog (Except Errno Unit × Aces) :=
  addIf .others .null false
    (accessOf (flagTest prms Perms.othersRead) (flagTest prms Perms.othersWrite) (flagTest prms Perms.othersExec))
    (groupAces p sd prms) []

/-- The destructor of `aces`. -/
def freeAces : Aces → Prog Unit
  | [] => .ret ()
  | a :: as => (localFree a.1).bind fun _ => freeAces as

/-- `SetPermissions` (`src/windows/permissions.cpp:420-632`). The destructors run after `err.report`, which makes no calls;
here they run before. Simplified: errors are taken to be of the generic category. -/
def storePermissions (p : Path) (prms : Perms) (ec : EcArg) : Prog (Unit × EcArg) :=
  let h : Handler := ⟨"permissions".toList, some p, none⟩
  let ec := ec.clear
  .call (.win (.sec (.getInfo p.pathname false))) fun
    | .error e => h.report ec (some e) ()
    | .ok sd => (storeAces p.pathname sd prms).bind fun x =>
      (freeAces x.2).bind fun _ => (localFree sd).bind fun _ =>
        match x.1 with
        | .ok () => .ret ((), ec)
        | .error e => h.report ec (some e) ()

/-- What the callers of `GetPermissions` and `SetPermissions` see of their answers: `m_ec`, and the value if it is not set
(e.g. `src/fs_ops.cpp:1189-1192, 1474-1477`). -/
def seen {α : Type} (x : α × EcArg) : Except Errno α :=
  match x.2.code with
  | some e => .error e
  | none => .ok x.1

/-- A library call with `GetPermissions` and `SetPermissions` replaced by the calls they make. -/
def unfoldSec {α : Type} : Prog α → Prog α
  | .ret a => .ret a
  | .stop s => .stop s
  | .call (.win (.getPerms p a)) k => (fetchPermissions ⟨p, [], .filename⟩ a (.ref none)).bind fun x => unfoldSec (k (seen x))
  | .call (.win (.setPerms p m)) k => (storePermissions ⟨p, [], .filename⟩ m (.ref none)).bind fun x => unfoldSec (k (seen x))
  | .call c k => .call c fun r => unfoldSec (k r)

end Win
end Asap
