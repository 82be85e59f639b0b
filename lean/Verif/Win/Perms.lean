import Verif.Ops.Status

/-!
# Windows permissions

`src/windows/permissions.cpp`. `FlagTest`, `FlagSet` and `FlagClear` come from `<common/flag_ops.h>`, which is not
part of the repository; `FlagTest` is a parameter where its two possible meanings differ.
Simplified: memory for the access control entries is never exhausted, and names of trustees are resolved.
-/

namespace Asap

/-- An access mask (`ACCESS_MASK`, `DWORD`, `unsigned long`). -/
abbrev Mask := BitVec 32

namespace Win

/-! Values from `winnt.h`. -/
def FILE_READ_DATA : Mask := 0x1#32
def FILE_LIST_DIRECTORY : Mask := 0x1#32
def FILE_WRITE_DATA : Mask := 0x2#32
def FILE_ADD_FILE : Mask := 0x2#32
def FILE_APPEND_DATA : Mask := 0x4#32
def FILE_ADD_SUBDIRECTORY : Mask := 0x4#32
def FILE_READ_EA : Mask := 0x8#32
def FILE_WRITE_EA : Mask := 0x10#32
def FILE_EXECUTE : Mask := 0x20#32
def FILE_TRAVERSE : Mask := 0x20#32
def FILE_DELETE_CHILD : Mask := 0x40#32
def FILE_READ_ATTRIBUTES : Mask := 0x80#32
def FILE_WRITE_ATTRIBUTES : Mask := 0x100#32
def DELETE : Mask := 0x10000#32
def STANDARD_RIGHTS_READ : Mask := 0x20000#32
def STANDARD_RIGHTS_WRITE : Mask := 0x20000#32
def STANDARD_RIGHTS_EXECUTE : Mask := 0x20000#32
def SYNCHRONIZE : Mask := 0x100000#32
def GENERIC_ALL : Mask := 0x10000000#32
def GENERIC_EXECUTE : Mask := 0x20000000#32
def GENERIC_WRITE : Mask := 0x40000000#32
def GENERIC_READ : Mask := 0x80000000#32
def FILE_ATTRIBUTE_READONLY : Mask := 0x1#32
def FILE_ATTRIBUTE_DIRECTORY : Mask := 0x10#32

/-- `mapping::file::read_mask` (`src/windows/permissions.cpp:37-41`). -/
def fileRead : Mask := FILE_READ_ATTRIBUTES ||| FILE_READ_DATA ||| FILE_READ_EA ||| STANDARD_RIGHTS_READ ||| SYNCHRONIZE
/-- `mapping::file::write_mask` (`src/windows/permissions.cpp:44-49`). -/
def fileWrite : Mask := FILE_APPEND_DATA ||| FILE_WRITE_ATTRIBUTES ||| FILE_WRITE_DATA ||| FILE_WRITE_EA |||
  STANDARD_RIGHTS_WRITE ||| SYNCHRONIZE
/-- `mapping::file::exec_mask` (`src/windows/permissions.cpp:51-54`). -/
def fileExec : Mask := FILE_EXECUTE ||| FILE_READ_ATTRIBUTES ||| STANDARD_RIGHTS_EXECUTE ||| SYNCHRONIZE
/-- `mapping::directory::read_mask` (`src/windows/permissions.cpp:59-63`). -/
def dirRead : Mask := FILE_READ_ATTRIBUTES ||| FILE_LIST_DIRECTORY ||| FILE_READ_EA ||| STANDARD_RIGHTS_READ |||
  SYNCHRONIZE
/-- `mapping::directory::write_mask` (`src/windows/permissions.cpp:66-72`). -/
def dirWrite : Mask := FILE_ADD_SUBDIRECTORY ||| FILE_DELETE_CHILD ||| FILE_WRITE_ATTRIBUTES ||| FILE_ADD_FILE |||
  FILE_WRITE_EA ||| STANDARD_RIGHTS_WRITE ||| SYNCHRONIZE
/-- `mapping::directory::exec_mask` (`src/windows/permissions.cpp:74-77`). -/
def dirExec : Mask := FILE_TRAVERSE ||| FILE_READ_ATTRIBUTES ||| STANDARD_RIGHTS_EXECUTE ||| SYNCHRONIZE

end Win
open Win

/-- `FlagTest(a, b)` of `<common/flag_ops.h>` (not in the repository): all the flags of `b` are set in `a`. The
repository's own tests tell this meaning from "some flag is set", see `Asap.c59_flagTest`. -/
def flagTest (a b : BitVec 32) : Bool := a &&& b == b

/-- `FlagSet(a, b)`. -/
def flagSet (a b : BitVec 32) : BitVec 32 := a ||| b

/-- `FlagClear(a, b)`. -/
def flagClear (a b : BitVec 32) : BitVec 32 := a &&& ~~~ b

/-- `TrusteeType` (`src/windows/permissions.cpp:24`). -/
inductive TrusteeType where
  | owner | group | others | system | admins
  deriving DecidableEq, Repr

/-- `mapping::posix[tr][op]` (`src/windows/permissions.cpp:29-32`) for the three operations; the array has three
rows, so the other two trustees index it out of bounds. -/
def posixRow : TrusteeType → Res (Perms × Perms × Perms)
  | .owner => .ok (Perms.ownerRead, Perms.ownerWrite, Perms.ownerExec)
  | .group => .ok (Perms.groupRead, Perms.groupWrite, Perms.groupExec)
  | .others => .ok (Perms.othersRead, Perms.othersWrite, Perms.othersExec)
  | .system => .error .ub
  | .admins => .error .ub

/-- `MapAccessMaskToPerms` (`src/windows/permissions.cpp:83-133`); `test` is `FlagTest`. -/
def mapAccessMaskToPerms (test : Mask → Mask → Bool) (mask : Mask) (trustee : TrusteeType) (type : FType) : Res Perms :=
  if type = .none ∨ type = .unknown ∨ type = .notFound then .ok Perms.unknown
  else if mask = 0 then .ok Perms.none
  else
    let r := test mask (if type = .directory then dirRead else fileRead)
    let w := test mask (if type = .directory then dirWrite else fileWrite)
    let x := test mask (if type = .directory then dirExec else fileExec)
    -- the array is only indexed when a test succeeds
    if !r && !w && !x then .ok Perms.none
    else do
      let (pr, pw, px) ← posixRow trustee
      let prm := Perms.none
      let prm := if r then prm ||| pr else prm
      let prm := if w then prm ||| pw else prm
      return if x then prm ||| px else prm

/-- The security identifiers that `SetPermissions` and `GetPermissions` name: the owner and the primary group of
the file, and Everyone. Whether the first two are equal (`EqualSid`) is a separate parameter. -/
inductive Sid where
  | owner | group | everyone
  deriving DecidableEq, Repr

/-- `EXPLICIT_ACCESS` as filled in by `MakeAce` (`src/windows/permissions.cpp:379-418`).
Simplified: the inheritance flag and the kind of the trustee (user or group) are left out, the trustee is its
identifier. -/
structure Ace where
  sid : Sid
  deny : Bool
  access : Mask
  deriving DecidableEq, Repr

/-- The rights for a set of operations (e.g. `src/windows/permissions.cpp:451-461`). -/
def accessOf (r w x : Bool) : Mask :=
  let a : Mask := 0
  let a := if r then flagSet a GENERIC_READ else a
  let a := if w then flagSet a (GENERIC_WRITE ||| FILE_DELETE_CHILD ||| DELETE) else a
  if x then flagSet a GENERIC_EXECUTE else a

/-- `if (access != 0) { .. aces.emplace_front(..) }` (e.g. `src/windows/permissions.cpp:463-471`). -/
def pushAce (aces : List Ace) (sid : Sid) (deny : Bool) (access : Mask) : List Ace :=
  if access ≠ 0 then ⟨sid, deny, access⟩ :: aces else aces

/-- The entries that `SetPermissions` passes to `SetEntriesInAcl` (`src/windows/permissions.cpp:447-613`), in order;
`same` is `EqualSid(pSidOwner, pSidGroup)`. -/
def explicitEntries (prms : Perms) (same : Bool) : List Ace :=
  let ur := flagTest prms Perms.ownerRead
  let uw := flagTest prms Perms.ownerWrite
  let ux := flagTest prms Perms.ownerExec
  let gr := flagTest prms Perms.groupRead
  let gw := flagTest prms Perms.groupWrite
  let gx := flagTest prms Perms.groupExec
  let or := flagTest prms Perms.othersRead
  let ow := flagTest prms Perms.othersWrite
  let ox := flagTest prms Perms.othersExec
  -- Everyone
  let aces := pushAce [] .everyone false (accessOf or ow ox)
  -- Group
  let aces := if !same then
      let aces := pushAce aces .group false (accessOf (gr && !or) (gw && !ow) (gx && !ox))
      pushAce aces .group true (accessOf (!gr && or) (!gw && ow) (!gx && ox))
    else aces
  -- Owner
  let aces := pushAce aces .owner false (accessOf (ur && !(gr || or)) (uw && !(gw || ow)) (ux && !(gx || ox)))
  let aces := pushAce aces .owner true (accessOf (!ur && (gr || or)) (!uw && (gw || ow)) (!ux && (gx || ox)))
  if aces = [] then [⟨.everyone, true, GENERIC_ALL⟩] else aces

/-- The failure of `GetEffectiveRightsFromAcl`: `ERROR_INVALID_ACL`, or another one, with the value of
`GetLastError()`. -/
inductive RightsError where
  | invalidAcl
  | other (last : Nat)
  deriving DecidableEq, Repr

/-- A `std::error_code` of this file: `permission_denied`, or a system value. -/
inductive WinCode where
  | permissionDenied
  | system (n : Nat)
  deriving DecidableEq, Repr

/-- `GetOwnerPermissions`, `GetGroupPermissions`, `GetOthersPermissions`
(`src/windows/permissions.cpp:207-324`): the three differ in the trustee and the bit cleared. The second component is
the error code left in `ec`. -/
def trusteePermissions (trustee : TrusteeType) (readBit : Perms) (rights : Except RightsError Mask) (attr : Mask) :
    Res (Perms × Option WinCode) :=
  match rights with
  | .error .invalidAcl => .ok (Perms.none, some .permissionDenied)
  | .error (.other n) => .ok (Perms.none, if n = 0 then none else some (.system n))
  | .ok mask => do
    let prms ← mapAccessMaskToPerms flagTest mask trustee
      (if flagTest attr FILE_ATTRIBUTE_DIRECTORY then .directory else .regular)
    return (if flagTest attr FILE_ATTRIBUTE_READONLY then flagClear prms readBit else prms, none)

/-- `IsNotFoundError` (`src/windows/stat.cpp:68-77`), with the values of `winerror.h`. -/
def isNotFoundError (n : Nat) : Bool :=
  n == 2 || n == 3 || n == 123 || n == 15 || n == 21 || n == 87 || n == 161 || n == 53

/-- `ProcessPermissionsFailure` (`src/windows/permissions.cpp:137-153`) with a set error: the value, and the error
reported if `ec` is not null. -/
def processPermissionsFailure : WinCode → Perms × Option WinCode
  | .permissionDenied => (Perms.none, some .permissionDenied)
  | .system n =>
    if isNotFoundError n then (Perms.none, none)
    else if n = 32 then (Perms.unknown, none)
    else (Perms.none, some (.system n))

/-- `GetPermissions` (`src/windows/permissions.cpp:352-377`) after the security information was fetched; `rights` are
the answers of `GetEffectiveRightsFromAcl`. Simplified: `permission_denied` has a value of the generic category
(13), which `IsNotFoundError` and the comparison with `ERROR_SHARING_VIOLATION` (32) do not match. -/
def getPermissions (same : Bool) (attr : Mask) (rights : Sid → Except RightsError Mask) : Res (Perms × Option WinCode) := do
  let (u, e) ← trusteePermissions .owner Perms.ownerRead (rights .owner) attr
  match e with
  | some e => return processPermissionsFailure e
  | none =>
    let (g, e) ← if !same then trusteePermissions .group Perms.groupRead (rights .group) attr else .ok (Perms.none, none)
    match e with
    | some e => return processPermissionsFailure e
    | none =>
      let (o, e) ← trusteePermissions .others Perms.othersRead (rights .everyone) attr
      match e with
      | some e => return processPermissionsFailure e
      | none => return (u ||| g ||| o, none)

end Asap
