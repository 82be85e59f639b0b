import Verif.Path.Model

/-!
# Programs that talk to the operating system

A library call is a tree: it ends, or it makes a system call and goes on depending
on the answer. Nothing is assumed about the answers, so a statement about all
executions of a tree covers all operating system behaviour, including failures
at any point and interference by other processes.
-/

namespace Asap

/-- Error numbers. `other` stands for all the ones the code does not mention. The POSIX
values of `std::errc` coincide with `errno` in the generic category, which the
code uses throughout (`src/fs_error.h:34-43`). -/
inductive Errno where
  | ENOENT | ENOTDIR | EACCES | EEXIST | EINVAL | ENOTSUP | ENOSYS | EISDIR | EBADF | ELOOP
  | EOVERFLOW | EPERM | ENOTEMPTY | ENAMETOOLONG | ENOSPC | EROFS | EXDEV | EINTR
  | other (n : Nat)
  deriving DecidableEq, Repr

/-- `std::error_code`: clear or an error. -/
abbrev Code := Option Errno

/-- A parameter `std::error_code *ec`: null (the throwing overloads) or a pointer to
a code with its current value. -/
inductive EcArg where
  | null
  | ref (c : Code)
  deriving DecidableEq, Repr

/-- `(ec != nullptr) && *ec`. -/
def EcArg.isSet : EcArg → Bool
  | .ref (some _) => true
  | _ => false

/-- The value of `*ec`; clear for a null pointer. -/
def EcArg.code : EcArg → Code
  | .ref c => c
  | .null => none

/-- `if (ec != nullptr) { ec->clear(); }` -/
def EcArg.clear : EcArg → EcArg
  | .ref _ => .ref none
  | .null => .null

/-- `if (ec != nullptr) { *ec = c; }` -/
def EcArg.assign : EcArg → Code → EcArg
  | .ref _, c => .ref c
  | .null, _ => .null

/-- `mode_t` and the enum types with underlying type `unsigned`. -/
abbrev Mode := BitVec 32

/-- The fields of `struct stat` the code reads. `st_size` is kept as the 64 bits of
an `off_t`, times are mathematical integers. -/
structure Stat where
  dev : Nat
  ino : Nat
  mode : Mode
  nlink : Nat
  size : BitVec 64
  mtimeSec : Int
  mtimeNsec : Int
  atimeSec : Int := 0
  deriving DecidableEq, Repr

/-- `StatT st = {}`. -/
def Stat.zero : Stat := ⟨0, 0, 0, 0, 0, 0, 0, 0⟩

/-- `d_type` of a directory entry. -/
inductive DType where
  | blk | chr | dir | fifo | lnk | reg | sock | unknown
  deriving DecidableEq, Repr

/-- `struct dirent`. -/
structure Dirent where
  name : Str
  dtype : DType
  deriving DecidableEq, Repr

/-- The fields of `struct statvfs` the code reads (`fsblkcnt_t`, `unsigned long`). -/
structure Statvfs where
  frsize : BitVec 64
  blocks : BitVec 64
  bfree : BitVec 64
  bavail : BitVec 64
  deriving DecidableEq, Repr

/-- Flags of `open` used by the code. -/
structure OFlags where
  write : Bool
  creat : Bool
  nonblock : Bool
  deriving DecidableEq, Repr

/-- File contents. -/
abbrev Bytes := List UInt8

/-- The three tests of a path that the Windows branch of `canonical_impl` makes (`src/fs_ops.cpp:122, 135, 156`). -/
inductive WinTest where
  | isDirectory | isSymlink | exists'
  deriving DecidableEq, Repr

/-! ### Windows

The values that Windows calls take and give. Wide texts are identified with the library's texts. -/

/-- `FILETIME`: `dwLowDateTime`, `dwHighDateTime`. -/
structure FileTime where
  low : BitVec 32
  high : BitVec 32
  deriving DecidableEq, Repr

/-- The arguments of `CreateFileW` in which the library's uses differ: the access asked for, whether all kinds of
sharing are allowed (else none), `FILE_FLAG_BACKUP_SEMANTICS` and `FILE_FLAG_OPEN_REPARSE_POINT`. All uses have
`OPEN_EXISTING`. -/
structure WinOpen where
  access : BitVec 32
  share : Bool
  backup : Bool
  reparse : Bool
  deriving DecidableEq, Repr

/-- The fields of `BY_HANDLE_FILE_INFORMATION` the code reads. -/
structure WinInfo where
  attrs : BitVec 32
  time : FileTime
  volume : BitVec 32
  sizeHigh : BitVec 32
  sizeLow : BitVec 32
  links : BitVec 32
  indexHigh : BitVec 32
  indexLow : BitVec 32
  deriving DecidableEq, Repr

/-- The fields of `WIN32_FILE_ATTRIBUTE_DATA` the code reads. -/
structure WinAttrs where
  attrs : BitVec 32
  sizeHigh : BitVec 32
  sizeLow : BitVec 32
  deriving DecidableEq, Repr

/-- The fields of `WIN32_FIND_DATAW` the code reads; `tag` is `dwReserved0`. -/
structure FindData where
  name : Str
  attrs : BitVec 32
  tag : BitVec 32
  deriving DecidableEq, Repr

/-! Security of files (`src/windows/permissions.cpp`). -/

/-- `TRUSTEE_TYPE` as far as used. -/
inductive SecKind where
  | user | group | wellKnownGroup
  deriving DecidableEq, Repr

/-- `TRUSTEE::ptstrName`: null, a pointer to the owner or the group in a security descriptor, or a name. -/
inductive SecName where
  | null
  | ownerOf (sd : Nat)
  | groupOf (sd : Nat)
  | named (s : Str)
  deriving DecidableEq, Repr

/-- `EXPLICIT_ACCESS`. The inheritance flag is the same in all uses. -/
structure SecAce where
  kind : SecKind
  name : SecName
  deny : Bool
  access : BitVec 32
  deriving DecidableEq, Repr

/-- The calls of `src/windows/permissions.cpp`. Memory is named by numbers. `getInfo` is `GetNamedSecurityInfoW` with or
without `DACL_SECURITY_INFORMATION`: it allocates a security descriptor, in which the identifiers of the owner and of the
group and the access list are. `rights` is `GetEffectiveRightsFromAcl` with the list in `sd`. `equalSid` compares the owner and the group in `sd`.
`alloc` is `LocalAlloc`. `setEntries` is `SetEntriesInAcl`, which allocates the list. `setInfo` is
`SetNamedSecurityInfoW` with `DACL_SECURITY_INFORMATION | PROTECTED_DACL_SECURITY_INFORMATION`. -/
inductive SecCall where
  | getInfo (p : Str) (dacl : Bool)
  | rights (sd : Nat) (kind : SecKind) (name : SecName)
  | equalSid (sd : Nat)
  | alloc
  | free (m : Nat)
  | setEntries (l : List SecAce)
  | setInfo (p : Str) (acl : Nat)
  deriving DecidableEq, Repr

/-- What these calls answer. An error is the value returned, which is not zero; `alloc` answers `none` on failure. -/
@[reducible] def SecCall.Ret : SecCall → Type
  | .getInfo _ _ | .setEntries _ => Except Errno Nat
  | .rights _ _ _ => Except Errno (BitVec 32)
  | .equalSid _ => Bool
  | .alloc => Option Nat
  | .free _ => Unit
  | .setInfo _ _ => Except Errno Unit

/-- A failure, as an answer to any of these calls. -/
def SecCall.fails : (c : SecCall) → c.Ret
  | .getInfo _ _ | .setEntries _ | .rights _ _ _ | .setInfo _ _ => .error (.other 50)
  | .equalSid _ => false
  | .alloc => none
  | .free _ => ()

/-- The calls of the Windows branches. `reparse` is `DeviceIoControl` with `FSCTL_GET_REPARSE_POINT`, `attrTag` is
`GetFileInformationByHandleEx` with `FileAttributeTagInfo`, `getAttrsEx` is `GetFileAttributesExW` with
`GetFileExInfoStandard`, `cwdSize` is `GetCurrentDirectoryW` without a buffer, `lastError` is a `GetLastError` that does
not follow a failing call at once. `getPerms` and `setPerms` are the library's functions `GetPermissions` and
`SetPermissions` (`src/windows/permissions.cpp`) taken as calls; `Verif.Win.Sec` replaces them by the calls `sec` that they
make. -/
inductive WinCall where
  | getAttrs (p : Str)
  | getAttrsEx (p : Str)
  | createFile (p : Str) (o : WinOpen)
  | closeHandle (h : Nat)
  | infoByHandle (h : Nat)
  | attrTag (h : Nat)
  | reparse (h : Nat)
  | getFileType (h : Nat)
  | getFileTime (h : Nat)
  | setFileTime (h : Nat) (t : FileTime)
  | setPointer (h : Nat) (pos : BitVec 64)
  | setEnd (h : Nat)
  | createDirectory (p : Str)
  | createDirectoryEx (template p : Str)
  | createSymlink (link target : Str) (dir : Bool)
  | createHardLink (link target : Str)
  | removeDirectory (p : Str)
  | deleteFile (p : Str)
  | copyFile (a b : Str) (failIfExists : Bool)
  | diskFree (p : Str)
  | cwdSize
  | getCwd (cap : Nat)
  | setCwd (p : Str)
  | tempPath
  | getPerms (p : Str) (attrs : BitVec 32)
  | setPerms (p : Str) (prms : Mode)
  | findFirst (p : Str)
  | findNext (h : Nat)
  | findClose (h : Nat)
  | lastError
  | sec (c : SecCall)
  deriving DecidableEq, Repr

/-- What a Windows call answers. An error is the value of `GetLastError`, non-zero as `capture_errno` asserts
(`src/fs_error.h:41`), as an error of the generic category (`Errno.ofWin`). `cwdSize` answers 0 on failure.
`getCwd` answers `none` if the buffer is too small. `tempPath` fails if the return value is 0 or too large; in the latter
case the last error may be 0. The answer of `reparse` is the buffer, in units of 16 bits; the answer of `diskFree` are
the bytes available to the caller, in total and free. -/
@[reducible] def WinCall.Ret : WinCall → Type
  | .getAttrs _ | .attrTag _ => Except Errno (BitVec 32)
  | .getAttrsEx _ => Except Errno WinAttrs
  | .createFile _ _ => Except Errno Nat
  | .infoByHandle _ => Except Errno WinInfo
  | .reparse _ => Except Errno (List (BitVec 16))
  | .getFileType _ => BitVec 32
  | .getFileTime _ => Except Errno FileTime
  | .diskFree _ => Except Errno (BitVec 64 × BitVec 64 × BitVec 64)
  | .cwdSize => Nat
  | .getCwd _ => Except Errno (Option Str)
  | .tempPath => Except Code Str
  | .getPerms _ _ => Except Errno Mode
  | .findFirst _ => Except Errno (Nat × FindData)
  | .findNext _ => Except Errno FindData
  | .lastError => Code
  | .sec c => c.Ret
  | .closeHandle _ | .setFileTime _ _ | .setPointer _ _ | .setEnd _ | .createDirectory _ | .createDirectoryEx _ _
  | .createSymlink _ _ _ | .createHardLink _ _ | .removeDirectory _ | .deleteFile _ | .copyFile _ _ _ | .setCwd _
  | .setPerms _ _ | .findClose _ => Except Errno Unit

/-- Windows calls that can change a file, a directory or the working directory. -/
def WinCall.mutates : WinCall → Bool
  | .setFileTime _ _ | .setEnd _ | .createDirectory _ | .createDirectoryEx _ _
  | .createSymlink _ _ _ | .createHardLink _ _ | .removeDirectory _ | .deleteFile _ | .copyFile _ _ _ | .setCwd _
  | .setPerms _ _ | .sec (.setInfo _ _) => true
  | _ => false

/-- A failure, as an answer to any Windows call. -/
def WinCall.fails : (c : WinCall) → c.Ret
  | .getAttrs _ | .attrTag _ | .getAttrsEx _ | .createFile _ _ | .infoByHandle _ | .reparse _ | .getFileTime _
  | .diskFree _ | .getCwd _ | .getPerms _ _ | .findFirst _ | .findNext _
  | .closeHandle _ | .setFileTime _ _ | .setPointer _ _ | .setEnd _ | .createDirectory _ | .createDirectoryEx _ _
  | .createSymlink _ _ _ | .createHardLink _ _ | .removeDirectory _ | .deleteFile _ | .copyFile _ _ _ | .setCwd _
  | .setPerms _ _ | .findClose _ => .error (.other 50)
  | .getFileType _ => 0
  | .cwdSize => (0 : Nat)
  | .tempPath => .error none
  | .lastError => (none : Code)
  | .sec c => c.fails

/-- Calls of the builds for other POSIX systems: `copyfile_state_alloc`, `copyfile_state_free` and `fcopyfile` with `COPYFILE_DATA`
(`src/fs_ops.cpp:345-367`), `utime` (`src/fs_ops.cpp:1132-1144`) and `chmod` (`src/fs_ops.cpp:1201-1205`). -/
inductive PortCall where
  | copyfileAlloc
  | copyfileFree (state : Option Nat)
  | fcopyfile (inp out : Nat) (state : Option Nat)
  | utime (p : Str) (actime modtime : Int)
  | chmod (p : Str) (mode : Mode)
  deriving DecidableEq, Repr

/-- What they answer. -/
@[reducible] def PortCall.Ret : PortCall → Type
  | .copyfileAlloc => Option Nat
  | _ => Except Errno Unit

/-- Some answer. -/
def PortCall.fails : (c : PortCall) → c.Ret
  | .copyfileAlloc => (none : Option Nat)
  | .copyfileFree _ | .fcopyfile _ _ _ | .utime _ _ _ | .chmod _ _ => (.error .EINVAL : Except Errno Unit)

/-- Those that can change a file. -/
def PortCall.mutates : PortCall → Bool
  | .fcopyfile _ _ _ | .utime _ _ _ | .chmod _ _ => true
  | _ => false

/-- The system and C library calls the POSIX branch makes. Paths are passed as
their text; simplified: the whole text, while `c_str()` ends at a null character (`Spec.Prog.asC`, C120).
`winTest` and `winReadlink` are for the Windows branch of `canonical_impl` only: there the library's own functions
`is_directory(p, ec)`, `is_symlink(p, ec)`, `exists(p, ec)` and `read_symlink(p, ec)` are taken as calls. `win` are
the calls of the Windows branches, `port` those of the builds for other POSIX systems. -/
inductive Sys where
  | stat (p : Str)
  | lstat (p : Str)
  | mkdir (p : Str) (mode : Mode)
  | remove (p : Str)
  | rename (a b : Str)
  | truncate (p : Str) (len : BitVec 64)
  | symlink (target link : Str)
  | link (target link : Str)
  | readlink (p : Str) (cap : Nat)
  | chdir (p : Str)
  | getcwd (cap : Nat)
  | pathconf
  | realpath (p : Str)
  | openf (p : Str) (fl : OFlags) (mode : Mode)
  | close (fd : Nat)
  | fchmod (fd : Nat) (mode : Mode)
  | ftruncate (fd : Nat) (len : Nat)
  | sendfile (out inp : Nat) (count : Nat)
  | read (fd : Nat) (cap : Nat)
  | write (fd : Nat) (data : Bytes)
  | fchmodat (p : Str) (mode : Mode) (nofollow : Bool)
  | utimensat (p : Str) (sec nsec : Int)
  | statvfs (p : Str)
  | getenv (name : Str)
  | opendir (p : Str)
  | readdir (d : Nat)
  | closedir (d : Nat)
  | winTest (q : WinTest) (p : Str)
  | winReadlink (p : Str)
  | win (c : WinCall)
  | port (c : PortCall)
  deriving DecidableEq, Repr

/-- What a call answers. A failing call sets `errno` to a non-zero value, as
`capture_errno` asserts (`src/fs_error.h:41`). `readdir` answers `none` at the end. A Windows test answers its
value and the error code it leaves. -/
@[reducible] def Sys.Ret : Sys → Type
  | .stat _ | .lstat _ => Except Errno Stat
  | .readlink _ _ | .getcwd _ | .realpath _ | .winReadlink _ => Except Errno Str
  | .winTest _ _ => Bool × Code
  | .win c => c.Ret
  | .port c => c.Ret
  | .pathconf => Int
  | .openf _ _ _ | .opendir _ => Except Errno Nat
  | .sendfile _ _ _ | .write _ _ => Except Errno Nat
  | .read _ _ => Except Errno Bytes
  | .statvfs _ => Except Errno Statvfs
  | .getenv _ => Option Str
  | .readdir _ => Except Errno (Option Dirent)
  | .mkdir _ _ | .remove _ | .rename _ _ | .truncate _ _ | .symlink _ _ | .link _ _ | .chdir _
  | .close _ | .fchmod _ _ | .ftruncate _ _ | .fchmodat _ _ _ | .utimensat _ _ _ | .closedir _ =>
    Except Errno Unit

/-- Calls that can change a file, a directory or the working directory. `open` only
with `O_CREAT`; opening for writing alone changes nothing (no `O_TRUNC` is
ever used). -/
def Sys.mutates : Sys → Bool
  | .mkdir _ _ | .remove _ | .rename _ _ | .truncate _ _ | .symlink _ _ | .link _ _ | .chdir _
  | .fchmod _ _ | .ftruncate _ _ | .fchmodat _ _ _ | .utimensat _ _ _
  | .sendfile _ _ _ | .write _ _ => true
  | .openf _ fl _ => fl.creat
  | .win c => c.mutates
  | .port c => c.mutates
  | _ => false

/-- `filesystem_error` (`include/filesystem/filesystem_error.h:49-84`): the message
passed to the constructor, the number of path arguments of the constructor
called, the paths and the code. -/
structure FsError where
  msg : Str
  npaths : Nat
  path1 : Path
  path2 : Path
  code : Code
  deriving DecidableEq, Repr

/-- Abnormal ends of a library call: an exception, a fault of `class path`
(undefined behaviour, foreign exceptions, assertions), or more loop iterations
than the bound given. -/
inductive Stop where
  | thrown (e : FsError)
  | fault (f : Fault)
  | fuel
  deriving DecidableEq, Repr

/-- A library call. -/
inductive Prog (α : Type) : Type where
  | ret (a : α)
  | stop (s : Stop)
  | call (c : Sys) (k : c.Ret → Prog α)

namespace Prog
variable {α β γ : Type}

/-- Sequencing. -/
def bind : Prog α → (α → Prog β) → Prog β
  | .ret a, f => f a
  | .stop s, _ => .stop s
  | .call c k, f => .call c (fun r => (k r).bind f)

instance : Monad Prog where
  pure := .ret
  bind := bind

/-- One system call. -/
def sys (c : Sys) : Prog c.Ret := .call c .ret

/-- A path operation. -/
def ofRes : Res α → Prog α
  | .ok a => .ret a
  | .error f => .stop (.fault f)

/-- `p` with a destructor: `c` runs when `p` returns or throws. Undefined behaviour,
failed assertions and running out of fuel end everything. -/
def finally' : Prog α → Prog Unit → Prog α
  | .ret a, c => c.bind fun _ => .ret a
  | .stop (.thrown e), c => c.bind fun _ => .stop (.thrown e)
  | .stop s, _ => .stop s
  | .call c k, d => .call c (fun r => (k r).finally' d)

@[simp] theorem pure_eq (a : α) : (pure a : Prog α) = .ret a := rfl
@[simp] theorem bind_eq (p : Prog α) (f : α → Prog β) : (p >>= f) = p.bind f := rfl
@[simp] theorem ret_bind (a : α) (f : α → Prog β) : (Prog.ret a).bind f = f a := rfl
@[simp] theorem stop_bind (s : Stop) (f : α → Prog β) : (Prog.stop s : Prog α).bind f = .stop s := rfl
@[simp] theorem call_bind (c : Sys) (k : c.Ret → Prog α) (f : α → Prog β) :
    (Prog.call c k).bind f = .call c (fun r => (k r).bind f) := rfl
@[simp] theorem ofRes_ok (a : α) : ofRes (.ok a) = .ret a := rfl
@[simp] theorem ofRes_error (f : Fault) : (ofRes (.error f) : Prog α) = .stop (.fault f) := rfl

@[simp] theorem bind_ret (p : Prog α) : p.bind .ret = p := by
  induction p with
  | ret a => rfl
  | stop s => rfl
  | call c k ih => simp only [call_bind, ih]

theorem bind_assoc (p : Prog α) (f : α → Prog β) (g : β → Prog γ) :
    (p.bind f).bind g = p.bind fun a => (f a).bind g := by
  induction p with
  | ret a => rfl
  | stop s => rfl
  | call c k ih => simp only [call_bind, ih]

end Prog

/-- One system call and its answer. -/
structure Event where
  call : Sys
  ret : call.Ret

/-- `Exec p t o`: one possible execution of `p`. The operating system answered as
recorded in the trace `t`, and `p` ended with `o`. -/
inductive Exec {α : Type} : Prog α → List Event → Except Stop α → Prop where
  | ret (a : α) : Exec (.ret a) [] (.ok a)
  | stop (s : Stop) : Exec (.stop s) [] (.error s)
  | call (c : Sys) (k : c.Ret → Prog α) (r : c.Ret) (t : List Event) (o : Except Stop α) :
      Exec (k r) t o → Exec (.call c k) (⟨c, r⟩ :: t) o

/-- An operating system: any state, any way of answering. -/
structure Machine where
  State : Type
  step : (c : Sys) → State → c.Ret × State

/-- Run a library call on an operating system: outcome, trace and final state. -/
def Prog.run {α : Type} (m : Machine) : Prog α → m.State → Except Stop α × List Event × m.State
  | .ret a, s => (.ok a, [], s)
  | .stop x, s => (.error x, [], s)
  | .call c k, s =>
    let (r, s') := m.step c s
    let (o, t, s'') := (k r).run m s'
    (o, ⟨c, r⟩ :: t, s'')

/-- Every run is an execution. -/
theorem run_exec {α : Type} (m : Machine) (p : Prog α) (s : m.State) :
    Exec p (p.run m s).2.1 (p.run m s).1 := by
  induction p generalizing s with
  | ret a => exact .ret a
  | stop x => exact .stop x
  | call c k ih => exact .call c k _ _ _ (ih _ _)

/-- Given the answers, an execution is determined. -/
theorem Exec.det {α : Type} {p : Prog α} {t : List Event} {o o' : Except Stop α}
    (h : Exec p t o) (h' : Exec p t o') : o = o' := by
  induction h with
  | ret a => cases h'; rfl
  | stop s => cases h'; rfl
  | call c k r t o _ ih => cases h' with | call _ _ _ _ _ h2 => exact ih h2

/-- Executions of a sequence. -/
theorem exec_bind {α β : Type} {p : Prog α} {f : α → Prog β} {t : List Event} {o : Except Stop β} :
    Exec (p.bind f) t o ↔
      (∃ s, Exec p t (.error s) ∧ o = .error s) ∨
      (∃ a t1 t2, t = t1 ++ t2 ∧ Exec p t1 (.ok a) ∧ Exec (f a) t2 o) := by
  constructor
  · intro h
    induction p generalizing t with
    | ret a => exact .inr ⟨a, [], t, rfl, .ret a, h⟩
    | stop s => cases h; exact .inl ⟨s, .stop s, rfl⟩
    | call c k ih =>
      cases h with
      | call _ _ r t' _ h =>
        rcases ih r h with ⟨s, h1, h2⟩ | ⟨a, t1, t2, h1, h2, h3⟩
        · exact .inl ⟨s, .call _ _ _ _ _ h1, h2⟩
        · exact .inr ⟨a, ⟨c, r⟩ :: t1, t2, by rw [h1]; rfl, .call _ _ _ _ _ h2, h3⟩
  · rintro (⟨s, h1, rfl⟩ | ⟨a, t1, t2, rfl, h1, h2⟩)
    · induction p generalizing t with
      | ret a => cases h1
      | stop s' => cases h1; exact .stop _
      | call c k ih => cases h1 with | call _ _ r t' _ h => exact .call _ _ _ _ _ (ih r h)
    · induction p generalizing t1 with
      | ret a => cases h1; exact h2
      | stop s' => cases h1
      | call c k ih => cases h1 with | call _ _ r t' _ h => exact .call _ _ _ _ _ (ih r t' h)

/-- Executions of a system call. -/
theorem exec_call {α : Type} {c : Sys} {k : c.Ret → Prog α} {t : List Event} {o : Except Stop α} :
    Exec (.call c k) t o ↔ ∃ r t', t = ⟨c, r⟩ :: t' ∧ Exec (k r) t' o := by
  constructor
  · intro h; cases h with | call _ _ r t' _ h => exact ⟨r, t', rfl, h⟩
  · rintro ⟨r, t', rfl, h⟩; exact .call _ _ _ _ _ h

@[simp] theorem exec_ret {α : Type} {a : α} {t : List Event} {o : Except Stop α} :
    Exec (.ret a) t o ↔ t = [] ∧ o = .ok a := by
  constructor
  · intro h; cases h; exact ⟨rfl, rfl⟩
  · rintro ⟨rfl, rfl⟩; exact .ret a

@[simp] theorem exec_stop {α : Type} {s : Stop} {t : List Event} {o : Except Stop α} :
    Exec (.stop s : Prog α) t o ↔ t = [] ∧ o = .error s := by
  constructor
  · intro h; cases h; exact ⟨rfl, rfl⟩
  · rintro ⟨rfl, rfl⟩; exact .stop s

end Asap
