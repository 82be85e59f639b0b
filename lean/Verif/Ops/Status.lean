import Verif.Os.Prog

/-!
# Error reporting and file status

Models `src/fs_error.h`, `src/posix/stat.cpp`, `fs_file_status.h`, `fs_file_type.h`,
`fs_perms.h` and the status predicates of `fs_ops.h`.
-/

namespace Asap

/-! ## Error reporting -/

/-- `ErrorHandler<T>` (`src/fs_error.h:86-147`) without the pointer `ec`, which is
threaded through the programs. -/
structure Handler where
  fn : Str
  p1 : Option Path
  p2 : Option Path

/-- The exception constructed by `ErrorHandler::report` (`src/fs_error.h:103-143`). -/
def Handler.error (h : Handler) (what : Str) (c : Code) : FsError :=
  match h.p1, h.p2 with
  | some a, some b => ⟨what, 2, a, b, c⟩
  | some a, none => ⟨what, 1, a, .default, c⟩
  | none, _ => ⟨what, 0, .default, .default, c⟩

/-- `ErrorHandler::report(m_ec)` (`src/fs_error.h:103-119`); `dflt` is
`error_value<T>()` (`src/fs_error.h:45-84`). -/
def Handler.report {α : Type} (h : Handler) (ec : EcArg) (c : Code) (dflt : α) : Prog (α × EcArg) :=
  match ec with
  | .ref _ => .ret (dflt, .ref c)
  | .null => .stop (.thrown (h.error ("in ".toList ++ h.fn) c))

/-- `ErrorHandler::report(m_ec, msg)` (`src/fs_error.h:121-138`). -/
def Handler.reportMsg {α : Type} (h : Handler) (ec : EcArg) (c : Code) (msg : Str) (dflt : α) :
    Prog (α × EcArg) :=
  match ec with
  | .ref _ => .ret (dflt, .ref c)
  | .null => .stop (.thrown (h.error ("in ".toList ++ h.fn ++ ": ".toList ++ msg) c))

/-- `filesystem_error::what` as built by `create_what` (`src/filesystem_error.cpp:14-27`
from `filesystem_error.h:52-66`). `sysWhat` is `std::system_error::what()` for
the message and code. -/
def FsError.what (sysWhat : Str → Code → Str) (e : FsError) : Str :=
  let quoted (p : Path) : Str := if p.pathname.isEmpty then "\"\"".toList else p.pathname
  let base := "filesystem error: ".toList ++ sysWhat e.msg e.code
  let one := if e.npaths = 1 then base ++ " [".toList ++ quoted e.path1 ++ "]".toList else base
  if e.npaths = 2 then one ++ " [".toList ++ quoted e.path2 ++ "]".toList else one

/-! ## Status -/

/-- `file_type` (`include/filesystem/fs_file_type.h:17-34`); the last one (`reparse_file`) only exists on Windows. -/
inductive FType where
  | none | notFound | regular | directory | symlink | block | character | fifo | socket | unknown | reparse
  deriving DecidableEq, Repr

/-- `perms` (`include/filesystem/fs_perms.h:25-45`). -/
abbrev Perms := Mode

/-- `perms` enumerators (`include/filesystem/fs_perms.h:25-45`), with the values
in the source (`set_gid` and `sticky_bit` are `00`). -/
def Perms.none : Perms := 0
def Perms.ownerRead : Perms := 0o400
def Perms.ownerWrite : Perms := 0o200
def Perms.ownerExec : Perms := 0o100
def Perms.ownerAll : Perms := 0o700
def Perms.groupRead : Perms := 0o40
def Perms.groupWrite : Perms := 0o20
def Perms.groupExec : Perms := 0o10
def Perms.groupAll : Perms := 0o70
def Perms.othersRead : Perms := 0o4
def Perms.othersWrite : Perms := 0o2
def Perms.othersExec : Perms := 0o1
def Perms.othersAll : Perms := 0o7
def Perms.all : Perms := 0o777
def Perms.setUid : Perms := 0o4000
def Perms.setGid : Perms := 0o0
def Perms.stickyBit : Perms := 0o0
def Perms.mask : Perms := 0o7777
def Perms.unknown : Perms := 0xFFFF

/-- `file_status` (`include/filesystem/fs_file_status.h:23-71`); the permissions
default to `perms::unknown`. -/
structure FStatus where
  type : FType
  perms : Perms := Perms.unknown
  deriving DecidableEq, Repr

/-- `status_known` (`include/filesystem/fs_ops.h:234-236`). -/
def FStatus.known (s : FStatus) : Bool := s.type != .none
/-- `exists(file_status)` (`include/filesystem/fs_ops.h:238-240`). -/
def FStatus.exists' (s : FStatus) : Bool := s.known && s.type != .notFound
/-- `is_directory(file_status)` (`include/filesystem/fs_ops.h:302-304`). -/
def FStatus.isDirectory (s : FStatus) : Bool := s.type == .directory
/-- `is_regular_file(file_status)` (`include/filesystem/fs_ops.h:329-331`). -/
def FStatus.isRegular (s : FStatus) : Bool := s.type == .regular
/-- `is_symlink(file_status)` (`include/filesystem/fs_ops.h:354-356`). -/
def FStatus.isSymlink (s : FStatus) : Bool := s.type == .symlink
/-- `is_block_file(file_status)` (`include/filesystem/fs_ops.h:277-279`). -/
def FStatus.isBlock (s : FStatus) : Bool := s.type == .block
/-- `is_character_file(file_status)` (`include/filesystem/fs_ops.h:289-291`). -/
def FStatus.isCharacter (s : FStatus) : Bool := s.type == .character
/-- `is_fifo(file_status)` (`include/filesystem/fs_ops.h:320-322`). -/
def FStatus.isFifo (s : FStatus) : Bool := s.type == .fifo
/-- `is_socket(file_status)` (`include/filesystem/fs_ops.h:342-344`). -/
def FStatus.isSocket (s : FStatus) : Bool := s.type == .socket
/-- `is_other(file_status)` (`include/filesystem/fs_ops.h:366-369`). -/
def FStatus.isOther (s : FStatus) : Bool :=
  s.exists' && !s.isRegular && !s.isDirectory && !s.isSymlink

/-- The macros `S_ISLNK` … `S_ISSOCK` in the order tested at
`src/posix/stat.cpp:38-54`, with the values of `S_IFMT` and `S_IFxxx` in
`<sys/stat.h>` on Linux. -/
def typeOfMode (m : Mode) : FType :=
  let f := m &&& 0o170000
  if f = 0o120000 then .symlink
  else if f = 0o100000 then .regular
  else if f = 0o040000 then .directory
  else if f = 0o060000 then .block
  else if f = 0o020000 then .character
  else if f = 0o010000 then .fifo
  else if f = 0o140000 then .socket
  else .unknown

/-- `CreateFileStatus` (`src/posix/stat.cpp:20-58`). `st` is the structure filled
by the call, absent if the call failed. -/
def createFileStatus (m : Code) (p : Path) (st : Option Stat) (ec : EcArg) : Prog (FStatus × EcArg) :=
  let ec := ec.assign m
  match m, st with
  | some .ENOENT, _ | some .ENOTDIR, _ => .ret ({ type := .notFound }, ec)
  | some e, _ => do
    let h : Handler := ⟨"file_stat".toList, some p, none⟩
    let ec := ec.clear
    let ((), ec) ← h.reportMsg ec (some e) "failed to determine attributes for the specified path".toList ()
    .ret ({ type := .none }, ec)
  | none, some st => .ret ({ type := typeOfMode st.mode, perms := st.mode &&& Perms.mask }, ec)
  | none, none => .stop (.fault .ub)

/-- Read a `StatT` variable: undefined if it was never filled. -/
def Prog.useStat : Option Stat → Prog Stat
  | some st => .ret st
  | none => .stop (.fault .ub)

/-- `GetFileStatus` (`src/posix/stat.cpp:60-67`). `st0` is what the caller's
structure holds before (`none` if uninitialised); a failed `stat` leaves it. -/
def getFileStatus (p : Path) (st0 : Option Stat) (ec : EcArg) : Prog ((FStatus × Option Stat) × EcArg) :=
  .call (.stat p.pathname) fun
    | .ok st => do
      let (s, ec) ← createFileStatus none p (some st) ec
      .ret ((s, some st), ec)
    | .error e => do
      let (s, ec) ← createFileStatus (some e) p none ec
      .ret ((s, st0), ec)

/-- `GetLinkStatus` (`src/posix/stat.cpp:69-76`). -/
def getLinkStatus (p : Path) (st0 : Option Stat) (ec : EcArg) : Prog ((FStatus × Option Stat) × EcArg) :=
  .call (.lstat p.pathname) fun
    | .ok st => do
      let (s, ec) ← createFileStatus none p (some st) ec
      .ret ((s, some st), ec)
    | .error e => do
      let (s, ec) ← createFileStatus (some e) p none ec
      .ret ((s, st0), ec)

/-- `status_impl`, `status` (`src/fs_ops.cpp:1440, 1484-1485`, `fs_ops.h:501-505`). -/
def status (p : Path) (ec : EcArg) : Prog (FStatus × EcArg) := do
  let ((s, _), ec) ← getFileStatus p none ec
  .ret (s, ec)

/-- `symlink_status_impl`, `symlink_status` (`src/fs_ops.cpp:1488, 1514-1515`,
`fs_ops.h:507-514`). -/
def symlinkStatus (p : Path) (ec : EcArg) : Prog (FStatus × EcArg) := do
  let ((s, _), ec) ← getLinkStatus p none ec
  .ret (s, ec)

/-- `exists(p)` and `exists(p, ec)` (`include/filesystem/fs_ops.h:242-250`). -/
def existsP (p : Path) (ec : EcArg) : Prog (Bool × EcArg) := do
  let (s, ec) ← status p ec
  .ret (s.exists', if s.known then ec.clear else ec)

/-- `is_xxx(p)` and `is_xxx(p, ec)` for the predicates that follow links
(`include/filesystem/fs_ops.h:277-376`). -/
def isTypeP (f : FStatus → Bool) (p : Path) (ec : EcArg) : Prog (Bool × EcArg) := do
  let (s, ec) ← status p ec
  .ret (f s, ec)

/-- `is_directory(p)` and `is_directory(p, ec)` (`include/filesystem/fs_ops.h:306-312`). -/
def isDirectoryP := isTypeP FStatus.isDirectory

/-- `is_symlink(p)` and `is_symlink(p, ec)` (`include/filesystem/fs_ops.h:358-364`). -/
def isSymlinkP (p : Path) (ec : EcArg) : Prog (Bool × EcArg) := do
  let (s, ec) ← symlinkStatus p ec
  .ret (s.isSymlink, ec)

end Asap
