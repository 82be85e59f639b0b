import Verif.Win.Time
import Verif.Win.Perms
import Verif.Ops.Simple

/-!
# Windows: error values, handles, status

`src/windows/stat.cpp`, `FileDescriptor` in `src/fs_portability.h`, and the Windows branches of `status_impl`
and `symlink_status_impl` in `src/fs_ops.cpp`.
-/

namespace Asap

/-- `std::error_code{n, std::generic_category()}` with `n` the value of `GetLastError()` (`src/fs_error.h:34-43`): the
error with the number `n` in Microsoft's `<errno.h>`. -/
def Errno.ofWin : Nat → Errno
  | 1 => .EPERM | 2 => .ENOENT | 4 => .EINTR | 9 => .EBADF | 13 => .EACCES | 17 => .EEXIST | 18 => .EXDEV
  | 20 => .ENOTDIR | 21 => .EISDIR | 22 => .EINVAL | 28 => .ENOSPC | 30 => .EROFS | 38 => .ENAMETOOLONG
  | 40 => .ENOSYS | 41 => .ENOTEMPTY | 114 => .ELOOP | 129 => .ENOTSUP | 132 => .EOVERFLOW
  | n => .other n

/-- `std::error_code::value()`. -/
def Errno.winValue : Errno → Nat
  | .EPERM => 1 | .ENOENT => 2 | .EINTR => 4 | .EBADF => 9 | .EACCES => 13 | .EEXIST => 17 | .EXDEV => 18
  | .ENOTDIR => 20 | .EISDIR => 21 | .EINVAL => 22 | .ENOSPC => 28 | .EROFS => 30 | .ENAMETOOLONG => 38
  | .ENOSYS => 40 | .ENOTEMPTY => 41 | .ELOOP => 114 | .ENOTSUP => 129 | .EOVERFLOW => 132
  | .other n => n

theorem Errno.winValue_ofWin (n : Nat) : (Errno.ofWin n).winValue = n := by
  unfold Errno.ofWin
  split <;> rfl

namespace Win

/-! Values from `winerror.h`, `winnt.h` and `winbase.h`. -/
def ERROR_FILE_NOT_FOUND : Nat := 2
def ERROR_PATH_NOT_FOUND : Nat := 3
def ERROR_ACCESS_DENIED : Nat := 5
def ERROR_INVALID_HANDLE : Nat := 6
def ERROR_NO_MORE_FILES : Nat := 18
def ERROR_SHARING_VIOLATION : Nat := 32
def ERROR_ALREADY_EXISTS : Nat := 183
def FILE_ATTRIBUTE_REPARSE_POINT : Mask := 0x400#32
def IO_REPARSE_TAG_SYMLINK : Mask := 0xA000000C#32
def IO_REPARSE_TAG_MOUNT_POINT : Mask := 0xA0000003#32
def FILE_TYPE_DISK : Mask := 1#32
def FILE_TYPE_CHAR : Mask := 2#32
def FILE_TYPE_PIPE : Mask := 3#32
def MAX_PATH : Nat := 260

/-- `(attrs & flag) != 0`. -/
def has (attrs flag : Mask) : Bool := (attrs &&& flag) != 0#32

/-- The arguments of `CreateFileW` to look at what a path leads to: no access, all sharing,
`FILE_FLAG_BACKUP_SEMANTICS` (e.g. `src/fs_ops.cpp:857-859`). -/
def follow : WinOpen := ⟨0#32, true, true, false⟩

/-- As `follow`, with `FILE_FLAG_OPEN_REPARSE_POINT` (e.g. `src/fs_dir_iterator.cpp:57-60`). -/
def noFollow : WinOpen := ⟨0#32, true, true, true⟩

/-- To read a reparse point (`src/windows/stat.cpp:83-87, 119-123`). -/
def openReparse : WinOpen := ⟨FILE_READ_EA, true, true, true⟩

/-- `FileDescriptor::Close` (`src/fs_portability.h:312-321`), run by the destructor. -/
def closeHandle (h : Nat) : Prog Unit := .call (.win (.closeHandle h)) fun _ => .ret ()

/-- A scope with `auto file = FileDescriptor::Create(&p, m_ec, ...)` (`src/fs_portability.h:275-292`): `fail` is the
scope when it sets `m_ec`, `body` otherwise; then the destructor. -/
def withFile {α : Type} (p : Path) (o : WinOpen) (fail : Errno → Prog α) (body : Nat → Prog α) : Prog α :=
  .call (.win (.createFile p.pathname o)) fun
    | .error e => fail e
    | .ok h => Prog.finally' (body h) (closeHandle h)

/-- `capture_errno()` (`src/fs_error.h:34-43`) that does not follow a failing call at once. -/
def captureErrno : Prog Errno :=
  .call (.win .lastError) fun (c : Code) =>
    match c with
    | none => .stop (.fault .assertFail)
    | some e => .ret e

/-- `ProcessStatusFailure` (`src/windows/stat.cpp:148-177`) with a set error. `ErrorHandler` is only made if `ec` is
not null, so nothing is thrown. -/
def processStatusFailure (e : Errno) (ec : EcArg) : FStatus × EcArg :=
  if isNotFoundError e.winValue then (⟨.notFound, Perms.none⟩, ec.assign (some e))
  else if e.winValue = ERROR_SHARING_VIOLATION then ({ type := .unknown }, ec.assign (some e))
  else if e.winValue = ERROR_ACCESS_DENIED then ({ type := .none }, ec.assign (some .EACCES))
  else ({ type := .none }, ec.assign (some e))

/-- The size of `info.buf` in units of `wchar_t` (`src/windows/stat.cpp:90-94`): 8 bytes of header and
`MAXIMUM_REPARSE_DATA_BUFFER_SIZE`, 16 KiB. -/
def bufUnits : Nat := 8196

/-- The unit at index `i` of a zeroed buffer of which `ws` has been filled (`src/windows/stat.cpp:126-130`). -/
def unit (ws : List (BitVec 16)) (i : Nat) : BitVec 16 := ws.getD i 0#16

/-- `info.rdb.ReparseTag` (`src/windows/stat.cpp:16-17`), little endian. Simplified: `DeviceIoControl` succeeding
always fills it. -/
def reparseTag (ws : List (BitVec 16)) : Mask := unit ws 1 ++ unit ws 0

/-- The test of a tag (`src/windows/stat.cpp:103-107`, `src/fs_dir_iterator.cpp:596-603`). -/
def isLinkTag (tag : Mask) : Bool := tag == IO_REPARSE_TAG_SYMLINK || tag == IO_REPARSE_TAG_MOUNT_POINT

/-- `IsReparsePointSymlink` (`src/windows/stat.cpp:79-108`). -/
def isReparsePointSymlink (p : Path) (ec : EcArg) : Prog (Bool × EcArg) :=
  let h : Handler := ⟨"IsReparsePointSymlink".toList, some p, none⟩
  let ec := ec.clear
  withFile p openReparse (fun e => h.report ec (some e) false) fun fd =>
    .call (.win (.reparse fd)) fun
      | .error e => h.report ec (some e) false
      | .ok ws => .ret (isLinkTag (reparseTag ws), ec)

/-- The attributes `status_impl` goes on with (`src/fs_ops.cpp:1455-1472`): those of the target of a reparse point. -/
def targetAttrs (p : Path) (attrs : Mask) : Prog (Except Errno Mask) :=
  if has attrs FILE_ATTRIBUTE_REPARSE_POINT then
    withFile p follow (fun e => .ret (.error e)) fun fd =>
      .call (.win (.attrTag fd)) fun
        | .error e => .ret (.error e)
        | .ok a => .ret (.ok a)
  else .ret (.ok attrs)

/-- `status_impl`, `status` on Windows (`src/fs_ops.cpp:1440-1483`, `include/filesystem/fs_ops.h:501-505`). -/
def status (p : Path) (ec : EcArg) : Prog (FStatus × EcArg) :=
  let ec := ec.clear
  .call (.win (.getAttrs p.pathname)) fun
    | .error e => .ret (processStatusFailure e ec)
    | .ok attrs => (targetAttrs p attrs).bind fun
      | .error e => .ret (processStatusFailure e ec)
      | .ok attrs => .call (.win (.getPerms p.pathname attrs)) fun
        | .error e => .ret (processStatusFailure e ec)
        | .ok prms =>
          .ret (⟨if has attrs FILE_ATTRIBUTE_DIRECTORY then .directory else .regular, prms⟩, ec)

/-- `symlink_status_impl`, `symlink_status` on Windows (`src/fs_ops.cpp:1488-1512`,
`include/filesystem/fs_ops.h:507-514`). -/
def symlinkStatus (p : Path) (ec : EcArg) : Prog (FStatus × EcArg) :=
  let ec := ec.clear
  .call (.win (.getAttrs p.pathname)) fun
    | .error e => .ret (processStatusFailure e ec)
    | .ok attrs => .call (.win (.getPerms p.pathname attrs)) fun
      | .error e => .ret (processStatusFailure e ec)
      | .ok prms =>
        if has attrs FILE_ATTRIBUTE_REPARSE_POINT then
          (isReparsePointSymlink p ec).bind fun x =>
            .ret (⟨if x.1 then .symlink else .reparse, prms⟩, x.2)
        else .ret (⟨if has attrs FILE_ATTRIBUTE_DIRECTORY then .directory else .regular, prms⟩, ec)

/-- `exists(p)` and `exists(p, ec)` (`include/filesystem/fs_ops.h:242-250`) on Windows. -/
def existsP (p : Path) (ec : EcArg) : Prog (Bool × EcArg) :=
  (status p ec).bind fun x => .ret (x.1.exists', if x.1.known then x.2.clear else x.2)

/-- `is_directory(p)` and `is_directory(p, ec)` (`include/filesystem/fs_ops.h:306-312`) on Windows. -/
def isDirectoryP (p : Path) (ec : EcArg) : Prog (Bool × EcArg) :=
  (status p ec).bind fun x => .ret (x.1.isDirectory, x.2)

/-- `is_symlink(p)` and `is_symlink(p, ec)` (`include/filesystem/fs_ops.h:358-364`) on Windows. -/
def isSymlinkP (p : Path) (ec : EcArg) : Prog (Bool × EcArg) :=
  (symlinkStatus p ec).bind fun x => .ret (x.1.isSymlink, x.2)

/-- A `wchar_t` as a character. Simplified: no surrogate pairs. -/
def wide (w : BitVec 16) : Char := Char.ofNat w.toNat

/-- The units from index `i` on, `n` of them (`src/windows/stat.cpp:138-146`). -/
def units (ws : List (BitVec 16)) (i n : Nat) : List (BitVec 16) := (List.range n).map fun k => unit ws (i + k)

/-- The result of `ReadSymlinkFromReparsePoint` on a filled buffer (`src/windows/stat.cpp:138-146`): the print name of
`SymbolicLinkReparseBuffer`, whose `PathBuffer` is at unit 10. Reading past the buffer is undefined. -/
def printName (ws : List (BitVec 16)) : Res Path :=
  let start := 10 + (unit ws 6).toNat / 2
  let len := (unit ws 7).toNat / 2
  if start + len ≤ bufUnits then .ok (mkPath .windows ((units ws start len).map wide)) else .error .ub

/-- `read_symlink_impl` on Windows, `ReadSymlinkFromReparsePoint` (`src/fs_ops.cpp:1214-1216`,
`src/windows/stat.cpp:110-147`). -/
def readSymlink (p : Path) (ec : EcArg) : Prog (Path × EcArg) :=
  let h : Handler := ⟨"read_symlink".toList, some p, none⟩
  let ec := ec.clear
  withFile p openReparse (fun e => h.report ec (some e) .default) fun fd =>
    .call (.win (.reparse fd)) fun
      | .error e => h.report ec (some e) .default
      | .ok ws => (Prog.ofRes (printName ws)).bind fun r => .ret (r, ec)

end Win
end Asap
