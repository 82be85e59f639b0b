import Verif.Ops.Simple

/-!
# `copy_file` (POSIX branch)

Models `src/fs_ops.cpp:298-595`, `src/posix/file.cpp` and `FileDescriptor` in
`src/fs_portability.h`. `sf` selects the build with `sendfile`
(`ASAP_FS_USE_SENDFILE`, `include/filesystem/config.h.in:47-52`); the build with
`fcopyfile` (Apple) is in `Ops/Variants`.
-/

namespace Asap

/-- `copy_options` (`include/filesystem/fs_copy_options.h:28-39`). -/
abbrev CopyOptions := BitVec 16

/-- Enumerators (`include/filesystem/fs_copy_options.h:28-39`). -/
def CopyOptions.none : CopyOptions := 0
def CopyOptions.skipExisting : CopyOptions := 1
def CopyOptions.overwriteExisting : CopyOptions := 2
def CopyOptions.updateExisting : CopyOptions := 4
def CopyOptions.recursive : CopyOptions := 8
def CopyOptions.copySymlinks : CopyOptions := 16
def CopyOptions.skipSymlinks : CopyOptions := 32
def CopyOptions.directoriesOnly : CopyOptions := 64
def CopyOptions.createSymlinks : CopyOptions := 128
def CopyOptions.createHardLinks : CopyOptions := 256

/-- `detail::is_set` (`src/fs_ops.cpp:21-24`). -/
def CopyOptions.has (opts o : CopyOptions) : Bool := (opts &&& o) != CopyOptions.none

/-- `FileDescriptor::Close` (`src/fs_portability.h:312-321`), run by the destructor. -/
def closeFd (fd : Nat) : Prog Unit := .call (.close fd) fun _ => .ret ()

/-- `FileDescriptor::RefreshStatus(false, ec)` (`src/posix/file.cpp:21-41`): `lstat`
on the name. A failed call leaves the zeroed structure. -/
def refreshStatus (name : Path) : Prog ((FStatus × Stat) × Code) :=
  .call (.lstat name.pathname) fun
    | .ok st => do
      let (s, ec) ← createFileStatus none name (some st) (.ref none)
      .ret ((s, st), ec.code)
    | .error e => do
      let (s, ec) ← createFileStatus (some e) name (some .zero) (.ref none)
      .ret ((s, .zero), ec.code)

/-- The loop of `do_copy_file_sendfile` (`src/fs_ops.cpp:330-339`), at most `n` rounds.
`some e` is a failed call. -/
def sendLoop (out inp : Nat) : Nat → Int → Prog Code
  | 0, _ => .stop .fuel
  | n + 1, count => .call (.sendfile out inp count.toNat) fun
    | .error e => .ret (some e)
    | .ok res =>
      let count := count - res
      if 0 < count then sendLoop out inp n count else .ret none

/-- `do_copy_file_sendfile` (`src/fs_ops.cpp:323-344`); `size` is `st_size` of the
source. Yields whether it succeeded. -/
def copySendfile (n : Nat) (inp out : Nat) (size : Int) : Prog Bool :=
  if size < 0 ∨ 0x7ffff000 < size then .ret false
  else do
    let r ← sendLoop out inp n size
    .ret r.isNone

/-- `BUFSIZ` in glibc. -/
def bufsiz : Nat := 8192

/-- `do_copy_file_default` (`src/fs_ops.cpp:370-394`), at most `n` rounds: the final
`ec`. -/
def copyDefault (inp out : Nat) : Nat → Prog Code
  | 0 => .stop .fuel
  | n + 1 => .call (.read inp bufsiz) fun
    | .error e => .ret (some e)
    | .ok data =>
      if data.isEmpty then .ret none
      else .call (.write out data) fun
        | .error e => .ret (some e)
        | .ok _ => copyDefault inp out n

/-- `do_copy_file` (`src/fs_ops.cpp:397-414`): the final `ec`, clear exactly when the
result is true. -/
def doCopyFile (sf : Bool) (n : Nat) (inp out : Nat) (size : Int) : Prog Code := do
  let sent ← if sf then copySendfile n inp out size else Prog.ret false
  if sent then .ret none else copyDefault inp out n

/-- The `ShouldCopy` decision (`src/fs_ops.cpp:530-550`) for an existing
destination with `update_existing`: strictly newer. -/
def isNewer (f t : Stat) : Bool :=
  if f.mtimeSec < t.mtimeSec then false
  else if f.mtimeSec = t.mtimeSec ∧ f.mtimeNsec ≤ t.mtimeNsec then false
  else true

/-- `copy_file_impl` from the opening of the destination on (`src/fs_ops.cpp:555-593`). -/
def copyInto (sf : Bool) (n : Nat) (h : Handler) (inp : Nat) (fst : Stat) (to : Path)
    (tst : Option Stat) (ec : EcArg) : Prog (Bool × EcArg) :=
  .call (.openf to.pathname ⟨true, tst.isNone, false⟩ fst.mode) fun
    | .error e => h.report ec (some e) false
    | .ok out => Prog.finally' (do
        let ((_, st), m) ← refreshStatus to
        if m ≠ none then h.report ec m false
        else do
          let finish : Prog (Bool × EcArg) := do
            let m ← doCopyFile sf n inp out fst.size.toInt
            if m ≠ none then h.report ec m false else .ret (true, ec)
          match tst with
          | none => finish
          | some tst =>
            if !statEquivalent tst st then h.report ec (some .EBADF) false
            else .call (.fchmod out fst.mode) fun
              | .error e => h.report ec (some e) false
              | .ok () => .call (.ftruncate out 0) fun
                | .error e => h.report ec (some e) false
                | .ok () => finish) (closeFd out)

/-- `copy_file_impl` once the source is open (`src/fs_ops.cpp:498-553`). -/
def copyOpened (sf : Bool) (n : Nat) (h : Handler) (src to : Path) (opts : CopyOptions) (inp : Nat)
    (ec : EcArg) : Prog (Bool × EcArg) := do
  let ((fs, fst), m) ← refreshStatus src
  if m ≠ none then h.report ec m false
  else if !fs.isRegular then h.report ec (some .ENOTSUP) false
  else do
    let ((ts, tst), m) ← getFileStatus to none (.ref none)
    if !ts.known then h.report ec m.code false
    else if !ts.exists' then copyInto sf n h inp fst to none ec
    else if !ts.isRegular then h.report ec (some .ENOTSUP) false
    else do
      let tst ← Prog.useStat tst
      if statEquivalent fst tst then h.report ec (some .EEXIST) false
      else if opts.has .skipExisting then .ret (false, ec)
      else if opts.has .updateExisting then
        if isNewer fst tst then copyInto sf n h inp fst to (some tst) ec else .ret (false, ec)
      else if opts.has .overwriteExisting then copyInto sf n h inp fst to (some tst) ec
      else do
        let (_, ec) ← h.report ec (some .EEXIST) false
        .ret (false, ec)

/-- `copy_file_impl`, POSIX branch (`src/fs_ops.cpp:418-595`). The handler is given the
paths in the order `to`, `from`. -/
def copyFile (sf : Bool) (n : Nat) (src to : Path) (opts : CopyOptions) (ec : EcArg) :
    Prog (Bool × EcArg) :=
  let h : Handler := ⟨"copy_file".toList, some to, some src⟩
  let ec := ec.clear
  .call (.openf src.pathname ⟨false, false, true⟩ 0) fun
    | .error e => h.report ec (some e) false
    | .ok inp => Prog.finally' (copyOpened sf n h src to opts inp ec) (closeFd inp)

end Asap
