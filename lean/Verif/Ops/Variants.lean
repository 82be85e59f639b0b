import Verif.Ops.CopyFile
import Verif.Ops.Time

/-!
# Builds for other POSIX systems

The parts of `src/fs_ops.cpp` that are compiled instead of the ones in `Ops/CopyFile`, `Ops/Time` and `Ops/Simple` when there is
`fcopyfile` and no `sendfile` (`ASAP_FS_USE_COPYFILE`), when there is `utime` or nothing instead of `utimensat` (`ASAP_FS_USE_UTIME`,
`include/filesystem/config.h.in:36-43`), or when there is no `AT_SYMLINK_NOFOLLOW`.
-/

namespace Asap

/-- `do_copy_file_copyfile` (`src/fs_ops.cpp:346-367`): whether it succeeded. The destructor of `cfs` frees the state. The error is
overwritten by what follows. -/
def copyfileData (inp out : Nat) : Prog Bool :=
  .call (.port .copyfileAlloc) fun (st : Option Nat) =>
    .call (.port (.fcopyfile inp out st)) fun (r : Except Errno Unit) =>
      .call (.port (.copyfileFree st)) fun _ => .ret r.isOk

/-- `do_copy_file` (`src/fs_ops.cpp:397-414`) with `fcopyfile`. -/
def doCopyFileApple (n inp out : Nat) : Prog Code := do
  let done ← copyfileData inp out
  if done then .ret none else copyDefault inp out n

/-- `copy_file_impl` from the opening of the destination on (`src/fs_ops.cpp:555-593`), `data` being `do_copy_file`. -/
def copyIntoWith (data : Nat → Nat → Int → Prog Code) (h : Handler) (inp : Nat) (fst : Stat) (to : Path)
    (tst : Option Stat) (ec : EcArg) : Prog (Bool × EcArg) :=
  .call (.openf to.pathname ⟨true, tst.isNone, false⟩ fst.mode) fun
    | .error e => h.report ec (some e) false
    | .ok out => Prog.finally' (do
        let ((_, st), m) ← refreshStatus to
        if m ≠ none then h.report ec m false
        else do
          let finish : Prog (Bool × EcArg) := do
            let m ← data inp out fst.size.toInt
            if m ≠ none then h.report ec m false else .ret (true, ec)
          match tst with
          | none => finish
          | some tst =>
            if !statEquivalent tst st then h.report ec (some .EBADF) false
            else .call (.fchmod out fst.mode) fun
              | .error e => h.report ec (some e) false
              | .ok () => .call (.ftruncate out 0) fun
                | .error e => h.report ec (some e) false
                | .ok () => finish) (closeFd out)

/-- `copy_file_impl` once the source is open (`src/fs_ops.cpp:498-553`), `data` being `do_copy_file`. -/
def copyOpenedWith (data : Nat → Nat → Int → Prog Code) (h : Handler) (src to : Path) (opts : CopyOptions) (inp : Nat)
    (ec : EcArg) : Prog (Bool × EcArg) := do
  let ((fs, fst), m) ← refreshStatus src
  if m ≠ none then h.report ec m false
  else if !fs.isRegular then h.report ec (some .ENOTSUP) false
  else do
    let ((ts, tst), m) ← getFileStatus to none (.ref none)
    if !ts.known then h.report ec m.code false
    else if !ts.exists' then copyIntoWith data h inp fst to none ec
    else if !ts.isRegular then h.report ec (some .ENOTSUP) false
    else do
      let tst ← Prog.useStat tst
      if statEquivalent fst tst then h.report ec (some .EEXIST) false
      else if opts.has .skipExisting then .ret (false, ec)
      else if opts.has .updateExisting then
        if isNewer fst tst then copyIntoWith data h inp fst to (some tst) ec else .ret (false, ec)
      else if opts.has .overwriteExisting then copyIntoWith data h inp fst to (some tst) ec
      else do
        let (_, ec) ← h.report ec (some .EEXIST) false
        .ret (false, ec)

/-- `copy_file_impl`, POSIX branch (`src/fs_ops.cpp:418-595`), `data` being `do_copy_file`. -/
def copyFileWith (data : Nat → Nat → Int → Prog Code) (src to : Path) (opts : CopyOptions) (ec : EcArg) :
    Prog (Bool × EcArg) :=
  let h : Handler := ⟨"copy_file".toList, some to, some src⟩
  let ec := ec.clear
  .call (.openf src.pathname ⟨false, false, true⟩ 0) fun
    | .error e => h.report ec (some e) false
    | .ok inp => Prog.finally' (copyOpenedWith data h src to opts inp ec) (closeFd inp)

/-- It is the same function as in `Ops/CopyFile`, but for `do_copy_file`. -/
theorem copyFileWith_eq (sf : Bool) (n : Nat) : copyFileWith (doCopyFile sf n) = copyFile sf n := rfl

/-- `copy_file_impl` (`src/fs_ops.cpp:418-595`) in the build with `fcopyfile`. -/
def copyFileApple (n : Nat) : Path → Path → CopyOptions → EcArg → Prog (Bool × EcArg) :=
  copyFileWith fun inp out _ => doCopyFileApple n inp out

/-- `last_write_time_impl(p, new_time, ec)` (`src/fs_ops.cpp:1081-1110, 1132-1144`) in the build with `utime`. -/
def setLastWriteTimeUtime (p : Path) (t : Int) (ec : EcArg) : Prog (Unit × EcArg) :=
  let h : Handler := ⟨"last_write_time".toList, some p, none⟩
  let ec := ec.clear
  let s := t.tdiv 1000000000
  if s < 0 then h.reportMsg ec (some .EINVAL) "negative number of seconds since epoch".toList ()
  else do
    let ((_, st), m) ← getFileStatus p none (.ref none)
    if m.isSet then h.report ec m.code ()
    else do
      let st ← Prog.useStat st
      .call (.port (.utime p.pathname st.atimeSec s)) fun
        | .ok () => .ret ((), ec)
        | .error e => h.report ec (some e) ()

/-- `last_write_time_impl(p, new_time, ec)` (`src/fs_ops.cpp:1081-1110, 1145-1146`) in a build with neither `utimensat` nor `utime`. -/
def setLastWriteTimeNone (p : Path) (_t : Int) (ec : EcArg) : Prog (Unit × EcArg) :=
  let h : Handler := ⟨"last_write_time".toList, some p, none⟩
  let ec := ec.clear
  h.report ec (some .ENOTSUP) ()

/-- `std::errc::operation_not_supported`; the number is the one of macOS. -/
def Errno.EOPNOTSUPP : Errno := .other 102

/-- The end of `permissions_impl` without `AT_SYMLINK_NOFOLLOW` (`src/fs_ops.cpp:1201-1206`). -/
def chmodPlain (p : Path) (prms : Perms) (sym : Bool) (ec : EcArg) : Prog (Unit × EcArg) :=
  let h : Handler := ⟨"permissions".toList, some p, none⟩
  if sym then h.report ec (some .EOPNOTSUPP) ()
  else .call (.port (.chmod p.pathname (prms &&& Perms.mask))) fun
    | .ok () => .ret ((), ec)
    | .error e => h.report ec (some e) ()

/-- `permissions_impl` (`src/fs_ops.cpp:1155-1194, 1201-1208`) in a build without `AT_SYMLINK_NOFOLLOW`. -/
def permissionsPlain (p : Path) (prms : Perms) (opts : PermOptions) (ec : EcArg) : Prog (Unit × EcArg) := do
  let h : Handler := ⟨"permissions".toList, some p, none⟩
  let ec := ec.clear
  let has (o : PermOptions) : Bool := (o &&& opts) != 0
  let resolve := !has .nofollow
  let add := has .add
  let rem := has .remove
  if add.toNat + rem.toNat + (has .replace).toNat ≠ 1 then .stop (.fault .assertFail)
  else do
    let prms := prms &&& Perms.mask
    if !resolve || (add || rem) then do
      let (st, m) ← permStatus p resolve
      if m.isSet then h.report ec m.code ()
      else if st.perms = Perms.unknown then .stop (.fault .assertFail)
      else
        let prms := if add then prms ||| st.perms else if rem then st.perms &&& ~~~ prms else prms
        chmodPlain p prms st.isSymlink ec
    else chmodPlain p prms false ec

end Asap
