import Verif.Win.Base
import Verif.Ops.CopyFile

/-!
# The Windows branches of `fs_ops.cpp` that involve no directory iteration

As in `Verif/Ops/Simple.lean`, each function takes `ec` and yields the result and the final `*ec`.
`std::wstring` is identified with the library's text.
-/

namespace Asap
namespace Win

/-- `current_path_impl(ec)` (`src/fs_ops.cpp:811-822`). If the second call needs a larger buffer, the buffer read is not
filled. -/
def currentPath (ec : EcArg) : Prog (Path × EcArg) :=
  let h : Handler := ⟨"current_path".toList, none, none⟩
  let ec := ec.clear
  .call (.win .cwdSize) fun (size : Nat) =>
    .call (.win (.getCwd size)) fun
      | .error e => h.reportMsg ec (some e) "call to GetCurrentDirectoryW failed".toList .default
      | .ok none => .stop (.fault .ub)
      | .ok (some s) => .ret (mkPath .windows s, ec)

/-- `current_path_impl(p, ec)` (`src/fs_ops.cpp:834-841`). -/
def setCurrentPath (p : Path) (ec : EcArg) : Prog (Unit × EcArg) :=
  let h : Handler := ⟨"current_path".toList, some p, none⟩
  let ec := ec.clear
  .call (.win (.setCwd p.pathname)) fun
    | .ok () => .ret ((), ec)
    | .error e => h.report ec (some e) ()

/-- `do_absolute_impl` (`src/fs_ops.cpp:39-56`): the result and `*cwd`. -/
def doAbsolute (p : Path) (ec : EcArg) : Prog ((Path × Path) × EcArg) :=
  let ec := ec.clear
  (Prog.ofRes (isAbsolute .windows p)).bind fun abs =>
    if abs && hasRootName p then .ret ((p, .default), ec)
    else (currentPath ec).bind fun x =>
      if x.2.isSet then .ret ((.default, x.1), x.2)
      else (Prog.ofRes (append .windows x.1 p)).bind fun r => .ret ((r, x.1), x.2)

/-- `absolute_impl`, `absolute` (`src/fs_ops.cpp:58-61`). -/
def absolute (p : Path) (ec : EcArg) : Prog (Path × EcArg) :=
  (doAbsolute p ec).bind fun x => .ret (x.1.1, x.2)

/-- `create_directory_impl(p, ec)` (`src/fs_ops.cpp:690-712`). -/
def createDirectory (p : Path) (ec : EcArg) : Prog (Bool × EcArg) :=
  let h : Handler := ⟨"create_directory".toList, some p, none⟩
  let ec := ec.clear
  .call (.win (.createDirectory p.pathname)) fun
    | .ok () => .ret (true, ec)
    | .error e =>
      if e.winValue ≠ ERROR_ALREADY_EXISTS then
        (h.report ec (some e) false).bind fun x => .ret (false, x.2)
      else .ret (false, ec)

/-- `create_directory_impl(p, existing_template, ec)` (`src/fs_ops.cpp:714-727`). -/
def createDirectoryLike (p tmpl : Path) (ec : EcArg) : Prog (Bool × EcArg) :=
  let h : Handler := ⟨"create_directory".toList, some p, some tmpl⟩
  let ec := ec.clear
  .call (.win (.createDirectoryEx tmpl.pathname p.pathname)) fun
    | .ok () => .ret (true, ec)
    | .error e =>
      if e.winValue ≠ ERROR_ALREADY_EXISTS then
        (h.report ec (some e) false).bind fun x => .ret (true, x.2)
      else .ret (true, ec)

/-- The first loop of `create_directories_impl` (`src/fs_ops.cpp:649-656`). -/
def missingOf (el : Bool) : Nat → Path → List Path → Prog (List Path)
  | 0, _, _ => .stop .fuel
  | n + 1, pp, acc =>
    (Prog.ofRes (hasFilename .windows pp)).bind fun b =>
      if b then
        (Prog.ofRes (filename .windows pp)).bind fun f =>
          (Prog.ofRes (parentPath .windows el pp)).bind fun pp' =>
            missingOf el n pp' (if isDot f.pathname || isDotDot f.pathname then acc else pp :: acc)
      else .ret acc

/-- One round of the second loop of `create_directories_impl` (`src/fs_ops.cpp:670-680`): the new `created` and `m_ec`. -/
def createTop (top : Path) (created : Bool) : Prog (Bool × Code) :=
  (status top (.ref none)).bind fun x =>
    Prog.bind (if x.1.type = .notFound then
        (createDirectory top x.2).bind fun y => Prog.ret (true, y.2)
      else Prog.ret (created, x.2)) fun (z : Bool × EcArg) =>
    if z.2.isSet then
      (isDirectoryP top .null).bind fun d => .ret (z.1, if d.1 then none else z.2.code)
    else .ret (z.1, z.2.code)

/-- The second loop of `create_directories_impl` (`src/fs_ops.cpp:668-682`). -/
def createMissing : List Path → Bool → Prog (Bool × Code × Bool)
  | [], created => .ret (created, none, true)
  | top :: rest, created =>
    (createTop top created).bind fun x =>
      if x.2 ≠ none then .ret (x.1, x.2, rest.isEmpty) else createMissing rest x.1

/-- `create_directories_impl` (`src/fs_ops.cpp:630-688`) on Windows. `n` bounds the first loop. -/
def createDirectories (el : Bool) (n : Nat) (p : Path) (ec : EcArg) : Prog (Bool × EcArg) :=
  let h : Handler := ⟨"create_directories".toList, some p, none⟩
  let ec := ec.clear
  if p.isEmpty then h.report ec (some .EINVAL) false
  else (missingOf el n p []).bind fun missing =>
    if missing.isEmpty then .ret (false, ec)
    else (createMissing missing false).bind fun x =>
      match x.2.1 with
      | some e => h.report ec (some e) false
      | none => .ret (x.1 && x.2.2, ec)

/-- `create_directory_symlink_impl` and `create_symlink_impl` (`src/fs_ops.cpp:753-763, 789-799`). -/
def createSymlinkAs (fn : Str) (dir : Bool) (target link : Path) (ec : EcArg) : Prog (Unit × EcArg) :=
  let h : Handler := ⟨fn, some target, some link⟩
  let ec := ec.clear
  .call (.win (.createSymlink link.pathname target.pathname dir)) fun
    | .ok () => .ret ((), ec)
    | .error e => h.report ec (some e) ()

/-- `create_symlink_impl` (`src/fs_ops.cpp:789-799`). -/
def createSymlink := createSymlinkAs "create_symlink".toList false
/-- `create_directory_symlink_impl` (`src/fs_ops.cpp:753-763`). -/
def createDirectorySymlink := createSymlinkAs "create_directory_symlink".toList true

/-- `create_hard_link_impl` (`src/fs_ops.cpp:772-781`). -/
def createHardLink (target link : Path) (ec : EcArg) : Prog (Unit × EcArg) :=
  let h : Handler := ⟨"create_hard_link".toList, some target, some link⟩
  let ec := ec.clear
  .call (.win (.createHardLink link.pathname target.pathname)) fun
    | .ok () => .ret ((), ec)
    | .error e => h.report ec (some e) ()

/-- `copy_symlink_impl` (`src/fs_ops.cpp:597-620`). -/
def copySymlink (src dst : Path) (ec : EcArg) : Prog (Unit × EcArg) :=
  let h : Handler := ⟨"copy_symlink".toList, some src, some dst⟩
  let ec := ec.clear
  (readSymlink src (.ref none)).bind fun x =>
    if x.2.isSet then h.report ec x.2.code ()
    else (isDirectoryP x.1 x.2).bind fun y =>
      if y.2.isSet then h.report ec y.2.code ()
      else if y.1 then createDirectorySymlink x.1 dst ec
      else createSymlink x.1 dst ec

/-- The comparison at the end of `equivalent_impl` (`src/fs_ops.cpp:893-905`). -/
def sameInfo (a b : WinInfo) : Bool :=
  a.volume == b.volume && a.indexHigh == b.indexHigh && a.indexLow == b.indexLow && a.sizeHigh == b.sizeHigh &&
    a.sizeLow == b.sizeLow && a.time.low == b.time.low && a.time.high == b.time.high

/-- `equivalent_impl` (`src/fs_ops.cpp:852-905`). A `FileDescriptor` made without an error has a valid handle, so the
tests of lines 872-882 do not apply. -/
def equivalent (p1 p2 : Path) (ec : EcArg) : Prog (Bool × EcArg) :=
  let h : Handler := ⟨"equivalent".toList, some p1, some p2⟩
  let ec := ec.clear
  withFile p1 follow (fun e => h.report ec (some e) false) fun f1 =>
    withFile p2 follow (fun e => h.report ec (some e) false) fun f2 =>
      .call (.win (.infoByHandle f1)) fun
        | .error e => h.report ec (some e) false
        | .ok i1 => .call (.win (.infoByHandle f2)) fun
          | .error e => h.report ec (some e) false
          | .ok i2 => .ret (sameInfo i1 i2, ec)

/-- A size in two halves (`src/fs_ops.cpp:943-945`, `src/fs_dir_iterator.cpp:190-192`). -/
def size64 (high low : BitVec 32) : BitVec 64 := (high.setWidth 64 <<< 32) + low.setWidth 64

/-- `file_size_impl` (`src/fs_ops.cpp:929-946`). -/
def fileSize (p : Path) (ec : EcArg) : Prog (BitVec 64 × EcArg) :=
  let h : Handler := ⟨"file_size".toList, some p, none⟩
  let ec := ec.clear
  .call (.win (.getAttrsEx p.pathname)) fun
    | .error e => h.report ec (some e) umaxErr
    | .ok a =>
      if has a.attrs FILE_ATTRIBUTE_DIRECTORY then
        h.reportMsg ec (some .EISDIR) "directory size is not supported".toList umaxErr
      else .ret (size64 a.sizeHigh a.sizeLow, ec)

/-- `hard_link_count_impl` (`src/fs_ops.cpp:968-985`). -/
def hardLinkCount (p : Path) (ec : EcArg) : Prog (BitVec 64 × EcArg) :=
  let h : Handler := ⟨"hard_link_count".toList, some p, none⟩
  let ec := ec.clear
  withFile p follow (fun e => h.report ec (some e) umaxErr) fun fd =>
    .call (.win (.infoByHandle fd)) fun
      | .error e => h.report ec (some e) umaxErr
      | .ok i => .ret (i.links.setWidth 64, ec)

/-- `last_write_time_impl(p, ec)` (`src/fs_ops.cpp:1051-1070`). -/
def lastWriteTime (c : SysClock) (p : Path) (ec : EcArg) : Prog (Int × EcArg) :=
  let h : Handler := ⟨"last_write_time".toList, some p, none⟩
  let ec := ec.clear
  withFile p { follow with access := FILE_READ_ATTRIBUTES } (fun e => h.report ec (some e) timeMin) fun fd =>
    .call (.win (.getFileTime fd)) fun
      | .error e => h.report ec (some e) timeMin
      | .ok ft => (Prog.ofRes (fromWindowsFileTime c ft)).bind fun t => .ret (t, ec)

/-- `last_write_time_impl(p, new_time, ec)` (`src/fs_ops.cpp:1081-1104`). -/
def setLastWriteTime (c : SysClock) (p : Path) (t : Int) (ec : EcArg) : Prog (Unit × EcArg) :=
  let h : Handler := ⟨"last_write_time".toList, some p, none⟩
  let ec := ec.clear
  withFile p { follow with access := FILE_WRITE_ATTRIBUTES } (fun e => h.report ec (some e) ()) fun fd =>
    (Prog.ofRes (toWindowsFileTime c t)).bind fun x =>
      match x.2 with
      | some e => h.report ec (some e) ()
      | none => .call (.win (.setFileTime fd x.1)) fun
        | .error e => h.report ec (some e) ()
        | .ok () => .ret ((), ec)

/-- The end of `permissions_impl` (`src/fs_ops.cpp:1186-1191`). `SetPermissions` ignores its flag for links
(`src/windows/permissions.cpp`). Simplified: its error is taken to be of the generic category. -/
def putPerms (p : Path) (prms : Perms) (ec : EcArg) : Prog (Unit × EcArg) :=
  let h : Handler := ⟨"permissions".toList, some p, none⟩
  .call (.win (.setPerms p.pathname prms)) fun
    | .ok () => .ret ((), ec)
    | .error e => h.report ec (some e) ()

/-- `permissions_impl` (`src/fs_ops.cpp:1155-1192`). -/
def permissions (p : Path) (prms : Perms) (opts : PermOptions) (ec : EcArg) : Prog (Unit × EcArg) :=
  let h : Handler := ⟨"permissions".toList, some p, none⟩
  let ec := ec.clear
  let has (o : PermOptions) : Bool := (o &&& opts) != 0
  let resolve := !has .nofollow
  let add := has .add
  let rem := has .remove
  if add.toNat + rem.toNat + (has .replace).toNat ≠ 1 then .stop (.fault .assertFail)
  else
    let prms := prms &&& Perms.mask
    if !resolve || (add || rem) then
      (if resolve then status p (.ref none) else symlinkStatus p (.ref none)).bind fun x =>
        if x.2.isSet then h.report ec x.2.code ()
        else if x.1.perms = Perms.unknown then .stop (.fault .assertFail)
        else putPerms p (if add then prms ||| x.1.perms else if rem then x.1.perms &&& ~~~ prms else prms) ec
    else putPerms p prms ec

/-- `remove_impl` (`src/fs_ops.cpp:1240-1284`). -/
def remove (p : Path) (ec : EcArg) : Prog (Bool × EcArg) :=
  let h : Handler := ⟨"remove".toList, some p, none⟩
  let ec := ec.clear
  let finish : Except Errno Unit → Prog (Bool × EcArg)
    | .ok () => .ret (true, ec)
    | .error e =>
      if e.winValue ≠ ERROR_FILE_NOT_FOUND then (h.report ec (some e) false).bind fun x => .ret (false, x.2)
      else .ret (true, ec)
  if p.isEmpty then .ret (false, ec)
  else .call (.win (.getAttrs p.pathname)) fun
    | .error e => if e.winValue = ERROR_FILE_NOT_FOUND then .ret (false, ec) else h.report ec (some e) false
    | .ok attrs =>
      if has attrs FILE_ATTRIBUTE_DIRECTORY then .call (.win (.removeDirectory p.pathname)) finish
      else .call (.win (.deleteFile p.pathname)) finish

/-- `rename_impl` (`src/fs_ops.cpp:1343-1348`): `::rename` of the C library; the error reported is `GetLastError()`, not
`errno`. -/
def rename (a b : Path) (ec : EcArg) : Prog (Unit × EcArg) :=
  let h : Handler := ⟨"rename".toList, some a, some b⟩
  let ec := ec.clear
  .call (.rename a.pathname b.pathname) fun
    | .ok () => .ret ((), ec)
    | .error _ => captureErrno.bind fun e => h.report ec (some e) ()

/-- `resize_file_impl` (`src/fs_ops.cpp:1354-1372`). `QuadPart` is signed: the 64 bits are kept. -/
def resizeFile (p : Path) (size : BitVec 64) (ec : EcArg) : Prog (Unit × EcArg) :=
  let h : Handler := ⟨"resize_file".toList, some p, none⟩
  let ec := ec.clear
  withFile p ⟨GENERIC_READ ||| GENERIC_WRITE, false, false, false⟩ (fun e => h.report ec (some e) ()) fun fd =>
    .call (.win (.setPointer fd size)) fun
      | .error e => h.report ec (some e) ()
      | .ok () => .call (.win (.setEnd fd)) fun
        | .error e => h.report ec (some e) ()
        | .ok () => .ret ((), ec)

/-- A number of bytes, with 0 taken as unknown (`src/fs_ops.cpp:1399-1407`). -/
def orUnknown (x : BitVec 64) : BitVec 64 := if x ≠ 0 then x else umaxErr

/-- `space_impl` (`src/fs_ops.cpp:1384-1411`). `absolute(p)` is the throwing overload whatever `ec` is. -/
def space (p : Path) (ec : EcArg) : Prog (SpaceInfo × EcArg) :=
  let h : Handler := ⟨"space".toList, some p, none⟩
  let ec := ec.clear
  (absolute p .null).bind fun x =>
    (Prog.ofRes (removeFilename .windows x.1)).bind fun dir =>
      .call (.win (.diskFree dir.pathname)) fun
        | .ok (avail, total, free) => .ret (⟨orUnknown total, orUnknown free, orUnknown avail⟩, ec)
        | .error e => (h.report ec (some e) ()).bind fun y => .ret (⟨umaxErr, umaxErr, umaxErr⟩, y.2)

/-- `temp_directory_path_impl` (`src/fs_ops.cpp:1559-1597`). A text that does not fit leaves the last error as it
was, so that `capture_errno` may fail its assertion. -/
def tempDirectoryPath (ec : EcArg) : Prog (Path × EcArg) :=
  let h : Handler := ⟨"temp_directory_path".toList, none, none⟩
  let ec := ec.clear
  .call (.win .tempPath) fun
    | .error none => .stop (.fault .assertFail)
    | .error (some e) => h.reportMsg ec (some e) "call to GetTempPathW failed".toList .default
    | .ok s =>
      let p := mkPath .windows s
      (status p (.ref none)).bind fun x =>
        if !x.1.known then
          h.reportMsg ec x.2.code ("cannot access path \"{".toList ++ p.pathname ++ "}\"".toList) .default
        else if !x.1.exists' || !x.1.isDirectory then
          h.reportMsg ec (some .ENOTDIR) ("path \"{".toList ++ p.pathname ++ "}\" is not a directory".toList) .default
        else .ret (p, ec)

/-- `ShouldCopy` of `copy_file_impl` (`src/fs_ops.cpp:459-475`): the answer and `*ec`. -/
def shouldCopy (c : SysClock) (h : Handler) (src dst : Path) (toExists : Bool) (opts : CopyOptions) (ec : EcArg) :
    Prog (Bool × EcArg) :=
  if toExists && opts.has .updateExisting then
    (lastWriteTime c src (.ref none)).bind fun x =>
      if x.2.isSet then h.report ec x.2.code false
      else (lastWriteTime c dst (.ref none)).bind fun y =>
        if y.2.isSet then h.report ec y.2.code false
        else .ret (decide (y.1 ≤ x.1), ec)
  else if !toExists || opts.has .overwriteExisting then .ret (true, ec)
  else h.report ec (some .EEXIST) false

/-- The end of `copy_file_impl` (`src/fs_ops.cpp:476-487`). -/
def doCopy (h : Handler) (src dst : Path) (x : Bool × EcArg) : Prog (Bool × EcArg) :=
  if !x.1 then .ret (false, x.2)
  else .call (.win (.copyFile src.pathname dst.pathname false)) fun
    | .error e => h.report x.2 (some e) false
    | .ok () => .ret (true, x.2)

/-- `copy_file_impl` (`src/fs_ops.cpp:418-487`). The handler is made with the arguments exchanged (line 420). -/
def copyFile (c : SysClock) (src dst : Path) (opts : CopyOptions) (ec : EcArg) : Prog (Bool × EcArg) :=
  let h : Handler := ⟨"copy_file".toList, some dst, some src⟩
  let ec := ec.clear
  (status src (.ref none)).bind fun f =>
    if f.2.isSet then h.report ec f.2.code false
    else if !f.1.isRegular then h.report ec (some .ENOTSUP) false
    else (status dst (.ref none)).bind fun t =>
      if !t.1.known then h.report ec t.2.code false
      else if t.1.exists' && !t.1.isRegular then h.report ec (some .ENOTSUP) false
      else
        (if t.1.exists' then equivalent src dst (.ref none) else Prog.ret (false, t.2)).bind fun e =>
          if t.1.exists' && e.1 then h.report ec (some (if e.2.isSet then .EINVAL else .EEXIST)) false
          else if t.1.exists' && opts.has .skipExisting then .ret (false, ec)
          else (shouldCopy c h src dst t.1.exists' opts ec).bind fun x => doCopy h src dst x

end Win
end Asap
