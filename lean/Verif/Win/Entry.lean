import Verif.Win.Ops
import Verif.Dir.Entry

/-!
# `directory_entry` on Windows

The Windows branches of `src/fs_dir_iterator.cpp:23-286, 526-540`; the observers of lines 287-517 are the same text on all
systems, here on top of the Windows functions.
-/

namespace Asap
namespace Win

/-- The check for a reparse point in `UpdateBasicFileInformation` (`src/fs_dir_iterator.cpp:33-44`): the cache and, if
the check failed, the error caught. `IsReparsePointSymlink` is called without `ec`, and its exception is caught.
Simplified: written with the `error_code` form, whose error is that of the exception. -/
def basicReparse (e : Entry) (attrs : Mask) : Prog (Cache × Code) :=
  if has attrs FILE_ATTRIBUTE_REPARSE_POINT then
    (isReparsePointSymlink e.path (.ref none)).bind fun x =>
      if x.2.isSet then .ret (e.cache, x.2.code)
      else .ret (if x.1 then { e.cache with symlink := true, type := .symlink }
        else { e.cache with type := .reparse }, none)
  else .ret (e.cache, none)

/-- The part of `UpdateBasicFileInformation` that opens the file (`src/fs_dir_iterator.cpp:51-96`): the cache and the error
to report. The case `FILE_TYPE_DISK` falls through to the default, which asks for the last error although no call
failed. -/
def basicOpen (p : Path) (attrs : Mask) (c : Cache) : Prog (Cache × Code) :=
  let resolved (c : Cache) : Cache := if c.symlink then { c with typeResolved := true } else c
  withFile p noFollow (fun e => .ret (c, some e)) fun fd =>
    .call (.win (.infoByHandle fd)) fun
      | .error e => .ret (c, some e)
      | .ok _ =>
        if has attrs FILE_ATTRIBUTE_REPARSE_POINT then .ret (resolved { c with type := .reparse }, none)
        else if has attrs FILE_ATTRIBUTE_DIRECTORY then .ret (resolved { c with type := .directory }, none)
        else .call (.win (.getFileType fd)) fun (t : Mask) =>
          if t = FILE_TYPE_CHAR then .ret (resolved { c with type := .character }, none)
          else if t = FILE_TYPE_PIPE then .ret (resolved { c with type := .fifo }, none)
          else captureErrno.bind fun e =>
            .ret (if t = FILE_TYPE_DISK then { c with type := .regular } else c, some e)

/-- `UpdateBasicFileInformation` (`src/fs_dir_iterator.cpp:23-100`). -/
def updateBasic (followLinks : Bool) (e : Entry) (ec : EcArg) : Prog (Entry × EcArg) :=
  let h : Handler := ⟨"UpdateBasicFileInformation".toList, some e.path, none⟩
  let ec := ec.clear
  let fails (c : Cache) (m : Code) : Prog (Entry × EcArg) :=
    (h.report ec m ()).bind fun x => .ret ({ e with cache := c }, x.2)
  .call (.win (.getAttrs e.path.pathname)) fun
    | .error m => fails e.cache (some m)
    | .ok attrs => (basicReparse e attrs).bind fun x =>
      if x.2 ≠ none then fails x.1 x.2
      else
        let c := if has attrs FILE_ATTRIBUTE_DIRECTORY then { x.1 with type := .directory } else x.1
        Prog.bind (if c.type = .none || (c.type = .symlink && followLinks) then basicOpen e.path attrs c
          else .ret (c, none)) fun (y : Cache × Code) =>
          if y.2 ≠ none then fails y.1 y.2
          else .ret ({ e with cache := { y.1 with cacheType := .basic } }, ec)

/-- The second part of `UpdateExtraFileInformation`, for a link (`src/fs_dir_iterator.cpp:169-207`). -/
def extraLink (c : SysClock) (p : Path) (h : Handler) (k : Cache) (ec : EcArg) : Prog (Cache × EcArg) :=
  withFile p noFollow (fun m => (h.report ec (some m) ()).bind fun x => .ret (k, x.2)) fun fd =>
    .call (.win (.infoByHandle fd)) fun
      | .error m => (h.report ec (some m) ()).bind fun x => .ret (k, x.2)
      | .ok i =>
        if has i.attrs FILE_ATTRIBUTE_DIRECTORY then
          (h.reportMsg ec (some .EISDIR) "directory size is not supported".toList ()).bind fun x => .ret (k, x.2)
        else
          let k := { k with size := size64 i.sizeHigh i.sizeLow }
          .call (.win (.getFileTime fd)) fun
            | .error m => (h.report ec (some m) ()).bind fun x => .ret (k, x.2)
            | .ok ft => (Prog.ofRes (fromWindowsFileTime c ft)).bind fun t =>
              .ret ({ k with writeTime := t, extraResolved := true, cacheType := .extra }, ec)

/-- `UpdateExtraFileInformation` (`src/fs_dir_iterator.cpp:143-207, 216`). Only `nlink` is set for what is not a link. -/
def updateExtra (c : SysClock) (e : Entry) (ec : EcArg) : Prog (Entry × EcArg) :=
  let h : Handler := ⟨"UpdateExtraFileInformation".toList, some e.path, none⟩
  let ec := ec.clear
  if e.cache.cacheType ≠ .basic ∧ e.cache.cacheType ≠ .extra then .stop (.fault .assertFail)
  else
    (withFile e.path follow (fun m => (h.report ec (some m) ()).bind fun x => .ret (e.cache, false, x.2)) fun fd =>
      .call (.win (.infoByHandle fd)) fun
        | .error m => (h.report ec (some m) ()).bind fun x => .ret (e.cache, false, x.2)
        | .ok i => .ret ({ e.cache with nlink := i.links.setWidth 64 }, true, ec)).bind fun (x : Cache × Bool × EcArg) =>
    if !x.2.1 then .ret ({ e with cache := x.1 }, x.2.2)
    else if x.1.symlink then
      (extraLink c e.path h x.1 x.2.2).bind fun y => .ret ({ e with cache := y.1 }, y.2)
    else .ret ({ e with cache := { x.1 with cacheType := .extra } }, x.2.2)

/-- Opening a file and asking for its permissions (`src/fs_dir_iterator.cpp:228-250, 256-274`): the permissions
`GetPermissions` returned (`perms::unknown` on failure, `error_value<perms>()`), if it was reached, and the error. -/
def handlePerms (p : Path) (o : WinOpen) : Prog (Option Perms × Code) :=
  withFile p o (fun m => .ret (none, some m)) fun fd =>
    .call (.win (.attrTag fd)) fun
      | .error m => .ret (none, some m)
      | .ok a => .call (.win (.getPerms p.pathname a)) fun
        | .error m => .ret (some Perms.unknown, some m)
        | .ok prms => .ret (some prms, none)

/-- `UpdatePermissionsInformation` (`src/fs_dir_iterator.cpp:218-276, 285`). -/
def updatePerms (followLinks : Bool) (e : Entry) (ec : EcArg) : Prog (Entry × EcArg) :=
  let h : Handler := ⟨"UpdatePermissionsInformation".toList, some e.path, none⟩
  let ec := ec.clear
  let fails (c : Cache) (m : Code) : Prog (Entry × EcArg) :=
    (h.report ec m ()).bind fun x => .ret ({ e with cache := c }, x.2)
  if e.cache.cacheType ≠ .extra ∧ e.cache.cacheType ≠ .full then .stop (.fault .assertFail)
  else
    (handlePerms e.path follow).bind fun x =>
      let c := e.cache
      let c := match x.1 with
        | none => c
        | some prms => if c.symlink then { c with symlinkPerms := prms } else { c with nonSymlinkPerms := prms }
      if x.2 ≠ none then fails c x.2
      else if c.symlink && followLinks then
        (handlePerms e.path noFollow).bind fun y =>
          let c := match y.1 with
            | none => c
            | some prms => { c with nonSymlinkPerms := prms }
          if y.2 ≠ none then fails c y.2
          else .ret ({ e with cache := { c with permsResolved := true, cacheType := .full } }, ec)
      else .ret ({ e with cache := { c with cacheType := .full } }, ec)

/-- `DoRefresh_impl` (`src/fs_dir_iterator.cpp:526-540`). -/
def refreshImpl (c : SysClock) (e : Entry) : Prog (Entry × Code) :=
  (updateBasic true { e with cache := .reset } (.ref none)).bind fun x =>
    if x.2.isSet then .ret (x.1, x.2.code)
    else (updateExtra c x.1 (.ref none)).bind fun y =>
      if y.2.isSet then .ret (y.1, y.2.code)
      else (updatePerms true y.1 (.ref none)).bind fun z => .ret (z.1, z.2.code)

/-- `DoRefresh` (`include/filesystem/fs_dir.h:336-339`). -/
def refresh (c : SysClock) (e : Entry) (ec : EcArg) : Prog (Entry × EcArg) :=
  (refreshImpl c e).bind fun x =>
    (handleError "in directory_entry::DoRefresh".toList x.1 x.2 true ec).bind fun y => .ret (x.1, y.2)

/-- `directory_entry(p)` and `directory_entry(p, ec)` (`include/filesystem/fs_dir.h:42-47`). -/
def Entry.new (c : SysClock) (p : Path) : Prog (Entry × EcArg) := refresh c ⟨p, .reset⟩ (.ref none)

/-- `GetSymLinkFileType` (`src/fs_dir_iterator.cpp:287-308`) on Windows. -/
def getSymLinkFileType (e : Entry) (ec : EcArg) : Prog ((FType × Entry) × EcArg) :=
  let ec := ec.clear
  Prog.bind (if e.cache.cacheType = .empty then
      (updateBasic false e ec).bind fun x => .ret (decide (x.2 ≠ .null), x.1, x.2)
    else .ret (false, e, ec)) fun (x : Bool × Entry × EcArg) =>
  if x.1 then .ret ((.none, x.2.1), x.2.2)
  else if x.2.1.cache.symlink then .ret ((.symlink, x.2.1), x.2.2)
  else if !FStatus.exists' { type := x.2.1.cache.type } then
    (handleError "in directory_entry::GetSymLinkFileType".toList x.2.1 (some .ENOENT) false x.2.2).bind fun y =>
      .ret ((x.2.1.cache.type, x.2.1), y.2)
  else .ret ((x.2.1.cache.type, x.2.1), x.2.2)

/-- `GetFileType` (`src/fs_dir_iterator.cpp:310-337`) on Windows. -/
def getFileType (e : Entry) (ec : EcArg) : Prog ((FType × Entry) × EcArg) :=
  let ec := ec.clear
  Prog.bind (if e.cache.cacheType = .empty ∨ (e.cache.cacheType = .basic ∧ !e.cache.typeResolved) then
      updateBasic true e ec
    else .ret (e, ec)) fun (x : Entry × EcArg) =>
  if x.2 ≠ .null then .ret ((.none, x.1), x.2)
  else if !FStatus.exists' { type := x.1.cache.type } then
    (handleError "in directory_entry::GetSymLinkFileType".toList x.1 (some .ENOENT) false x.2).bind fun y =>
      .ret ((x.1.cache.type, x.1), y.2)
  else .ret ((x.1.cache.type, x.1), x.2)

/-- `GetSize` (`src/fs_dir_iterator.cpp:339-379`) on Windows. -/
def getSize (c : SysClock) (e : Entry) (ec : EcArg) : Prog ((BitVec 64 × Entry) × EcArg) :=
  let h : Handler := ⟨"UpdateExtraFileInformation".toList, some e.path, none⟩
  let ec := ec.clear
  let extra (e : Entry) (ec : EcArg) : Prog ((BitVec 64 × Entry) × EcArg) :=
    (updateExtra c e ec).bind fun x => .ret ((x.1.cache.size, x.1), x.2)
  match e.cache.cacheType with
  | .empty => (updateBasic true e ec).bind fun x =>
    let st : FStatus := { type := x.1.cache.type }
    if st.exists' && !st.isRegular then
      (h.reportMsg x.2 (some (if st.isDirectory then .EISDIR else .ENOTSUP))
        "can only query size of regular files that do exist".toList umaxErr).bind fun y => .ret ((y.1, x.1), y.2)
    else extra x.1 x.2
  | .basic => extra e ec
  | .extra => if !e.cache.extraResolved then extra e ec else .ret ((e.cache.size, e), ec)
  | .full => .ret ((e.cache.size, e), ec)

/-- `GetHardLinkCount` (`src/fs_dir_iterator.cpp:381-405`) on Windows. -/
def getHardLinkCount (c : SysClock) (e : Entry) (ec : EcArg) : Prog ((BitVec 64 × Entry) × EcArg) :=
  let ec := ec.clear
  let extra (e : Entry) (ec : EcArg) : Prog ((BitVec 64 × Entry) × EcArg) :=
    (updateExtra c e ec).bind fun x => .ret ((x.1.cache.nlink, x.1), x.2)
  match e.cache.cacheType with
  | .empty => (updateBasic false e ec).bind fun x => extra x.1 x.2
  | .basic => extra e ec
  | _ => .ret ((e.cache.nlink, e), ec)

/-- `GetLastWriteTime` (`src/fs_dir_iterator.cpp:407-442`) on Windows. -/
def getLastWriteTime (c : SysClock) (e : Entry) (ec : EcArg) : Prog ((Int × Entry) × EcArg) :=
  let h : Handler := ⟨"GetLastWriteTime".toList, some e.path, none⟩
  let ec := ec.clear
  let upd : Prog (Entry × EcArg) := match e.cache.cacheType with
    | .empty => (updateBasic true e ec).bind fun x => updateExtra c x.1 x.2
    | .basic => updateExtra c e ec
    | .extra => if !e.cache.extraResolved then updateExtra c e ec else .ret (e, ec)
    | .full => .ret (e, ec)
  upd.bind fun x =>
    let st : FStatus := { type := x.1.cache.type }
    if st.exists' && decide (x.1.cache.writeTime = timeMin) then
      (h.report x.2 (some .EOVERFLOW) timeMin).bind fun y => .ret ((y.1, x.1), y.2)
    else .ret ((x.1.cache.writeTime, x.1), x.2)

/-- `GetStatus` (`src/fs_dir_iterator.cpp:444-483`) on Windows. -/
def getStatus (c : SysClock) (e : Entry) (ec : EcArg) : Prog ((FStatus × Entry) × EcArg) :=
  let ec := ec.clear
  let upd : Prog (Entry × EcArg) := match e.cache.cacheType with
    | .empty => (updateBasic true e ec).bind fun x => (updateExtra c x.1 x.2).bind fun y => updatePerms true y.1 y.2
    | .basic => (updateExtra c e ec).bind fun y => updatePerms true y.1 y.2
    | .extra => updatePerms true e ec
    | .full => if !e.cache.permsResolved then updatePerms true e ec else .ret (e, ec)
  upd.bind fun x => .ret ((⟨x.1.cache.type, x.1.cache.nonSymlinkPerms⟩, x.1), x.2)

/-- `GetSymLinkStatus` (`src/fs_dir_iterator.cpp:485-517`) on Windows. -/
def getSymLinkStatus (c : SysClock) (e : Entry) (ec : EcArg) : Prog ((FStatus × Entry) × EcArg) :=
  let ec := ec.clear
  let upd : Prog (Entry × EcArg) := match e.cache.cacheType with
    | .empty => (updateBasic false e ec).bind fun x => (updateExtra c x.1 x.2).bind fun y => updatePerms false y.1 y.2
    | .basic => (updateExtra c e ec).bind fun y => updatePerms false y.1 y.2
    | .extra => updatePerms false e ec
    | .full => .ret (e, ec)
  upd.bind fun x => .ret ((⟨x.1.cache.type, x.1.cache.symlinkPerms⟩, x.1), x.2)

/-- `exists()` and `exists(ec)` (`include/filesystem/fs_dir.h:90-96`) on Windows. -/
def Entry.existsE (e : Entry) (ec : EcArg) : Prog ((Bool × Entry) × EcArg) :=
  (getFileType e ec).bind fun x => .ret ((FStatus.exists' { type := x.1.1 }, x.1.2), x.2)

/-- The predicates `is_block_file` … `is_socket` that follow links (`include/filesystem/fs_dir.h:98-158`) on Windows;
`is_other` uses the free function. -/
def Entry.isType (f : FStatus → Bool) (e : Entry) (ec : EcArg) : Prog ((Bool × Entry) × EcArg) :=
  (getFileType e ec).bind fun x => .ret ((f { type := x.1.1 }, x.1.2), x.2)

/-- `is_symlink()` and `is_symlink(ec)` (`include/filesystem/fs_dir.h:160-168`) on Windows. -/
def Entry.isSymlinkE (e : Entry) (ec : EcArg) : Prog ((Bool × Entry) × EcArg) :=
  (getSymLinkFileType e ec).bind fun x => .ret ((x.1.1 == .symlink, x.1.2), x.2)

end Win
end Asap
