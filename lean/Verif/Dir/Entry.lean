import Verif.Ops.Simple

/-!
# `directory_entry` (POSIX branch)

Models `include/filesystem/fs_dir.h:35-369` and `src/fs_dir_iterator.cpp:23-524`.
The cached data is `mutable`, so observers yield the entry as well.
-/

namespace Asap

/-- `CacheType_` (`include/filesystem/fs_dir.h:248`). -/
inductive CacheType where
  | empty | basic | extra | full
  deriving DecidableEq, Repr

/-- `CachedData_` (`include/filesystem/fs_dir.h:250-285`). -/
structure Cache where
  cacheType : CacheType
  symlink : Bool
  typeResolved : Bool
  extraResolved : Bool
  permsResolved : Bool
  type : FType
  nlink : BitVec 64
  size : BitVec 64
  writeTime : Int
  symlinkPerms : Perms
  nonSymlinkPerms : Perms
  deriving DecidableEq, Repr

/-- `CachedData_::Reset` (`include/filesystem/fs_dir.h:276-284`). -/
def Cache.reset : Cache :=
  ⟨.empty, false, false, false, false, .none, umaxErr, umaxErr, timeMin, Perms.unknown, Perms.unknown⟩

/-- `directory_entry`: `path_` and `cached_data_`. -/
structure Entry where
  path : Path
  cache : Cache
  deriving DecidableEq, Repr

/-- `directory_entry()` (`include/filesystem/fs_dir.h:38`). -/
def Entry.default : Entry := ⟨.default, .reset⟩

/-- `UpdateBasicFileInformation`, POSIX branch (`src/fs_dir_iterator.cpp:23-25, 102-140`). -/
def updateBasic (follow : Bool) (e : Entry) (ec : EcArg) : Prog (Entry × EcArg) := do
  let h : Handler := ⟨"UpdateBasicFileInformation".toList, some e.path, none⟩
  let ec := ec.clear
  let ((st, full), m) ← getFileStatus e.path none (.ref none)
  if e.cache.cacheType = .empty ∧ (m.isSet ∨ !st.known) then do
    let ((), ec) ← h.report ec m.code ()
    .ret (e, ec)
  else do
    let c := e.cache
    let c ← (do
      if c.cacheType = .empty then
        let c := { c with symlink := st.isSymlink, type := st.type }
        if c.symlink then do
          let full ← Prog.useStat full
          Prog.ret { c with nlink := BitVec.ofNat 64 full.nlink, symlinkPerms := st.perms }
        else Prog.ret c
      else Prog.ret c : Prog Cache)
    let c := if c.symlink && follow then
        { c with type := st.type, nonSymlinkPerms := st.perms, typeResolved := true,
                 extraResolved := true, permsResolved := true }
      else c
    let c ← (do
      if st.isRegular then
        let full ← Prog.useStat full
        Prog.ret { c with size := full.size }
      else Prog.ret c : Prog Cache)
    let c ← (do
      if st.exists' then
        let full ← Prog.useStat full
        let (t, _) ← extractLastWriteTime e.path full (.ref none)
        Prog.ret { c with writeTime := t }
      else Prog.ret c : Prog Cache)
    .ret ({ e with cache := { c with cacheType := .full } }, ec)

/-- `UpdateExtraFileInformation`, POSIX branch (`src/fs_dir_iterator.cpp:143-145, 208-216`). -/
def updateExtra (follow : Bool) (e : Entry) (ec : EcArg) : Prog (Entry × EcArg) := do
  let ec := ec.clear
  if e.cache.cacheType ≠ .full then .stop (.fault .assertFail)
  else do
    let (e, ec) ← if e.cache.symlink && follow && !e.cache.extraResolved then updateBasic true e ec
      else Prog.ret (e, ec)
    .ret ({ e with cache := { e.cache with cacheType := .extra } }, ec)

/-- `UpdatePermissionsInformation`, POSIX branch (`src/fs_dir_iterator.cpp:218-220, 277-285`). -/
def updatePerms (follow : Bool) (e : Entry) (ec : EcArg) : Prog (Entry × EcArg) := do
  let ec := ec.clear
  if e.cache.cacheType ≠ .full then .stop (.fault .assertFail)
  else do
    let (e, ec) ← if e.cache.symlink && follow && !e.cache.permsResolved then updateBasic true e ec
      else Prog.ret (e, ec)
    .ret ({ e with cache := { e.cache with cacheType := .full } }, ec)

/-- `HandleError` (`include/filesystem/fs_dir.h:325-334`) with
`IsDoesNotExistError` (`fs_dir.h:312-323`). -/
def handleError (msg : Str) (e : Entry) (c : Code) (allowDne : Bool) : EcArg → Prog (Unit × EcArg)
  | .ref _ => .ret ((), .ref c)
  | .null =>
    if c ≠ none ∧ (!allowDne ∨ (c ≠ some .ENOENT ∧ c ≠ some .ENOTDIR)) then
      .stop (.thrown ⟨msg, 1, e.path, .default, c⟩)
    else .ret ((), .null)

/-- `DoRefresh` with `DoRefresh_impl`, POSIX branch (`include/filesystem/fs_dir.h:336-339`,
`src/fs_dir_iterator.cpp:519-524`). -/
def refresh (e : Entry) (ec : EcArg) : Prog (Entry × EcArg) := do
  let (e, m) ← updateBasic true { e with cache := .reset } (.ref none)
  let ((), ec) ← handleError "in directory_entry::DoRefresh".toList e m.code true ec
  .ret (e, ec)

/-- `directory_entry(p)` and `directory_entry(p, ec)` (`include/filesystem/fs_dir.h:42-47`): both use
the `error_code` path; the first drops the code. -/
def Entry.new (p : Path) : Prog (Entry × EcArg) := refresh ⟨p, .reset⟩ (.ref none)

/-- `GetSymLinkFileType` (`src/fs_dir_iterator.cpp:287-308`). -/
def getSymLinkFileType (e : Entry) (ec : EcArg) : Prog ((FType × Entry) × EcArg) := do
  let ec := ec.clear
  let (stopNow, e, ec) ← (do
    if e.cache.cacheType = .empty then
      let (e, ec) ← updateBasic false e ec
      Prog.ret (decide (ec ≠ .null), e, ec)
    else Prog.ret (false, e, ec) : Prog (Bool × Entry × EcArg))
  if stopNow then .ret ((.none, e), ec)
  else if e.cache.symlink then .ret ((.symlink, e), ec)
  else do
    let st : FStatus := { type := e.cache.type }
    let ec ← (do
      if !st.exists' then
        let ((), ec) ← handleError "in directory_entry::GetSymLinkFileType".toList e (some .ENOENT) false ec
        Prog.ret ec
      else Prog.ret ec : Prog EcArg)
    .ret ((e.cache.type, e), ec)

/-- `GetFileType` (`src/fs_dir_iterator.cpp:310-337`). -/
def getFileType (e : Entry) (ec : EcArg) : Prog ((FType × Entry) × EcArg) := do
  let ec := ec.clear
  let (e, ec) ←
    if e.cache.cacheType = .empty ∨ (e.cache.cacheType = .basic ∧ !e.cache.typeResolved) then
      updateBasic true e ec
    else Prog.ret (e, ec)
  if ec ≠ .null then .ret ((.none, e), ec)
  else do
    let st : FStatus := { type := e.cache.type }
    let ec ← (do
      if !st.exists' then
        let ((), ec) ← handleError "in directory_entry::GetSymLinkFileType".toList e (some .ENOENT) false ec
        Prog.ret ec
      else Prog.ret ec : Prog EcArg)
    .ret ((e.cache.type, e), ec)

/-- `GetSize` (`src/fs_dir_iterator.cpp:339-379`). -/
def getSize (e : Entry) (ec : EcArg) : Prog ((BitVec 64 × Entry) × EcArg) := do
  let h : Handler := ⟨"UpdateExtraFileInformation".toList, some e.path, none⟩
  let ec := ec.clear
  match e.cache.cacheType with
  | .empty => do
    let (e, ec) ← updateBasic true e ec
    let st : FStatus := { type := e.cache.type }
    if st.exists' && !st.isRegular then do
      let (v, ec) ← h.reportMsg ec (some (if st.isDirectory then .EISDIR else .ENOTSUP))
        "can only query size of regular files that do exist".toList umaxErr
      .ret ((v, e), ec)
    else do
      let (e, ec) ← updateExtra true e ec
      .ret ((e.cache.size, e), ec)
  | .basic => do
    let (e, ec) ← updateExtra true e ec
    .ret ((e.cache.size, e), ec)
  | .extra => do
    let (e, ec) ← if !e.cache.extraResolved then updateExtra true e ec else Prog.ret (e, ec)
    .ret ((e.cache.size, e), ec)
  | .full => .ret ((e.cache.size, e), ec)

/-- `GetHardLinkCount` (`src/fs_dir_iterator.cpp:381-405`). -/
def getHardLinkCount (e : Entry) (ec : EcArg) : Prog ((BitVec 64 × Entry) × EcArg) := do
  let ec := ec.clear
  let (e, ec) ← match e.cache.cacheType with
    | .empty => (do
      let (e, ec) ← updateBasic false e ec
      updateExtra false e ec : Prog (Entry × EcArg))
    | .basic => updateExtra false e ec
    | _ => Prog.ret (e, ec)
  .ret ((e.cache.nlink, e), ec)

/-- `GetLastWriteTime` (`src/fs_dir_iterator.cpp:407-442`). -/
def getLastWriteTime (e : Entry) (ec : EcArg) : Prog ((Int × Entry) × EcArg) := do
  let h : Handler := ⟨"GetLastWriteTime".toList, some e.path, none⟩
  let ec := ec.clear
  let (e, ec) ← match e.cache.cacheType with
    | .empty => (do
      let (e, ec) ← updateBasic true e ec
      updateExtra true e ec : Prog (Entry × EcArg))
    | .basic => updateExtra true e ec
    | .extra => if !e.cache.extraResolved then updateExtra true e ec else Prog.ret (e, ec)
    | .full => Prog.ret (e, ec)
  let st : FStatus := { type := e.cache.type }
  if st.exists' && decide (e.cache.writeTime = timeMin) then do
    let (t, ec) ← h.report ec (some .EOVERFLOW) timeMin
    .ret ((t, e), ec)
  else .ret ((e.cache.writeTime, e), ec)

/-- `GetStatus` (`src/fs_dir_iterator.cpp:444-483`). -/
def getStatus (e : Entry) (ec : EcArg) : Prog ((FStatus × Entry) × EcArg) := do
  let ec := ec.clear
  let (e, ec) ← match e.cache.cacheType with
    | .empty => (do
      let (e, ec) ← updateBasic true e ec
      let (e, ec) ← updateExtra false e ec
      updatePerms true e ec : Prog (Entry × EcArg))
    | .basic => (do
      let (e, ec) ← updateExtra false e ec
      updatePerms true e ec : Prog (Entry × EcArg))
    | .extra => updatePerms true e ec
    | .full => if !e.cache.permsResolved then updatePerms true e ec else Prog.ret (e, ec)
  .ret ((⟨e.cache.type, e.cache.nonSymlinkPerms⟩, e), ec)

/-- `GetSymLinkStatus` (`src/fs_dir_iterator.cpp:485-517`). -/
def getSymLinkStatus (e : Entry) (ec : EcArg) : Prog ((FStatus × Entry) × EcArg) := do
  let ec := ec.clear
  let (e, ec) ← match e.cache.cacheType with
    | .empty => (do
      let (e, ec) ← updateBasic false e ec
      let (e, ec) ← updateExtra false e ec
      updatePerms false e ec : Prog (Entry × EcArg))
    | .basic => (do
      let (e, ec) ← updateExtra false e ec
      updatePerms false e ec : Prog (Entry × EcArg))
    | .extra => updatePerms false e ec
    | .full => Prog.ret (e, ec)
  .ret ((⟨e.cache.type, e.cache.symlinkPerms⟩, e), ec)

/-- `exists()` and `exists(ec)` (`include/filesystem/fs_dir.h:90-96`). -/
def Entry.existsE (e : Entry) (ec : EcArg) : Prog ((Bool × Entry) × EcArg) := do
  let ((t, e), ec) ← getFileType e ec
  .ret ((FStatus.exists' { type := t }, e), ec)

/-- The predicates `is_block_file` … `is_socket` that follow links
(`include/filesystem/fs_dir.h:98-158`); `is_other` uses the free function. -/
def Entry.isType (f : FStatus → Bool) (e : Entry) (ec : EcArg) : Prog ((Bool × Entry) × EcArg) := do
  let ((t, e), ec) ← getFileType e ec
  .ret ((f { type := t }, e), ec)

/-- `is_symlink()` and `is_symlink(ec)` (`include/filesystem/fs_dir.h:160-168`). -/
def Entry.isSymlinkE (e : Entry) (ec : EcArg) : Prog ((Bool × Entry) × EcArg) := do
  let ((t, e), ec) ← getSymLinkFileType e ec
  .ret ((t == .symlink, e), ec)

end Asap
