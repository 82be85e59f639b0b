import Verif.Ops.Time
import Verif.Path.Iter

/-!
# The operations of `fs_ops.cpp` (POSIX branch) that involve no directory iteration

Each function takes `ec`: null for the throwing overload, a reference with any
current value for the other, and yields the result and the final `*ec`.
`el` is the copy-elision parameter of the path functions involved.
-/

namespace Asap

/-- `current_path_impl(ec)` (`src/fs_ops.cpp:811-832`). -/
def currentPath (ec : EcArg) : Prog (Path × EcArg) :=
  let h : Handler := ⟨"current_path".toList, none, none⟩
  let ec := ec.clear
  .call .pathconf fun (size : Int) =>
    if 0 < size then
      .call (.getcwd size.toNat) fun
        | .ok s => .ret (mkPath .posix s, ec)
        | .error e => h.reportMsg ec (some e) "call to getcwd failed".toList .default
    else .stop (.fault .assertFail)

/-- `current_path_impl(p, ec)` (`src/fs_ops.cpp:834-846`). -/
def setCurrentPath (p : Path) (ec : EcArg) : Prog (Unit × EcArg) :=
  let h : Handler := ⟨"current_path".toList, some p, none⟩
  let ec := ec.clear
  .call (.chdir p.pathname) fun
    | .ok () => .ret ((), ec)
    | .error e => h.report ec (some e) ()

/-- `do_absolute_impl` (`src/fs_ops.cpp:39-56`): the result and `*cwd`. -/
def doAbsolute (p : Path) (ec : EcArg) : Prog ((Path × Path) × EcArg) := do
  let ec := ec.clear
  if (← Prog.ofRes (isAbsolute .posix p)) then .ret ((p, .default), ec)
  else do
    let (cwd, ec) ← currentPath ec
    if ec.isSet then .ret ((.default, cwd), ec)
    else do
      let r ← Prog.ofRes (append .posix cwd p)
      .ret ((r, cwd), ec)

/-- `absolute_impl` (`src/fs_ops.cpp:58-61`). -/
def absolute (p : Path) (ec : EcArg) : Prog (Path × EcArg) := do
  let ((r, _), ec) ← doAbsolute p ec
  .ret (r, ec)

/-- `canonical_impl`, POSIX branch (`src/fs_ops.cpp:84-97`). The text `realpath` returns
fits its buffer. -/
def canonical (p : Path) (ec : EcArg) : Prog (Path × EcArg) := do
  let ec := ec.clear
  let ((pa, cwd), ec) ← doAbsolute p ec
  let h : Handler := ⟨"canonical".toList, some p, some cwd⟩
  .call (.realpath pa.pathname) fun
    | .ok s => .ret (mkPath .posix s, ec)
    | .error e => h.report ec (some e) .default

/-- `create_directory_impl(p, ec)` (`src/fs_ops.cpp:690-712`). -/
def createDirectory (p : Path) (ec : EcArg) : Prog (Bool × EcArg) :=
  let h : Handler := ⟨"create_directory".toList, some p, none⟩
  let ec := ec.clear
  .call (.mkdir p.pathname Perms.all) fun
    | .ok () => .ret (true, ec)
    | .error e =>
      if e = .EEXIST then .ret (false, ec)
      else do
        let ((_ : Bool), ec) ← h.report ec (some e) false
        .ret (false, ec)

/-- `create_directory_impl(p, existing_template, ec)` (`src/fs_ops.cpp:714-747`). -/
def createDirectoryLike (p tmpl : Path) (ec : EcArg) : Prog (Bool × EcArg) := do
  let h : Handler := ⟨"create_directory".toList, some p, some tmpl⟩
  let ec := ec.clear
  let ((st, attr), m) ← getFileStatus tmpl none (.ref none)
  if !st.known then h.report ec m.code false
  else if !st.isDirectory then
    h.reportMsg ec (some .ENOTDIR) "the specified attribute path is invalid".toList false
  else do
    let attr ← Prog.useStat attr
    .call (.mkdir p.pathname attr.mode) fun
      | .ok () => .ret (true, ec)
      | .error e =>
        if e = .EEXIST then .ret (false, ec)
        else do
          let ((_ : Bool), ec) ← h.report ec (some e) false
          .ret (false, ec)

/-- The first loop of `create_directories_impl` (`src/fs_ops.cpp:649-656`): push
`pp` and its parents while they have a filename, except those ending in `.` or
`..`. The head of the list is the top of the stack. At most `n` rounds. -/
def missingOf (el : Bool) : Nat → Path → List Path → Prog (List Path)
  | 0, _, _ => .stop .fuel
  | n + 1, pp, acc => do
    if (← Prog.ofRes (hasFilename .posix pp)) then do
      let f ← Prog.ofRes (filename .posix pp)
      let pp' ← Prog.ofRes (parentPath .posix el pp)
      missingOf el n pp' (if isDot f.pathname || isDotDot f.pathname then acc else pp :: acc)
    else .ret acc

/-- The second loop of `create_directories_impl` (`src/fs_ops.cpp:668-682`): go through
the stack, creating what is not found. Yields `created` and the final `m_ec`, and
whether the stack is empty. -/
def createMissing : List Path → Bool → Prog (Bool × Code × Bool)
  | [], created => .ret (created, none, true)
  | top :: rest, created => do
    let (st, m) ← status top (.ref none)
    let (created, m) ← (do
      if st.type = .notFound then
        let (_, m) ← createDirectory top m
        Prog.ret (true, m)
      else Prog.ret (created, m) : Prog (Bool × EcArg))
    let m ← (do
      if m.isSet then
        let (d, _) ← isDirectoryP top .null
        Prog.ret (if d then EcArg.ref none else m)
      else Prog.ret m : Prog EcArg)
    if m.isSet then .ret (created, m.code, rest.isEmpty)
    else createMissing rest created

/-- `create_directories_impl` (`src/fs_ops.cpp:630-688`). `n` bounds the first loop. -/
def createDirectories (el : Bool) (n : Nat) (p : Path) (ec : EcArg) : Prog (Bool × EcArg) := do
  let h : Handler := ⟨"create_directories".toList, some p, none⟩
  let ec := ec.clear
  if p.isEmpty then h.report ec (some .EINVAL) false
  else do
    let missing ← missingOf el n p []
    if missing.isEmpty then .ret (false, ec)
    else do
      let (created, m, empty) ← createMissing missing false
      match m with
      | some e => h.report ec (some e) false
      | none => .ret (created && empty, ec)

/-- `create_directory_symlink_impl` and `create_symlink_impl`
(`src/fs_ops.cpp:753-770, 789-805`); they differ in the name reported. -/
def createSymlinkAs (fn : Str) (target link : Path) (ec : EcArg) : Prog (Unit × EcArg) :=
  let h : Handler := ⟨fn, some target, some link⟩
  let ec := ec.clear
  .call (.symlink target.pathname link.pathname) fun
    | .ok () => .ret ((), ec)
    | .error e => h.report ec (some e) ()

/-- `create_symlink_impl` (`src/fs_ops.cpp:789-805`). -/
def createSymlink := createSymlinkAs "create_symlink".toList
/-- `create_directory_symlink_impl` (`src/fs_ops.cpp:753-770`). -/
def createDirectorySymlink := createSymlinkAs "create_directory_symlink".toList

/-- `create_hard_link_impl` (`src/fs_ops.cpp:772-787`). -/
def createHardLink (target link : Path) (ec : EcArg) : Prog (Unit × EcArg) :=
  let h : Handler := ⟨"create_hard_link".toList, some target, some link⟩
  let ec := ec.clear
  .call (.link target.pathname link.pathname) fun
    | .ok () => .ret ((), ec)
    | .error e => h.report ec (some e) ()

/-- `read_symlink_impl` (`src/fs_ops.cpp:1214-1234`). -/
def readSymlink (p : Path) (ec : EcArg) : Prog (Path × EcArg) :=
  let h : Handler := ⟨"read_symlink".toList, some p, none⟩
  let ec := ec.clear
  .call .pathconf fun (size : Int) =>
    if 0 < size then
      .call (.readlink p.pathname size.toNat) fun
        | .ok s =>
          if (s.length : Int) ≤ size ∧ 0 < s.length then .ret (mkPath .posix s, ec)
          else .stop (.fault .assertFail)
        | .error e => h.report ec (some e) .default
    else .stop (.fault .assertFail)

/-- `copy_symlink_impl` (`src/fs_ops.cpp:597-624`). -/
def copySymlink (src dst : Path) (ec : EcArg) : Prog (Unit × EcArg) := do
  let h : Handler := ⟨"copy_symlink".toList, some src, some dst⟩
  let ec := ec.clear
  let (real, m) ← readSymlink src (.ref none)
  if m.isSet then h.report ec m.code ()
  else createSymlink real dst ec

/-- `stat_equivalent` (`src/fs_ops.cpp:170-172`). -/
def statEquivalent (a b : Stat) : Bool := a.dev == b.dev && a.ino == b.ino

/-- `equivalent_impl`, POSIX branch (`src/fs_ops.cpp:852-923`). The paths passed to
`GetFileStatus` are re-parsed from `native()`. -/
def equivalent (p1 p2 : Path) (ec : EcArg) : Prog (Bool × EcArg) := do
  let h : Handler := ⟨"equivalent".toList, some p1, some p2⟩
  let ec := ec.clear
  let ((s1, st1), _) ← getFileStatus (mkPath .posix p1.pathname) (some .zero) (.ref none)
  if !s1.exists' then h.report ec (some .ENOTSUP) false
  else do
    let ((s2, st2), _) ← getFileStatus (mkPath .posix p2.pathname) (some .zero) (.ref none)
    if !s2.exists' then h.report ec (some .ENOTSUP) false
    else do
      let a ← Prog.useStat st1
      let b ← Prog.useStat st2
      .ret (statEquivalent a b, ec)

/-- `error_value<uintmax_t>()` (`src/fs_error.h:56-59`). -/
def umaxErr : BitVec 64 := BitVec.allOnes 64

/-- `file_size_impl`, POSIX branch (`src/fs_ops.cpp:929-962`). -/
def fileSize (p : Path) (ec : EcArg) : Prog (BitVec 64 × EcArg) := do
  let h : Handler := ⟨"file_size".toList, some p, none⟩
  let ec := ec.clear
  let ((fst, st), m) ← getFileStatus p none (.ref none)
  if !fst.exists' || !fst.isRegular then
    let kind : Errno := if fst.isDirectory then .EISDIR else .ENOTSUP
    h.report ec (if m.isSet then m.code else some kind) umaxErr
  else do
    let st ← Prog.useStat st
    .ret (st.size, ec)

/-- `hard_link_count_impl`, POSIX branch (`src/fs_ops.cpp:968-996`). -/
def hardLinkCount (p : Path) (ec : EcArg) : Prog (BitVec 64 × EcArg) := do
  let h : Handler := ⟨"hard_link_count".toList, some p, none⟩
  let ec := ec.clear
  let ((_, st), m) ← getFileStatus p none (.ref none)
  if m.isSet then h.report ec m.code umaxErr
  else do
    let st ← Prog.useStat st
    .ret (BitVec.ofNat 64 st.nlink, ec)

/-- `perm_options` (`include/filesystem/fs_perms.h:91-96`). -/
abbrev PermOptions := BitVec 32
def PermOptions.replace : PermOptions := 1
def PermOptions.add : PermOptions := 2
def PermOptions.remove : PermOptions := 4
def PermOptions.nofollow : PermOptions := 8

/-- The end of `permissions_impl` (`src/fs_ops.cpp:1195-1200`, the `fchmodat` branch). -/
def chmodAt (p : Path) (prms : Perms) (sym : Bool) (ec : EcArg) : Prog (Unit × EcArg) :=
  let h : Handler := ⟨"permissions".toList, some p, none⟩
  .call (.fchmodat p.pathname (prms &&& Perms.mask) sym) fun
    | .ok () => .ret ((), ec)
    | .error e => h.report ec (some e) ()

/-- The status read by `permissions_impl` (`src/fs_ops.cpp:1173-1174`). -/
def permStatus (p : Path) (resolve : Bool) : Prog (FStatus × EcArg) :=
  if resolve then status p (.ref none) else symlinkStatus p (.ref none)

/-- `permissions_impl` (`src/fs_ops.cpp:1155-1208`, the `fchmodat` branch). -/
def permissions (p : Path) (prms : Perms) (opts : PermOptions) (ec : EcArg) : Prog (Unit × EcArg) := do
  let h : Handler := ⟨"permissions".toList, some p, none⟩
  let ec := ec.clear
  let has (o : PermOptions) : Bool := (o &&& opts) != 0
  let resolve := !has .nofollow
  let add := has .add
  let rem := has .remove
  if add.toNat + rem.toNat + (has .replace).toNat ≠ 1 then .stop (.fault .assertFail)
  else do
    let prms := prms &&& Perms.mask
    if !resolve || (add || rem) then do
      let (st, m) ← permStatus p resolve
      if m.isSet then h.report ec m.code ()
      else if st.perms = Perms.unknown then .stop (.fault .assertFail)
      else
        let prms := if add then prms ||| st.perms else if rem then st.perms &&& ~~~ prms else prms
        chmodAt p prms st.isSymlink ec
    else chmodAt p prms false ec

/-- `remove_impl`, POSIX branch (`src/fs_ops.cpp:1240-1284`). -/
def remove (p : Path) (ec : EcArg) : Prog (Bool × EcArg) :=
  let h : Handler := ⟨"remove".toList, some p, none⟩
  let ec := ec.clear
  if p.isEmpty then .ret (false, ec)
  else .call (.remove p.pathname) fun
    | .ok () => .ret (true, ec)
    | .error e =>
      if e = .ENOENT then .ret (false, ec)
      else do
        let ((_ : Bool), ec) ← h.report ec (some e) false
        .ret (false, ec)

/-- `rename_impl` (`src/fs_ops.cpp:1343-1348`). -/
def rename (a b : Path) (ec : EcArg) : Prog (Unit × EcArg) :=
  let h : Handler := ⟨"rename".toList, some a, some b⟩
  let ec := ec.clear
  .call (.rename a.pathname b.pathname) fun
    | .ok () => .ret ((), ec)
    | .error e => h.report ec (some e) ()

/-- `resize_file_impl`, POSIX branch (`src/fs_ops.cpp:1354-1378`); the cast to
`off_t` keeps the 64 bits. -/
def resizeFile (p : Path) (size : BitVec 64) (ec : EcArg) : Prog (Unit × EcArg) :=
  let h : Handler := ⟨"resize_file".toList, some p, none⟩
  let ec := ec.clear
  .call (.truncate p.pathname size) fun
    | .ok () => .ret ((), ec)
    | .error e => h.report ec (some e) ()

/-- `space_info` (`include/filesystem/fs_ops.h:22-26`). -/
structure SpaceInfo where
  capacity : BitVec 64
  free : BitVec 64
  available : BitVec 64
  deriving DecidableEq, Repr

/-- `do_mult` (`src/fs_ops.cpp:1417-1422`): unsigned 64 bit multiplication and
division. -/
def doMult (frsize other : BitVec 64) : BitVec 64 :=
  let out := other * frsize
  if other = 0 ∨ out / other ≠ frsize then umaxErr else out

/-- `space_impl`, POSIX branch (`src/fs_ops.cpp:1384-1432`). -/
def space (p : Path) (ec : EcArg) : Prog (SpaceInfo × EcArg) :=
  let h : Handler := ⟨"space".toList, some p, none⟩
  let ec := ec.clear
  .call (.statvfs p.pathname) fun
    | .ok v => .ret (⟨doMult v.frsize v.blocks, doMult v.frsize v.bfree, doMult v.frsize v.bavail⟩, ec)
    | .error e => do
      let ((), ec) ← h.report ec (some e) ()
      .ret (⟨umaxErr, umaxErr, umaxErr⟩, ec)

/-- The loop over the environment (`src/fs_ops.cpp:1572-1582`). -/
def firstEnv : List Str → Prog Str
  | [] => .ret "/tmp".toList
  | v :: vs => .call (.getenv v) fun
    | some s => .ret s
    | none => firstEnv vs

/-- `temp_directory_path_impl`, POSIX branch (`src/fs_ops.cpp:1559-1597`). -/
def tempDirectoryPath (ec : EcArg) : Prog (Path × EcArg) := do
  let h : Handler := ⟨"temp_directory_path".toList, none, none⟩
  let ec := ec.clear
  let s ← firstEnv ["TMPDIR".toList, "TMP".toList, "TEMP".toList, "TEMPDIR".toList]
  let p := mkPath .posix s
  let (st, m) ← status p (.ref none)
  if !st.known then
    h.reportMsg ec m.code ("cannot access path \"{".toList ++ p.pathname ++ "}\"".toList) .default
  else if !st.exists' || !st.isDirectory then
    h.reportMsg ec (some .ENOTDIR)
      ("path \"{".toList ++ p.pathname ++ "}\" is not a directory".toList) .default
  else .ret (p, ec)

/-- The search loop of `weakly_canonical_impl` (`src/fs_ops.cpp:1622-1635`): `result`, the
remaining elements, and `m_ec` at the exit. -/
def existingPrefix : List Path → Path → Prog (Path × List Path × Code)
  | [], result => .ret (result, [], none)
  | x :: xs, result => do
    let tmp ← Prog.ofRes (append .posix result x)
    let (st, m) ← status tmp (.ref none)
    if st.exists' then existingPrefix xs tmp
    else .ret (result, x :: xs, if st.known then none else m.code)

/-- `while (iter != end) result /= *iter++` (`src/fs_ops.cpp:1644-1646`). -/
def appendAll : Path → List Path → Res Path
  | r, [] => .ok r
  | r, x :: xs => do appendAll (← append .posix r x) xs

/-- `weakly_canonical_impl` (`src/fs_ops.cpp:1603-1652`). -/
def weaklyCanonical (el : Bool) (p : Path) (ec : EcArg) : Prog (Path × EcArg) := do
  let h : Handler := ⟨"weakly_canonical".toList, some p, none⟩
  let ec := ec.clear
  if p.isEmpty then canonical (mkPath .posix []) ec
  else do
    let (st, m) ← status p (.ref none)
    if !st.known then h.report ec m.code .default
    else if st.exists' then canonical p ec
    else do
      let (result, rest, m) ← existingPrefix p.elems .default
      let (result, m) ← (do
        if m = none ∧ !result.isEmpty then
          let (r, m) ← canonical result (.ref none)
          Prog.ret (r, m.code)
        else Prog.ret (result, m) : Prog (Path × Code))
      if m ≠ none then .ret (result.clear .posix, ec)
      else do
        let r ← Prog.ofRes (appendAll result rest)
        let r ← Prog.ofRes (lexicallyNormal .posix el r)
        .ret (returned .posix el r, ec)

/-- `proximate(p, base, ec)` and `relative(p, base, ec)` (`include/filesystem/fs_ops.h:410-423,
439-450`): `f` is the lexical function used at the end. -/
def viaCanonicalEc (el : Bool) (f : Path → Path → Res Path) (p base : Path) (c : Code) :
    Prog (Path × EcArg) := do
  let (tmp, ec) ← weaklyCanonical el p (.ref c)
  if ec.isSet then .ret (.default, ec)
  else do
    let (tb, ec) ← weaklyCanonical el base ec
    if ec.isSet then .ret (.default, ec)
    else do
      let r ← Prog.ofRes (f tmp tb)
      .ret (r, ec)

/-- `proximate(p, base)` and `relative(p, base)` (`include/filesystem/fs_ops.h:427-431,
456-459`). The order of evaluating the object expression and the argument is
left to right here (C++17); in C++14 it is unspecified. -/
def viaCanonicalThrow (el : Bool) (f : Path → Path → Res Path) (p base : Path) : Prog (Path × EcArg) := do
  let (tmp, _) ← weaklyCanonical el p .null
  let (tb, _) ← weaklyCanonical el base .null
  let r ← Prog.ofRes (f tmp tb)
  .ret (r, .null)

/-- `proximate` with a base (`include/filesystem/fs_ops.h:410-431`). -/
def proximate (el : Bool) (p base : Path) : EcArg → Prog (Path × EcArg)
  | .ref c => viaCanonicalEc el (lexicallyProximate .posix) p base c
  | .null => viaCanonicalThrow el (lexicallyProximate .posix) p base

/-- `relative` with a base (`include/filesystem/fs_ops.h:439-459`). -/
def relative (el : Bool) (p base : Path) : EcArg → Prog (Path × EcArg)
  | .ref c => viaCanonicalEc el (lexicallyRelative .posix) p base c
  | .null => viaCanonicalThrow el (lexicallyRelative .posix) p base

/-- `proximate(p, ec)` and `proximate(p)` (`include/filesystem/fs_ops.h:423-431`): the base is
`current_path()`, always the throwing overload. -/
def proximateCwd (el : Bool) (p : Path) (ec : EcArg) : Prog (Path × EcArg) := do
  let (base, _) ← currentPath .null
  proximate el p base ec

/-- `relative(p, ec)` and `relative(p)` (`include/filesystem/fs_ops.h:452-459`). -/
def relativeCwd (el : Bool) (p : Path) (ec : EcArg) : Prog (Path × EcArg) := do
  let (base, _) ← currentPath .null
  relative el p base ec

end Asap
