import Verif.Ops.CopyFile
import Verif.Dir.Iter

/-!
# Operations that walk directories (POSIX branch)

`is_empty`, `remove_all` and `copy`: `src/fs_ops.cpp:176-296, 1002-1045, 1290-1337`.
-/

namespace Asap

/-- `is_empty_directory` (`src/fs_ops.cpp:1003-1009`). -/
def isEmptyDirectory (n : Nat) (p : Path) (ec : EcArg) : Prog (Bool × EcArg) := do
  let (it, ec) ← DirIter.new n p .none ec
  it.destroy
  if ec.isSet then .ret (false, ec) else .ret (it.isNone, ec)

/-- `is_empty_impl`, POSIX branch (`src/fs_ops.cpp:1012-1045`). -/
def isEmptyFile (n : Nat) (p : Path) (ec : EcArg) : Prog (Bool × EcArg) := do
  let h : Handler := ⟨"is_empty".toList, some p, none⟩
  let ec := ec.clear
  let ((st, pst), m) ← getFileStatus p none (.ref none)
  if m.isSet then h.report ec m.code false
  else if !st.isDirectory && !st.isRegular then h.report ec (some .ENOTSUP) false
  else if st.isDirectory then isEmptyDirectory n p ec
  else do
    let pst ← Prog.useStat pst
    .ret (pst.size == 0, ec)

/-- The loop of `do_remove_all_impl` (`src/fs_ops.cpp:1299-1309`), at most `n` rounds:
`rec` is the recursive call. The iterator is destroyed at the exit. -/
def removeLoop (rec : Path → Prog (BitVec 64 × Code)) : Nat → DirIter → BitVec 64 →
    Prog (BitVec 64 × Code)
  | 0, _, _ => .stop .fuel
  | _ + 1, none, count => .ret (count, none)
  | n + 1, some s, count => do
    let (other, m) ← rec s.entry.path
    if m ≠ none then do
      DirIter.destroy (some s)
      .ret (umaxErr, m)
    else do
      let count := count + other
      let (it, ec) ← DirIter.incr n (some s) (.ref m)
      match ec.code with
      | some e => .ret (umaxErr, some e)
      | none => removeLoop rec n it count

/-- `do_remove_all_impl` (`src/fs_ops.cpp:1292-1315`), at most `n` levels. -/
def doRemoveAll : Nat → Path → Prog (BitVec 64 × Code)
  | 0, _ => .stop .fuel
  | n + 1, p => do
    let (st, ec) ← symlinkStatus p (.ref none)
    if ec.isSet then .ret (umaxErr, ec.code)
    else do
      let (count, m) ← (do
        if st.isDirectory then
          let (it, ec) ← DirIter.new n p .none ec
          match ec.code with
          | some e => Prog.ret (umaxErr, some e)
          | none => removeLoop (doRemoveAll n) n it 1
        else Prog.ret (1, none) : Prog (BitVec 64 × Code))
      if m ≠ none then .ret (umaxErr, m)
      else do
        let (b, ec) ← remove p (.ref none)
        if !b then .ret (umaxErr, ec.code) else .ret (count, ec.code)

/-- `remove_all_impl` (`src/fs_ops.cpp:1319-1337`). -/
def removeAll (n : Nat) (p : Path) (ec : EcArg) : Prog (BitVec 64 × EcArg) := do
  let h : Handler := ⟨"remove_all".toList, some p, none⟩
  let ec := ec.clear
  if p.isEmpty then .ret (0, ec)
  else do
    let (count, m) ← doRemoveAll n p
    match m with
    | some e => if e = .ENOENT then .ret (0, ec) else h.report ec (some e) umaxErr
    | none => .ret (count, ec)

/-- `p`, with a clean-up that only runs when `p` throws. -/
def Prog.onThrow {α : Type} : Prog α → Prog Unit → Prog α
  | .ret a, _ => .ret a
  | .stop (.thrown e), c => c.bind fun _ => .stop (.thrown e)
  | .stop s, _ => .stop s
  | .call c k, d => .call c (fun r => (k r).onThrow d)

/-- The loop of `copy_impl` over a directory (`src/fs_ops.cpp:283-293`), at most `n`
rounds; `m2` is `m_ec2` and `rec` the recursive call. -/
def copyLoop (h : Handler) (rec : Path → Path → EcArg → Prog (Unit × EcArg)) (to : Path) :
    Nat → DirIter → Code → EcArg → Prog (Unit × EcArg)
  | 0, _, _, _ => .stop .fuel
  | _ + 1, none, _, ec => .ret ((), ec)
  | n + 1, some s, m2, ec =>
    if m2 ≠ none then Prog.finally' (h.report ec m2 ()) (DirIter.destroy (some s))
    else do
      let f ← Prog.ofRes (filename .posix s.entry.path)
      let t ← Prog.ofRes (append .posix to f)
      let ((), ec) ← Prog.onThrow (rec s.entry.path t ec) (DirIter.destroy (some s))
      if ec.isSet then do
        DirIter.destroy (some s)
        .ret ((), ec)
      else do
        let (it, m2) ← DirIter.incr n (some s) (.ref m2)
        copyLoop h rec to n it m2.code ec

/-- `copy_impl` on a directory (`src/fs_ops.cpp:271-294`); `t` is the status of `to`. -/
def copyDir (rec : Path → Path → EcArg → Prog (Unit × EcArg)) (n : Nat) (h : Handler) (src to : Path)
    (t : FStatus) (ec : EcArg) : Prog (Unit × EcArg) := do
  let ec ← (do
    if !t.exists' then
      let (_, ec) ← createDirectoryLike to src ec
      Prog.ret ec
    else Prog.ret ec : Prog EcArg)
  if ec.isSet then .ret ((), ec)
  else do
    let (it, ec) ← DirIter.new n src .none ec
    if ec.isSet then .ret ((), ec)
    else copyLoop h rec to n it none ec

/-- The part of `copy_impl` after the checks (`src/fs_ops.cpp:240-295`). -/
def copyDispatch (rec : Path → Path → EcArg → Prog (Unit × EcArg)) (sf : Bool) (n : Nat) (h : Handler)
    (src to : Path) (opts : CopyOptions) (f t : FStatus) (ec : EcArg) : Prog (Unit × EcArg) :=
  let makeLinks := opts.has .createSymlinks
  if f.isSymlink then
    if opts.has .skipSymlinks then .ret ((), ec)
    else if !t.exists' then copySymlink src to ec
    else h.report ec (some .EEXIST) ()
  else if f.isRegular then
    if opts.has .directoriesOnly then .ret ((), ec)
    else if makeLinks then createSymlink src to ec
    else if opts.has .createHardLinks then createHardLink src to ec
    else if t.isDirectory then do
      let fname ← Prog.ofRes (filename .posix src)
      let dst ← Prog.ofRes (append .posix to fname)
      let (_, ec) ← copyFile sf n src dst opts ec
      .ret ((), ec)
    else do
      let (_, ec) ← copyFile sf n src to opts ec
      .ret ((), ec)
  else if f.isDirectory && makeLinks then h.report ec (some .EISDIR) ()
  else if f.isDirectory && (opts.has .recursive || opts == CopyOptions.none) then
    copyDir rec n h src to t ec
  else .ret ((), ec)

/-- The checks at the start of `copy_impl` (`src/fs_ops.cpp:212-238`) on the status of
source and destination. -/
def copyRejects (f t : FStatus) (fst tst : Stat) : Bool :=
  !f.exists' || f.isOther || t.isOther || (f.isDirectory && t.isRegular) || statEquivalent fst tst

/-- `copy_impl`, POSIX branch (`src/fs_ops.cpp:176-296`), at most `n` levels. -/
def copy (sf : Bool) : Nat → Path → Path → CopyOptions → EcArg → Prog (Unit × EcArg)
  | 0, _, _, _, _ => .stop .fuel
  | n + 1, src, to, opts, ec => do
    let h : Handler := ⟨"copy".toList, some src, some to⟩
    let ec := ec.clear
    let skipLinks := opts.has .skipSymlinks
    let makeLinks := opts.has .createSymlinks
    let copyLinks := opts.has .copySymlinks
    let fromStatus := if makeLinks || skipLinks || copyLinks then getLinkStatus else getFileStatus
    let toStatus := if makeLinks || skipLinks then getLinkStatus else getFileStatus
    let ((f, fst), m) ← fromStatus src (some .zero) (.ref none)
    if m.isSet then h.report ec m.code ()
    else do
      let ((t, tst), m) ← toStatus to (some .zero) m
      if !t.known then h.report ec m.code ()
      else do
        let fst ← Prog.useStat fst
        let tst ← Prog.useStat tst
        if copyRejects f t fst tst then h.report ec (some .ENOSYS) ()
        else copyDispatch (fun a b ec => copy sf n a b opts ec) sf n h src to opts f t ec

end Asap
