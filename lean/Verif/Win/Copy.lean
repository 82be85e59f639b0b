import Verif.Win.Dir
import Verif.Ops.Recursive

/-!
# `copy` on Windows

`copy_impl` (`src/fs_ops.cpp:176-222, 240-296`).
-/

namespace Asap
namespace Win

/-- The loop of `copy_impl` over a directory (`src/fs_ops.cpp:283-293`). -/
def copyLoop (h : Handler) (rec : Path → Path → EcArg → Prog (Unit × EcArg)) (to : Path) :
    Nat → DirIter → Code → EcArg → Prog (Unit × EcArg)
  | 0, _, _, _ => .stop .fuel
  | _ + 1, none, _, ec => .ret ((), ec)
  | n + 1, some s, m2, ec =>
    if m2 ≠ none then Prog.finally' (h.report ec m2 ()) (destroy (some s))
    else
      (Prog.ofRes (filename .windows s.entry.path)).bind fun f =>
        (Prog.ofRes (append .windows to f)).bind fun t =>
          (Prog.onThrow (rec s.entry.path t ec) (destroy (some s))).bind fun x =>
            if x.2.isSet then (destroy (some s)).bind fun _ => .ret ((), x.2)
            else (DirIter.incr n (some s) (.ref m2)).bind fun y => copyLoop h rec to n y.1 y.2.code x.2

/-- `copy_impl` on a directory (`src/fs_ops.cpp:271-294`). -/
def copyDir (rec : Path → Path → EcArg → Prog (Unit × EcArg)) (n : Nat) (h : Handler) (src to : Path)
    (t : FStatus) (ec : EcArg) : Prog (Unit × EcArg) :=
  Prog.bind (if !t.exists' then (createDirectoryLike to src ec).bind fun x => .ret x.2 else .ret ec) fun ec =>
    if ec.isSet then .ret ((), ec)
    else (DirIter.new n src .none ec).bind fun x =>
      if x.2.isSet then .ret ((), x.2) else copyLoop h rec to n x.1 none x.2

/-- The part of `copy_impl` after the checks (`src/fs_ops.cpp:240-295`). -/
def copyDispatch (c : SysClock) (rec : Path → Path → EcArg → Prog (Unit × EcArg)) (n : Nat) (h : Handler)
    (src to : Path) (opts : CopyOptions) (f t : FStatus) (ec : EcArg) : Prog (Unit × EcArg) :=
  let makeLinks := opts.has .createSymlinks
  if f.isSymlink then
    if opts.has .skipSymlinks then .ret ((), ec)
    else if !t.exists' then copySymlink src to ec
    else h.report ec (some .EEXIST) ()
  else if f.isRegular then
    if opts.has .directoriesOnly then .ret ((), ec)
    else if makeLinks then createSymlink src to ec
    else if opts.has .createHardLinks then createHardLink src to ec
    else if t.isDirectory then
      (Prog.ofRes (filename .windows src)).bind fun fname =>
        (Prog.ofRes (append .windows to fname)).bind fun dst =>
          (copyFile c src dst opts ec).bind fun x => .ret ((), x.2)
    else (copyFile c src to opts ec).bind fun x => .ret ((), x.2)
  else if f.isDirectory && makeLinks then h.report ec (some .EISDIR) ()
  else if f.isDirectory && (opts.has .recursive || opts == CopyOptions.none) then
    copyDir rec n h src to t ec
  else .ret ((), ec)

/-- `copy_impl` (`src/fs_ops.cpp:176-222, 240-296`), at most `n` levels. `is_other` counts `reparse_file` and
`unknown`. -/
def copy (c : SysClock) : Nat → Path → Path → CopyOptions → EcArg → Prog (Unit × EcArg)
  | 0, _, _, _, _ => .stop .fuel
  | n + 1, src, to, opts, ec =>
    let h : Handler := ⟨"copy".toList, some src, some to⟩
    let ec := ec.clear
    let skipLinks := opts.has .skipSymlinks
    let makeLinks := opts.has .createSymlinks
    let copyLinks := opts.has .copySymlinks
    (if makeLinks || skipLinks || copyLinks then symlinkStatus src (.ref none) else status src (.ref none)).bind fun f =>
      if f.2.isSet then h.report ec f.2.code ()
      else
        (if makeLinks || skipLinks then symlinkStatus to (.ref none) else status to (.ref none)).bind fun t =>
          if !t.1.known then h.report ec t.2.code ()
          else if !f.1.exists' || f.1.isOther || t.1.isOther || (f.1.isDirectory && t.1.isRegular) then
            h.report ec (some .ENOSYS) ()
          else
            (if f.1.exists' && t.1.exists' then equivalent src to (.ref none) else Prog.ret (false, .ref none)).bind fun e =>
              if e.2.isSet then h.report ec e.2.code ()
              else if e.1 then h.report ec (some .ENOSYS) ()
              else copyDispatch c (fun a b ec => copy c n a b opts ec) n h src to opts f.1 t.1 ec

end Win
end Asap
