import Verif.Path.WinAppend
import Verif.Ops.Simple

/-!
# `canonical` on Windows

The branch of `canonical_impl` without `realpath` (`src/fs_ops.cpp:99-162`). The library functions it calls
(`is_directory`, `is_symlink`, `exists`, `read_symlink`, all with `m_ec`) are single calls with an arbitrary answer.
-/

namespace Asap

/-- The loop `while (!cmpts.empty() && !m_ec)` (`src/fs_ops.cpp:114-153`): `root` is `pa.root_path()`, `k` is
`max_allowed_symlinks` (an `int`; decrementing its least value is undefined), `m` is `m_ec`. At most `n` rounds
(`Stop.fuel` when they do not suffice). -/
def winCanonLoop (el : Bool) (h : Handler) (root : Path) :
    Nat → Path → List Path → Int → Code → EcArg → Prog (Path × Code × EcArg)
  | _, result, [], _, m, ec => .ret (result, m, ec)
  | _, result, _ :: _, _, some e, ec => .ret (result, some e, ec)
  | 0, _, _ :: _, _, none, _ => .stop .fuel
  | n + 1, result, f0 :: cmpts, k, none, ec =>
    let f := f0.moved .windows
    if f.isEmpty then winCanonLoop el h root n result cmpts k none ec
    else if isDot f.pathname then
      .call (.winTest .isDirectory result.pathname) fun (bm : Bool × Code) =>
        if !bm.1 ∧ bm.2 = none then
          (h.report ec (some .ENOTDIR) Path.default).bind fun x => winCanonLoop el h root n result cmpts k bm.2 x.2
        else winCanonLoop el h root n result cmpts k bm.2 ec
    else if isDotDot f.pathname then
      (Prog.ofRes (parentPath .windows el result)).bind fun parent =>
        winCanonLoop el h root n (if parent.isEmpty then root else parent) cmpts k none ec
    else
      (Prog.ofRes (append .windows result f)).bind fun result =>
        .call (.winTest .isSymlink result.pathname) fun (bm : Bool × Code) =>
          if bm.1 then
            .call (.winReadlink result.pathname) fun
              | .error e => winCanonLoop el h root n result cmpts k (some e) ec
              | .ok s =>
                if k = -2147483648 then .stop (.fault .ub)
                else if k - 1 = 0 then
                  (h.report ec (some .ELOOP) Path.default).bind fun x =>
                    winCanonLoop el h root n result cmpts (k - 1) none x.2
                else
                  (Prog.ofRes (isAbsolute .windows (mkPath .windows s))).bind fun abs =>
                    if abs then
                      (Prog.ofRes (relativePath .windows (mkPath .windows s))).bind fun rel =>
                        winCanonLoop el h root n (rootPath .windows (mkPath .windows s)) (rel.elems ++ cmpts) (k - 1) none ec
                    else
                      (Prog.ofRes (parentPath .windows el result)).bind fun parent =>
                        winCanonLoop el h root n parent ((mkPath .windows s).elems ++ cmpts) (k - 1) none ec
          else winCanonLoop el h root n result cmpts k bm.2 ec

/-- `canonical_impl` on Windows from the absolute path `pa` on (`src/fs_ops.cpp:99-162`). The first part
(`do_absolute_impl`, lines 86-89) is left out: `pa` is arbitrary. `h` is the error handler. -/
def winCanonical (el : Bool) (n : Nat) (h : Handler) (pa : Path) (ec : EcArg) : Prog (Path × EcArg) :=
  (Prog.ofRes (relativePath .windows pa)).bind fun rel =>
    (winCanonLoop el h (rootPath .windows pa) n (rootPath .windows pa) rel.elems 40 none ec).bind fun x =>
      if x.2.1 ≠ none then h.report x.2.2 (some .ENOENT) .default
      else
        .call (.winTest .exists' x.1.pathname) fun (bm : Bool × Code) =>
          if !bm.1 then h.report x.2.2 (some .ENOENT) .default
          else .ret (returned .windows el x.1, x.2.2)

end Asap
