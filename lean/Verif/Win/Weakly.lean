import Verif.Win.Whole

/-!
# `weakly_canonical`, `proximate` and `relative` on Windows
-/

namespace Asap
namespace Win

/-- The search loop of `weakly_canonical_impl` (`src/fs_ops.cpp:1622-1635`): `result`, the remaining elements, and `m_ec` at the exit.
`m` is `m_ec` at the start of a round; at the end of the path it is that of the last `status_impl`, which sets it for a file that is shared
and counts as existing. -/
def existingPrefix : List Path → Path → Code → Prog (Path × List Path × Code)
  | [], result, m => .ret (result, [], m)
  | x :: xs, result, m => do
    let tmp ← Prog.ofRes (append .windows result x)
    let (st, m') ← Win.status tmp (.ref m)
    if st.exists' then existingPrefix xs tmp m'.code
    else .ret (result, x :: xs, if st.known then none else m'.code)

/-- `while (iter != end) result /= *iter++` (`src/fs_ops.cpp:1644-1646`). -/
def appendAll : Path → List Path → Res Path
  | r, [] => .ok r
  | r, x :: xs => do appendAll (← append .windows r x) xs

/-- `weakly_canonical_impl`, `weakly_canonical` on Windows (`src/fs_ops.cpp:1603-1652`). `n` bounds the loop of `canonical_impl`. -/
def weaklyCanonical (el : Bool) (n : Nat) (p : Path) (ec : EcArg) : Prog (Path × EcArg) := do
  let h : Handler := ⟨"weakly_canonical".toList, some p, none⟩
  let ec := ec.clear
  if p.isEmpty then Win.canonical el n (mkPath .windows []) ec
  else do
    let (st, m) ← Win.status p (.ref none)
    if !st.known then h.report ec m.code .default
    else if st.exists' then Win.canonical el n p ec
    else do
      let (result, rest, m) ← existingPrefix p.elems .default m.code
      let (result, m) ← (do
        if m = none ∧ !result.isEmpty then
          let (r, m) ← Win.canonical el n result (.ref none)
          Prog.ret (r, m.code)
        else Prog.ret (result, m) : Prog (Path × Code))
      if m ≠ none then .ret (result.clear .windows, ec)
      else do
        let r ← Prog.ofRes (appendAll result rest)
        let r ← Prog.ofRes (lexicallyNormal .windows el r)
        .ret (returned .windows el r, ec)

/-- `proximate(p, base, ec)` and `relative(p, base, ec)` (`include/filesystem/fs_ops.h:410-423, 439-450`) on Windows: `f` is the lexical
function used at the end. -/
def viaCanonicalEc (el : Bool) (n : Nat) (f : Path → Path → Res Path) (p base : Path) (c : Code) : Prog (Path × EcArg) := do
  let (tmp, ec) ← weaklyCanonical el n p (.ref c)
  if ec.isSet then .ret (.default, ec)
  else do
    let (tb, ec) ← weaklyCanonical el n base ec
    if ec.isSet then .ret (.default, ec)
    else do
      let r ← Prog.ofRes (f tmp tb)
      .ret (r, ec)

/-- `proximate(p, base)` and `relative(p, base)` (`include/filesystem/fs_ops.h:427-431, 456-459`) on Windows, evaluated from left to right
(C++17; unspecified in C++14). -/
def viaCanonicalThrow (el : Bool) (n : Nat) (f : Path → Path → Res Path) (p base : Path) : Prog (Path × EcArg) := do
  let (tmp, _) ← weaklyCanonical el n p .null
  let (tb, _) ← weaklyCanonical el n base .null
  let r ← Prog.ofRes (f tmp tb)
  .ret (r, .null)

/-- `proximate` with a base (`include/filesystem/fs_ops.h:410-431`) on Windows. -/
def proximate (el : Bool) (n : Nat) (p base : Path) : EcArg → Prog (Path × EcArg)
  | .ref c => viaCanonicalEc el n (lexicallyProximate .windows) p base c
  | .null => viaCanonicalThrow el n (lexicallyProximate .windows) p base

/-- `relative` with a base (`include/filesystem/fs_ops.h:439-459`) on Windows. -/
def relative (el : Bool) (n : Nat) (p base : Path) : EcArg → Prog (Path × EcArg)
  | .ref c => viaCanonicalEc el n (lexicallyRelative .windows) p base c
  | .null => viaCanonicalThrow el n (lexicallyRelative .windows) p base

/-- `proximate(p, ec)` and `proximate(p)` (`include/filesystem/fs_ops.h:423-431`) on Windows: the base is `current_path()`, always the
throwing overload. -/
def proximateCwd (el : Bool) (n : Nat) (p : Path) (ec : EcArg) : Prog (Path × EcArg) := do
  let (base, _) ← Win.currentPath .null
  proximate el n p base ec

/-- `relative(p, ec)` and `relative(p)` (`include/filesystem/fs_ops.h:452-459`) on Windows. -/
def relativeCwd (el : Bool) (n : Nat) (p : Path) (ec : EcArg) : Prog (Path × EcArg) := do
  let (base, _) ← Win.currentPath .null
  relative el n p base ec

end Win
end Asap
