import Verif.Ops.Status

/-!
# File times

`file_time_type` is `std::chrono::system_clock::time_point`
(`include/filesystem/fs_file_time_type.h:22`): with libstdc++ a signed 64 bit
count of nanoseconds. `time_t` and `tv_nsec` are signed 64 bit as well.
Values are integers; an operation whose result leaves the 64 bit range is
undefined behaviour.
-/

namespace Asap

/-- Representable in `int64_t`. -/
def InI64 (x : Int) : Prop := -2 ^ 63 ≤ x ∧ x < 2 ^ 63

instance (x : Int) : Decidable (InI64 x) := inferInstanceAs (Decidable (_ ∧ _))

/-- The result of a signed 64 bit operation. -/
def i64 (x : Int) : Res Int := if InI64 x then .ok x else .error .ub

/-- `file_time_type::min()`. -/
def timeMin : Int := -2 ^ 63

/-- `FileTimeIsRepresentable` (`src/posix/time.cpp:30-40`). `seconds::max()` and
`seconds::min()` are the limits of `int64_t`; `seconds::min().count() - 1` is
itself an overflow in a constant expression folded by the compilers to the
wrapped value `2^63 - 1`, which a negative `tv_sec` never equals. -/
def timeIsRepresentable (sec _nsec : Int) : Bool :=
  if 0 ≤ sec then decide (sec ≤ 2 ^ 63 - 1)
  else decide (-2 ^ 63 ≤ sec)

/-- `FileTimeTypeFromPosixTimeSpec` (`src/posix/time.cpp:44-62`). Seconds are
multiplied into nanoseconds by the chrono conversions. -/
def timeFromSpec (sec nsec : Int) : Res Int :=
  if 0 ≤ sec ∨ nsec = 0 then do
    let a ← i64 (sec * 1000000000)
    i64 (a + nsec)
  else do
    let adj ← i64 (1000000000 - nsec)
    let s1 ← i64 (sec + 1)
    let a ← i64 (s1 * 1000000000)
    i64 (a - adj)

/-- `ExtractLastWriteTime` (`src/posix/time.cpp:64-73`). -/
def extractLastWriteTime (p : Path) (st : Stat) (ec : EcArg) : Prog (Int × EcArg) :=
  let h : Handler := ⟨"last_write_time".toList, some p, none⟩
  let ec := ec.clear
  if timeIsRepresentable st.mtimeSec st.mtimeNsec then do
    let t ← Prog.ofRes (timeFromSpec st.mtimeSec st.mtimeNsec)
    .ret (t, ec)
  else h.report ec (some .EOVERFLOW) timeMin

/-- `last_write_time_impl(p, ec)` (`src/fs_ops.cpp:1051-1079`, POSIX branch). -/
def lastWriteTime (p : Path) (ec : EcArg) : Prog (Int × EcArg) := do
  let h : Handler := ⟨"last_write_time".toList, some p, none⟩
  let ec := ec.clear
  let ((_, st), m) ← getFileStatus p none (.ref none)
  if m.isSet then h.report ec m.code timeMin
  else do
    let st ← Prog.useStat st
    extractLastWriteTime p st ec

/-- The seconds and nanoseconds computed by `last_write_time_impl(p, t, ec)`
(`src/fs_ops.cpp:1108-1121`): truncating division, then a correction when the
remainder is negative. -/
def timeToSpec (t : Int) : Int × Int :=
  let s := t.tdiv 1000000000
  let ns := t - s * 1000000000
  if ns < 0 then (s - 1, ns + 1000000000) else (s, ns)

/-- `last_write_time_impl(p, new_time, ec)` (`src/fs_ops.cpp:1081-1149`, the
`utimensat` branch; `t` is a value of `file_time_type`). -/
def setLastWriteTime (p : Path) (t : Int) (ec : EcArg) : Prog (Unit × EcArg) :=
  let h : Handler := ⟨"last_write_time".toList, some p, none⟩
  let ec := ec.clear
  let (s, ns) := timeToSpec t
  if s < 0 then h.reportMsg ec (some .EINVAL) "negative number of seconds since epoch".toList ()
  else .call (.utimensat p.pathname s ns) fun
    | .ok () => .ret ((), ec)
    | .error e => h.report ec (some e) ()

end Asap
