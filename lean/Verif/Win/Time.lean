import Verif.Ops.Time

/-!
# Windows file times

`src/windows/time.cpp`. `file_time_type` is `std::chrono::system_clock::time_point`
(`include/filesystem/fs_file_time_type.h:22`): a signed 64 bit count of ticks. The length of a tick depends on
the standard library and is a parameter of the model.
-/

namespace Asap

/-- The `period` of `std::chrono::system_clock`: `ticks` in a second, each of `nanos` nanoseconds. -/
structure SysClock where
  ticks : Nat
  nanos : Nat
  second : ticks * nanos = 1000000000

/-- Microsoft's library: ticks of 100 nanoseconds. -/
def SysClock.msvc : SysClock := ⟨10000000, 100, rfl⟩

/-- libstdc++ (MinGW): ticks of one nanosecond. -/
def SysClock.gnu : SysClock := ⟨1000000000, 1, rfl⟩

/-- libc++ (clang for Windows): ticks of one microsecond. -/
def SysClock.llvm : SysClock := ⟨1000000, 1000, rfl⟩

/-- `ULARGE_INTEGER::QuadPart` after its two halves are set (`src/windows/time.cpp:25-27`). -/
def FileTime.quad (ft : FileTime) : BitVec 64 := ft.high ++ ft.low

/-- `FileTimeTypeFromWindowsFileTime` (`src/windows/time.cpp:19-34`). The division and the subtraction are
unsigned; the result is converted to the signed `rep`, and the conversion of the seconds to ticks multiplies in
`int64_t`. The error code is cleared and never set. -/
def fromWindowsFileTime (c : SysClock) (ft : FileTime) : Res Int :=
  let s : BitVec 64 := ft.quad / 10000000#64 - 11644473600#64
  i64 (s.toInt * c.ticks)

/-- `FileTimeTypeToWindowsFileTime` (`src/windows/time.cpp:36-52`): the result and the error code. The
conversion to nanoseconds multiplies in `int64_t`; the quotient and the sum are signed as well. -/
def toWindowsFileTime (c : SysClock) (t : Int) : Res (FileTime × Option Errno) :=
  if t < 0 then .ok (⟨0, 0⟩, some .EINVAL)
  else do
    let ns ← i64 (t * c.nanos)
    let ll ← i64 (ns.tdiv 100 + 116444736000000000)
    let u : BitVec 64 := BitVec.ofInt 64 ll
    .ok (⟨u.setWidth 32, (u >>> 32).setWidth 32⟩, none)

end Asap
