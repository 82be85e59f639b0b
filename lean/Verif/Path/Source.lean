import Verif.Path.Model

/-!
# What paths are made from

The forms in which a character sequence is given to `class path` (`include/filesystem/fs_path.h:61-177, 270-342, 542-549`), for
`char`. Other character types go through `nowide::narrow`, which is not part of the repository.
-/

namespace Asap

/-- A character sequence as a caller gives it. `mem` are the cells of memory from the place pointed to to the end of the
object that place lies in; reading behind the end is undefined behaviour. -/
inductive Source where
  /-- `std::string` -/
  | string (s : Str)
  /-- `const char*` or `char*`; `none` is the null pointer -/
  | pointer (mem : Option Str)
  /-- an input iterator that is no pointer, to a null-terminated sequence -/
  | iterator (mem : Str)
  /-- two iterators; `n` is the distance from the first to the last -/
  | range (mem : Str) (n : Nat)

/-- `string_from_iter` (`include/filesystem/fs_path.h:298-309`): `str` is what has been read, the iterator stands at the
beginning of `mem`. -/
def stringFromIter : Str → Str → Res Str
  | [], _ => .error .ub
  | ch :: mem, str => if ch = '\x00' then .ok str else stringFromIter mem (str ++ [ch])

/-- `std::strlen` as `std::string(const char*)` uses it: `n` characters have been passed. -/
def strLen : Str → Nat → Res Nat
  | [], _ => .error .ub
  | ch :: mem, n => if ch = '\x00' then .ok n else strLen mem (n + 1)

/-- `convert` with `range_begin` and `range_end` (`include/filesystem/fs_path.h:270-342, 542-549`), `CharT` being `char`:
a string is taken from `data()` to `data() + size()`, a pointer with `std::string(src)`, an iterator with
`string_from_iter` and then from `c_str()` to `c_str() + size()`. -/
def Source.convert : Source → Res Str
  | .string s => .ok s
  | .pointer none => .error .ub
  | .pointer (some mem) => do return mem.take (← strLen mem 0)
  | .iterator mem => stringFromIter mem []
  | .range mem n => if n ≤ mem.length then .ok (mem.take n) else .error .ub

/-- `path(source)`, `path(first, last)` (`include/filesystem/fs_path.h:63-96`): the text is split. -/
def pathOf (pl : Plat) (x : Source) : Res Path := do return mkPath pl (← x.convert)

/-- `operator=(source)`, `assign` (`include/filesystem/fs_path.h:103-125`, `src/fs_path.cpp:129-135`): a temporary is
made and moved into `p`. -/
def assignFrom (pl : Plat) (p : Path) (x : Source) : Res Path := do return (p.moveAssign pl (← pathOf pl x)).1

/-- `operator/=(source)`, `append` (`include/filesystem/fs_path.h:132-146`): a temporary is made and appended. -/
def appendFrom (pl : Plat) (p : Path) (x : Source) : Res Path := do append pl p (← pathOf pl x)

/-- `operator+=(source)`, `concat` (`include/filesystem/fs_path.h:150-177, 482-502`). `operator+=(const value_type*)` appends
up to the terminator, as `convert` does. -/
def concatFrom (pl : Plat) (p : Path) (x : Source) : Res Path := do return concat pl p (← x.convert)

/-- `compare(const string_type&)`, `compare(const value_type*)` (`src/fs_path.cpp:508-514`). -/
def compareFrom (pl : Plat) (p : Path) (x : Source) : Res Int := do return p.compare (← pathOf pl x)

/-- `c_str()` (`include/filesystem/fs_path.h:198-200`): the text with its terminator. -/
def Path.cStr (p : Path) : Source := .pointer (some (p.pathname ++ ['\x00']))

end Asap
