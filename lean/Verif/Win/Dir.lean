import Verif.Win.Entry
import Verif.Dir.Iter

/-!
# Directory streams and iterators on Windows

Models the Windows branches of `src/fs_dir_iterator.cpp:589-756`, and the iterators of lines 835-1031 on top of them. A
stream is the `Stream` of `Verif/Dir/Iter.lean`; the absent handle is `INVALID_HANDLE_VALUE`. `n` bounds the number of
entries `.` and `..` skipped in a row.
-/

namespace Asap
namespace Win

/-- `get_file_type` (`src/fs_dir_iterator.cpp:589-606`). -/
def typeOfFind (d : FindData) : FType :=
  if has d.attrs FILE_ATTRIBUTE_DIRECTORY then .directory
  else if has d.attrs FILE_ATTRIBUTE_REPARSE_POINT then
    if isLinkTag d.tag then .symlink else .reparse
  else .regular

/-- The name of an entry to skip (`src/fs_dir_iterator.cpp:656-657, 711-714`). -/
def isDots (name : Str) : Bool := name == ".".toList || name == "..".toList

/-- The pattern searched for (`src/fs_dir_iterator.cpp:646-652`). -/
def pattern (root : Str) : Str :=
  if root.getLast? = some '\\' ∨ root.getLast? = some '/' ∨ root.getLast? = some ':' then root ++ "*".toList
  else root ++ "\\*".toList

/-- Setting `entry_` (`src/fs_dir_iterator.cpp:682-690, 716-724`). The entry keeps its other cached data; `symlink` is
only ever set. -/
def setEntry (s : Stream) (d : FindData) : Prog Stream :=
  (Prog.ofRes (append .windows s.root (mkPath .windows d.name))).bind fun p =>
    let t := typeOfFind d
    let c := { s.entry.cache with type := t, cacheType := .basic }
    let c := if t = .symlink then { c with symlink := true } else c
    .ret { s with entry := ⟨p, c⟩ }

/-- `DirectoryStream::close` (`src/fs_dir_iterator.cpp:743-749`), also run by the destructor on a valid handle (700-705). -/
def Stream.close (s : Stream) : Prog Stream :=
  match s.handle with
  | some d => .call (.win (.findClose d)) fun _ => .ret { s with handle := none }
  | none => .ret s

/-- `DirectoryStream::advance` (`src/fs_dir_iterator.cpp:709-740`): success, the stream, and `ec`. On a handle that is
not valid `FindNextFileW` fails. -/
def Stream.advance : Nat → Stream → Prog (Bool × Stream × Code)
  | 0, _ => .stop .fuel
  | n + 1, s =>
    match s.handle with
    | none => .ret (false, s, some (.ofWin ERROR_INVALID_HANDLE))
    | some d => .call (.win (.findNext d)) fun
      | .error e => (Stream.close s).bind fun s =>
        .ret (false, s, if e.winValue = ERROR_NO_MORE_FILES then none else some e)
      | .ok ent =>
        if isDots ent.name then Stream.advance n s
        else (setEntry s ent).bind fun s => .ret (true, s, none)

/-- The loop skipping `.` and `..` at the start (`src/fs_dir_iterator.cpp:655-663`): `none` if the stream was closed. -/
def skipDots (d : Nat) : Nat → FindData → Prog (Option FindData)
  | 0, _ => .stop .fuel
  | n + 1, ent =>
    if isDots ent.name then
      .call (.win (.findNext d)) fun
        | .error _ => .call (.win (.findClose d)) fun _ => .ret none
        | .ok ent => skipDots d n ent
    else .ret (some ent)

/-- The error left by the constructor, from the last error (`src/fs_dir_iterator.cpp:664-680`). -/
def openError (opts : DirOptions) (c : Code) : Code :=
  match c with
  | none => none
  | some e =>
    if e.winValue = ERROR_ACCESS_DENIED then (if opts.has .skipDenied then none else some .EACCES)
    else if e.winValue = ERROR_NO_MORE_FILES then none
    else some e

/-- `DirectoryStream(root, opts, ec)` (`src/fs_dir_iterator.cpp:644-698`). When only `.` and `..` were found, the last error
is read after `FindClose`. -/
def Stream.new (n : Nat) (root : Path) (opts : DirOptions) : Prog (Stream × Code) :=
  let s : Stream := ⟨none, root, .default⟩
  .call (.win (.findFirst (pattern root.pathname))) fun
    | .error e => .ret (s, openError opts (some e))
    | .ok (d, ent) => (skipDots d n ent).bind fun
      | none => .call (.win .lastError) fun (c : Code) => .ret (s, openError opts c)
      | some ent => (setEntry { s with handle := some d } ent).bind fun s => .ret (s, none)

/-! ## `directory_iterator` -/

/-- The destructor of the last owner (`std::shared_ptr<DirectoryStream>`). -/
def destroy : DirIter → Prog Unit
  | some s => (Stream.close s).bind fun _ => .ret ()
  | none => .ret ()

/-- `directory_iterator(p, ec, opts)` (`src/fs_dir_iterator.cpp:835-850`). -/
def DirIter.new (n : Nat) (p : Path) (opts : DirOptions) (ec : EcArg) : Prog (DirIter × EcArg) :=
  let h : Handler := ⟨"directory_iterator::directory_iterator(...)".toList, some p, none⟩
  let ec := ec.clear
  (Stream.new n p opts).bind fun x =>
    let ec := ec.assign x.2
    if !x.1.good then
      match x.2 with
      | some e => (h.report ec (some e) ()).bind fun y => .ret (none, y.2)
      | none => .ret (none, ec)
    else .ret (some x.1, ec)

/-- `directory_iterator::do_increment` (`src/fs_dir_iterator.cpp:852-868`). -/
def DirIter.incr (n : Nat) (it : DirIter) (ec : EcArg) : Prog (DirIter × EcArg) :=
  let h : Handler := ⟨"directory_iterator::operator++()".toList, none, none⟩
  let ec := ec.clear
  match it with
  | some s => (Stream.advance n s).bind fun x =>
    if x.1 then .ret (some x.2.1, ec)
    else match x.2.2 with
      | some e => (h.reportMsg ec (some e) ("at root \"".toList ++ s.root.pathname ++ "\"".toList) ()).bind fun y =>
        .ret (none, y.2)
      | none => .ret (none, ec)
  | none => (h.reportMsg ec (some .EINVAL) "invalid iterator".toList ()).bind fun y => .ret (none, y.2)

/-! ## `recursive_directory_iterator` -/

/-- Destroy a stack of streams (`impl_.reset()`). -/
def closeAll : List Stream → Prog Unit
  | [] => .ret ()
  | s :: ss => (closeAll ss).bind fun _ => (Stream.close s).bind fun _ => .ret ()

/-- The move constructor of `DirectoryStream` (`src/fs_dir_iterator.cpp:637-642`). -/
def Stream.moved (s : Stream) : Stream :=
  { s with root := s.root.moved .windows, entry := { s.entry with path := s.entry.path.moved .windows } }

/-- The constructor (`src/fs_dir_iterator.cpp:882-899`). -/
def RecIter.new (n : Nat) (p : Path) (opts : DirOptions) (ec : EcArg) : Prog (RecIter × EcArg) :=
  let h : Handler := ⟨"recursive_directory_iterator".toList, some p, none⟩
  let ec := ec.clear
  (Stream.new n p opts).bind fun x =>
    match x.2 with
    | some e => (Prog.finally' (h.report ec (some e) ()) (destroy (some x.1))).bind fun y => .ret (⟨none, true⟩, y.2)
    | none =>
      if !x.1.good then .ret (⟨none, true⟩, ec)
      else .ret (⟨some ([Stream.moved x.1], opts), true⟩, ec)

/-- The loop of `Advance` (`src/fs_dir_iterator.cpp:959-967`). -/
def advanceStack (n : Nat) : List Stream → Prog (List Stream × Code)
  | [] => .ret ([], none)
  | s :: ss => (Stream.advance n s).bind fun x =>
    if x.1 then .ret (x.2.1 :: ss, none)
    else match x.2.2 with
      | some e => .ret (x.2.1 :: ss, some e)
      | none => advanceStack n ss

/-- `recursive_directory_iterator::Advance` (`src/fs_dir_iterator.cpp:950-976`). -/
def RecIter.advance (n : Nat) (it : RecIter) (ec : EcArg) : Prog (RecIter × EcArg) :=
  let h : Handler := ⟨"recursive_directory_iterator::Advance()".toList, none, none⟩
  let ec := ec.clear
  match it.impl with
  | none => (h.reportMsg ec (some .EINVAL) "invalid iterator".toList ()).bind fun y => .ret (it, y.2)
  | some (stack, opts) => (advanceStack n stack).bind fun x =>
    match x.2 with
    | some e =>
      let root := (x.1.head?.map Stream.root).getD .default
      (closeAll x.1).bind fun _ =>
        (h.reportMsg ec (some e) ("at root \"{".toList ++ root.pathname ++ "}\"".toList) ()).bind fun y =>
          .ret ({ it with impl := none }, y.2)
    | none =>
      if x.1.isEmpty then .ret ({ it with impl := none }, ec)
      else .ret ({ it with impl := some (x.1, opts) }, ec)

/-- The type `TryRecursion` goes by (`src/fs_dir_iterator.cpp:990-1009`): whether to skip, the entry, `m_ec`. -/
def recursionType (opts : DirOptions) (e : Entry) : Prog (Bool × Entry × Code) :=
  if !opts.has .followSymlink then
    (getSymLinkFileType e (.ref none)).bind fun x =>
      let st : FStatus := { type := x.1.1 }
      let m := if x.2.isSet && st.known then none else x.2.code
      .ret (m.isSome || st.isSymlink || !st.isDirectory, x.1.2, m)
  else
    (getFileType e (.ref none)).bind fun x =>
      let st : FStatus := { type := x.1.1 }
      let m := if x.2.isSet && st.known then none else x.2.code
      .ret (m.isSome || !st.isDirectory, x.1.2, m)

/-- `recursive_directory_iterator::TryRecursion` (`src/fs_dir_iterator.cpp:978-1031`). -/
def RecIter.tryRecursion (n : Nat) (it : RecIter) (ec : EcArg) : Prog ((Bool × RecIter) × EcArg) :=
  let h : Handler := ⟨"recursive_directory_iterator::TryRecursion()".toList, none, none⟩
  let ec := ec.clear
  match it.impl with
  | none => (h.reportMsg ec (some .EINVAL) "invalid iterator".toList false).bind fun y => .ret ((y.1, it), y.2)
  | some ([], _) => .stop (.fault .badStream)
  | some (cur :: ss, opts) => (recursionType opts cur.entry).bind fun x =>
    let cur := { cur with entry := x.2.1 }
    Prog.bind (if !x.1 then
        (Stream.new n cur.entry.path opts).bind fun y =>
          if y.1.good then .ret (some y.1, y.2) else .ret (none, y.2)
      else .ret (none, x.2.2)) fun (z : Option Stream × Code) =>
    match z.1 with
    | some s => .ret ((true, { it with impl := some (Stream.moved s :: cur :: ss, opts) }), ec)
    | none =>
      match z.2 with
      | some e =>
        if e = .EACCES ∧ opts.has .skipDenied then
          .ret ((false, { it with impl := some (cur :: ss, opts) }), ec.clear)
        else (closeAll (cur :: ss)).bind fun _ =>
          (h.reportMsg ec (some e)
            ("attempting recursion into \"{".toList ++ cur.entry.path.pathname ++ "}\"".toList) false).bind fun y =>
            .ret ((false, { it with impl := none }), y.2)
      | none => .ret ((false, { it with impl := some (cur :: ss, opts) }), ec)

/-- `recursive_directory_iterator::do_increment` (`src/fs_dir_iterator.cpp:935-948`). -/
def RecIter.incr (n : Nat) (it : RecIter) (ec : EcArg) : Prog (RecIter × EcArg) :=
  let ec := ec.clear
  Prog.bind (if it.recursion then
      (RecIter.tryRecursion n it ec).bind fun x => .ret (x.1.1 || x.2.isSet, x.1.2, x.2)
    else .ret (false, it, ec)) fun (x : Bool × RecIter × EcArg) =>
  if x.1 then .ret (x.2.1, x.2.2)
  else RecIter.advance n { x.2.1 with recursion := true } x.2.2

/-- `recursive_directory_iterator::pop_impl` (`src/fs_dir_iterator.cpp:901-913`). -/
def RecIter.pop (n : Nat) (it : RecIter) (ec : EcArg) : Prog (RecIter × EcArg) :=
  let h : Handler := ⟨"directory_iterator::pop()".toList, none, none⟩
  let ec := ec.clear
  match it.impl with
  | none => (h.reportMsg ec (some .EINVAL) "invalid iterator".toList ()).bind fun y => .ret (it, y.2)
  | some ([], _) => .stop (.fault .badStream)
  | some (s :: ss, opts) => (Stream.close s).bind fun _ =>
    if ss.isEmpty then .ret ({ it with impl := none }, ec)
    else RecIter.advance n { it with impl := some (ss, opts) } ec

/-! ## Operations that walk directories -/

/-- `is_empty_directory` (`src/fs_ops.cpp:1003-1009`). -/
def isEmptyDirectory (n : Nat) (p : Path) (ec : EcArg) : Prog (Bool × EcArg) :=
  (DirIter.new n p .none ec).bind fun x => (destroy x.1).bind fun _ =>
    if x.2.isSet then .ret (false, x.2) else .ret (x.1.isNone, x.2)

/-- `is_empty_impl` (`src/fs_ops.cpp:1012-1024`). -/
def isEmptyFile (n : Nat) (p : Path) (ec : EcArg) : Prog (Bool × EcArg) :=
  let h : Handler := ⟨"is_empty".toList, some p, none⟩
  let ec := ec.clear
  .call (.win (.getAttrsEx p.pathname)) fun
    | .error e => h.report ec (some e) false
    | .ok a =>
      if has a.attrs FILE_ATTRIBUTE_DIRECTORY then isEmptyDirectory n p ec
      else .ret (a.sizeHigh == 0#32 && a.sizeLow == 0#32, ec)

/-- The loop of `do_remove_all_impl` (`src/fs_ops.cpp:1299-1309`). -/
def removeLoop (rec : Path → Prog (BitVec 64 × Code)) : Nat → DirIter → BitVec 64 → Prog (BitVec 64 × Code)
  | 0, _, _ => .stop .fuel
  | _ + 1, none, count => .ret (count, none)
  | n + 1, some s, count => (rec s.entry.path).bind fun x =>
    if x.2 ≠ none then (destroy (some s)).bind fun _ => .ret (umaxErr, x.2)
    else (DirIter.incr n (some s) (.ref none)).bind fun y =>
      match y.2.code with
      | some e => .ret (umaxErr, some e)
      | none => removeLoop rec n y.1 (count + x.1)

/-- `do_remove_all_impl` (`src/fs_ops.cpp:1292-1315`), at most `n` levels. -/
def doRemoveAll : Nat → Path → Prog (BitVec 64 × Code)
  | 0, _ => .stop .fuel
  | n + 1, p => (symlinkStatus p (.ref none)).bind fun st =>
    if st.2.isSet then .ret (umaxErr, st.2.code)
    else
      Prog.bind (if st.1.isDirectory then
          (DirIter.new n p .none st.2).bind fun x =>
            match x.2.code with
            | some e => .ret (umaxErr, some e)
            | none => removeLoop (doRemoveAll n) n x.1 1
        else .ret (1, none)) fun (y : BitVec 64 × Code) =>
      if y.2 ≠ none then .ret (umaxErr, y.2)
      else (remove p (.ref none)).bind fun z =>
        if !z.1 then .ret (umaxErr, z.2.code) else .ret (y.1, z.2.code)

/-- `remove_all_impl` (`src/fs_ops.cpp:1319-1337`): the comparison with `no_such_file_or_directory` is one of values. -/
def removeAll (n : Nat) (p : Path) (ec : EcArg) : Prog (BitVec 64 × EcArg) :=
  let h : Handler := ⟨"remove_all".toList, some p, none⟩
  let ec := ec.clear
  if p.isEmpty then .ret (0, ec)
  else (doRemoveAll n p).bind fun x =>
    match x.2 with
    | some e => if e.winValue = Errno.ENOENT.winValue then .ret (0, ec) else h.report ec (some e) umaxErr
    | none => .ret (x.1, ec)

end Win
end Asap
