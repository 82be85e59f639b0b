import Verif.Dir.Entry

/-!
# Directory streams and iterators (POSIX branch)

Models `src/fs_dir_iterator.cpp:544-586, 759-1031` and the iterator classes of
`include/filesystem/fs_dir.h:371-633`. An iterator value owns its stream here;
copies sharing a stream are modelled in `Verif/Dir/Shared.lean`. `n` bounds the
number of entries `.` and `..` skipped in a row.
-/

namespace Asap

/-- `directory_options` (`include/filesystem/fs_directory_options.h:28-32`). -/
abbrev DirOptions := BitVec 8
/-- Enumerators (`include/filesystem/fs_directory_options.h:28-32`). -/
def DirOptions.none : DirOptions := 0
def DirOptions.followSymlink : DirOptions := 1
def DirOptions.skipDenied : DirOptions := 2

/-- `bool(opts & o)`. -/
def DirOptions.has (opts o : DirOptions) : Bool := (opts &&& o) != 0

/-- `get_file_type` (`src/fs_dir_iterator.cpp:546-572`). -/
def typeOfD : DType → FType
  | .blk => .block
  | .chr => .character
  | .dir => .directory
  | .fifo => .fifo
  | .lnk => .symlink
  | .reg => .regular
  | .sock => .socket
  | .unknown => .none

/-- `DirectoryStream` (`src/fs_dir_iterator.cpp:759-830`): `stream_`, `root_`, `entry_`. -/
structure Stream where
  handle : Option Nat
  root : Path
  entry : Entry
  deriving DecidableEq, Repr

/-- `DirectoryStream::close` (`src/fs_dir_iterator.cpp:816-823`), also run by the
destructor on a non-null stream (785-789). -/
def Stream.close (s : Stream) : Prog Stream :=
  match s.handle with
  | some d => .call (.closedir d) fun _ => .ret { s with handle := none }
  | none => .ret s

/-- `DirectoryStream::good` (`src/fs_dir_iterator.cpp:791`). -/
def Stream.good (s : Stream) : Bool := s.handle.isSome

/-- `DirectoryStream::advance` with `posix_readdir` (`src/fs_dir_iterator.cpp:574-586,
793-813`): success, the stream, and `ec`. `readdir` on a null stream is undefined.
The entry keeps its other cached data; in particular `symlink` is only ever set. -/
def Stream.advance : Nat → Stream → Prog (Bool × Stream × Code)
  | 0, _ => .stop .fuel
  | n + 1, s =>
    match s.handle with
    | none => .stop (.fault .badStream)
    | some d => .call (.readdir d) fun
      | .error e => do
        let s ← s.close
        .ret (false, s, some e)
      | .ok none => do
        let s ← s.close
        .ret (false, s, none)
      | .ok (some ent) =>
        if ent.name = ".".toList ∨ ent.name = "..".toList then Stream.advance n s
        else if ent.name = [] then do
          let s ← s.close
          .ret (false, s, none)
        else do
          let p ← Prog.ofRes (append .posix s.root (mkPath .posix ent.name))
          let t := typeOfD ent.dtype
          let c := { s.entry.cache with type := t, cacheType := .basic }
          let c := if t = .symlink then { c with symlink := true } else c
          .ret (true, { s with entry := ⟨p, c⟩ }, none)

/-- `DirectoryStream(root, opts, ec)` (`src/fs_dir_iterator.cpp:771-783`); `ec` is clear
on entry at every call. -/
def Stream.new (n : Nat) (root : Path) (opts : DirOptions) : Prog (Stream × Code) :=
  let s : Stream := ⟨none, root, .default⟩
  .call (.opendir root.pathname) fun
    | .error e =>
      if opts.has .skipDenied ∧ e = .EACCES then .ret (s, none) else .ret (s, some e)
    | .ok d => do
      let (_, s, ec) ← Stream.advance n { s with handle := some d }
      .ret (s, ec)

/-! ## `directory_iterator` -/

/-- `directory_iterator`: null is the end iterator. -/
abbrev DirIter := Option Stream

/-- `directory_iterator(p, ec, opts)` (`src/fs_dir_iterator.cpp:835-850`). -/
def DirIter.new (n : Nat) (p : Path) (opts : DirOptions) (ec : EcArg) : Prog (DirIter × EcArg) := do
  let h : Handler := ⟨"directory_iterator::directory_iterator(...)".toList, some p, none⟩
  let ec := ec.clear
  let (s, m) ← Stream.new n p opts
  let ec := ec.assign m
  if !s.good then
    match m with
    | some e => do
      let ((), ec) ← h.report ec (some e) ()
      .ret (none, ec)
    | none => .ret (none, ec)
  else .ret (some s, ec)

/-- `directory_iterator::do_increment` (`src/fs_dir_iterator.cpp:852-868`). -/
def DirIter.incr (n : Nat) (it : DirIter) (ec : EcArg) : Prog (DirIter × EcArg) := do
  let h : Handler := ⟨"directory_iterator::operator++()".toList, none, none⟩
  let ec := ec.clear
  match it with
  | some s => do
    let (ok, s', m) ← s.advance n
    if ok then .ret (some s', ec)
    else match m with
      | some e => do
        let ((), ec) ← h.reportMsg ec (some e)
          ("at root \"".toList ++ s.root.pathname ++ "\"".toList) ()
        .ret (none, ec)
      | none => .ret (none, ec)
  | none => do
    let ((), ec) ← h.reportMsg ec (some .EINVAL) "invalid iterator".toList ()
    .ret (none, ec)

/-- The destructor of the last owner (`std::shared_ptr<DirectoryStream>`). -/
def DirIter.destroy : DirIter → Prog Unit
  | some s => do
    let _ ← s.close
    .ret ()
  | none => .ret ()

/-! ## `recursive_directory_iterator` -/

/-- `recursive_directory_iterator` (`include/filesystem/fs_dir.h:516-611`,
`src/fs_dir_iterator.cpp:877-880`): `impl_` with the stack of streams (top
first) and the options, and `recursion_`. -/
structure RecIter where
  impl : Option (List Stream × DirOptions)
  recursion : Bool
  deriving DecidableEq, Repr

/-- Destroy a stack of streams (`impl_.reset()`): `std::deque` destroys from
the bottom up. -/
def closeAll : List Stream → Prog Unit
  | [] => .ret ()
  | s :: ss => do
    closeAll ss
    let _ ← s.close
    .ret ()

/-- The move constructor of `DirectoryStream` (`src/fs_dir_iterator.cpp:764-769`), run by
`dir_stack.push(std::move(s))`: moving a path re-parses its text. -/
def Stream.moved (s : Stream) : Stream :=
  { s with root := s.root.moved .posix, entry := { s.entry with path := s.entry.path.moved .posix } }

/-- The constructor (`src/fs_dir_iterator.cpp:882-899`). -/
def RecIter.new (n : Nat) (p : Path) (opts : DirOptions) (ec : EcArg) : Prog (RecIter × EcArg) := do
  let h : Handler := ⟨"recursive_directory_iterator".toList, some p, none⟩
  let ec := ec.clear
  let (s, m) ← Stream.new n p opts
  match m with
  | some e => do
    let ((), ec) ← Prog.finally' (h.report ec (some e) ()) (DirIter.destroy (some s))
    .ret (⟨none, true⟩, ec)
  | none =>
    if !s.good then .ret (⟨none, true⟩, ec)
    else .ret (⟨some ([s.moved], opts), true⟩, ec)

/-- The loop of `Advance` (`src/fs_dir_iterator.cpp:959-967`): the remaining stack
and `m_ec`. -/
def advanceStack (n : Nat) : List Stream → Prog (List Stream × Code)
  | [] => .ret ([], none)
  | s :: ss => do
    let (ok, s, m) ← s.advance n
    if ok then .ret (s :: ss, none)
    else match m with
      | some e => .ret (s :: ss, some e)
      | none => advanceStack n ss

/-- `recursive_directory_iterator::Advance` (`src/fs_dir_iterator.cpp:950-976`). -/
def RecIter.advance (n : Nat) (it : RecIter) (ec : EcArg) : Prog (RecIter × EcArg) := do
  let h : Handler := ⟨"recursive_directory_iterator::Advance()".toList, none, none⟩
  let ec := ec.clear
  match it.impl with
  | none => do
    let ((), ec) ← h.reportMsg ec (some .EINVAL) "invalid iterator".toList ()
    .ret (it, ec)
  | some (stack, opts) => do
    let (stack, m) ← advanceStack n stack
    match m with
    | some e => do
      let root := (stack.head?.map Stream.root).getD .default
      closeAll stack
      let ((), ec) ← h.reportMsg ec (some e) ("at root \"{".toList ++ root.pathname ++ "}\"".toList) ()
      .ret ({ it with impl := none }, ec)
    | none =>
      if stack.isEmpty then .ret ({ it with impl := none }, ec)
      else .ret ({ it with impl := some (stack, opts) }, ec)

/-- `recursive_directory_iterator::TryRecursion` (`src/fs_dir_iterator.cpp:978-1031`). -/
def RecIter.tryRecursion (n : Nat) (it : RecIter) (ec : EcArg) : Prog ((Bool × RecIter) × EcArg) := do
  let h : Handler := ⟨"recursive_directory_iterator::TryRecursion()".toList, none, none⟩
  let ec := ec.clear
  match it.impl with
  | none => do
    let (b, ec) ← h.reportMsg ec (some .EINVAL) "invalid iterator".toList false
    .ret ((b, it), ec)
  | some ([], _) => .stop (.fault .badStream)
  | some (cur :: ss, opts) => do
    let (skip, e, m) ← (do
      if !opts.has .followSymlink then
        let ((t, e), m) ← getSymLinkFileType cur.entry (.ref none)
        let st : FStatus := { type := t }
        let m := if m.isSet && st.known then EcArg.ref none else m
        Prog.ret (m.isSet || st.isSymlink || !st.isDirectory, e, m)
      else
        let ((t, e), m) ← getFileType cur.entry (.ref none)
        let st : FStatus := { type := t }
        let m := if m.isSet && st.known then EcArg.ref none else m
        Prog.ret (m.isSet || !st.isDirectory, e, m) : Prog (Bool × Entry × EcArg))
    let cur := { cur with entry := e }
    let (pushed, m) ← (do
      if !skip then
        let (s, m) ← Stream.new n cur.entry.path opts
        if s.good then Prog.ret (some s, m) else Prog.ret (none, m)
      else Prog.ret (none, m.code) : Prog (Option Stream × Code))
    match pushed with
    | some s => .ret ((true, { it with impl := some (s.moved :: cur :: ss, opts) }), ec)
    | none =>
      match m with
      | some e =>
        if e = .EACCES ∧ opts.has .skipDenied then
          .ret ((false, { it with impl := some (cur :: ss, opts) }), ec.clear)
        else do
          closeAll (cur :: ss)
          let (_, ec) ← h.reportMsg ec (some e)
            ("attempting recursion into \"{".toList ++ cur.entry.path.pathname ++ "}\"".toList) false
          .ret ((false, { it with impl := none }), ec)
      | none => .ret ((false, { it with impl := some (cur :: ss, opts) }), ec)

/-- `recursive_directory_iterator::do_increment` (`src/fs_dir_iterator.cpp:935-948`). -/
def RecIter.incr (n : Nat) (it : RecIter) (ec : EcArg) : Prog (RecIter × EcArg) := do
  let ec := ec.clear
  let (done, it, ec) ← (do
    if it.recursion then
      let ((b, it), ec) ← it.tryRecursion n ec
      Prog.ret (b || ec.isSet, it, ec)
    else Prog.ret (false, it, ec) : Prog (Bool × RecIter × EcArg))
  if done then .ret (it, ec)
  else RecIter.advance n { it with recursion := true } ec

/-- `recursive_directory_iterator::pop_impl` (`src/fs_dir_iterator.cpp:901-913`). -/
def RecIter.pop (n : Nat) (it : RecIter) (ec : EcArg) : Prog (RecIter × EcArg) := do
  let h : Handler := ⟨"directory_iterator::pop()".toList, none, none⟩
  let ec := ec.clear
  match it.impl with
  | none => do
    let ((), ec) ← h.reportMsg ec (some .EINVAL) "invalid iterator".toList ()
    .ret (it, ec)
  | some ([], _) => .stop (.fault .badStream)
  | some (s :: ss, opts) => do
    let _ ← s.close
    if ss.isEmpty then .ret ({ it with impl := none }, ec)
    else RecIter.advance n { it with impl := some (ss, opts) } ec

/-- `disable_recursion_pending` (`include/filesystem/fs_dir.h:584`). -/
def RecIter.disable (it : RecIter) : RecIter := { it with recursion := false }

/-- `recursive_directory_iterator::depth` (`src/fs_dir_iterator.cpp:920-927`), always
the throwing form. -/
def RecIter.depth (it : RecIter) : Prog Int :=
  match it.impl with
  | none => .stop (.thrown ((⟨"recursive_directory_iterator::depth()".toList, none, none⟩ : Handler).error
      "in recursive_directory_iterator::depth(): invalid iterator".toList (some .EINVAL)))
  | some (stack, _) => .ret ((stack.length : Int) - 1)

/-- `recursive_directory_iterator::dereference` (`src/fs_dir_iterator.cpp:929-933`). -/
def RecIter.deref (it : RecIter) : Prog Entry :=
  match it.impl with
  | some (s :: _, _) => .ret s.entry
  | _ => .stop (.fault .assertFail)

end Asap
