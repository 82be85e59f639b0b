import Verif.Dir.Iter

/-!
# Copies of iterators share their streams

`directory_iterator` and `recursive_directory_iterator` hold a `std::shared_ptr`
(`include/filesystem/fs_dir.h:471, 606`); their copies are defaulted (425-427, 543-546). This
file models variables of these types over a heap of shared objects. Only the `error_code`
forms are modelled here: they never throw. `n` as in `Verif/Dir/Iter.lean`.
-/

namespace Asap

/-- A shared object: `DirectoryStream` (one stream, `deep = false`), or `SharedImpl` of the
recursive iterator (`deep = true`, `src/fs_dir_iterator.cpp:877-880`; top of the stack first). -/
structure Cell where
  stack : List Stream
  opts : DirOptions
  deep : Bool
  deriving DecidableEq, Repr

/-- An iterator variable: `impl_` (the address of the shared object, or null) and `recursion_`.
`fresh` is not in the code: false once another variable has moved the shared position on. -/
structure Var where
  ref : Option Nat
  recursion : Bool
  fresh : Bool
  deriving DecidableEq, Repr

/-- All shared objects made so far, by address (a destroyed one is left without streams), and all variables. -/
structure Heap where
  cells : List Cell
  vars : List Var
  deriving DecidableEq, Repr

def Heap.empty : Heap := ⟨[], []⟩

/-- A variable lets go of its shared object (`impl_.reset()`, or its destructor); the last owner destroys it. -/
def Heap.release (H : Heap) (i : Nat) : Prog Heap :=
  match H.vars[i]? with
  | some v =>
    match v.ref with
    | some k =>
      let vars := H.vars.set i { v with ref := none }
      if vars.any (fun w => w.ref = some k) then .ret { H with vars }
      else
        match H.cells[k]? with
        | some c => do
          closeAll c.stack
          .ret ⟨H.cells.set k { c with stack := [] }, vars⟩
        | none => .ret { H with vars }
    | none => .ret H
  | none => .ret H

/-- The end of the client: all variables are destroyed. -/
def Heap.releaseAll : Nat → Heap → Prog Heap
  | 0, H => .ret H
  | i + 1, H => do
    let H ← H.release i
    Heap.releaseAll i H

/-- A new variable, with a new shared object unless it is the end iterator. -/
def Heap.add (H : Heap) (c : Option Cell) : Heap :=
  match c with
  | some c => ⟨H.cells ++ [c], H.vars ++ [⟨some H.cells.length, true, true⟩]⟩
  | none => { H with vars := H.vars ++ [⟨none, true, true⟩] }

/-- Copy construction (`fs_dir.h:425, 543`). -/
def Heap.copy (H : Heap) (i : Nat) : Heap :=
  match H.vars[i]? with
  | some v => { H with vars := H.vars ++ [v] }
  | none => H

/-- Copy assignment of variable `j` to variable `i` (`fs_dir.h:427, 546`). -/
def Heap.assign (H : Heap) (i j : Nat) : Prog Heap :=
  if i = j then .ret H
  else match H.vars[j]? with
    | some v => do
      let H ← H.release i
      .ret { H with vars := H.vars.set i v }
    | none => .ret H

/-- Move assignment of variable `j` to variable `i` (`fs_dir.h:429-435, 548-555`). -/
def Heap.move (H : Heap) (i j : Nat) : Prog Heap :=
  if i = j ∨ H.vars.length ≤ i then .ret H
  else match H.vars[j]? with
    | some v => do
      let H ← H.release i
      .ret { H with vars := (H.vars.set i v).set j { v with ref := none } }
    | none => .ret H

/-- What an operation on a shared object leaves: the streams, and whether the variable let go. -/
abbrev After := List Stream × Bool

/-- `directory_iterator::do_increment` (`src/fs_dir_iterator.cpp:852-868`) on a shared stream. -/
def sharedDirIncr (n : Nat) (s : Stream) (ec : EcArg) : Prog (After × EcArg) := do
  let h : Handler := ⟨"directory_iterator::operator++()".toList, none, none⟩
  let ec := ec.clear
  let (ok, s', m) ← s.advance n
  if ok then .ret (([s'], false), ec)
  else
    let left : Stream := { s' with root := s'.root.clear .posix }
    match m with
    | some e => do
      let ((), ec) ← h.reportMsg ec (some e) ("at root \"".toList ++ s.root.pathname ++ "\"".toList) ()
      .ret (([left], true), ec)
    | none => .ret (([left], true), ec)

/-- `recursive_directory_iterator::Advance` (`src/fs_dir_iterator.cpp:950-976`) on a shared stack. -/
def sharedAdvance (n : Nat) (stack : List Stream) (ec : EcArg) : Prog (After × EcArg) := do
  let h : Handler := ⟨"recursive_directory_iterator::Advance()".toList, none, none⟩
  let ec := ec.clear
  let (stack, m) ← advanceStack n stack
  match m with
  | some e => do
    let root := (stack.head?.map Stream.root).getD .default
    let ((), ec) ← h.reportMsg ec (some e) ("at root \"{".toList ++ root.pathname ++ "}\"".toList) ()
    match stack with
    | s :: ss => .ret (({ s with root := s.root.clear .posix } :: ss, true), ec)
    | [] => .ret (([], true), ec)
  | none => .ret ((stack, stack.isEmpty), ec)

/-- `recursive_directory_iterator::TryRecursion` (`src/fs_dir_iterator.cpp:978-1031`) on a shared stack; also the
result. -/
def sharedTry (n : Nat) (stack : List Stream) (opts : DirOptions) (ec : EcArg) : Prog (Bool × After × EcArg) := do
  let h : Handler := ⟨"recursive_directory_iterator::TryRecursion()".toList, none, none⟩
  let ec := ec.clear
  match stack with
  | [] => .stop (.fault .badStream)
  | cur :: ss => do
    let (skip, e, m) ← (do
      if !opts.has .followSymlink then
        let ((t, e), m) ← getSymLinkFileType cur.entry (.ref none)
        let st : FStatus := { type := t }
        let m := if m.isSet && st.known then EcArg.ref none else m
        Prog.ret (m.isSet || st.isSymlink || !st.isDirectory, e, m)
      else
        let ((t, e), m) ← getFileType cur.entry (.ref none)
        let st : FStatus := { type := t }
        let m := if m.isSet && st.known then EcArg.ref none else m
        Prog.ret (m.isSet || !st.isDirectory, e, m) : Prog (Bool × Entry × EcArg))
    let cur := { cur with entry := e }
    let (pushed, m) ← (do
      if !skip then
        let (s, m) ← Stream.new n cur.entry.path opts
        if s.good then Prog.ret (some s, m) else Prog.ret (none, m)
      else Prog.ret (none, m.code) : Prog (Option Stream × Code))
    match pushed with
    | some s => .ret (true, (s.moved :: cur :: ss, false), ec)
    | none =>
      match m with
      | some e =>
        if e = .EACCES ∧ opts.has .skipDenied then .ret (false, (cur :: ss, false), ec.clear)
        else do
          let (_, ec) ← h.reportMsg ec (some e)
            ("attempting recursion into \"{".toList ++ cur.entry.path.pathname ++ "}\"".toList) false
          let left : Stream := { cur with entry := { cur.entry with path := cur.entry.path.clear .posix } }
          .ret (false, (left :: ss, true), ec)
      | none => .ret (false, (cur :: ss, false), ec)

/-- `recursive_directory_iterator::do_increment` (`src/fs_dir_iterator.cpp:935-948`) on a shared stack; also the new
`recursion_`. -/
def sharedIncr (n : Nat) (stack : List Stream) (opts : DirOptions) (recursion : Bool) (ec : EcArg) :
    Prog (After × Bool × EcArg) := do
  let ec := ec.clear
  let (done, left, ec) ← (do
    if recursion then
      let (b, left, ec) ← sharedTry n stack opts ec
      Prog.ret (b || ec.isSet, left, ec)
    else Prog.ret (false, (stack, false), ec) : Prog (Bool × After × EcArg))
  if done then .ret (left, recursion, ec)
  else do
    let (left, ec) ← sharedAdvance n left.1 ec
    .ret (left, true, ec)

/-- `recursive_directory_iterator::pop_impl` (`src/fs_dir_iterator.cpp:901-913`) on a shared stack. -/
def sharedPop (n : Nat) (stack : List Stream) (ec : EcArg) : Prog (After × EcArg) := do
  let ec := ec.clear
  match stack with
  | [] => .stop (.fault .badStream)
  | s :: ss => do
    let _ ← s.close
    if ss.isEmpty then .ret (([], true), ec)
    else sharedAdvance n ss ec

/-- Store what an operation of variable `i` on object `k` left. The other variables of the object are no
longer fresh. -/
def Heap.store (H : Heap) (i k : Nat) (c : Cell) (v : Var) (left : After) (recursion : Bool) : Prog Heap := do
  let vars := H.vars.map fun w => if w.ref = some k then { w with fresh := false } else w
  let H : Heap := ⟨H.cells.set k { c with stack := left.1 }, vars.set i { v with recursion }⟩
  if left.2 then H.release i else .ret H

/-- An operation through variable `i`; with a null `impl_` it is an error (`invalid iterator`) and changes nothing. -/
def Heap.through (H : Heap) (i : Nat) (f : Var → Cell → Prog (After × Bool)) : Prog Heap :=
  match H.vars[i]? with
  | some v =>
    match v.ref with
    | some k =>
      match H.cells[k]? with
      | some c => do
        let (left, r) ← f v c
        H.store i k c v left r
      | none => .stop (.fault .badStream)
    | none => .ret H
  | none => .ret H

/-- `increment(ec)` of variable `i`. (`ss` is empty: an object that is not `deep` has one stream.) -/
def Heap.incr (n : Nat) (H : Heap) (i : Nat) : Prog Heap :=
  H.through i fun v c =>
    if c.deep then do
      let (left, r, _) ← sharedIncr n c.stack c.opts v.recursion (.ref none)
      .ret (left, r)
    else match c.stack with
      | s :: ss => do
        let (left, _) ← sharedDirIncr n s (.ref none)
        .ret ((left.1 ++ ss, left.2), v.recursion)
      | [] => .stop (.fault .badStream)

/-- `pop(ec)` of variable `i` (a recursive iterator; nothing for the other kind, which has no `pop`). -/
def Heap.pop (n : Nat) (H : Heap) (i : Nat) : Prog Heap :=
  H.through i fun v c =>
    if c.deep then do
      let (left, _) ← sharedPop n c.stack (.ref none)
      .ret (left, v.recursion)
    else .ret ((c.stack, false), v.recursion)

/-- `disable_recursion_pending` of variable `i` (`fs_dir.h:584`). -/
def Heap.disable (H : Heap) (i : Nat) : Heap :=
  match H.vars[i]? with
  | some v => { H with vars := H.vars.set i { v with recursion := false } }
  | none => H

end Asap
