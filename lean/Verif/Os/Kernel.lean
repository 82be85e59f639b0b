import Verif.Os.Eval
import Verif.Path.NormSpec

/-!
# A POSIX file system

A specification, not a model of code of the library: a volume of inodes with directories, hard links and symbolic
links, the resolution of paths as POSIX describes it, and the calls of the
operating system that operate on it. There is one user who may do everything. It is used to state what a program
that makes several calls to the library observes (C125).
-/

namespace Asap.Spec

/-- What an inode holds. A directory knows the directory it is in. -/
inductive Body where
  | file (size : BitVec 64)
  | dir (up : Nat) (ents : List (Str × Nat))
  | link (text : Str)
  deriving DecidableEq, Repr

/-- An inode. -/
structure INode where
  body : Body
  /-- permission bits -/
  mode : Mode
  nlink : Nat
  deriving DecidableEq, Repr

/-- A volume: the inodes by number, the working directory, the number for the next inode. The root is number 0. -/
structure Vol where
  node : Nat → Option INode
  cwd : Nat
  next : Nat

namespace Vol

/-- Write an inode. -/
def set (d : Vol) (n : Nat) (i : INode) : Vol := { d with node := fun k => if k = n then some i else d.node k }

/-- Look up a name in a directory. The empty name (after a final separator) and `.` are the directory. -/
def look (d : Vol) (n : Nat) (w : Str) : Except Errno Nat :=
  match d.node n with
  | some ⟨.dir up es, _, _⟩ =>
    if w = [] ∨ w = dot then .ok n
    else
      match (if w = dotdot then some up else es.lookup w) with
      | some k => if (d.node k).isSome then .ok k else .error .ENOENT
      | none => .error .ENOENT
  | _ => .error .ENOTDIR

/-- The text of a symbolic link. -/
def text (d : Vol) (n : Nat) : Option Str :=
  match d.node n with
  | some ⟨.link t, _, _⟩ => some t
  | _ => none

/-- Where a path begins. -/
def start (d : Vol) (here : Nat) (s : Str) : Nat := if startsSlash s then 0 else here

/-- Follow a sequence of names as far as a symbolic link; `go` continues there. -/
def walkTo (d : Vol) (go : Nat → List Str → Except Errno Nat) : Nat → List Str → Except Errno Nat
  | n, [] => .ok n
  | n, w :: ws =>
    match d.look n w with
    | .error e => .error e
    | .ok m =>
      match d.text m with
      | none => d.walkTo go m ws
      | some t => go (d.start n t) (relElements t ++ ws)

/-- Follow a sequence of names, and at most `k` symbolic links. -/
def follow (d : Vol) : Nat → Nat → List Str → Except Errno Nat
  | 0 => d.walkTo fun _ _ => .error .ELOOP
  | k + 1 => d.walkTo (d.follow k)

/-- The inode a path leads to. -/
def find (d : Vol) (p : Str) : Except Errno Nat :=
  if p = [] then .error .ENOENT else d.follow 40 (d.start d.cwd p) (relElements p)

/-- The directory and the name of the last element. -/
def placeOf (d : Vol) (n : Nat) (ws : List Str) : Except Errno (Nat × Str) :=
  match ws.getLast? with
  | none => .ok (n, [])
  | some w =>
    match d.follow 40 n ws.dropLast with
    | .ok m => .ok (m, w)
    | .error e => .error e

/-- The place a path names. -/
def place (d : Vol) (p : Str) : Except Errno (Nat × Str) :=
  if p = [] then .error .ENOENT else d.placeOf (d.start d.cwd p) (relElements p)

/-- The inode at the place itself, also if it is a symbolic link. -/
def findLink (d : Vol) (p : Str) : Except Errno Nat :=
  match d.place p with
  | .ok (n, w) => d.look n w
  | .error e => .error e

/-- The attributes of an inode. -/
def attr (n : Nat) (i : INode) : Stat :=
  { dev := 1, ino := n, nlink := i.nlink, mtimeSec := 0, mtimeNsec := 0
    mode := (match i.body with | .file _ => 0o100000 | .dir _ _ => 0o040000 | .link _ => 0o120000) ||| (i.mode &&& 0o7777)
    size := match i.body with | .file s => s | .dir _ _ => 4096 | .link t => BitVec.ofNat 64 t.length }

/-- The attributes of what was found. -/
def attrs (d : Vol) : Except Errno Nat → Except Errno Stat
  | .error e => .error e
  | .ok n => match d.node n with
    | some i => .ok (attr n i)
    | none => .error .ENOENT

/-- Put an entry into a directory. -/
def enter (d : Vol) (n : Nat) (w : Str) (k : Nat) : Vol :=
  match d.node n with
  | some ⟨.dir up es, m, l⟩ => d.set n ⟨.dir up ((w, k) :: es), m, l⟩
  | _ => d

/-- Take an entry out of a directory. -/
def leave (d : Vol) (n : Nat) (w : Str) : Vol :=
  match d.node n with
  | some ⟨.dir up es, m, l⟩ => d.set n ⟨.dir up (es.filter (·.1 ≠ w)), m, l⟩
  | _ => d

/-- Make a new inode with an entry, if there is none of that name. -/
def make (d : Vol) (pl : Except Errno (Nat × Str)) (i : Nat → INode) : Except Errno Unit × Vol :=
  match pl with
  | .error e => (.error e, d)
  | .ok (n, w) =>
    match d.look n w with
    | .ok _ => (.error .EEXIST, d)
    | .error .ENOENT =>
      if w = dotdot then (.error .ENOENT, d)
      else if (d.node d.next).isSome then (.error .ENOSPC, d)
      else (.ok (), { (d.set d.next (i n)).enter n w d.next with next := d.next + 1 })
    | .error e => (.error e, d)

/-- Is it a directory? -/
def isDir (d : Vol) (n : Nat) : Bool :=
  match d.node n with
  | some ⟨.dir .., _, _⟩ => true
  | _ => false

/-- Does a directory have entries? -/
def full (d : Vol) (n : Nat) : Bool :=
  match d.node n with
  | some ⟨.dir _ (_ :: _), _, _⟩ => true
  | _ => false

/-- Change the number of links. -/
def relink (d : Vol) (n : Nat) (f : Nat → Nat) : Vol :=
  match d.node n with
  | some ⟨b, m, l⟩ => d.set n ⟨b, m, f l⟩
  | none => d

/-- A name that can be entered and removed. -/
def special (w : Str) : Bool := w = [] || w = dot || w = dotdot

/-- `link`. -/
def hardLink (d : Vol) (a b : Str) : Except Errno Unit × Vol :=
  match d.findLink a, d.place b with
  | .error e, _ => (.error e, d)
  | _, .error e => (.error e, d)
  | .ok m, .ok (n, w) =>
    match d.look n w with
    | .ok _ => (.error .EEXIST, d)
    | .error .ENOENT =>
      if d.isDir m then (.error .EPERM, d)
      else if w = dotdot then (.error .ENOENT, d)
      else (.ok (), (d.relink m (· + 1)).enter n w m)
    | .error e => (.error e, d)

/-- `remove`. -/
def erase (d : Vol) (p : Str) : Except Errno Unit × Vol :=
  match d.place p with
  | .error e => (.error e, d)
  | .ok (n, w) =>
    match d.look n w with
    | .error e => (.error e, d)
    | .ok m =>
      if special w then (.error .EINVAL, d)
      else if d.full m then (.error .ENOTEMPTY, d)
      else (.ok (), (d.leave n w).relink m (· - 1))

/-- `truncate`. -/
def resize (d : Vol) (p : Str) (len : BitVec 64) : Except Errno Unit × Vol :=
  match d.find p with
  | .error e => (.error e, d)
  | .ok m =>
    match d.node m with
    | some ⟨.file _, mo, l⟩ => if len.msb then (.error .EINVAL, d) else (.ok (), d.set m ⟨.file len, mo, l⟩)
    | some ⟨.dir .., _, _⟩ => (.error .EISDIR, d)
    | _ => (.error .EINVAL, d)

/-- `chmod`, following links. -/
def chmod (d : Vol) (p : Str) (mode : Mode) : Except Errno Unit × Vol :=
  match d.find p with
  | .error e => (.error e, d)
  | .ok m =>
    match d.node m with
    | some ⟨b, _, l⟩ => (.ok (), d.set m ⟨b, mode, l⟩)
    | none => (.error .ENOENT, d)

/-- `readlink`. -/
def linkText (d : Vol) (p : Str) (cap : Nat) : Except Errno Str :=
  match d.findLink p with
  | .error e => .error e
  | .ok m => match d.text m with
    | some t => .ok (t.take cap)
    | none => .error .EINVAL

/-- Is the directory `m` the directory `n` or above it (in at most `k` levels)? -/
def above (d : Vol) (m : Nat) : Nat → Nat → Bool
  | 0, n => m == n
  | k + 1, n => m == n || (match d.node n with
    | some ⟨.dir up _, _, _⟩ => d.above m k up
    | _ => false)

/-- A directory moved knows the directory it is in now. -/
def moved (d : Vol) (m n : Nat) : Vol :=
  match d.node m with
  | some ⟨.dir _ es, mo, l⟩ => d.set m ⟨.dir n es, mo, l⟩
  | _ => d

/-- `rename`. -/
def move (d : Vol) (a b : Str) : Except Errno Unit × Vol :=
  match d.place a, d.place b with
  | .error e, _ => (.error e, d)
  | _, .error e => (.error e, d)
  | .ok (n, w), .ok (n', w') =>
    match d.look n w with
    | .error e => (.error e, d)
    | .ok m =>
      if special w || special w' then (.error .EINVAL, d)
      else if d.isDir m && d.above m d.next n' then (.error .EINVAL, d)
      else
        match d.look n' w' with
        | .ok m' =>
          if m' = m then (.ok (), d)
          else if d.isDir m && !d.isDir m' then (.error .ENOTDIR, d)
          else if !d.isDir m && d.isDir m' then (.error .EISDIR, d)
          else if d.full m' then (.error .ENOTEMPTY, d)
          else (.ok (), ((((d.leave n w).leave n' w').enter n' w' m).relink m' (· - 1)).moved m n')
        | .error .ENOENT => (.ok (), ((d.leave n w).enter n' w' m).moved m n')
        | .error e => (.error e, d)

end Vol

/-- What a call answers and does. Calls that are not about this file system fail. -/
def answer (c : Sys) (d : Vol) : c.Ret × Vol :=
  match c with
  | .stat p => (d.attrs (d.find p), d)
  | .lstat p => (d.attrs (d.findLink p), d)
  | .mkdir p mode =>
    d.make (if p = [] then .error .ENOENT else d.placeOf (d.start d.cwd p) (filenames p)) (fun up => ⟨.dir up [], mode, 2⟩)
  | .symlink t l =>
    if t = [] then (.error .ENOENT, d)
    else if 4096 ≤ t.length then (.error .ENAMETOOLONG, d)
    else d.make (d.place l) (fun _ => ⟨.link t, 0o777, 1⟩)
  | .link a b => d.hardLink a b
  | .remove p => d.erase p
  | .rename a b => d.move a b
  | .truncate p len => d.resize p len
  | .readlink p cap => (d.linkText p cap, d)
  | .fchmodat p mode nofollow => if nofollow then (.error .ENOTSUP, d) else d.chmod p mode
  | .pathconf => ((4096 : Int), d)
  | .getenv _ => ((none : Option Str), d)
  | .winTest .. => ((false, none), d)
  | .win c => (c.fails, d)
  | .port c => (c.fails, d)
  | .getcwd _ | .realpath _ => (.error .ENOSYS, d)
  | .chdir _ | .openf .. | .close _ | .fchmod .. | .ftruncate .. | .sendfile ..
  | .read .. | .write .. | .utimensat .. | .statvfs _ | .opendir _ | .readdir _
  | .closedir _ | .winReadlink _ => (.error .ENOSYS, d)

/-- The operating system with this file system. -/
def kernel : Machine where
  State := Vol
  step := answer

/-- Run an operation on a volume. -/
def onVol {α : Type} (p : Prog α) (d : Vol) : Except Stop α × Vol := p.eval kernel d

end Asap.Spec
