import Verif.Os.Kernel

/-!
# The POSIX file system with open files

`Os/Kernel` extended by the contents of files and the calls `open`, `read`, `write`, `sendfile`, `ftruncate`, `fchmod` and `close`. A
specification, not a model of code of the library. `read` and `sendfile` move as many bytes as a schedule allows, which may be
less than asked for; `write` takes all. A simplification: `open` with `O_CREAT` refuses a symbolic link that leads nowhere, where POSIX
makes the file the link names.
-/

namespace Asap.Spec

/-- A volume with the contents of its files, the open descriptors (inode and position), the number for the next descriptor, and the
number of transfers so far. -/
structure FileSys where
  vol : Vol
  data : Nat → Bytes
  opened : Nat → Option (Nat × Nat)
  count : Nat
  clock : Nat

namespace FileSys

/-- Give a file a content. -/
def put (s : FileSys) (n : Nat) (l : Bytes) : FileSys :=
  match s.vol.node n with
  | some ⟨.file _, mo, nl⟩ => { s with
      vol := s.vol.set n ⟨.file (BitVec.ofNat 64 l.length), mo, nl⟩
      data := fun k => if k = n then l else s.data k }
  | _ => s

/-- Set what a descriptor stands for. -/
def point (s : FileSys) (fd : Nat) (x : Option (Nat × Nat)) : FileSys := { s with opened := fun k => if k = fd then x else s.opened k }

/-- Open an inode. -/
def openNode (s : FileSys) (n : Nat) : Except Errno Nat × FileSys :=
  (.ok s.count, { s.point s.count (some (n, 0)) with count := s.count + 1 })

/-- `open`. -/
def openFile (s : FileSys) (p : Str) (fl : OFlags) (mode : Mode) : Except Errno Nat × FileSys :=
  match s.vol.find p with
  | .ok n =>
    if (s.vol.node n).isNone then (.error .ENOENT, s)
    else if fl.write && s.vol.isDir n then (.error .EISDIR, s)
    else s.openNode n
  | .error .ENOENT =>
    if fl.creat then
      match s.vol.make (s.vol.place p) (fun _ => ⟨.file 0, mode, 1⟩) with
      | (.ok (), v) => { s with vol := v, data := fun k => if k = s.vol.next then [] else s.data k }.openNode s.vol.next
      | (.error e, _) => (.error e, s)
    else (.error .ENOENT, s)
  | .error e => (.error e, s)

/-- Contents after writing at a position. -/
def splice (l : Bytes) (q : Nat) (bs : Bytes) : Bytes := l.take q ++ List.replicate (q - l.length) 0 ++ bs ++ l.drop (q + bs.length)

/-- `read`. -/
def readFile (cap : Nat → Nat) (s : FileSys) (fd n : Nat) : Except Errno Bytes × FileSys :=
  match s.opened fd with
  | some (i, pos) =>
    if s.vol.isDir i then (.error .EISDIR, s)
    else
      let bs := ((s.data i).drop pos).take (min n (cap s.clock))
      (.ok bs, { s.point fd (some (i, pos + bs.length)) with clock := s.clock + 1 })
  | none => (.error .EBADF, s)

/-- `write`. -/
def writeFile (s : FileSys) (fd : Nat) (bs : Bytes) : Except Errno Nat × FileSys :=
  match s.opened fd with
  | some (o, q) => (.ok bs.length, (s.put o (splice (s.data o) q bs)).point fd (some (o, q + bs.length)))
  | none => (.error .EBADF, s)

/-- `sendfile`: a read and a write. -/
def send (cap : Nat → Nat) (s : FileSys) (out inp n : Nat) : Except Errno Nat × FileSys :=
  match s.readFile cap inp n with
  | (.ok bs, s') => s'.writeFile out bs
  | (.error e, _) => (.error e, s)

/-- `ftruncate`. -/
def cut (s : FileSys) (fd n : Nat) : Except Errno Unit × FileSys :=
  match s.opened fd with
  | some (o, _) => (.ok (), s.put o ((s.data o).take n ++ List.replicate (n - (s.data o).length) 0))
  | none => (.error .EBADF, s)

/-- `fchmod`. -/
def mark (s : FileSys) (fd : Nat) (mode : Mode) : Except Errno Unit × FileSys :=
  match s.opened fd with
  | some (o, _) =>
    match s.vol.node o with
    | some ⟨b, _, l⟩ => (.ok (), { s with vol := s.vol.set o ⟨b, mode, l⟩ })
    | none => (.error .EBADF, s)
  | none => (.error .EBADF, s)

end FileSys

/-- What a call answers and does. `truncate` is left out, since it would have to change contents. -/
def answerFile (cap : Nat → Nat) (c : Sys) (s : FileSys) : c.Ret × FileSys :=
  match c with
  | .openf p fl mode => s.openFile p fl mode
  | .close fd => (.ok (), s.point fd none)
  | .read fd n => s.readFile cap fd n
  | .write fd bs => s.writeFile fd bs
  | .sendfile out inp n => s.send cap out inp n
  | .ftruncate fd n => s.cut fd n
  | .fchmod fd mode => s.mark fd mode
  | .truncate _ _ => (.error .ENOSYS, s)
  | c => ((answer c s.vol).1, { s with vol := (answer c s.vol).2 })

/-- The operating system with this file system and open files. -/
def kernelFile (cap : Nat → Nat) : Machine where
  State := FileSys
  step := answerFile cap

/-- Run an operation. -/
def onFiles {α : Type} (cap : Nat → Nat) (p : Prog α) (s : FileSys) : Except Stop α × FileSys := p.eval (kernelFile cap) s

/-- What is in the file a path leads to. -/
def FileSys.contents (s : FileSys) (p : Path) : Option Bytes :=
  match s.vol.find p.pathname with
  | .ok n => match s.vol.node n with
    | some ⟨.file _, _, _⟩ => some (s.data n)
    | _ => none
  | .error _ => none

/-- Sizes are the lengths of the contents; numbers not given yet stand for nothing. -/
structure FileSys.Sound (s : FileSys) : Prop where
  size : ∀ n z mo l, s.vol.node n = some ⟨.file z, mo, l⟩ → z = BitVec.ofNat 64 (s.data n).length
  fresh : ∀ k, s.count ≤ k → s.opened k = none

end Asap.Spec
