import Verif.Os.Kernel
import Verif.Dir.Kernel

/-!
# The POSIX file system with directory streams

`Os/Kernel` extended by `opendir`, `readdir` and `closedir`. A specification, not a model of code of the library.
-/

namespace Asap.Spec

/-- The type `readdir` shows for an inode. -/
def Vol.dtype (d : Vol) (n : Nat) : DType :=
  match d.node n with
  | some ⟨.file _, _, _⟩ => .reg
  | some ⟨.dir .., _, _⟩ => .dir
  | some ⟨.link _, _, _⟩ => .lnk
  | none => .unknown

/-- The listing of a directory. -/
def Vol.listing (d : Vol) (p : Str) : Except Errno (List Dirent) :=
  match d.find p with
  | .error e => .error e
  | .ok n =>
    match d.node n with
    | some ⟨.dir _ es, _, _⟩ => .ok (⟨dot, .dir⟩ :: ⟨dotdot, .dir⟩ :: es.map fun e => ⟨e.1, d.dtype e.2⟩)
    | some _ => .error .ENOTDIR
    | none => .error .ENOENT

/-- A number no open stream has. -/
def fresh (T : List (Nat × List Dirent)) : Nat := (T.map Prod.fst).sum + 1

/-- The next entry of a stream. -/
def readNext (h : Nat) (s : Os Vol) : Except Errno (Option Dirent) × Os Vol :=
  match s.table.find? (·.1 = h) with
  | some (_, []) => (.ok none, s)
  | some (_, e :: l) => (.ok (some e), ⟨s.disk, s.table.map fun x => if x.1 = h then (h, l) else x⟩)
  | none => (.error .EBADF, s)

/-- What a call answers and does. -/
def answerDir (c : Sys) (s : Os Vol) : c.Ret × Os Vol :=
  match c with
  | .opendir p =>
    match s.disk.listing p with
    | .error e => (.error e, s)
    | .ok l => (.ok (fresh s.table), ⟨s.disk, (fresh s.table, l) :: s.table⟩)
  | .readdir h => readNext h s
  | .closedir h => (.ok (), ⟨s.disk, s.table.filter (·.1 ≠ h)⟩)
  | c => ((answer c s.disk).1, ⟨(answer c s.disk).2, s.table⟩)

/-- The operating system with this file system and directory streams. -/
def kernelDir : Machine where
  State := Os Vol
  step := answerDir

/-- Run an operation on a volume without open directory streams. -/
def onDisk {α : Type} (p : Prog α) (d : Vol) : Except Stop α × Os Vol := p.eval kernelDir ⟨d, []⟩

end Asap.Spec

namespace Asap
open Spec

theorem fresh_notin (T : List (Nat × List Dirent)) : fresh T ∉ T.map Prod.fst := by
  have : ∀ (l : List Nat) (d : Nat), d ∈ l → d ≤ l.sum := by
    intro l
    induction l with
    | nil => simp
    | cons a l ih =>
      intro d hd
      rcases List.mem_cons.mp hd with rfl | hd
      · simp
      · simp only [List.sum_cons]; have := ih d hd; omega
  intro h
  have := this _ _ h
  unfold fresh at this
  omega

/-- A system whose every answer the laws allow: related states stay related. -/
theorem eval_steps {α σ : Type} {m : Machine} {step : σ → Event → σ → Prop} {R : m.State → σ → Prop}
    (hR : ∀ u s (c : Sys), R u s → ∃ s', step s ⟨c, (m.step c u).1⟩ s' ∧ R (m.step c u).2 s')
    (p : Prog α) {u : m.State} {s : σ} (h : R u s) :
    ∃ t s', Exec p t (p.eval m u).1 ∧ Steps step s t s' ∧ R (p.eval m u).2 s' := by
  induction p generalizing u s with
  | ret a => exact ⟨[], s, .ret a, .nil s, h⟩
  | stop x => exact ⟨[], s, .stop x, .nil s, h⟩
  | call c k ih =>
    obtain ⟨s1, h1, h2⟩ := hR u s c h
    obtain ⟨t, s', h3, h4, h5⟩ := ih _ h2
    exact ⟨_, s', .call c k _ t _ h3, .cons h1 h4, h5⟩

end Asap
