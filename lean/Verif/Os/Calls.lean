import Verif.Os.Prog

/-!
# Executions of each system call, with the type of its answer spelled out
-/

namespace Asap
variable {α : Type} {t : List Event} {o : Except Stop α}

theorem exec_pathconf {k : Int → Prog α} : Exec (.call .pathconf k) t o ↔
    ∃ (size : Int) (t' : List Event), t = ⟨.pathconf, size⟩ :: t' ∧ Exec (k size) t' o := exec_call

theorem exec_getenv {v : Str} {k : Option Str → Prog α} : Exec (.call (.getenv v) k) t o ↔
    ∃ (s : Option Str) (t' : List Event), t = ⟨.getenv v, s⟩ :: t' ∧ Exec (k s) t' o := exec_call

/-- The proof of the lemmas below: split the answer. -/
local macro "split_answer" : tactic => `(tactic| (
  rw [exec_call]
  constructor
  · rintro ⟨r, t', rfl, hx⟩
    rcases r with e | a
    · exact .inl ⟨e, t', rfl, hx⟩
    · exact .inr ⟨a, t', rfl, hx⟩
  · rintro (⟨e, t', rfl, hx⟩ | ⟨a, t', rfl, hx⟩)
    · exact ⟨_, t', rfl, hx⟩
    · exact ⟨_, t', rfl, hx⟩))

theorem exec_stat {p : Str} {k : Except Errno Stat → Prog α} : Exec (.call (.stat p) k) t o ↔
    (∃ (e : Errno) (t' : List Event), t = ⟨.stat p, (.error e : Except Errno Stat)⟩ :: t' ∧ Exec (k (.error e)) t' o) ∨
    (∃ (v : Stat) (t' : List Event), t = ⟨.stat p, (.ok v : Except Errno Stat)⟩ :: t' ∧ Exec (k (.ok v)) t' o) :=
  by split_answer

theorem exec_lstat {p : Str} {k : Except Errno Stat → Prog α} : Exec (.call (.lstat p) k) t o ↔
    (∃ (e : Errno) (t' : List Event), t = ⟨.lstat p, (.error e : Except Errno Stat)⟩ :: t' ∧ Exec (k (.error e)) t' o) ∨
    (∃ (v : Stat) (t' : List Event), t = ⟨.lstat p, (.ok v : Except Errno Stat)⟩ :: t' ∧ Exec (k (.ok v)) t' o) :=
  by split_answer

theorem exec_mkdir {p : Str} {m : Mode} {k : Except Errno Unit → Prog α} : Exec (.call (.mkdir p m) k) t o ↔
    (∃ (e : Errno) (t' : List Event), t = ⟨.mkdir p m, (.error e : Except Errno Unit)⟩ :: t' ∧ Exec (k (.error e)) t' o) ∨
    (∃ (v : Unit) (t' : List Event), t = ⟨.mkdir p m, (.ok v : Except Errno Unit)⟩ :: t' ∧ Exec (k (.ok v)) t' o) :=
  by split_answer

theorem exec_remove {p : Str} {k : Except Errno Unit → Prog α} : Exec (.call (.remove p) k) t o ↔
    (∃ (e : Errno) (t' : List Event), t = ⟨.remove p, (.error e : Except Errno Unit)⟩ :: t' ∧ Exec (k (.error e)) t' o) ∨
    (∃ (v : Unit) (t' : List Event), t = ⟨.remove p, (.ok v : Except Errno Unit)⟩ :: t' ∧ Exec (k (.ok v)) t' o) :=
  by split_answer

theorem exec_rename {a : Str} {b : Str} {k : Except Errno Unit → Prog α} : Exec (.call (.rename a b) k) t o ↔
    (∃ (e : Errno) (t' : List Event), t = ⟨.rename a b, (.error e : Except Errno Unit)⟩ :: t' ∧ Exec (k (.error e)) t' o) ∨
    (∃ (v : Unit) (t' : List Event), t = ⟨.rename a b, (.ok v : Except Errno Unit)⟩ :: t' ∧ Exec (k (.ok v)) t' o) :=
  by split_answer

theorem exec_truncate {p : Str} {l : BitVec 64} {k : Except Errno Unit → Prog α} : Exec (.call (.truncate p l) k) t o ↔
    (∃ (e : Errno) (t' : List Event), t = ⟨.truncate p l, (.error e : Except Errno Unit)⟩ :: t' ∧ Exec (k (.error e)) t' o) ∨
    (∃ (v : Unit) (t' : List Event), t = ⟨.truncate p l, (.ok v : Except Errno Unit)⟩ :: t' ∧ Exec (k (.ok v)) t' o) :=
  by split_answer

theorem exec_symlink {a : Str} {b : Str} {k : Except Errno Unit → Prog α} : Exec (.call (.symlink a b) k) t o ↔
    (∃ (e : Errno) (t' : List Event), t = ⟨.symlink a b, (.error e : Except Errno Unit)⟩ :: t' ∧ Exec (k (.error e)) t' o) ∨
    (∃ (v : Unit) (t' : List Event), t = ⟨.symlink a b, (.ok v : Except Errno Unit)⟩ :: t' ∧ Exec (k (.ok v)) t' o) :=
  by split_answer

theorem exec_link {a : Str} {b : Str} {k : Except Errno Unit → Prog α} : Exec (.call (.link a b) k) t o ↔
    (∃ (e : Errno) (t' : List Event), t = ⟨.link a b, (.error e : Except Errno Unit)⟩ :: t' ∧ Exec (k (.error e)) t' o) ∨
    (∃ (v : Unit) (t' : List Event), t = ⟨.link a b, (.ok v : Except Errno Unit)⟩ :: t' ∧ Exec (k (.ok v)) t' o) :=
  by split_answer

theorem exec_readlink {p : Str} {n : Nat} {k : Except Errno Str → Prog α} : Exec (.call (.readlink p n) k) t o ↔
    (∃ (e : Errno) (t' : List Event), t = ⟨.readlink p n, (.error e : Except Errno Str)⟩ :: t' ∧ Exec (k (.error e)) t' o) ∨
    (∃ (v : Str) (t' : List Event), t = ⟨.readlink p n, (.ok v : Except Errno Str)⟩ :: t' ∧ Exec (k (.ok v)) t' o) :=
  by split_answer

theorem exec_chdir {p : Str} {k : Except Errno Unit → Prog α} : Exec (.call (.chdir p) k) t o ↔
    (∃ (e : Errno) (t' : List Event), t = ⟨.chdir p, (.error e : Except Errno Unit)⟩ :: t' ∧ Exec (k (.error e)) t' o) ∨
    (∃ (v : Unit) (t' : List Event), t = ⟨.chdir p, (.ok v : Except Errno Unit)⟩ :: t' ∧ Exec (k (.ok v)) t' o) :=
  by split_answer

theorem exec_getcwd {n : Nat} {k : Except Errno Str → Prog α} : Exec (.call (.getcwd n) k) t o ↔
    (∃ (e : Errno) (t' : List Event), t = ⟨.getcwd n, (.error e : Except Errno Str)⟩ :: t' ∧ Exec (k (.error e)) t' o) ∨
    (∃ (v : Str) (t' : List Event), t = ⟨.getcwd n, (.ok v : Except Errno Str)⟩ :: t' ∧ Exec (k (.ok v)) t' o) :=
  by split_answer

theorem exec_realpath {p : Str} {k : Except Errno Str → Prog α} : Exec (.call (.realpath p) k) t o ↔
    (∃ (e : Errno) (t' : List Event), t = ⟨.realpath p, (.error e : Except Errno Str)⟩ :: t' ∧ Exec (k (.error e)) t' o) ∨
    (∃ (v : Str) (t' : List Event), t = ⟨.realpath p, (.ok v : Except Errno Str)⟩ :: t' ∧ Exec (k (.ok v)) t' o) :=
  by split_answer

theorem exec_openf {p : Str} {fl : OFlags} {m : Mode} {k : Except Errno Nat → Prog α} : Exec (.call (.openf p fl m) k) t o ↔
    (∃ (e : Errno) (t' : List Event), t = ⟨.openf p fl m, (.error e : Except Errno Nat)⟩ :: t' ∧ Exec (k (.error e)) t' o) ∨
    (∃ (v : Nat) (t' : List Event), t = ⟨.openf p fl m, (.ok v : Except Errno Nat)⟩ :: t' ∧ Exec (k (.ok v)) t' o) :=
  by split_answer

theorem exec_close {fd : Nat} {k : Except Errno Unit → Prog α} : Exec (.call (.close fd) k) t o ↔
    (∃ (e : Errno) (t' : List Event), t = ⟨.close fd, (.error e : Except Errno Unit)⟩ :: t' ∧ Exec (k (.error e)) t' o) ∨
    (∃ (v : Unit) (t' : List Event), t = ⟨.close fd, (.ok v : Except Errno Unit)⟩ :: t' ∧ Exec (k (.ok v)) t' o) :=
  by split_answer

theorem exec_fchmod {fd : Nat} {m : Mode} {k : Except Errno Unit → Prog α} : Exec (.call (.fchmod fd m) k) t o ↔
    (∃ (e : Errno) (t' : List Event), t = ⟨.fchmod fd m, (.error e : Except Errno Unit)⟩ :: t' ∧ Exec (k (.error e)) t' o) ∨
    (∃ (v : Unit) (t' : List Event), t = ⟨.fchmod fd m, (.ok v : Except Errno Unit)⟩ :: t' ∧ Exec (k (.ok v)) t' o) :=
  by split_answer

theorem exec_ftruncate {fd : Nat} {n : Nat} {k : Except Errno Unit → Prog α} : Exec (.call (.ftruncate fd n) k) t o ↔
    (∃ (e : Errno) (t' : List Event), t = ⟨.ftruncate fd n, (.error e : Except Errno Unit)⟩ :: t' ∧ Exec (k (.error e)) t' o) ∨
    (∃ (v : Unit) (t' : List Event), t = ⟨.ftruncate fd n, (.ok v : Except Errno Unit)⟩ :: t' ∧ Exec (k (.ok v)) t' o) :=
  by split_answer

theorem exec_sendfile {a : Nat} {b : Nat} {n : Nat} {k : Except Errno Nat → Prog α} : Exec (.call (.sendfile a b n) k) t o ↔
    (∃ (e : Errno) (t' : List Event), t = ⟨.sendfile a b n, (.error e : Except Errno Nat)⟩ :: t' ∧ Exec (k (.error e)) t' o) ∨
    (∃ (v : Nat) (t' : List Event), t = ⟨.sendfile a b n, (.ok v : Except Errno Nat)⟩ :: t' ∧ Exec (k (.ok v)) t' o) :=
  by split_answer

theorem exec_read {fd : Nat} {n : Nat} {k : Except Errno Bytes → Prog α} : Exec (.call (.read fd n) k) t o ↔
    (∃ (e : Errno) (t' : List Event), t = ⟨.read fd n, (.error e : Except Errno Bytes)⟩ :: t' ∧ Exec (k (.error e)) t' o) ∨
    (∃ (v : Bytes) (t' : List Event), t = ⟨.read fd n, (.ok v : Except Errno Bytes)⟩ :: t' ∧ Exec (k (.ok v)) t' o) :=
  by split_answer

theorem exec_write {fd : Nat} {d : Bytes} {k : Except Errno Nat → Prog α} : Exec (.call (.write fd d) k) t o ↔
    (∃ (e : Errno) (t' : List Event), t = ⟨.write fd d, (.error e : Except Errno Nat)⟩ :: t' ∧ Exec (k (.error e)) t' o) ∨
    (∃ (v : Nat) (t' : List Event), t = ⟨.write fd d, (.ok v : Except Errno Nat)⟩ :: t' ∧ Exec (k (.ok v)) t' o) :=
  by split_answer

theorem exec_fchmodat {p : Str} {m : Mode} {b : Bool} {k : Except Errno Unit → Prog α} : Exec (.call (.fchmodat p m b) k) t o ↔
    (∃ (e : Errno) (t' : List Event), t = ⟨.fchmodat p m b, (.error e : Except Errno Unit)⟩ :: t' ∧ Exec (k (.error e)) t' o) ∨
    (∃ (v : Unit) (t' : List Event), t = ⟨.fchmodat p m b, (.ok v : Except Errno Unit)⟩ :: t' ∧ Exec (k (.ok v)) t' o) :=
  by split_answer

theorem exec_utimensat {p : Str} {s : Int} {ns : Int} {k : Except Errno Unit → Prog α} : Exec (.call (.utimensat p s ns) k) t o ↔
    (∃ (e : Errno) (t' : List Event), t = ⟨.utimensat p s ns, (.error e : Except Errno Unit)⟩ :: t' ∧ Exec (k (.error e)) t' o) ∨
    (∃ (v : Unit) (t' : List Event), t = ⟨.utimensat p s ns, (.ok v : Except Errno Unit)⟩ :: t' ∧ Exec (k (.ok v)) t' o) :=
  by split_answer

theorem exec_statvfs {p : Str} {k : Except Errno Statvfs → Prog α} : Exec (.call (.statvfs p) k) t o ↔
    (∃ (e : Errno) (t' : List Event), t = ⟨.statvfs p, (.error e : Except Errno Statvfs)⟩ :: t' ∧ Exec (k (.error e)) t' o) ∨
    (∃ (v : Statvfs) (t' : List Event), t = ⟨.statvfs p, (.ok v : Except Errno Statvfs)⟩ :: t' ∧ Exec (k (.ok v)) t' o) :=
  by split_answer

theorem exec_opendir {p : Str} {k : Except Errno Nat → Prog α} : Exec (.call (.opendir p) k) t o ↔
    (∃ (e : Errno) (t' : List Event), t = ⟨.opendir p, (.error e : Except Errno Nat)⟩ :: t' ∧ Exec (k (.error e)) t' o) ∨
    (∃ (v : Nat) (t' : List Event), t = ⟨.opendir p, (.ok v : Except Errno Nat)⟩ :: t' ∧ Exec (k (.ok v)) t' o) :=
  by split_answer

theorem exec_readdir {d : Nat} {k : Except Errno (Option Dirent) → Prog α} : Exec (.call (.readdir d) k) t o ↔
    (∃ (e : Errno) (t' : List Event), t = ⟨.readdir d, (.error e : Except Errno (Option Dirent))⟩ :: t' ∧ Exec (k (.error e)) t' o) ∨
    (∃ (v : (Option Dirent)) (t' : List Event), t = ⟨.readdir d, (.ok v : Except Errno (Option Dirent))⟩ :: t' ∧ Exec (k (.ok v)) t' o) :=
  by split_answer

theorem exec_closedir {d : Nat} {k : Except Errno Unit → Prog α} : Exec (.call (.closedir d) k) t o ↔
    (∃ (e : Errno) (t' : List Event), t = ⟨.closedir d, (.error e : Except Errno Unit)⟩ :: t' ∧ Exec (k (.error e)) t' o) ∨
    (∃ (v : Unit) (t' : List Event), t = ⟨.closedir d, (.ok v : Except Errno Unit)⟩ :: t' ∧ Exec (k (.ok v)) t' o) :=
  by split_answer

end Asap
