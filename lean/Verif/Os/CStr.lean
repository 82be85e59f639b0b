import Verif.Os.Sound
import Verif.Path.Chars

/-!
# Texts as the operating system sees them

The library hands the text of a path to the operating system as `c_str()`: a text ends at its first null character.
`Prog.asC` is a program with its calls as the operating system sees them.
-/

namespace Asap
namespace Spec

/-- The text that `c_str()` gives to the operating system: what comes before the first null character. -/
def cString (s : Str) : Str := s.takeWhile (· != '\x00')

/-- A call about the security of a file as Windows sees it. -/
def SecCall.cut : SecCall → SecCall
  | .getInfo p d => .getInfo (cString p) d
  | .setInfo p acl => .setInfo (cString p) acl
  | c => c

/-- A call of the Windows branch as Windows sees it. -/
def WinCall.cut : WinCall → WinCall
  | .getAttrs p => .getAttrs (cString p)
  | .getAttrsEx p => .getAttrsEx (cString p)
  | .createFile p o => .createFile (cString p) o
  | .createDirectory p => .createDirectory (cString p)
  | .createDirectoryEx a b => .createDirectoryEx (cString a) (cString b)
  | .createSymlink a b d => .createSymlink (cString a) (cString b) d
  | .createHardLink a b => .createHardLink (cString a) (cString b)
  | .removeDirectory p => .removeDirectory (cString p)
  | .deleteFile p => .deleteFile (cString p)
  | .copyFile a b f => .copyFile (cString a) (cString b) f
  | .diskFree p => .diskFree (cString p)
  | .setCwd p => .setCwd (cString p)
  | .getPerms p a => .getPerms (cString p) a
  | .setPerms p m => .setPerms (cString p) m
  | .findFirst p => .findFirst (cString p)
  | .sec c => .sec (SecCall.cut c)
  | c => c

/-- A call as the operating system sees it. -/
def Sys.cut : Sys → Sys
  | .stat p => .stat (cString p)
  | .lstat p => .lstat (cString p)
  | .mkdir p m => .mkdir (cString p) m
  | .remove p => .remove (cString p)
  | .rename a b => .rename (cString a) (cString b)
  | .truncate p l => .truncate (cString p) l
  | .symlink a b => .symlink (cString a) (cString b)
  | .link a b => .link (cString a) (cString b)
  | .readlink p n => .readlink (cString p) n
  | .chdir p => .chdir (cString p)
  | .realpath p => .realpath (cString p)
  | .openf p f m => .openf (cString p) f m
  | .fchmodat p m b => .fchmodat (cString p) m b
  | .utimensat p s n => .utimensat (cString p) s n
  | .statvfs p => .statvfs (cString p)
  | .getenv v => .getenv (cString v)
  | .opendir p => .opendir (cString p)
  | .win c => .win (WinCall.cut c)
  | .winTest q p => .winTest q (cString p)
  | .winReadlink p => .winReadlink (cString p)
  | c => c

/-- It answers the same kind of thing. -/
theorem Sys.cut_ret (c : Sys) : (Sys.cut c).Ret = c.Ret := by
  cases c with
  | win c =>
    cases c with
    | sec c => cases c <;> rfl
    | _ => rfl
  | _ => rfl

/-- A program with its calls as the operating system sees them (`c_str()` in `src/fs_ops.cpp`, `src/posix/stat.cpp`, `src/fs_dir_iterator.cpp`). -/
def Prog.asC {α : Type} : Prog α → Prog α
  | .ret a => .ret a
  | .stop s => .stop s
  | .call c k => .call (Sys.cut c) fun r => Prog.asC (k (cast (Sys.cut_ret c) r))

/-- Texts given by the operating system contain no null character. The text in a reparse point is its print name; half of a surrogate
pair, which is not a character, counts as a null character. -/
def CAnswer : Event → Prop
  | ⟨.readlink _ _, (.ok s : Except Errno Str)⟩ => '\x00' ∉ s
  | ⟨.getcwd _, (.ok s : Except Errno Str)⟩ => '\x00' ∉ s
  | ⟨.realpath _, (.ok s : Except Errno Str)⟩ => '\x00' ∉ s
  | ⟨.getenv _, (some s : Option Str)⟩ => '\x00' ∉ s
  | ⟨.readdir _, (.ok (some d) : Except Errno (Option Dirent))⟩ => '\x00' ∉ d.name
  | ⟨.win (.getCwd _), (.ok (some s) : Except Errno (Option Str))⟩ => '\x00' ∉ s
  | ⟨.win .tempPath, (.ok s : Except Code Str)⟩ => '\x00' ∉ s
  | ⟨.win (.findFirst _), (.ok (_, d) : Except Errno (Nat × FindData))⟩ => '\x00' ∉ d.name
  | ⟨.win (.findNext _), (.ok d : Except Errno FindData)⟩ => '\x00' ∉ d.name
  | ⟨.win (.reparse _), (.ok ws : Except Errno (List (BitVec 16)))⟩ =>
    ∀ n m, ws[6]? = some n → ws[7]? = some m → ∀ k, k < m.toNat / 2 →
      Char.ofNat (ws.getD (10 + n.toNat / 2 + k) 0#16).toNat ≠ '\x00'
  | ⟨.winReadlink _, (.ok s : Except Errno Str)⟩ => '\x00' ∉ s
  | _ => True

end Spec
open Spec

theorem cString_of {s : Str} (h : '\x00' ∉ s) : cString s = s := by
  unfold cString
  induction s with
  | nil => rfl
  | cons c s ih =>
    rw [List.mem_cons] at h
    have h1 : c ≠ '\x00' := fun e => h (.inl e.symm)
    rw [List.takeWhile_cons, if_pos (by simpa using h1), ih fun e => h (.inr e)]

/-- If every answer is a C text, the program hands out only texts without null characters, and each result is in `Q`. -/
inductive Fair {α : Type} (Q : α → Prop) : Prog α → Prop where
  | ret (a : α) (h : Q a) : Fair Q (.ret a)
  | stop (s : Stop) : Fair Q (.stop s)
  | call (c : Sys) (k : c.Ret → Prog α) (hc : Sys.cut c = c) (h : ∀ r, CAnswer ⟨c, r⟩ → Fair Q (k r)) : Fair Q (.call c k)

variable {α β : Type} {Q : α → Prop} {R : β → Prop}

theorem Fair.bind {p : Prog α} {f : α → Prog β} (h : Fair Q p) (hf : ∀ a, Q a → Fair R (f a)) : Fair R (p.bind f) := by
  induction h with
  | ret a h => exact hf a h
  | stop s => exact .stop s
  | call c k hc _ ih => exact .call c _ hc ih

theorem Fair.mono {Q' : α → Prop} {p : Prog α} (h : Fair Q p) (hQ : ∀ a, Q a → Q' a) : Fair Q' p := by
  induction h with
  | ret a h => exact .ret a (hQ a h)
  | stop s => exact .stop s
  | call c k hc _ ih => exact .call c k hc ih

theorem Fair.finally' {p : Prog α} {d : Prog Unit} (h : Fair Q p) (hd : Fair (fun _ => True) d) : Fair Q (p.finally' d) := by
  induction h with
  | ret a h => exact hd.bind fun _ _ => .ret a h
  | stop s =>
    cases s with
    | thrown x => exact hd.bind fun _ _ => .stop _
    | fault f => exact .stop _
    | fuel => exact .stop _
  | call c k hc _ ih => exact .call c _ hc ih

theorem Fair.onThrow {p : Prog α} {d : Prog Unit} (h : Fair Q p) (hd : Fair (fun _ => True) d) : Fair Q (p.onThrow d) := by
  induction h with
  | ret a h => exact .ret a h
  | stop s =>
    cases s with
    | thrown x => exact hd.bind fun _ _ => .stop _
    | fault f => exact .stop _
    | fuel => exact .stop _
  | call c k hc _ ih => exact .call c _ hc ih

theorem Fair.ofRes {r : Res α} (h : ∀ a, r = .ok a → Q a) : Fair Q (Prog.ofRes r) := by
  cases r with
  | ok a => exact .ret _ (h a rfl)
  | error f => exact .stop _

theorem Fair.report {Q : α × EcArg → Prop} {h : Handler} {ec : EcArg} {c : Code} {d : α} (hQ : Q (d, .ref c)) : Fair Q (h.report ec c d) := by
  cases ec
  · exact .stop _
  · exact .ret _ hQ

theorem Fair.reportMsg {Q : α × EcArg → Prop} {h : Handler} {ec : EcArg} {c : Code} {m : Str} {d : α} (hQ : Q (d, .ref c)) :
    Fair Q (h.reportMsg ec c m d) := by
  cases ec
  · exact .stop _
  · exact .ret _ hQ

theorem asC_call {c : Sys} {k : c.Ret → Prog α} (hc : Sys.cut c = c) :
    Prog.asC (.call c k) = .call c fun r => Prog.asC (k r) := by
  have key : ∀ (c' : Sys) (e : c' = c) (hr : c'.Ret = c.Ret),
      (Prog.call c' fun r => Prog.asC (k (cast hr r))) = Prog.call c fun r => Prog.asC (k r) := by
    rintro c' rfl hr
    rfl
  exact key _ hc _

/-- A fair program behaves as the operating system sees it. -/
theorem Fair.exec {p : Prog α} (h : Fair Q p) {t : List Event} (ht : ∀ ev ∈ t, CAnswer ev) {o : Except Stop α} :
    (Exec p t o ↔ Exec (Prog.asC p) t o) ∧ (Exec p t o → (∀ ev ∈ t, Sys.cut ev.call = ev.call) ∧ ∀ a, o = .ok a → Q a) := by
  induction h generalizing t with
  | ret a h =>
    refine ⟨Iff.rfl, fun he => ?_⟩
    obtain ⟨rfl, rfl⟩ := exec_ret.mp he
    exact ⟨by simp, fun _ e => by cases e; exact h⟩
  | stop s =>
    refine ⟨Iff.rfl, fun he => ?_⟩
    obtain ⟨rfl, rfl⟩ := exec_stop.mp he
    exact ⟨by simp, by simp⟩
  | call c k hc _ ih =>
    rw [asC_call hc]
    refine ⟨⟨fun he => ?_, fun he => ?_⟩, fun he => ?_⟩
    · obtain ⟨r, t', rfl, hx⟩ := exec_call.mp he
      exact exec_call.mpr ⟨r, t', rfl, (ih r (ht _ (by simp)) fun ev h => ht ev (by simp [h])).1.mp hx⟩
    · obtain ⟨r, t', rfl, hx⟩ := exec_call.mp he
      exact exec_call.mpr ⟨r, t', rfl, (ih r (ht _ (by simp)) fun ev h => ht ev (by simp [h])).1.mpr hx⟩
    · obtain ⟨r, t', rfl, hx⟩ := exec_call.mp he
      obtain ⟨h1, h2⟩ := (ih r (ht _ (by simp)) fun ev h => ht ev (by simp [h])).2 hx
      refine ⟨fun ev he => ?_, h2⟩
      rcases List.mem_cons.mp he with rfl | he
      · exact hc
      · exact h1 ev he

end Asap
