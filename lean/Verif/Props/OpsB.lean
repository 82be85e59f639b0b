import Verif.Ops.Exec
import Verif.Ops.Bitmask
import Verif.Props.PathB

/-!
# Property theorems about operations that make a fixed number of system calls

The `error_code` overloads are described; C23 carries the results over to the throwing
overloads. `c` is the incoming value of `ec`.
-/

namespace Asap
open Spec

/-! ## C22 -/

/-- The executions of `current_path(ec)`. -/
theorem exec_currentPath {c : Code} {t : List Event} {o : Except Stop (Path × EcArg)} :
    Exec (currentPath (.ref c)) t o ↔ ∃ size : Int,
      (0 < size ∧ ((∃ e, t = [⟨.pathconf, size⟩, ⟨.getcwd size.toNat, (.error e : Except Errno Str)⟩] ∧
        o = .ok (.default, .ref (some e))) ∨
      (∃ s, t = [⟨.pathconf, size⟩, ⟨.getcwd size.toNat, (.ok s : Except Errno Str)⟩] ∧
        o = .ok (mkPath .posix s, .ref none)))) ∨
      (¬ 0 < size ∧ t = [⟨.pathconf, size⟩] ∧ o = .error (.fault .assertFail)) := by
  simp only [currentPath, clear_ref]
  rw [exec_pathconf]
  refine exists_congr fun size => ?_
  by_cases h : 0 < size
  · simp only [h, if_true, exec_getcwd, Handler.reportMsg, exec_ret, not_true, false_and, or_false, true_and]
    constructor
    · rintro ⟨t', rfl, ⟨e, t'', rfl, rfl, rfl⟩ | ⟨e, t'', rfl, rfl, rfl⟩⟩
      · exact .inl ⟨e, rfl, rfl⟩
      · exact .inr ⟨e, rfl, rfl⟩
    · rintro (⟨e, rfl, rfl⟩ | ⟨e, rfl, rfl⟩)
      · exact ⟨_, rfl, .inl ⟨e, _, rfl, rfl, rfl⟩⟩
      · exact ⟨_, rfl, .inr ⟨e, _, rfl, rfl, rfl⟩⟩
  · simp only [h, if_false, exec_stop, not_false_eq_true, false_and, true_and, false_or]
    constructor
    · rintro ⟨t', rfl, rfl, rfl⟩; exact ⟨rfl, rfl⟩
    · rintro ⟨rfl, rfl⟩; exact ⟨_, rfl, rfl, rfl⟩

theorem dropLast_append_of_getLast? {α : Type} {l : List α} {x : α} (h : l.getLast? = some x) :
    l.dropLast ++ [x] = l := by
  have hne : l ≠ [] := by rintro rfl; cases h
  rw [List.getLast?_eq_some_getLast hne] at h
  cases h
  exact List.dropLast_concat_getLast hne

/-- C22. An absolute path is returned as it is. For a relative one the working directory
is asked for; if that fails the error is reported. Otherwise the result has
the elements of the working directory `s` followed by those of `p`, is absolute if
`s` is, and in every world in which the working directory has the name `s`
denotes what `p` denotes there. `PATH_MAX` is assumed positive. -/
theorem c22_absolute {p : Path} (hp : Value p) (c : Code) (t : List Event) (o : Except Stop (Path × EcArg))
    (h : Exec (absolute p (.ref c)) t o)
    (hsize : ∀ size : Int, (⟨.pathconf, size⟩ : Event) ∈ t → 0 < size) :
    (p.pathname.head? = some '/' → t = [] ∧ o = .ok (p, .ref none)) ∧
    (p.pathname.head? ≠ some '/' → ∃ size : Int,
      (∃ e, t = [⟨.pathconf, size⟩, ⟨.getcwd size.toNat, (.error e : Except Errno Str)⟩] ∧
        o = .ok (.default, .ref (some e))) ∨
      (∃ s r, t = [⟨.pathconf, size⟩, ⟨.getcwd size.toNat, (.ok s : Except Errno Str)⟩] ∧
        o = .ok (r, .ref none) ∧
        (s.head? = some '/' → isAbsolute .posix r = .ok true) ∧
        (p.pathname ≠ [] → ∃ d, (d = elements s ∨ elements s = d ++ [[]]) ∧ r.names = d ++ p.names ∧
          ∀ (W : World) (x w : W.Node), s.head? = some '/' → walk W W.root (elements s) = some w →
            walk W x r.names = walk W w p.names))) := by
  simp only [absolute, doAbsolute, hp.shape.isAbsolute, clear_ref, Prog.bind_eq, Prog.ofRes_ok, Prog.ret_bind] at h
  constructor
  · intro hs
    rw [startsSlash_iff.mpr hs] at h
    simpa using h
  · intro hs
    have hs' : startsSlash p.pathname = false := by
      rw [Bool.eq_false_iff, ne_eq, startsSlash_iff]; exact hs
    rw [hs'] at h
    simp only [Bool.false_eq_true, if_false, Prog.bind_assoc] at h
    rcases exec_bind.mp h with ⟨x, h1, rfl⟩ | ⟨⟨cwd, ec⟩, t1, t2, rfl, h1, h2⟩
    · rcases exec_currentPath.mp h1 with ⟨size, ⟨_, ⟨e, _, he⟩ | ⟨s, _, he⟩⟩ | ⟨hn, rfl, _⟩⟩
      · cases he
      · cases he
      · exact absurd (hsize size (by simp)) hn
    rcases exec_currentPath.mp h1 with ⟨size, ⟨_, ⟨e, rfl, he⟩ | ⟨s, rfl, he⟩⟩ | ⟨hn, rfl, he⟩⟩
    · cases he
      simp only [isSet_some, if_true, Prog.ret_bind, exec_ret] at h2
      obtain ⟨rfl, rfl⟩ := h2
      exact ⟨size, .inl ⟨e, rfl, rfl⟩⟩
    · cases he
      refine ⟨size, .inr ?_⟩
      have h := h2
      have hcwd := mkPath_shape s
      simp only [isSet_none, Bool.false_eq_true, if_false] at h
      rw [hcwd.append hp.shape, hs', if_neg (by simp)] at h
      simp only [Prog.ofRes_ok, Prog.ret_bind, exec_ret] at h
      obtain ⟨rfl, rfl⟩ := h
      refine ⟨s, _, rfl, rfl, ?_, ?_⟩
      · intro hss
        rw [(mkPath_shape _).isAbsolute, mkPath_pathname, stored_appendText _ _ hs' hcwd.stored,
          startsSlash_appendText hs', mkPath_pathname]
        congr 1
        rw [startsSlash_iff] at *
        unfold stored
        split
        · rfl
        · exact hss
      · intro hne
        obtain ⟨r, hr, hn⟩ := c06_append_elements (Value.reach (reach_mkPath s)) hp hs hne
        rw [hcwd.append hp.shape, hs', if_neg (by simp)] at hr
        cases hr
        have hsn : (mkPath .posix s).names = elements s := by
          rw [hcwd.names, mkPath_pathname, elements_stored]
        rw [hsn] at hn
        refine ⟨_, ?_, hn, ?_⟩
        · split
          · rename_i hl
            right
            have := dropLast_append_of_getLast? hl
            exact this.symm
          · left; rfl
        · intro W x w hss hw
          rw [hn, walk_append]
          have habs : ∀ l : List Str, (['/'] :: l) = elements s → ∀ y, walk W y (elements s) = walk W W.root (elements s) := by
            intro l hl y
            rw [← hl]
            simp [walk]
          obtain ⟨l, hl⟩ : ∃ l, (['/'] :: l) = elements s := by
            unfold elements
            rw [startsSlash_iff.mpr hss]
            exact ⟨_, by simp; rfl⟩
          rw [← habs l hl x] at hw
          split
          · rename_i hlast
            have e1 := dropLast_append_of_getLast? hlast
            rw [← e1, walk_append] at hw
            cases hd : walk W x (elements s).dropLast with
            | none => rw [hd] at hw; cases hw
            | some m =>
              rw [hd] at hw
              simp [walk] at hw
              simp only [Option.bind_some]
              rw [hw.2]
          · rw [hw]; rfl
    · cases he

example : Exec (absolute (mkPath .posix "a/../b".toList) (.ref (some .EPERM)))
    [⟨.pathconf, (4096 : Int)⟩, ⟨.getcwd 4096, (.ok "/home/u".toList : Except Errno Str)⟩]
    (.ok (mkPath .posix "/home/u/a/../b".toList, .ref none)) :=
  .call _ _ _ _ _ (.call _ _ _ _ _ (.ret _))

/-! ## C32 -/

/-- C32. `remove` of a non-empty path makes the call `remove(3)` once and nothing else. It
returns true iff that succeeded, false without error iff the call says there is
no such entry; any other error is reported. For the empty path it returns false. -/
theorem c32_remove (p : Path) (c : Code) (t : List Event) (o : Except Stop (Bool × EcArg))
    (h : Exec (remove p (.ref c)) t o) :
    (p.pathname = [] → t = [] ∧ o = .ok (false, .ref none)) ∧
    (p.pathname ≠ [] → ∃ r : Except Errno Unit, t = [⟨.remove p.pathname, r⟩] ∧ ∃ b c', o = .ok (b, .ref c') ∧
      (b = true ↔ r = .ok ()) ∧ (c' = none ↔ r = .ok () ∨ r = .error .ENOENT) ∧
      ∀ e, c' = some e → r = .error e) := by
  by_cases hn : p.pathname = []
  · have hempty : p.isEmpty = true := by rw [Path.isEmpty, hn]; rfl
    simp only [remove, clear_ref, hempty, if_true, exec_ret] at h
    exact ⟨fun _ => h, fun h' => absurd hn h'⟩
  · have hempty : p.isEmpty = false := by
      cases hs : p.pathname with
      | nil => exact absurd hs hn
      | cons => rw [Path.isEmpty, hs]; rfl
    refine ⟨fun h' => absurd h' hn, fun _ => ?_⟩
    simp only [remove, clear_ref, hempty, Bool.false_eq_true, if_false, exec_remove, exec_ret] at h
    rcases h with ⟨e, t', rfl, h⟩ | ⟨⟨⟩, t', rfl, rfl, rfl⟩
    · refine ⟨.error e, ?_⟩
      by_cases he : e = .ENOENT
      · simp only [he, if_true, exec_ret] at h
        obtain ⟨rfl, rfl⟩ := h
        exact ⟨by rw [he], false, none, rfl, by simp, by simp [he], by simp⟩
      · simp only [he, if_false, Handler.report, Prog.bind_eq, Prog.ret_bind, exec_ret] at h
        obtain ⟨rfl, rfl⟩ := h
        exact ⟨rfl, false, some e, rfl, by simp, by simp [he], by simp⟩
    · exact ⟨.ok (), rfl, true, none, rfl, by simp, by simp, by simp⟩

example : Exec (remove (mkPath .posix "d".toList) (.ref none))
    [⟨.remove "d".toList, (.error .ENOTEMPTY : Except Errno Unit)⟩] (.ok (false, .ref (some .ENOTEMPTY))) :=
  .call _ _ _ _ _ (.ret _)

/-! ## C33 -/

/-- The mode requested from the old mode: bits 0 to 11 only. `act` is the option chosen. -/
def Spec.newMode (replace add : Bool) (old prms : Mode) : Mode :=
  if replace then prms &&& 0o7777 else if add then (old ||| prms) &&& 0o7777 else (old &&& ~~~ prms) &&& 0o7777

/-- `a` and nothing else of the three actions is in the options. -/
@[reducible] def Spec.OneAction (opts : PermOptions) (replace add remove : Bool) : Prop :=
  replace = opts.getLsbD 0 ∧ add = opts.getLsbD 1 ∧ remove = opts.getLsbD 2 ∧
  ((replace = true ∧ add = false ∧ remove = false) ∨ (replace = false ∧ add = true ∧ remove = false) ∨
    (replace = false ∧ add = false ∧ remove = true))

theorem has_bit (opts : BitVec 32) (i : Nat) (hi : i < 32) :
    ((BitVec.twoPow 32 i &&& opts) != 0) = opts.getLsbD i := by
  rw [BitVec.and_comm, BitVec.and_twoPow]
  split
  · rename_i h
    rw [h]
    simp only [bne_iff_ne, ne_eq]
    intro hz
    have := congrArg (fun v => BitVec.getLsbD v i) hz
    simp [hi] at this
  · rename_i h
    simp only [Bool.not_eq_true] at h
    rw [h]
    simp

theorem or_masked (a b m : Mode) : (a &&& m ||| b &&& m) &&& m = (b ||| a) &&& m := by
  ext i hi
  simp only [BitVec.getElem_and, BitVec.getElem_or]
  cases a[i] <;> cases b[i] <;> cases m[i] <;> rfl

theorem andNot_masked (a b m : Mode) : (b &&& m &&& ~~~ (a &&& m)) &&& m = (b &&& ~~~ a) &&& m := by
  ext i hi
  simp only [BitVec.getElem_and, BitVec.getElem_not]
  cases a[i] <;> cases b[i] <;> cases m[i] <;> rfl

/-- C33. Given exactly one of the options replace, add and remove: if the current
mode is needed (add, remove or nofollow) it is read first, and if that fails the
error is reported and nothing is changed. Otherwise exactly one `chmod` is made,
with the mode of `Spec.newMode`. It is told not to follow only if nofollow was given and
the file is a symbolic link, provided `stat` never says that a file is a
symbolic link. Its failure is reported. -/
theorem c33_permissions (p : Path) (prms : Perms) (opts : PermOptions) (rep add rem : Bool)
    (hact : OneAction opts rep add rem) (c : Code) (t : List Event) (o : Except Stop (Unit × EcArg))
    (h : Exec (permissions p prms opts (.ref c)) t o) :
    let nofollow := opts.getLsbD 3
    let rd (r : Except Errno Stat) : Event := if nofollow then ⟨.lstat p.pathname, r⟩ else ⟨.stat p.pathname, r⟩
    let result (r : Except Errno Unit) : Code := match r with | .ok () => none | .error e => some e
    (nofollow = false ∧ rep = true → ∃ r : Except Errno Unit,
      t = [⟨.fchmodat p.pathname (prms &&& 0o7777) false, r⟩] ∧ o = .ok ((), .ref (result r))) ∧
    (nofollow = true ∨ rep = false →
      (∃ e, t = [rd (.error e)] ∧ o = .ok ((), .ref (some e))) ∨
      (∃ (st : Stat) (r : Except Errno Unit) (link : Bool),
        t = [rd (.ok st), ⟨.fchmodat p.pathname (newMode rep add st.mode prms) link, r⟩] ∧
        o = .ok ((), .ref (result r)) ∧
        (link = true ↔ st.mode &&& 0o170000 = 0o120000))) := by
  intro nofollow rd result
  obtain ⟨hr, ha, hm, hone⟩ := hact
  have b0 : ((PermOptions.replace &&& opts) != 0) = rep := by rw [hr]; exact has_bit opts 0 (by omega)
  have b1 : ((PermOptions.add &&& opts) != 0) = add := by rw [ha]; exact has_bit opts 1 (by omega)
  have b2 : ((PermOptions.remove &&& opts) != 0) = rem := by rw [hm]; exact has_bit opts 2 (by omega)
  have b3 : ((PermOptions.nofollow &&& opts) != 0) = nofollow := has_bit opts 3 (by omega)
  have hcount : ¬ (add.toNat + rem.toNat + rep.toNat ≠ 1) := by
    rcases hone with ⟨rfl, rfl, rfl⟩ | ⟨rfl, rfl, rfl⟩ | ⟨rfl, rfl, rfl⟩ <;> decide
  have mask : Perms.mask = 0o7777 := rfl
  have read : ∀ f : FStatus × EcArg → Prog (Unit × EcArg),
      (Exec ((permStatus p (!nofollow)).bind f) t o ↔
      (∃ (e : Errno) (t' : List Event), t = rd (.error e) :: t' ∧
        Exec (f ({ type := typeOfErr e }, .ref (some e))) t' o) ∨
      (∃ (st : Stat) (t' : List Event), t = rd (.ok st) :: t' ∧ Exec (f (statusOf st, .ref none)) t' o)) := by
    intro f
    unfold permStatus
    cases hn : nofollow
    · simpa [rd, hn] using exec_status_bind
    · simpa [rd, hn] using exec_symlinkStatus_bind
  have hcall : ∀ (m : Mode) (l : Bool) (t' : List Event), Exec (chmodAt p m l (.ref none)) t' o →
      ∃ r : Except Errno Unit, t' = [⟨.fchmodat p.pathname (m &&& 0o7777) l, r⟩] ∧ o = .ok ((), .ref (result r)) := by
    intro m l t' h'
    simp only [chmodAt, exec_fchmodat, Handler.report, exec_ret] at h'
    rcases h' with ⟨e, t', rfl, rfl, rfl⟩ | ⟨v, t', rfl, rfl, rfl⟩
    · exact ⟨.error e, rfl, rfl⟩
    · exact ⟨.ok (), rfl, rfl⟩
  simp only [permissions, clear_ref, b0, b1, b2, b3, hcount, if_false, Bool.not_not, Prog.bind_eq] at h
  have h' := h
  constructor
  · rintro ⟨hn, hr'⟩
    have hcond : (nofollow || (add || rem)) = false := by
      rw [hn]
      rcases hone with ⟨_, h1, h2⟩ | ⟨h0, _⟩ | ⟨h0, _⟩
      · rw [h1, h2]; rfl
      · rw [h0] at hr'; cases hr'
      · rw [h0] at hr'; cases hr'
    simp only [hcond, Bool.false_eq_true, if_false] at h'
    obtain ⟨r, rfl, rfl⟩ := hcall _ _ _ h'
    refine ⟨r, ?_, rfl⟩
    rw [mask, BitVec.and_assoc, BitVec.and_self]
  · intro hneed
    have hcond : (nofollow || (add || rem)) = true := by
      rcases hneed with hn | hn
      · rw [hn]; rfl
      · rcases hone with ⟨h0, _, _⟩ | ⟨_, h1, _⟩ | ⟨_, _, h1⟩
        · rw [h0] at hn; cases hn
        · rw [h1]; simp
        · rw [h1]; simp
    simp only [hcond, if_true] at h'
    rcases (read _).mp h' with ⟨e, t', rfl, h2⟩ | ⟨st, t', rfl, h2⟩
    · left
      simp only [isSet_some, if_true, Handler.report, exec_ret] at h2
      obtain ⟨rfl, rfl⟩ := h2
      exact ⟨e, rfl, rfl⟩
    · right
      simp only [isSet_none, Bool.false_eq_true, if_false, statusOf_perms_ne] at h2
      obtain ⟨r, rfl, rfl⟩ := hcall _ _ _ h2
      refine ⟨st, r, _, ?_, rfl, statusOf_isSymlink st⟩
      congr 4
      unfold newMode
      rcases hone with ⟨rfl, rfl, rfl⟩ | ⟨rfl, rfl, rfl⟩ | ⟨rfl, rfl, rfl⟩
      · simp only [if_true, Bool.false_eq_true, if_false, mask]
        rw [BitVec.and_assoc, BitVec.and_self]
      · simp only [if_true, Bool.false_eq_true, if_false, statusOf, mask]
        exact or_masked ..
      · simp only [if_true, Bool.false_eq_true, if_false, statusOf, mask]
        exact andNot_masked ..

example : OneAction (PermOptions.add ||| PermOptions.nofollow) false true false ∧
    newMode false true 0o100640 0o022 = 0o662 := by decide

/-! ## C34 -/

/-- The constants of `perms` that denote single permission bits, with the values POSIX gives
them in `<sys/stat.h>`. -/
def permBits : List (Perms × Mode) :=
  [(Perms.ownerRead, 0o400), (Perms.ownerWrite, 0o200), (Perms.ownerExec, 0o100), (Perms.groupRead, 0o40),
   (Perms.groupWrite, 0o20), (Perms.groupExec, 0o10), (Perms.othersRead, 0o4), (Perms.othersWrite, 0o2),
   (Perms.othersExec, 0o1), (Perms.setUid, 0o4000), (Perms.setGid, 0o2000), (Perms.stickyBit, 0o1000)]

/-- C34 is violated: `set_gid` and `sticky_bit` are zero, so they are not the POSIX bits, not distinct,
and cannot be set or observed by name. -/
theorem c34_violated : (∃ b ∈ permBits, b.1 ≠ b.2) ∧ Perms.setGid = Perms.stickyBit ∧
    (∀ x : Perms, x &&& Perms.setGid = Perms.none ∧ x ||| Perms.setGid = x) := by
  refine ⟨⟨(Perms.setGid, 0o2000), by simp [permBits], by decide⟩, rfl, fun x => ⟨?_, ?_⟩⟩
  · simp [Perms.setGid, Perms.none]
  · simp [Perms.setGid]

/-- C34, the rest. The other ten bits have their POSIX values and are pairwise distinct, and the
combined constants are the unions of theirs. On any operating system where a successful
`chmod` makes the next `stat` answer with the bits set, `permissions(p, x)` followed by
`status(p)` yields exactly the bits of `x` within the mask. Missing: the two
constants of `c34_violated`. -/
theorem c34_permission_bits_partial :
    (∀ b ∈ permBits.take 10, b.1 = b.2) ∧ ((permBits.take 10).map Prod.fst).Nodup ∧
    Perms.ownerAll = Perms.ownerRead ||| Perms.ownerWrite ||| Perms.ownerExec ∧
    Perms.groupAll = Perms.groupRead ||| Perms.groupWrite ||| Perms.groupExec ∧
    Perms.othersAll = Perms.othersRead ||| Perms.othersWrite ||| Perms.othersExec ∧
    Perms.all = Perms.ownerAll ||| Perms.groupAll ||| Perms.othersAll ∧
    Perms.mask = 0o7777 ∧
    (∀ (m : Machine) (p : Path) (x : Perms) (c c' : Code) (s s1 s2 : m.State) (t : List Event)
        (r : Except Stop (FStatus × EcArg)) (t' : List Event),
      (∀ (md : Mode) (s s' : m.State), m.step (.fchmodat p.pathname md false) s = (.ok (), s') →
        ∃ st s'', m.step (.stat p.pathname) s' = (.ok st, s'') ∧ st.mode &&& 0o7777 = md &&& 0o7777) →
      (permissions p x PermOptions.replace (.ref c)).run m s = (.ok ((), .ref none), t, s1) →
      (status p (.ref c')).run m s1 = (r, t', s2) →
      ∃ ty, r = .ok (⟨ty, x &&& 0o7777⟩, .ref none)) := by
  refine ⟨by decide, by decide, by decide, by decide, by decide, by decide, by decide, ?_⟩
  intro m p x c c' s s1 s2 t r t' hk h1 h2
  have hp : permissions p x PermOptions.replace (.ref c) = chmodAt p (x &&& Perms.mask) false (.ref none) := by
    simp [permissions, PermOptions.nofollow, PermOptions.add, PermOptions.remove, PermOptions.replace]
  rw [hp, chmodAt, Prog.run] at h1
  rw [status_ref, Prog.run] at h2
  cases hst : m.step (.fchmodat p.pathname (x &&& Perms.mask &&& Perms.mask) false) s with
  | mk a s' =>
    simp only [hst] at h1
    cases a with
    | error e => simp [Handler.report, Prog.run] at h1
    | ok u =>
      simp only [Prog.run, Prod.mk.injEq, true_and] at h1
      obtain ⟨_, rfl⟩ := h1
      obtain ⟨st, s'', h3, h4⟩ := hk _ _ _ hst
      simp only [h3, Prog.run, Prod.mk.injEq] at h2
      refine ⟨typeOfMode st.mode, ?_⟩
      rw [← h2.1]
      have : st.mode &&& Perms.mask = x &&& 0o7777 := by
        show st.mode &&& 0o7777 = _
        rw [h4]
        show x &&& 0o7777 &&& 0o7777 &&& 0o7777 = _
        simp [BitVec.and_assoc]
      simp only [statusOf, this]

/-! ## C35 -/

/-- The number of bytes reported for `n` blocks of `f` bytes: exact if it fits 64 bits. -/
def Spec.bytes (f n : BitVec 64) : BitVec 64 :=
  if f.toNat * n.toNat < 2 ^ 64 then BitVec.ofNat 64 (f.toNat * n.toNat) else BitVec.allOnes 64

theorem doMult_exact (f n : BitVec 64) (hn : n ≠ 0) : doMult f n = bytes f n := by
  have hn' : 0 < n.toNat := by
    rcases Nat.eq_zero_or_pos n.toNat with h | h
    · exact absurd (BitVec.eq_of_toNat_eq (by simpa using h)) hn
    · exact h
  have hmul : (n * f).toNat = (f.toNat * n.toNat) % 2 ^ 64 := by rw [BitVec.toNat_mul, Nat.mul_comm]
  unfold doMult bytes
  simp only [hn, false_or]
  by_cases hlt : f.toNat * n.toNat < 2 ^ 64
  · rw [if_pos hlt]
    have : n * f / n = f := by
      apply BitVec.eq_of_toNat_eq
      rw [BitVec.toNat_udiv, hmul, Nat.mod_eq_of_lt hlt, Nat.mul_div_cancel _ hn']
    rw [if_neg (by simp [this])]
    apply BitVec.eq_of_toNat_eq
    rw [hmul]; simp
  · rw [if_neg hlt, if_pos]
    · rfl
    · intro h
      have h' := congrArg BitVec.toNat h
      rw [BitVec.toNat_udiv, hmul] at h'
      have h2 : (f.toNat * n.toNat) % 2 ^ 64 / n.toNat * n.toNat ≤ (f.toNat * n.toNat) % 2 ^ 64 := Nat.div_mul_le_self ..
      rw [h'] at h2
      have h3 : (f.toNat * n.toNat) % 2 ^ 64 < 2 ^ 64 := Nat.mod_lt _ (by decide)
      omega

/-- C35 is violated: a file system without available blocks reports `uintmax_t(-1)` bytes
available. -/
theorem c35_violated : ∃ (p : Path) (v : Statvfs) (i : SpaceInfo),
    Exec (space p (.ref none)) [⟨.statvfs p.pathname, (.ok v : Except Errno Statvfs)⟩] (.ok (i, .ref none)) ∧
    v.bavail = 0 ∧ i.available = BitVec.allOnes 64 :=
  ⟨mkPath .posix "/".toList, ⟨4096, 100, 10, 0⟩, _, .call _ _ _ _ _ (.ret _), rfl, rfl⟩

/-- C35, the rest: one call; a failure is reported with all values `uintmax_t(-1)`; otherwise each
non-zero count is reported exactly, or as `uintmax_t(-1)` if the number of bytes does
not fit. Missing: zero counts (`c35_violated`). -/
theorem c35_space_partial (p : Path) (c : Code) (t : List Event) (o : Except Stop (SpaceInfo × EcArg))
    (h : Exec (space p (.ref c)) t o) :
    (∃ e, t = [⟨.statvfs p.pathname, (.error e : Except Errno Statvfs)⟩] ∧
      o = .ok (⟨BitVec.allOnes 64, BitVec.allOnes 64, BitVec.allOnes 64⟩, .ref (some e))) ∨
    (∃ v i, t = [⟨.statvfs p.pathname, (.ok v : Except Errno Statvfs)⟩] ∧ o = .ok (i, .ref none) ∧
      (v.blocks ≠ 0 → i.capacity = bytes v.frsize v.blocks) ∧ (v.bfree ≠ 0 → i.free = bytes v.frsize v.bfree) ∧
      (v.bavail ≠ 0 → i.available = bytes v.frsize v.bavail)) := by
  simp only [space, clear_ref, exec_statvfs, Handler.report, Prog.bind_eq, Prog.ret_bind, exec_ret] at h
  rcases h with ⟨e, t', rfl, rfl, rfl⟩ | ⟨v, t', rfl, rfl, rfl⟩
  · exact .inl ⟨e, rfl, rfl⟩
  · exact .inr ⟨v, _, rfl, rfl, doMult_exact _ _, doMult_exact _ _, doMult_exact _ _⟩

example : bytes 4096 1000 = 4096000 ∧ bytes (2 ^ 40) (2 ^ 30) = BitVec.allOnes 64 := by decide

/-! ## C36, C37 -/

theorem timeToSpec_spec (t : Int) : (timeToSpec t).1 * 1000000000 + (timeToSpec t).2 = t ∧
    0 ≤ (timeToSpec t).2 ∧ (timeToSpec t).2 < 1000000000 := by
  have h1 := Int.mul_tdiv_add_tmod t 1000000000
  have h2 : (t.tmod 1000000000) < 1000000000 := Int.tmod_lt_of_pos _ (by decide)
  have h3 : -1000000000 < (t.tmod 1000000000) := by
    have := Int.lt_tmod_of_pos t (show (0:Int) < 1000000000 by decide)
    exact this
  unfold timeToSpec
  simp only
  split
  · simp only; omega
  · simp only; omega

/-- The exact value of a time stamp that can be represented. -/
theorem timeFromSpec_exact (s ns : Int) (h0 : 0 ≤ ns) (h1 : ns < 1000000000)
    (hr : InI64 (s * 1000000000 + ns)) : timeFromSpec s ns = .ok (s * 1000000000 + ns) := by
  unfold InI64 at hr
  have ok : ∀ x : Int, -2 ^ 63 ≤ x → x < 2 ^ 63 → i64 x = .ok x := by
    intro x h1 h2
    unfold i64
    rw [if_pos ⟨h1, h2⟩]
  unfold timeFromSpec
  split
  · rename_i h
    rw [ok (s * 1000000000) (by omega) (by omega)]
    show i64 (s * 1000000000 + ns) = _
    exact ok _ (by omega) (by omega)
  · rename_i h
    rw [ok (1000000000 - ns) (by omega) (by omega)]
    show (do let s1 ← i64 (s + 1); let a ← i64 (s1 * 1000000000); i64 (a - (1000000000 - ns))) = _
    rw [ok (s + 1) (by omega) (by omega)]
    show (do let a ← i64 ((s + 1) * 1000000000); i64 (a - (1000000000 - ns))) = _
    rw [ok ((s + 1) * 1000000000) (by omega) (by omega)]
    show i64 ((s + 1) * 1000000000 - (1000000000 - ns)) = _
    rw [ok _ (by omega) (by omega)]
    congr 1
    omega

/-- The executions of the reading `last_write_time`. -/
theorem exec_lastWriteTime {p : Path} {c : Code} {t : List Event} {o : Except Stop (Int × EcArg)}
    (hrange : ∀ st, (⟨.stat p.pathname, (.ok st : Except Errno Stat)⟩ : Event) ∈ t → InI64 st.mtimeSec)
    (h : Exec (lastWriteTime p (.ref c)) t o) :
    (∃ e, t = [⟨.stat p.pathname, (.error e : Except Errno Stat)⟩] ∧ o = .ok (timeMin, .ref (some e))) ∨
    (∃ st, t = [⟨.stat p.pathname, (.ok st : Except Errno Stat)⟩] ∧
      ((∃ v, timeFromSpec st.mtimeSec st.mtimeNsec = .ok v ∧ o = .ok (v, .ref none)) ∨
       (∃ f, timeFromSpec st.mtimeSec st.mtimeNsec = .error f ∧ o = .error (.fault f)))) := by
  simp only [lastWriteTime, clear_ref, Prog.bind_eq, exec_getFileStatus_bind] at h
  rcases h with ⟨e, t', rfl, h⟩ | ⟨st, t', rfl, h⟩
  · simp only [isSet_some, if_true, Handler.report, exec_ret] at h
    obtain ⟨rfl, rfl⟩ := h
    exact .inl ⟨e, rfl, rfl⟩
  · have hst := hrange st (by simp)
    have hrep : timeIsRepresentable st.mtimeSec st.mtimeNsec = true := by
      unfold timeIsRepresentable InI64 at *
      split <;> simp <;> omega
    simp only [isSet_none, Bool.false_eq_true, if_false, Prog.useStat, Prog.ret_bind, extractLastWriteTime, hrep,
      if_true, clear_ref, Prog.bind_eq] at h
    right
    cases hv : timeFromSpec st.mtimeSec st.mtimeNsec with
    | error f =>
      rw [hv] at h
      simp at h
      obtain ⟨rfl, rfl⟩ := h
      exact ⟨st, rfl, .inr ⟨f, hv, rfl⟩⟩
    | ok v =>
      rw [hv] at h
      simp at h
      obtain ⟨rfl, rfl⟩ := h
      exact ⟨st, rfl, .inl ⟨v, hv, rfl⟩⟩

/-- C36. Setting a time before the epoch is rejected with `invalid_argument` and no system
call. Any other time is passed on exactly, split into seconds and
nanoseconds in range; failure is reported; and reading the time of a file with the time stamp
that was passed yields the time that was set. -/
theorem c36_last_write_time (p : Path) (tm : Int) (htm : InI64 tm) (c : Code) (t : List Event)
    (o : Except Stop (Unit × EcArg)) (h : Exec (setLastWriteTime p tm (.ref c)) t o) :
    (tm < 0 → t = [] ∧ o = .ok ((), .ref (some .EINVAL))) ∧
    (0 ≤ tm → ∃ s ns, s * 1000000000 + ns = tm ∧ 0 ≤ s ∧ 0 ≤ ns ∧ ns < 1000000000 ∧
      ((∃ e, t = [⟨.utimensat p.pathname s ns, (.error e : Except Errno Unit)⟩] ∧ o = .ok ((), .ref (some e))) ∨
       (t = [⟨.utimensat p.pathname s ns, (.ok () : Except Errno Unit)⟩] ∧ o = .ok ((), .ref none) ∧
        ∀ (st : Stat) (c' : Code) (o' : Except Stop (Int × EcArg)), st.mtimeSec = s → st.mtimeNsec = ns →
          Exec (lastWriteTime p (.ref c')) [⟨.stat p.pathname, (.ok st : Except Errno Stat)⟩] o' →
          o' = .ok (tm, .ref none)))) := by
  obtain ⟨h1, h2, h3⟩ := timeToSpec_spec tm
  cases hsp : timeToSpec tm with
  | mk s ns =>
    rw [hsp] at h1 h2 h3
    simp only at h1 h2 h3
    simp only [setLastWriteTime, clear_ref, hsp] at h
    constructor
    · intro hneg
      rw [if_pos (by omega)] at h
      simpa [Handler.reportMsg] using h
    · intro hpos
      rw [if_neg (by omega)] at h
      refine ⟨s, ns, h1, by omega, h2, h3, ?_⟩
      simp only [exec_utimensat, Handler.report, exec_ret] at h
      rcases h with ⟨e, t', rfl, rfl, rfl⟩ | ⟨v, t', rfl, rfl, rfl⟩
      · exact .inl ⟨e, by rw [hsp], rfl⟩
      · refine .inr ⟨by rw [hsp], rfl, ?_⟩
        rintro st c' o' rfl rfl hx
        have hr : InI64 (st.mtimeSec * 1000000000 + st.mtimeNsec) := by rw [h1]; exact htm
        rcases exec_lastWriteTime (by
          intro st' hst'
          simp only [List.mem_singleton, Event.mk.injEq, heq_eq_eq, true_and, Except.ok.injEq] at hst'
          subst hst'
          unfold InI64 at *
          omega) hx with ⟨e, he, _⟩ | ⟨st', he, ⟨v, hv, ho⟩ | ⟨f, hv, ho⟩⟩
        · simp at he
        · simp only [List.cons.injEq, Event.mk.injEq, heq_eq_eq, true_and, and_true, Except.ok.injEq] at he
          subst he
          rw [timeFromSpec_exact _ _ h2 h3 hr] at hv
          cases hv
          rw [ho, h1]
        · simp only [List.cons.injEq, Event.mk.injEq, heq_eq_eq, true_and, and_true, Except.ok.injEq] at he
          subst he
          rw [timeFromSpec_exact _ _ h2 h3 hr] at hv
          cases hv

example : InI64 1700000000123456789 ∧ timeToSpec 1700000000123456789 = (1700000000, 123456789) ∧
    timeFromSpec (-2) 500000000 = .ok (-1500000000) := by decide

/-- C37 is violated: a time stamp far in the future (year 2262 and later) is signed overflow
instead of an error. -/
theorem c37_violated : ∃ (p : Path) (st : Stat), InI64 st.mtimeSec ∧ st.mtimeNsec = 0 ∧
    Exec (lastWriteTime p (.ref none)) [⟨.stat p.pathname, (.ok st : Except Errno Stat)⟩]
      (.error (.fault .ub)) :=
  ⟨mkPath .posix "f".toList, { Stat.zero with mtimeSec := 9223372037 }, by decide, rfl, .call _ _ _ _ _ (.stop _)⟩

/-- C37, the rest: for a time stamp whose value is representable the exact time is returned and
nothing overflows on the way, also for times before the epoch; errors are reported.
Missing: time stamps that are not representable (`c37_violated`). -/
theorem c37_exact_partial (p : Path) (c : Code) (t : List Event) (o : Except Stop (Int × EcArg))
    (h : Exec (lastWriteTime p (.ref c)) t o)
    (hst : ∀ st, (⟨.stat p.pathname, (.ok st : Except Errno Stat)⟩ : Event) ∈ t →
      0 ≤ st.mtimeNsec ∧ st.mtimeNsec < 1000000000 ∧ InI64 (st.mtimeSec * 1000000000 + st.mtimeNsec)) :
    (∃ e, t = [⟨.stat p.pathname, (.error e : Except Errno Stat)⟩] ∧ o = .ok (timeMin, .ref (some e))) ∨
    (∃ st, t = [⟨.stat p.pathname, (.ok st : Except Errno Stat)⟩] ∧
      o = .ok (st.mtimeSec * 1000000000 + st.mtimeNsec, .ref none)) := by
  rcases exec_lastWriteTime (by
    intro st hm
    obtain ⟨h0, h1, hr⟩ := hst st hm
    unfold InI64 at *
    omega) h with ⟨e, he, ho⟩ | ⟨st, rfl, ⟨v, hv, ho⟩ | ⟨f, hv, ho⟩⟩
  · exact .inl ⟨e, he, ho⟩
  · obtain ⟨h0, h1, hr⟩ := hst st (by simp)
    rw [timeFromSpec_exact _ _ h0 h1 hr] at hv
    cases hv
    exact .inr ⟨st, rfl, ho⟩
  · obtain ⟨h0, h1, hr⟩ := hst st (by simp)
    rw [timeFromSpec_exact _ _ h0 h1 hr] at hv
    cases hv

/-! ## C38 -/

/-- The file type a mode encodes: `st_mode / 010000 % 16` against the numbers of
`<linux/stat.h>`. -/
def Spec.typeOf (m : Mode) : FType :=
  match m.toNat / 4096 % 16 with
  | 10 => .symlink
  | 8 => .regular
  | 4 => .directory
  | 6 => .block
  | 2 => .character
  | 1 => .fifo
  | 12 => .socket
  | _ => .unknown

theorem typeOfMode_eq (m : Mode) : typeOfMode m = typeOf m := by
  have hk : ∀ k : Nat, k < 16 → ((m &&& 0o170000 = BitVec.ofNat 32 (k * 4096)) ↔ m.toNat / 4096 % 16 = k) := by
    intro k hk
    rw [← BitVec.toNat_inj, BitVec.toNat_and, BitVec.toNat_ofNat]
    have e1 : (0o170000 : BitVec 32).toNat = 15 <<< 12 := by decide
    have e2 : m.toNat &&& (15 <<< 12) = (m.toNat / 4096 % 16) * 4096 := by
      apply Nat.eq_of_testBit_eq
      intro i
      rw [Nat.testBit_and, Nat.testBit_shiftLeft, Nat.mul_comm, show (4096 : Nat) = 2 ^ 12 by decide,
        Nat.testBit_two_pow_mul, show (16 : Nat) = 2 ^ 4 by decide, Nat.testBit_mod_two_pow, Nat.testBit_div_two_pow,
        show (15 : Nat) = 2 ^ 4 - 1 by decide, Nat.testBit_two_pow_sub_one]
      by_cases hi : 12 ≤ i
      · simp only [hi, decide_true, Bool.true_and]
        rw [Nat.sub_add_cancel hi, Bool.and_comm]
      · simp [hi]
    rw [e1, e2]
    have : k * 4096 % 2 ^ 32 = k * 4096 := Nat.mod_eq_of_lt (by omega)
    rw [this]
    omega
  have hlt : m.toNat / 4096 % 16 < 16 := Nat.mod_lt _ (by decide)
  have h10 : (m &&& 0o170000 = 0o120000) ↔ m.toNat / 4096 % 16 = 10 := hk 10 (by omega)
  have h8 : (m &&& 0o170000 = 0o100000) ↔ m.toNat / 4096 % 16 = 8 := hk 8 (by omega)
  have h4 : (m &&& 0o170000 = 0o040000) ↔ m.toNat / 4096 % 16 = 4 := hk 4 (by omega)
  have h6 : (m &&& 0o170000 = 0o060000) ↔ m.toNat / 4096 % 16 = 6 := hk 6 (by omega)
  have h2 : (m &&& 0o170000 = 0o020000) ↔ m.toNat / 4096 % 16 = 2 := hk 2 (by omega)
  have h1 : (m &&& 0o170000 = 0o010000) ↔ m.toNat / 4096 % 16 = 1 := hk 1 (by omega)
  have h12 : (m &&& 0o170000 = 0o140000) ↔ m.toNat / 4096 % 16 = 12 := hk 12 (by omega)
  unfold typeOfMode typeOf
  simp only [h10, h8, h4, h6, h2, h1, h12]
  generalize m.toNat / 4096 % 16 = k at *
  clear hk h10 h8 h4 h6 h2 h1 h12
  revert hlt
  revert k
  decide

/-- C38, the two functions. One call (`stat` or `lstat`); for `ENOENT` and `ENOTDIR` the type is
`not_found`, for other errors `none`, with `ec` set to the error; otherwise `ec` is clear, the type is
the one encoded in the mode and the permissions are its low twelve bits. -/
theorem c38_status (p : Path) (c : Code) (t : List Event) (o : Except Stop (FStatus × EcArg)) :
    let ok (ev : Except Errno Stat → Event) :=
      ((∃ e, t = [ev (.error e)] ∧ ∃ v, o = .ok (v, .ref (some e)) ∧
          v.type = (if e = .ENOENT ∨ e = .ENOTDIR then .notFound else .none)) ∨
       (∃ st, t = [ev (.ok st)] ∧
          o = .ok (⟨typeOf st.mode, BitVec.ofNat 32 (st.mode.toNat % 4096)⟩, .ref none)))
    (Exec (status p (.ref c)) t o → ok (fun r => ⟨.stat p.pathname, r⟩)) ∧
    (Exec (symlinkStatus p (.ref c)) t o → ok (fun r => ⟨.lstat p.pathname, r⟩)) := by
  have hm : ∀ m : Mode, m &&& Perms.mask = BitVec.ofNat 32 (m.toNat % 4096) := by
    intro m
    apply BitVec.eq_of_toNat_eq
    rw [BitVec.toNat_and]
    have : Perms.mask.toNat = 2 ^ 12 - 1 := by decide
    rw [this, Nat.and_two_pow_sub_one_eq_mod, BitVec.toNat_ofNat]
    have : m.toNat % 2 ^ 12 < 2 ^ 12 := Nat.mod_lt _ (by decide)
    omega
  constructor
  · intro h
    rw [status_ref] at h
    simp only [exec_stat, exec_ret] at h
    rcases h with ⟨e, t', rfl, rfl, rfl⟩ | ⟨st, t', rfl, rfl, rfl⟩
    · exact .inl ⟨e, rfl, _, rfl, rfl⟩
    · refine .inr ⟨st, rfl, ?_⟩
      rw [statusOf, typeOfMode_eq, hm]
  · intro h
    rw [symlinkStatus_ref] at h
    simp only [exec_lstat, exec_ret] at h
    rcases h with ⟨e, t', rfl, rfl, rfl⟩ | ⟨st, t', rfl, rfl, rfl⟩
    · exact .inl ⟨e, rfl, _, rfl, rfl⟩
    · refine .inr ⟨st, rfl, ?_⟩
      rw [statusOf, typeOfMode_eq, hm]

/-- C38, the predicates on a status: `exists` is true iff the type is known and not `not_found`;
an existing file satisfies exactly one of the seven type predicates, or its type is
unknown, or (only on Windows) `reparse_file`; a file that does not exist satisfies none; `is_other` is true for existing files that are
neither regular files nor directories nor symbolic links. -/
theorem c38_predicates (s : FStatus) :
    (s.exists' = true ↔ s.type ≠ .none ∧ s.type ≠ .notFound) ∧
    (s.exists' = true → ([s.isRegular, s.isDirectory, s.isSymlink, s.isBlock, s.isCharacter, s.isFifo, s.isSocket,
      decide (s.type = .unknown), decide (s.type = .reparse)].countP id) = 1) ∧
    (s.exists' = false → ([s.isRegular, s.isDirectory, s.isSymlink, s.isBlock, s.isCharacter, s.isFifo, s.isSocket,
      s.isOther].countP id) = 0) ∧
    (s.isOther = true ↔ s.type ≠ .none ∧ s.type ≠ .notFound ∧ s.type ≠ .regular ∧ s.type ≠ .directory ∧
      s.type ≠ .symlink) := by
  obtain ⟨ty, pm⟩ := s
  cases ty <;> refine ⟨?_, ?_, ?_, ?_⟩ <;>
    simp [FStatus.exists', FStatus.known, FStatus.isRegular, FStatus.isDirectory, FStatus.isSymlink, FStatus.isBlock,
      FStatus.isCharacter, FStatus.isFifo, FStatus.isSocket, FStatus.isOther]

/-- C38, the predicates on a path: `exists(p, ec)` and `is_xxx(p, ec)` apply the predicate to
the status; `exists` clears `ec` when the file is merely missing. -/
theorem c38_path_predicates (p : Path) (c : Code) (t : List Event) :
    (∀ (f : FStatus → Bool) (b : Bool) (c' : Code), Exec (isTypeP f p (.ref c)) t (.ok (b, .ref c')) ↔
      ∃ s, b = f s ∧ Exec (status p (.ref c)) t (.ok (s, .ref c'))) ∧
    (∀ (b : Bool) (c' : Code), Exec (isSymlinkP p (.ref c)) t (.ok (b, .ref c')) ↔
      ∃ s, b = s.isSymlink ∧ Exec (symlinkStatus p (.ref c)) t (.ok (s, .ref c'))) ∧
    (∀ (b : Bool) (c' : Code), Exec (existsP p (.ref c)) t (.ok (b, .ref c')) ↔
      ∃ s c'', b = s.exists' ∧ Exec (status p (.ref c)) t (.ok (s, .ref c'')) ∧
        c' = if s.type = .none then c'' else none) := by
  have hk : ∀ s : FStatus, ∀ c'', (if s.known = true then EcArg.clear (.ref c'') else .ref c'') =
      .ref (if s.type = .none then c'' else none) := by
    intro s c''
    by_cases h : s.type = .none <;> simp [FStatus.known, h]
  refine ⟨fun f b c' => ?_, fun b c' => ?_, fun b c' => ?_⟩
  · simp only [isTypeP, Prog.bind_eq]
    rw [exec_map]
    constructor
    · rintro ⟨⟨s, ec⟩, h, hv⟩; cases hv; exact ⟨s, rfl, h⟩
    · rintro ⟨s, rfl, h⟩; exact ⟨_, h, rfl⟩
  · simp only [isSymlinkP, Prog.bind_eq]
    rw [exec_map]
    constructor
    · rintro ⟨⟨s, ec⟩, h, hv⟩; cases hv; exact ⟨s, rfl, h⟩
    · rintro ⟨s, rfl, h⟩; exact ⟨_, h, rfl⟩
  · simp only [existsP, Prog.bind_eq]
    rw [exec_map]
    constructor
    · rintro ⟨⟨s, ec⟩, h, hv⟩
      rcases ec with _ | c''
      · have := (c38_status p c t _).1 h
        rcases this with ⟨e, _, v, h1, _⟩ | ⟨st, _, h1⟩ <;> cases h1
      · simp only [hk, Prod.mk.injEq, EcArg.ref.injEq] at hv
        exact ⟨s, c'', hv.1, h, hv.2⟩
    · rintro ⟨s, c'', rfl, h, rfl⟩
      exact ⟨_, h, by simp only [hk]⟩

example : typeOf 0o100644 = .regular ∧ typeOf 0o120777 = .symlink ∧ typeOf 0o041777 = .directory := by decide

end Asap
