import Verif.Props.RemoveA
import Verif.Props.CopyC

/-!
# `remove_all` whatever the operating system answers: C31

Nothing is assumed of the operating system here: other processes may change the tree at any time.
-/

namespace Asap
namespace Spec

/-- The error answered by a call, for the calls whose errors matter (the result of `closedir` does not). -/
def errorOf : Event → Option Errno
  | ⟨.lstat _, .error e⟩ => some e
  | ⟨.opendir _, .error e⟩ => some e
  | ⟨.readdir _, .error e⟩ => some e
  | ⟨.remove _, .error e⟩ => some e
  | _ => none

/-- The call removed a file. -/
def removes1 : Event → Bool
  | ⟨.remove _, .ok _⟩ => true
  | _ => false

/-- The number of files removed. -/
def removed (t : List Event) : Nat := t.countP removes1

/-- The event of removing the file at `p`. -/
def rmEv (p : Str) (r : Except Errno Unit) : Event := ⟨.remove p, r⟩

/-- `x` is `p` followed by names other than `.` and `..`. -/
def Under (p x : Str) : Prop :=
  ∃ ws : List Str, (∀ w ∈ ws, IsName w ∧ w ≠ ['.'] ∧ w ≠ ['.', '.']) ∧ x = ws.foldl addElem p

/-- The calls concern only paths under `p`, and a directory is opened only when it was just seen to be a directory (not a
symbolic link). -/
inductive Within (p : Str) : List Event → Prop
  | nil : Within p []
  | look (x : Str) (r : Except Errno Stat) (h : Under p x) {t : List Event} : Within p t → Within p (⟨.lstat x, r⟩ :: t)
  | enter (x : Str) (st : Stat) (r : Except Errno Nat) (h : Under p x) (hd : typeOf st.mode = .directory) {t : List Event} :
    Within p t → Within p (⟨.lstat x, (.ok st : Except Errno Stat)⟩ :: ⟨.opendir x, r⟩ :: t)
  | read (d : Nat) (r : Except Errno (Option Dirent)) {t : List Event} : Within p t → Within p (⟨.readdir d, r⟩ :: t)
  | close (d : Nat) (r : Except Errno Unit) {t : List Event} : Within p t → Within p (⟨.closedir d, r⟩ :: t)
  | remove (x : Str) (r : Except Errno Unit) (h : Under p x) {t : List Event} : Within p t → Within p (⟨.remove x, r⟩ :: t)

end Spec
open Spec

/-- No call answered that a file is missing. -/
def Spec.NoneMissing (t : List Event) : Prop := ∀ ev ∈ t, errorOf ev ≠ some .ENOENT

theorem Spec.NoneMissing.append {t1 t2 : List Event} (h : NoneMissing (t1 ++ t2)) : NoneMissing t1 ∧ NoneMissing t2 :=
  ⟨fun ev h' => h ev (List.mem_append_left _ h'), fun ev h' => h ev (List.mem_append_right _ h')⟩

/-- What a code says of a trace. -/
def Told (t : List Event) (good : Prop) : Code → Prop
  | none => NoneMissing t → good
  | some e => ∃ ev ∈ t, errorOf ev = some e

theorem Told.right {t1 t2 : List Event} {g1 g2 : Prop} {m : Code} (h : Told t2 g2 m) (hg : NoneMissing t1 → g2 → g1) :
    Told (t1 ++ t2) g1 m := by
  cases m with
  | none => exact fun h' => hg h'.append.1 (h h'.append.2)
  | some e => obtain ⟨ev, h1, h2⟩ := h; exact ⟨ev, by simp [h1], h2⟩

theorem Told.left {t1 t2 : List Event} {g1 g2 : Prop} {e : Errno} (h : Told t1 g1 (some e)) : Told (t1 ++ t2) g2 (some e) := by
  obtain ⟨ev, h1, h2⟩ := h; exact ⟨ev, by simp [h1], h2⟩

def Fine (t : List Event) : Prop := ∀ ev ∈ t, errorOf ev = none

theorem Fine.append {t1 t2 : List Event} (h1 : Fine t1) (h2 : Fine t2) : Fine (t1 ++ t2) := by
  intro ev h
  rcases List.mem_append.mp h with h | h
  · exact h1 ev h
  · exact h2 ev h

theorem removed_append (t1 t2 : List Event) : removed (t1 ++ t2) = removed t1 + removed t2 := List.countP_append

theorem fine_rdAll (d : Nat) (l : List Dirent) : Fine (rdAll d l) := by
  intro ev h
  obtain ⟨e, _, rfl⟩ := List.mem_map.mp h
  rfl

theorem removed_rdAll (d : Nat) (l : List Dirent) : removed (rdAll d l) = 0 := by
  rw [removed, List.countP_eq_zero]
  intro ev h
  obtain ⟨e, _, rfl⟩ := List.mem_map.mp h
  simp [removes1, rdEv]

/-- The events of an increment: the code is that of `readdir`, and nothing is removed. -/
theorem told_read {d : Nat} {dots : List Dirent} {a : Except Errno (Option Dirent)} {c : Code} (r : Except Errno Unit) (h : ends a = some c) :
    Told (rdAll d dots ++ [rdEv d a, clEv d r]) (Fine (rdAll d dots ++ [rdEv d a, clEv d r])) c ∧
    removed (rdAll d dots ++ [rdEv d a, clEv d r]) = 0 := by
  constructor
  · rcases a with e | _ | ent
    · cases h; exact ⟨rdEv d (.error e), by simp, rfl⟩
    · cases h; exact fun _ => ((fine_rdAll _ _).append (by intro ev h; simp at h; rcases h with rfl | rfl <;> rfl))
    · simp only [ends] at h
      split at h
      · cases h; exact fun _ => ((fine_rdAll _ _).append (by intro ev h; simp at h; rcases h with rfl | rfl <;> rfl))
      · cases h
  · rw [removed_append, removed_rdAll]
    rcases a with e | a <;> rfl

/-- What an execution of the recursive function tells. -/
def Tells (q : Path) (t : List Event) (o : Except Stop (BitVec 64 × Code)) : Prop :=
  match o with
  | .ok (cnt, m) => Told t (Fine t ∧ (∃ t', t = t' ++ [rmEv q.pathname (.ok ())]) ∧ cnt = BitVec.ofNat 64 (removed t)) m
  | .error x => x = .fuel

theorem Stream.Live.shape_at {s : Stream} {d : Nat} (h : s.Live d) (ent : Dirent) : Shape (s.at ent (entryPath s.root ent.name)).entry.path := by
  show Shape (entryPath s.root ent.name)
  unfold entryPath
  split <;> exact mkPath_shape _

theorem entryPath_ne {root : Path} {w : Str} (hw : w ≠ []) : (entryPath root w).pathname ≠ [] := by
  unfold entryPath
  split <;> rw [mkPath_pathname]
  · unfold stored; split
    · simp
    · exact hw
  · unfold stored; split
    · simp
    · unfold appendText; simp [hw]

theorem tells_removeLoop {f : Path → Prog (BitVec 64 × Code)} (hf : ∀ q t o, Shape q → q.pathname ≠ [] → Exec (f q) t o → Tells q t o) {n : Nat} {it : DirIter}
    {cnt : BitVec 64} {t : List Event} {o : Except Stop (BitVec 64 × Code)} (hit : ∀ s, it = some s → Shape s.entry.path ∧ s.entry.path.pathname ≠ [] ∧ ∃ d, s.Live d)
    (h : Exec (removeLoop f n it cnt) t o) :
    match o with
    | .ok (cnt', m) => Told t (Fine t ∧ cnt' = cnt + BitVec.ofNat 64 (removed t)) m
    | .error x => x = .fuel := by
  induction n generalizing it cnt t o with
  | zero => obtain ⟨rfl, rfl⟩ := exec_stop.mp h; rfl
  | succ n ih =>
    cases it with
    | none =>
      obtain ⟨rfl, rfl⟩ := exec_ret.mp h
      exact fun _ => ⟨by simp [Fine], by simp [removed]⟩
    | some s =>
      obtain ⟨hsh, hp, d, hl⟩ := hit s rfl
      simp only [removeLoop, Prog.bind_eq] at h
      rcases exec_bind.mp h with ⟨x, h1, rfl⟩ | ⟨⟨other, m⟩, t1, t2, rfl, h1, h2⟩
      · exact hf _ _ _ hsh hp h1
      · have ht := hf _ _ _ hsh hp h1
        dsimp only at h2
        split at h2 <;> rename_i hm
        · rcases exec_bind.mp h2 with ⟨x, h3, rfl⟩ | ⟨_, t3, t4, rfl, h3, h4⟩
          · obtain ⟨r, -, hx⟩ := (exec_destroy hl).mp h3
            cases hx
          · obtain ⟨rfl, rfl⟩ := exec_ret.mp h4
            obtain ⟨e, rfl⟩ := Option.ne_none_iff_exists'.mp hm
            obtain ⟨ev, k1, k2⟩ := ht
            exact ⟨ev, List.mem_append_left _ k1, k2⟩
        · have hm' : m = none := by simpa using hm
          subst hm'
          rcases exec_bind.mp h2 with ⟨x, h3, rfl⟩ | ⟨⟨it', ec⟩, t3, t4, rfl, h3, h4⟩
          · obtain ⟨dots, hd, ⟨_, _, hx⟩ | ⟨_, ⟨a, c, r, _, _, hx⟩ | ⟨ent, _, _, _, hx⟩⟩⟩ := (exec_dirIterIncr hl).mp h3
            · cases hx; rfl
            · cases hx
            · cases hx
          · obtain ⟨dots, hd, ⟨_, _, hx⟩ | ⟨_, ⟨a, c, r, hc, rfl, hx⟩ | ⟨ent, hdot, hne, rfl, hx⟩⟩⟩ := (exec_dirIterIncr hl).mp h3
            · cases hx
            · cases hx
              obtain ⟨g1, g2⟩ := told_read (d := d) (dots := dots) r hc
              cases c with
              | some e =>
                obtain ⟨rfl, rfl⟩ := exec_ret.mp h4
                simp only [List.append_nil]
                obtain ⟨ev, g3, g4⟩ := g1
                exact ⟨ev, List.mem_append_right _ g3, g4⟩
              | none =>
                have := ih (by simp) h4
                revert this
                cases o with
                | error x => exact id
                | ok v =>
                  obtain ⟨cnt', m'⟩ := v
                  intro this
                  refine Told.right (Told.right this (g1 := Fine _ ∧ cnt' = cnt + other + BitVec.ofNat 64 (removed (rdAll d dots ++ [rdEv d a, clEv d r] ++ t4))) fun k g => ⟨(g1 k).append g.1, ?_⟩)
                    fun k g => ⟨(ht k).1.append g.1, ?_⟩
                  · rw [removed_append, g2, Nat.zero_add]; exact g.2
                  · rw [g.2, removed_append t1, (ht k).2.2, BitVec.add_assoc, BitVec.ofNat_add]
            · cases hx
              have hfin : Fine (rdAll d dots ++ [rdEv d (.ok (some ent))]) :=
                (fine_rdAll _ _).append (by intro ev h; simp at h; subst h; rfl)
              have hz : removed (rdAll d dots ++ [rdEv d (.ok (some ent))]) = 0 := by
                rw [removed_append, removed_rdAll]; rfl
              have := ih (it := some _) (by rintro _ ⟨⟩; exact ⟨hl.shape_at ent, entryPath_ne hne, d, hl.at _ _⟩) h4
              revert this
              cases o with
              | error x => exact id
              | ok v =>
                obtain ⟨cnt', m'⟩ := v
                intro this
                refine Told.right (Told.right this (g1 := Fine _ ∧ cnt' = cnt + other + BitVec.ofNat 64 (removed (rdAll d dots ++ [rdEv d (.ok (some ent))] ++ t4))) fun k g => ⟨hfin.append g.1, ?_⟩)
                  fun k g => ⟨(ht k).1.append g.1, ?_⟩
                · rw [removed_append, hz, Nat.zero_add]; exact g.2
                · rw [g.2, removed_append t1, (ht k).2.2, BitVec.add_assoc, BitVec.ofNat_add]

theorem tells_doRemoveAll : ∀ (n : Nat) (q : Path) (t : List Event) (o : Except Stop (BitVec 64 × Code)), Shape q → q.pathname ≠ [] →
    Exec (doRemoveAll n q) t o → Tells q t o := by
  intro n
  induction n with
  | zero => intro q t o _ _ h; obtain ⟨rfl, rfl⟩ := exec_stop.mp h; rfl
  | succ n ih =>
    intro q t o hq hne h
    simp only [doRemoveAll, Prog.bind_eq, symlinkStatus_ref, Prog.call_bind] at h
    rcases exec_lstat.mp h with ⟨e, t', rfl, h1⟩ | ⟨st, t', rfl, h1⟩
    · simp only [Prog.ret_bind, isSet_some, if_true] at h1
      obtain ⟨rfl, rfl⟩ := exec_ret.mp h1
      exact ⟨_, List.mem_singleton.mpr rfl, rfl⟩
    · simp only [Prog.ret_bind, isSet_none, Bool.false_eq_true, if_false] at h1
      have hrem : ∀ {cnt : BitVec 64} {t1 t2 : List Event} {o : Except Stop (BitVec 64 × Code)},
          (NoneMissing t1 → Fine t1 ∧ cnt = 1 + BitVec.ofNat 64 (removed t1)) →
          Exec ((remove q (.ref none)).bind fun x => if (!x.1) = true then .ret (umaxErr, x.2.code) else .ret (cnt, x.2.code)) t2 o →
          Tells q ((⟨.lstat q.pathname, (.ok st : Except Errno Stat)⟩ : Event) :: (t1 ++ t2)) o := by
        intro cnt t1 t2 o hg hx
        have : q.isEmpty = false := by simp [Path.isEmpty, hne]
        simp only [remove, this, Bool.false_eq_true, if_false, Prog.bind_eq, Prog.call_bind, clear_ref] at hx
        rcases exec_remove.mp hx with ⟨e, t', rfl, h2⟩ | ⟨_, t', rfl, h2⟩
        · dsimp only at h2
          split at h2 <;> rename_i he
          · obtain ⟨rfl, rfl⟩ := exec_ret.mp h2
            intro hn
            exact absurd (he ▸ rfl) (hn (rmEv q.pathname (.error e)) (by simp [rmEv]))
          · obtain ⟨rfl, rfl⟩ := exec_ret.mp h2
            exact ⟨rmEv q.pathname (.error e), by simp [rmEv], rfl⟩
        · obtain ⟨rfl, rfl⟩ := exec_ret.mp h2
          intro hn
          have hn1 : NoneMissing t1 := fun ev h => hn ev (by simp [h])
          refine ⟨?_, ⟨_ :: t1, rfl⟩, ?_⟩
          · intro ev hev
            simp only [List.mem_cons, List.mem_append, List.not_mem_nil, or_false] at hev
            rcases hev with rfl | h | rfl
            · rfl
            · exact (hg hn1).1 ev h
            · rfl
          · rw [(hg hn1).2]
            have : removed ((⟨.lstat q.pathname, (.ok st : Except Errno Stat)⟩ : Event) :: (t1 ++ [(⟨.remove q.pathname, (.ok () : Except Errno Unit)⟩ : Event)])) = 1 + removed t1 := by
              rw [← List.cons_append, removed_append, Nat.add_comm]; rfl
            rw [this, BitVec.ofNat_add]
            rfl
      have hlist : ∀ {t1 : List Event} {o1 : Except Stop (BitVec 64 × Code)},
          Exec ((DirIter.new n q .none (.ref none)).bind fun x => match x.2.code with
            | some e => .ret (umaxErr, some e)
            | none => removeLoop (doRemoveAll n) n x.1 1) t1 o1 →
          match o1 with
          | .ok (cnt, m) => Told t1 (Fine t1 ∧ cnt = 1 + BitVec.ofNat 64 (removed t1)) m
          | .error x => x = .fuel := by
        intro t1 o1 hx
        rcases exec_bind.mp hx with ⟨x, h2, rfl⟩ | ⟨⟨it, ec⟩, u1, u2, rfl, h2, h3⟩
        · rcases (exec_dirIterNew hq).mp h2 with ⟨e, _, hy⟩ | ⟨d, dots, hd, ⟨_, _, hy⟩ | ⟨_, ⟨a, c, r, _, _, hy⟩ | ⟨ent, _, _, _, hy⟩⟩⟩
          · cases hy
          · cases hy; rfl
          · cases hy
          · cases hy
        · rcases (exec_dirIterNew hq).mp h2 with ⟨e, rfl, hy⟩ | ⟨d, dots, hd, ⟨_, _, hy⟩ | ⟨_, ⟨a, c, r, hc, rfl, hy⟩ | ⟨ent, hdot, hne', rfl, hy⟩⟩⟩
          · rw [if_neg (by rintro ⟨h, -⟩; exact absurd h (by decide))] at hy
            cases hy
            obtain ⟨rfl, rfl⟩ := exec_ret.mp h3
            exact ⟨opEv q.pathname (.error e), by simp, rfl⟩
          · cases hy
          · cases hy
            obtain ⟨g1, g2⟩ := told_read (d := d) (dots := dots) r hc
            cases c with
            | some e =>
              obtain ⟨rfl, rfl⟩ := exec_ret.mp h3
              obtain ⟨ev, g3, g4⟩ := g1
              exact ⟨ev, by simp only [List.append_nil]; exact List.mem_cons_of_mem _ g3, g4⟩
            | none =>
              have := tells_removeLoop ih (by simp) h3
              revert this
              cases o1 with
              | error x => exact id
              | ok v =>
                obtain ⟨cnt', m'⟩ := v
                intro this
                refine Told.right this fun k g => ⟨Fine.append ?_ g.1, ?_⟩
                · intro ev hev
                  rcases List.mem_cons.mp hev with rfl | hev
                  · rfl
                  · exact g1 (fun ev h => k ev (List.mem_cons_of_mem _ h)) ev hev
                · rw [removed_append, show removed (opEv q.pathname (.ok d) :: (rdAll d dots ++ [rdEv d a, clEv d r])) = 0 from g2, Nat.zero_add]
                  exact g.2
          · cases hy
            have hfin : Fine (opEv q.pathname (.ok d) :: (rdAll d dots ++ [rdEv d (.ok (some ent))])) := by
              intro ev hev
              rcases List.mem_cons.mp hev with rfl | hev
              · rfl
              · exact (fine_rdAll d dots).append (t2 := [rdEv d (.ok (some ent))]) (by intro ev h; simp at h; subst h; rfl) ev hev
            have hz : removed (opEv q.pathname (.ok d) :: (rdAll d dots ++ [rdEv d (.ok (some ent))])) = 0 := by
              show removed (rdAll d dots ++ [rdEv d (.ok (some ent))]) = 0
              rw [removed_append, removed_rdAll]; rfl
            have hl : Stream.Live ⟨some d, q, .default⟩ d := ⟨rfl, hq⟩
            have := tells_removeLoop ih (it := some _) (by rintro _ ⟨⟩; exact ⟨hl.shape_at ent, entryPath_ne hne', d, hl.at _ _⟩) h3
            revert this
            cases o1 with
            | error x => exact id
            | ok v =>
              obtain ⟨cnt', m'⟩ := v
              intro this
              refine Told.right this fun k g => ⟨hfin.append g.1, ?_⟩
              rw [removed_append, hz, Nat.zero_add]
              exact g.2
      split at h1
      · rcases exec_bind.mp h1 with ⟨x, h2, rfl⟩ | ⟨⟨cnt, m⟩, t1, t2, rfl, h2, h3⟩
        · exact hlist h2
        · have hl := hlist h2
          cases m with
          | some e =>
            obtain ⟨rfl, rfl⟩ := exec_ret.mp h3
            obtain ⟨ev, k1, k2⟩ := hl
            exact ⟨ev, List.mem_cons_of_mem _ (List.mem_append_left _ k1), k2⟩
          | none => exact hrem hl h3
      · exact hrem (t1 := []) (fun _ => ⟨by simp [Fine], by simp [removed]⟩) h1

/-- C31, in part: `remove_all` with an error code, whatever the operating system answers. If no error is reported and no call answered
that a file is missing, then every call succeeded, the last one removed `p`, and the result is the number of files removed
(modulo 2^64). A reported error is one that some call answered. The part about missing files is false: `c31_violated`. -/
theorem c31_partial {n : Nat} {q : Path} (hq : Shape q) (hne : q.pathname ≠ []) {c : Code} {t : List Event} {cnt : BitVec 64} {m : EcArg}
    (hx : Exec (removeAll n q (.ref c)) t (.ok (cnt, m))) :
    (m = .ref none → NoneMissing t →
      (∀ ev ∈ t, errorOf ev = none) ∧ (∃ t', t = t' ++ [rmEv q.pathname (.ok ())]) ∧ cnt = BitVec.ofNat 64 (removed t)) ∧
    (∀ e, m = .ref (some e) → cnt = BitVec.allOnes 64 ∧ ∃ ev ∈ t, errorOf ev = some e) := by
  unfold removeAll at hx
  have : q.isEmpty = false := by simp [Path.isEmpty, hne]
  simp only [this, Bool.false_eq_true, if_false, Prog.bind_eq, clear_ref] at hx
  rcases exec_bind.mp hx with ⟨x, _, hy⟩ | ⟨⟨cnt', m'⟩, t1, t2, rfl, h1, h2⟩
  · cases hy
  · have ht := tells_doRemoveAll n q _ _ hq hne h1
    cases m' with
    | none =>
      obtain ⟨rfl, hy⟩ := exec_ret.mp h2
      cases hy
      rw [List.append_nil]
      exact ⟨fun _ h => ht h, by simp⟩
    | some e =>
      dsimp only at h2
      split at h2 <;> rename_i he
      · obtain ⟨rfl, hy⟩ := exec_ret.mp h2
        cases hy
        rw [List.append_nil]
        refine ⟨fun _ h => ?_, by simp⟩
        obtain ⟨ev, h3, h4⟩ := ht
        exact absurd (he ▸ h4) (h ev h3)
      · simp only [Handler.report] at h2
        obtain ⟨rfl, hy⟩ := exec_ret.mp h2
        cases hy
        rw [List.append_nil]
        refine ⟨by simp, ?_⟩
        rintro e' ⟨⟩
        exact ⟨rfl, ht⟩

/-- A run of three files, all of them removed. -/
example : ∃ t, Exec (removeAll 9 (mkPath .posix "d".toList) (.ref none)) t (.ok (2#64, .ref none)) ∧ NoneMissing t := by
  refine ⟨[⟨.lstat "d".toList, .ok ⟨1, 2, 0o040755, 1, 7, 0, 0, 0⟩⟩, opEv "d".toList (.ok 3), rdEv 3 (.ok (some ⟨"x".toList, .reg⟩)),
    ⟨.lstat "d/x".toList, .ok ⟨1, 3, 0o100644, 1, 7, 0, 0, 0⟩⟩, rmEv "d/x".toList (.ok ()), rdEv 3 (.ok none), clEv 3 (.ok ()), rmEv "d".toList (.ok ())],
    feed_exec (by rfl), ?_⟩
  intro ev h
  simp at h
  rcases h with rfl | rfl | rfl | rfl | rfl | rfl | rfl | rfl <;> simp [errorOf, opEv, rdEv, clEv, rmEv]

/-- C31 is false. A file in the directory vanishes before it is examined: 0 is returned without error, although `d` was never removed.
A file vanishes before it is removed: 0 is returned without error although `d` was removed.
The file itself vanishes before it is removed: 2^64-1 is returned without error. -/
theorem c31_violated :
    (∃ t, Exec (removeAll 9 (mkPath .posix "d".toList) (.ref none)) t (.ok (0#64, .ref none)) ∧ (∀ r, rmEv "d".toList r ∉ t) ∧
      (⟨.lstat "d".toList, (.ok ⟨1, 2, 0o040755, 1, 7, 0, 0, 0⟩ : Except Errno Stat)⟩ : Event) ∈ t) ∧
    (∃ t, Exec (removeAll 9 (mkPath .posix "d".toList) (.ref none)) t (.ok (0#64, .ref none)) ∧ removed t = 1) ∧
    (∃ t, Exec (removeAll 9 (mkPath .posix "d".toList) (.ref none)) t (.ok (BitVec.allOnes 64, .ref none)) ∧ removed t = 0) := by
  refine ⟨⟨[⟨.lstat "d".toList, .ok ⟨1, 2, 0o040755, 1, 7, 0, 0, 0⟩⟩, opEv "d".toList (.ok 3), rdEv 3 (.ok (some ⟨"x".toList, .reg⟩)),
      ⟨.lstat "d/x".toList, .error .ENOENT⟩, clEv 3 (.ok ())], feed_exec (by rfl), ?_, by simp⟩,
    ⟨[⟨.lstat "d".toList, .ok ⟨1, 2, 0o040755, 1, 7, 0, 0, 0⟩⟩, opEv "d".toList (.ok 3), rdEv 3 (.ok (some ⟨"x".toList, .reg⟩)),
      ⟨.lstat "d/x".toList, .ok ⟨1, 3, 0o100644, 1, 7, 0, 0, 0⟩⟩, rmEv "d/x".toList (.error .ENOENT), rdEv 3 (.ok none), clEv 3 (.ok ()),
      rmEv "d".toList (.ok ())], feed_exec (by rfl), rfl⟩,
    ⟨[⟨.lstat "d".toList, .ok ⟨1, 2, 0o100755, 1, 7, 0, 0, 0⟩⟩, rmEv "d".toList (.error .ENOENT)], feed_exec (by rfl), rfl⟩⟩
  intro r h
  simp [rmEv, opEv, rdEv, clEv] at h

/-! ## Where `remove_all` acts -/

theorem Spec.Within.append {p : Str} {t1 t2 : List Event} (h1 : Within p t1) (h2 : Within p t2) : Within p (t1 ++ t2) := by
  induction h1 with
  | nil => exact h2
  | look x r h _ ih => exact .look x r h ih
  | enter x st r h hd _ ih => exact .enter x st r h hd ih
  | read d r _ ih => exact .read d r ih
  | close d r _ ih => exact .close d r ih
  | remove x r h _ ih => exact .remove x r h ih

theorem within_rdAll (p : Str) (d : Nat) (l : List Dirent) : Within p (rdAll d l) := by
  induction l with
  | nil => exact .nil
  | cons e l ih => exact .read d _ ih

/-- The entry at the iterator is under `p`. -/
def AtUnder (p : Str) (it : DirIter) : Prop := ∀ s, it = some s →
  ∃ d, s.Live d ∧ Under p s.root.pathname ∧ Shape s.entry.path ∧ Under p s.entry.path.pathname

theorem under_entry {p : Str} {root : Path} (hr : Shape root) (h : Under p root.pathname) {w : Str} (hw : IsName w)
    (hd : ¬ (w = ['.'] ∨ w = ['.', '.'])) : Under p (entryPath root w).pathname := by
  obtain ⟨ws, h1, h2⟩ := h
  refine ⟨ws ++ [w], ?_, ?_⟩
  · intro v hv
    rcases List.mem_append.mp hv with h | h
    · exact h1 v h
    · exact (List.mem_singleton.mp h) ▸ ⟨hw, fun h => hd (.inl h), fun h => hd (.inr h)⟩
  · rw [entryPath_eq hw, mkPath_pathname, stored_appendText _ _ (startsSlash_name hw.2) hr.stored, h2, foldl_snoc ws hw]

theorem within_removeLoop {p : Str} {f : Path → Prog (BitVec 64 × Code)}
    (hf : ∀ q t o, Shape q → Under p q.pathname → Exec (f q) t o → RealNames t → Within p t) {n : Nat} {it : DirIter}
    {cnt : BitVec 64} {t : List Event} {o : Except Stop (BitVec 64 × Code)} (hit : AtUnder p it)
    (hx : Exec (removeLoop f n it cnt) t o) (hn : RealNames t) : Within p t := by
  induction n generalizing it cnt t o with
  | zero => obtain ⟨rfl, rfl⟩ := exec_stop.mp hx; exact .nil
  | succ n ih =>
    cases it with
    | none => obtain ⟨rfl, rfl⟩ := exec_ret.mp hx; exact .nil
    | some s =>
      obtain ⟨d, hl, hu, hsh, hp⟩ := hit s rfl
      simp only [removeLoop, Prog.bind_eq] at hx
      rcases exec_bind.mp hx with ⟨x, h1, rfl⟩ | ⟨⟨other, m⟩, t1, t2, rfl, h1, h2⟩
      · exact hf _ _ _ hsh hp h1 hn
      · refine (hf _ _ _ hsh hp h1 hn.append.1).append ?_
        have hn2 := hn.append.2
        dsimp only at h2
        split at h2 <;> rename_i hm
        · rcases exec_bind.mp h2 with ⟨x, h3, rfl⟩ | ⟨_, t3, t4, rfl, h3, h4⟩
          · obtain ⟨r, rfl, hx⟩ := (exec_destroy hl).mp h3
            exact .close d r .nil
          · obtain ⟨rfl, rfl⟩ := exec_ret.mp h4
            obtain ⟨r, rfl, hx⟩ := (exec_destroy hl).mp h3
            exact .close d r .nil
        · have hm' : m = none := by simpa using hm
          subst hm'
          rcases exec_bind.mp h2 with ⟨x, h3, rfl⟩ | ⟨⟨it', ec⟩, t3, t4, rfl, h3, h4⟩
          · obtain ⟨dots, hd, ⟨_, rfl, hy⟩ | ⟨_, ⟨a, c, r, _, rfl, hy⟩ | ⟨ent, _, _, rfl, hy⟩⟩⟩ := (exec_dirIterIncr hl).mp h3
            · exact within_rdAll _ _ _
            · exact (within_rdAll _ _ _).append (.read d a (.close d r .nil))
            · exact (within_rdAll _ _ _).append (.read d _ .nil)
          · obtain ⟨dots, hd, ⟨_, rfl, hy⟩ | ⟨_, ⟨a, c, r, hc, rfl, hy⟩ | ⟨ent, hdot, hne, rfl, hy⟩⟩⟩ := (exec_dirIterIncr hl).mp h3
            · cases hy
            · cases hy
              refine ((within_rdAll _ _ _).append (.read d a (.close d r .nil))).append ?_
              cases c with
              | some e => obtain ⟨rfl, rfl⟩ := exec_ret.mp h4; exact .nil
              | none => exact ih (fun s h => by cases h) h4 hn2.append.2
            · cases hy
              refine ((within_rdAll _ _ _).append (.read d _ .nil)).append (ih ?_ h4 hn2.append.2)
              rintro _ ⟨⟩
              exact ⟨d, hl.at _ _, hu, hl.shape_at ent, under_entry hl.root hu (hn2 d ent (by simp)) hdot⟩

theorem within_doRemoveAll {p : Str} : ∀ (n : Nat) (q : Path) (t : List Event) (o : Except Stop (BitVec 64 × Code)), Shape q → Under p q.pathname →
    Exec (doRemoveAll n q) t o → RealNames t → Within p t := by
  intro n
  induction n with
  | zero => intro q t o _ _ hx _; obtain ⟨rfl, rfl⟩ := exec_stop.mp hx; exact .nil
  | succ n ih =>
    intro q t o hq hu hx hn
    simp only [doRemoveAll, Prog.bind_eq, symlinkStatus_ref, Prog.call_bind] at hx
    rcases exec_lstat.mp hx with ⟨e, t', rfl, h1⟩ | ⟨st, t', rfl, h1⟩
    · simp only [Prog.ret_bind, isSet_some, if_true] at h1
      obtain ⟨rfl, rfl⟩ := exec_ret.mp h1
      exact .look _ _ hu .nil
    · simp only [Prog.ret_bind, isSet_none, Bool.false_eq_true, if_false] at h1
      replace hn : RealNames t' := fun d e h => hn d e (List.mem_cons_of_mem _ h)
      have hrem : ∀ {cnt : BitVec 64} {t2 : List Event} {o : Except Stop (BitVec 64 × Code)},
          Exec ((remove q (.ref none)).bind fun x => if (!x.1) = true then .ret (umaxErr, x.2.code) else .ret (cnt, x.2.code)) t2 o → Within p t2 := by
        intro cnt t2 o hx
        unfold remove at hx
        dsimp only at hx
        split at hx
        · obtain ⟨rfl, rfl⟩ := exec_ret.mp hx
          exact .nil
        · simp only [Prog.bind_eq, Prog.call_bind, clear_ref] at hx
          rcases exec_remove.mp hx with ⟨e, t', rfl, h2⟩ | ⟨_, t', rfl, h2⟩
          · dsimp only at h2
            split at h2
            · obtain ⟨rfl, rfl⟩ := exec_ret.mp h2
              exact .remove _ _ hu .nil
            · obtain ⟨rfl, rfl⟩ := exec_ret.mp h2
              exact .remove _ _ hu .nil
          · obtain ⟨rfl, rfl⟩ := exec_ret.mp h2
            exact .remove _ _ hu .nil
      split at h1 <;> rename_i hdir
      · have hd : typeOf st.mode = .directory := by
          simpa [FStatus.isDirectory, statusOf_type] using hdir
        have hlist : ∀ {t1 : List Event} {o1 : Except Stop (BitVec 64 × Code)},
            Exec ((DirIter.new n q .none (.ref none)).bind fun x => match x.2.code with
              | some e => .ret (umaxErr, some e)
              | none => removeLoop (doRemoveAll n) n x.1 1) t1 o1 → RealNames t1 → ∃ r t2, t1 = opEv q.pathname r :: t2 ∧ Within p t2 := by
          intro t1 o1 hx hn
          rcases exec_bind.mp hx with ⟨x, h2, rfl⟩ | ⟨⟨it, ec⟩, u1, u2, rfl, h2, h3⟩
          · rcases (exec_dirIterNew hq).mp h2 with ⟨e, rfl, hy⟩ | ⟨d, dots, hd, ⟨_, rfl, hy⟩ | ⟨_, ⟨a, c, r, _, rfl, hy⟩ | ⟨ent, _, _, rfl, hy⟩⟩⟩
            · exact ⟨_, _, rfl, .nil⟩
            · exact ⟨_, _, rfl, within_rdAll _ _ _⟩
            · exact ⟨_, _, rfl, (within_rdAll _ _ _).append (.read d a (.close d r .nil))⟩
            · exact ⟨_, _, rfl, (within_rdAll _ _ _).append (.read d _ .nil)⟩
          · rcases (exec_dirIterNew hq).mp h2 with ⟨e, rfl, hy⟩ | ⟨d, dots, hd, ⟨_, _, hy⟩ | ⟨_, ⟨a, c, r, hc, rfl, hy⟩ | ⟨ent, hdot, hne', rfl, hy⟩⟩⟩
            · rw [if_neg (by rintro ⟨h, -⟩; exact absurd h (by decide))] at hy
              cases hy
              obtain ⟨rfl, rfl⟩ := exec_ret.mp h3
              exact ⟨_, _, rfl, .nil⟩
            · cases hy
            · cases hy
              refine ⟨_, _, rfl, ((within_rdAll _ _ _).append (.read d a (.close d r .nil))).append ?_⟩
              cases c with
              | some e => obtain ⟨rfl, rfl⟩ := exec_ret.mp h3; exact .nil
              | none => exact within_removeLoop ih (fun s h => by cases h) h3 hn.append.2
            · cases hy
              have hl : Stream.Live ⟨some d, q, .default⟩ d := ⟨rfl, hq⟩
              refine ⟨_, _, rfl, ((within_rdAll _ _ _).append (.read d _ .nil)).append (within_removeLoop ih ?_ h3 hn.append.2)⟩
              rintro _ ⟨⟩
              exact ⟨d, hl.at _ _, hu, hl.shape_at ent, under_entry hq hu (hn d ent (by simp)) hdot⟩
        rcases exec_bind.mp h1 with ⟨x, h2, rfl⟩ | ⟨⟨cnt, m⟩, t1, t2, rfl, h2, h3⟩
        · obtain ⟨r, t2, rfl, hw⟩ := hlist h2 hn
          exact .enter _ _ _ hu hd hw
        · obtain ⟨r, t3, rfl, hw⟩ := hlist h2 hn.append.1
          refine .enter _ _ _ hu hd (hw.append ?_)
          cases m with
          | some e => obtain ⟨rfl, rfl⟩ := exec_ret.mp h3; exact .nil
          | none => exact hrem h3
      · exact .look _ _ hu (hrem h1)

/-- C61. Whatever the operating system answers, also when other processes interfere, `remove_all` examines, opens and removes
only `p` and paths that extend `p` by names the system listed, and opens a directory only when the call before saw that it is a directory and not a link. -/
theorem c61_within {n : Nat} {q : Path} (hq : Shape q) {c : Code} {t : List Event} {o : Except Stop (BitVec 64 × EcArg)}
    (hn : RealNames t) (hx : Exec (removeAll n q (.ref c)) t o) : Within q.pathname t := by
  unfold removeAll at hx
  dsimp only at hx
  split at hx
  · obtain ⟨rfl, -⟩ := exec_ret.mp hx
    exact .nil
  · rcases exec_bind.mp hx with ⟨x, h1, -⟩ | ⟨⟨cnt', m'⟩, t1, t2, rfl, h1, h2⟩
    · exact within_doRemoveAll n q _ _ hq ⟨[], by simp, rfl⟩ h1 hn
    · refine (within_doRemoveAll n q _ _ hq ⟨[], by simp, rfl⟩ h1 hn.append.1).append ?_
      cases m' with
      | none => obtain ⟨rfl, -⟩ := exec_ret.mp h2; exact .nil
      | some e =>
        dsimp only at h2
        split at h2
        · obtain ⟨rfl, -⟩ := exec_ret.mp h2; exact .nil
        · obtain ⟨rfl, -⟩ := exec_ret.mp h2; exact .nil

end Asap
