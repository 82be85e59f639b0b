import Verif.Props.WinI
import Verif.Props.WinD

/-!
# C101: copying links on Windows

A link made on Windows is a link to a directory or to a file. `copy_symlink` decides by looking at the text of the link, from
the working directory.
-/

namespace Asap
open Spec

namespace Win

/-- The second part of `copy_symlink`, with the text read. -/
theorem exec_copyText {D : WinDisk} {x dst : Path} {h : Handler} {t : List Event} {o : Except Stop (Unit × EcArg)} {hs : Handles}
    (he : Exec ((isDirectoryP x (.ref none)).bind fun y =>
      if y.2.isSet then h.report (.ref none) y.2.code ()
      else if y.1 then createDirectorySymlink x dst (.ref none)
      else createSymlink x dst (.ref none)) t o) (hl : Steps (WinLaw D) noHandles t hs) :
    (Quiet t ∧ ∃ e, o = .ok ((), .ref (some e)) ∧ ((∀ e ∈ t, WinWilling e) → D.goal x.pathname = none)) ∨
    ∃ pre dir r, t = pre ++ [⟨.win (.createSymlink dst.pathname x.pathname dir), r⟩] ∧ Quiet pre ∧
      (∃ y, D.goal x.pathname = some y ∧ dir = y.dir) ∧
      ((r = .ok () ∧ o = .ok ((), .ref none)) ∨ ∃ e, r = .error e ∧ o = .ok ((), .ref (some e))) := by
  have fin : ∀ fn dir t2, Exec (createSymlinkAs fn dir x dst (.ref none)) t2 o → ∃ r : Except Errno Unit,
      t2 = [⟨.win (.createSymlink dst.pathname x.pathname dir), r⟩] ∧
      ((r = .ok () ∧ o = .ok ((), .ref none)) ∨ ∃ e, r = .error e ∧ o = .ok ((), .ref (some e))) := by
    intro fn dir t2 h2
    simp only [createSymlinkAs, clear_ref] at h2
    rcases exec_call.mp h2 with ⟨r, t3, rfl, h3⟩
    rcases r with e | ⟨⟩
    · simp only [Handler.report, exec_ret] at h3
      obtain ⟨rfl, rfl⟩ := h3
      exact ⟨_, rfl, .inr ⟨e, rfl, rfl⟩⟩
    · obtain ⟨rfl, rfl⟩ := exec_ret.mp h3
      exact ⟨_, rfl, .inl ⟨rfl, rfl⟩⟩
  rcases exec_bind.mp he with ⟨s, h1, rfl⟩ | ⟨⟨b, ec⟩, t1, t2, rfl, h1, h2⟩
  · have := wp_sound (Q := fun o _ => ∃ b, o = .ok b) (wp_bind (wp_mono (by
      rintro o s ⟨⟨st, ec, rfl, -⟩, -⟩
      exact ⟨_, rfl⟩) (wp_winStatus D _ x none noHandles))) h1 (steps_lawW hl)
    obtain ⟨b, hb⟩ := this
    cases hb
  · obtain ⟨hs1, hl1, hl2⟩ := steps_append.mp hl
    have hq : Quiet t1 := ((only_isDirectoryP x (.ref none)).exec h1).1
    have key := wp_sound (Q := fun o _ => ∃ st ec, o = .ok (FStatus.isDirectory st, ec) ∧
        Says (D.goal x.pathname ≠ none) (fileKind (D.goal x.pathname)) (∀ e ∈ t1, WinWilling e) (.ok (st, ec)))
      (wp_bind (wp_mono (by
        rintro o s ⟨h, -⟩
        obtain ⟨st, ec, rfl, hc⟩ := id h
        exact ⟨_, _, rfl, h⟩) (wp_winStatus D _ x none noHandles))) h1 (steps_lawW hl1)
    obtain ⟨st, ec', heq, st', ec'', heq', hc, hw⟩ := key
    cases heq
    cases heq'
    rcases hc with ⟨rfl, h3, h4⟩ | ⟨e, rfl, hc⟩
    · simp only [isSet_none, Bool.false_eq_true, if_false] at h2
      right
      cases hg : D.goal x.pathname with
      | none => exact absurd hg h3
      | some y =>
        rw [hg, fileKind] at h4
        have hd : st.isDirectory = y.dir := by
          simp only [FStatus.isDirectory, h4]
          cases y.dir <;> rfl
        rw [hd] at h2
        cases hyd : y.dir with
        | true =>
          rw [hyd, if_pos rfl] at h2
          obtain ⟨r, rfl, hr⟩ := fin _ _ _ h2
          exact ⟨t1, true, r, rfl, hq, ⟨y, rfl, hyd.symm⟩, hr⟩
        | false =>
          rw [hyd, if_neg (by simp)] at h2
          obtain ⟨r, rfl, hr⟩ := fin _ _ _ h2
          exact ⟨t1, false, r, rfl, hq, ⟨y, rfl, hyd.symm⟩, hr⟩
    · simp only [isSet_some, if_true, Handler.report, exec_ret] at h2
      obtain ⟨rfl, rfl⟩ := h2
      rw [List.append_nil]
      refine .inl ⟨hq, e, rfl, fun hwill => ?_⟩
      have hk := hw hwill
      rcases hc with ⟨h3, h4⟩ | ⟨h3, -⟩ | ⟨h3, -⟩
      · exact Classical.byContradiction h4
      · rw [h3] at hk
        cases hg : D.goal x.pathname with
        | none => rfl
        | some y => rw [hg, fileKind] at hk; cases hd : y.dir <;> simp [hd] at hk
      · rw [h3] at hk
        cases hg : D.goal x.pathname with
        | none => rfl
        | some y => rw [hg, fileKind] at hk; cases hd : y.dir <;> simp [hd] at hk

end Win

/-- **C101**, partial: `copy_symlink` on Windows changes nothing but by one call at the end, that makes a link with the text read; it is a
link to a directory exactly if the text, **from the working directory**, leads to one. Errors are reported, and if the calls that look at files
fail only where there is nothing, the link is made unless nothing is at `src` or the text leads nowhere. Missing: the text may lead elsewhere from the
working directory than from the link (`c101_violated`); links that lead nowhere (`c101_violated_dangling`); mount points (`c69_violated`);
texts without names. -/
theorem c101_copy_symlink_partial (D : WinDisk) (src dst : Path) (c : Code) {text : List (BitVec 16)} (hn : winNames (winTail (wideText text)) ≠ [])
    (t : List Event) (o : Except Stop (Unit × EcArg)) (hs : Handles)
    (h : Exec (Win.copySymlink src dst (.ref c)) t o) (hl : Steps (WinLaw D) noHandles t hs)
    (hb : ∀ fd ws, (⟨.win (.reparse fd), (.ok ws : Except Errno (List (BitVec 16)))⟩ : Event) ∈ t → LinkBuffer 10 ws text) :
    (Quiet t ∧ ∃ e, o = .ok ((), .ref (some e)) ∧
      ((∀ e ∈ t, WinWilling e) → D.look src.pathname = none ∨ D.goal (wideText text) = none)) ∨
    ∃ pre dir r, t = pre ++ [⟨.win (.createSymlink dst.pathname (wideText text) dir), r⟩] ∧ Quiet pre ∧
      (∃ y, D.goal (wideText text) = some y ∧ dir = y.dir) ∧
      ((r = .ok () ∧ o = .ok ((), .ref none)) ∨ ∃ e, r = .error e ∧ o = .ok ((), .ref (some e))) := by
  simp only [Win.copySymlink, clear_ref] at h
  rcases exec_bind.mp h with ⟨s, h1, rfl⟩ | ⟨⟨x, ec⟩, t1, t2, rfl, h1, h2⟩
  · rcases exec_readSymlink h1 with ⟨e, -, hx⟩ | ⟨fd, ⟨e, rc, -, hx⟩ | ⟨ws, rc, -, r, -, hx⟩ | ⟨ws, x, rfl, hr, -⟩⟩
    · cases hx
    · cases hx
    · cases hx
    · rw [printName_link (hb fd ws (by simp))] at hr
      cases hr
  · obtain ⟨hs1, hl1, hl2⟩ := steps_append.mp hl
    have hq : Quiet t1 := ((Win.only_readSymlink src (.ref none)).exec h1).1
    rcases exec_readSymlink h1 with ⟨e, rfl, hx⟩ | ⟨fd, ⟨e, rc, rfl, hx⟩ | ⟨ws, rc, rfl, r, hr, hx⟩ | ⟨ws, x, -, -, hx⟩⟩
    · cases hx
      simp only [isSet_some, if_true, Handler.report, exec_ret] at h2
      obtain ⟨rfl, rfl⟩ := h2
      refine .inl ⟨by simpa using hq, e, rfl, fun hw => .inl ?_⟩
      obtain ⟨hs', hl3, -⟩ := steps_cons.mp hl1
      exact hl3.2 (hw ⟨.win (.createFile src.pathname Win.openReparse), (.error e : Except Errno Nat)⟩ (by simp))
    · cases hx
      simp only [isSet_some, if_true, Handler.report, exec_ret] at h2
      obtain ⟨rfl, rfl⟩ := h2
      refine .inl ⟨by simpa using hq, e, rfl, fun hw => ?_⟩
      obtain ⟨hs', -, hl3⟩ := steps_cons.mp hl1
      obtain ⟨hs'', hl4, -⟩ := steps_cons.mp hl3
      exact absurd (hw ⟨.win (.reparse fd), (.error e : Except Errno (List (BitVec 16)))⟩ (by simp)) hl4.2
    · cases hx
      have htext := printName_link (hb fd ws (by simp))
      rw [htext] at hr
      cases hr
      have hp : (mkPath .windows (wideText text)).pathname = wideText text := win_pathname_named hn
      have hno : hs1 = noHandles := by
        obtain ⟨ha, hl3, hl4⟩ := steps_cons.mp hl1
        obtain ⟨hb', hl5, hl6⟩ := steps_cons.mp hl4
        obtain ⟨hc, hl7, hl8⟩ := steps_cons.mp hl6
        obtain rfl := steps_nil.mp hl8
        obtain ⟨-, y, -, rfl⟩ := hl3
        obtain ⟨rfl, -⟩ := hl5
        rw [show hs1 = _ from hl7]
        funext k
        by_cases hk : k = fd
        · simp [hk, noHandles]
        · simp [hk]
      subst hno
      simp only [isSet_none, Bool.false_eq_true, if_false] at h2
      have key := Win.exec_copyText h2 hl2
      rw [hp] at key
      rcases key with ⟨k1, e, rfl, k2⟩ | ⟨pre, dir, r, rfl, k1, k2, k3⟩
      · refine .inl ⟨?_, e, rfl, fun hw => .inr (k2 fun e he => hw e (List.mem_append_right _ he))⟩
        intro e he
        rcases List.mem_append.mp he with h | h
        · exact hq e h
        · exact k1 e h
      · refine .inr ⟨_ ++ pre, dir, r, (List.append_assoc ..).symm, ?_, k2, k3⟩
        intro e he
        rcases List.mem_append.mp he with h | h
        · exact hq e h
        · exact k1 e h
    · cases hx

namespace Spec
/-- Data of a symbolic link with the text `d`. -/
def relData : List (BitVec 16) := [0xC, 0xA000, 16, 0, 0, 2, 0, 2, 1, 0, 100]

def relObj : Str → Option WinObj
  | ['s', '\\', 'd'] => some ⟨true, none, 7, 1, 0, 100, 1⟩
  | ['d'] => some ⟨false, none, 7, 2, 5, 200, 1⟩
  | ['s', '\\', 'l'] => some ⟨true, some 0xA000000C#32, 7, 3, 0, 300, 1⟩
  | _ => none

def relGoal : Str → Option WinObj
  | ['s', '\\', 'd'] | ['s', '\\', 'l'] => some ⟨true, none, 7, 1, 0, 100, 1⟩
  | ['d'] => some ⟨false, none, 7, 2, 5, 200, 1⟩
  | _ => none

/-- A directory `s\d` with a link `s\l` to it, whose text is `d`; and a file `d`. -/
def relDisk : WinDisk where
  look := relObj
  goal := relGoal
  missing p h := by
    unfold relGoal
    split
    · simp [relObj] at h
    · simp [relObj] at h
    · simp [relObj] at h
    · rfl
  plain p x h ht := by
    unfold relObj at h
    split at h
    · exact h
    · exact h
    · cases h; cases ht
    · cases h
  unique p q x y hx hy _ hi := by
    have key : ∀ p x, relGoal p = some x → x = ⟨true, none, 7, 1, 0, 100, 1⟩ ∨ x = ⟨false, none, 7, 2, 5, 200, 1⟩ := by
      intro p x h
      unfold relGoal at h
      split at h <;> simp only [Option.some.injEq, reduceCtorEq] at h <;> subst h <;> simp
    rcases key p x hx with rfl | rfl <;> rcases key q y hy with rfl | rfl <;> first | rfl | (exact absurd hi (by decide))

end Spec

/-- **C101 is violated**: `s\l` leads to a directory; its copy is made as a link to a file, because `d`, from the working
directory, is one. Nothing fails. -/
theorem c101_violated : ∃ (t : List Event) (hs : Handles),
    Exec (Win.copySymlink (mkPath .windows "s\\l".toList) (mkPath .windows "s\\k".toList) (.ref none)) t (.ok ((), .ref none)) ∧
    Steps (WinLaw relDisk) noHandles t hs ∧ (∀ e ∈ t, WinWilling e) ∧
    (∃ y, relDisk.goal "s\\l".toList = some y ∧ y.dir = true) ∧
    (⟨.win (.createSymlink "s\\k".toList "d".toList false), (.ok () : Except Errno Unit)⟩ : Event) ∈ t := by
  refine ⟨[⟨.win (.createFile "s\\l".toList Win.openReparse), (.ok 4 : Except Errno Nat)⟩,
      ⟨.win (.reparse 4), (.ok relData : Except Errno (List (BitVec 16)))⟩,
      ⟨.win (.closeHandle 4), (.ok () : Except Errno Unit)⟩,
      ⟨.win (.getAttrs "d".toList), (.ok 0x20#32 : Except Errno (BitVec 32))⟩,
      ⟨.win (.getPerms "d".toList 0x20#32), (.ok 0 : Except Errno Mode)⟩,
      ⟨.win (.createSymlink "s\\k".toList "d".toList false), (.ok () : Except Errno Unit)⟩], _, feed_exec (by rfl),
    .cons ⟨rfl, _, rfl, rfl⟩ (.cons ⟨rfl, _, rfl, by decide⟩ (.cons rfl (.cons ⟨rfl, _, rfl, by decide, by decide⟩ (.cons ⟨rfl, trivial⟩ (.cons rfl (.nil _)))))), ?_,
    ⟨_, rfl, rfl⟩, by simp⟩
  simp [WinWilling]

/-- **C101 is violated** for a link that leads nowhere: it is there and can be read, but not copied. -/
theorem c101_violated_dangling : ∃ (t : List Event) (hs : Handles),
    Exec (Win.copySymlink (mkPath .windows "x".toList) (mkPath .windows "y".toList) (.ref none)) t (.ok ((), .ref (some .ENOENT))) ∧
    Steps (WinLaw sampleDisk) noHandles t hs ∧ (∀ e ∈ t, WinWilling e) ∧
    (∃ y, sampleDisk.look "x".toList = some y ∧ linkKind (some y) = .symlink) := by
  refine ⟨[⟨.win (.createFile "x".toList Win.openReparse), (.ok 4 : Except Errno Nat)⟩,
      ⟨.win (.reparse 4), (.ok [0xC, 0xA000, 16, 0, 0, 2, 0, 2, 1, 0, 122] : Except Errno (List (BitVec 16)))⟩,
      ⟨.win (.closeHandle 4), (.ok () : Except Errno Unit)⟩,
      ⟨.win (.getAttrs "z".toList), (.error .ENOENT : Except Errno (BitVec 32))⟩], _, feed_exec (by rfl),
    .cons ⟨rfl, _, rfl, rfl⟩ (.cons ⟨rfl, _, rfl, by decide⟩ (.cons rfl (.cons ⟨rfl, fun _ => rfl⟩ (.nil _)))), ?_,
    ⟨_, rfl, by decide⟩⟩
  simp [WinWilling]
  decide

/-- A link to `C:\d`, a directory, is copied as a link to a directory. -/
example : winNames (winTail (wideText ("C:\\d".toList.map fun ch => BitVec.ofNat 16 ch.toNat))) ≠ [] ∧
    Exec (Win.copySymlink (mkPath .windows "l".toList) (mkPath .windows "k".toList) (.ref none))
      [⟨.win (.createFile "l".toList Win.openReparse), (.ok 4 : Except Errno Nat)⟩,
        ⟨.win (.reparse 4), (.ok linkData : Except Errno (List (BitVec 16)))⟩,
        ⟨.win (.closeHandle 4), (.ok () : Except Errno Unit)⟩,
        ⟨.win (.getAttrs "C:\\d".toList), (.ok 0x10#32 : Except Errno (BitVec 32))⟩,
        ⟨.win (.getPerms "C:\\d".toList 0x10#32), (.ok 0 : Except Errno Mode)⟩,
        ⟨.win (.createSymlink "k".toList "C:\\d".toList true), (.ok () : Except Errno Unit)⟩] (.ok ((), .ref none)) :=
  ⟨by decide, feed_exec (by rfl)⟩

end Asap
