import Verif.Props.WinN
import Verif.Props.WinF

/-!
# `is_empty` on Windows (C96)
-/

namespace Asap
open Spec

/-! ## C96 -/

/-- **C96**, partial. All executions of `is_empty` with an error code, for the path with the text `r`. The attributes are read once; a
failure is reported. What is not a directory is empty iff its size is zero. A directory is searched up to the first entry other than `.` and `..`; it is
empty iff there is none and no error is left. Every search is closed. `n` bounds the entries read. Missing: that the error
is the one the search ended with, and that links are followed (`c96_violated`). -/
theorem c96_is_empty_partial (r : Str) (n : Nat) (c : Code) (t : List Event) (o : Except Stop (Bool × EcArg))
    (h : Exec (Win.isEmptyFile n (mkPath .windows r) (.ref c)) t o) :
    let first (x : Except Errno (Nat × FindData)) : Event := ⟨.win (.findFirst (searchText (mkPath .windows r).pathname)), x⟩
    (∃ e, t = [⟨.win (.getAttrsEx (mkPath .windows r).pathname), (.error e : Except Errno _)⟩] ∧ o = .ok (false, .ref (some e))) ∨
    ∃ a t', t = ⟨.win (.getAttrsEx (mkPath .windows r).pathname), (.ok a : Except Errno _)⟩ :: t' ∧
      (a.attrs &&& 16#32 = 0#32 → t' = [] ∧
        o = .ok (decide (a.sizeHigh.toNat * 2 ^ 32 + a.sizeLow.toNat = 0), .ref none)) ∧
      (a.attrs &&& 16#32 ≠ 0#32 →
        (∃ e, t' = [first (.error e)] ∧ o = .ok (decide (openCode .none e = none), .ref (openCode .none e))) ∨
        (o = .error .fuel ∧ n < t'.length) ∨
        ∃ (d : Nat) (ent : FindData) (rest : List FindData) (cl : Except Errno Unit),
          (∃ (e : Errno) (last : Code), (∀ x ∈ ent :: rest, dotName x.name) ∧
            t' = first (.ok (d, ent)) :: (rest.map (gotNext d) ++ [lastNext d e, closedFind d cl, ⟨.win .lastError, last⟩]) ∧
            o = .ok (decide (last.bind (openCode .none) = none), .ref (last.bind (openCode .none)))) ∨
          (∃ x, (ent :: rest).getLast? = some x ∧ ¬ dotName x.name ∧ (∀ y ∈ (ent :: rest).dropLast, dotName y.name) ∧
            t' = first (.ok (d, ent)) :: (rest.map (gotNext d) ++ [closedFind d cl]) ∧ o = .ok (false, .ref none))) := by
  intro first
  unfold Win.isEmptyFile at h
  obtain ⟨a, t', rfl, h'⟩ := exec_call.mp h
  clear h
  have h := h'
  clear h'
  rcases a with e | a
  · have h' : Exec (.ret (false, EcArg.ref (some e))) t' o := h
    rw [exec_ret] at h'
    obtain ⟨rfl, rfl⟩ := h'
    exact .inl ⟨e, rfl, rfl⟩
  · right
    refine ⟨a, t', rfl, ?_, ?_⟩
    · intro hz
      dsimp only at h
      rw [if_neg (by simp [Win.has, Win.FILE_ATTRIBUTE_DIRECTORY, hz]), exec_ret] at h
      refine ⟨h.1, ?_⟩
      rw [h.2]
      congr 2
      have e : ∀ x : BitVec 32, (x == 0#32) = decide (x.toNat = 0) := by
        intro x
        rw [Bool.eq_iff_iff, beq_iff_eq, decide_eq_true_eq]
        exact ⟨fun h => by rw [h]; rfl, fun h => BitVec.eq_of_toNat_eq h⟩
      rw [e, e, ← Bool.decide_and, decide_eq_decide]
      omega
    · intro hz
      dsimp only at h
      rw [if_pos (by simpa [Win.has, Win.FILE_ATTRIBUTE_DIRECTORY] using hz)] at h
      simp only [Win.isEmptyDirectory, Win.DirIter.new, Prog.bind_assoc, clear_ref] at h
      have done : ∀ {c : Code} {s : Stream} {t'' : List Event}, s.good = false →
          Exec (Prog.bind (if !s.good then
            match c with
            | some e => ((⟨"directory_iterator::directory_iterator(...)".toList, some (mkPath .windows r), none⟩ : Handler).report
                ((EcArg.ref none).assign c) (some e) ()).bind fun y => .ret (none, y.2)
            | none => .ret (none, (EcArg.ref none).assign c)
            else .ret (some s, (EcArg.ref none).assign c)) fun (x : DirIter × EcArg) => (Win.destroy x.1).bind fun _ =>
              if x.2.isSet then .ret (false, x.2) else .ret (x.1.isNone, x.2)) t'' o →
          t'' = [] ∧ o = .ok (decide (c = none), .ref c) := by
        intro c s t'' hg hx
        rw [hg] at hx
        cases c with
        | none => simpa [Win.destroy, Prog.ret_bind, EcArg.assign, EcArg.isSet] using hx
        | some e => simpa [Win.destroy, Prog.ret_bind, EcArg.assign, EcArg.isSet, Handler.report] using hx
      rcases exec_bind.mp h with ⟨x, h1, rfl⟩ | ⟨⟨s, cd⟩, t1, t2, rfl, h1, h2⟩
      · rcases Win.exec_streamNew h1 with ⟨e, s, _, _, h3⟩ | ⟨d, ent, rest, hr, ⟨h3, h4, _⟩ | ⟨_, _, _, _, _, _, _, h3⟩ | ⟨_, _, _, _, _, _, h3⟩⟩
        · cases h3
        · cases h3; exact .inr (.inl ⟨rfl, h4⟩)
        · cases h3
        · cases h3
      · rcases Win.exec_streamNew h1 with ⟨e, s', rfl, hg, h3⟩ | ⟨d, ent, rest, hr, ⟨h3, h4, _⟩ | ⟨e, cl, last, s', hd, rfl, hg, h3⟩ | ⟨x, s', hx, hn, rfl, hp, h3⟩⟩
        · cases h3
          obtain ⟨rfl, rfl⟩ := done hg h2
          exact .inl ⟨e, by simp [first], rfl⟩
        · cases h3
        · cases h3
          obtain ⟨rfl, rfl⟩ := done hg h2
          exact .inr (.inr ⟨d, ent, rest, cl, .inl ⟨e, last, hd, by simp [first], rfl⟩⟩)
        · cases h3
          have hg : s.good = true := by rw [Stream.good, hp.handle]; rfl
          have h4 : Exec ((Win.Stream.close s).bind fun _ => .ret (false, EcArg.ref none)) t2 o := by
            simpa [hg, Win.destroy, Prog.bind_assoc, Prog.ret_bind, EcArg.assign, EcArg.isSet] using h2
          rcases exec_bind.mp h4 with ⟨y, h5, rfl⟩ | ⟨y, t3, t4, rfl, h5, h6⟩
          · obtain ⟨_, _, h5⟩ := Win.exec_close hp.handle h5; cases h5
          · obtain ⟨cl, rfl, h5⟩ := Win.exec_close hp.handle h5
            rw [exec_ret] at h6
            obtain ⟨rfl, rfl⟩ := h6
            exact .inr (.inr ⟨d, ent, rest, cl, .inr ⟨x, hx, hn, hr, by simp [first], rfl⟩⟩)

example : ∃ t, Exec (Win.isEmptyFile 5 (mkPath .windows "c:\\d".toList) (.ref none)) t (.ok (true, .ref none)) ∧
    ∃ d : Nat, ⟨.win (.findFirst "c:\\d\\*".toList), (.ok (d, ⟨".".toList, 16#32, 0#32⟩) : Except Errno (Nat × FindData))⟩ ∈ t :=
  ⟨[⟨.win (.getAttrsEx "c:\\d".toList), (.ok ⟨0x10#32, 0, 0⟩ : Except Errno WinAttrs)⟩,
    ⟨.win (.findFirst "c:\\d\\*".toList), (.ok (7, ⟨".".toList, 16#32, 0#32⟩) : Except Errno (Nat × FindData))⟩,
    gotNext 7 ⟨"..".toList, 16#32, 0#32⟩, lastNext 7 (.ofWin 18), closedFind 7 (.ok ()), ⟨.win .lastError, (none : Code)⟩],
    feed_exec (by rfl), 7, by simp⟩

/-- **C96** is violated: the link `k` to a file of 5 bytes is said to be empty; an error in reading a directory where only `.`
has been found is lost, and the directory said to be empty; and a drive without any entries is an error. -/
theorem c96_violated :
    (∃ (D : WinDisk) (p : Path) (t : List Event) (hs : Handles) (x : WinObj),
      D.goal p.pathname = some x ∧ x.dir = false ∧ x.size = 5 ∧ (∀ e ∈ t, WinWilling e) ∧
      Exec (Win.isEmptyFile 9 p (.ref none)) t (.ok (true, .ref none)) ∧ Steps (WinLaw D) noHandles t hs) ∧
    (∀ c : Except Errno Unit, Exec (Win.isEmptyFile 9 (mkPath .windows "d".toList) (.ref none))
      [⟨.win (.getAttrsEx "d".toList), (.ok ⟨0x10#32, 0, 0⟩ : Except Errno WinAttrs)⟩,
        ⟨.win (.findFirst "d\\*".toList), (.ok (7, ⟨".".toList, 16#32, 0#32⟩) : Except Errno (Nat × FindData))⟩,
        lastNext 7 (.ofWin 23), closedFind 7 c, ⟨.win .lastError, (none : Code)⟩] (.ok (true, .ref none))) ∧
    Exec (Win.isEmptyFile 9 (mkPath .windows "E:\\".toList) (.ref none))
      [⟨.win (.getAttrsEx "E:\\".toList), (.ok ⟨0x10#32, 0, 0⟩ : Except Errno WinAttrs)⟩,
        ⟨.win (.findFirst "E:\\*".toList), (.error .ENOENT : Except Errno (Nat × FindData))⟩] (.ok (false, .ref (some .ENOENT))) := by
  refine ⟨⟨sampleDisk, mkPath .windows "k".toList,
    [⟨.win (.getAttrsEx "k".toList), (.ok ⟨0x400#32, 0, 0⟩ : Except Errno WinAttrs)⟩], _, _, rfl, rfl, rfl,
    by simp [WinWilling], feed_exec (by rfl), .cons ⟨rfl, _, rfl, by unfold DataOf AttrsOf; decide⟩ (.nil _)⟩, ?_, feed_exec (by rfl)⟩
  intro c
  exact feed_exec (by rfl)

end Asap
