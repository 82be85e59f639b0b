import Verif.Props.Heed

/-!
# C135 and C136 for the builds for other POSIX systems
-/

namespace Asap
open Spec

section
variable {p : Path} {ec : EcArg}

theorem decisive_utime {z : Int} : Decisive (Undone NoError) NoError (setLastWriteTimeUtime p z ec) := by
  unfold setLastWriteTimeUtime
  simp only [Prog.bind_eq]
  split
  · exact .reportMsg _ _ _ _ _ (undone_noError _ rfl)
  refine .after (calls_getFileStatus harmless_eyes) fun x _ => ?_
  split
  next h => exact .report _ _ _ _ (undone_noError _ (code_some h))
  obtain ⟨⟨_, st⟩, _⟩ := x
  cases st with
  | none => exact .stop _
  | some st =>
    show Decisive _ _ (Prog.call _ _)
    onecall ec

theorem decisive_chmodPlain {m : Perms} {b : Bool} : Decisive (Undone NoError) NoError (chmodPlain p m b ec.clear) := by
  unfold chmodPlain
  dsimp only
  split
  · exact .report _ _ _ _ (undone_noError _ rfl)
  · onecall ec

theorem decisive_permissionsPlain {m : Perms} {o : PermOptions} : Decisive (Undone NoError) NoError (permissionsPlain p m o ec) := by
  unfold permissionsPlain
  simp only [Prog.bind_eq]
  split
  · exact .stop _
  split
  · refine .after (Q := fun _ => True) ?_ fun x _ => ?_
    · show Calls Harmless _
      unfold permStatus
      split
      · exact calls_status harmless_eyes
      · exact calls_symlinkStatus harmless_eyes
    split
    next h => exact .report _ _ _ _ (undone_noError _ (code_some h))
    split
    · exact .stop _
    · exact decisive_chmodPlain
  · exact decisive_chmodPlain

theorem Decisive.iff {α : Type} {G : α × EcArg → Prop} {x : Prog (α × EcArg)} (h : Decisive (Undone G) G x) {t : List Event}
    {o : Except Stop (α × EcArg)} (hx : Exec x t o) :
    Changed t ↔ ∃ a, o = .ok a ∧ G a := by
  obtain ⟨h1, h2⟩ := h.exec hx
  refine ⟨h1, fun ⟨x, e, hs⟩ => ?_⟩
  rcases Classical.em (Changed t) with hc | hc
  · exact hc
  · exact absurd hs (h2 hc x e)

end

/-- **C135** for `last_write_time` with `utime` and `permissions` with `chmod`: they report success exactly if the change was made. Without either of
`utimensat` and `utime`, `last_write_time` always fails and changes nothing. -/
theorem c135_ports (p : Path) (ec : EcArg) {t : List Event} {o : Except Stop (Unit × EcArg)} :
    (∀ z, Exec (setLastWriteTimeUtime p z ec) t o → (Changed t ↔ ∃ x, o = .ok x ∧ x.2.isSet = false)) ∧
    (∀ m opts, Exec (permissionsPlain p m opts ec) t o → (Changed t ↔ ∃ x, o = .ok x ∧ x.2.isSet = false)) ∧
    (∀ z, Exec (setLastWriteTimeNone p z ec) t o → t = [] ∧ Failed o) := by
  refine ⟨fun z hx => decisive_utime.iff hx, fun m opts hx => decisive_permissionsPlain.iff hx, fun z hx => ?_⟩
  unfold setLastWriteTimeNone at hx
  cases ec <;> cases hx
  · exact ⟨rfl, nofun⟩
  · exact ⟨rfl, fun x e => by cases e; rfl⟩

/-- A time that is set, one that is not, and a mode that is not. -/
example :
    (∃ t, Exec (setLastWriteTimeUtime (mkPath .posix "f".toList) 5000000000 (.ref none)) t (.ok ((), .ref none)) ∧ Changed t) ∧
    (∃ t, Exec (setLastWriteTimeUtime (mkPath .posix "f".toList) 5000000000 (.ref none)) t (.ok ((), .ref (some .EPERM))) ∧ ¬ Changed t ∧ Trouble t) ∧
    (∃ t, Exec (permissionsPlain (mkPath .posix "f".toList) 0o644 .replace (.ref none)) t (.ok ((), .ref (some .EROFS))) ∧ ¬ Changed t ∧ Trouble t) := by
  have h1 : Exec (setLastWriteTimeUtime (mkPath .posix "f".toList) 5000000000 (.ref none))
      [⟨.stat "f".toList, (.ok { Stat.zero with mode := 0o100644, atimeSec := 7 } : Except Errno Stat)⟩,
       ⟨.port (.utime "f".toList 7 5), (.ok () : Except Errno Unit)⟩] (.ok ((), .ref none)) := feed_exec (by rfl)
  have h2 : Exec (setLastWriteTimeUtime (mkPath .posix "f".toList) 5000000000 (.ref none))
      [⟨.stat "f".toList, (.ok { Stat.zero with mode := 0o100644, atimeSec := 7 } : Except Errno Stat)⟩,
       ⟨.port (.utime "f".toList 7 5), (.error .EPERM : Except Errno Unit)⟩] (.ok ((), .ref (some .EPERM))) := feed_exec (by rfl)
  have h3 : Exec (permissionsPlain (mkPath .posix "f".toList) 0o644 .replace (.ref none))
      [⟨.port (.chmod "f".toList 0o644), (.error .EROFS : Except Errno Unit)⟩] (.ok ((), .ref (some .EROFS))) := feed_exec (by rfl)
  refine ⟨⟨_, h1, ((c135_ports _ _).1 _ h1).2 ⟨_, rfl, rfl⟩⟩, ⟨_, h2, fun hc => ?_, ?_⟩, ⟨_, h3, fun hc => ?_, ?_⟩⟩
  · obtain ⟨_, e, hs⟩ := ((c135_ports _ _).1 _ h2).1 hc
    cases e
    cases hs
  · exact ⟨⟨.port (.utime "f".toList 7 5), (.error .EPERM : Except Errno Unit)⟩, by simp, rfl⟩
  · obtain ⟨_, e, hs⟩ := ((c135_ports _ _).2.1 _ _ h3).1 hc
    cases e
    cases hs
  · exact ⟨⟨.port (.chmod "f".toList 0o644), (.error .EROFS : Except Errno Unit)⟩, by simp, rfl⟩

/-- `is_directory` of something that cannot be looked at. -/
example : ∃ t o, Exec (isDirectoryP (mkPath .posix "f".toList) (.ref none)) t o ∧ Trouble t ∧ Failed o := by
  have hx : Exec (isDirectoryP (mkPath .posix "f".toList) (.ref none)) [⟨.stat "f".toList, (.error .EACCES : Except Errno Stat)⟩]
      (.ok (false, .ref (some .EACCES))) := feed_exec (by rfl)
  have hf : Trouble _ → _ := c136_status FStatus.isDirectory _ _ _ (.inl rfl) hx
  refine ⟨_, _, hx, ?_, hf ?_⟩ <;> exact ⟨⟨.stat "f".toList, (.error .EACCES : Except Errno Stat)⟩, by simp, rfl⟩

end Asap
