import Verif.Props.Genuine

/-!
# C137 for `directory_entry`

Whatever the cache of the entry holds, and whatever the operating system answers.
-/

namespace Asap
namespace Spec

/-- The calls of a `directory_entry` that may ask the system (`include/filesystem/fs_dir.h:42-229`). -/
inductive EntryAsk : Type → Type 1 where
  | new (p : Path) : EntryAsk Entry
  | refresh (e : Entry) : EntryAsk Entry
  | exists' (e : Entry) : EntryAsk (Bool × Entry)
  | isType (f : FStatus → Bool) (e : Entry) : EntryAsk (Bool × Entry)
  | isSymlink (e : Entry) : EntryAsk (Bool × Entry)
  | fileSize (e : Entry) : EntryAsk (BitVec 64 × Entry)
  | hardLinkCount (e : Entry) : EntryAsk (BitVec 64 × Entry)
  | lastWriteTime (e : Entry) : EntryAsk (Int × Entry)
  | status (e : Entry) : EntryAsk (FStatus × Entry)
  | symlinkStatus (e : Entry) : EntryAsk (FStatus × Entry)

/-- The program of a call (`include/filesystem/fs_dir.h:42-229`): `ec` null is the throwing overload; the constructor has none. -/
def EntryAsk.prog {α : Type} : EntryAsk α → EcArg → Prog (α × EcArg)
  | .new p, _ => Entry.new p
  | .refresh e, ec => Asap.refresh e ec
  | .exists' e, ec => e.existsE ec
  | .isType f e, ec => e.isType f ec
  | .isSymlink e, ec => e.isSymlinkE ec
  | .fileSize e, ec => getSize e ec
  | .hardLinkCount e, ec => getHardLinkCount e ec
  | .lastWriteTime e, ec => getLastWriteTime e ec
  | .status e, ec => getStatus e ec
  | .symlinkStatus e, ec => getSymLinkStatus e ec

/-- The errors that a call of an entry reports of its own. -/
def EntryAsk.own {α : Type} : EntryAsk α → Errno → Bool
  | .exists' _, e | .isType .., e | .isSymlink _, e => e = .ENOENT
  | .fileSize _, e => e = .ENOTSUP || e = .EISDIR
  | .lastWriteTime _, e => e = .EOVERFLOW
  | _, _ => false

end Spec
open Spec

section
variable {own : Errno → Prop} {G : Errno → Prop} {ec : EcArg} {e : Entry} {b : Bool}

theorem gen_updateExtra : Gen own (updateExtra b e ec) G := by
  unfold updateExtra
  simp only [Prog.bind_eq]
  split
  · trivial
  · split
    · exact gen_updateBasic.bind fun _ _ _ h => h
    · exact Kn.clear _
theorem gen_updatePerms : Gen own (updatePerms b e ec) G := by
  unfold updatePerms
  simp only [Prog.bind_eq]
  split
  · trivial
  · split
    · exact gen_updateBasic.bind fun _ _ _ h => h
    · exact Kn.clear _
theorem gen_refresh : Gen own (refresh e ec) G := by
  unfold refresh
  simp only [Prog.bind_eq]
  exact gen_updateBasic.bind fun _ _ _ hx => (gen_handleError hx).bind fun _ _ _ h => h
theorem gen_getSize (h1 : own .ENOTSUP) (h2 : own .EISDIR) : Gen own (getSize e ec) G := by
  unfold getSize
  simp only [Prog.bind_eq]
  split
  · refine gen_updateBasic.bind fun _ x _ _ => ?_
    split
    · refine (Gen.reportMsg _ _ _ _ ?_).bind fun _ _ _ h => h
      split <;> kn
    · exact gen_updateExtra.bind fun _ _ _ h => h
  · exact gen_updateExtra.bind fun _ _ _ h => h
  · split
    · exact gen_updateExtra.bind fun _ _ _ h => h
    · exact Kn.clear _
  · exact Kn.clear _
theorem gen_getHardLinkCount : Gen own (getHardLinkCount e ec) G := by
  unfold getHardLinkCount
  simp only [Prog.bind_eq]
  split
  · exact (gen_updateBasic.bind fun _ _ _ _ => gen_updateExtra).bind fun _ _ _ h => h
  · exact gen_updateExtra.bind fun _ _ _ h => h
  · exact Kn.clear _
theorem gen_getLastWriteTime (h : own .EOVERFLOW) : Gen own (getLastWriteTime e ec) G := by
  unfold getLastWriteTime
  simp only [Prog.bind_eq]
  have tail : ∀ (G' : Errno → Prop) (x : Entry × EcArg), Kn own G' x.2.code → Gen own
      (if (FStatus.exists' { type := x.1.cache.type } && decide (x.1.cache.writeTime = timeMin)) = true then
        (Handler.report ⟨"GetLastWriteTime".toList, some e.path, none⟩ x.2 (some .EOVERFLOW) timeMin).bind fun y => .ret ((y.1, x.1), y.2)
      else .ret ((x.1.cache.writeTime, x.1), x.2)) G' := by
    intro G' x hx
    split
    · exact (Gen.report _ _ _ (by kn)).bind fun _ _ _ h => h
    · exact hx
  split
  · exact (gen_updateBasic.bind fun _ _ _ _ => gen_updateExtra).bind fun G' x _ hx => tail G' x hx
  · exact gen_updateExtra.bind fun G' x _ hx => tail G' x hx
  · split
    · exact gen_updateExtra.bind fun G' x _ hx => tail G' x hx
    · exact tail G (e, ec.clear) (Kn.clear _)
  · exact tail G (e, ec.clear) (Kn.clear _)
theorem gen_getStatus : Gen own (getStatus e ec) G := by
  unfold getStatus
  simp only [Prog.bind_eq]
  split
  · exact (gen_updateBasic.bind fun _ _ _ _ => gen_updateExtra.bind fun _ _ _ _ => gen_updatePerms).bind fun _ _ _ h => h
  · exact (gen_updateExtra.bind fun _ _ _ _ => gen_updatePerms).bind fun _ _ _ h => h
  · exact gen_updatePerms.bind fun _ _ _ h => h
  · split
    · exact gen_updatePerms.bind fun _ _ _ h => h
    · exact Kn.clear _
theorem gen_getSymLinkStatus : Gen own (getSymLinkStatus e ec) G := by
  unfold getSymLinkStatus
  simp only [Prog.bind_eq]
  split
  · exact (gen_updateBasic.bind fun _ _ _ _ => gen_updateExtra.bind fun _ _ _ _ => gen_updatePerms).bind fun _ _ _ h => h
  · exact (gen_updateExtra.bind fun _ _ _ _ => gen_updatePerms).bind fun _ _ _ h => h
  · exact gen_updatePerms.bind fun _ _ _ h => h
  · exact Kn.clear _

theorem gen_entry {α : Type} (a : EntryAsk α) (ec : EcArg) (G : Errno → Prop) : Gen (fun e => EntryAsk.own a e = true) (a.prog ec) G := by
  cases a with
  | new p => exact gen_refresh
  | refresh e => exact gen_refresh
  | exists' e =>
    show Gen _ (Entry.existsE e ec) G
    unfold Entry.existsE
    simp only [Prog.bind_eq]
    refine Gen.bind (gen_fileType ?_) fun _ _ _ h => h
    rfl
  | isType f e =>
    show Gen _ (Entry.isType f e ec) G
    unfold Entry.isType
    simp only [Prog.bind_eq]
    refine Gen.bind (gen_fileType ?_) fun _ _ _ h => h
    rfl
  | isSymlink e =>
    show Gen _ (Entry.isSymlinkE e ec) G
    unfold Entry.isSymlinkE
    simp only [Prog.bind_eq]
    refine Gen.bind (gen_linkType ?_) fun _ _ _ h => h
    rfl
  | fileSize e => exact gen_getSize rfl rfl
  | hardLinkCount e => exact gen_getHardLinkCount
  | lastWriteTime e => exact gen_getLastWriteTime rfl
  | status e => exact gen_getStatus
  | symlinkStatus e => exact gen_getSymLinkStatus
end

/-- **C137** for `directory_entry`: whatever its cache holds, an error that a call reports or throws was given by the system during the call, or
is one of the call's own. -/
theorem c137_entries {α : Type} (a : EntryAsk α) (ec : EcArg) {t : List Event} {o : Except Stop (α × EcArg)} (hx : Exec (a.prog ec) t o) :
    (∀ v e, o = .ok (v, .ref (some e)) → Given t e ∨ EntryAsk.own a e = true) ∧
    (∀ x e, o = .error (.thrown x) → x.code = some e → Given t e ∨ EntryAsk.own a e = true) := by
  obtain ⟨h1, h2⟩ := (gen_entry a ec fun _ => False).exec hx
  exact ⟨fun v e he => ((h1 _ he e rfl).symm).imp (fun h => h.resolve_left id) id, fun x e he hc => ((h2 _ he e hc).symm).imp (fun h => h.resolve_left id) id⟩

/-- A refresh that may not look at the file; a size asked of an entry that turns out to be a directory. -/
example :
    (∃ t x, Exec ((EntryAsk.refresh ⟨mkPath .posix "d/f".toList, .reset⟩).prog .null) t (.error (.thrown x)) ∧ x.code = some .EACCES ∧ Given t .EACCES) ∧
    (∃ t x, Exec ((EntryAsk.fileSize ⟨mkPath .posix "d".toList, .reset⟩).prog (.ref none)) t (.ok (x, .ref (some .EISDIR))) ∧ ¬ Given t .EISDIR) := by
  have hx : Exec ((EntryAsk.refresh ⟨mkPath .posix "d/f".toList, .reset⟩).prog .null)
      [⟨.stat "d/f".toList, (.error .EACCES : Except Errno Stat)⟩]
      (.error (.thrown ⟨"in directory_entry::DoRefresh".toList, 1, mkPath .posix "d/f".toList, .default, some .EACCES⟩)) := feed_exec (by rfl)
  refine ⟨⟨_, _, hx, rfl, ((c137_entries _ _ hx).2 _ _ rfl rfl).resolve_right nofun⟩,
    ⟨[⟨.stat "d".toList, (.ok { Stat.zero with mode := 0o040755 } : Except Errno Stat)⟩], _, feed_exec (by rfl), ?_⟩⟩
  rintro ⟨x, hx, h⟩
  cases hx with
  | head => cases h
  | tail _ h => cases h

end Asap
