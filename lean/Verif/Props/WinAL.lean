import Verif.Props.WinW
import Verif.Props.WinAI

/-!
# C80: entries made before their file on Windows

An entry for a path where nothing was found knows nothing; it looks when it is asked.
-/

namespace Asap
open Spec

namespace Win

/-- `UpdateBasicFileInformation` of a plain directory when the system is willing, in any mode. -/
theorem wp_updateBasic_late (D : WinDisk) (w : Prop) (hw : w) (p : Path) (x : WinObj) (hs : Handles) (hx : D.look p.pathname = some x)
    (hp : x.tag = none) (hd : x.dir = true) (b : Bool) (ec : EcArg) :
    wp (LawW D w) (fun o hs' => hs' = hs ∧ o = .ok (⟨p, listed .directory⟩, ec.clear)) (updateBasic b ⟨p, .reset⟩ ec) hs := by
  rintro (e | a) s ⟨⟨rfl, h1⟩, h2⟩
  · have := h1 (h2 hw)
    rw [hx] at this
    cases this
  obtain ⟨y, hy, ha⟩ := h1
  rw [hx] at hy
  cases hy
  dsimp only [basicReparse]
  simp only [has_reparse, has_directory, ha.1, ha.2, hd, hp]
  exact ⟨rfl, rfl⟩

/-- What `UpdateBasicFileInformation` does to an entry for a plain file: it fails. -/
def LateFile (p : Path) (ec : EcArg) (o : Except Stop (Entry × EcArg)) : Prop :=
  o = .error (.fault .assertFail) ∨
  (ec = .null ∧ ∃ y, o = .error (.thrown y) ∧ y.path1 = p) ∨
  (ec ≠ .null ∧ ∃ k m, o = .ok (⟨p, k⟩, .ref (some m)) ∧ k.cacheType = .empty ∧ (k.type = .none ∨ k.type = .regular))

theorem lateFile_fails (p : Path) (ec : EcArg) (k : Cache) (m : Errno) (hk : k.cacheType = .empty) (ht : k.type = .none ∨ k.type = .regular)
    {step : Handles → Event → Handles → Prop} (s : Handles) :
    wp step (fun o _ => LateFile p ec o)
      (((Handler.mk "UpdateBasicFileInformation".toList (some p) none).report ec.clear (some m) ()).bind fun x =>
        .ret (({ path := p, cache := k } : Entry), x.2)) s := by
  cases ec with
  | null => exact .inr (.inl ⟨rfl, _, rfl, rfl⟩)
  | ref c => exact .inr (.inr ⟨by simp, k, m, rfl, hk, ht⟩)

theorem wp_updateBasic_file (D : WinDisk) (p : Path) (x : WinObj) (hs : Handles) (hx : D.look p.pathname = some x)
    (hp : x.tag = none) (hd : x.dir = false) (b : Bool) (ec : EcArg) :
    wp (fun s e s' => WinLaw D s e s' ∧ NoDevice e) (fun o _ => LateFile p ec o) (updateBasic b ⟨p, .reset⟩ ec) hs := by
  unfold updateBasic
  rintro (e | a) s ⟨⟨rfl, h1⟩, -⟩
  · exact lateFile_fails p ec _ e rfl (.inl rfl) _
  obtain ⟨y, hy, ha⟩ := h1
  rw [hx] at hy
  cases hy
  dsimp only [basicReparse]
  simp only [has_reparse, has_directory, ha.1, ha.2, hd, hp]
  refine wp_bind (wp_bind ?_)
  rintro (e | k) s h2
  · exact lateFile_fails p ec _ e rfl (.inl rfl) _
  · refine wp_finally ?_
    rintro (e | i) s' h3
    · exact ⟨fun _ _ _ _ => lateFile_fails p ec _ e rfl (.inl rfl) _, fun h => absurd trivial h⟩
    · dsimp only
      rw [has_reparse, ha.2, hp, has_directory, ha.1, hd]
      intro ty s'' h4
      have h5 := h4.2 k ty rfl
      have h6 : ty ≠ FILE_TYPE_CHAR := h5.1
      have h7 : ty ≠ FILE_TYPE_PIPE := h5.2
      simp only [Bool.false_eq_true, if_false, h6, h7]
      rintro (_ | e) σ h8
      · exact ⟨fun h => h.elim, fun _ => .inl rfl⟩
      · refine ⟨fun _ _ _ _ => ?_, fun h => absurd trivial h⟩
        refine lateFile_fails p ec _ e ?_ ?_ _
        · dsimp only
          split <;> rfl
        · dsimp only
          split
          · exact .inr rfl
          · exact .inl rfl

theorem updateExtra_late (ck : SysClock) (e : Entry) (ec : EcArg) (h : e.cache.cacheType = .empty) :
    updateExtra ck e ec = .stop (.fault .assertFail) := by
  unfold updateExtra
  simp [h]

end Win

/-- **C80**, partial: an entry made for a path where later there is a directory `x`. With a willing system `file_size` is the
error `EISDIR` as with the free function (and unlike an entry from an iteration), `hard_link_count` is that of `x`, and
without a code `exists`, the predicates and `is_symlink` are right. -/
theorem c80_late_directory_partial (D : WinDisk) (ck : SysClock) (p : Path) (x : WinObj) (t : List Event) (hs : Handles)
    (hx : D.look p.pathname = some x) (hp : x.tag = none) (hd : x.dir = true)
    (hl : Steps (WinLaw D) noHandles t hs) (hw : ∀ e ∈ t, WinWilling e) :
    (∀ c o, Exec (Win.getSize ck ⟨p, .reset⟩ (.ref c)) t o → ∃ e, o = .ok ((-1, e), .ref (some .EISDIR))) ∧
    (∀ o, Exec (Win.getSize ck ⟨p, .reset⟩ .null) t o → ∃ y, o = .error (.thrown y) ∧ y.code = some .EISDIR ∧ y.path1 = p) ∧
    (∀ c o, Exec (Win.getHardLinkCount ck ⟨p, .reset⟩ (.ref c)) t o → ∃ e, o = .ok ((x.links.setWidth 64, e), .ref none)) ∧
    (∀ o, Exec (Win.Entry.existsE ⟨p, .reset⟩ .null) t o → ∃ e, o = .ok ((true, e), .null)) ∧
    (∀ f o, Exec (Win.Entry.isType f ⟨p, .reset⟩ .null) t o → ∃ e, o = .ok ((f { type := .directory }, e), .null)) ∧
    (∀ o, Exec (Win.Entry.isSymlinkE ⟨p, .reset⟩ .null) t o → ∃ e, o = .ok ((false, e), .null)) := by
  have hl' := Win.steps_lawW hl
  have hb := Win.wp_updateBasic_late D _ hw p x noHandles hx hp hd
  have hg := D.plain _ x hx hp
  refine ⟨fun c o h => ?_, fun o h => ?_, fun c o h => ?_, fun o h => ?_, fun f o h => ?_, fun o h => ?_⟩
  · refine wp_sound (Q := fun o _ => ∃ e, o = .ok ((-1, e), .ref (some .EISDIR))) ?_ h hl'
    refine wp_bind (wp_mono ?_ (hb true _))
    rintro o s ⟨rfl, rfl⟩
    exact ⟨_, rfl⟩
  · refine wp_sound (Q := fun o _ => ∃ y, o = .error (.thrown y) ∧ y.code = some .EISDIR ∧ y.path1 = p) ?_ h hl'
    refine wp_bind (wp_mono ?_ (hb true _))
    rintro o s ⟨rfl, rfl⟩
    exact ⟨_, rfl, rfl, rfl⟩
  · refine wp_sound (Q := fun o _ => ∃ e, o = .ok ((x.links.setWidth 64, e), .ref none)) ?_ h hl'
    refine wp_bind (wp_mono ?_ (hb false _))
    rintro o s ⟨rfl, rfl⟩
    refine wp_bind (wp_mono ?_ (Win.wp_updateExtra D _ ck p (listed .directory) none noHandles rfl rfl))
    rintro o s ⟨rfl, ⟨y, hy, rfl⟩ | ⟨e, rfl, h1⟩⟩
    · rw [hg] at hy
      cases hy
      exact ⟨_, rfl⟩
    · rw [h1 hw] at hg
      cases hg
  · refine wp_sound (Q := fun o _ => ∃ e, o = .ok ((true, e), .null)) ?_ h hl'
    refine wp_bind (wp_bind (wp_mono ?_ (hb true _)))
    rintro o s ⟨rfl, rfl⟩
    exact ⟨_, rfl⟩
  · refine wp_sound (Q := fun o _ => ∃ e, o = .ok ((f { type := .directory }, e), .null)) ?_ h hl'
    refine wp_bind (wp_bind (wp_mono ?_ (hb true _)))
    rintro o s ⟨rfl, rfl⟩
    exact ⟨_, rfl⟩
  · refine wp_sound (Q := fun o _ => ∃ e, o = .ok ((false, e), .null)) ?_ h hl'
    refine wp_bind (wp_bind (wp_bind (wp_mono ?_ (hb false _))))
    rintro o s ⟨rfl, rfl⟩
    exact ⟨_, rfl⟩

/-- Failed, without a code. -/
def LateThrow {α : Type} (p : Path) (o : Except Stop α) : Prop :=
  o = .error (.fault .assertFail) ∨ ∃ y, o = .error (.thrown y) ∧ y.path1 = p

theorem lateThrow_bind {α β : Type} {p : Path} {step : Handles → Event → Handles → Prop} {q : Prog α} {f : α → Prog β} {s : Handles}
    (h : wp step (fun o _ => LateThrow p o) q s) : wp step (fun o _ => LateThrow p o) (q.bind f) s := by
  refine wp_bind (wp_mono ?_ h)
  rintro o s (rfl | ⟨y, rfl, hy⟩)
  · exact .inl rfl
  · exact .inr ⟨y, rfl, hy⟩

/-- **C80** fails: an entry made for a path where later there is a plain file. With a code every question but the predicates
fails an assertion; the predicates answer as for nothing, with an error. Without a code every question throws or fails an
assertion. -/
theorem c80_late_violated (D : WinDisk) (ck : SysClock) (p : Path) (x : WinObj) (t : List Event) (hs : Handles)
    (hx : D.look p.pathname = some x) (hp : x.tag = none) (hd : x.dir = false)
    (hl : Steps (WinLaw D) noHandles t hs) (ht : ∀ e ∈ t, NoDevice e) :
    (∀ c o, Exec (Win.getSize ck ⟨p, .reset⟩ (.ref c)) t o → o = .error (.fault .assertFail)) ∧
    (∀ c o, Exec (Win.getHardLinkCount ck ⟨p, .reset⟩ (.ref c)) t o → o = .error (.fault .assertFail)) ∧
    (∀ c o, Exec (Win.getLastWriteTime ck ⟨p, .reset⟩ (.ref c)) t o → o = .error (.fault .assertFail)) ∧
    (∀ c o, Exec (Win.getStatus ck ⟨p, .reset⟩ (.ref c)) t o → o = .error (.fault .assertFail)) ∧
    (∀ c o, Exec (Win.getSymLinkStatus ck ⟨p, .reset⟩ (.ref c)) t o → o = .error (.fault .assertFail)) ∧
    (∀ f c o, Exec (Win.Entry.isType f ⟨p, .reset⟩ (.ref c)) t o →
      o = .error (.fault .assertFail) ∨ ∃ e m, o = .ok ((f { type := .none }, e), .ref (some m))) ∧
    (∀ (a : Ask) o, Exec (a.onWindows ck ⟨p, .reset⟩ .null) t o →
      o = .error (.fault .assertFail) ∨ ∃ y, o = .error (.thrown y) ∧ y.path1 = p) := by
  have hl' := steps_and hl ht
  have hb := Win.wp_updateBasic_file D p x noHandles hx hp hd
  refine ⟨fun c o h => ?_, fun c o h => ?_, fun c o h => ?_, fun c o h => ?_, fun c o h => ?_, fun f c o h => ?_, fun a o h => ?_⟩
  · refine wp_sound (Q := fun o _ => o = .error (.fault .assertFail)) ?_ h hl'
    refine wp_bind (wp_mono ?_ (hb true _))
    rintro o s (rfl | ⟨h, -⟩ | ⟨-, k, m, rfl, hk, hk'⟩)
    · rfl
    · cases h
    · rcases hk' with hk' | hk' <;>
        simp [hk', FStatus.exists', FStatus.known, FStatus.isRegular, Win.updateExtra_late ck ⟨p, k⟩ _ hk, wp]
  · refine wp_sound (Q := fun o _ => o = .error (.fault .assertFail)) ?_ h hl'
    refine wp_bind (wp_mono ?_ (hb false _))
    rintro o s (rfl | ⟨h, -⟩ | ⟨-, k, m, rfl, hk, hk'⟩)
    · rfl
    · cases h
    · simp [Win.updateExtra_late ck ⟨p, k⟩ _ hk, wp]
  · refine wp_sound (Q := fun o _ => o = .error (.fault .assertFail)) ?_ h hl'
    refine wp_bind (wp_bind (wp_mono ?_ (hb true _)))
    rintro o s (rfl | ⟨h, -⟩ | ⟨-, k, m, rfl, hk, hk'⟩)
    · rfl
    · cases h
    · show wp _ _ (Win.updateExtra ck ⟨p, k⟩ (.ref (some m))) _
      rw [Win.updateExtra_late ck ⟨p, k⟩ _ hk]
      rfl
  · refine wp_sound (Q := fun o _ => o = .error (.fault .assertFail)) ?_ h hl'
    refine wp_bind (wp_bind (wp_mono ?_ (hb true _)))
    rintro o s (rfl | ⟨h, -⟩ | ⟨-, k, m, rfl, hk, hk'⟩)
    · rfl
    · cases h
    · simp [Win.updateExtra_late ck ⟨p, k⟩ _ hk, wp]
  · refine wp_sound (Q := fun o _ => o = .error (.fault .assertFail)) ?_ h hl'
    refine wp_bind (wp_bind (wp_mono ?_ (hb false _)))
    rintro o s (rfl | ⟨h, -⟩ | ⟨-, k, m, rfl, hk, hk'⟩)
    · rfl
    · cases h
    · simp [Win.updateExtra_late ck ⟨p, k⟩ _ hk, wp]
  · refine wp_sound (Q := fun o _ => o = .error (.fault .assertFail) ∨ ∃ e m, o = .ok ((f { type := .none }, e), .ref (some m))) ?_ h hl'
    refine wp_bind (wp_bind (wp_mono ?_ (hb true _)))
    rintro o s (rfl | ⟨h, -⟩ | ⟨-, k, m, rfl, hk, hk'⟩)
    · exact .inl rfl
    · cases h
    · exact .inr ⟨_, m, rfl⟩
  · have hn : ∀ b, wp (fun s e s' => WinLaw D s e s' ∧ NoDevice e) (fun o _ => LateThrow p o) (Win.updateBasic b ⟨p, .reset⟩ .null) noHandles := by
      intro b
      refine wp_mono ?_ (hb b _)
      rintro o s (rfl | ⟨-, y, rfl, hy⟩ | ⟨h, -⟩)
      · exact .inl rfl
      · exact .inr ⟨y, rfl, hy⟩
      · exact absurd rfl h
    refine wp_sound (Q := fun o _ => LateThrow p o) ?_ h hl'
    cases a with
    | exists' => exact lateThrow_bind (lateThrow_bind (lateThrow_bind (hn true)))
    | is g => exact lateThrow_bind (lateThrow_bind (lateThrow_bind (hn true)))
    | isSymlink => exact lateThrow_bind (lateThrow_bind (lateThrow_bind (lateThrow_bind (hn false))))
    | fileSize => exact lateThrow_bind (lateThrow_bind (hn true))
    | hardLinkCount => exact lateThrow_bind (lateThrow_bind (hn false))
    | lastWriteTime => exact lateThrow_bind (lateThrow_bind (lateThrow_bind (hn true)))
    | status => exact lateThrow_bind (lateThrow_bind (lateThrow_bind (hn true)))
    | symlinkStatus => exact lateThrow_bind (lateThrow_bind (lateThrow_bind (hn false)))

/-- **C80**: `refresh` and `assign` forget what the entry knew: they give what an entry newly made for the path has, after the
same calls. -/
theorem c80_refresh_anew (ck : SysClock) (e : Entry) (c : Code) (t : List Event) (o : Except Stop (Entry × EcArg)) :
    Exec (Win.refresh ck e (.ref c)) t o ↔ Exec (Win.Entry.new ck e.path) t o := Iff.rfl

/-- The sample's file `f` appears after the entry was made: `file_size(ec)` looks, finds it, and fails an assertion. -/
example (ck : SysClock) :
    let t : List Event := [⟨.win (.getAttrs "f".toList), (.ok 0x20#32 : Except Errno Mask)⟩,
      ⟨.win (.createFile "f".toList Win.noFollow), (.ok 4 : Except Errno Nat)⟩,
      ⟨.win (.infoByHandle 4), (.ok infoF : Except Errno WinInfo)⟩,
      ⟨.win (.getFileType 4), (1#32 : Mask)⟩, ⟨.win .lastError, (some .ENOENT : Option Errno)⟩,
      ⟨.win (.closeHandle 4), (.ok () : Except Errno Unit)⟩]
    Exec (Win.getSize ck ⟨mkPath .windows "f".toList, .reset⟩ (.ref none)) t (.error (.fault .assertFail)) :=
  feed_exec (by rfl)

end Asap
