import Verif.Props.WinO
import Verif.Props.WinF

/-!
# C80: `directory_entry` on Windows against the free functions

Entries as an iteration yields them: the type from the directory, nothing else known. Then entries made from a path.
-/

namespace Asap
open Spec

namespace Spec

/-- The cache of an entry of type `t` read from a directory before anything was asked of it. -/
def listed (t : FType) : Cache := { Cache.reset with cacheType := .basic, symlink := t == .symlink, type := t }

/-- What a directory tells of an object. -/
def FindOf (d : FindData) (x : WinObj) : Prop := AttrsOf d.attrs x ∧ ∀ tag, x.tag = some tag → d.tag = tag

/-- `GetFileType` answers neither "character device" nor "pipe". -/
def NoDevice (e : Event) : Prop :=
  ∀ (h : Nat) (r : Mask), e = ⟨.win (.getFileType h), r⟩ → r ≠ 0x0002#32 ∧ r ≠ 0x0003#32

/-- The user asks whether the second entry of a directory is a link. -/
def secondIsLink (n : Nat) (p : Path) : Prog (Option Bool) :=
  (Win.DirIter.new n p .none (.ref none)).bind fun x => (Win.DirIter.incr n x.1 (.ref none)).bind fun y =>
    match y.1 with
    | none => .ret none
    | some s => (Win.Entry.isSymlinkE s.entry (.ref none)).bind fun r => .ret (some r.1.1)

end Spec

namespace Win

/-- The first entry of a stream has the cache `listed`. -/
theorem setEntry_listed (s : Stream) (d : FindData) (hs : s.entry.cache = .reset) :
    All (fun s' => s'.entry.cache = listed (typeOfFind d)) (setEntry s d) := by
  unfold setEntry
  refine All.bind (All.trivial _) fun p _ => .ret _ ?_
  dsimp only
  rw [hs]
  rcases typeOfFind_spec d with ⟨h1, h2⟩ | ⟨h1, h2, _⟩ | ⟨h1 | h1, h2, _⟩ <;> simp [h1, listed, Cache.reset] <;> decide

/-- `UpdateExtraFileInformation` of what is not a link: the number of names of the goal, nothing else. -/
theorem wp_updateExtra (D : WinDisk) (w : Prop) (ck : SysClock) (p : Path) (k : Cache) (c : Code) (hs : Handles)
    (hk : k.cacheType = .basic) (hl : k.symlink = false) :
    wp (LawW D w) (fun o hs' => hs' = hs ∧
        ((∃ x, D.goal p.pathname = some x ∧
            o = .ok (⟨p, { k with nlink := x.links.setWidth 64, cacheType := .extra }⟩, .ref none)) ∨
          ∃ e, o = .ok (⟨p, k⟩, .ref (some e)) ∧ (w → D.goal p.pathname = none)))
      (updateExtra ck ⟨p, k⟩ (.ref c)) hs := by
  unfold updateExtra
  simp only [hk, ne_eq, not_true, false_and, if_false, clear_ref]
  refine wp_bind (wp_withFile' (fun e h1 h2 => ?_) ?_)
  · exact ⟨rfl, .inr ⟨e, rfl, fun hw => h1 (h2 hw)⟩⟩
  · intro h x s hx hh _
    have hx : D.goal p.pathname = some x := hx
    rintro (e | i) s' ⟨⟨rfl, h1⟩, h2⟩
    · exact ⟨rfl, trivial, rfl, .inr ⟨e, rfl, fun hw => absurd (h2 hw) h1⟩⟩
    · obtain ⟨y, hy, hi⟩ := h1
      rw [hh] at hy
      cases hy
      refine ⟨rfl, trivial, ?_⟩
      simp only [Bool.not_true, Bool.false_eq_true, if_false, hl]
      exact ⟨rfl, .inl ⟨x, hx, by rw [hi.2.2.2.2.2]⟩⟩

theorem wp_handlePerms (D : WinDisk) (w : Prop) (p : Path) (hs : Handles) :
    wp (LawW D w) (fun o hs' => hs' = hs ∧ ((∃ prms, o = .ok (some prms, none)) ∨
        ∃ m e, o = .ok (m, some e) ∧ (w → D.goal p.pathname = none)))
      (handlePerms p follow) hs := by
  refine wp_withFile' (fun e h1 h2 => ⟨rfl, .inr ⟨_, e, rfl, fun hw => h1 (h2 hw)⟩⟩) ?_
  intro h x s hx hh _
  rintro (e | a) s' ⟨⟨rfl, h1⟩, h2⟩
  · exact ⟨rfl, trivial, rfl, .inr ⟨_, e, rfl, fun hw => absurd (h2 hw) h1⟩⟩
  rintro (e | a) s' ⟨⟨rfl, h3⟩, h4⟩
  · exact ⟨rfl, trivial, rfl, .inr ⟨_, e, rfl, fun hw => D.missing _ (h3 (h4 hw))⟩⟩
  · exact ⟨rfl, trivial, rfl, .inl ⟨_, rfl⟩⟩

/-- `GetFileType` of a listed link that is no directory stops at the link. -/
theorem wp_getFileType_link (D : WinDisk) (w : Prop) (p : Path) (x : WinObj) (tag : BitVec 32)
    (hx : D.look p.pathname = some x) (hd : x.dir = false) (htag : x.tag = some tag) (ht : isLinkTag tag = true)
    (hs : Handles) :
    wp (LawW D w) (fun (o : Except Stop ((FType × Entry) × EcArg)) _ => ∀ r, o = .ok r → r.1.1 = .reparse)
      (getFileType ⟨p, listed .symlink⟩ .null) hs := by
  unfold getFileType
  dsimp only
  rw [if_pos (.inr ⟨rfl, rfl⟩)]
  refine wp_bind ?_
  rintro (e | a) s ⟨⟨rfl, h1⟩, h2⟩
  · intro _ h
    cases h
  obtain ⟨y, hy, ha⟩ := h1
  rw [hx] at hy
  cases hy
  dsimp only [basicReparse]
  simp only [has_reparse, has_directory, ha.1, ha.2, hd, htag, Option.isSome_some, if_true]
  rw [Prog.bind_assoc]
  refine wp_bind (wp_mono ?_ (wp_isReparsePointSymlink D w p none x hx s))
  rintro o s ⟨rfl, ⟨tag', ht', rfl⟩ | ⟨hw, e, rfl⟩⟩
  · rw [htag] at ht'
    cases ht'
    simp only [ht, EcArg.isSet, Bool.false_eq_true, if_false, if_true, Prog.ret_bind, ne_eq, not_true,
      Bool.and_true, decide_true, Bool.or_true]
    refine wp_bind (wp_withFile' (fun e h1 h2 => ?_) ?_)
    · intro _ h
      cases h
    · intro h y s hy hh _
      rintro (e | i) s' ⟨⟨rfl, h1⟩, h2⟩
      · refine ⟨rfl, trivial, ?_⟩
        intro _ h
        cases h
      · dsimp only
        rw [has_reparse, ha.2, htag]
        refine ⟨rfl, trivial, ?_⟩
        intro _ h
        cases h
        rfl
  · intro _ h
    cases h

/-- A scope with an open file. -/
theorem tp_withFile {α : Type} {Q : α → Prop} {p : Path} {o : WinOpen} {fail : Errno → Prog α} {body : Nat → Prog α}
    (hf : ∀ e, Only (fun _ => True) Q (fail e)) (hb : ∀ h, Only (fun _ => True) Q (body h)) :
    Only (fun _ => True) Q (withFile p o fail body) := by
  refine .call _ _ trivial ?_
  rintro (e | h)
  · exact hf e
  · exact (hb h).finally' (.call _ _ trivial fun _ => .ret _ trivial)

theorem tp_report {α : Type} (h : Handler) (ec : EcArg) (c : Code) (x : α) :
    Only (fun _ => True) (fun _ => True) (h.report ec c x) := by
  unfold Handler.report
  split
  · exact .ret _ trivial
  · exact .stop _

theorem tp_reportMsg {α : Type} (h : Handler) (ec : EcArg) (c : Code) (m : Str) (x : α) :
    Only (fun _ => True) (fun _ => True) (h.reportMsg ec c m x) := by
  unfold Handler.reportMsg
  split
  · exact .ret _ trivial
  · exact .stop _

theorem tp_updateExtra (ck : SysClock) (e : Entry) (ec : EcArg) :
    Only (fun _ => True) (fun r => r.1.cache.type = e.cache.type) (updateExtra ck e ec) := by
  unfold updateExtra
  dsimp only
  split
  · exact .stop _
  · refine Only.bind (Q := fun r : Cache × Bool × EcArg => r.1.type = e.cache.type) (tp_withFile ?_ ?_) ?_
    · exact fun _ => (tp_report _ _ _ _).bind fun _ _ => .ret _ rfl
    · intro h
      refine .call _ _ trivial ?_
      rintro (_ | _)
      · exact (tp_report _ _ _ _).bind fun _ _ => .ret _ rfl
      · exact .ret _ rfl
    · rintro ⟨k, b, ec⟩ hk
      split
      · exact .ret _ hk
      · split
        · refine Only.bind (Q := fun r : Cache × EcArg => r.1.type = e.cache.type) (tp_withFile ?_ ?_) ?_
          · exact fun _ => (tp_report _ _ _ _).bind fun _ _ => .ret _ hk
          · intro h
            refine .call _ _ trivial ?_
            rintro (_ | i)
            · exact (tp_report _ _ _ _).bind fun _ _ => .ret _ hk
            · dsimp only
              split
              · exact (tp_reportMsg _ _ _ _ _).bind fun _ _ => .ret _ hk
              · refine .call _ _ trivial ?_
                rintro (_ | ft)
                · exact (tp_report _ _ _ _).bind fun _ _ => .ret _ hk
                · refine Only.bind (Q := fun _ => True) ?_ fun _ _ => .ret _ hk
                  cases fromWindowsFileTime ck ft
                  · exact .stop _
                  · exact .ret _ trivial
          · exact fun _ hk => .ret _ hk
        · exact .ret _ hk

theorem tp_handlePerms (p : Path) (o : WinOpen) : Only (fun _ => True) (fun _ => True) (handlePerms p o) := by
  refine tp_withFile (fun _ => .ret _ trivial) fun h => .call _ _ trivial ?_
  rintro (_ | a)
  · exact .ret _ trivial
  · refine .call _ _ trivial ?_
    rintro (_ | a)
    · exact .ret _ trivial
    · exact .ret _ trivial

theorem tp_updatePerms (fl : Bool) (e : Entry) (ec : EcArg) :
    Only (fun _ => True) (fun r => r.1.cache.type = e.cache.type) (updatePerms fl e ec) := by
  unfold updatePerms
  dsimp only
  split
  · exact .stop _
  · refine (tp_handlePerms _ _).bind ?_
    rintro ⟨m, x⟩ -
    have key : ∀ k : Cache, k.type = e.cache.type → Only (fun _ => True) (fun r : Entry × EcArg => r.1.cache.type = e.cache.type)
        (if x ≠ none then ((Handler.report ⟨"UpdatePermissionsInformation".toList, some e.path, none⟩ ec.clear x ()).bind
            fun x => .ret ({ e with cache := k }, x.2))
          else if (k.symlink && fl) = true then
            (handlePerms e.path noFollow).bind fun y =>
              let c := match y.1 with
                | none => k
                | some prms => { k with nonSymlinkPerms := prms }
              if y.2 ≠ none then
                (Handler.report ⟨"UpdatePermissionsInformation".toList, some e.path, none⟩ ec.clear y.2 ()).bind
                  fun x => .ret ({ e with cache := c }, x.2)
              else .ret ({ e with cache := { c with permsResolved := true, cacheType := .full } }, ec.clear)
          else .ret ({ e with cache := { k with cacheType := .full } }, ec.clear)) := by
      intro k hk
      split
      · exact (tp_report _ _ _ _).bind fun _ _ => .ret _ hk
      · split
        · refine (tp_handlePerms _ _).bind ?_
          rintro ⟨m, x⟩ -
          dsimp only
          split
          · refine (tp_report _ _ _ _).bind fun _ _ => .ret _ ?_
            cases m <;> exact hk
          · refine .ret _ ?_
            cases m <;> exact hk
        · exact .ret _ hk
    refine key _ ?_
    cases m with
    | none => rfl
    | some prms =>
      dsimp only
      split <;> rfl

end Win
open Win

/-! ## C80 -/

/-- **C80**, partial: `hard_link_count` of an entry that is not a link is that of the free function. -/
theorem c80_hard_link_count_partial (D : WinDisk) (ck : SysClock) (p : Path) (ty : FType) (c : Code) (t : List Event)
    (o : Except Stop ((BitVec 64 × Entry) × EcArg)) (hs : Handles) (hty : ty ≠ .symlink)
    (h : Exec (Win.getHardLinkCount ck ⟨p, listed ty⟩ (.ref c)) t o) (hl : Steps (WinLaw D) noHandles t hs) :
    SaysNumber (D.goal p.pathname) (fun _ => True) (fun x => x.links.setWidth 64) (∀ e ∈ t, WinWilling e)
      (o.map fun r => (r.1.1, r.2)) := by
  refine wp_sound (Q := fun o _ => SaysNumber (D.goal p.pathname) (fun _ => True) (fun x => x.links.setWidth 64)
    (∀ e ∈ t, WinWilling e) (o.map fun r => (r.1.1, r.2))) ?_ h (steps_lawW hl)
  refine wp_bind (wp_mono ?_ (wp_updateExtra D _ ck p (listed ty) none _ rfl (by simp [listed, hty])))
  rintro o s ⟨-, ⟨x, hx, rfl⟩ | ⟨e, rfl, hw⟩⟩
  · refine ⟨.inl ⟨x, hx, trivial, rfl⟩, fun _ y hy _ => ?_⟩
    rw [hx] at hy
    cases hy
    rfl
  · refine ⟨.inr ⟨e, rfl⟩, fun h y hy _ => ?_⟩
    rw [hw h] at hy
    cases hy

/-- **C80** fails: `file_size` of an entry that is not a link is always -1. If the file exists and the system is willing,
the code is clear. -/
theorem c80_violated_size (D : WinDisk) (ck : SysClock) (p : Path) (ty : FType) (c : Code) (t : List Event)
    (o : Except Stop ((BitVec 64 × Entry) × EcArg)) (hs : Handles) (hty : ty ≠ .symlink)
    (h : Exec (Win.getSize ck ⟨p, listed ty⟩ (.ref c)) t o) (hl : Steps (WinLaw D) noHandles t hs) :
    ∃ e ec, o = .ok ((-1, e), ec) ∧ (D.goal p.pathname ≠ none → (∀ e ∈ t, WinWilling e) → ec = .ref none) := by
  refine wp_sound (Q := fun o _ => ∃ e ec, o = .ok ((-1, e), ec) ∧
    (D.goal p.pathname ≠ none → (∀ e ∈ t, WinWilling e) → ec = .ref none)) ?_ h (steps_lawW hl)
  refine wp_bind (wp_mono ?_ (wp_updateExtra D _ ck p (listed ty) none _ rfl (by simp [listed, hty])))
  rintro o s ⟨-, ⟨x, hx, rfl⟩ | ⟨e, rfl, hw⟩⟩
  · exact ⟨_, _, rfl, fun _ _ => rfl⟩
  · exact ⟨_, _, rfl, fun h h' => absurd (hw h') h⟩

/-- **C80** fails: `last_write_time` of an entry that is not a link is always the least time, with the error `EOVERFLOW`. -/
theorem c80_violated_time (D : WinDisk) (ck : SysClock) (p : Path) (ty : FType) (c : Code) (t : List Event)
    (o : Except Stop ((Int × Entry) × EcArg)) (hs : Handles) (hty : ty ≠ .symlink) (hx : FStatus.exists' { type := ty } = true)
    (h : Exec (Win.getLastWriteTime ck ⟨p, listed ty⟩ (.ref c)) t o) (hl : Steps (WinLaw D) noHandles t hs) :
    ∃ e, o = .ok ((timeMin, e), .ref (some .EOVERFLOW)) := by
  refine wp_sound (Q := fun o _ => ∃ e, o = .ok ((timeMin, e), .ref (some .EOVERFLOW))) ?_ h (steps_lawW (D := D) hl)
  refine wp_bind (wp_mono ?_ (wp_updateExtra D _ ck p (listed ty) none _ rfl (by simp [listed, hty])))
  rintro o s ⟨-, ⟨x, hx', rfl⟩ | ⟨e, rfl, hw⟩⟩ <;>
  · dsimp only [listed, Cache.reset]
    rw [hx]
    exact ⟨_, rfl⟩

/-- **C80**, partial: `status` of an entry that is not a link, when it answers, has the type from the directory. If the
file exists and the system is willing, it answers. -/
theorem c80_status_partial (D : WinDisk) (ck : SysClock) (p : Path) (ty : FType) (c : Code) (t : List Event)
    (o : Except Stop ((FStatus × Entry) × EcArg)) (hs : Handles) (hty : ty ≠ .symlink) (hx : D.goal p.pathname ≠ none)
    (h : Exec (Win.getStatus ck ⟨p, listed ty⟩ (.ref c)) t o) (hl : Steps (WinLaw D) noHandles t hs)
    (hw : ∀ e ∈ t, WinWilling e) :
    ∃ prms e, o = .ok ((⟨ty, prms⟩, e), .ref none) := by
  refine wp_sound (Q := fun o _ => ∃ prms e, o = .ok ((⟨ty, prms⟩, e), .ref none)) ?_ h (steps_lawW (D := D) hl)
  unfold Win.getStatus
  simp only [show (listed ty).cacheType = .basic from rfl, clear_ref]
  rw [Prog.bind_assoc]
  refine wp_bind (wp_mono ?_ (wp_updateExtra D _ ck p (listed ty) none _ rfl (by simp [listed, hty])))
  rintro o s ⟨-, ⟨x, hx', rfl⟩ | ⟨e, rfl, hn⟩⟩
  · have hsym : (ty == FType.symlink) = false := by simp [hty]
    dsimp only [Win.updatePerms, listed, Cache.reset]
    simp only [ne_eq, not_true, false_and, if_false, clear_ref, hsym, Bool.false_eq_true]
    rw [Prog.bind_assoc]
    refine wp_bind (wp_mono ?_ (wp_handlePerms D _ p _))
    rintro o s ⟨-, ⟨prms, rfl⟩ | ⟨m, e, rfl, hn⟩⟩
    · exact ⟨_, _, rfl⟩
    · exact absurd (hn hw) hx
  · exact absurd (hn hw) hx

/-- **C80**, partial: the permissions in `status` are those the system tells for the entry's path. -/
theorem c80_status_perms (m : Str → Perms) (ck : SysClock) (p : Path) (ty : FType) (c : Code) (t : List Event) (st : FStatus)
    (e : Entry) (hty : ty ≠ .symlink)
    (h : Exec (Win.getStatus ck ⟨p, listed ty⟩ (.ref c)) t (.ok ((st, e), .ref none)))
    (hm : ∀ e ∈ t, ∀ (s : Str) (a : Mask) (prms : Mode), e = ⟨.win (.getPerms s a), (.ok prms : Except Errno Mode)⟩ → prms = m s) :
    st.perms = m p.pathname := by
  refine wp_sound (Q := fun (o : Except Stop ((FStatus × Entry) × EcArg)) _ => ∀ st e, o = .ok ((st, e), .ref none) →
    st.perms = m p.pathname) ?_ h (steps_each hm) _ _ rfl
  have hsym : (ty == FType.symlink) = false := by simp [hty]
  unfold Win.getStatus
  simp only [show (listed ty).cacheType = .basic from rfl, clear_ref]
  rw [Prog.bind_assoc]
  refine wp_bind ?_
  unfold Win.updateExtra
  simp only [show (listed ty).cacheType = .basic from rfl, ne_eq, not_true, false_and, if_false, clear_ref]
  refine wp_bind ?_
  rintro (e | k) s -
  · intro _ _ h
    cases h
  refine wp_finally ?_
  rintro (e | i) s' -
  · exact ⟨fun _ _ _ _ _ _ h => (by cases h), fun h => absurd trivial h⟩
  refine ⟨fun _ _ _ _ => ?_, fun h => absurd trivial h⟩
  dsimp only [Win.updatePerms, listed, Cache.reset]
  simp only [if_false, hsym, Bool.false_eq_true, Bool.not_true]
  refine wp_bind (wp_bind ?_)
  rintro (e | k') s -
  · intro _ _ h
    cases h
  refine wp_finally ?_
  rintro (e | a) s' -
  · exact ⟨fun _ _ _ _ _ _ h => (by cases h), fun h => absurd trivial h⟩
  rintro (e | prms) s'' hp
  · exact ⟨fun _ _ _ _ _ _ h => (by cases h), fun h => absurd trivial h⟩
  · refine ⟨fun _ _ _ _ _ _ h => ?_, fun h => absurd trivial h⟩
    cases h
    exact hp _ _ _ rfl

/-- **C80** fails: `status` and `symlink_status` of an entry whose file is gone or cannot be opened end in a failed assertion, error
code or not. -/
theorem c80_violated_gone (D : WinDisk) (ck : SysClock) (p : Path) (ty : FType) (c : Code) (t : List Event)
    (o : Except Stop ((FStatus × Entry) × EcArg)) (hs : Handles) (hty : ty ≠ .symlink) (hx : D.goal p.pathname = none)
    (h : Exec (Win.getStatus ck ⟨p, listed ty⟩ (.ref c)) t o ∨ Exec (Win.getSymLinkStatus ck ⟨p, listed ty⟩ (.ref c)) t o)
    (hl : Steps (WinLaw D) noHandles t hs) : o = .error (.fault .assertFail) := by
  rcases h with h | h
  all_goals
    refine wp_sound (Q := fun o _ => o = .error (.fault .assertFail)) ?_ h (steps_lawW (D := D) hl)
    first | unfold Win.getStatus | unfold Win.getSymLinkStatus
    simp only [show (listed ty).cacheType = .basic from rfl, clear_ref]
    rw [Prog.bind_assoc]
    refine wp_bind (wp_mono ?_ (wp_updateExtra D _ ck p (listed ty) none _ rfl (by simp [listed, hty])))
    rintro o s ⟨-, ⟨x, hx', rfl⟩ | ⟨e, rfl, hn⟩⟩
    · rw [hx] at hx'
      cases hx'
    · rfl

/-- **C80** fails: `symlink_status` of an entry that is not a link never tells the permissions. -/
theorem c80_violated_symlink_status (D : WinDisk) (ck : SysClock) (p : Path) (ty : FType) (c : Code) (t : List Event)
    (st : FStatus) (e : Entry) (ec : EcArg) (hs : Handles) (hty : ty ≠ .symlink)
    (h : Exec (Win.getSymLinkStatus ck ⟨p, listed ty⟩ (.ref c)) t (.ok ((st, e), ec))) (hl : Steps (WinLaw D) noHandles t hs) :
    st = ⟨ty, Perms.unknown⟩ := by
  refine wp_sound (Q := fun (o : Except Stop ((FStatus × Entry) × EcArg)) _ => ∀ st e ec, o = .ok ((st, e), ec) →
    st = ⟨ty, Perms.unknown⟩) ?_ h (steps_lawW (D := D) hl) _ _ _ rfl
  unfold Win.getSymLinkStatus
  simp only [show (listed ty).cacheType = .basic from rfl, clear_ref]
  rw [Prog.bind_assoc]
  refine wp_bind (wp_mono ?_ (wp_updateExtra D _ ck p (listed ty) none _ rfl (by simp [listed, hty])))
  rintro o s ⟨-, ⟨x, hx', rfl⟩ | ⟨e, rfl, hn⟩⟩
  · have hsym : (ty == FType.symlink) = false := by simp [hty]
    dsimp only [Win.updatePerms, listed, Cache.reset]
    simp only [ne_eq, not_true, false_and, if_false, clear_ref, hsym, Bool.false_eq_true]
    rw [Prog.bind_assoc]
    refine wp_bind (wp_mono ?_ (wp_handlePerms D _ p _))
    rintro o s ⟨-, ⟨prms, rfl⟩ | ⟨m, e, rfl, hn⟩⟩
    · intro _ _ _ h
      cases h
      rfl
    · intro _ _ _ h
      cases m <;> (cases h; rfl)
  · intro _ _ _ h
    cases h

/-- **C80** fails: `status` of a listed link, when it answers, says `symlink`: the type is not that of what the link
leads to. -/
theorem c80_violated_status (ck : SysClock) (p : Path) (ec : EcArg) (t : List Event) (st : FStatus) (e : Entry) (ec' : EcArg)
    (h : Exec (Win.getStatus ck ⟨p, listed .symlink⟩ ec) t (.ok ((st, e), ec'))) : st.type = .symlink := by
  have : Only (fun _ => True) (fun r => r.1.1.type = .symlink) (Win.getStatus ck ⟨p, listed .symlink⟩ ec) := by
    unfold Win.getStatus
    simp only [show (listed .symlink).cacheType = .basic from rfl]
    rw [Prog.bind_assoc]
    exact (tp_updateExtra _ _ _).bind fun _ h1 => (tp_updatePerms _ _ _).bind fun _ h2 => .ret _ (h2.trans h1)
  exact (this.exec h).2 _ rfl

/-- **C80**, partial: without a code, the predicates that follow links are right for what is no reparse point, or
throw. A willing system gets the truth. -/
theorem c80_type_partial (D : WinDisk) (f : FStatus → Bool) (p : Path) (x : WinObj) (t : List Event)
    (o : Except Stop ((Bool × Entry) × EcArg)) (hs : Handles) (hx : D.look p.pathname = some x) (hp : x.tag = none)
    (h : Exec (Win.Entry.isType f ⟨p, listed (fileKind (some x))⟩ .null) t o) (hl : Steps (WinLaw D) noHandles t hs) :
    ((∃ e, o = .ok ((f { type := fileKind (D.goal p.pathname) }, e), .null)) ∨ ∃ e, o = .error (.thrown e)) ∧
      ((∀ e ∈ t, WinWilling e) → ∃ e, o = .ok ((f { type := fileKind (D.goal p.pathname) }, e), .null)) := by
  refine wp_sound (Q := fun o _ => ((∃ e, o = .ok ((f { type := fileKind (D.goal p.pathname) }, e), .null)) ∨
    ∃ e, o = .error (.thrown e)) ∧ ((∀ e ∈ t, WinWilling e) →
    ∃ e, o = .ok ((f { type := fileKind (D.goal p.pathname) }, e), .null))) ?_ h (steps_lawW hl)
  rw [D.plain _ x hx hp]
  unfold Win.Entry.isType Win.getFileType
  dsimp only
  rw [if_pos (.inr ⟨rfl, rfl⟩)]
  refine wp_bind (wp_bind ?_)
  rintro (e | a) s ⟨⟨rfl, h1⟩, h2⟩
  · refine ⟨.inr ⟨_, rfl⟩, fun hw => ?_⟩
    rw [h1 (h2 hw)] at hx
    cases hx
  · obtain ⟨y, hy, ha⟩ := h1
    rw [hx] at hy
    cases hy
    dsimp only [basicReparse]
    simp only [has_reparse, has_directory, ha.1, ha.2, hp]
    cases hd : x.dir
    · simp only [hd, fileKind, Bool.false_eq_true, if_false]
      exact ⟨.inl ⟨_, rfl⟩, fun _ => ⟨_, rfl⟩⟩
    · simp only [hd, fileKind, if_true]
      exact ⟨.inl ⟨_, rfl⟩, fun _ => ⟨_, rfl⟩⟩

/-- **C80** fails: with a code, `exists` and all predicates that follow links answer as for nothing at all: `false`
whatever the entry is. -/
theorem c80_violated_code (e : Entry) (c : Code) (t : List Event) (b : Bool) (e' : Entry) (ec : EcArg) :
    (Exec (Win.Entry.existsE e (.ref c)) t (.ok ((b, e'), ec)) → b = false) ∧
    (Exec (Win.Entry.isType FStatus.isRegular e (.ref c)) t (.ok ((b, e'), ec)) → b = false) ∧
    (Exec (Win.Entry.isType FStatus.isDirectory e (.ref c)) t (.ok ((b, e'), ec)) → b = false) := by
  have key : ∀ f : FStatus → Bool, f { type := .none } = false →
      Exec ((Win.getFileType e (.ref c)).bind fun x => .ret ((f { type := x.1.1 }, x.1.2), x.2)) t (.ok ((b, e'), ec)) →
      b = false := by
    intro f hf h
    have : Only NoSearch (fun r : (Bool × Entry) × EcArg => r.1.1 = false)
        ((Win.getFileType e (.ref c)).bind fun x => .ret ((f { type := x.1.1 }, x.1.2), x.2)) :=
      (ns_getFileType e c).bind fun r hr => .ret _ (by rw [hr]; exact hf)
    exact (this.exec h).2 _ rfl
  exact ⟨key _ rfl, key _ rfl, key _ rfl⟩

/-- **C80** fails: without a code, `is_regular_file` and `exists` of a listed link that is no directory: never `true`
for the first, whatever it leads to, and `true` for the second, even where it leads to nothing, or an exception. -/
theorem c80_violated_follow (D : WinDisk) (p : Path) (x : WinObj) (t : List Event) (b : Bool) (e : Entry) (ec : EcArg)
    (hs : Handles) (hx : D.look p.pathname = some x) (hd : x.dir = false) (hp : linkKind (some x) = .symlink)
    (hl : Steps (WinLaw D) noHandles t hs) :
    (Exec (Win.Entry.isType FStatus.isRegular ⟨p, listed .symlink⟩ .null) t (.ok ((b, e), ec)) → b = false) ∧
    (Exec (Win.Entry.existsE ⟨p, listed .symlink⟩ .null) t (.ok ((b, e), ec)) → b = true) := by
  obtain ⟨tag, htag, ht⟩ : ∃ tag, x.tag = some tag ∧ isLinkTag tag = true := by
    unfold linkKind at hp
    cases htag : x.tag with
    | none => simp [htag, hd] at hp
    | some tag =>
      refine ⟨tag, rfl, (isLinkTag_iff tag).mpr ?_⟩
      simp only [htag] at hp
      split at hp
      · assumption
      · cases hp
  have key : ∀ f : FStatus → Bool,
      Exec ((Win.getFileType ⟨p, listed .symlink⟩ .null).bind fun x => .ret ((f { type := x.1.1 }, x.1.2), x.2)) t
        (.ok ((b, e), ec)) → b = f { type := .reparse } := by
    intro f h
    refine wp_sound (Q := fun (o : Except Stop ((Bool × Entry) × EcArg)) _ => ∀ r, o = .ok r →
      r.1.1 = f { type := .reparse }) ?_ h (steps_lawW (D := D) hl) _ rfl
    refine wp_bind (wp_mono ?_ (wp_getFileType_link D _ p x tag hx hd htag ht noHandles))
    rintro (st | r) s hr
    · intro _ h
      cases h
    · intro _ h
      cases h
      dsimp only
      rw [hr r rfl]
  exact ⟨key _, key _⟩

theorem isSymlinkE_listed (p : Path) (ty : FType) (ec : EcArg) (h : FStatus.exists' { type := ty } = true) :
    Win.Entry.isSymlinkE ⟨p, listed ty⟩ ec = .ret ((ty == .symlink, ⟨p, listed ty⟩), ec.clear) := by
  cases ty <;> first | rfl | cases h

/-- **C80**, partial: `is_symlink` of an entry is right if the directory told the truth and the entry is no directory
with a reparse point. -/
theorem c80_is_symlink_partial (p : Path) (d : FindData) (x : WinObj) (ec : EcArg) (hd : FindOf d x)
    (hp : x.dir = true → x.tag = none) :
    Win.Entry.isSymlinkE ⟨p, listed (typeOfFind d)⟩ ec =
      .ret ((decide (linkKind (some x) = .symlink), ⟨p, listed (typeOfFind d)⟩), ec.clear) := by
  obtain ⟨⟨h1, h2⟩, h3⟩ := hd
  have hk : typeOfFind d = linkKind (some x) := by
    unfold typeOfFind linkKind
    rw [has_directory, has_reparse, h1, h2]
    cases hx : x.dir with
    | true => simp [hp hx, hx]
    | false =>
      cases ht : x.tag with
      | none => simp [ht, hx]
      | some tag =>
        rw [h3 tag ht]
        simp only [Bool.false_eq_true, if_false, Option.isSome_some, if_true, isLinkTag_iff, ht]
  rw [isSymlinkE_listed, hk]
  · rfl
  · rcases typeOfFind_spec d with ⟨h, _⟩ | ⟨h, _⟩ | ⟨h | h, _⟩ <;> rw [h] <;> rfl

/-- **C80** fails: a directory that is a link or mount point is said to be none; a file listed after a link is said to be
a link. -/
theorem c80_violated_is_symlink :
    (∀ (p : Path) (d : FindData) (x : WinObj) (ec : EcArg), FindOf d x → x.dir = true → linkKind (some x) = .symlink →
      Win.Entry.isSymlinkE ⟨p, listed (typeOfFind d)⟩ ec = .ret ((false, ⟨p, listed (typeOfFind d)⟩), ec.clear)) ∧
    Exec (secondIsLink 9 (mkPath .windows "d".toList))
      [⟨.win (.findFirst "d\\*".toList), (.ok (7, linkNamed "a".toList) : Except Errno (Nat × FindData))⟩,
        gotNext 7 (fileNamed "b".toList)] (.ok (some true)) := by
  refine ⟨?_, feed_exec (by rfl)⟩
  rintro p d x ec ⟨⟨h1, h2⟩, h3⟩ hd -
  unfold typeOfFind
  rw [has_directory, h1, hd]
  rfl

/-- **C80** fails: an entry made from the path of a plain file is never made with a clear code, unless `GetFileType`
says that the file is a device or a pipe: the last error is reported although nothing failed, and without one an
assertion fails. -/
theorem c80_violated_construct (D : WinDisk) (ck : SysClock) (p : Path) (x : WinObj) (t : List Event)
    (o : Except Stop (Entry × EcArg)) (hs : Handles) (hx : D.look p.pathname = some x) (hp : x.tag = none) (hd : x.dir = false)
    (h : Exec (Win.Entry.new ck p) t o) (hl : Steps (WinLaw D) noHandles t hs) (ht : ∀ e ∈ t, NoDevice e) :
    (∃ (e : Entry) (m : Errno), o = .ok (e, .ref (some m))) ∨ o = .error (.fault .assertFail) := by
  refine wp_sound (Q := fun o _ => (∃ (e : Entry) (m : Errno), o = .ok (e, .ref (some m))) ∨
    o = .error (.fault .assertFail)) ?_ h (steps_and hl ht)
  unfold Win.Entry.new Win.refresh Win.refreshImpl
  rw [Prog.bind_assoc]
  refine wp_bind ?_
  rintro (e | a) s ⟨⟨rfl, h1⟩, -⟩
  · exact .inl ⟨_, e, rfl⟩
  obtain ⟨y, hy, ha⟩ := h1
  rw [hx] at hy
  cases hy
  dsimp only [basicReparse]
  simp only [has_reparse, has_directory, ha.1, ha.2, hd, hp]
  refine wp_bind (wp_bind ?_)
  rintro (e | k) s h2
  · exact .inl ⟨_, e, rfl⟩
  · refine wp_finally ?_
    rintro (e | i) s' h3
    · exact ⟨fun _ _ _ _ => .inl ⟨_, e, rfl⟩, fun h => absurd trivial h⟩
    · dsimp only
      rw [has_reparse, ha.2, hp, has_directory, ha.1, hd]
      intro ty s'' h4
      have h5 := h4.2 k ty rfl
      have h6 : ty ≠ FILE_TYPE_CHAR := h5.1
      have h7 : ty ≠ FILE_TYPE_PIPE := h5.2
      simp only [Bool.false_eq_true, if_false, h6, h7]
      rintro (_ | e) σ h8
      · exact ⟨fun h => h.elim, fun _ => .inr rfl⟩
      · exact ⟨fun _ _ _ _ => .inl ⟨_, e, rfl⟩, fun h => absurd trivial h⟩

/-! The sample's file `f` with 5 bytes and two names, its link `k` to it, and the missing `z`. -/

/-- The information on `f`. -/
def infoF : WinInfo := ⟨0x20#32, ⟨200, 0⟩, 7, 0, 5, 2, 0, 2⟩

/-- Opening `f`, asking for its information, closing it. -/
def askF : List Event :=
  [⟨.win (.createFile "f".toList Win.follow), (.ok 4 : Except Errno Nat)⟩,
    ⟨.win (.infoByHandle 4), (.ok infoF : Except Errno WinInfo)⟩,
    ⟨.win (.closeHandle 4), (.ok () : Except Errno Unit)⟩]

theorem askF_steps : ∃ hs, Steps (WinLaw sampleDisk) noHandles askF hs :=
  ⟨_, .cons ⟨rfl, _, rfl, rfl⟩ (.cons ⟨rfl, _, rfl, by unfold InfoOf AttrsOf; decide⟩ (.cons rfl (.nil _)))⟩

/-- `hard_link_count` is 2, `file_size` is -1 with a clear code (the free function says 5), `last_write_time` an error. -/
example (ck : SysClock) : (∃ hs, Steps (WinLaw sampleDisk) noHandles askF hs) ∧
    (∃ e, Exec (Win.getHardLinkCount ck ⟨mkPath .windows "f".toList, listed .regular⟩ (.ref none)) askF
      (.ok ((2, e), .ref none))) ∧
    (∃ e, Exec (Win.getSize ck ⟨mkPath .windows "f".toList, listed .regular⟩ (.ref none)) askF (.ok ((-1, e), .ref none))) ∧
    ∃ e, Exec (Win.getLastWriteTime ck ⟨mkPath .windows "f".toList, listed .regular⟩ (.ref none)) askF
      (.ok ((timeMin, e), .ref (some .EOVERFLOW))) :=
  ⟨askF_steps, ⟨_, feed_exec (by rfl)⟩, ⟨_, feed_exec (by rfl)⟩, _, feed_exec (by rfl)⟩

/-- `status` and `symlink_status` of the entry `f`. -/
example (ck : SysClock) :
    let t := askF ++ [⟨.win (.createFile "f".toList Win.follow), (.ok 4 : Except Errno Nat)⟩,
      ⟨.win (.attrTag 4), (.ok 0x20#32 : Except Errno (BitVec 32))⟩,
      ⟨.win (.getPerms "f".toList 0x20#32), (.ok 0x1b6#32 : Except Errno Mode)⟩,
      ⟨.win (.closeHandle 4), (.ok () : Except Errno Unit)⟩]
    (∃ hs, Steps (WinLaw sampleDisk) noHandles t hs) ∧ (∀ e ∈ t, WinWilling e) ∧
    (∃ e, Exec (Win.getStatus ck ⟨mkPath .windows "f".toList, listed .regular⟩ (.ref none)) t
      (.ok ((⟨.regular, 0x1b6#32⟩, e), .ref none))) ∧
    ∃ e, Exec (Win.getSymLinkStatus ck ⟨mkPath .windows "f".toList, listed .regular⟩ (.ref none)) t
      (.ok ((⟨.regular, Perms.unknown⟩, e), .ref none)) :=
  ⟨⟨_, .cons ⟨rfl, _, rfl, rfl⟩ (.cons ⟨rfl, _, rfl, by unfold InfoOf AttrsOf; decide⟩ (.cons rfl
      (.cons ⟨rfl, _, rfl, rfl⟩ (.cons ⟨rfl, _, rfl, by unfold AttrsOf; decide⟩ (.cons ⟨rfl, trivial⟩ (.cons rfl (.nil _)))))))⟩,
    by simp [askF, WinWilling], ⟨_, feed_exec (by rfl)⟩, _, feed_exec (by rfl)⟩

/-- The entry `z`, whose file is gone. -/
example (ck : SysClock) :
    let t : List Event := [⟨.win (.createFile "z".toList Win.follow), (.error .ENOENT : Except Errno Nat)⟩]
    (∃ hs, Steps (WinLaw sampleDisk) noHandles t hs) ∧
    Exec (Win.getStatus ck ⟨mkPath .windows "z".toList, listed .regular⟩ (.ref none)) t (.error (.fault .assertFail)) :=
  ⟨⟨_, .cons ⟨rfl, fun _ => rfl⟩ (.nil _)⟩, feed_exec (by rfl)⟩

/-- `is_regular_file` of the entry `f`, without a code and with one. -/
example :
    let t : List Event := [⟨.win (.getAttrs "f".toList), (.ok 0x20#32 : Except Errno (BitVec 32))⟩]
    (∃ hs, Steps (WinLaw sampleDisk) noHandles t hs) ∧
    (∃ e, Exec (Win.Entry.isType FStatus.isRegular ⟨mkPath .windows "f".toList, listed .regular⟩ .null) t
      (.ok ((true, e), .null))) ∧
    ∃ e, Exec (Win.Entry.isType FStatus.isRegular ⟨mkPath .windows "f".toList, listed .regular⟩ (.ref none)) t
      (.ok ((false, e), .ref none)) :=
  ⟨⟨_, .cons ⟨rfl, _, rfl, by unfold AttrsOf; decide⟩ (.nil _)⟩, ⟨_, feed_exec (by rfl)⟩, _, feed_exec (by rfl)⟩

/-- `is_regular_file` of the link `k` to the file `f`. -/
example :
    let t : List Event := [⟨.win (.getAttrs "k".toList), (.ok 0x420#32 : Except Errno (BitVec 32))⟩,
      ⟨.win (.createFile "k".toList Win.openReparse), (.ok 4 : Except Errno Nat)⟩,
      ⟨.win (.reparse 4), (.ok [0x000C#16, 0xA000#16] : Except Errno (List (BitVec 16)))⟩,
      ⟨.win (.closeHandle 4), (.ok () : Except Errno Unit)⟩,
      ⟨.win (.createFile "k".toList Win.noFollow), (.ok 4 : Except Errno Nat)⟩,
      ⟨.win (.infoByHandle 4), (.ok ⟨0x420#32, ⟨600, 0⟩, 7, 0, 0, 1, 0, 6⟩ : Except Errno WinInfo)⟩,
      ⟨.win (.closeHandle 4), (.ok () : Except Errno Unit)⟩]
    (∃ hs, Steps (WinLaw sampleDisk) noHandles t hs) ∧ fileKind (sampleDisk.goal "k".toList) = .regular ∧
    ∃ e, Exec (Win.Entry.isType FStatus.isRegular ⟨mkPath .windows "k".toList, listed .symlink⟩ .null) t
      (.ok ((false, e), .null)) :=
  ⟨⟨_, .cons ⟨rfl, _, rfl, by unfold AttrsOf; decide⟩ (.cons ⟨rfl, _, rfl, rfl⟩ (.cons ⟨rfl, _, rfl, by decide⟩ (.cons rfl
      (.cons ⟨rfl, _, rfl, rfl⟩ (.cons ⟨rfl, _, rfl, by unfold InfoOf AttrsOf; decide⟩ (.cons rfl (.nil _)))))))⟩, rfl,
    _, feed_exec (by rfl)⟩

/-- `directory_entry("f")`, when the last error is an old one. -/
example (ck : SysClock) :
    let t : List Event := [⟨.win (.getAttrs "f".toList), (.ok 0x20#32 : Except Errno (BitVec 32))⟩,
      ⟨.win (.createFile "f".toList Win.noFollow), (.ok 4 : Except Errno Nat)⟩,
      ⟨.win (.infoByHandle 4), (.ok infoF : Except Errno WinInfo)⟩,
      ⟨.win (.getFileType 4), (1#32 : Mask)⟩,
      ⟨.win .lastError, (some (.ofWin 18) : Code)⟩,
      ⟨.win (.closeHandle 4), (.ok () : Except Errno Unit)⟩]
    (∃ hs, Steps (WinLaw sampleDisk) noHandles t hs) ∧
    ∃ e, Exec (Win.Entry.new ck (mkPath .windows "f".toList)) t (.ok (e, .ref (some (.ofWin 18)))) :=
  ⟨⟨_, .cons ⟨rfl, _, rfl, by unfold AttrsOf; decide⟩ (.cons ⟨rfl, _, rfl, rfl⟩
      (.cons ⟨rfl, _, rfl, by unfold InfoOf AttrsOf; decide⟩ (.cons rfl (.cons rfl (.cons rfl (.nil _))))))⟩,
    _, feed_exec (by rfl)⟩

/-- A link in a directory. -/
example : FindOf (linkNamed "k".toList) ⟨false, some 0xA000000C#32, 7, 6, 0, 600, 1⟩ :=
  ⟨by unfold AttrsOf; decide, fun _ h => by cases h; rfl⟩

end Asap
