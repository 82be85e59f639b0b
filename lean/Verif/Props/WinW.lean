import Verif.Props.WinP
import Verif.Props.WinI

/-!
# C80: entries made from a path on Windows
-/

namespace Asap
open Spec

namespace Spec

/-- What an entry made for the directory `x` answers without asking the system. -/
structure MadeDir (ck : SysClock) (x : WinObj) (e : Entry) : Prop where
  exists' : Win.Entry.existsE e .null = .ret ((true, e), .null)
  type : ∀ f, Win.Entry.isType f e .null = .ret ((f { type := .directory }, e), .null)
  link : ∀ ec, Win.Entry.isSymlinkE e ec = .ret ((false, e), ec.clear)
  links : ∀ ec, Win.getHardLinkCount ck e ec = .ret ((x.links.setWidth 64, e), ec.clear)
  /-- the free function reports an error -/
  size : ∀ ec, Win.getSize ck e ec = .ret ((-1, e), ec.clear)

/-- What an entry made for the link `x` to `y` answers without asking the system. -/
structure MadeLink (ck : SysClock) (x y : WinObj) (e : Entry) : Prop where
  exists' : Win.Entry.existsE e .null = .ret ((true, e), .null)
  link : ∀ ec, Win.Entry.isSymlinkE e ec = .ret ((true, e), ec.clear)
  links : ∀ ec, Win.getHardLinkCount ck e ec = .ret ((y.links.setWidth 64, e), ec.clear)
  /-- neither the type of the link nor that of its goal -/
  type : ∀ f, Win.Entry.isType f e .null = .ret ((f { type := .reparse }, e), .null)
  /-- the size of the link -/
  size : ∀ ec, Win.getSize ck e ec = .ret ((x.size, e), ec.clear)
  /-- the time of the link -/
  time : ∀ ec, ∃ tm : Int, nanosSince1601 ck tm = seconds x * 1000000000 ∧
    (tm ≠ timeMin → Win.getLastWriteTime ck e ec = .ret ((tm, e), ec.clear))

end Spec

namespace Win

/-- A scope with an open file whose body may end in a fault. -/
theorem wp_withFile_fault {α : Type} {D : WinDisk} {w : Prop} {Q : Except Stop α → Handles → Prop} {p : Path} {o : WinOpen}
    {fail : Errno → Prog α} {body : Nat → Prog α} {hs : Handles}
    (hf : ∀ e, (Absent e → D.opened p.pathname o = none) → (w → Absent e) → wp (LawW D w) Q (fail e) hs)
    (hb : ∀ h x hs', D.opened p.pathname o = some x → hs' h = some x →
      wp (LawW D w) (fun o s => (s = hs' ∧ Unwinds o ∧ Q o hs) ∨ (¬ Unwinds o ∧ Q o s)) (body h) hs') :
    wp (LawW D w) Q (withFile p o fail body) hs := by
  rintro (e | h) hs' ⟨h1, h2⟩
  · obtain ⟨rfl, h1⟩ := h1
    exact hf e h1 h2
  · obtain ⟨hn, x, hx, rfl⟩ := h1
    refine wp_finally (wp_mono ?_ (hb h x _ hx (by simp)))
    rintro o s (⟨rfl, hu, ho⟩ | ⟨hu, ho⟩)
    · refine ⟨fun _ r s' hc => ?_, fun hn => absurd hu hn⟩
      have : s' = hs := by
        rw [hc.1]
        funext k
        by_cases hk : k = h
        · simp [hk, hn]
        · simp [hk]
      rw [this]
      exact ho
    · exact ⟨fun h => absurd h hu, fun _ => ho⟩

/-- `UpdateExtraFileInformation` of a link that is no directory: names of the goal, size and time of the link. -/
theorem wp_updateExtra_link (D : WinDisk) (w : Prop) (ck : SysClock) (p : Path) (k : Cache) (c : Code) (x : WinObj) (hs : Handles)
    (hk : k.cacheType = .basic) (hl : k.symlink = true) (hx : D.look p.pathname = some x) (hd : x.dir = false) :
    wp (LawW D w) (fun o hs' =>
        (∃ y t, hs' = hs ∧ D.goal p.pathname = some y ∧ nanosSince1601 ck t = seconds x * 1000000000 ∧
            o = .ok (⟨p, { k with nlink := y.links.setWidth 64, size := x.size, writeTime := t, extraResolved := true, cacheType := .extra }⟩, .ref none)) ∨
          (∃ k' e, o = .ok (⟨p, k'⟩, .ref (some e)) ∧ (w → D.goal p.pathname = none)) ∨
          ∃ f, o = .error (.fault f) ∧ ¬ Dated ck x)
      (updateExtra ck ⟨p, k⟩ (.ref c)) hs := by
  unfold updateExtra
  simp only [hk, ne_eq, not_true, false_and, if_false, clear_ref]
  refine wp_bind (wp_withFile' (fun e h1 h2 => ?_) ?_)
  · exact .inr (.inl ⟨_, e, rfl, fun hw => h1 (h2 hw)⟩)
  · intro h y s hy hh _
    have hy : D.goal p.pathname = some y := hy
    rintro (e | i) s' ⟨⟨rfl, h1⟩, h2⟩
    · exact ⟨rfl, trivial, .inr (.inl ⟨_, e, rfl, fun hw => absurd (h2 hw) h1⟩)⟩
    · obtain ⟨z, hz, hi⟩ := h1
      rw [hh] at hz
      cases hz
      refine ⟨rfl, trivial, ?_⟩
      simp only [Bool.not_true, Bool.false_eq_true, if_false, hl, if_true]
      refine wp_bind ?_
      unfold extraLink
      have ho : D.opened p.pathname noFollow = some x := hx
      refine wp_withFile_fault (fun e h3 h4 => ?_) ?_
      · refine .inr (.inl ⟨_, e, rfl, fun hw => ?_⟩)
        have := h3 (h4 hw)
        rw [ho] at this
        cases this
      · intro h' z s2 hz hh2
        rw [ho] at hz
        cases hz
        rintro (e | j) s3 ⟨⟨rfl, h5⟩, h6⟩
        · exact .inl ⟨rfl, trivial, .inr (.inl ⟨_, e, rfl, fun hw => absurd (h6 hw) h5⟩)⟩
        · obtain ⟨z, hz, hj⟩ := h5
          rw [hh2] at hz
          cases hz
          dsimp only
          rw [has_directory, hj.1.1, hd]
          simp only [Bool.false_eq_true, if_false]
          rintro (e | ft) s4 ⟨⟨rfl, h7⟩, h8⟩
          · exact .inl ⟨rfl, trivial, .inr (.inl ⟨_, e, rfl, fun hw => absurd (h8 hw) h7⟩)⟩
          · obtain ⟨z, hz, hft⟩ := h7
            rw [hh2] at hz
            cases hz
            obtain ⟨h9, h10⟩ := dated_iff ck ft x hft
            dsimp only
            cases hr : fromWindowsFileTime ck ft with
            | error f =>
              refine .inr ⟨fun h => h.elim, .inr (.inr ⟨f, rfl, fun hn => ?_⟩)⟩
              obtain ⟨t, ht⟩ := h9.mpr hn
              rw [hr] at ht
              cases ht
            | ok t =>
              refine .inl ⟨rfl, trivial, .inl ⟨y, t, rfl, hy, h10 t hr, ?_⟩⟩
              rw [hi.2.2.2.2.2, halves, hj.2.2.2.1]

/-- Permissions of the path itself, not following a link. -/
theorem wp_handlePerms_look (D : WinDisk) (w : Prop) (p : Path) (x : WinObj) (hx : D.look p.pathname = some x) (hs : Handles) :
    wp (LawW D w) (fun o hs' => hs' = hs ∧ ((∃ prms, o = .ok (some prms, none)) ∨ ∃ m e, o = .ok (m, some e) ∧ ¬ w))
      (handlePerms p noFollow) hs := by
  have ho : D.opened p.pathname noFollow = some x := hx
  refine wp_withFile' (fun e h1 h2 => ⟨rfl, .inr ⟨_, e, rfl, fun hw => ?_⟩⟩) ?_
  · have := h1 (h2 hw)
    rw [ho] at this
    cases this
  intro h x s hx' hh _
  rintro (e | a) s' ⟨⟨rfl, h1⟩, h2⟩
  · exact ⟨rfl, trivial, rfl, .inr ⟨_, e, rfl, fun hw => absurd (h2 hw) h1⟩⟩
  rintro (e | a) s' ⟨⟨rfl, h3⟩, h4⟩
  · refine ⟨rfl, trivial, rfl, .inr ⟨_, e, rfl, fun hw => ?_⟩⟩
    have := h3 (h4 hw)
    rw [hx] at this
    cases this
  · exact ⟨rfl, trivial, rfl, .inl ⟨_, rfl⟩⟩

/-- The permissions of what is not a link. -/
theorem wp_updatePerms_plain (D : WinDisk) (w : Prop) (p : Path) (k : Cache) (c : Code) (hs : Handles)
    (hk : k.cacheType = .extra) (hl : k.symlink = false) :
    wp (LawW D w) (fun o hs' => (∃ prms, hs' = hs ∧ o = .ok (⟨p, { k with nonSymlinkPerms := prms, cacheType := .full }⟩, .ref none)) ∨
        ∃ k' e, o = .ok (⟨p, k'⟩, .ref (some e)) ∧ (w → D.goal p.pathname = none))
      (updatePerms true ⟨p, k⟩ (.ref c)) hs := by
  unfold updatePerms
  simp only [hk, ne_eq, not_true, false_and, if_false, clear_ref]
  refine wp_bind (wp_mono ?_ (wp_handlePerms D w p hs))
  rintro o s ⟨rfl, ⟨prms, rfl⟩ | ⟨m, e, rfl, hw⟩⟩
  · simp only [hl, Bool.false_eq_true, if_false, not_true, Bool.false_and]
    exact .inl ⟨prms, rfl, rfl⟩
  · exact .inr ⟨_, e, rfl, hw⟩

/-- The permissions of a link. -/
theorem wp_updatePerms_link (D : WinDisk) (w : Prop) (p : Path) (k : Cache) (c : Code) (x : WinObj) (hs : Handles)
    (hk : k.cacheType = .extra) (hl : k.symlink = true) (hx : D.look p.pathname = some x) :
    wp (LawW D w) (fun o hs' => (∃ prms prms', hs' = hs ∧ o = .ok (⟨p, { k with symlinkPerms := prms, nonSymlinkPerms := prms', permsResolved := true, cacheType := .full }⟩, .ref none)) ∨
        ∃ k' e, o = .ok (⟨p, k'⟩, .ref (some e)) ∧ (w → D.goal p.pathname = none))
      (updatePerms true ⟨p, k⟩ (.ref c)) hs := by
  unfold updatePerms
  simp only [hk, ne_eq, not_true, false_and, if_false, clear_ref]
  refine wp_bind (wp_mono ?_ (wp_handlePerms D w p hs))
  rintro o s ⟨rfl, ⟨prms, rfl⟩ | ⟨m, e, rfl, hw⟩⟩
  · simp only [hl, if_true, not_true, if_false, Bool.true_and]
    refine wp_bind (wp_mono ?_ (wp_handlePerms_look D w p x hx s))
    rintro o s ⟨rfl, ⟨prms', rfl⟩ | ⟨m, e, rfl, hw⟩⟩
    · exact .inl ⟨prms, prms', rfl, rfl⟩
    · exact .inr ⟨_, e, rfl, fun h => absurd h hw⟩
  · exact .inr ⟨_, e, rfl, hw⟩

theorem tag_of_link {x : WinObj} (hp : linkKind (some x) = .symlink) : ∃ tag, x.tag = some tag ∧ isLinkTag tag = true := by
  obtain ⟨d, tag, v, i, sz, tm, l⟩ := x
  unfold linkKind at hp
  cases tag with
  | none => dsimp only at hp; split at hp <;> cases hp
  | some tag =>
    dsimp only at hp
    refine ⟨tag, rfl, (isLinkTag_iff tag).mpr ?_⟩
    split at hp
    · assumption
    · cases hp

/-- `UpdateExtraFileInformation` of a directory link fails. -/
theorem wp_updateExtra_dirLink (D : WinDisk) (w : Prop) (ck : SysClock) (p : Path) (k : Cache) (c : Code) (x : WinObj) (hs : Handles)
    (hk : k.cacheType = .basic) (hl : k.symlink = true) (hx : D.look p.pathname = some x) (hd : x.dir = true) :
    wp (LawW D w) (fun o _ => ∃ k' e, o = .ok (⟨p, k'⟩, .ref (some e)) ∧ (w → D.goal p.pathname ≠ none → e = .EISDIR))
      (updateExtra ck ⟨p, k⟩ (.ref c)) hs := by
  unfold updateExtra
  simp only [hk, ne_eq, not_true, false_and, if_false, clear_ref]
  refine wp_bind (wp_withFile' (fun e h1 h2 => ?_) ?_)
  · exact ⟨_, e, rfl, fun hw h => absurd (h1 (h2 hw)) h⟩
  · intro h y s hy hh _
    have hy : D.goal p.pathname = some y := hy
    rintro (e | i) s' ⟨⟨rfl, h1⟩, h2⟩
    · exact ⟨rfl, trivial, _, e, rfl, fun hw => absurd (h2 hw) h1⟩
    · refine ⟨rfl, trivial, ?_⟩
      simp only [Bool.not_true, Bool.false_eq_true, if_false, hl, if_true]
      refine wp_bind ?_
      unfold extraLink
      have ho : D.opened p.pathname noFollow = some x := hx
      refine wp_withFile' (fun e h3 h4 => ?_) ?_
      · refine ⟨_, e, rfl, fun hw => ?_⟩
        have := h3 (h4 hw)
        rw [ho] at this
        cases this
      · intro h' z s2 hz hh2 _
        rw [ho] at hz
        cases hz
        rintro (e | j) s3 ⟨⟨rfl, h5⟩, h6⟩
        · exact ⟨rfl, trivial, _, e, rfl, fun hw => absurd (h6 hw) h5⟩
        · obtain ⟨z, hz, hj⟩ := h5
          rw [hh2] at hz
          cases hz
          dsimp only
          rw [has_directory, hj.1.1, hd]
          exact ⟨rfl, trivial, _, _, rfl, fun _ _ => rfl⟩

/-- `UpdateBasicFileInformation` of a plain directory. -/
theorem wp_updateBasic_dir (D : WinDisk) (w : Prop) (p : Path) (x : WinObj) (hs : Handles) (hx : D.look p.pathname = some x)
    (hp : x.tag = none) (hd : x.dir = true) :
    wp (LawW D w) (fun o hs' => (hs' = hs ∧ o = .ok (⟨p, listed .directory⟩, .ref none)) ∨
        ∃ k' e, o = .ok (⟨p, k'⟩, .ref (some e)) ∧ ¬ w)
      (updateBasic true ⟨p, .reset⟩ (.ref none)) hs := by
  rintro (e | a) s ⟨⟨rfl, h1⟩, h2⟩
  · exact .inr ⟨_, e, rfl, fun hw => by rw [h1 (h2 hw)] at hx; cases hx⟩
  obtain ⟨y, hy, ha⟩ := h1
  rw [hx] at hy
  cases hy
  dsimp only [basicReparse]
  simp only [has_reparse, has_directory, ha.1, ha.2, hd, hp]
  exact .inl ⟨rfl, rfl⟩

/-- `UpdateBasicFileInformation` of a link, which also is a directory or not. -/
theorem wp_updateBasic_link (D : WinDisk) (w : Prop) (p : Path) (x : WinObj) (tag : BitVec 32) (hs : Handles) (hx : D.look p.pathname = some x)
    (hp : x.tag = some tag) (ht : isLinkTag tag = true) :
    wp (LawW D w) (fun o hs' => (hs' = hs ∧ o = .ok (⟨p, { listed .symlink with type := if x.dir then .directory else .reparse, typeResolved := !x.dir }⟩, .ref none)) ∨
        ∃ k' e, o = .ok (⟨p, k'⟩, .ref (some e)) ∧ ¬ w)
      (updateBasic true ⟨p, .reset⟩ (.ref none)) hs := by
  have ho : D.opened p.pathname noFollow = some x := hx
  rintro (e | a) s ⟨⟨rfl, h1⟩, h2⟩
  · exact .inr ⟨_, e, rfl, fun hw => by rw [h1 (h2 hw)] at hx; cases hx⟩
  obtain ⟨y, hy, ha⟩ := h1
  rw [hx] at hy
  cases hy
  dsimp only [basicReparse]
  simp only [has_reparse, has_directory, ha.1, ha.2, hp, Option.isSome_some, if_true]
  rw [Prog.bind_assoc]
  refine wp_bind (wp_mono ?_ (wp_isReparsePointSymlink D w p none x hx s))
  rintro o s ⟨rfl, ⟨tag', ht', rfl⟩ | ⟨hw, e, rfl⟩⟩
  · rw [hp] at ht'
    cases ht'
    simp only [ht, EcArg.isSet, Bool.false_eq_true, if_false, if_true, Prog.ret_bind, ne_eq, not_true]
    cases hd : x.dir
    · simp only [Bool.false_eq_true, if_false, Bool.and_true, decide_true, Bool.or_true, if_true]
      refine wp_bind (wp_withFile' (fun e h1 h2 => ?_) ?_)
      · refine .inr ⟨_, e, rfl, fun hw => ?_⟩
        have := h1 (h2 hw)
        rw [ho] at this
        cases this
      · intro h y s hy hh _
        rintro (e | i) s' ⟨⟨rfl, h1⟩, h2⟩
        · exact ⟨rfl, trivial, .inr ⟨_, e, rfl, fun hw => absurd (h2 hw) h1⟩⟩
        · dsimp only
          rw [has_reparse, ha.2, hp]
          exact ⟨rfl, trivial, .inl ⟨rfl, rfl⟩⟩
    · exact .inl ⟨rfl, rfl⟩
  · exact .inr ⟨_, e, rfl, hw⟩

end Win

/-- **C80**, partial: an entry made from the path of a directory. With a willing system it is made, and then `exists`, the
predicates and `hard_link_count` are as the free functions without asking again; `file_size` is not. -/
theorem c80_made_directory_partial (D : WinDisk) (ck : SysClock) (p : Path) (x : WinObj) (t : List Event)
    (o : Except Stop (Entry × EcArg)) (hs : Handles) (hx : D.look p.pathname = some x) (hp : x.tag = none) (hd : x.dir = true)
    (h : Exec (Win.Entry.new ck p) t o) (hl : Steps (WinLaw D) noHandles t hs) :
    (∃ e, o = .ok (e, .ref none) ∧ e.path = p ∧ MadeDir ck x e) ∨
    (∃ e m, o = .ok (e, .ref (some m)) ∧ ¬ ∀ e ∈ t, WinWilling e) := by
  refine wp_sound (Q := fun o _ => (∃ e, o = .ok (e, .ref none) ∧ e.path = p ∧ MadeDir ck x e) ∨
    (∃ e m, o = .ok (e, .ref (some m)) ∧ ¬ ∀ e ∈ t, WinWilling e)) ?_ h (Win.steps_lawW hl)
  have hg := D.plain _ x hx hp
  unfold Win.Entry.new Win.refresh Win.refreshImpl
  rw [Prog.bind_assoc]
  refine wp_bind (wp_mono ?_ (Win.wp_updateBasic_dir D _ p x noHandles hx hp hd))
  rintro o s (⟨rfl, rfl⟩ | ⟨k, e, rfl, hw⟩)
  · simp only [EcArg.isSet, Bool.false_eq_true, if_false]
    rw [Prog.bind_assoc]
    refine wp_bind (wp_mono ?_ (Win.wp_updateExtra D _ ck p (listed .directory) none noHandles rfl rfl))
    rintro o s ⟨rfl, ⟨y, hy, rfl⟩ | ⟨e, rfl, hw⟩⟩
    · rw [hg] at hy
      cases hy
      simp only [EcArg.isSet, Bool.false_eq_true, if_false]
      rw [Prog.bind_assoc]
      refine wp_bind (wp_mono ?_ (Win.wp_updatePerms_plain D _ p _ none noHandles rfl rfl))
      rintro o s (⟨prms, rfl, rfl⟩ | ⟨k, e, rfl, hw⟩)
      · exact .inl ⟨_, rfl, rfl, ⟨rfl, fun _ => rfl, fun _ => rfl, fun _ => rfl, fun _ => rfl⟩⟩
      · exact .inr ⟨_, e, rfl, fun h => by rw [hw h] at hg; cases hg⟩
    · exact .inr ⟨_, e, rfl, fun h => by rw [hw h] at hg; cases hg⟩
  · exact .inr ⟨_, e, rfl, hw⟩

/-- **C80**, partial: an entry made from the path of a link to `y` that is not itself a directory. `exists`, `is_symlink` and
`hard_link_count` are as the free functions. The type, the size and the time are not those of `y`. -/
theorem c80_made_link_partial (D : WinDisk) (ck : SysClock) (p : Path) (x : WinObj) (t : List Event)
    (o : Except Stop (Entry × EcArg)) (hs : Handles) (hx : D.look p.pathname = some x) (hp : linkKind (some x) = .symlink) (hd : x.dir = false)
    (h : Exec (Win.Entry.new ck p) t o) (hl : Steps (WinLaw D) noHandles t hs) :
    (∃ e y, D.goal p.pathname = some y ∧ o = .ok (e, .ref none) ∧ e.path = p ∧ MadeLink ck x y e) ∨
    (∃ e m, o = .ok (e, .ref (some m)) ∧ ((∀ e ∈ t, WinWilling e) → D.goal p.pathname = none)) ∨
    ∃ f, o = .error (.fault f) ∧ ¬ Dated ck x := by
  refine wp_sound (Q := fun o _ => (∃ e y, D.goal p.pathname = some y ∧ o = .ok (e, .ref none) ∧ e.path = p ∧ MadeLink ck x y e) ∨
    (∃ e m, o = .ok (e, .ref (some m)) ∧ ((∀ e ∈ t, WinWilling e) → D.goal p.pathname = none)) ∨
    ∃ f, o = .error (.fault f) ∧ ¬ Dated ck x) ?_ h (Win.steps_lawW hl)
  obtain ⟨tag, htag, ht⟩ := Win.tag_of_link hp
  unfold Win.Entry.new Win.refresh Win.refreshImpl
  rw [Prog.bind_assoc]
  refine wp_bind (wp_mono ?_ (Win.wp_updateBasic_link D _ p x tag noHandles hx htag ht))
  rw [hd]
  rintro o s (⟨rfl, rfl⟩ | ⟨k, e, rfl, hw⟩)
  · simp only [EcArg.isSet, Bool.false_eq_true, if_false]
    rw [Prog.bind_assoc]
    refine wp_bind (wp_mono ?_ (Win.wp_updateExtra_link D _ ck p _ none x noHandles rfl rfl hx hd))
    rintro o s (⟨y, tm, rfl, hy, htm, rfl⟩ | ⟨k, e, rfl, hw⟩ | ⟨f, rfl, hf⟩)
    · simp only [EcArg.isSet, Bool.false_eq_true, if_false]
      rw [Prog.bind_assoc]
      refine wp_bind (wp_mono ?_ (Win.wp_updatePerms_link D _ p _ none x noHandles rfl rfl hx))
      rintro o s (⟨prms, prms', rfl, rfl⟩ | ⟨k, e, rfl, hw⟩)
      · refine .inl ⟨_, y, hy, rfl, rfl, ⟨rfl, fun _ => rfl, fun _ => rfl, fun _ => rfl, fun _ => rfl, fun ec => ⟨tm, htm, fun hn => ?_⟩⟩⟩
        simp only [Win.getLastWriteTime, Prog.ret_bind, hn, decide_false, Bool.and_false, Bool.false_eq_true, if_false]
      · exact .inr (.inl ⟨_, e, rfl, hw⟩)
    · exact .inr (.inl ⟨_, e, rfl, hw⟩)
    · exact .inr (.inr ⟨f, rfl, hf⟩)
  · exact .inr (.inl ⟨_, e, rfl, fun h => absurd h hw⟩)

/-- **C80** fails: an entry made from the path of a directory that is a link or mount point always reports an error, `is_a_directory`
where nothing is wrong. -/
theorem c80_violated_construct_link (D : WinDisk) (ck : SysClock) (p : Path) (x : WinObj) (t : List Event)
    (o : Except Stop (Entry × EcArg)) (hs : Handles) (hx : D.look p.pathname = some x) (hp : linkKind (some x) = .symlink) (hd : x.dir = true)
    (h : Exec (Win.Entry.new ck p) t o) (hl : Steps (WinLaw D) noHandles t hs) :
    ∃ e m, o = .ok (e, .ref (some m)) ∧ ((∀ e ∈ t, WinWilling e) → D.goal p.pathname ≠ none → m = .EISDIR) := by
  refine wp_sound (Q := fun o _ => ∃ e m, o = .ok (e, .ref (some m)) ∧ ((∀ e ∈ t, WinWilling e) → D.goal p.pathname ≠ none → m = .EISDIR))
    ?_ h (Win.steps_lawW hl)
  obtain ⟨tag, htag, ht⟩ := Win.tag_of_link hp
  unfold Win.Entry.new Win.refresh Win.refreshImpl
  rw [Prog.bind_assoc]
  refine wp_bind (wp_mono ?_ (Win.wp_updateBasic_link D _ p x tag noHandles hx htag ht))
  rw [hd]
  rintro o s (⟨rfl, rfl⟩ | ⟨k, e, rfl, hw⟩)
  · simp only [EcArg.isSet, Bool.false_eq_true, if_false]
    rw [Prog.bind_assoc]
    refine wp_bind (wp_mono ?_ (Win.wp_updateExtra_dirLink D _ ck p _ none x noHandles rfl rfl hx hd))
    rintro o s ⟨k, e, rfl, hw⟩
    exact ⟨_, e, rfl, hw⟩
  · exact ⟨_, e, rfl, fun h => absurd h hw⟩

/-- Asking for the information on a directory or a link. -/
def Spec.lookOver (p : Str) (o : WinOpen) (i : WinInfo) : List Event :=
  [⟨.win (.createFile p o), (.ok 4 : Except Errno Nat)⟩, ⟨.win (.infoByHandle 4), (.ok i : Except Errno WinInfo)⟩,
    ⟨.win (.closeHandle 4), (.ok () : Except Errno Unit)⟩]

/-- Asking for permissions. -/
def Spec.askPerms (p : Str) (o : WinOpen) (a : BitVec 32) : List Event :=
  [⟨.win (.createFile p o), (.ok 4 : Except Errno Nat)⟩, ⟨.win (.attrTag 4), (.ok a : Except Errno (BitVec 32))⟩,
    ⟨.win (.getPerms p a), (.ok 0x1b6#32 : Except Errno Mode)⟩, ⟨.win (.closeHandle 4), (.ok () : Except Errno Unit)⟩]

/-- The directory `d` of the sample. -/
example (ck : SysClock) :
    let t := ⟨.win (.getAttrs "d".toList), (.ok 0x10#32 : Except Errno (BitVec 32))⟩ ::
      (lookOver "d".toList Win.follow ⟨0x10#32, ⟨100, 0⟩, 7, 0, 0, 1, 0, 1⟩ ++ askPerms "d".toList Win.follow 0x10#32)
    (∃ hs, Steps (WinLaw sampleDisk) noHandles t hs) ∧ ∃ e, Exec (Win.Entry.new ck (mkPath .windows "d".toList)) t (.ok (e, .ref none)) :=
  ⟨⟨_, .cons ⟨rfl, _, rfl, by unfold AttrsOf; decide⟩ (.cons ⟨rfl, _, rfl, rfl⟩ (.cons ⟨rfl, _, rfl, by unfold InfoOf AttrsOf; decide⟩ (.cons rfl
    (.cons ⟨rfl, _, rfl, rfl⟩ (.cons ⟨rfl, _, rfl, by unfold AttrsOf; decide⟩ (.cons ⟨rfl, trivial⟩ (.cons rfl (.nil _))))))))⟩, _, feed_exec (by rfl)⟩

/-- The link `k` of the sample, to the file `f`. -/
example :
    let t := ⟨.win (.getAttrs "k".toList), (.ok 0x400#32 : Except Errno (BitVec 32))⟩ ::
      ([⟨.win (.createFile "k".toList Win.openReparse), (.ok 4 : Except Errno Nat)⟩, ⟨.win (.reparse 4), (.ok [0x000C#16, 0xA000#16] : Except Errno (List (BitVec 16)))⟩,
          ⟨.win (.closeHandle 4), (.ok () : Except Errno Unit)⟩] ++
        lookOver "k".toList Win.noFollow ⟨0x400#32, ⟨600, 0⟩, 7, 0, 0, 1, 0, 6⟩ ++ lookOver "k".toList Win.follow infoF ++
        [⟨.win (.createFile "k".toList Win.noFollow), (.ok 4 : Except Errno Nat)⟩,
          ⟨.win (.infoByHandle 4), (.ok ⟨0x400#32, ⟨600, 0⟩, 7, 0, 0, 1, 0, 6⟩ : Except Errno WinInfo)⟩,
          ⟨.win (.getFileTime 4), (.ok ⟨600, 0⟩ : Except Errno FileTime)⟩, ⟨.win (.closeHandle 4), (.ok () : Except Errno Unit)⟩] ++
        askPerms "k".toList Win.follow 0x20#32 ++ askPerms "k".toList Win.noFollow 0x400#32)
    (∃ hs, Steps (WinLaw sampleDisk) noHandles t hs) ∧ ∃ e, Exec (Win.Entry.new .msvc (mkPath .windows "k".toList)) t (.ok (e, .ref none)) :=
  ⟨⟨_, .cons ⟨rfl, _, rfl, by unfold AttrsOf; decide⟩ (.cons ⟨rfl, _, rfl, rfl⟩ (.cons ⟨rfl, _, rfl, by decide⟩ (.cons rfl
    (.cons ⟨rfl, _, rfl, rfl⟩ (.cons ⟨rfl, _, rfl, by unfold InfoOf AttrsOf; decide⟩ (.cons rfl
    (.cons ⟨rfl, _, rfl, rfl⟩ (.cons ⟨rfl, _, rfl, by unfold InfoOf AttrsOf; decide⟩ (.cons rfl
    (.cons ⟨rfl, _, rfl, rfl⟩ (.cons ⟨rfl, _, rfl, by unfold InfoOf AttrsOf; decide⟩ (.cons ⟨rfl, _, rfl, by decide⟩ (.cons rfl
    (.cons ⟨rfl, _, rfl, rfl⟩ (.cons ⟨rfl, _, rfl, by unfold AttrsOf; decide⟩ (.cons ⟨rfl, trivial⟩ (.cons rfl
    (.cons ⟨rfl, _, rfl, rfl⟩ (.cons ⟨rfl, _, rfl, by unfold AttrsOf; decide⟩ (.cons ⟨rfl, trivial⟩ (.cons rfl (.nil _))))))))))))))))))))))⟩,
    _, feed_exec (by rfl)⟩

end Asap
