import Verif.Win.World

/-!
# C65: what `status` and `symlink_status` say on Windows
-/

namespace Asap
open Spec

/-! ## Bits -/

namespace Win

theorem has_directory (a : BitVec 32) : has a FILE_ATTRIBUTE_DIRECTORY = a.getLsbD 4 := by
  have : FILE_ATTRIBUTE_DIRECTORY = BitVec.twoPow 32 4 := by decide
  rw [has, this, BitVec.and_twoPow]
  cases a.getLsbD 4 <;> decide

theorem has_reparse (a : BitVec 32) : has a FILE_ATTRIBUTE_REPARSE_POINT = a.getLsbD 10 := by
  have : FILE_ATTRIBUTE_REPARSE_POINT = BitVec.twoPow 32 10 := by decide
  rw [has, this, BitVec.and_twoPow]
  cases a.getLsbD 10 <;> decide

theorem notFound_absent (e : Errno) : isNotFoundError e.winValue = true ↔ Absent e := by
  simp only [isNotFoundError, Absent, Bool.or_eq_true, beq_iff_eq, List.mem_cons, List.not_mem_nil, or_false]
  omega

/-- The answers of a system that may be required to fail only where there is nothing. -/
def LawW (D : WinDisk) (w : Prop) (hs : Handles) (e : Event) (hs' : Handles) : Prop :=
  WinLaw D hs e hs' ∧ (w → WinWilling e)

/-- A scope with an open file, when the handles do not matter afterwards. -/
theorem wp_withFile {α : Type} {D : WinDisk} {w : Prop} {Q : Except Stop α → Prop} {p : Path} {o : WinOpen}
    {fail : Errno → Prog α} {body : Nat → Prog α} {hs : Handles}
    (hf : ∀ e, (Absent e → D.opened p.pathname o = none) → (w → Absent e) → ∀ hs, wp (LawW D w) (fun o _ => Q o) (fail e) hs)
    (hb : ∀ h x hs, D.opened p.pathname o = some x → hs h = some x → wp (LawW D w) (fun o _ => Q o) (body h) hs) :
    wp (LawW D w) (fun o _ => Q o) (withFile p o fail body) hs := by
  rintro (e | h) hs' ⟨h1, h2⟩
  · exact hf e h1.2 h2 hs'
  · obtain ⟨_, x, hx, rfl⟩ := h1
    refine wp_finally (wp_mono ?_ (hb h x _ hx (by simp)))
    intro o s ho
    exact ⟨fun _ _ _ _ => ho, fun _ => ho⟩

/-- A scope with an open file leaves the handles as they were. -/
theorem wp_withFile' {α : Type} {D : WinDisk} {w : Prop} {Q : Except Stop α → Handles → Prop} {p : Path} {o : WinOpen}
    {fail : Errno → Prog α} {body : Nat → Prog α} {hs : Handles}
    (hf : ∀ e, (Absent e → D.opened p.pathname o = none) → (w → Absent e) → wp (LawW D w) Q (fail e) hs)
    (hb : ∀ h x hs', D.opened p.pathname o = some x → hs' h = some x → (∀ k y, hs k = some y → hs' k = some y) →
      wp (LawW D w) (fun o s => s = hs' ∧ Unwinds o ∧ Q o hs) (body h) hs') :
    wp (LawW D w) Q (withFile p o fail body) hs := by
  rintro (e | h) hs' ⟨h1, h2⟩
  · obtain ⟨rfl, h1⟩ := h1
    exact hf e h1 h2
  · obtain ⟨hn, x, hx, rfl⟩ := h1
    refine wp_finally (wp_mono ?_ (hb h x _ hx (by simp) fun k y hk => by
      have : k ≠ h := by rintro rfl; rw [hn] at hk; cases hk
      simpa [this] using hk))
    rintro o s ⟨rfl, hu, ho⟩
    refine ⟨fun _ r s' hc => ?_, fun hn => absurd hu hn⟩
    have : s' = hs := by
      rw [hc.1]
      funext k
      by_cases hk : k = h
      · simp [hk, hn]
      · simp [hk]
    rw [this]
    exact ho

/-- What a system says whether or not it is willing. -/
theorem steps_lawW {D : WinDisk} {hs hs' : Handles} {t : List Event} (h : Steps (WinLaw D) hs t hs') :
    Steps (LawW D (∀ e ∈ t, WinWilling e)) hs t hs' := steps_and h fun e he hw => hw e he

end Win

/-! ## C65 -/

/-- What `status` and `symlink_status` may say of something: with a clear code the right type; `not_found` only where
there is nothing. A willing system gets the right type. -/
def Spec.Says (there : Prop) (kind : FType) (w : Prop) (o : Except Stop (FStatus × EcArg)) : Prop :=
  ∃ st ec, o = .ok (st, ec) ∧
    ((ec = .ref none ∧ there ∧ st.type = kind) ∨
      ∃ e, ec = .ref (some e) ∧ ((st.type = .notFound ∧ ¬ there) ∨ (st.type = .unknown ∧ e.winValue = 32) ∨
        st.type = .none ∧ e.winValue ≠ 5)) ∧
    (w → st.type = kind)

open Win

theorem says_failure {there : Prop} {kind : FType} {w : Prop} (e : Errno) (c : Code) (h1 : Absent e → ¬ there)
    (h2 : w → Absent e) (h3 : ¬ there → kind = .notFound) : Says there kind w (.ok (processStatusFailure e (.ref c))) := by
  unfold processStatusFailure
  by_cases hn : isNotFoundError e.winValue
  · rw [if_pos hn]
    have := h1 ((notFound_absent e).mp hn)
    exact ⟨_, _, rfl, .inr ⟨e, rfl, .inl ⟨rfl, this⟩⟩, fun _ => (h3 this).symm⟩
  · rw [if_neg hn]
    have hw : ¬ w := fun hw => hn ((notFound_absent e).mpr (h2 hw))
    by_cases h32 : e.winValue = ERROR_SHARING_VIOLATION
    · rw [if_pos h32]
      exact ⟨_, _, rfl, .inr ⟨e, rfl, .inr (.inl ⟨rfl, h32⟩)⟩, fun hw' => absurd hw' hw⟩
    · rw [if_neg h32]
      by_cases h5 : e.winValue = ERROR_ACCESS_DENIED
      · rw [if_pos h5]
        exact ⟨_, _, rfl, .inr ⟨_, rfl, .inr (.inr ⟨rfl, by decide⟩)⟩, fun hw' => absurd hw' hw⟩
      · rw [if_neg h5]
        exact ⟨_, _, rfl, .inr ⟨_, rfl, .inr (.inr ⟨rfl, h5⟩)⟩, fun hw' => absurd hw' hw⟩

theorem wp_winStatus (D : WinDisk) (w : Prop) (p : Path) (c : Code) (hs : Handles) :
    wp (LawW D w) (fun o hs' => Says (D.goal p.pathname ≠ none) (fileKind (D.goal p.pathname)) w o ∧ hs' = hs)
      (Win.status p (.ref c)) hs := by
  have hk : ¬ D.goal p.pathname ≠ none → fileKind (D.goal p.pathname) = .notFound := by
    intro h
    rw [Classical.byContradiction h]
    rfl
  rintro (e | a) hs' ⟨⟨rfl, h1⟩, h2⟩
  · exact ⟨says_failure e _ (fun ha hn => hn (D.missing _ (h1 ha))) h2 hk, rfl⟩
  obtain ⟨x, hx, ha⟩ := h1
  refine wp_bind (wp_mono (Q := fun (o : Except Stop (Except Errno Mask)) s => s = hs' ∧ match o with
    | .ok (.ok a) => ∃ y, D.goal p.pathname = some y ∧ AttrsOf a y
    | .ok (.error e) => (Absent e → D.goal p.pathname = none) ∧ (w → Absent e)
    | .error _ => False) ?_ ?_)
  · rintro (_ | _ | b) s ⟨rfl, h⟩
    · exact h.elim
    · exact ⟨says_failure _ _ (fun ha hn => hn (h.1 ha)) h.2 hk, rfl⟩
    · obtain ⟨y, hy, hb⟩ := h
      rintro (e | prms) s' ⟨⟨rfl, h3⟩, h4⟩
      · exact ⟨says_failure e _ (fun ha hn => hn (D.missing _ (h3 ha))) h4 hk, rfl⟩
      · refine ⟨⟨_, _, rfl, .inl ⟨rfl, by simp [hy], ?_⟩, fun _ => ?_⟩, rfl⟩ <;>
          simp only [has_directory, hb.1, hy, fileKind]
  · unfold targetAttrs
    rw [has_reparse, ha.2]
    cases htag : x.tag with
    | none =>
      exact ⟨rfl, x, D.plain _ _ hx htag, ha⟩
    | some tag =>
      simp only [Option.isSome_some, if_true]
      refine wp_withFile' (fun e h3 h4 => ⟨rfl, h3, h4⟩) ?_
      intro h y s hy hh _
      rintro (e | b) s' ⟨⟨rfl, h3⟩, h4⟩
      · exact ⟨rfl, trivial, rfl, fun ha => absurd ha h3, h4⟩
      · obtain ⟨z, hz, hb⟩ := h3
        rw [hh] at hz
        cases hz
        exact ⟨rfl, trivial, rfl, y, hy, hb⟩

/-- **C65** for `status`: with a clear code the type of what the path leads to, `not_found` only where there is
nothing; nothing is thrown and nothing undefined. A system that fails only where there is nothing gets the right type. -/
theorem c65_status (D : WinDisk) (p : Path) (c : Code) (t : List Event) (o : Except Stop (FStatus × EcArg)) (hs : Handles)
    (h : Exec (Win.status p (.ref c)) t o) (hl : Steps (WinLaw D) noHandles t hs) :
    Says (D.goal p.pathname ≠ none) (fileKind (D.goal p.pathname)) (∀ e ∈ t, WinWilling e) o :=
  (wp_sound (wp_winStatus D _ p c noHandles) h (steps_lawW hl)).1

theorem isLinkTag_iff (tag : BitVec 32) : isLinkTag tag = true ↔ tag = 0xA000000C#32 ∨ tag = 0xA0000003#32 := by
  simp [isLinkTag, IO_REPARSE_TAG_SYMLINK, IO_REPARSE_TAG_MOUNT_POINT]

theorem wp_isReparsePointSymlink (D : WinDisk) (w : Prop) (p : Path) (c : Code) (x : WinObj) (hx : D.look p.pathname = some x)
    (hs : Handles) :
    wp (LawW D w) (fun o hs' => hs' = hs ∧
        ((∃ tag, x.tag = some tag ∧ o = .ok (isLinkTag tag, .ref none)) ∨ ¬ w ∧ ∃ e, o = .ok (false, .ref (some e))))
      (isReparsePointSymlink p (.ref c)) hs := by
  refine wp_withFile' (fun e h3 h4 => ⟨rfl, .inr ⟨fun hw => ?_, e, rfl⟩⟩) ?_
  · have := h3 (h4 hw)
    simp only [WinDisk.opened, openReparse, if_true] at this
    rw [hx] at this
    cases this
  · intro h y s hy hh _
    have hy : D.look p.pathname = some y := hy
    rw [hx] at hy
    cases hy
    rintro (e | ws) s' ⟨⟨rfl, h3⟩, h4⟩
    · exact ⟨rfl, trivial, rfl, .inr ⟨fun hw => h3 (h4 hw), e, rfl⟩⟩
    · obtain ⟨z, hz, ht⟩ := h3
      rw [hh] at hz
      cases hz
      exact ⟨rfl, trivial, rfl, .inl ⟨_, ht, rfl⟩⟩

theorem wp_winSymlinkStatus (D : WinDisk) (w : Prop) (p : Path) (c : Code) (hs : Handles) :
    wp (LawW D w) (fun o hs' => hs' = hs ∧ (Says (D.look p.pathname ≠ none) (linkKind (D.look p.pathname)) w o ∨
          ¬ w ∧ D.look p.pathname ≠ none ∧ ∃ st e, o = .ok (st, .ref (some e)) ∧ st.type = .reparse))
      (Win.symlinkStatus p (.ref c)) hs := by
  have hk : ¬ D.look p.pathname ≠ none → linkKind (D.look p.pathname) = .notFound := by
    intro h
    rw [Classical.byContradiction h]
    rfl
  rintro (e | a) hs' ⟨⟨rfl, h1⟩, h2⟩
  · exact ⟨rfl, .inl (says_failure e _ (fun ha hn => hn (h1 ha)) h2 hk)⟩
  obtain ⟨x, hx, ha⟩ := h1
  rintro (e | prms) s' ⟨⟨rfl, h3⟩, h4⟩
  · exact ⟨rfl, .inl (says_failure e _ (fun ha hn => hn (h3 ha)) h4 hk)⟩
  dsimp only
  rw [has_reparse, ha.2, has_directory, ha.1]
  cases htag : x.tag with
  | none =>
    refine ⟨rfl, .inl ⟨_, _, rfl, .inl ⟨rfl, by simp [hx], ?_⟩, fun _ => ?_⟩⟩ <;> simp only [hx, linkKind, htag]
  | some tag =>
    simp only [Option.isSome_some, if_true]
    refine wp_bind (wp_mono ?_ (wp_isReparsePointSymlink D w p none x hx s'))
    rintro o s ⟨rfl, ⟨tag', ht, rfl⟩ | ⟨hw, e, rfl⟩⟩
    · rw [htag] at ht
      cases ht
      refine ⟨rfl, .inl ⟨_, _, rfl, .inl ⟨rfl, by simp [hx], ?_⟩, fun _ => ?_⟩⟩ <;>
        simp only [hx, linkKind, htag, isLinkTag_iff]
    · exact ⟨rfl, .inr ⟨hw, by simp [hx], _, e, rfl, rfl⟩⟩

/-- **C65** for `symlink_status`: as for `status`, of what the path itself denotes. If the tag of a reparse point cannot be
read, `reparse_file` is returned with the error. -/
theorem c65_symlink_status (D : WinDisk) (p : Path) (c : Code) (t : List Event) (o : Except Stop (FStatus × EcArg))
    (hs : Handles) (h : Exec (Win.symlinkStatus p (.ref c)) t o) (hl : Steps (WinLaw D) noHandles t hs) :
    Says (D.look p.pathname ≠ none) (linkKind (D.look p.pathname)) (∀ e ∈ t, WinWilling e) o ∨
      (¬ ∀ e ∈ t, WinWilling e) ∧ D.look p.pathname ≠ none ∧ ∃ st e, o = .ok (st, .ref (some e)) ∧ st.type = .reparse :=
  (wp_sound (wp_winSymlinkStatus D _ p c noHandles) h (steps_lawW hl)).2

/-- **C65** for `exists`: `false` with a clear code only where there is nothing; a willing system gets the truth. -/
theorem c65_exists (D : WinDisk) (p : Path) (c : Code) (t : List Event) (o : Except Stop (Bool × EcArg)) (hs : Handles)
    (h : Exec (Win.existsP p (.ref c)) t o) (hl : Steps (WinLaw D) noHandles t hs) :
    ∃ b ec, o = .ok (b, ec) ∧ (b = false → ec = .ref none → D.goal p.pathname = none) ∧
      ((∀ e ∈ t, WinWilling e) → b = (D.goal p.pathname).isSome ∧ ec = .ref none) := by
  refine (wp_sound (Q := fun o _ => ∃ b ec, o = .ok (b, ec) ∧ (b = false → ec = .ref none → D.goal p.pathname = none) ∧
      ((∀ e ∈ t, WinWilling e) → b = (D.goal p.pathname).isSome ∧ ec = .ref none)) ?_ h (steps_lawW hl))
  refine wp_bind (wp_mono ?_ (wp_winStatus D _ p c noHandles))
  rintro o s ⟨⟨st, ec, rfl, hc, hw⟩, -⟩
  refine ⟨_, _, rfl, ?_, ?_⟩
  · intro hb he
    rcases hc with ⟨rfl, h1, h2⟩ | ⟨e, rfl, ⟨h1, h2⟩ | ⟨h1, h2⟩ | ⟨h1, h2⟩⟩
    · cases hg : D.goal p.pathname with
      | none => rfl
      | some x =>
        rw [hg, fileKind] at h2
        simp only [FStatus.exists', FStatus.known, h2] at hb
        cases hd : x.dir <;> simp [hd] at hb
    · exact Classical.byContradiction h2
    · simp [FStatus.exists', FStatus.known, h1] at hb
    · simp [FStatus.known, h1] at he
  · intro h3
    have := hw h3
    have hec : ec.clear = .ref none := by rcases hc with ⟨rfl, _⟩ | ⟨e, rfl, _⟩ <;> rfl
    simp only [FStatus.exists', FStatus.known, this, hec]
    cases D.goal p.pathname with
    | none => exact ⟨rfl, rfl⟩
    | some x => cases hd : x.dir <;> simp [fileKind, hd]

/-- **C65** for `is_directory`: `true` only for what leads to a directory; a willing system gets the truth. -/
theorem c65_is_directory (D : WinDisk) (p : Path) (c : Code) (t : List Event) (o : Except Stop (Bool × EcArg)) (hs : Handles)
    (h : Exec (Win.isDirectoryP p (.ref c)) t o) (hl : Steps (WinLaw D) noHandles t hs) :
    ∃ b ec, o = .ok (b, ec) ∧ (b = true → ec = .ref none ∧ ∃ x, D.goal p.pathname = some x ∧ x.dir = true) ∧
      ((∀ e ∈ t, WinWilling e) → (b = true ↔ ∃ x, D.goal p.pathname = some x ∧ x.dir = true)) := by
  have hk : ∀ g : Option WinObj, fileKind g = .directory ↔ ∃ x, g = some x ∧ x.dir = true := by
    rintro (_ | x)
    · simp [fileKind]
    · cases hd : x.dir <;> simp [fileKind, hd]
  refine (wp_sound (Q := fun o _ => ∃ b ec, o = .ok (b, ec) ∧
      (b = true → ec = .ref none ∧ ∃ x, D.goal p.pathname = some x ∧ x.dir = true) ∧
      ((∀ e ∈ t, WinWilling e) → (b = true ↔ ∃ x, D.goal p.pathname = some x ∧ x.dir = true))) ?_ h (steps_lawW hl))
  refine wp_bind (wp_mono ?_ (wp_winStatus D _ p c noHandles))
  rintro o s ⟨⟨st, ec, rfl, hc, hw⟩, -⟩
  refine ⟨_, _, rfl, ?_, ?_⟩
  · intro hb
    have hty : st.type = .directory := by simpa [FStatus.isDirectory] using hb
    rcases hc with ⟨rfl, h1, h2⟩ | ⟨e, rfl, ⟨h1, h2⟩ | ⟨h1, h2⟩ | ⟨h1, h2⟩⟩
    · exact ⟨rfl, (hk _).mp (h2.symm.trans hty)⟩
    all_goals (rw [h1] at hty; cases hty)
  · intro h3
    rw [← hk, ← hw h3]
    simp [FStatus.isDirectory]

/-- **C65** for `is_symlink`: `true` only for a symbolic link or mount point; a willing system gets the truth. -/
theorem c65_is_symlink (D : WinDisk) (p : Path) (c : Code) (t : List Event) (o : Except Stop (Bool × EcArg)) (hs : Handles)
    (h : Exec (Win.isSymlinkP p (.ref c)) t o) (hl : Steps (WinLaw D) noHandles t hs) :
    ∃ b ec, o = .ok (b, ec) ∧ (b = true → ec = .ref none ∧ ∃ x, D.look p.pathname = some x ∧
        (x.tag = some 0xA000000C#32 ∨ x.tag = some 0xA0000003#32)) ∧
      ((∀ e ∈ t, WinWilling e) → (b = true ↔ ∃ x, D.look p.pathname = some x ∧
        (x.tag = some 0xA000000C#32 ∨ x.tag = some 0xA0000003#32))) := by
  have hk : ∀ g : Option WinObj, linkKind g = .symlink ↔ ∃ x, g = some x ∧
      (x.tag = some 0xA000000C#32 ∨ x.tag = some 0xA0000003#32) := by
    rintro (_ | x)
    · simp [linkKind]
    · cases ht : x.tag with
      | none => cases hd : x.dir <;> simp [linkKind, ht, hd]
      | some tag => simp only [linkKind, ht, Option.some.injEq, exists_eq_left']; split <;> simp_all
  refine (wp_sound (Q := fun o _ => ∃ b ec, o = .ok (b, ec) ∧
      (b = true → ec = .ref none ∧ ∃ x, D.look p.pathname = some x ∧
        (x.tag = some 0xA000000C#32 ∨ x.tag = some 0xA0000003#32)) ∧
      ((∀ e ∈ t, WinWilling e) → (b = true ↔ ∃ x, D.look p.pathname = some x ∧
        (x.tag = some 0xA000000C#32 ∨ x.tag = some 0xA0000003#32)))) ?_ h (steps_lawW hl))
  refine wp_bind (wp_mono ?_ (wp_winSymlinkStatus D _ p c noHandles))
  rintro o s ⟨-, ⟨st, ec, rfl, hc, hw⟩ | ⟨hw, h1, st, e, rfl, h2⟩⟩
  · refine ⟨_, _, rfl, ?_, ?_⟩
    · intro hb
      have hty : st.type = .symlink := by simpa [FStatus.isSymlink] using hb
      rcases hc with ⟨rfl, h1, h2⟩ | ⟨e, rfl, ⟨h1, h2⟩ | ⟨h1, h2⟩ | ⟨h1, h2⟩⟩
      · exact ⟨rfl, (hk _).mp (h2.symm.trans hty)⟩
      all_goals (rw [h1] at hty; cases hty)
    · intro h3
      rw [← hk, ← hw h3]
      simp [FStatus.isSymlink]
  · exact ⟨_, _, rfl, fun hb => by simp [FStatus.isSymlink, h2] at hb, fun h => absurd h hw⟩

/-- Executions exist whatever the disk. -/
example (D : WinDisk) (p : Path) : ∃ t o hs, Exec (Win.status p (.ref none)) t o ∧ Steps (WinLaw D) noHandles t hs :=
  exec_exists (winLaw_total D) _ _

/-- `status` of the link `l` on the sample disk: the calls made and their answers. -/
def linkTrace : List Event :=
  [⟨.win (.getAttrs "l".toList), (.ok 0x410#32 : Except Errno (BitVec 32))⟩,
    ⟨.win (.createFile "l".toList Win.follow), (.ok 4 : Except Errno Nat)⟩,
    ⟨.win (.attrTag 4), (.ok 0x10#32 : Except Errno (BitVec 32))⟩,
    ⟨.win (.closeHandle 4), (.ok () : Except Errno Unit)⟩,
    ⟨.win (.getPerms "l".toList 0x10#32), (.ok 0x1ff#32 : Except Errno Mode)⟩]

/-- They obey the law and fail nowhere; the result is `directory`. -/
example : Exec (Win.status (mkPath .windows "l".toList) (.ref none)) linkTrace (.ok (⟨.directory, 0x1ff#32⟩, .ref none)) ∧
    (∃ hs, Steps (WinLaw sampleDisk) noHandles linkTrace hs) ∧ ∀ e ∈ linkTrace, WinWilling e := by
  refine ⟨feed_exec (by rfl), ⟨_, .cons ⟨rfl, _, rfl, by decide, by decide⟩ (.cons ⟨rfl, _, rfl, rfl⟩
    (.cons ⟨rfl, _, rfl, by decide, by decide⟩ (.cons rfl (.cons ⟨rfl, trivial⟩ (.nil _)))))⟩, ?_⟩
  simp [linkTrace, WinWilling]

/-- `symlink_status` of it is `symlink`. -/
example : ∃ t hs, Exec (Win.symlinkStatus (mkPath .windows "l".toList) (.ref none)) t
      (.ok (⟨.symlink, 0x1ff#32⟩, .ref none)) ∧ Steps (WinLaw sampleDisk) noHandles t hs :=
  ⟨[⟨.win (.getAttrs "l".toList), (.ok 0x410#32 : Except Errno (BitVec 32))⟩,
    ⟨.win (.getPerms "l".toList 0x410#32), (.ok 0x1ff#32 : Except Errno Mode)⟩,
    ⟨.win (.createFile "l".toList Win.openReparse), (.ok 4 : Except Errno Nat)⟩,
    ⟨.win (.reparse 4), (.ok [0x000C#16, 0xA000#16] : Except Errno (List (BitVec 16)))⟩,
    ⟨.win (.closeHandle 4), (.ok () : Except Errno Unit)⟩], _, feed_exec (by rfl),
    .cons ⟨rfl, _, rfl, by decide, by decide⟩ (.cons ⟨rfl, trivial⟩ (.cons ⟨rfl, _, rfl, rfl⟩
      (.cons ⟨rfl, _, rfl, by decide⟩ (.cons rfl (.nil _)))))⟩

end Asap
