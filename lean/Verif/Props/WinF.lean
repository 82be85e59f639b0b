import Verif.Props.WinE

/-!
# C66, C67: `equivalent`, `file_size`, `hard_link_count` on Windows
-/

namespace Asap
open Spec Win

theorem halves_inj {a b c d : BitVec 32} (h : a ++ b = c ++ d) : a = c ∧ b = d := by
  have h1 := congrArg (fun x : BitVec 64 => x.extractLsb' 32 32) h
  have h2 := congrArg (fun x : BitVec 64 => x.extractLsb' 0 32) h
  simp only [BitVec.extractLsb'_append_eq_left] at h1
  simp only [BitVec.extractLsb'_append_eq_right] at h2
  exact ⟨h1, h2⟩

theorem halves (a b : BitVec 32) : size64 a b = a ++ b := by
  apply BitVec.eq_of_toNat_eq
  have ha := a.isLt
  have hb := b.isLt
  rw [size64, BitVec.toNat_append, BitVec.toNat_add, BitVec.toNat_shiftLeft, ← Nat.shiftLeft_add_eq_or_of_lt hb]
  simp only [BitVec.toNat_setWidth, Nat.shiftLeft_eq]
  omega

/-! ## C66 -/

theorem sameInfo_iff {i j : WinInfo} {D : WinDisk} {p q : Str} {x y : WinObj} (hp : D.goal p = some x) (hq : D.goal q = some y)
    (hi : InfoOf i x) (hj : InfoOf j y) : sameInfo i j = true ↔ x = y := by
  obtain ⟨_, h1, h2, h3, h4, _⟩ := hi
  obtain ⟨_, k1, k2, k3, k4, _⟩ := hj
  simp only [sameInfo, Bool.and_eq_true, beq_iff_eq]
  constructor
  · rintro ⟨⟨⟨⟨⟨⟨a, b⟩, c⟩, d⟩, e⟩, f⟩, g⟩
    exact D.unique p q x y hp hq (by rw [← h1, ← k1, a]) (by rw [← h2, ← k2, b, c])
  · rintro rfl
    obtain ⟨a, b⟩ := halves_inj (h2.trans k2.symm)
    obtain ⟨c, d⟩ := halves_inj (h3.trans k3.symm)
    obtain ⟨e, f⟩ := halves_inj (h4.trans k4.symm)
    exact ⟨⟨⟨⟨⟨⟨h1.trans k1.symm, a⟩, b⟩, c⟩, d⟩, f⟩, e⟩

/-- What `equivalent` may say: with a clear code, whether the two objects are the same; else `false`. -/
def Spec.SaysSame (a b : Option WinObj) (w : Prop) (o : Except Stop (Bool × EcArg)) : Prop :=
  ((∃ x y, a = some x ∧ b = some y ∧ ∃ v, o = .ok (v, .ref none) ∧ (v = true ↔ x = y)) ∨ ∃ e, o = .ok (false, .ref (some e))) ∧
    (w → a ≠ none → b ≠ none → ∃ v, o = .ok (v, .ref none))

theorem wp_winEquivalent (D : WinDisk) (w : Prop) (p q : Path) (c : Code) (hs : Handles) :
    wp (LawW D w) (fun o hs' => hs' = hs ∧ SaysSame (D.goal p.pathname) (D.goal q.pathname) w o)
      (Win.equivalent p q (.ref c)) hs := by
  refine wp_withFile' (fun e h1 h2 => ⟨rfl, .inr ⟨e, rfl⟩, fun hw ha => absurd (h1 (h2 hw)) ha⟩) ?_
  intro f x s hx hf _
  refine wp_withFile' (fun e h1 h2 => ⟨rfl, trivial, rfl, .inr ⟨e, rfl⟩, fun hw _ hb => absurd (h1 (h2 hw)) hb⟩) ?_
  intro g y s' hy hg hkeep
  have hf := hkeep f x hf
  rintro (e | i) s'' ⟨⟨rfl, h1⟩, h2⟩
  · exact ⟨rfl, trivial, rfl, trivial, rfl, .inr ⟨e, rfl⟩, fun hw => absurd (h2 hw) h1⟩
  rintro (e | j) s''' ⟨⟨rfl, h3⟩, h4⟩
  · exact ⟨rfl, trivial, rfl, trivial, rfl, .inr ⟨e, rfl⟩, fun hw => absurd (h4 hw) h3⟩
  obtain ⟨x', hx', hi⟩ := h1
  obtain ⟨y', hy', hj⟩ := h3
  rw [hf] at hx'
  rw [hg] at hy'
  cases hx'
  cases hy'
  exact ⟨rfl, trivial, rfl, trivial, rfl, .inl ⟨x, y, hx, hy, _, rfl, sameInfo_iff hx hy hi hj⟩, fun _ _ _ => ⟨_, rfl⟩⟩

/-- **C66**: with a clear code, `equivalent` says whether two paths lead to the same object, and both lead to one. Else the
result is `false` with an error. A system that fails only where there is nothing answers for all existing paths. -/
theorem c66_equivalent (D : WinDisk) (p q : Path) (c : Code) (t : List Event) (o : Except Stop (Bool × EcArg)) (hs : Handles)
    (h : Exec (Win.equivalent p q (.ref c)) t o) (hl : Steps (WinLaw D) noHandles t hs) :
    SaysSame (D.goal p.pathname) (D.goal q.pathname) (∀ e ∈ t, WinWilling e) o :=
  (wp_sound (wp_winEquivalent D _ p q c noHandles) h (steps_lawW hl)).2

/-- **C66**: where it answers, `equivalent` is reflexive, symmetric and transitive. -/
theorem c66_relation (D : WinDisk) (p q r : Path) (c c' c'' : Code) (t t' t'' : List Event) (a a' a'' : Bool)
    (hs hs' hs'' : Handles) :
    (Exec (Win.equivalent p p (.ref c)) t (.ok (a, .ref none)) → Steps (WinLaw D) noHandles t hs → a = true) ∧
    (Exec (Win.equivalent p q (.ref c)) t (.ok (a, .ref none)) → Steps (WinLaw D) noHandles t hs →
      Exec (Win.equivalent q p (.ref c')) t' (.ok (a', .ref none)) → Steps (WinLaw D) noHandles t' hs' → a = a') ∧
    (Exec (Win.equivalent p q (.ref c)) t (.ok (true, .ref none)) → Steps (WinLaw D) noHandles t hs →
      Exec (Win.equivalent q r (.ref c')) t' (.ok (true, .ref none)) → Steps (WinLaw D) noHandles t' hs' →
      Exec (Win.equivalent p r (.ref c'')) t'' (.ok (a'', .ref none)) → Steps (WinLaw D) noHandles t'' hs'' → a'' = true) := by
  have key : ∀ (p q : Path) (c : Code) (t : List Event) (a : Bool) (hs : Handles),
      Exec (Win.equivalent p q (.ref c)) t (.ok (a, .ref none)) → Steps (WinLaw D) noHandles t hs →
      (a = true ↔ D.goal p.pathname = D.goal q.pathname) := by
    intro p q c t a hs h hl
    rcases (c66_equivalent D p q c t _ hs h hl).1 with ⟨x, y, hx, hy, v, hv, hxy⟩ | ⟨e, he⟩
    · cases hv
      rw [hx, hy, hxy]
      simp
    · cases he
  refine ⟨fun h hl => (key _ _ _ _ _ _ h hl).mpr rfl, fun h hl h' hl' => ?_, fun h hl h' hl' h'' hl'' => ?_⟩
  · have h1 := key _ _ _ _ _ _ h hl
    have h2 := key _ _ _ _ _ _ h' hl'
    rw [Bool.eq_iff_iff, h1, h2]
    exact eq_comm
  · exact (key _ _ _ _ _ _ h'' hl'').mpr (((key _ _ _ _ _ _ h hl).mp rfl).trans ((key _ _ _ _ _ _ h' hl').mp rfl))

/-- The two names `f` and `g` of the sample's file: `equivalent` is `true`. -/
example : ∃ t hs, Exec (Win.equivalent (mkPath .windows "f".toList) (mkPath .windows "g".toList) (.ref none)) t
      (.ok (true, .ref none)) ∧ Steps (WinLaw sampleDisk) noHandles t hs :=
  ⟨[⟨.win (.createFile "f".toList Win.follow), (.ok 4 : Except Errno Nat)⟩,
    ⟨.win (.createFile "g".toList Win.follow), (.ok 8 : Except Errno Nat)⟩,
    ⟨.win (.infoByHandle 4), (.ok ⟨0x20#32, ⟨200, 0⟩, 7, 0, 5, 2, 0, 2⟩ : Except Errno WinInfo)⟩,
    ⟨.win (.infoByHandle 8), (.ok ⟨0x20#32, ⟨200, 0⟩, 7, 0, 5, 2, 0, 2⟩ : Except Errno WinInfo)⟩,
    ⟨.win (.closeHandle 8), (.ok () : Except Errno Unit)⟩,
    ⟨.win (.closeHandle 4), (.ok () : Except Errno Unit)⟩], _, feed_exec (by rfl),
    .cons ⟨rfl, _, rfl, rfl⟩ (.cons ⟨rfl, _, rfl, rfl⟩ (.cons ⟨rfl, _, rfl, by unfold InfoOf AttrsOf; decide⟩
      (.cons ⟨rfl, _, rfl, by unfold InfoOf AttrsOf; decide⟩ (.cons rfl (.cons rfl (.nil _))))))⟩

/-! ## C67 -/

/-- What `file_size` and `hard_link_count` may say of an object: with a clear code the number `val` of an object with
`ok`; else -1. -/
def Spec.SaysNumber (a : Option WinObj) (ok : WinObj → Prop) (val : WinObj → BitVec 64) (w : Prop)
    (o : Except Stop (BitVec 64 × EcArg)) : Prop :=
  ((∃ x, a = some x ∧ ok x ∧ o = .ok (val x, .ref none)) ∨ ∃ e, o = .ok (-1, .ref (some e))) ∧
    (w → ∀ x, a = some x → ok x → o = .ok (val x, .ref none))

theorem wp_winFileSize (D : WinDisk) (w : Prop) (p : Path) (c : Code) (hs : Handles) :
    wp (LawW D w) (fun o hs' => hs' = hs ∧ SaysNumber (D.look p.pathname) (fun x => x.dir = false) WinObj.size w o ∧
        (∀ x, D.look p.pathname = some x → x.dir = true → w → o = .ok (-1, .ref (some .EISDIR))))
      (Win.fileSize p (.ref c)) hs := by
  rintro (e | a) s ⟨⟨rfl, h1⟩, h2⟩
  · refine ⟨rfl, ⟨.inr ⟨e, rfl⟩, ?_⟩, ?_⟩
    · intro hw x hx
      rw [h1 (h2 hw)] at hx
      cases hx
    · intro x hx _ hw
      rw [h1 (h2 hw)] at hx
      cases hx
  · obtain ⟨x, hx, ⟨ha, _⟩, hsz⟩ := h1
    dsimp only
    rw [has_directory, ha, hx]
    cases hd : x.dir
    · simp only [Bool.false_eq_true, if_false, wp, halves, hsz]
      refine ⟨trivial, ⟨.inl ⟨x, rfl, hd, rfl⟩, ?_⟩, ?_⟩
      · rintro _ _ h _
        cases h
        rfl
      · rintro _ h hd'
        cases h
        rw [hd] at hd'
        cases hd'
    · refine ⟨rfl, ⟨.inr ⟨_, rfl⟩, ?_⟩, fun _ _ _ _ => rfl⟩
      rintro _ _ h hd'
      cases h
      rw [hd] at hd'
      cases hd'

/-- **C67**, partial: for a path that is not a reparse point `file_size` is the exact size of the file, an error for a
directory. Missing: a link is not followed (`c67_violated`). -/
theorem c67_file_size_partial (D : WinDisk) (p : Path) (c : Code) (t : List Event) (o : Except Stop (BitVec 64 × EcArg))
    (hs : Handles) (h : Exec (Win.fileSize p (.ref c)) t o) (hl : Steps (WinLaw D) noHandles t hs)
    (hp : ∀ x, D.look p.pathname = some x → x.tag = none) :
    SaysNumber (D.goal p.pathname) (fun x => x.dir = false) WinObj.size (∀ e ∈ t, WinWilling e) o ∧
      ∀ x, D.goal p.pathname = some x → x.dir = true → (∀ e ∈ t, WinWilling e) → o = .ok (-1, .ref (some .EISDIR)) := by
  have hg : D.goal p.pathname = D.look p.pathname := by
    cases hx : D.look p.pathname with
    | none => exact D.missing _ hx
    | some x => exact D.plain _ x hx (hp x hx)
  rw [hg]
  exact (wp_sound (wp_winFileSize D _ p c noHandles) h (steps_lawW hl)).2

/-- **C67**: for every path `file_size` is the size of what the path itself denotes. -/
theorem c67_file_size_of_link (D : WinDisk) (p : Path) (c : Code) (t : List Event) (o : Except Stop (BitVec 64 × EcArg))
    (hs : Handles) (h : Exec (Win.fileSize p (.ref c)) t o) (hl : Steps (WinLaw D) noHandles t hs) :
    SaysNumber (D.look p.pathname) (fun x => x.dir = false) WinObj.size (∀ e ∈ t, WinWilling e) o :=
  (wp_sound (wp_winFileSize D _ p c noHandles) h (steps_lawW hl)).2.1

/-- **C67** fails: `file_size` of the link `k` to a file of 5 bytes is 0. -/
theorem c67_violated : ∃ (D : WinDisk) (p : Path) (t : List Event) (hs : Handles) (x : WinObj),
    D.goal p.pathname = some x ∧ x.dir = false ∧ x.size = 5 ∧ (∀ e ∈ t, WinWilling e) ∧
    Exec (Win.fileSize p (.ref none)) t (.ok (0, .ref none)) ∧ Steps (WinLaw D) noHandles t hs :=
  ⟨sampleDisk, mkPath .windows "k".toList,
    [⟨.win (.getAttrsEx "k".toList), (.ok ⟨0x400#32, 0, 0⟩ : Except Errno WinAttrs)⟩], _, _, rfl, rfl, rfl,
    by simp [WinWilling], feed_exec (by rfl), .cons ⟨rfl, _, rfl, by unfold DataOf AttrsOf; decide⟩ (.nil _)⟩

theorem wp_winHardLinkCount (D : WinDisk) (w : Prop) (p : Path) (c : Code) (hs : Handles) :
    wp (LawW D w) (fun o hs' => hs' = hs ∧ SaysNumber (D.goal p.pathname) (fun _ => True) (fun x => x.links.setWidth 64) w o)
      (Win.hardLinkCount p (.ref c)) hs := by
  refine wp_withFile' (fun e h1 h2 => ⟨rfl, .inr ⟨e, rfl⟩, fun hw x hx => ?_⟩) ?_
  · have := h1 (h2 hw)
    rw [show D.opened p.pathname follow = D.goal p.pathname from rfl, hx] at this
    cases this
  · intro h x s hx hh _
    have hx : D.goal p.pathname = some x := hx
    rintro (e | i) s' ⟨⟨rfl, h1⟩, h2⟩
    · exact ⟨rfl, trivial, rfl, .inr ⟨e, rfl⟩, fun hw => absurd (h2 hw) h1⟩
    · obtain ⟨y, hy, hi⟩ := h1
      rw [hh] at hy
      cases hy
      refine ⟨rfl, trivial, rfl, ?_⟩
      rw [hi.2.2.2.2.2, hx]
      refine ⟨.inl ⟨x, rfl, trivial, rfl⟩, ?_⟩
      rintro _ _ h _
      cases h
      rfl

/-- **C67**: `hard_link_count` is the number of names of what the path leads to. -/
theorem c67_hard_link_count (D : WinDisk) (p : Path) (c : Code) (t : List Event) (o : Except Stop (BitVec 64 × EcArg))
    (hs : Handles) (h : Exec (Win.hardLinkCount p (.ref c)) t o) (hl : Steps (WinLaw D) noHandles t hs) :
    SaysNumber (D.goal p.pathname) (fun _ => True) (fun x => x.links.setWidth 64) (∀ e ∈ t, WinWilling e) o :=
  (wp_sound (wp_winHardLinkCount D _ p c noHandles) h (steps_lawW hl)).2

/-- The sample's file `f` has 5 bytes and two names. -/
example : (∃ t hs, Exec (Win.fileSize (mkPath .windows "f".toList) (.ref none)) t (.ok (5, .ref none)) ∧
      Steps (WinLaw sampleDisk) noHandles t hs) ∧
    ∃ t hs, Exec (Win.hardLinkCount (mkPath .windows "k".toList) (.ref none)) t (.ok (2, .ref none)) ∧
      Steps (WinLaw sampleDisk) noHandles t hs :=
  ⟨⟨[⟨.win (.getAttrsEx "f".toList), (.ok ⟨0x20#32, 0, 5⟩ : Except Errno WinAttrs)⟩], _, feed_exec (by rfl),
      .cons ⟨rfl, _, rfl, by unfold DataOf AttrsOf; decide⟩ (.nil _)⟩,
    [⟨.win (.createFile "k".toList Win.follow), (.ok 4 : Except Errno Nat)⟩,
      ⟨.win (.infoByHandle 4), (.ok ⟨0x20#32, ⟨200, 0⟩, 7, 0, 5, 2, 0, 2⟩ : Except Errno WinInfo)⟩,
      ⟨.win (.closeHandle 4), (.ok () : Except Errno Unit)⟩], _, feed_exec (by rfl),
    .cons ⟨rfl, _, rfl, rfl⟩ (.cons ⟨rfl, _, rfl, by unfold InfoOf AttrsOf; decide⟩ (.cons rfl (.nil _)))⟩

end Asap
