import Verif.Props.WinI

/-!
# C74: the decision of `copy_file` on Windows
-/

namespace Asap
open Spec

namespace Win

theorem wp_shouldCopy (D : WinDisk) (w : Prop) (c : SysClock) (h : Handler) (src dst : Path) (x : WinObj) (b : Option WinObj)
    (opts : CopyOptions) (hx : D.goal src.pathname = some x) (hd : x.dir = false) (hb : D.goal dst.pathname = b)
    (hbd : ∀ y, b = some y → y.dir = false ∧ (w → x ≠ y)) (hk : b ≠ none → ¬ skips opts) (s : Handles) :
    wp (Logged (LawW D w)) (fun o a => CopyRun c src.pathname dst.pathname (some x) b opts w a.2 o)
      ((shouldCopy c h src dst b.isSome opts (.ref none)).bind fun r => doCopy h src dst r) (s, []) := by
  have refuse : ∀ (e : Errno) (s : Handles), (w → choose (some x) b opts = .refuse) →
      wp (Logged (LawW D w)) (fun o a => CopyRun c src.pathname dst.pathname (some x) b opts w a.2 o)
        ((h.report (.ref none) (some e) false).bind fun r => doCopy h src dst r) (s, []) :=
    fun e s hw => .inl ⟨rfl, .inl ⟨e, rfl, hw⟩⟩
  have copy : ∀ (s : Handles), (w → choose (some x) b opts = .copy) →
      (∀ y, b = some y → updates opts ∨ overwrites opts) →
      wp (Logged (LawW D w)) (fun o a => CopyRun c src.pathname dst.pathname (some x) b opts w a.2 o)
        (doCopy h src dst (true, .ref none)) (s, []) := by
    rintro s hw hu r ⟨s', l⟩ ⟨_, h2⟩
    have h2 : l = [⟨.win (.copyFile src.pathname dst.pathname false), r⟩] := h2
    subst h2
    have : ∀ y, b = some y → y.dir = false ∧ ¬ skips opts ∧ (updates opts ∨ overwrites opts) := fun y hy =>
      ⟨(hbd y hy).1, hk (by simp [hy]), hu y hy⟩
    rcases r with e | u
    · exact .inr ⟨.error e, rfl, rfl, ⟨x, rfl, hd⟩, this, hw⟩
    · exact .inr ⟨.ok (), rfl, rfl, ⟨x, rfl, hd⟩, this, hw⟩
  unfold shouldCopy
  cases b with
  | none =>
    simp only [Option.isSome_none, Bool.false_and, Bool.false_eq_true, if_false, Bool.not_false, Bool.true_or, if_true]
    exact copy s (fun _ => by simp [choose, hd]) (fun y hy => by cases hy)
  | some y =>
    obtain ⟨hyd, hne⟩ := hbd y rfl
    have hsk := hk (by simp)
    simp only [Option.isSome_some, Bool.true_and, Bool.not_true, Bool.false_or]
    by_cases hu : updates opts
    · simp only [(has_update opts).mpr hu, if_true, Prog.bind_assoc]
      refine wp_bind (wp_mono ?_ (wp_logged (only_lastWriteTime ..) [] (wp_winTime D w c src none s)))
      rintro o ⟨s1, l⟩ ⟨ho, rfl⟩
      rcases ho with ⟨e, rfl, hw⟩ | ⟨x', hx', ⟨tx, rfl, htx⟩ | ⟨f, rfl, hf⟩⟩
      · exact refuse e s1 (fun hw' => by have := hw hw'; rw [hx] at this; cases this)
      · rw [hx] at hx'
        cases hx'
        dsimp only
        simp only [show EcArg.isSet (.ref none) = false from rfl, Bool.false_eq_true, if_false, Prog.bind_assoc]
        refine wp_bind (wp_mono ?_ (wp_logged (only_lastWriteTime ..) [] (wp_winTime D w c dst none s1)))
        rintro o ⟨s2, l⟩ ⟨ho, rfl⟩
        rcases ho with ⟨e, rfl, hw⟩ | ⟨y', hy', ⟨ty, rfl, hty⟩ | ⟨f, rfl, hf⟩⟩
        · exact refuse e s2 (fun hw' => by have := hw hw'; rw [hb] at this; cases this)
        · rw [hb] at hy'
          cases hy'
          have hle := le_iff_seconds c hty htx
          simp only [show EcArg.isSet (.ref none) = false from rfl, Bool.false_eq_true, if_false]
          by_cases hlt : ty ≤ tx
          · have hs := hle.mp hlt
            rw [decide_eq_true hlt]
            refine copy s2 (fun hw => ?_) (fun _ _ => .inl hu)
            simp [choose, hd, hyd, hne hw, hsk, hu, Nat.not_lt.mpr hs]
          · have hs : seconds x < seconds y := Nat.lt_of_not_le fun h => hlt (hle.mpr h)
            rw [decide_eq_false hlt]
            refine .inl ⟨rfl, .inr (.inl ⟨rfl, by simp, .inr ⟨hu, x, y, rfl, rfl, hs⟩, fun hw => ?_⟩)⟩
            simp [choose, hd, hyd, hne hw, hsk, hu, hs]
        · rw [hb] at hy'
          cases hy'
          exact .inl ⟨rfl, .inr (.inr ⟨f, rfl, hu, y, .inr rfl, hf⟩)⟩
      · rw [hx] at hx'
        cases hx'
        exact .inl ⟨rfl, .inr (.inr ⟨f, rfl, hu, x, .inl rfl, hf⟩)⟩
    · simp only [show opts.has .updateExisting = false from Bool.eq_false_iff.mpr fun h => hu ((has_update opts).mp h),
        Bool.false_eq_true, if_false]
      by_cases hov : overwrites opts
      · simp only [(has_overwrite opts).mpr hov, if_true]
        exact copy s (fun hw => by simp [choose, hd, hyd, hne hw, hsk, hu, hov]) (fun _ _ => .inr hov)
      · simp only [show opts.has .overwriteExisting = false from
          Bool.eq_false_iff.mpr fun h => hov ((has_overwrite opts).mp h), Bool.false_eq_true, if_false]
        exact refuse _ s (fun hw => by simp [choose, hd, hyd, hne hw, hsk, hu, hov])

theorem wp_copyFile (D : WinDisk) (w : Prop) (c : SysClock) (src dst : Path) (opts : CopyOptions) (ec : Code) (s : Handles) :
    wp (Logged (LawW D w))
      (fun o a => CopyRun c src.pathname dst.pathname (D.goal src.pathname) (D.goal dst.pathname) opts w a.2 o)
      (Win.copyFile c src dst opts (.ref ec)) (s, []) := by
  unfold Win.copyFile
  refine wp_bind (wp_mono ?_ (wp_logged (only_status ..) [] (wp_winStatus D w src none s)))
  rintro o ⟨s1, l⟩ ⟨⟨⟨st, ec1, rfl, hst, hw1⟩, -⟩, rfl⟩
  dsimp only
  rcases hst with ⟨rfl, hthere, hty⟩ | ⟨e, rfl, hst⟩
  · obtain ⟨x, hx⟩ := Option.ne_none_iff_exists'.mp hthere
    rw [hx] at hty ⊢
    simp only [show EcArg.isSet (.ref none) = false from rfl, Bool.false_eq_true, if_false]
    cases hd : x.dir with
    | true =>
      have hr : st.isRegular = false := by simp [FStatus.isRegular, hty, fileKind, hd]
      simp only [hr, Bool.not_false, if_true]
      refine .inl ⟨rfl, .inl ⟨_, rfl, fun _ => ?_⟩⟩
      cases D.goal dst.pathname <;> simp [choose, hd]
    | false =>
      have hr : st.isRegular = true := by simp [FStatus.isRegular, hty, fileKind, hd]
      simp only [hr, Bool.not_true, Bool.false_eq_true, if_false]
      refine wp_bind (wp_mono ?_ (wp_logged (only_status ..) [] (wp_winStatus D w dst none s1)))
      rintro o ⟨s2, l⟩ ⟨⟨⟨st2, ec2, rfl, hst2, hw2⟩, -⟩, rfl⟩
      dsimp only
      have hnu : w → st2.type ≠ .unknown ∧ st2.type ≠ .none := fun hw => by
        rw [hw2 hw]
        cases D.goal dst.pathname with
        | none => exact ⟨by decide, by decide⟩
        | some y => simp only [fileKind]; split <;> exact ⟨by decide, by decide⟩
      rcases hst2 with ⟨rfl, hthere2, hty2⟩ | ⟨e, rfl, ⟨hty2, hno⟩ | ⟨hty2, -⟩ | ⟨hty2, -⟩⟩
      · obtain ⟨y, hy⟩ := Option.ne_none_iff_exists'.mp hthere2
        have hk : st2.known = true ∧ st2.exists' = true := by
          rw [hy] at hty2
          simp only [FStatus.known, FStatus.exists', hty2, fileKind]
          cases y.dir <;> simp
        simp only [hk.1, hk.2, Bool.not_true, Bool.false_eq_true, if_false, Bool.true_and, if_true]
        cases hyd : y.dir with
        | true =>
          have hr2 : st2.isRegular = false := by simp [FStatus.isRegular, hty2, hy, fileKind, hyd]
          simp only [hr2, Bool.not_false, if_true]
          exact .inl ⟨rfl, .inl ⟨_, rfl, fun _ => by rw [hy]; simp [choose, hyd]⟩⟩
        | false =>
          have hr2 : st2.isRegular = true := by simp [FStatus.isRegular, hty2, hy, fileKind, hyd]
          simp only [hr2, Bool.not_true, Bool.false_eq_true, if_false]
          refine wp_bind (wp_mono ?_ (wp_logged (only_equivalent ..) [] (wp_winEquivalent D w src dst none s2)))
          rintro o ⟨s3, l⟩ ⟨⟨rfl, hsame, hw3⟩, rfl⟩
          have cont : ∀ (v : Bool) (ec3 : EcArg), (v = true → x = y) → (w → v = false → x ≠ y) →
              wp (Logged (LawW D w))
                (fun o a => CopyRun c src.pathname dst.pathname (some x) (D.goal dst.pathname) opts w a.2 o)
                (if v = true then (⟨"copy_file".toList, some dst, some src⟩ : Handler).report (EcArg.clear (.ref ec))
                    (some (if ec3.isSet = true then .EINVAL else .EEXIST)) false
                  else if opts.has .skipExisting = true then .ret (false, EcArg.clear (.ref ec))
                  else (shouldCopy c ⟨"copy_file".toList, some dst, some src⟩ src dst true opts
                    (EcArg.clear (.ref ec))).bind fun x => doCopy ⟨"copy_file".toList, some dst, some src⟩ src dst x) (s3, []) := by
            intro v ec3 h1 h2
            cases v with
            | true =>
              rw [if_pos rfl]
              refine .inl ⟨rfl, .inl ⟨_, rfl, fun _ => ?_⟩⟩
              rw [hy, ← h1 rfl]
              simp [choose]
            | false =>
              rw [if_neg (by decide)]
              by_cases hsk : skips opts
              · rw [if_pos ((has_skip opts).mpr hsk)]
                refine .inl ⟨rfl, .inr (.inl ⟨rfl, by simp [hy], .inl hsk, fun hw => ?_⟩)⟩
                rw [hy]
                simp [choose, hd, hyd, h2 hw rfl, hsk]
              · rw [if_neg (fun h => hsk ((has_skip opts).mp h)), hy]
                exact wp_shouldCopy D w c _ src dst x (some y) opts hx hd hy
                  (fun z hz => by cases hz; exact ⟨hyd, fun hw => h2 hw rfl⟩) (fun _ => hsk) s3
          have hgo : D.goal src.pathname ≠ none := by simp [hx]
          rcases hsame with ⟨x', y', hx', hy', v, rfl, hv⟩ | ⟨e, rfl⟩
          · rw [hx] at hx'
            rw [hy] at hy'
            cases hx'
            cases hy'
            exact cont v _ hv.mp (fun _ h0 hxy => by rw [hv.mpr hxy] at h0; cases h0)
          · exact cont false _ (fun h => by cases h) (fun hw => by
              obtain ⟨v, hv⟩ := hw3 hw hgo hthere2
              cases hv)
      · have hy : D.goal dst.pathname = none := Classical.byContradiction hno
        have hk : st2.known = true ∧ st2.exists' = false := by
          simp only [FStatus.known, FStatus.exists', hty2]; exact ⟨rfl, rfl⟩
        simp only [hk.1, hk.2, Bool.not_true, Bool.false_eq_true, if_false, Bool.false_and]
        rw [hy]
        exact wp_shouldCopy D w c _ src dst x none opts hx hd hy (fun z hz => by cases hz) (fun h => absurd rfl h) s2
      · have hk : st2.known = true ∧ st2.exists' = true ∧ st2.isRegular = false := by
          simp only [FStatus.known, FStatus.exists', FStatus.isRegular, hty2]; exact ⟨rfl, rfl, rfl⟩
        simp only [hk.1, hk.2.1, hk.2.2, Bool.not_true, Bool.not_false, Bool.false_eq_true, if_false, Bool.and_self, if_true]
        exact .inl ⟨rfl, .inl ⟨_, rfl, fun hw => absurd hty2 (hnu hw).1⟩⟩
      · have hk : st2.known = false := by simp only [FStatus.known, hty2]; rfl
        simp only [hk, Bool.not_false, if_true]
        exact .inl ⟨rfl, .inl ⟨_, rfl, fun hw => absurd hty2 (hnu hw).2⟩⟩
  · simp only [EcArg.isSet, EcArg.code, if_true]
    refine .inl ⟨rfl, .inl ⟨_, rfl, fun hw => ?_⟩⟩
    have := hw1 hw
    cases hx : D.goal src.pathname with
    | none => cases D.goal dst.pathname <;> rfl
    | some x =>
      rw [hx] at this hst
      rcases hst with ⟨_, hno⟩ | ⟨hty, _⟩ | ⟨hty, _⟩
      · exact absurd (by simp) hno
      · rw [hty] at this; simp only [fileKind] at this; split at this <;> cases this
      · rw [hty] at this; simp only [fileKind] at this; split at this <;> cases this

end Win

/-- **C74**: `copy_file` on Windows. The only call that can change anything is one `CopyFileW(source, destination)`, made
only for a source that is a file and a destination that is missing, or a file and may be replaced; the result is `true` iff
it succeeded. Without an error, `false` means that the destination exists and was to be skipped or is newer. If the system
fails only where there is nothing, the rule `choose` is followed. Undefined behaviour only with `update_existing` and a
time outside `file_time_type`. -/
theorem c74_copy_file_partial (D : WinDisk) (c : SysClock) (src dst : Path) (opts : CopyOptions) (ec : Code) (t : List Event)
    (o : Except Stop (Bool × EcArg)) (hs : Handles) (h : Exec (Win.copyFile c src dst opts (.ref ec)) t o)
    (hl : Steps (WinLaw D) noHandles t hs) :
    CopyRun c src.pathname dst.pathname (D.goal src.pathname) (D.goal dst.pathname) opts (∀ e ∈ t, WinWilling e)
      (t.filter fun e => e.call.mutates) o :=
  wp_sound (Win.wp_copyFile D _ c src dst opts ec noHandles) h (steps_logged (Win.steps_lawW hl) [])


/-- Two files `a` and `b`, last written to at `x` and `y`. -/
def Spec.twoFiles (x y : BitVec 64) : Str → Option WinObj
  | ['a'] => some ⟨false, none, 7, 1, 5, x, 1⟩
  | ['b'] => some ⟨false, none, 7, 2, 5, y, 1⟩
  | _ => none

/-- They and nothing else. -/
def Spec.twoDisk (x y : BitVec 64) : WinDisk where
  look := twoFiles x y
  goal := twoFiles x y
  missing _ h := h
  plain _ _ h _ := h
  unique p q a b ha hb _ hi := by
    unfold twoFiles at ha hb
    split at ha <;> split at hb <;> simp only [Option.some.injEq, reduceCtorEq] at ha hb <;> subst ha <;> subst hb <;>
      first | rfl | (exact absurd (congrArg BitVec.toNat hi) (by simp))

/-- `FILETIME` 200 and 500, 30 microseconds apart. -/
abbrev Spec.early : FileTime := ⟨200#32, 0#32⟩
abbrev Spec.late : FileTime := ⟨500#32, 0#32⟩

/-- What `GetFileInformationByHandle` says of the two files. -/
def Spec.infoA (x : FileTime) : WinInfo := { attrs := 0x80#32, volume := 7, indexHigh := 0, indexLow := 1, sizeHigh := 0, sizeLow := 5, time := x, links := 1 }
def Spec.infoB (x : FileTime) : WinInfo := { attrs := 0x80#32, volume := 7, indexHigh := 0, indexLow := 2, sizeHigh := 0, sizeLow := 5, time := x, links := 1 }

/-- The calls of `copy_file` from `a` to `b` with `update_existing`. -/
def Spec.updateTrace (x y : FileTime) : List Event :=
  [⟨.win (.getAttrs ['a']), (.ok 0x80#32 : Except Errno Mask)⟩, ⟨.win (.getPerms ['a'] 0x80#32), (.ok .all : Except Errno Perms)⟩,
   ⟨.win (.getAttrs ['b']), (.ok 0x80#32 : Except Errno Mask)⟩, ⟨.win (.getPerms ['b'] 0x80#32), (.ok .all : Except Errno Perms)⟩,
   ⟨.win (.createFile ['a'] Win.follow), (.ok 3 : Except Errno Nat)⟩, ⟨.win (.createFile ['b'] Win.follow), (.ok 4 : Except Errno Nat)⟩,
   ⟨.win (.infoByHandle 3), (.ok (infoA x) : Except Errno WinInfo)⟩, ⟨.win (.infoByHandle 4), (.ok (infoB y) : Except Errno WinInfo)⟩,
   ⟨.win (.closeHandle 4), (.ok () : Except Errno Unit)⟩, ⟨.win (.closeHandle 3), (.ok () : Except Errno Unit)⟩,
   ⟨.win (.createFile ['a'] { Win.follow with access := Win.FILE_READ_ATTRIBUTES }), (.ok 3 : Except Errno Nat)⟩,
   ⟨.win (.getFileTime 3), (.ok x : Except Errno FileTime)⟩, ⟨.win (.closeHandle 3), (.ok () : Except Errno Unit)⟩,
   ⟨.win (.createFile ['b'] { Win.follow with access := Win.FILE_READ_ATTRIBUTES }), (.ok 3 : Except Errno Nat)⟩,
   ⟨.win (.getFileTime 3), (.ok y : Except Errno FileTime)⟩, ⟨.win (.closeHandle 3), (.ok () : Except Errno Unit)⟩,
   ⟨.win (.copyFile ['a'] ['b'] false), (.ok () : Except Errno Unit)⟩]

theorem updateTrace_lawful (x y : FileTime) :
    ∃ hs, Steps (WinLaw (twoDisk (x.high ++ x.low) (y.high ++ y.low))) noHandles (updateTrace x y) hs := by
  have hA : InfoOf (infoA x) ⟨false, none, 7, 1, 5, x.high ++ x.low, 1⟩ :=
    ⟨⟨(by decide : (0x80#32).getLsbD 4 = false), (by decide : (0x80#32).getLsbD 10 = false)⟩, rfl, (by decide : (0#32 ++ 1#32 : BitVec 64) = 1#64), (by decide : (0#32 ++ 5#32 : BitVec 64) = 5#64), rfl, rfl⟩
  have hB : InfoOf (infoB y) ⟨false, none, 7, 2, 5, y.high ++ y.low, 1⟩ :=
    ⟨⟨(by decide : (0x80#32).getLsbD 4 = false), (by decide : (0x80#32).getLsbD 10 = false)⟩, rfl, (by decide : (0#32 ++ 2#32 : BitVec 64) = 2#64), (by decide : (0#32 ++ 5#32 : BitVec 64) = 5#64), rfl, rfl⟩
  exact ⟨_, .cons ⟨rfl, _, rfl, rfl, rfl⟩ <| .cons ⟨rfl, trivial⟩ <| .cons ⟨rfl, _, rfl, rfl, rfl⟩ <|
    .cons ⟨rfl, trivial⟩ <| .cons ⟨rfl, _, rfl, rfl⟩ <| .cons ⟨rfl, _, rfl, rfl⟩ <| .cons ⟨rfl, _, rfl, hA⟩ <|
    .cons ⟨rfl, _, rfl, hB⟩ <| .cons rfl <| .cons rfl <| .cons ⟨rfl, _, rfl, rfl⟩ <| .cons ⟨rfl, _, rfl, rfl⟩ <| .cons rfl <|
    .cons ⟨rfl, _, rfl, rfl⟩ <| .cons ⟨rfl, _, rfl, rfl⟩ <| .cons rfl <| .cons rfl <| .nil _⟩

theorem updateTrace_willing (x y : FileTime) : ∀ e ∈ updateTrace x y, WinWilling e := by
  simp [updateTrace, WinWilling]

/-- The claim that `update_existing` replaces only an older file is false: a destination written to later than the source,
but in the same second, is replaced, and so is one written to at the same time. -/
theorem c74_violated_update : ∃ (D : WinDisk) (src dst : Path) (x y : WinObj) (t : List Event) (hs : Handles),
    D.goal src.pathname = some x ∧ D.goal dst.pathname = some y ∧ x.time.toNat < y.time.toNat ∧
    Exec (Win.copyFile .msvc src dst .updateExisting (.ref none)) t (.ok (true, .ref none)) ∧
    Steps (WinLaw D) noHandles t hs ∧ (∀ e ∈ t, WinWilling e) ∧
    (⟨.win (.copyFile src.pathname dst.pathname false), (.ok () : Except Errno Unit)⟩ : Event) ∈ t := by
  obtain ⟨hs, h⟩ := updateTrace_lawful early late
  exact ⟨_, mkPath .windows "a".toList, mkPath .windows "b".toList, _, _, updateTrace early late, hs, rfl, rfl, by decide,
    feed_exec (by decide +kernel), h, updateTrace_willing _ _, by simp [updateTrace]; exact ⟨rfl, rfl⟩⟩

/-- The same with equal times. -/
theorem c74_violated_equal : ∃ (D : WinDisk) (src dst : Path) (x y : WinObj) (t : List Event) (hs : Handles),
    D.goal src.pathname = some x ∧ D.goal dst.pathname = some y ∧ x.time = y.time ∧
    Exec (Win.copyFile .msvc src dst .updateExisting (.ref none)) t (.ok (true, .ref none)) ∧
    Steps (WinLaw D) noHandles t hs ∧ (∀ e ∈ t, WinWilling e) := by
  obtain ⟨hs, h⟩ := updateTrace_lawful early early
  exact ⟨_, mkPath .windows "a".toList, mkPath .windows "b".toList,
    ⟨false, none, 7, 1, 5, _, 1⟩, ⟨false, none, 7, 2, 5, _, 1⟩, updateTrace early early, hs, rfl, rfl, rfl,
    feed_exec (by decide +kernel), h, updateTrace_willing _ _⟩

/-- The claim that a file is never copied onto itself is false: if `equivalent` cannot open the files, its error is
ignored and `CopyFileW` is called for two names of one file. -/
theorem c74_violated_same : ∃ (D : WinDisk) (src dst : Path) (x : WinObj) (t : List Event) (hs : Handles),
    D.goal src.pathname = some x ∧ D.goal dst.pathname = some x ∧
    Exec (Win.copyFile .msvc src dst .overwriteExisting (.ref none)) t (.ok (true, .ref none)) ∧
    Steps (WinLaw D) noHandles t hs ∧
    (⟨.win (.copyFile src.pathname dst.pathname false), (.ok () : Except Errno Unit)⟩ : Event) ∈ t := by
  refine ⟨sampleDisk, mkPath .windows "f".toList, mkPath .windows "g".toList, _,
    [⟨.win (.getAttrs ['f']), (.ok 0x80#32 : Except Errno Mask)⟩, ⟨.win (.getPerms ['f'] 0x80#32), (.ok .all : Except Errno Perms)⟩,
     ⟨.win (.getAttrs ['g']), (.ok 0x80#32 : Except Errno Mask)⟩, ⟨.win (.getPerms ['g'] 0x80#32), (.ok .all : Except Errno Perms)⟩,
     ⟨.win (.createFile ['f'] Win.follow), (.error (.ofWin 5) : Except Errno Nat)⟩,
     ⟨.win (.copyFile ['f'] ['g'] false), (.ok () : Except Errno Unit)⟩], _, rfl, rfl, feed_exec (by decide +kernel),
    .cons ⟨rfl, _, rfl, by decide, by decide⟩ <| .cons ⟨rfl, trivial⟩ <| .cons ⟨rfl, _, rfl, by decide, by decide⟩ <|
    .cons ⟨rfl, trivial⟩ <| .cons ⟨rfl, fun h => absurd h (by decide)⟩ <| .cons rfl <| .nil _, ?_⟩
  simp
  exact ⟨rfl, rfl⟩

/-- The hypotheses of `c74_copy_file_partial` are met by a copy that happens, and the rule distinguishes. -/
example : choose (twoFiles 200 500 ['a']) (twoFiles 200 500 ['b']) .updateExisting = .copy ∧
    choose (twoFiles 200 30000000 ['a']) (twoFiles 200 30000000 ['b']) .updateExisting = .keep ∧
    choose (twoFiles 200 500 ['a']) (twoFiles 200 500 ['b']) .none = .refuse ∧
    choose (twoFiles 200 500 ['a']) (twoFiles 200 500 ['x']) .none = .copy := by decide

end Asap
