import Verif.Os.Sound
import Verif.Props.OpsA
import Verif.Props.OpsB
import Verif.Props.CreateA
import Verif.Props.EntryA

/-!
# C114: operations run into no fault
-/

namespace Asap
namespace Spec

/-- Answers of a system within the limits the library relies on: `PATH_MAX` is positive, a symbolic link has a text, which fits the
buffer, and modification times are nanosecond counts of 64 bits. -/
def Sane : Event → Prop
  | ⟨.pathconf, (r : Int)⟩ => 0 < r
  | ⟨.readlink _ cap, (.ok s : Except Errno Str)⟩ => s ≠ [] ∧ s.length ≤ cap
  | ⟨.stat _, (.ok st : Except Errno Stat)⟩ =>
    0 ≤ st.mtimeNsec ∧ st.mtimeNsec < 1000000000 ∧ -2 ^ 63 ≤ st.mtimeSec * 1000000000 + st.mtimeNsec ∧
      st.mtimeSec * 1000000000 + st.mtimeNsec < 2 ^ 63
  | _ => True

/-- An open stream of a directory. -/
structure Open (s : Stream) : Prop where
  handle : s.handle ≠ none
  root : Loose s.root
  entry : Loose s.entry.path

/-- Iterators that are at their end or on an open directory. -/
def Usable (it : DirIter) : Prop := ∀ s, it = some s → Open s

/-- Recursive iterators that are at their end or in open directories. -/
def RecUsable (it : RecIter) : Prop := ∀ ss opts, it.impl = some (ss, opts) → ss ≠ [] ∧ ∀ s ∈ ss, Open s

/-- What the caller has to see to: paths made by the operations of `path`, exactly one of `replace`, `add` and `remove` for `permissions`,
iterators as returned by constructors and increments. For compilers that elide the copy in `parent_path`, paths without a long row of slashes at
the start in `create_directories`. -/
def Apt {α : Type} : FsOp α → Prop
  | .absolute p | .canonical p | .weaklyCanonical _ p | .proximateCwd _ p | .relativeCwd _ p | .dirIter _ p _ | .recIter _ p _ | .isEmpty _ p
  | .removeAll _ p => Reach p
  | .proximate _ p b | .relative _ p b => Reach p ∧ Reach b
  | .copy _ _ a b _ => Reach a ∧ Reach b
  | .createDirectories el n p => Reach p ∧ (el = true → (filenames p.pathname).length < n ∧ FewSlashes p.pathname)
  | .permissions _ _ o => o &&& 7 = 1 ∨ o &&& 7 = 2 ∨ o &&& 7 = 4
  | .dirIterIncr _ it => Usable it
  | .recIterIncr _ it | .recIterPop _ it => RecUsable it
  | _ => True

/-- What is asked of an entry without reading more than the type. -/
def Ask.ofType : Ask → Bool
  | .exists' | .is _ | .isSymlink => true
  | _ => false

end Spec
open Spec

/-! ## Status -/

/-- What the caller gets from `GetFileStatus` and `GetLinkStatus` with an `error_code`. -/
inductive StatRes (ok : Stat → Prop) (st0 : Option Stat) : (FStatus × Option Stat) × EcArg → Prop where
  | ok (st : Stat) (h : ok st) : StatRes ok st0 (({ type := typeOfMode st.mode, perms := st.mode &&& Perms.mask }, some st), .ref none)
  | gone (e : Errno) (s : FStatus) (h : s.type = .none ∨ s.type = .notFound) : StatRes ok st0 ((s, st0), .ref (some e))

/-- Times within range. -/
def TimeOk (st : Stat) : Prop := 0 ≤ st.mtimeNsec ∧ st.mtimeNsec < 1000000000 ∧ InI64 (st.mtimeSec * 1000000000 + st.mtimeNsec)

theorem sound_fail {p : Path} {e : Errno} {c : Code} {st : Option Stat} :
    Sound Sane (fun r => r.2 = .ref (some e) ∧ (r.1.type = .none ∨ r.1.type = .notFound)) (createFileStatus (some e) p st (.ref c)) := by
  unfold createFileStatus
  dsimp only
  split
  · exact .ret _ ⟨rfl, .inr rfl⟩
  · exact .ret _ ⟨rfl, .inr rfl⟩
  · rename_i h; cases h; exact .ret _ ⟨rfl, .inl rfl⟩
  · contradiction
  · contradiction

theorem sound_getFileStatus (p : Path) (st0 : Option Stat) (c : Code) : Sound Sane (StatRes TimeOk st0) (getFileStatus p st0 (.ref c)) := by
  refine .call _ _ fun r hr => ?_
  cases r with
  | ok st => exact .ret _ (.ok st ⟨hr.1, hr.2.1, hr.2.2⟩)
  | error e =>
    refine sound_fail.bind ?_
    rintro ⟨s, ec⟩ ⟨rfl, h⟩
    exact .ret _ (.gone e s h)

theorem sound_getLinkStatus (p : Path) (st0 : Option Stat) (c : Code) : Sound Sane (StatRes (fun _ => True) st0) (getLinkStatus p st0 (.ref c)) := by
  refine .call _ _ fun r hr => ?_
  cases r with
  | ok st => exact .ret _ (.ok st trivial)
  | error e =>
    refine sound_fail.bind ?_
    rintro ⟨s, ec⟩ ⟨rfl, h⟩
    exact .ret _ (.gone e s h)

theorem sound_failAny {p : Path} {e : Errno} {ec : EcArg} {st : Option Stat} : Sound Sane (fun _ => True) (createFileStatus (some e) p st ec) := by
  cases ec with
  | ref c => exact sound_fail.mono fun _ _ => trivial
  | null =>
    unfold createFileStatus
    dsimp only
    split
    · exact .ret _ trivial
    · exact .ret _ trivial
    · exact .thrown _
    · contradiction
    · contradiction

theorem sound_status (p : Path) (ec : EcArg) : Sound Sane (fun _ => True) (status p ec) := by
  refine Sound.bind (Q := fun _ => True) ?_ fun _ _ => .ret _ trivial
  refine .call _ _ fun r hr => ?_
  cases r with
  | ok st => exact .ret _ trivial
  | error e => exact sound_failAny.bind fun _ _ => .ret _ trivial

theorem sound_symlinkStatus (p : Path) (ec : EcArg) : Sound Sane (fun _ => True) (symlinkStatus p ec) := by
  refine Sound.bind (Q := fun _ => True) ?_ fun _ _ => .ret _ trivial
  refine .call _ _ fun r hr => ?_
  cases r with
  | ok st => exact .ret _ trivial
  | error e => exact sound_failAny.bind fun _ _ => .ret _ trivial

theorem sound_isTypeP (f : FStatus → Bool) (p : Path) (ec : EcArg) : Sound Sane (fun _ => True) (isTypeP f p ec) :=
  (sound_status p ec).bind fun _ _ => .ret _ trivial

theorem sound_existsP (p : Path) (ec : EcArg) : Sound Sane (fun _ => True) (existsP p ec) :=
  (sound_status p ec).bind fun _ _ => .ret _ trivial

theorem sound_isSymlinkP (p : Path) (ec : EcArg) : Sound Sane (fun _ => True) (isSymlinkP p ec) :=
  (sound_symlinkStatus p ec).bind fun _ _ => .ret _ trivial

/-- Programs of calls without conditions. -/
macro "sound" : tactic => `(tactic| repeat' first
  | with_reducible exact Sound.ret _ trivial
  | with_reducible exact Sound.fuel
  | with_reducible exact Sound.thrown _
  | with_reducible exact Sound.report trivial
  | with_reducible exact Sound.reportMsg trivial
  | (with_reducible refine Sound.call _ _ ?_; intro r hr)
  | (with_reducible refine Sound.bind (Q := fun _ => True) (Sound.report trivial) fun _ _ => ?_)
  | (with_reducible refine Sound.bind (Q := fun _ => True) (Sound.reportMsg trivial) fun _ _ => ?_)
  | split
  | dsimp only
  | simp only [Prog.bind_eq])

section
variable {p q : Path} {ec : EcArg}

theorem fs_not {s : FStatus} (h : s.type = .none ∨ s.type = .notFound) :
    s.exists' = false ∧ s.isRegular = false ∧ s.isDirectory = false ∧ s.isSymlink = false := by
  unfold FStatus.exists' FStatus.known FStatus.isRegular FStatus.isDirectory FStatus.isSymlink
  rcases h with h | h <;> rw [h] <;> decide

theorem sound_createDirectory : Sound Sane (fun _ => True) (createDirectory p ec) := by
  unfold createDirectory
  sound

theorem sound_createDirectoryLike : Sound Sane (fun _ => True) (createDirectoryLike p q ec) := by
  unfold createDirectoryLike
  simp only [Prog.bind_eq]
  refine (sound_getFileStatus q none none).bind ?_
  rintro _ (⟨st, h⟩ | ⟨e, s, h⟩)
  · simp only [Prog.useStat, Prog.ret_bind]
    sound
  · dsimp only
    split
    · sound
    · rw [if_pos (by rw [(fs_not h).2.2.1]; rfl)]
      sound

theorem sound_currentPath : Sound Sane (fun r => Loose r.1) (currentPath ec) := by
  refine .call _ _ fun r hr => ?_
  rw [if_pos (show 0 < r from hr)]
  refine .call _ _ fun r hr => ?_
  cases r with
  | ok s => exact .ret _ (mkPath_loose s)
  | error e => exact .reportMsg .dflt

theorem sound_doAbsolute (hp : Loose p) : Sound Sane (fun r => Loose r.1.1 ∧ Loose r.1.2) (doAbsolute p ec) := by
  unfold doAbsolute
  simp only [Prog.bind_eq, hp.shape.isAbsolute, Prog.ofRes_ok, Prog.ret_bind]
  split
  · exact .ret _ ⟨hp, .dflt⟩
  · refine sound_currentPath.bind ?_
    rintro ⟨cwd, ec⟩ h
    dsimp only
    split
    · exact .ret _ ⟨.dflt, h⟩
    · rw [h.shape.append hp.shape]
      refine .ret _ ⟨?_, h⟩
      dsimp only
      split
      · exact hp
      · exact mkPath_loose _

theorem sound_canonical (hp : Loose p) : Sound Sane (fun r => Loose r.1) (canonical p ec) := by
  unfold canonical
  simp only [Prog.bind_eq]
  refine (sound_doAbsolute hp).bind ?_
  rintro ⟨⟨pa, cwd⟩, ec⟩ ⟨h1, h2⟩
  refine .call _ _ fun r hr => ?_
  cases r with
  | ok s => exact .ret _ (mkPath_loose s)
  | error e => exact .report .dflt

theorem sound_existingPrefix : ∀ (xs : List Path) (r : Path), (∀ x ∈ xs, Loose x) → Loose r →
    Sound Sane (fun o => Loose o.1 ∧ ∀ x ∈ o.2.1, Loose x) (existingPrefix xs r)
  | [], r, _, hr => .ret _ ⟨hr, by simp⟩
  | x :: xs, r, hx, hr => by
    unfold existingPrefix
    simp only [Prog.bind_eq, hr.shape.append (hx x (by simp)).shape, Prog.ofRes_ok, Prog.ret_bind]
    refine (sound_status _ _).bind ?_
    rintro ⟨st, m⟩ _
    dsimp only
    split
    · refine sound_existingPrefix xs _ (fun y hy => hx y (by simp [hy])) ?_
      split
      · exact hx x (by simp)
      · exact mkPath_loose _
    · exact .ret _ ⟨hr, hx⟩

theorem appendAll_loose : ∀ (xs : List Path) (r : Path), (∀ x ∈ xs, Loose x) → Loose r → ∃ q, appendAll r xs = .ok q ∧ Loose q
  | [], r, _, hr => ⟨r, rfl, hr⟩
  | x :: xs, r, hx, hr => by
    unfold appendAll
    simp only [hr.shape.append (hx x (by simp)).shape, bind, Except.bind]
    refine appendAll_loose xs _ (fun y hy => hx y (by simp [hy])) ?_
    split
    · exact hx x (by simp)
    · exact mkPath_loose _

theorem loose_elems (hp : Loose p) : ∀ x ∈ p.elems, Loose x := by
  intro x hx
  rw [hp.shape.elems] at hx
  obtain ⟨w, hw, rfl⟩ := List.mem_map.mp hx
  exact (elemPath_good (b := true) (elements_isElem hw)).loose

theorem loose_returned {el : Bool} (hp : Loose p) : Loose (returned .posix el p) := by
  cases el
  · exact mkPath_loose _
  · exact hp

theorem sound_weaklyCanonical {el : Bool} (hp : Loose p) : Sound Sane (fun r => Loose r.1) (weaklyCanonical el p ec) := by
  unfold weaklyCanonical
  dsimp only
  split
  · exact sound_canonical (mkPath_loose _)
  · simp only [Prog.bind_eq]
    refine (sound_status _ _).bind ?_
    rintro ⟨st, m⟩ _
    dsimp only
    split
    · exact .report .dflt
    split
    · exact sound_canonical hp
    refine (sound_existingPrefix _ _ (loose_elems hp) .dflt).bind ?_
    rintro ⟨result, rest, m⟩ ⟨h1, h2⟩
    refine Sound.bind (Q := fun r => Loose r.1) ?_ ?_
    · dsimp only
      split
      · exact (sound_canonical h1).bind fun r hr => .ret _ hr
      · exact .ret _ h1
    · rintro ⟨r, m⟩ hr
      dsimp only
      split
      · exact .ret _ .empt
      · obtain ⟨q, h3, h4⟩ := appendAll_loose rest r h2 hr
        obtain ⟨n, h5, h6⟩ := h4.shape.lexicallyNormal_good el
        simp only [h3, h5, Prog.ofRes_ok, Prog.ret_bind]
        exact .ret _ (loose_returned h6.loose)

theorem sound_via {el : Bool} {f : Path → Path → Res Path} (hf : ∀ a b, Loose a → Loose b → ∃ r, f a b = .ok r) {c : Code} (hp : Loose p) (hq : Loose q) :
    Sound Sane (fun _ => True) (viaCanonicalEc el f p q c) ∧ Sound Sane (fun _ => True) (viaCanonicalThrow el f p q) := by
  constructor
  · unfold viaCanonicalEc
    simp only [Prog.bind_eq]
    refine (sound_weaklyCanonical hp).bind ?_
    rintro ⟨a, ec⟩ ha
    dsimp only
    split
    · sound
    refine (sound_weaklyCanonical hq).bind ?_
    rintro ⟨b, ec⟩ hb
    dsimp only
    split
    · sound
    obtain ⟨r, h⟩ := hf a b ha hb
    rw [h]
    exact .ret _ trivial
  · unfold viaCanonicalThrow
    simp only [Prog.bind_eq]
    refine (sound_weaklyCanonical hp).bind ?_
    rintro ⟨a, ec⟩ ha
    refine (sound_weaklyCanonical hq).bind ?_
    rintro ⟨b, ec⟩ hb
    obtain ⟨r, h⟩ := hf a b ha hb
    rw [h]
    exact .ret _ trivial

theorem rel_ok (a b : Path) (ha : Loose a) (hb : Loose b) : ∃ r, lexicallyRelative .posix a b = .ok r := by
  obtain ⟨r, h, _⟩ := ha.shape.lexicallyRelative hb.shape
  exact ⟨r, h⟩

theorem prox_ok (a b : Path) (ha : Loose a) (hb : Loose b) : ∃ r, lexicallyProximate .posix a b = .ok r := by
  obtain ⟨r, h, _⟩ := ha.shape.lexicallyRelative hb.shape
  refine ⟨if r.pathname = [] then a else r, ?_⟩
  simp only [lexicallyProximate, h, bind, Except.bind, pure, Except.pure]
  split <;> rfl

theorem sound_proximate {el : Bool} (hp : Loose p) (hq : Loose q) : Sound Sane (fun _ => True) (proximate el p q ec) := by
  cases ec
  · exact (sound_via (c := none) prox_ok hp hq).2
  · exact (sound_via prox_ok hp hq).1

theorem sound_relative {el : Bool} (hp : Loose p) (hq : Loose q) : Sound Sane (fun _ => True) (relative el p q ec) := by
  cases ec
  · exact (sound_via (c := none) rel_ok hp hq).2
  · exact (sound_via rel_ok hp hq).1

theorem sound_missingOf : ∀ (n : Nat) (p : Path) (acc : List Path), Loose p → Sound Sane (fun _ => True) (missingOf false n p acc)
  | 0, _, _, _ => .fuel
  | n + 1, p, acc, hp => by
    unfold missingOf
    simp only [Prog.bind_eq, hp.shape.hasFilename, Prog.ofRes_ok, Prog.ret_bind]
    split
    · obtain ⟨q, h1, _, _, h2⟩ := hp.parentPath false
      simp only [hp.shape.filename, h1, Prog.ofRes_ok, Prog.ret_bind]
      exact sound_missingOf n q _ (h2 rfl)
    · exact .ret _ trivial

theorem sound_createMissing : ∀ (l : List Path) (b : Bool), Sound Sane (fun _ => True) (createMissing l b)
  | [], _ => .ret _ trivial
  | x :: l, b => by
    unfold createMissing
    simp only [Prog.bind_eq]
    refine (sound_status _ _).bind ?_
    rintro ⟨st, m⟩ _
    refine Sound.bind (Q := fun _ => True) ?_ ?_
    · dsimp only
      split
      · exact sound_createDirectory.bind fun _ _ => .ret _ trivial
      · exact .ret _ trivial
    rintro ⟨b, m⟩ _
    refine Sound.bind (Q := fun _ => True) ?_ ?_
    · dsimp only
      split
      · exact (sound_isTypeP _ _ _).bind fun _ _ => .ret _ trivial
      · exact .ret _ trivial
    rintro m _
    dsimp only
    split
    · exact .ret _ trivial
    · exact sound_createMissing l _

theorem sound_createDirectories {el : Bool} {n : Nat} (hp : Loose p) (hel : el = true → (filenames p.pathname).length < n ∧ FewSlashes p.pathname) :
    Sound Sane (fun _ => True) (createDirectories el n p ec) := by
  unfold createDirectories
  simp only [Prog.bind_eq]
  split
  · exact .report trivial
  refine Sound.bind (Q := fun _ => True) ?_ ?_
  · cases el with
    | false => exact sound_missingOf n p [] hp
    | true =>
      obtain ⟨h1, h2⟩ := hel rfl
      by_cases hf : filePart p.pathname = []
      · obtain ⟨n, rfl⟩ : ∃ j, n = j + 1 := ⟨n - 1, by omega⟩
        unfold missingOf
        simp only [Prog.bind_eq, hp.shape.hasFilename, Prog.ofRes_ok, Prog.ret_bind, hf]
        exact .ret _ trivial
      · obtain ⟨l, h3, _⟩ := missingOf_all hp hf h1 fun _ => h2
        rw [h3]
        exact .ret _ trivial
  rintro l _
  split
  · exact .ret _ trivial
  refine (sound_createMissing _ _).bind ?_
  rintro ⟨b, m, e⟩ _
  dsimp only
  split
  · exact .report trivial
  · exact .ret _ trivial

theorem sound_createSymlinkAs {fn : Str} : Sound Sane (fun _ => True) (createSymlinkAs fn p q ec) := by
  unfold createSymlinkAs
  sound

theorem sound_createHardLink : Sound Sane (fun _ => True) (createHardLink p q ec) := by
  unfold createHardLink
  sound

theorem fits_cap {n : Nat} {r : Int} (h : n ≤ r.toNat) (hr : 0 < r) : (n : Int) ≤ r := by omega

theorem sound_readSymlink : Sound Sane (fun _ => True) (readSymlink p ec) := by
  refine .call _ _ fun r hr => ?_
  have hr : 0 < r := hr
  rw [if_pos hr]
  refine .call _ _ fun x hx => ?_
  cases x with
  | ok s =>
    have hx : s ≠ [] ∧ s.length ≤ r.toNat := hx
    dsimp only
    rw [if_pos ⟨fits_cap hx.2 hr, List.length_pos_iff.mpr hx.1⟩]
    exact .ret _ trivial
  | error e => exact .report trivial

theorem sound_copySymlink : Sound Sane (fun _ => True) (copySymlink p q ec) := by
  unfold copySymlink
  simp only [Prog.bind_eq]
  refine sound_readSymlink.bind ?_
  rintro ⟨r, m⟩ _
  dsimp only
  split
  · exact .report trivial
  · exact sound_createSymlinkAs

theorem sound_equivalent : Sound Sane (fun _ => True) (equivalent p q ec) := by
  unfold equivalent
  simp only [Prog.bind_eq]
  refine (sound_getFileStatus _ _ _).bind ?_
  rintro _ (⟨st, h⟩ | ⟨e, s, h⟩)
  · dsimp only
    split
    · exact .report trivial
    refine (sound_getFileStatus _ _ _).bind ?_
    rintro _ (⟨st, h⟩ | ⟨e, s, h⟩)
    · simp only [Prog.useStat, Prog.ret_bind]
      sound
    · dsimp only
      rw [if_pos (by simp [(fs_not h).1])]
      exact .report trivial
  · dsimp only
    rw [if_pos (by simp [(fs_not h).1])]
    exact .report trivial

theorem sound_fileSize : Sound Sane (fun _ => True) (fileSize p ec) := by
  unfold fileSize
  simp only [Prog.bind_eq]
  refine (sound_getFileStatus _ _ _).bind ?_
  rintro _ (⟨st, h⟩ | ⟨e, s, h⟩)
  · simp only [Prog.useStat, Prog.ret_bind]
    sound
  · dsimp only
    rw [if_pos (by simp [(fs_not h).1])]
    exact .report trivial

theorem sound_hardLinkCount : Sound Sane (fun _ => True) (hardLinkCount p ec) := by
  unfold hardLinkCount
  simp only [Prog.bind_eq]
  refine (sound_getFileStatus _ _ _).bind ?_
  rintro _ (⟨st, h⟩ | ⟨e, s, h⟩)
  · simp only [Prog.useStat, Prog.ret_bind]
    sound
  · exact .report trivial

theorem sound_extract {st : Stat} (h : TimeOk st) : Sound Sane (fun _ => True) (extractLastWriteTime p st ec) := by
  unfold extractLastWriteTime
  rw [timeFromSpec_exact _ _ h.1 h.2.1 h.2.2]
  dsimp only
  split
  · exact .ret _ trivial
  · exact .report trivial

theorem sound_lastWriteTime : Sound Sane (fun _ => True) (lastWriteTime p ec) := by
  unfold lastWriteTime
  simp only [Prog.bind_eq]
  refine (sound_getFileStatus _ _ _).bind ?_
  rintro _ (⟨st, h⟩ | ⟨e, s, h⟩)
  · simp only [Prog.useStat, Prog.ret_bind]
    split
    · exact .report trivial
    · exact sound_extract h
  · exact .report trivial

theorem sound_chmodAt {m : Perms} {b : Bool} : Sound Sane (fun _ => True) (chmodAt p m b ec) := by
  unfold chmodAt
  sound

theorem masked_ne (m : Mode) : m &&& Perms.mask ≠ Perms.unknown := by
  intro h
  have := congrArg (· &&& (0x8000 : Mode)) h
  simp only [BitVec.and_assoc, Perms.mask, Perms.unknown] at this
  revert this
  simp

theorem sound_permStatus {b : Bool} : Sound Sane (fun r => r.2.isSet = false → r.1.perms ≠ Perms.unknown) (permStatus p b) := by
  unfold permStatus
  split
  · refine (sound_getFileStatus p none none).bind ?_
    rintro _ (⟨st, h⟩ | ⟨e, s, h⟩)
    · exact .ret _ fun _ => masked_ne _
    · exact .ret _ fun h => by cases h
  · refine (sound_getLinkStatus p none none).bind ?_
    rintro _ (⟨st, h⟩ | ⟨e, s, h⟩)
    · exact .ret _ fun _ => masked_ne _
    · exact .ret _ fun h => by cases h

theorem one_option {o : PermOptions} (h : o &&& 7 = 1 ∨ o &&& 7 = 2 ∨ o &&& 7 = 4) :
    ((PermOptions.add &&& o) != 0).toNat + ((PermOptions.remove &&& o) != 0).toNat + ((PermOptions.replace &&& o) != 0).toNat = 1 := by
  have e1 : PermOptions.add &&& o = PermOptions.add &&& (o &&& 7) := by
    rw [BitVec.and_comm o, ← BitVec.and_assoc]; rfl
  have e2 : PermOptions.remove &&& o = PermOptions.remove &&& (o &&& 7) := by
    rw [BitVec.and_comm o, ← BitVec.and_assoc]; rfl
  have e3 : PermOptions.replace &&& o = PermOptions.replace &&& (o &&& 7) := by
    rw [BitVec.and_comm o, ← BitVec.and_assoc]; rfl
  rw [e1, e2, e3]
  rcases h with h | h | h <;> rw [h] <;> decide

theorem sound_permissions {m : Perms} {o : PermOptions} (h : o &&& 7 = 1 ∨ o &&& 7 = 2 ∨ o &&& 7 = 4) :
    Sound Sane (fun _ => True) (permissions p m o ec) := by
  unfold permissions
  simp only [Prog.bind_eq]
  rw [if_neg (by rw [one_option h]; simp)]
  split
  · refine sound_permStatus.bind ?_
    rintro ⟨st, m⟩ hs
    dsimp only
    split
    · exact .report trivial
    · rename_i hm
      rw [if_neg (hs (by simpa using hm))]
      exact sound_chmodAt
  · exact sound_chmodAt

theorem sound_remove : Sound Sane (fun _ => True) (remove p ec) := by
  unfold remove
  sound

theorem sound_firstEnv : ∀ l, Sound Sane (fun _ => True) (firstEnv l)
  | [] => .ret _ trivial
  | v :: l => by
    refine .call _ _ fun r hr => ?_
    cases r with
    | some s => exact .ret _ trivial
    | none => exact sound_firstEnv l

theorem sound_tempDirectoryPath : Sound Sane (fun _ => True) (tempDirectoryPath ec) := by
  unfold tempDirectoryPath
  simp only [Prog.bind_eq]
  refine (sound_firstEnv _).bind ?_
  rintro s _
  refine (sound_status _ _).bind ?_
  rintro ⟨st, m⟩ _
  sound

/-! ## Copying -/

theorem sound_refreshStatus : Sound Sane (fun _ => True) (refreshStatus p) := by
  refine .call _ _ fun r hr => ?_
  cases r with
  | ok st => exact .ret _ trivial
  | error e => exact sound_failAny.bind fun _ _ => .ret _ trivial

theorem sound_sendLoop {out inp : Nat} : ∀ (n : Nat) (c : Int), Sound Sane (fun _ => True) (sendLoop out inp n c)
  | 0, _ => .fuel
  | n + 1, c => by
    refine .call _ _ fun r hr => ?_
    cases r with
    | error e => exact .ret _ trivial
    | ok k =>
      dsimp only
      split
      · exact sound_sendLoop n _
      · exact .ret _ trivial

theorem sound_copyDefault {out inp : Nat} : ∀ (n : Nat), Sound Sane (fun _ => True) (copyDefault inp out n)
  | 0 => .fuel
  | n + 1 => by
    refine .call _ _ fun r hr => ?_
    cases r with
    | error e => exact .ret _ trivial
    | ok d =>
      dsimp only
      split
      · exact .ret _ trivial
      · refine .call _ _ fun r hr => ?_
        cases r with
        | error e => exact .ret _ trivial
        | ok k => exact sound_copyDefault n

theorem sound_doCopyFile {sf : Bool} {n inp out : Nat} {z : Int} : Sound Sane (fun _ => True) (doCopyFile sf n inp out z) := by
  unfold doCopyFile copySendfile
  simp only [Prog.bind_eq]
  have hd : ∀ b : Bool, Sound Sane (fun _ => True) (if b then Prog.ret (none : Code) else copyDefault inp out n) := by
    intro b
    split
    · exact .ret _ trivial
    · exact sound_copyDefault n
  split
  · refine Sound.bind (Q := fun _ => True) ?_ fun b _ => hd b
    split
    · exact .ret _ trivial
    · exact (sound_sendLoop n _).bind fun _ _ => .ret _ trivial
  · exact hd false

theorem sound_closeFd {d : Nat} : Sound Sane (fun _ => True) (closeFd d) := by
  unfold closeFd
  sound

theorem sound_copyInto {sf : Bool} {n : Nat} {h : Handler} {inp : Nat} {fst : Stat} {tst : Option Stat} :
    Sound Sane (fun _ => True) (copyInto sf n h inp fst p tst ec) := by
  have fin : ∀ out, Sound Sane (fun _ => True) ((doCopyFile sf n inp out fst.size.toInt).bind fun m =>
      if m ≠ none then h.report ec m false else .ret (true, ec)) := by
    intro out
    refine sound_doCopyFile.bind fun m _ => ?_
    split
    · exact .report trivial
    · exact .ret _ trivial
  refine .call _ _ fun r hr => ?_
  cases r with
  | error e => exact .report trivial
  | ok out =>
    refine Sound.finally' ?_ sound_closeFd
    simp only [Prog.bind_eq]
    refine sound_refreshStatus.bind ?_
    rintro ⟨⟨s, st⟩, m⟩ _
    dsimp only
    split
    · exact .report trivial
    · cases tst with
      | none => exact fin out
      | some tst =>
        dsimp only
        split
        · exact .report trivial
        · refine .call _ _ fun r hr => ?_
          cases r with
          | error e => exact .report trivial
          | ok _ =>
            refine .call _ _ fun r hr => ?_
            cases r with
            | error e => exact .report trivial
            | ok _ => exact fin out

theorem sound_copyFile {sf : Bool} {n : Nat} {opts : CopyOptions} : Sound Sane (fun _ => True) (copyFile sf n p q opts ec) := by
  refine .call _ _ fun r hr => ?_
  cases r with
  | error e => exact .report trivial
  | ok inp =>
    refine Sound.finally' ?_ sound_closeFd
    unfold copyOpened
    simp only [Prog.bind_eq]
    refine sound_refreshStatus.bind ?_
    rintro ⟨⟨s, st⟩, m⟩ _
    dsimp only
    split
    · exact .report trivial
    split
    · exact .report trivial
    refine (sound_getFileStatus _ _ _).bind ?_
    rintro _ (⟨st, h⟩ | ⟨e, s, h⟩)
    · dsimp only
      split
      · exact .report trivial
      split
      · exact sound_copyInto
      split
      · exact .report trivial
      simp only [Prog.useStat, Prog.ret_bind]
      split
      · exact .report trivial
      split
      · exact .ret _ trivial
      split
      · split
        · exact sound_copyInto
        · exact .ret _ trivial
      split
      · exact sound_copyInto
      · exact Sound.bind (Q := fun _ => True) (.report trivial) fun _ _ => .ret _ trivial
    · dsimp only
      split
      · exact .report trivial
      · rw [if_pos (by simp [(fs_not h).1])]
        exact sound_copyInto

/-! ## Iterators -/

theorem sound_close {s : Stream} : Sound Sane (fun r => r.handle = none) s.close := by
  unfold Stream.close
  split
  · exact .call _ _ fun r hr => .ret _ rfl
  · rename_i h; exact .ret _ h

theorem sound_destroy {it : DirIter} : Sound Sane (fun _ => True) it.destroy := by
  cases it with
  | none => exact .ret _ trivial
  | some s => exact sound_close.bind fun _ _ => .ret _ trivial

/-- What an advanced stream is. -/
def Moved (r : Bool × Stream × Code) : Prop := (r.1 = true → Open r.2.1) ∧ (r.1 = false → r.2.1.handle = none) ∧ (r.1 = true → r.2.2 = none)

theorem sound_advance : ∀ (n : Nat) (s : Stream), s.handle ≠ none → Loose s.root → Sound Sane Moved (s.advance n)
  | 0, _, _, _ => .fuel
  | n + 1, s, h, hr => by
    have cl : ∀ m, Sound Sane Moved (s.close.bind fun s => .ret (false, s, m)) := fun m =>
      sound_close.bind fun s h => .ret _ ⟨by simp, fun _ => h, by simp⟩
    unfold Stream.advance
    cases hd : s.handle with
    | none => exact absurd hd h
    | some d =>
      refine .call _ _ fun r _ => ?_
      simp only [Prog.bind_eq]
      split
      · exact cl _
      · exact cl _
      · split
        · exact sound_advance n s h hr
        split
        · exact cl _
        · rw [hr.shape.append (mkPath_shape _)]
          refine .ret _ ⟨fun _ => ⟨by simp, hr, ?_⟩, by simp, fun _ => rfl⟩
          dsimp only
          split <;> exact mkPath_loose _

theorem sound_streamNew {n : Nat} {opts : DirOptions} (hp : Loose p) :
    Sound Sane (fun r => (r.1.good = true → Open r.1) ∧ (r.2 ≠ none → r.1.good = false)) (Stream.new n p opts) := by
  refine .call _ _ fun r hr => ?_
  cases r with
  | error e =>
    dsimp only
    split <;> exact .ret _ ⟨by simp [Stream.good], by simp [Stream.good]⟩
  | ok d =>
    simp only [Prog.bind_eq]
    refine (sound_advance n _ (by simp) hp).bind ?_
    rintro ⟨b, s, m⟩ ⟨h1, h2, h3⟩
    refine .ret _ ⟨fun hg => ?_, fun hm => ?_⟩
    · cases b with
      | true => exact h1 rfl
      | false => simp [Stream.good, show s.handle = none from h2 rfl] at hg
    · cases b with
      | true => exact absurd (h3 rfl) hm
      | false => simp [Stream.good, show s.handle = none from h2 rfl]

theorem sound_dirNew {n : Nat} {opts : DirOptions} (hp : Loose p) : Sound Sane (fun r => Usable r.1) (DirIter.new n p opts ec) := by
  unfold DirIter.new
  simp only [Prog.bind_eq]
  refine (sound_streamNew hp).bind ?_
  rintro ⟨s, m⟩ ⟨h, _⟩
  dsimp only
  split
  · split
    · exact Sound.bind (Q := fun _ => True) (.report trivial) fun _ _ => .ret _ (by rintro _ ⟨⟩)
    · exact .ret _ (by rintro _ ⟨⟩)
  · rename_i hg
    exact .ret _ (by rintro _ ⟨⟩; exact h (by simpa using hg))

theorem sound_dirIncr {n : Nat} {it : DirIter} (hi : Usable it) : Sound Sane (fun r => Usable r.1) (DirIter.incr n it ec) := by
  unfold DirIter.incr
  simp only [Prog.bind_eq]
  cases it with
  | none => exact Sound.bind (Q := fun _ => True) (.reportMsg trivial) fun _ _ => .ret _ (by rintro _ ⟨⟩)
  | some s =>
    have ho := hi s rfl
    dsimp only
    refine (sound_advance n s ho.handle ho.root).bind ?_
    rintro ⟨b, s', m⟩ ⟨h1, h2, h3⟩
    dsimp only
    split
    · rename_i hb
      exact .ret _ (by rintro _ ⟨⟩; exact h1 hb)
    · split
      · exact Sound.bind (Q := fun _ => True) (.reportMsg trivial) fun _ _ => .ret _ (by rintro _ ⟨⟩)
      · exact .ret _ (by rintro _ ⟨⟩)

theorem sound_closeAll : ∀ (ss : List Stream), Sound Sane (fun _ => True) (closeAll ss)
  | [] => .ret _ trivial
  | _ :: ss => (sound_closeAll ss).bind fun _ _ => sound_close.bind fun _ _ => .ret _ trivial

theorem open_moved {s : Stream} (h : Open s) : Open s.moved := ⟨h.handle, mkPath_loose _, mkPath_loose _⟩

theorem sound_advanceStack {n : Nat} : ∀ (ss : List Stream), (∀ s ∈ ss, Open s) →
    Sound Sane (fun r => r.2 = none → ∀ s ∈ r.1, Open s) (advanceStack n ss)
  | [], _ => .ret _ fun _ => by simp
  | s :: ss, h => by
    have hs := h s (by simp)
    unfold advanceStack
    simp only [Prog.bind_eq]
    refine (sound_advance n s hs.handle hs.root).bind ?_
    rintro ⟨b, s', m⟩ ⟨h1, h2, h3⟩
    dsimp only
    split
    · rename_i hb
      refine .ret _ fun _ x hx => ?_
      rcases List.mem_cons.mp hx with rfl | hx
      · exact h1 hb
      · exact h x (by simp [hx])
    · split
      · exact .ret _ fun h => by cases h
      · exact sound_advanceStack ss fun x hx => h x (by simp [hx])

theorem sound_recAdvance {n : Nat} {it : RecIter} (hi : RecUsable it) : Sound Sane (fun r => RecUsable r.1) (RecIter.advance n it ec) := by
  unfold RecIter.advance
  simp only [Prog.bind_eq]
  cases hm : it.impl with
  | none => exact Sound.bind (Q := fun _ => True) (.reportMsg trivial) fun _ _ => .ret _ hi
  | some x =>
    obtain ⟨ss, opts⟩ := x
    dsimp only
    refine (sound_advanceStack ss (hi ss opts hm).2).bind ?_
    rintro ⟨ss', m⟩ h
    dsimp only
    split
    · refine (sound_closeAll _).bind fun _ _ => ?_
      exact Sound.bind (Q := fun _ => True) (.reportMsg trivial) fun _ _ => .ret _ (by rintro _ _ ⟨⟩)
    · split
      · exact .ret _ (by rintro _ _ ⟨⟩)
      · rename_i he
        exact .ret _ (by rintro _ _ ⟨⟩; exact ⟨by simpa using he, h rfl⟩)

theorem sound_recNew {n : Nat} {opts : DirOptions} (hp : Loose p) : Sound Sane (fun r => RecUsable r.1) (RecIter.new n p opts ec) := by
  unfold RecIter.new
  simp only [Prog.bind_eq]
  refine (sound_streamNew hp).bind ?_
  rintro ⟨s, m⟩ ⟨h, _⟩
  dsimp only
  split
  · refine Sound.bind (Q := fun _ => True) ((Sound.report trivial).finally' sound_destroy) fun _ _ => .ret _ (by rintro _ _ ⟨⟩)
  · split
    · exact .ret _ (by rintro _ _ ⟨⟩)
    · rename_i hg
      refine .ret _ ?_
      rintro _ _ ⟨⟩
      refine ⟨by simp, fun x hx => ?_⟩
      obtain rfl := List.mem_singleton.mp hx
      exact open_moved (h (by simpa using hg))

/-! ## Entries -/

theorem sound_updateBasic {b : Bool} {e : Entry} :
    Sound Sane (fun r => r.1.path = e.path ∧ (r.1.cache.cacheType = .full ∨ e.cache.cacheType = .empty ∧ r.1 = e ∧ ec ≠ .null))
      (updateBasic b e ec) := by
  unfold updateBasic
  simp only [Prog.bind_eq]
  refine (sound_getFileStatus _ _ _).bind ?_
  rintro _ (⟨st, h⟩ | ⟨er, s, h⟩)
  · dsimp only
    split
    · cases ec with
      | null => exact .thrown _
      | ref c =>
        rename_i hc
        exact .ret _ ⟨rfl, .inr ⟨hc.1, rfl, by simp⟩⟩
    · simp only [Prog.useStat, Prog.ret_bind]
      refine Sound.bind (Q := fun _ => True) ?_ fun c1 _ => ?_
      · sound
      refine Sound.bind (Q := fun _ => True) ?_ fun c2 _ => ?_
      · sound
      refine Sound.bind (Q := fun _ => True) ?_ fun c3 _ => ?_
      · split
        · exact (sound_extract h).bind fun _ _ => .ret _ trivial
        · exact .ret _ trivial
      exact .ret _ ⟨rfl, .inl rfl⟩
  · dsimp only
    split
    · cases ec with
      | null => exact .thrown _
      | ref c =>
        rename_i hc
        exact .ret _ ⟨rfl, .inr ⟨hc.1, rfl, by simp⟩⟩
    · rename_i hc
      have he : e.cache.cacheType ≠ .empty := fun he => hc ⟨he, .inl rfl⟩
      rw [if_neg he]
      simp only [Prog.ret_bind, (fs_not h).1, (fs_not h).2.1]
      exact .ret _ ⟨rfl, .inl rfl⟩

theorem sound_handleError {m : Str} {e : Entry} {c : Code} {b : Bool} : Sound Sane (fun _ => True) (handleError m e c b ec) := by
  cases ec with
  | ref c' => exact .ret _ trivial
  | null =>
    unfold handleError
    sound

theorem sound_refresh {e : Entry} : Sound Sane (fun r => r.1.path = e.path) (refresh e ec) := by
  unfold refresh
  simp only [Prog.bind_eq]
  refine sound_updateBasic.bind ?_
  rintro ⟨e', m⟩ ⟨h, _⟩
  exact sound_handleError.bind fun _ _ => .ret _ h

theorem sound_getSymLinkFileType {e : Entry} : Sound Sane (fun r => r.1.2.path = e.path) (getSymLinkFileType e ec) := by
  unfold getSymLinkFileType
  simp only [Prog.bind_eq]
  refine Sound.bind (Q := fun r => r.2.1.path = e.path) ?_ ?_
  · split
    · exact sound_updateBasic.bind fun r hr => .ret _ hr.1
    · exact .ret _ rfl
  rintro ⟨b, e', ec⟩ h
  dsimp only
  split
  · exact .ret _ h
  split
  · exact .ret _ h
  refine Sound.bind (Q := fun _ => True) ?_ fun _ _ => .ret _ h
  split
  · exact sound_handleError.bind fun _ _ => .ret _ trivial
  · exact .ret _ trivial

theorem sound_getFileType {e : Entry} : Sound Sane (fun r => r.1.2.path = e.path) (getFileType e ec) := by
  unfold getFileType
  simp only [Prog.bind_eq]
  have key : ∀ x : Entry × EcArg, x.1.path = e.path → Sound Sane (fun r => r.1.2.path = e.path)
      (if x.2 ≠ .null then Prog.ret ((FType.none, x.1), x.2) else
        (if (!FStatus.exists' { type := x.1.cache.type }) = true then
          (handleError "in directory_entry::GetSymLinkFileType".toList x.1 (some .ENOENT) false x.2).bind fun y => Prog.ret y.2
        else Prog.ret x.2).bind fun ec => Prog.ret ((x.1.cache.type, x.1), ec)) := by
    intro x h
    split
    · exact .ret _ h
    refine Sound.bind (Q := fun _ => True) ?_ fun _ _ => .ret _ h
    split
    · exact sound_handleError.bind fun _ _ => .ret _ trivial
    · exact .ret _ trivial
  split
  · refine sound_updateBasic.bind ?_
    rintro ⟨e', ec⟩ ⟨h, _⟩
    exact key _ h
  · exact key _ rfl

theorem sound_try {n : Nat} {it : RecIter} (hi : RecUsable it) : Sound Sane (fun r => RecUsable r.1.2) (RecIter.tryRecursion n it ec) := by
  unfold RecIter.tryRecursion
  simp only [Prog.bind_eq]
  cases hm : it.impl with
  | none => exact Sound.bind (Q := fun _ => True) (.reportMsg trivial) fun _ _ => .ret _ hi
  | some x =>
    obtain ⟨ss, opts⟩ := x
    obtain ⟨hne, ho⟩ := hi ss opts hm
    cases ss with
    | nil => exact absurd rfl hne
    | cons cur ss =>
      dsimp only
      have hc := ho cur (by simp)
      refine Sound.bind (Q := fun r => r.2.1.path = cur.entry.path) ?_ ?_
      · split
        · refine sound_getSymLinkFileType.bind ?_
          rintro ⟨⟨ty, e⟩, m⟩ h
          exact .ret _ h
        · refine sound_getFileType.bind ?_
          rintro ⟨⟨ty, e⟩, m⟩ h
          exact .ret _ h
      rintro ⟨skip, e, m⟩ he
      have hcur : Open { cur with entry := e } := ⟨hc.handle, hc.root, by rw [show e.path = cur.entry.path from he]; exact hc.entry⟩
      have hall : ∀ s ∈ ({ cur with entry := e } :: ss : List Stream), Open s := by
        intro s hs
        rcases List.mem_cons.mp hs with rfl | hs
        · exact hcur
        · exact ho s (by simp [hs])
      refine Sound.bind (Q := fun r => ∀ s, r.1 = some s → Open s) ?_ ?_
      · dsimp only
        split
        · refine (sound_streamNew hcur.entry).bind ?_
          rintro ⟨s, m⟩ ⟨h, _⟩
          dsimp only
          split
          · rename_i hg
            exact .ret _ (by rintro _ ⟨⟩; exact h hg)
          · exact .ret _ (by rintro _ ⟨⟩)
        · exact .ret _ (by rintro _ ⟨⟩)
      rintro ⟨pushed, m⟩ h
      dsimp only
      split
      · refine .ret _ ?_
        rintro _ _ ⟨⟩
        refine ⟨by simp, fun s hs => ?_⟩
        rcases List.mem_cons.mp hs with rfl | hs
        · exact open_moved (h _ rfl)
        · exact hall s hs
      · split
        · split
          · refine .ret _ ?_
            rintro _ _ ⟨⟩
            exact ⟨by simp, hall⟩
          · refine (sound_closeAll _).bind fun _ _ => ?_
            exact Sound.bind (Q := fun _ => True) (.reportMsg trivial) fun _ _ => .ret _ (by rintro _ _ ⟨⟩)
        · refine .ret _ ?_
          rintro _ _ ⟨⟩
          exact ⟨by simp, hall⟩

theorem sound_recIncr {n : Nat} {it : RecIter} (hi : RecUsable it) : Sound Sane (fun r => RecUsable r.1) (RecIter.incr n it ec) := by
  unfold RecIter.incr
  simp only [Prog.bind_eq]
  refine Sound.bind (Q := fun r => RecUsable r.2.1) ?_ ?_
  · split
    · exact (sound_try hi).bind fun r hr => .ret _ hr
    · exact .ret _ hi
  rintro ⟨done, it', ec⟩ h
  dsimp only
  split
  · exact .ret _ h
  · exact sound_recAdvance h

theorem sound_recPop {n : Nat} {it : RecIter} (hi : RecUsable it) : Sound Sane (fun r => RecUsable r.1) (RecIter.pop n it ec) := by
  unfold RecIter.pop
  simp only [Prog.bind_eq]
  cases hm : it.impl with
  | none => exact Sound.bind (Q := fun _ => True) (.reportMsg trivial) fun _ _ => .ret _ hi
  | some x =>
    obtain ⟨ss, opts⟩ := x
    obtain ⟨hne, ho⟩ := hi ss opts hm
    cases ss with
    | nil => exact absurd rfl hne
    | cons cur ss =>
      dsimp only
      refine sound_close.bind fun _ _ => ?_
      split
      · exact .ret _ (by rintro _ _ ⟨⟩)
      · rename_i he
        refine sound_recAdvance ?_
        rintro _ _ ⟨⟩
        exact ⟨by simpa using he, fun s hs => ho s (by simp [hs])⟩

/-! ## Walking operations -/

theorem sound_isEmptyFile {n : Nat} (hp : Loose p) : Sound Sane (fun _ => True) (isEmptyFile n p ec) := by
  have hd : ∀ ec, Sound Sane (fun _ => True) (isEmptyDirectory n p ec) := by
    intro ec
    unfold isEmptyDirectory
    simp only [Prog.bind_eq]
    refine (sound_dirNew hp).bind ?_
    rintro ⟨it, ec⟩ _
    refine sound_destroy.bind fun _ _ => ?_
    sound
  unfold isEmptyFile
  simp only [Prog.bind_eq]
  refine (sound_getFileStatus _ _ _).bind ?_
  rintro _ (⟨st, h⟩ | ⟨e, s, h⟩)
  · simp only [Prog.useStat, Prog.ret_bind]
    split
    · exact .report trivial
    split
    · exact .report trivial
    split
    · exact hd _
    · exact .ret _ trivial
  · exact .report trivial

theorem sound_removeLoop {rec : Path → Prog (BitVec 64 × Code)} (hrec : ∀ p, Loose p → Sound Sane (fun _ => True) (rec p)) :
    ∀ (n : Nat) (it : DirIter) (c : BitVec 64), Usable it → Sound Sane (fun _ => True) (removeLoop rec n it c)
  | 0, _, _, _ => .fuel
  | n + 1, none, c, _ => .ret _ trivial
  | n + 1, some s, c, h => by
    unfold removeLoop
    simp only [Prog.bind_eq]
    refine (hrec _ (h s rfl).entry).bind ?_
    rintro ⟨o, m⟩ _
    dsimp only
    split
    · exact sound_destroy.bind fun _ _ => .ret _ trivial
    · refine (sound_dirIncr h).bind ?_
      rintro ⟨it, ec⟩ h
      dsimp only
      split
      · exact .ret _ trivial
      · exact sound_removeLoop hrec n it _ h

theorem sound_doRemoveAll : ∀ (n : Nat) (p : Path), Loose p → Sound Sane (fun _ => True) (doRemoveAll n p)
  | 0, _, _ => .fuel
  | n + 1, p, hp => by
    unfold doRemoveAll
    simp only [Prog.bind_eq]
    refine (sound_symlinkStatus _ _).bind ?_
    rintro ⟨st, ec⟩ _
    dsimp only
    split
    · exact .ret _ trivial
    refine Sound.bind (Q := fun _ => True) ?_ ?_
    · split
      · refine (sound_dirNew hp).bind ?_
        rintro ⟨it, ec⟩ h
        dsimp only
        split
        · exact .ret _ trivial
        · exact sound_removeLoop (fun p hp => sound_doRemoveAll n p hp) n it _ h
      · exact .ret _ trivial
    rintro ⟨c, m⟩ _
    dsimp only
    split
    · exact .ret _ trivial
    refine sound_remove.bind ?_
    rintro ⟨b, ec⟩ _
    sound

theorem sound_removeAll {n : Nat} (hp : Loose p) : Sound Sane (fun _ => True) (removeAll n p ec) := by
  unfold removeAll
  simp only [Prog.bind_eq]
  split
  · exact .ret _ trivial
  · refine (sound_doRemoveAll n p hp).bind ?_
    rintro ⟨c, m⟩ _
    sound

theorem loose_fileOf {s : Str} (h : '/' ∉ s) : Loose (fileOf s) := by
  unfold fileOf
  split
  · exact .dflt
  · rename_i hs
    exact .file s ⟨hs, h⟩

theorem into_ok {a b : Path} (ha : Loose a) (hb : Loose b) : ∃ f t, filename .posix a = .ok f ∧ append .posix b f = .ok t ∧ Loose t := by
  have hf : Loose (fileOf (filePart a.pathname)) := loose_fileOf (filePart_noSlash' _)
  refine ⟨_, _, ha.shape.filename, hb.shape.append hf.shape, ?_⟩
  split
  · exact hf
  · exact mkPath_loose _

theorem sound_copyLoop {h : Handler} {rec : Path → Path → EcArg → Prog (Unit × EcArg)}
    (hrec : ∀ a b ec, Loose a → Loose b → Sound Sane (fun _ => True) (rec a b ec)) {to : Path} (ht : Loose to) :
    ∀ (n : Nat) (it : DirIter) (m : Code) (ec : EcArg), Usable it → Sound Sane (fun _ => True) (copyLoop h rec to n it m ec)
  | 0, _, _, _, _ => .fuel
  | n + 1, none, _, _, _ => .ret _ trivial
  | n + 1, some s, m, ec, hu => by
    unfold copyLoop
    simp only [Prog.bind_eq]
    split
    · exact (Sound.report trivial).finally' sound_destroy
    · have ho := hu s rfl
      obtain ⟨f, t, h1, h2, h3⟩ := into_ok ho.entry ht
      simp only [h1, h2, Prog.ofRes_ok, Prog.ret_bind]
      refine ((hrec _ _ _ ho.entry h3).onThrow sound_destroy).bind ?_
      rintro ⟨_, ec⟩ _
      dsimp only
      split
      · exact sound_destroy.bind fun _ _ => .ret _ trivial
      · refine (sound_dirIncr hu).bind ?_
        rintro ⟨it, m2⟩ h
        exact sound_copyLoop hrec ht n it _ _ h

theorem sound_copyDispatch {rec : Path → Path → EcArg → Prog (Unit × EcArg)}
    (hrec : ∀ a b ec, Loose a → Loose b → Sound Sane (fun _ => True) (rec a b ec)) {sf : Bool} {n : Nat} {h : Handler} {opts : CopyOptions}
    {f t : FStatus} (hp : Loose p) (hq : Loose q) : Sound Sane (fun _ => True) (copyDispatch rec sf n h p q opts f t ec) := by
  unfold copyDispatch
  dsimp only
  split
  · split
    · exact .ret _ trivial
    split
    · exact sound_copySymlink
    · exact .report trivial
  split
  · split
    · exact .ret _ trivial
    split
    · exact sound_createSymlinkAs
    split
    · exact sound_createHardLink
    split
    · obtain ⟨f, t, h1, h2, h3⟩ := into_ok hp hq
      simp only [h1, h2, Prog.bind_eq, Prog.ofRes_ok, Prog.ret_bind]
      exact sound_copyFile.bind fun _ _ => .ret _ trivial
    · exact sound_copyFile.bind fun _ _ => .ret _ trivial
  split
  · exact .report trivial
  split
  · unfold copyDir
    simp only [Prog.bind_eq]
    refine Sound.bind (Q := fun _ => True) ?_ ?_
    · split
      · exact sound_createDirectoryLike.bind fun _ _ => .ret _ trivial
      · exact .ret _ trivial
    rintro ec _
    split
    · exact .ret _ trivial
    refine (sound_dirNew hp).bind ?_
    rintro ⟨it, ec⟩ hu
    dsimp only
    split
    · exact .ret _ trivial
    · exact sound_copyLoop hrec hq n it _ _ hu
  · exact .ret _ trivial

/-- What `copy` needs of the two status calls. -/
def Both (r : (FStatus × Option Stat) × EcArg) : Prop := r.1.2 ≠ none ∧ ∃ c, r.2 = .ref c

theorem sound_either {b : Bool} {c : Code} : Sound Sane Both ((if b then getLinkStatus else getFileStatus) p (some .zero) (.ref c)) := by
  cases b
  · refine (sound_getFileStatus _ _ _).mono ?_
    rintro _ (⟨st, h⟩ | ⟨e, s, h⟩)
    · exact ⟨by simp, _, rfl⟩
    · exact ⟨by simp, _, rfl⟩
  · refine (sound_getLinkStatus _ _ _).mono ?_
    rintro _ (⟨st, h⟩ | ⟨e, s, h⟩)
    · exact ⟨by simp, _, rfl⟩
    · exact ⟨by simp, _, rfl⟩

theorem sound_copy {sf : Bool} : ∀ (n : Nat) (p q : Path) (opts : CopyOptions) (ec : EcArg), Loose p → Loose q →
    Sound Sane (fun _ => True) (copy sf n p q opts ec)
  | 0, _, _, _, _, _, _ => .fuel
  | n + 1, p, q, opts, ec, hp, hq => by
    unfold copy
    simp only [Prog.bind_eq]
    refine sound_either.bind ?_
    rintro ⟨⟨f, fst⟩, m⟩ ⟨h1, c, rfl⟩
    dsimp only
    split
    · exact .report trivial
    refine sound_either.bind ?_
    rintro ⟨⟨t, tst⟩, m⟩ ⟨h2, c, rfl⟩
    dsimp only
    split
    · exact .report trivial
    obtain ⟨fst, rfl⟩ := Option.ne_none_iff_exists'.mp h1
    obtain ⟨tst, rfl⟩ := Option.ne_none_iff_exists'.mp h2
    simp only [Prog.useStat, Prog.ret_bind]
    split
    · exact .report trivial
    · exact sound_copyDispatch (fun a b ec ha hb => sound_copy n a b opts ec ha hb) hp hq

end

/-! ## The operations -/

theorem sound_op {α : Type} (op : FsOp α) (ec : EcArg) (h : Apt op) : Sound Sane (fun _ => True) (op.prog ec) := by
  cases op with
  | absolute p => exact (sound_doAbsolute (Reach.loose h)).bind fun _ _ => .ret _ trivial
  | canonical p => exact (sound_canonical (Reach.loose h)).mono fun _ _ => trivial
  | weaklyCanonical el p => exact (sound_weaklyCanonical (Reach.loose h)).mono fun _ _ => trivial
  | proximate el p b => exact sound_proximate h.1.loose h.2.loose
  | relative el p b => exact sound_relative h.1.loose h.2.loose
  | proximateCwd el p => exact sound_currentPath.bind fun r hr => sound_proximate (Reach.loose h) hr
  | relativeCwd el p => exact sound_currentPath.bind fun r hr => sound_relative (Reach.loose h) hr
  | copy sf n a b o => exact sound_copy n a b o ec h.1.loose h.2.loose
  | copyFile sf n a b o => exact sound_copyFile
  | copySymlink a b => exact sound_copySymlink
  | createDirectory p => exact sound_createDirectory
  | createDirectoryLike p q => exact sound_createDirectoryLike
  | createDirectories el n p => exact sound_createDirectories h.1.loose h.2
  | createSymlink a b => exact sound_createSymlinkAs
  | createDirectorySymlink a b => exact sound_createSymlinkAs
  | createHardLink a b => exact sound_createHardLink
  | currentPath => exact sound_currentPath.mono fun _ _ => trivial
  | setCurrentPath p => simp only [FsOp.prog, Asap.setCurrentPath]; sound
  | equivalent p q => exact sound_equivalent
  | exists' p => exact sound_existsP p ec
  | fileSize p => exact sound_fileSize
  | hardLinkCount p => exact sound_hardLinkCount
  | isEmpty n p => exact sound_isEmptyFile (Reach.loose h)
  | lastWriteTime p => exact sound_lastWriteTime
  | setLastWriteTime p t => simp only [FsOp.prog, Asap.setLastWriteTime]; sound
  | permissions p m o => exact sound_permissions h
  | readSymlink p => exact sound_readSymlink
  | remove p => exact sound_remove
  | removeAll n p => exact sound_removeAll (Reach.loose h)
  | rename a b => simp only [FsOp.prog, Asap.rename]; sound
  | resizeFile p k => simp only [FsOp.prog, Asap.resizeFile]; sound
  | space p => simp only [FsOp.prog, Asap.space]; sound
  | tempDirectoryPath => exact sound_tempDirectoryPath
  | dirIter n p o => exact (sound_dirNew (Reach.loose h)).mono fun _ _ => trivial
  | dirIterIncr n it => exact (sound_dirIncr h).mono fun _ _ => trivial
  | recIter n p o => exact (sound_recNew (Reach.loose h)).mono fun _ _ => trivial
  | recIterIncr n it => exact (sound_recIncr h).mono fun _ _ => trivial
  | recIterPop n it => exact (sound_recPop h).mono fun _ _ => trivial

/-! ## Observers of entries -/

section
variable {e : Entry} {ec : EcArg}

/-- An entry that has read its file keeps what it knows. -/
def Stays (e e' : Entry) : Prop := e.cache.cacheType = .full → e'.cache.cacheType = .full

theorem keeps_basic {b : Bool} : Sound Sane (fun r => Stays e r.1) (updateBasic b e ec) :=
  sound_updateBasic.mono fun r hr hf => by
    rcases hr.2 with h | ⟨h, _⟩
    · exact h
    · rw [hf] at h; cases h

theorem keeps_linkType : Sound Sane (fun r => Stays e r.1.2) (getSymLinkFileType e ec) := by
  unfold getSymLinkFileType
  simp only [Prog.bind_eq]
  refine Sound.bind (Q := fun r => Stays e r.2.1) ?_ ?_
  · split
    · exact keeps_basic.bind fun r hr => .ret _ hr
    · exact .ret _ fun h => h
  rintro ⟨b, e', ec⟩ h
  dsimp only
  split
  · exact .ret _ h
  split
  · exact .ret _ h
  refine Sound.bind (Q := fun _ => True) ?_ fun _ _ => .ret _ h
  split
  · exact sound_handleError.bind fun _ _ => .ret _ trivial
  · exact .ret _ trivial

theorem keeps_fileType : Sound Sane (fun r => Stays e r.1.2) (getFileType e ec) := by
  unfold getFileType
  simp only [Prog.bind_eq]
  have key : ∀ x : Entry × EcArg, Stays e x.1 → Sound Sane (fun r => Stays e r.1.2)
      (if x.2 ≠ .null then Prog.ret ((FType.none, x.1), x.2) else
        (if (!FStatus.exists' { type := x.1.cache.type }) = true then
          (handleError "in directory_entry::GetSymLinkFileType".toList x.1 (some .ENOENT) false x.2).bind fun y => Prog.ret y.2
        else Prog.ret x.2).bind fun ec => Prog.ret ((x.1.cache.type, x.1), ec)) := by
    intro x h
    split
    · exact .ret _ h
    refine Sound.bind (Q := fun _ => True) ?_ fun _ _ => .ret _ h
    split
    · exact sound_handleError.bind fun _ _ => .ret _ trivial
    · exact .ret _ trivial
  split
  · refine keeps_basic.bind ?_
    rintro ⟨e', ec⟩ h
    exact key _ h
  · exact key _ fun h => h

theorem keeps_perms {b : Bool} (h : e.cache.cacheType = .full) : Sound Sane (fun r => r.1.cache.cacheType = .full) (updatePerms b e ec) := by
  unfold updatePerms
  simp only [Prog.bind_eq]
  rw [if_neg (by simp [h])]
  split
  · exact sound_updateBasic.bind fun _ _ => .ret _ rfl
  · exact .ret _ rfl

theorem keeps_ask (a : Ask) (h : a.ofType = true ∨ e.cache.cacheType = .full) : Sound Sane (fun r => Stays e r.1.2) (a.entry e ec) := by
  cases a with
  | exists' => exact Sound.bind (keeps_fileType.bind (R := fun r => Stays e r.1.2) fun _ h => .ret _ h) fun _ h => .ret _ h
  | is g => exact Sound.bind (keeps_fileType.bind (R := fun r => Stays e r.1.2) fun _ h => .ret _ h) fun _ h => .ret _ h
  | isSymlink => exact Sound.bind (keeps_linkType.bind (R := fun r => Stays e r.1.2) fun _ h => .ret _ h) fun _ h => .ret _ h
  | fileSize =>
    rcases h with h | h
    · cases h
    refine Sound.bind (Q := fun r => Stays e r.1.2) ?_ fun _ h => .ret _ h
    unfold getSize
    rw [h]
    exact .ret _ fun h => h
  | hardLinkCount =>
    rcases h with h | h
    · cases h
    refine Sound.bind (Q := fun r => Stays e r.1.2) ?_ fun _ h => .ret _ h
    unfold getHardLinkCount
    rw [h]
    exact .ret _ fun h => h
  | lastWriteTime =>
    rcases h with h | h
    · cases h
    refine Sound.bind (Q := fun r => Stays e r.1.2) ?_ fun _ h => .ret _ h
    unfold getLastWriteTime
    simp only [Prog.bind_eq]
    rw [h]
    simp only [Prog.ret_bind]
    split
    · exact Sound.bind (Q := fun _ => True) (.report trivial) fun _ _ => .ret _ fun h => h
    · exact .ret _ fun h => h
  | status =>
    rcases h with h | h
    · cases h
    refine Sound.bind (Q := fun r => Stays e r.1.2) ?_ fun _ h => .ret _ h
    unfold getStatus
    simp only [Prog.bind_eq]
    rw [h]
    dsimp only
    split
    · exact (keeps_perms h).bind fun _ h => .ret _ fun _ => h
    · exact .ret _ fun h => h
  | symlinkStatus =>
    rcases h with h | h
    · cases h
    refine Sound.bind (Q := fun r => Stays e r.1.2) ?_ fun _ h => .ret _ h
    unfold getSymLinkStatus
    rw [h]
    exact .ret _ fun h => h

theorem sound_interview : ∀ (as : List (Ask × EcArg × Bool)) (e : Entry),
    (e.cache.cacheType = .full ∨ ∀ x ∈ as, x.1.ofType = true) → Sound Sane (fun _ => True) (interview as e)
  | [], _, _ => .ret _ trivial
  | (a, ec, keep) :: as, e, h => by
    unfold interview
    refine (keeps_ask a ?_).bind fun r hr => (sound_interview as _ ?_).bind fun _ _ => .ret _ trivial
    · rcases h with h | h
      · exact .inr h
      · exact .inl (h (a, ec, keep) (by simp))
    · rcases h with h | h
      · exact .inl (hr h)
      · exact .inr fun x hx => h x (by simp [hx])

end

/-! ## The theorems -/

/-- **C114**, partial: an operation called as it should be ends in no fault (undefined behaviour, failed assertion, foreign exception), whatever the
system answers within its limits. Missing: systems outside these limits and compilers eliding a copy, see `c114_violated`. -/
theorem c114_operations_partial {α : Type} (op : FsOp α) (ec : EcArg) (h : Apt op) {t : List Event} {o : Except Stop (α × EcArg)}
    (hx : Exec (op.prog ec) t o) (hs : ∀ ev ∈ t, Sane ev) (f : Fault) : o ≠ .error (.fault f) :=
  ((sound_op op ec h).exec hx hs).1 f

/-- **C114**: an iterator that is constructed or incremented without an exception can be incremented again. -/
theorem c114_iterators {n : Nat} {p : Path} (hp : Reach p) {opts : DirOptions} {ec : EcArg} {t : List Event} (hs : ∀ ev ∈ t, Sane ev) :
    (∀ it ec', Exec (DirIter.new n p opts ec) t (.ok (it, ec')) → Usable it) ∧
    (∀ it it' ec', Usable it → Exec (DirIter.incr n it ec) t (.ok (it', ec')) → Usable it') ∧
    (∀ it ec', Exec (RecIter.new n p opts ec) t (.ok (it, ec')) → RecUsable it ∧ RecUsable it.disable) ∧
    (∀ it it' ec', RecUsable it → Exec (RecIter.incr n it ec) t (.ok (it', ec')) → RecUsable it' ∧ RecUsable it'.disable) ∧
    ∀ it it' ec', RecUsable it → Exec (RecIter.pop n it ec) t (.ok (it', ec')) → RecUsable it' ∧ RecUsable it'.disable :=
  ⟨fun _ _ h => ((sound_dirNew hp.loose).exec h hs).2 _ rfl, fun _ _ _ hi h => ((sound_dirIncr hi).exec h hs).2 _ rfl,
   fun _ _ h => have := ((sound_recNew hp.loose).exec h hs).2 _ rfl; ⟨this, this⟩,
   fun _ _ _ hi h => have := ((sound_recIncr hi).exec h hs).2 _ rfl; ⟨this, this⟩,
   fun _ _ _ hi h => have := ((sound_recPop hi).exec h hs).2 _ rfl; ⟨this, this⟩⟩

/-- **C114**, partial, for `directory_entry`: `refresh` ends in no fault; no series of observers does on an entry that has read its file, and no
series of questions about types does on any. Missing: the other questions to entries met in a listing, see `c114_listed_violated`. -/
theorem c114_entry_partial (e : Entry) {t : List Event} (hs : ∀ ev ∈ t, Sane ev) (f : Fault) :
    (∀ ec o, Exec (refresh e ec) t o → o ≠ .error (.fault f)) ∧
    ∀ as o, e.cache.cacheType = .full ∨ (∀ x ∈ as, x.1.ofType = true) → Exec (interview as e) t o → o ≠ .error (.fault f) :=
  ⟨fun _ _ h => (sound_refresh.exec h hs).1 f, fun as _ ha h => ((sound_interview as e ha).exec h hs).1 f⟩

/-- C114 is violated by entries met in a listing: each question that is not only about the type fails an assertion, for all of them. -/
theorem c114_listed_violated (a : Ask) (e : Entry) (ec : EcArg) (h : e.cache.cacheType = .basic) (ha : a.ofType = false) (t : List Event)
    (o : Except Stop ((Val × Entry) × EcArg)) : Exec (a.entry e ec) t o ↔ t = [] ∧ o = .error (.fault .assertFail) := by
  have hx : ∀ b ec, updateExtra b e ec = .stop (.fault .assertFail) := by
    intro b ec
    unfold updateExtra
    simp [h]
  have : a.entry e ec = .stop (.fault .assertFail) := by
    cases a with
    | exists' | is | isSymlink => cases ha
    | fileSize => simp only [Ask.entry, getSize, h, hx, Prog.bind_eq]; rfl
    | hardLinkCount => simp only [Ask.entry, getHardLinkCount, h, hx, Prog.bind_eq]; rfl
    | lastWriteTime => simp only [Ask.entry, getLastWriteTime, h, hx, Prog.bind_eq]; rfl
    | status => simp only [Ask.entry, getStatus, h, hx, Prog.bind_eq]; rfl
    | symlinkStatus => simp only [Ask.entry, getSymLinkStatus, h, hx, Prog.bind_eq]; rfl
  rw [this]
  exact exec_stop

/-- C114 is violated outside the limits: when `PATH_MAX` is unlimited (`pathconf` answers -1), for a modification time after the year 2262, for a
link without text, and for `///a/b` if the compiler elides the copy. -/
theorem c114_violated :
    (∀ ec, Exec (currentPath ec) [⟨.pathconf, (-1 : Int)⟩] (.error (.fault .assertFail))) ∧
    (∃ st : Stat, InI64 st.mtimeSec ∧ Exec (FsOp.prog (.lastWriteTime (mkPath .posix "f".toList)) (.ref none)) [⟨.stat "f".toList, (.ok st : Except Errno Stat)⟩]
      (.error (.fault .ub))) ∧
    (∀ ec, Exec (readSymlink (mkPath .posix "l".toList) ec) [⟨.pathconf, (4096 : Int)⟩, ⟨.readlink "l".toList 4096, (.ok [] : Except Errno Str)⟩]
      (.error (.fault .assertFail))) ∧
    ∃ t, Exec (FsOp.prog (.createDirectories true 9 (mkPath .posix "///a/b".toList)) (.ref none)) t (.error (.fault .outOfRange)) :=
  ⟨fun _ => .call _ _ _ _ _ (.stop _), ⟨{ Stat.zero with mtimeSec := 9223372037 }, by decide, .call _ _ _ _ _ (.stop _)⟩,
   fun _ => .call _ _ _ _ _ (.call _ _ _ _ _ (.stop _)), ⟨_, (c28_elided_violated.2.2 _ _ _).mpr ⟨rfl, rfl⟩⟩⟩

/-- The options a caller of `permissions` has to choose from. -/
example : Apt (.permissions (mkPath .posix "f".toList) 0o644 (PermOptions.add ||| PermOptions.nofollow)) ∧
    ¬ Apt (.permissions (mkPath .posix "f".toList) 0o644 (PermOptions.add ||| PermOptions.remove)) := by
  constructor
  · exact .inr (.inl (by decide))
  · rintro (h | h | h) <;> exact absurd h (by decide)

/-- An execution with answers within the limits. -/
example : Apt (.readSymlink (mkPath .posix "l".toList)) ∧
    ∀ ev ∈ ([⟨.pathconf, (4096 : Int)⟩, ⟨.readlink "l".toList 4096, (.ok "t".toList : Except Errno Str)⟩] : List Event), Sane ev := by
  refine ⟨trivial, fun ev h => ?_⟩
  simp only [List.mem_cons, List.not_mem_nil, or_false] at h
  rcases h with rfl | rfl
  · exact (by decide : (0 : Int) < 4096)
  · exact ⟨by decide, by decide⟩

/-- A stream in use. -/
example : Usable (some ⟨some 3, mkPath .posix "d".toList, ⟨mkPath .posix "d/f".toList, .reset⟩⟩) := by
  rintro _ ⟨⟩
  exact ⟨by simp, mkPath_loose "d".toList, mkPath_loose "d/f".toList⟩

end Asap
