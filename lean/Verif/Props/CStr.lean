import Verif.Os.CStr
import Verif.Props.OpsA
import Verif.Props.EntryA

/-!
# C120: the operating system sees the whole text of a path
-/

namespace Asap
namespace Spec

/-- No null characters in the text of a path nor in its elements. -/
structure NulFree (p : Path) : Prop where
  text : '\x00' ∉ p.pathname
  comp : ∀ e ∈ p.comps, '\x00' ∉ e.name

/-- An entry whose path has none. -/
def EntryNulFree (e : Entry) : Prop := NulFree e.path

/-- A directory stream whose paths have none. -/
structure StreamNulFree (s : Stream) : Prop where
  root : NulFree s.root
  entry : EntryNulFree s.entry

/-- Iterators whose paths have none. -/
def IterNulFree (it : DirIter) : Prop := ∀ s, it = some s → StreamNulFree s

/-- Recursive iterators whose paths have none. -/
def RecNulFree (it : RecIter) : Prop := ∀ ss opts, it.impl = some (ss, opts) → ∀ s ∈ ss, StreamNulFree s

/-- The paths given to an operation have no null characters. -/
def ArgsNulFree {α : Type} : FsOp α → Prop
  | .absolute p | .canonical p | .weaklyCanonical _ p | .proximateCwd _ p | .relativeCwd _ p | .dirIter _ p _ | .recIter _ p _ | .isEmpty _ p
  | .removeAll _ p | .createDirectory p | .createDirectories _ _ p | .setCurrentPath p | .exists' p | .fileSize p | .hardLinkCount p
  | .lastWriteTime p | .setLastWriteTime p _ | .permissions p _ _ | .readSymlink p | .remove p | .resizeFile p _ | .space p => NulFree p
  | .proximate _ p q | .relative _ p q | .copy _ _ p q _ | .copyFile _ _ p q _ | .copySymlink p q | .createDirectoryLike p q | .createSymlink p q
  | .createDirectorySymlink p q | .createHardLink p q | .equivalent p q | .rename p q => NulFree p ∧ NulFree q
  | .dirIterIncr _ it => IterNulFree it
  | .recIterIncr _ it | .recIterPop _ it => RecNulFree it
  | .currentPath | .tempDirectoryPath => True

/-- The paths in its result have none either. -/
def ResultNulFree {α : Type} : FsOp α → α → Prop
  | .absolute _ | .canonical _ | .weaklyCanonical _ _ | .proximate _ _ _ | .relative _ _ _ | .proximateCwd _ _ | .relativeCwd _ _
  | .currentPath | .readSymlink _ | .tempDirectoryPath => NulFree
  | .dirIter _ _ _ | .dirIterIncr _ _ => IterNulFree
  | .recIter _ _ _ | .recIterIncr _ _ | .recIterPop _ _ => RecNulFree
  | _ => fun _ => True

end Spec
open Spec

/-- Characters other than the null character. -/
abbrev NN (c : Char) : Prop := c ≠ '\x00'

theorem nn_sep : NN (prefSep .posix) := by decide
theorem nn_dot : NN '.' := by decide

theorem txt_nn {s : Str} : Txt NN s ↔ '\x00' ∉ s :=
  ⟨fun h hc => h _ hc rfl, fun h _ hc e => h (e ▸ hc)⟩

theorem over_nn {p : Path} : Over NN p ↔ NulFree p :=
  ⟨fun h => ⟨txt_nn.mp h.text, fun e he => txt_nn.mp (h.comp e he)⟩, fun h => ⟨txt_nn.mpr h.text, fun e he => txt_nn.mpr (h.comp e he)⟩⟩

theorem nf_default : NulFree .default := over_nn.mp over_default
theorem nf_mkPath {s : Str} (h : '\x00' ∉ s) : NulFree (mkPath .posix s) := over_nn.mp (over_mkPath nn_sep (txt_nn.mpr h))
theorem Spec.NulFree.cut {p : Path} (h : NulFree p) : cString p.pathname = p.pathname := cString_of h.text
theorem Spec.NulFree.append {p q r : Path} (h : NulFree p) (h' : NulFree q) (e : append .posix p q = .ok r) : NulFree r :=
  over_nn.mp ((over_nn.mpr h).append nn_sep (over_nn.mpr h') e)
theorem Spec.NulFree.elems {p e : Path} (h : NulFree p) (he : e ∈ p.elems) : NulFree e := over_nn.mp ((over_nn.mpr h).elems he)
theorem Spec.NulFree.returned {p : Path} (h : NulFree p) (el : Bool) : NulFree (returned .posix el p) := over_nn.mp ((over_nn.mpr h).returned nn_sep el)
theorem Spec.NulFree.filename {p q : Path} (h : NulFree p) (e : filename .posix p = .ok q) : NulFree q := over_nn.mp ((over_nn.mpr h).filename e)
theorem Spec.NulFree.parentPath {p q : Path} {el : Bool} (h : NulFree p) (e : parentPath .posix el p = .ok q) : NulFree q :=
  over_nn.mp ((over_nn.mpr h).parentPath nn_sep e)
theorem Spec.NulFree.normal {p q : Path} {el : Bool} (h : NulFree p) (e : lexicallyNormal .posix el p = .ok q) : NulFree q :=
  over_nn.mp ((over_nn.mpr h).lexicallyNormal nn_sep nn_dot e)
theorem Spec.NulFree.moved {p : Path} (h : NulFree p) : NulFree (p.moved .posix) := nf_mkPath h.text

/-- A call whose text has no null character is seen as it is. -/
macro "whole" : tactic => `(tactic| first | rfl | (simp [Sys.cut, NulFree.cut, *]; done))

/-- Programs of calls on the given paths. -/
macro "fair" : tactic => `(tactic| repeat' first
  | with_reducible exact Fair.ret _ trivial
  | with_reducible exact Fair.stop _
  | with_reducible exact Fair.report trivial
  | with_reducible exact Fair.reportMsg trivial
  | (with_reducible refine Fair.call _ _ (by whole) fun r hr => ?_)
  | (with_reducible refine Fair.bind (Q := fun _ => True) (Fair.report trivial) fun _ _ => ?_)
  | (with_reducible refine Fair.bind (Q := fun _ => True) (Fair.reportMsg trivial) fun _ _ => ?_)
  | split
  | dsimp only
  | simp only [Prog.bind_eq])

section
variable {p q : Path} {ec : EcArg}

theorem fair_createFileStatus {m : Code} {st : Option Stat} : Fair (fun _ => True) (createFileStatus m p st ec) := by
  unfold createFileStatus
  fair

theorem fair_useStat {st : Option Stat} : Fair (fun _ => True) (Prog.useStat st) := by
  cases st
  · exact .stop _
  · exact .ret _ trivial

theorem fair_getFileStatus {st : Option Stat} (hp : NulFree p) : Fair (fun _ => True) (getFileStatus p st ec) := by
  refine .call _ _ (by whole) fun r _ => ?_
  cases r <;> exact fair_createFileStatus.bind fun _ _ => .ret _ trivial

theorem fair_getLinkStatus {st : Option Stat} (hp : NulFree p) : Fair (fun _ => True) (getLinkStatus p st ec) := by
  refine .call _ _ (by whole) fun r _ => ?_
  cases r <;> exact fair_createFileStatus.bind fun _ _ => .ret _ trivial

theorem fair_status (hp : NulFree p) : Fair (fun _ => True) (status p ec) := (fair_getFileStatus hp).bind fun _ _ => .ret _ trivial
theorem fair_symlinkStatus (hp : NulFree p) : Fair (fun _ => True) (symlinkStatus p ec) := (fair_getLinkStatus hp).bind fun _ _ => .ret _ trivial
theorem fair_existsP (hp : NulFree p) : Fair (fun _ => True) (existsP p ec) := (fair_status hp).bind fun _ _ => .ret _ trivial
theorem fair_isTypeP {f : FStatus → Bool} (hp : NulFree p) : Fair (fun _ => True) (isTypeP f p ec) := (fair_status hp).bind fun _ _ => .ret _ trivial
theorem fair_isSymlinkP (hp : NulFree p) : Fair (fun _ => True) (isSymlinkP p ec) := (fair_symlinkStatus hp).bind fun _ _ => .ret _ trivial

theorem fair_currentPath : Fair (fun r => NulFree r.1) (currentPath ec) := by
  refine .call _ _ rfl fun r _ => ?_
  split
  · refine .call _ _ rfl fun x hx => ?_
    cases x with
    | ok s => exact .ret _ (nf_mkPath hx)
    | error e => exact .reportMsg nf_default
  · exact .stop _

theorem fair_doAbsolute (hp : NulFree p) : Fair (fun r => NulFree r.1.1) (doAbsolute p ec) := by
  unfold doAbsolute
  simp only [Prog.bind_eq]
  refine Fair.bind (Q := fun _ => True) (.ofRes fun _ _ => trivial) fun b _ => ?_
  split
  · exact .ret _ hp
  · refine fair_currentPath.bind ?_
    rintro ⟨cwd, ec⟩ h
    dsimp only
    split
    · exact .ret _ nf_default
    · exact Fair.bind (.ofRes fun r hr => NulFree.append h hp hr) fun r hr => .ret _ hr

theorem fair_canonical (hp : NulFree p) : Fair (fun r => NulFree r.1) (canonical p ec) := by
  unfold canonical
  simp only [Prog.bind_eq]
  refine (fair_doAbsolute hp).bind ?_
  rintro ⟨⟨pa, cwd⟩, ec⟩ h
  have h : NulFree pa := h
  refine .call _ _ (by whole) fun r hr => ?_
  cases r with
  | ok s => exact .ret _ (nf_mkPath hr)
  | error e => exact .report nf_default

theorem fair_existingPrefix : ∀ (xs : List Path) (r : Path), (∀ x ∈ xs, NulFree x) → NulFree r →
    Fair (fun o => NulFree o.1 ∧ ∀ x ∈ o.2.1, NulFree x) (existingPrefix xs r)
  | [], r, _, hr => .ret _ ⟨hr, by simp⟩
  | x :: xs, r, hx, hr => by
    unfold existingPrefix
    simp only [Prog.bind_eq]
    refine Fair.bind (.ofRes fun t ht => NulFree.append hr (hx x (by simp)) ht) fun t ht => ?_
    refine (fair_status ht).bind ?_
    rintro ⟨st, m⟩ _
    dsimp only
    split
    · exact fair_existingPrefix xs t (fun y hy => hx y (by simp [hy])) ht
    · exact .ret _ ⟨hr, hx⟩

theorem nf_appendAll : ∀ (xs : List Path) (r z : Path), (∀ x ∈ xs, NulFree x) → NulFree r → appendAll r xs = .ok z → NulFree z
  | [], r, z, _, hr, e => by cases e; exact hr
  | x :: xs, r, z, hx, hr, e => by
    unfold appendAll at e
    cases h1 : append .posix r x with
    | error f => rw [h1] at e; cases e
    | ok w =>
      rw [h1] at e
      exact nf_appendAll xs w z (fun y hy => hx y (by simp [hy])) (hr.append (hx x (by simp)) h1) e

theorem fair_weaklyCanonical {el : Bool} (hp : NulFree p) : Fair (fun r => NulFree r.1) (weaklyCanonical el p ec) := by
  unfold weaklyCanonical
  dsimp only
  split
  · exact fair_canonical (nf_mkPath (by simp))
  · simp only [Prog.bind_eq]
    refine (fair_status hp).bind ?_
    rintro ⟨st, m⟩ _
    dsimp only
    split
    · exact .report nf_default
    split
    · exact fair_canonical hp
    refine (fair_existingPrefix _ _ (fun _ h => hp.elems h) nf_default).bind ?_
    rintro ⟨result, rest, m⟩ ⟨h1, h2⟩
    refine Fair.bind (Q := fun r => NulFree r.1) ?_ ?_
    · dsimp only
      split
      · exact (fair_canonical h1).bind fun r hr => .ret _ hr
      · exact .ret _ h1
    · rintro ⟨r, m⟩ hr
      dsimp only
      split
      · exact .ret _ (over_nn.mp (over_clear nn_sep r))
      · refine Fair.bind (.ofRes fun z hz => nf_appendAll rest r z h2 hr hz) fun z hz => ?_
        exact Fair.bind (.ofRes fun w hw => NulFree.normal hz hw) fun w hw => .ret _ (hw.returned el)

/-- What a lexical function does with texts. -/
def KeepsText (f : Path → Path → Res Path) : Prop := ∀ a b r, NulFree a → NulFree b → f a b = .ok r → NulFree r

theorem keeps_rel : KeepsText (lexicallyRelative .posix) := fun _ _ _ h _ e => over_nn.mp ((over_nn.mpr h).lexicallyRelative nn_sep nn_dot e)
theorem keeps_prox : KeepsText (lexicallyProximate .posix) := fun _ _ _ h _ e => over_nn.mp ((over_nn.mpr h).lexicallyProximate nn_sep nn_dot e)

theorem fair_via {el : Bool} {f : Path → Path → Res Path} (hf : KeepsText f) {c : Code} (hp : NulFree p) (hq : NulFree q) :
    Fair (fun r => NulFree r.1) (viaCanonicalEc el f p q c) ∧ Fair (fun r => NulFree r.1) (viaCanonicalThrow el f p q) := by
  constructor
  · unfold viaCanonicalEc
    simp only [Prog.bind_eq]
    refine (fair_weaklyCanonical hp).bind ?_
    rintro ⟨a, ec⟩ ha
    dsimp only
    split
    · exact .ret _ nf_default
    refine (fair_weaklyCanonical hq).bind ?_
    rintro ⟨b, ec⟩ hb
    dsimp only
    split
    · exact .ret _ nf_default
    exact Fair.bind (.ofRes fun r hr => hf a b r ha hb hr) fun r hr => .ret _ hr
  · unfold viaCanonicalThrow
    simp only [Prog.bind_eq]
    refine (fair_weaklyCanonical hp).bind ?_
    rintro ⟨a, ec⟩ ha
    refine (fair_weaklyCanonical hq).bind ?_
    rintro ⟨b, ec⟩ hb
    exact Fair.bind (.ofRes fun r hr => hf a b r ha hb hr) fun r hr => .ret _ hr

theorem fair_proximate {el : Bool} (hp : NulFree p) (hq : NulFree q) : Fair (fun r => NulFree r.1) (proximate el p q ec) := by
  cases ec
  · exact (fair_via (c := none) keeps_prox hp hq).2
  · exact (fair_via keeps_prox hp hq).1

theorem fair_relative {el : Bool} (hp : NulFree p) (hq : NulFree q) : Fair (fun r => NulFree r.1) (relative el p q ec) := by
  cases ec
  · exact (fair_via (c := none) keeps_rel hp hq).2
  · exact (fair_via keeps_rel hp hq).1

theorem fair_createDirectory (hp : NulFree p) : Fair (fun _ => True) (createDirectory p ec) := by
  unfold createDirectory
  fair

theorem fair_createDirectoryLike (hp : NulFree p) (hq : NulFree q) : Fair (fun _ => True) (createDirectoryLike p q ec) := by
  unfold createDirectoryLike
  simp only [Prog.bind_eq]
  refine (fair_getFileStatus hq).bind ?_
  rintro ⟨⟨st, attr⟩, m⟩ _
  dsimp only
  split
  · fair
  split
  · fair
  refine fair_useStat.bind fun attr _ => ?_
  fair

theorem fair_missingOf {el : Bool} : ∀ (n : Nat) (p : Path) (acc : List Path), NulFree p → (∀ x ∈ acc, NulFree x) →
    Fair (fun l => ∀ x ∈ l, NulFree x) (missingOf el n p acc)
  | 0, _, _, _, _ => .stop _
  | n + 1, p, acc, hp, ha => by
    unfold missingOf
    simp only [Prog.bind_eq]
    refine Fair.bind (Q := fun _ => True) (.ofRes fun _ _ => trivial) fun b _ => ?_
    split
    · refine Fair.bind (Q := fun _ => True) (.ofRes fun _ _ => trivial) fun f _ => ?_
      refine Fair.bind (.ofRes fun z hz => hp.parentPath hz) fun z hz => ?_
      refine fair_missingOf n z _ hz ?_
      split
      · exact ha
      · intro x hx
        rcases List.mem_cons.mp hx with rfl | hx
        · exact hp
        · exact ha x hx
    · exact .ret _ ha

theorem fair_createMissing : ∀ (l : List Path) (b : Bool), (∀ x ∈ l, NulFree x) → Fair (fun _ => True) (createMissing l b)
  | [], _, _ => .ret _ trivial
  | x :: l, b, h => by
    have hx := h x (by simp)
    unfold createMissing
    simp only [Prog.bind_eq]
    refine (fair_status hx).bind ?_
    rintro ⟨st, m⟩ _
    refine Fair.bind (Q := fun _ => True) ?_ ?_
    · dsimp only
      split
      · exact (fair_createDirectory hx).bind fun _ _ => .ret _ trivial
      · exact .ret _ trivial
    rintro ⟨b, m⟩ _
    refine Fair.bind (Q := fun _ => True) ?_ ?_
    · dsimp only
      split
      · exact (fair_isTypeP hx).bind fun _ _ => .ret _ trivial
      · exact .ret _ trivial
    rintro m _
    dsimp only
    split
    · exact .ret _ trivial
    · exact fair_createMissing l _ fun y hy => h y (by simp [hy])

theorem fair_createDirectories {el : Bool} {n : Nat} (hp : NulFree p) : Fair (fun _ => True) (createDirectories el n p ec) := by
  unfold createDirectories
  simp only [Prog.bind_eq]
  split
  · exact .report trivial
  refine (fair_missingOf n p [] hp (by simp)).bind fun l hl => ?_
  split
  · exact .ret _ trivial
  refine (fair_createMissing _ _ hl).bind ?_
  rintro ⟨b, m, e⟩ _
  dsimp only
  split
  · exact .report trivial
  · exact .ret _ trivial

theorem fair_createSymlinkAs {fn : Str} (hp : NulFree p) (hq : NulFree q) : Fair (fun _ => True) (createSymlinkAs fn p q ec) := by
  unfold createSymlinkAs
  fair

theorem fair_createHardLink (hp : NulFree p) (hq : NulFree q) : Fair (fun _ => True) (createHardLink p q ec) := by
  unfold createHardLink
  fair

theorem fair_readSymlink (hp : NulFree p) : Fair (fun r => NulFree r.1) (readSymlink p ec) := by
  refine .call _ _ rfl fun r _ => ?_
  split
  · refine .call _ _ (by whole) fun x hx => ?_
    cases x with
    | ok s =>
      dsimp only
      split
      · exact .ret _ (nf_mkPath hx)
      · exact .stop _
    | error e => exact .report nf_default
  · exact .stop _

theorem fair_copySymlink (hp : NulFree p) (hq : NulFree q) : Fair (fun _ => True) (copySymlink p q ec) := by
  unfold copySymlink
  simp only [Prog.bind_eq]
  refine (fair_readSymlink hp).bind ?_
  rintro ⟨r, m⟩ h
  dsimp only
  split
  · exact .report trivial
  · exact fair_createSymlinkAs h hq

theorem fair_equivalent (hp : NulFree p) (hq : NulFree q) : Fair (fun _ => True) (equivalent p q ec) := by
  unfold equivalent
  simp only [Prog.bind_eq]
  refine (fair_getFileStatus (nf_mkPath hp.text)).bind ?_
  rintro ⟨⟨s1, st1⟩, m⟩ _
  dsimp only
  split
  · fair
  refine (fair_getFileStatus (nf_mkPath hq.text)).bind ?_
  rintro ⟨⟨s2, st2⟩, m⟩ _
  dsimp only
  split
  · fair
  exact fair_useStat.bind fun _ _ => fair_useStat.bind fun _ _ => .ret _ trivial

theorem fair_fileSize (hp : NulFree p) : Fair (fun _ => True) (fileSize p ec) := by
  unfold fileSize
  simp only [Prog.bind_eq]
  refine (fair_getFileStatus hp).bind ?_
  rintro ⟨⟨s1, st1⟩, m⟩ _
  dsimp only
  split
  · fair
  exact fair_useStat.bind fun _ _ => .ret _ trivial

theorem fair_hardLinkCount (hp : NulFree p) : Fair (fun _ => True) (hardLinkCount p ec) := by
  unfold hardLinkCount
  simp only [Prog.bind_eq]
  refine (fair_getFileStatus hp).bind ?_
  rintro ⟨⟨s1, st1⟩, m⟩ _
  dsimp only
  split
  · fair
  exact fair_useStat.bind fun _ _ => .ret _ trivial

theorem fair_extract {st : Stat} : Fair (fun _ => True) (extractLastWriteTime p st ec) := by
  unfold extractLastWriteTime
  dsimp only
  split
  · exact Fair.bind (Q := fun _ => True) (.ofRes fun _ _ => trivial) fun _ _ => .ret _ trivial
  · exact .report trivial

theorem fair_lastWriteTime (hp : NulFree p) : Fair (fun _ => True) (lastWriteTime p ec) := by
  unfold lastWriteTime
  simp only [Prog.bind_eq]
  refine (fair_getFileStatus hp).bind ?_
  rintro ⟨⟨s1, st1⟩, m⟩ _
  dsimp only
  split
  · fair
  exact fair_useStat.bind fun _ _ => fair_extract

theorem fair_setLastWriteTime {t : Int} (hp : NulFree p) : Fair (fun _ => True) (setLastWriteTime p t ec) := by
  unfold setLastWriteTime
  fair

theorem fair_chmodAt {m : Perms} {b : Bool} (hp : NulFree p) : Fair (fun _ => True) (chmodAt p m b ec) := by
  unfold chmodAt
  fair

theorem fair_permissions {m : Perms} {o : PermOptions} (hp : NulFree p) : Fair (fun _ => True) (permissions p m o ec) := by
  unfold permissions
  simp only [Prog.bind_eq]
  split
  · exact .stop _
  split
  · refine Fair.bind (Q := fun _ => True) ?_ ?_
    · unfold permStatus
      split
      · exact fair_status hp
      · exact fair_symlinkStatus hp
    rintro ⟨st, m⟩ _
    dsimp only
    split
    · exact .report trivial
    split
    · exact .stop _
    · exact fair_chmodAt hp
  · exact fair_chmodAt hp

theorem fair_remove (hp : NulFree p) : Fair (fun _ => True) (remove p ec) := by
  unfold remove
  fair

theorem fair_firstEnv : ∀ l : List Str, (∀ v ∈ l, '\x00' ∉ v) → Fair (fun s => '\x00' ∉ s) (firstEnv l)
  | [], _ => .ret _ (by decide)
  | v :: l, h => by
    refine .call _ _ (congrArg Sys.getenv (cString_of (h v (by simp)))) fun r hr => ?_
    cases r with
    | some s => exact .ret _ hr
    | none => exact fair_firstEnv l fun v hv => h v (by simp [hv])

theorem fair_tempDirectoryPath : Fair (fun r => NulFree r.1) (tempDirectoryPath ec) := by
  unfold tempDirectoryPath
  simp only [Prog.bind_eq]
  refine (fair_firstEnv _ (by decide)).bind ?_
  rintro s hs
  refine (fair_status (nf_mkPath hs)).bind ?_
  rintro ⟨st, m⟩ _
  dsimp only
  split
  · exact .reportMsg nf_default
  split
  · exact .reportMsg nf_default
  · exact .ret _ (nf_mkPath hs)

/-! ## Copying -/

theorem fair_refreshStatus (hp : NulFree p) : Fair (fun _ => True) (refreshStatus p) := by
  refine .call _ _ (by whole) fun r _ => ?_
  cases r <;> exact fair_createFileStatus.bind fun _ _ => .ret _ trivial

theorem fair_sendLoop {out inp : Nat} : ∀ (n : Nat) (c : Int), Fair (fun _ => True) (sendLoop out inp n c)
  | 0, _ => .stop _
  | n + 1, c => by
    refine .call _ _ rfl fun r hr => ?_
    cases r with
    | error e => exact .ret _ trivial
    | ok k =>
      dsimp only
      split
      · exact fair_sendLoop n _
      · exact .ret _ trivial

theorem fair_copyDefault {out inp : Nat} : ∀ (n : Nat), Fair (fun _ => True) (copyDefault inp out n)
  | 0 => .stop _
  | n + 1 => by
    refine .call _ _ rfl fun r hr => ?_
    cases r with
    | error e => exact .ret _ trivial
    | ok d =>
      dsimp only
      split
      · exact .ret _ trivial
      · refine .call _ _ rfl fun r hr => ?_
        cases r with
        | error e => exact .ret _ trivial
        | ok k => exact fair_copyDefault n

theorem fair_doCopyFile {sf : Bool} {n inp out : Nat} {z : Int} : Fair (fun _ => True) (doCopyFile sf n inp out z) := by
  unfold doCopyFile copySendfile
  simp only [Prog.bind_eq]
  have hd : ∀ b : Bool, Fair (fun _ => True) (if b then Prog.ret (none : Code) else copyDefault inp out n) := by
    intro b
    split
    · exact .ret _ trivial
    · exact fair_copyDefault n
  split
  · refine Fair.bind (Q := fun _ => True) ?_ fun b _ => hd b
    split
    · exact .ret _ trivial
    · exact (fair_sendLoop n _).bind fun _ _ => .ret _ trivial
  · exact hd false

theorem fair_closeFd {d : Nat} : Fair (fun _ => True) (closeFd d) := by
  unfold closeFd
  fair

theorem fair_copyInto {sf : Bool} {n : Nat} {h : Handler} {inp : Nat} {fst : Stat} {tst : Option Stat} (hp : NulFree p) :
    Fair (fun _ => True) (copyInto sf n h inp fst p tst ec) := by
  have fin : ∀ out, Fair (fun _ => True) ((doCopyFile sf n inp out fst.size.toInt).bind fun m =>
      if m ≠ none then h.report ec m false else .ret (true, ec)) := by
    intro out
    refine fair_doCopyFile.bind fun m _ => ?_
    split
    · exact .report trivial
    · exact .ret _ trivial
  refine .call _ _ (by whole) fun r hr => ?_
  cases r with
  | error e => exact .report trivial
  | ok out =>
    refine Fair.finally' ?_ fair_closeFd
    simp only [Prog.bind_eq]
    refine (fair_refreshStatus hp).bind ?_
    rintro ⟨⟨s, st⟩, m⟩ _
    dsimp only
    split
    · exact .report trivial
    · cases tst with
      | none => exact fin out
      | some tst =>
        dsimp only
        split
        · exact .report trivial
        · refine .call _ _ rfl fun r hr => ?_
          cases r with
          | error e => exact .report trivial
          | ok _ =>
            refine .call _ _ rfl fun r hr => ?_
            cases r with
            | error e => exact .report trivial
            | ok _ => exact fin out

theorem fair_copyFile {sf : Bool} {n : Nat} {opts : CopyOptions} (hp : NulFree p) (hq : NulFree q) :
    Fair (fun _ => True) (copyFile sf n p q opts ec) := by
  refine .call _ _ (by whole) fun r hr => ?_
  cases r with
  | error e => exact .report trivial
  | ok inp =>
    refine Fair.finally' ?_ fair_closeFd
    unfold copyOpened
    simp only [Prog.bind_eq]
    refine (fair_refreshStatus hp).bind ?_
    rintro ⟨⟨s, st⟩, m⟩ _
    dsimp only
    split
    · exact .report trivial
    split
    · exact .report trivial
    refine (fair_getFileStatus hq).bind ?_
    rintro ⟨⟨ts, tst⟩, m⟩ _
    dsimp only
    split
    · exact .report trivial
    split
    · exact fair_copyInto hq
    split
    · exact .report trivial
    refine fair_useStat.bind fun tst _ => ?_
    split
    · exact .report trivial
    split
    · exact .ret _ trivial
    split
    · split
      · exact fair_copyInto hq
      · exact .ret _ trivial
    split
    · exact fair_copyInto hq
    · exact Fair.bind (Q := fun _ => True) (.report trivial) fun _ _ => .ret _ trivial

/-! ## Iterators -/

theorem fair_close {s : Stream} : Fair (fun r => StreamNulFree s → StreamNulFree r) s.close := by
  unfold Stream.close
  split
  · exact .call _ _ rfl fun r hr => .ret _ fun h => ⟨h.root, h.entry⟩
  · exact .ret _ id

theorem fair_destroy {it : DirIter} : Fair (fun _ => True) it.destroy := by
  cases it with
  | none => exact .ret _ trivial
  | some s => exact fair_close.bind fun _ _ => .ret _ trivial

theorem fair_advance : ∀ (n : Nat) (s : Stream), StreamNulFree s → Fair (fun r => StreamNulFree r.2.1) (s.advance n)
  | 0, _, _ => .stop _
  | n + 1, s, h => by
    have cl : ∀ m, Fair (fun r : Bool × Stream × Code => StreamNulFree r.2.1) (s.close.bind fun s => .ret (false, s, m)) := fun m =>
      fair_close.bind fun s h' => .ret _ (h' h)
    unfold Stream.advance
    split
    · exact .stop _
    · refine .call _ _ rfl fun r hr => ?_
      simp only [Prog.bind_eq]
      split
      · exact cl _
      · exact cl _
      · split
        · exact fair_advance n s h
        split
        · exact cl _
        · refine Fair.bind (.ofRes fun z hz => NulFree.append h.root (nf_mkPath hr) hz) fun z hz => ?_
          exact .ret _ ⟨h.root, hz⟩

theorem nf_entry_default : EntryNulFree .default := nf_default

theorem fair_streamNew {n : Nat} {opts : DirOptions} (hp : NulFree p) : Fair (fun r => StreamNulFree r.1) (Stream.new n p opts) := by
  refine .call _ _ (by whole) fun r hr => ?_
  cases r with
  | error e =>
    dsimp only
    split <;> exact .ret _ ⟨hp, nf_entry_default⟩
  | ok d =>
    simp only [Prog.bind_eq]
    exact (fair_advance n _ ⟨hp, nf_entry_default⟩).bind fun r hr => .ret _ hr

theorem fair_dirNew {n : Nat} {opts : DirOptions} (hp : NulFree p) : Fair (fun r => IterNulFree r.1) (DirIter.new n p opts ec) := by
  unfold DirIter.new
  simp only [Prog.bind_eq]
  refine (fair_streamNew hp).bind ?_
  rintro ⟨s, m⟩ h
  dsimp only
  split
  · split
    · exact Fair.bind (Q := fun _ => True) (.report trivial) fun _ _ => .ret _ (by rintro _ ⟨⟩)
    · exact .ret _ (by rintro _ ⟨⟩)
  · exact .ret _ (by rintro _ ⟨⟩; exact h)

theorem fair_dirIncr {n : Nat} {it : DirIter} (hi : IterNulFree it) : Fair (fun r => IterNulFree r.1) (DirIter.incr n it ec) := by
  unfold DirIter.incr
  simp only [Prog.bind_eq]
  cases it with
  | none => exact Fair.bind (Q := fun _ => True) (.reportMsg trivial) fun _ _ => .ret _ (by rintro _ ⟨⟩)
  | some s =>
    dsimp only
    refine (fair_advance n s (hi s rfl)).bind ?_
    rintro ⟨b, s', m⟩ h
    dsimp only
    split
    · exact .ret _ (by rintro _ ⟨⟩; exact h)
    · split
      · exact Fair.bind (Q := fun _ => True) (.reportMsg trivial) fun _ _ => .ret _ (by rintro _ ⟨⟩)
      · exact .ret _ (by rintro _ ⟨⟩)

theorem fair_closeAll : ∀ (ss : List Stream), Fair (fun _ => True) (closeAll ss)
  | [] => .ret _ trivial
  | _ :: ss => (fair_closeAll ss).bind fun _ _ => fair_close.bind fun _ _ => .ret _ trivial

theorem nf_moved {s : Stream} (h : StreamNulFree s) : StreamNulFree s.moved := ⟨h.root.moved, NulFree.moved h.entry⟩

theorem fair_advanceStack {n : Nat} : ∀ (ss : List Stream), (∀ s ∈ ss, StreamNulFree s) →
    Fair (fun r => ∀ s ∈ r.1, StreamNulFree s) (advanceStack n ss)
  | [], _ => .ret _ (by simp)
  | s :: ss, h => by
    unfold advanceStack
    simp only [Prog.bind_eq]
    refine (fair_advance n s (h s (by simp))).bind ?_
    rintro ⟨b, s', m⟩ h1
    have hall : ∀ x ∈ s' :: ss, StreamNulFree x := fun x hx => by
      rcases List.mem_cons.mp hx with rfl | hx
      · exact h1
      · exact h x (by simp [hx])
    dsimp only
    split
    · exact .ret _ hall
    · split
      · exact .ret _ hall
      · exact fair_advanceStack ss fun x hx => h x (by simp [hx])

theorem fair_recAdvance {n : Nat} {it : RecIter} (hi : RecNulFree it) : Fair (fun r => RecNulFree r.1) (RecIter.advance n it ec) := by
  unfold RecIter.advance
  simp only [Prog.bind_eq]
  cases hm : it.impl with
  | none => exact Fair.bind (Q := fun _ => True) (.reportMsg trivial) fun _ _ => .ret _ hi
  | some x =>
    obtain ⟨ss, opts⟩ := x
    dsimp only
    refine (fair_advanceStack ss (hi ss opts hm)).bind ?_
    rintro ⟨ss', m⟩ h
    dsimp only
    split
    · refine (fair_closeAll _).bind fun _ _ => ?_
      exact Fair.bind (Q := fun _ => True) (.reportMsg trivial) fun _ _ => .ret _ (by rintro _ _ ⟨⟩)
    · split
      · exact .ret _ (by rintro _ _ ⟨⟩)
      · exact .ret _ (by rintro _ _ ⟨⟩; exact h)

theorem fair_recNew {n : Nat} {opts : DirOptions} (hp : NulFree p) : Fair (fun r => RecNulFree r.1) (RecIter.new n p opts ec) := by
  unfold RecIter.new
  simp only [Prog.bind_eq]
  refine (fair_streamNew hp).bind ?_
  rintro ⟨s, m⟩ h
  dsimp only
  split
  · exact Fair.bind (Q := fun _ => True) ((Fair.report trivial).finally' fair_destroy) fun _ _ => .ret _ (by rintro _ _ ⟨⟩)
  · split
    · exact .ret _ (by rintro _ _ ⟨⟩)
    · refine .ret _ ?_
      rintro _ _ ⟨⟩ x hx
      obtain rfl := List.mem_singleton.mp hx
      exact nf_moved h

/-! ## Entries -/

theorem fair_updateBasic {b : Bool} {e : Entry} (he : EntryNulFree e) : Fair (fun r => r.1.path = e.path) (updateBasic b e ec) := by
  unfold updateBasic
  simp only [Prog.bind_eq]
  refine (fair_getFileStatus he).bind ?_
  rintro ⟨⟨st, full⟩, m⟩ _
  dsimp only
  split
  · exact Fair.bind (Q := fun _ => True) (.report trivial) fun _ _ => .ret _ rfl
  · refine Fair.bind (Q := fun _ => True) ?_ fun c1 _ => ?_
    · split
      · split
        · exact fair_useStat.bind fun _ _ => .ret _ trivial
        · exact .ret _ trivial
      · exact .ret _ trivial
    refine Fair.bind (Q := fun _ => True) ?_ fun c2 _ => ?_
    · split
      · exact fair_useStat.bind fun _ _ => .ret _ trivial
      · exact .ret _ trivial
    refine Fair.bind (Q := fun _ => True) ?_ fun c3 _ => ?_
    · split
      · exact fair_useStat.bind fun _ _ => fair_extract.bind fun _ _ => .ret _ trivial
      · exact .ret _ trivial
    exact .ret _ rfl

theorem fair_handleError {m : Str} {e : Entry} {c : Code} {b : Bool} : Fair (fun _ => True) (handleError m e c b ec) := by
  cases ec with
  | ref c' => exact .ret _ trivial
  | null =>
    unfold handleError
    fair

theorem fair_getSymLinkFileType {e : Entry} (he : EntryNulFree e) : Fair (fun r => r.1.2.path = e.path) (getSymLinkFileType e ec) := by
  unfold getSymLinkFileType
  simp only [Prog.bind_eq]
  refine Fair.bind (Q := fun r => r.2.1.path = e.path) ?_ ?_
  · split
    · exact (fair_updateBasic he).bind fun r hr => .ret _ hr
    · exact .ret _ rfl
  rintro ⟨b, e', ec⟩ h
  dsimp only
  split
  · exact .ret _ h
  split
  · exact .ret _ h
  refine Fair.bind (Q := fun _ => True) ?_ fun _ _ => .ret _ h
  split
  · exact fair_handleError.bind fun _ _ => .ret _ trivial
  · exact .ret _ trivial

theorem fair_getFileType {e : Entry} (he : EntryNulFree e) : Fair (fun r => r.1.2.path = e.path) (getFileType e ec) := by
  unfold getFileType
  simp only [Prog.bind_eq]
  have key : ∀ x : Entry × EcArg, x.1.path = e.path → Fair (fun r => r.1.2.path = e.path)
      (if x.2 ≠ .null then Prog.ret ((FType.none, x.1), x.2) else
        (if (!FStatus.exists' { type := x.1.cache.type }) = true then
          (handleError "in directory_entry::GetSymLinkFileType".toList x.1 (some .ENOENT) false x.2).bind fun y => Prog.ret y.2
        else Prog.ret x.2).bind fun ec => Prog.ret ((x.1.cache.type, x.1), ec)) := by
    intro x h
    split
    · exact .ret _ h
    refine Fair.bind (Q := fun _ => True) ?_ fun _ _ => .ret _ h
    split
    · exact fair_handleError.bind fun _ _ => .ret _ trivial
    · exact .ret _ trivial
  split
  · refine (fair_updateBasic he).bind ?_
    rintro ⟨e', ec⟩ h
    exact key _ h
  · exact key _ rfl

theorem fair_tryRecursion {n : Nat} {it : RecIter} (hi : RecNulFree it) : Fair (fun r => RecNulFree r.1.2) (RecIter.tryRecursion n it ec) := by
  unfold RecIter.tryRecursion
  simp only [Prog.bind_eq]
  split
  · exact Fair.bind (Q := fun _ => True) (.reportMsg trivial) fun _ _ => .ret _ hi
  · exact .stop _
  · rename_i cur ss opts hm
    have hs := hi _ _ hm
    have hc := hs cur (by simp)
    refine Fair.bind (Q := fun r => r.2.1.path = cur.entry.path) ?_ ?_
    · split
      · exact (fair_getSymLinkFileType hc.entry).bind fun r hr => .ret _ hr
      · exact (fair_getFileType hc.entry).bind fun r hr => .ret _ hr
    rintro ⟨skip, e, m⟩ he
    have he : EntryNulFree e := by rw [EntryNulFree, show e.path = cur.entry.path from he]; exact hc.entry
    have hall : ∀ x ∈ ({ cur with entry := e } : Stream) :: ss, StreamNulFree x := fun x hx => by
      rcases List.mem_cons.mp hx with rfl | hx
      · exact ⟨hc.root, he⟩
      · exact hs x (by simp [hx])
    refine Fair.bind (Q := fun r => ∀ s, r.1 = some s → StreamNulFree s) ?_ ?_
    · dsimp only
      split
      · refine (fair_streamNew he).bind ?_
        rintro ⟨s, m⟩ h
        dsimp only
        split
        · exact .ret _ (by rintro _ ⟨⟩; exact h)
        · exact .ret _ (by rintro _ ⟨⟩)
      · exact .ret _ (by rintro _ ⟨⟩)
    rintro ⟨pushed, m⟩ h
    dsimp only
    split
    · refine .ret _ ?_
      rintro _ _ ⟨⟩ x hx
      rcases List.mem_cons.mp hx with rfl | hx
      · exact nf_moved (h _ rfl)
      · exact hall x hx
    · split
      · split
        · exact .ret _ (by rintro _ _ ⟨⟩; exact hall)
        · refine (fair_closeAll _).bind fun _ _ => ?_
          exact Fair.bind (Q := fun _ => True) (.reportMsg trivial) fun _ _ => .ret _ (by rintro _ _ ⟨⟩)
      · exact .ret _ (by rintro _ _ ⟨⟩; exact hall)

theorem fair_recIncr {n : Nat} {it : RecIter} (hi : RecNulFree it) : Fair (fun r => RecNulFree r.1) (RecIter.incr n it ec) := by
  unfold RecIter.incr
  simp only [Prog.bind_eq]
  refine Fair.bind (Q := fun r => RecNulFree r.2.1) ?_ ?_
  · split
    · exact (fair_tryRecursion hi).bind fun r hr => .ret _ hr
    · exact .ret _ hi
  rintro ⟨b, it', ec⟩ h
  dsimp only
  split
  · exact .ret _ h
  · exact fair_recAdvance (fun ss opts hx => h ss opts hx)

theorem fair_recPop {n : Nat} {it : RecIter} (hi : RecNulFree it) : Fair (fun r => RecNulFree r.1) (RecIter.pop n it ec) := by
  unfold RecIter.pop
  simp only [Prog.bind_eq]
  split
  · exact Fair.bind (Q := fun _ => True) (.reportMsg trivial) fun _ _ => .ret _ hi
  · exact .stop _
  · rename_i s ss opts hm
    refine fair_close.bind fun _ _ => ?_
    split
    · exact .ret _ (by rintro _ _ ⟨⟩)
    · exact fair_recAdvance (by rintro _ _ ⟨⟩ x hx; exact hi _ _ hm x (by simp [hx]))

/-! ## Whole trees -/

theorem fair_isEmptyFile {n : Nat} (hp : NulFree p) : Fair (fun _ => True) (isEmptyFile n p ec) := by
  unfold isEmptyFile isEmptyDirectory
  simp only [Prog.bind_eq]
  refine (fair_getFileStatus hp).bind ?_
  rintro ⟨⟨st, pst⟩, m⟩ _
  dsimp only
  split
  · exact .report trivial
  split
  · exact .report trivial
  split
  · refine (fair_dirNew hp).bind ?_
    rintro ⟨it, ec⟩ _
    refine fair_destroy.bind fun _ _ => ?_
    fair
  · exact fair_useStat.bind fun _ _ => .ret _ trivial

theorem fair_removeLoop {rec : Path → Prog (BitVec 64 × Code)} (hrec : ∀ a, NulFree a → Fair (fun _ => True) (rec a)) :
    ∀ (n : Nat) (it : DirIter) (c : BitVec 64), IterNulFree it → Fair (fun _ => True) (removeLoop rec n it c)
  | 0, _, _, _ => .stop _
  | _ + 1, none, _, _ => .ret _ trivial
  | n + 1, some s, c, hi => by
    unfold removeLoop
    simp only [Prog.bind_eq]
    refine (hrec _ (hi s rfl).entry).bind ?_
    rintro ⟨o, m⟩ _
    dsimp only
    split
    · exact fair_destroy.bind fun _ _ => .ret _ trivial
    · refine (fair_dirIncr hi).bind ?_
      rintro ⟨it, ec⟩ h
      dsimp only
      split
      · exact .ret _ trivial
      · exact fair_removeLoop hrec n it _ h

theorem fair_doRemoveAll : ∀ (n : Nat) (p : Path), NulFree p → Fair (fun _ => True) (doRemoveAll n p)
  | 0, _, _ => .stop _
  | n + 1, p, hp => by
    unfold doRemoveAll
    simp only [Prog.bind_eq]
    refine (fair_symlinkStatus hp).bind ?_
    rintro ⟨st, ec⟩ _
    dsimp only
    split
    · exact .ret _ trivial
    refine Fair.bind (Q := fun _ => True) ?_ ?_
    · split
      · refine (fair_dirNew hp).bind ?_
        rintro ⟨it, ec⟩ h
        dsimp only
        split
        · exact .ret _ trivial
        · exact fair_removeLoop (fun a ha => fair_doRemoveAll n a ha) n it _ h
      · exact .ret _ trivial
    rintro ⟨c, m⟩ _
    dsimp only
    split
    · exact .ret _ trivial
    refine (fair_remove hp).bind ?_
    rintro ⟨b, ec⟩ _
    fair

theorem fair_removeAll {n : Nat} (hp : NulFree p) : Fair (fun _ => True) (removeAll n p ec) := by
  unfold removeAll
  simp only [Prog.bind_eq]
  split
  · exact .ret _ trivial
  · refine (fair_doRemoveAll n p hp).bind ?_
    rintro ⟨c, m⟩ _
    fair

theorem fair_copyLoop {h : Handler} {rec : Path → Path → EcArg → Prog (Unit × EcArg)}
    (hrec : ∀ a b ec, NulFree a → NulFree b → Fair (fun _ => True) (rec a b ec)) {to : Path} (ht : NulFree to) :
    ∀ (n : Nat) (it : DirIter) (m : Code) (ec : EcArg), IterNulFree it → Fair (fun _ => True) (copyLoop h rec to n it m ec)
  | 0, _, _, _, _ => .stop _
  | n + 1, none, _, _, _ => .ret _ trivial
  | n + 1, some s, m, ec, hu => by
    unfold copyLoop
    simp only [Prog.bind_eq]
    split
    · exact (Fair.report trivial).finally' fair_destroy
    · have he : NulFree s.entry.path := (hu s rfl).entry
      refine Fair.bind (.ofRes fun f hf => he.filename hf) fun f hf => ?_
      refine Fair.bind (.ofRes fun z hz => NulFree.append ht hf hz) fun z hz => ?_
      refine ((hrec _ _ _ he hz).onThrow fair_destroy).bind ?_
      rintro ⟨_, ec⟩ _
      dsimp only
      split
      · exact fair_destroy.bind fun _ _ => .ret _ trivial
      · refine (fair_dirIncr hu).bind ?_
        rintro ⟨it, m2⟩ h
        exact fair_copyLoop hrec ht n it _ _ h

theorem fair_copyDispatch {rec : Path → Path → EcArg → Prog (Unit × EcArg)}
    (hrec : ∀ a b ec, NulFree a → NulFree b → Fair (fun _ => True) (rec a b ec)) {sf : Bool} {n : Nat} {h : Handler} {opts : CopyOptions}
    {f t : FStatus} (hp : NulFree p) (hq : NulFree q) : Fair (fun _ => True) (copyDispatch rec sf n h p q opts f t ec) := by
  unfold copyDispatch
  dsimp only
  split
  · split
    · exact .ret _ trivial
    split
    · exact fair_copySymlink hp hq
    · exact .report trivial
  split
  · split
    · exact .ret _ trivial
    split
    · exact fair_createSymlinkAs hp hq
    split
    · exact fair_createHardLink hp hq
    split
    · simp only [Prog.bind_eq]
      refine Fair.bind (.ofRes fun f hf => hp.filename hf) fun f hf => ?_
      refine Fair.bind (.ofRes fun z hz => NulFree.append hq hf hz) fun z hz => ?_
      exact (fair_copyFile hp hz).bind fun _ _ => .ret _ trivial
    · exact (fair_copyFile hp hq).bind fun _ _ => .ret _ trivial
  split
  · exact .report trivial
  split
  · unfold copyDir
    simp only [Prog.bind_eq]
    refine Fair.bind (Q := fun _ => True) ?_ ?_
    · split
      · exact (fair_createDirectoryLike hq hp).bind fun _ _ => .ret _ trivial
      · exact .ret _ trivial
    rintro ec _
    split
    · exact .ret _ trivial
    refine (fair_dirNew hp).bind ?_
    rintro ⟨it, ec⟩ hu
    dsimp only
    split
    · exact .ret _ trivial
    · exact fair_copyLoop hrec hq n it _ _ hu
  · exact .ret _ trivial

theorem fair_either {b : Bool} {st : Option Stat} (hp : NulFree p) : Fair (fun _ => True) ((if b then getLinkStatus else getFileStatus) p st ec) := by
  cases b
  · exact fair_getFileStatus hp
  · exact fair_getLinkStatus hp

theorem fair_copy {sf : Bool} : ∀ (n : Nat) (p q : Path) (opts : CopyOptions) (ec : EcArg), NulFree p → NulFree q →
    Fair (fun _ => True) (copy sf n p q opts ec)
  | 0, _, _, _, _, _, _ => .stop _
  | n + 1, p, q, opts, ec, hp, hq => by
    unfold copy
    simp only [Prog.bind_eq]
    refine (fair_either hp).bind ?_
    rintro ⟨⟨f, fst⟩, m⟩ _
    dsimp only
    split
    · exact .report trivial
    refine (fair_either hq).bind ?_
    rintro ⟨⟨t, tst⟩, m⟩ _
    dsimp only
    split
    · exact .report trivial
    refine fair_useStat.bind fun fst _ => fair_useStat.bind fun tst _ => ?_
    split
    · exact .report trivial
    · exact fair_copyDispatch (fun a b ec ha hb => fair_copy n a b opts ec ha hb) hp hq

end

/-! ## The operations -/

theorem fair_op {α : Type} (op : FsOp α) (ec : EcArg) (h : ArgsNulFree op) : Fair (fun r => ResultNulFree op r.1) (op.prog ec) := by
  cases op with
  | absolute p => exact (fair_doAbsolute h).bind fun _ h => .ret _ h
  | canonical p => exact fair_canonical h
  | weaklyCanonical el p => exact fair_weaklyCanonical h
  | proximate el p b => exact fair_proximate h.1 h.2
  | relative el p b => exact fair_relative h.1 h.2
  | proximateCwd el p => exact fair_currentPath.bind fun r hr => fair_proximate h hr
  | relativeCwd el p => exact fair_currentPath.bind fun r hr => fair_relative h hr
  | copy sf n a b o => exact fair_copy n a b o ec h.1 h.2
  | copyFile sf n a b o => exact fair_copyFile h.1 h.2
  | copySymlink a b => exact fair_copySymlink h.1 h.2
  | createDirectory p => exact fair_createDirectory h
  | createDirectoryLike p q => exact fair_createDirectoryLike h.1 h.2
  | createDirectories el n p => exact fair_createDirectories h
  | createSymlink a b => exact fair_createSymlinkAs h.1 h.2
  | createDirectorySymlink a b => exact fair_createSymlinkAs h.1 h.2
  | createHardLink a b => exact fair_createHardLink h.1 h.2
  | currentPath => exact fair_currentPath
  | setCurrentPath p =>
    have h : NulFree p := h
    show Fair (fun _ => True) (Asap.setCurrentPath p ec)
    unfold Asap.setCurrentPath
    fair
  | equivalent p q => exact fair_equivalent h.1 h.2
  | exists' p => exact fair_existsP h
  | fileSize p => exact fair_fileSize h
  | hardLinkCount p => exact fair_hardLinkCount h
  | isEmpty n p => exact fair_isEmptyFile h
  | lastWriteTime p => exact fair_lastWriteTime h
  | setLastWriteTime p t => exact fair_setLastWriteTime h
  | permissions p m o => exact fair_permissions h
  | readSymlink p => exact fair_readSymlink h
  | remove p => exact fair_remove h
  | removeAll n p => exact fair_removeAll h
  | rename a b =>
    obtain ⟨h1, h2⟩ : NulFree a ∧ NulFree b := h
    show Fair (fun _ => True) (Asap.rename a b ec)
    unfold Asap.rename
    fair
  | resizeFile p k =>
    have h : NulFree p := h
    show Fair (fun _ => True) (Asap.resizeFile p k ec)
    unfold Asap.resizeFile
    fair
  | space p =>
    have h : NulFree p := h
    show Fair (fun _ => True) (Asap.space p ec)
    unfold Asap.space
    fair
  | tempDirectoryPath => exact fair_tempDirectoryPath
  | dirIter n p o => exact fair_dirNew h
  | dirIterIncr n it => exact fair_dirIncr h
  | recIter n p o => exact fair_recNew h
  | recIterIncr n it => exact fair_recIncr h
  | recIterPop n it => exact fair_recPop h

/-! ## Entries -/

section
variable {e : Entry} {ec : EcArg} {b : Bool}

theorem fair_basic (he : EntryNulFree e) : Fair (fun r => EntryNulFree r.1) (updateBasic b e ec) :=
  (fair_updateBasic he).mono fun r hr => by rw [EntryNulFree, hr]; exact he

theorem fair_updateExtra (he : EntryNulFree e) : Fair (fun r => EntryNulFree r.1) (updateExtra b e ec) := by
  simp only [updateExtra, Prog.bind_eq, Prog.ret_bind]
  split
  · exact .stop _
  · split
    · exact (fair_basic he).bind fun r hr => .ret _ hr
    · exact .ret _ he

theorem fair_updatePerms (he : EntryNulFree e) : Fair (fun r => EntryNulFree r.1) (updatePerms b e ec) := by
  simp only [updatePerms, Prog.bind_eq, Prog.ret_bind]
  split
  · exact .stop _
  · split
    · exact (fair_basic he).bind fun r hr => .ret _ hr
    · exact .ret _ he

theorem fair_refresh (he : EntryNulFree e) : Fair (fun r => EntryNulFree r.1) (refresh e ec) := by
  unfold refresh
  simp only [Prog.bind_eq]
  refine (fair_basic (e := { e with cache := .reset }) he).bind fun r hr => ?_
  exact fair_handleError.bind fun _ _ => .ret _ hr

theorem fair_fileType (he : EntryNulFree e) : Fair (fun r => EntryNulFree r.1.2) (getFileType e ec) :=
  (fair_getFileType he).mono fun r hr => by rw [EntryNulFree, hr]; exact he

theorem fair_linkType (he : EntryNulFree e) : Fair (fun r => EntryNulFree r.1.2) (getSymLinkFileType e ec) :=
  (fair_getSymLinkFileType he).mono fun r hr => by rw [EntryNulFree, hr]; exact he

/-- Programs of the parts of an entry. -/
macro "entries" : tactic => `(tactic| repeat' first
  | exact Fair.ret _ (by assumption)
  | (refine Fair.bind (fair_basic (by assumption)) fun _ _ => ?_)
  | (refine Fair.bind (fair_updateExtra (by assumption)) fun _ _ => ?_)
  | (refine Fair.bind (fair_updatePerms (by assumption)) fun _ _ => ?_)
  | (refine Fair.bind (fair_fileType (by assumption)) fun _ _ => ?_)
  | (refine Fair.bind (fair_linkType (by assumption)) fun _ _ => ?_)
  | (refine Fair.bind (Q := fun _ => True) (Fair.report trivial) fun _ _ => ?_)
  | (refine Fair.bind (Q := fun _ => True) (Fair.reportMsg trivial) fun _ _ => ?_)
  | split)

theorem fair_ask (a : Ask) (he : EntryNulFree e) : Fair (fun r => EntryNulFree r.1.2) (a.entry e ec) := by
  cases a with
  | exists' => simp only [Ask.entry, Entry.existsE, Prog.bind_eq, Prog.bind_assoc, Prog.ret_bind]; entries
  | is g => simp only [Ask.entry, Entry.isType, Prog.bind_eq, Prog.bind_assoc, Prog.ret_bind]; entries
  | isSymlink => simp only [Ask.entry, Entry.isSymlinkE, Prog.bind_eq, Prog.bind_assoc, Prog.ret_bind]; entries
  | fileSize => refine Fair.bind (Q := fun r : (_ × Entry) × EcArg => EntryNulFree r.1.2) ?_ fun r hr => .ret _ hr
                simp only [getSize, Prog.bind_eq, Prog.bind_assoc, Prog.ret_bind]; entries
  | hardLinkCount => refine Fair.bind (Q := fun r : (_ × Entry) × EcArg => EntryNulFree r.1.2) ?_ fun r hr => .ret _ hr
                     simp only [getHardLinkCount, Prog.bind_eq, Prog.bind_assoc, Prog.ret_bind]; entries
  | lastWriteTime => refine Fair.bind (Q := fun r : (_ × Entry) × EcArg => EntryNulFree r.1.2) ?_ fun r hr => .ret _ hr
                     simp only [getLastWriteTime, Prog.bind_eq, Prog.bind_assoc, Prog.ret_bind]; entries
  | status => refine Fair.bind (Q := fun r : (_ × Entry) × EcArg => EntryNulFree r.1.2) ?_ fun r hr => .ret _ hr
              simp only [getStatus, Prog.bind_eq, Prog.bind_assoc, Prog.ret_bind]; entries
  | symlinkStatus => refine Fair.bind (Q := fun r : (_ × Entry) × EcArg => EntryNulFree r.1.2) ?_ fun r hr => .ret _ hr
                     simp only [getSymLinkStatus, Prog.bind_eq, Prog.bind_assoc, Prog.ret_bind]; entries

theorem fair_interview : ∀ (as : List (Ask × EcArg × Bool)) (e : Entry), EntryNulFree e → Fair (fun _ => True) (interview as e)
  | [], _, _ => .ret _ trivial
  | (a, _, _) :: as, _, he =>
    (fair_ask a he).bind fun r hr => (fair_interview as r.1.2 hr).bind fun _ _ => .ret _ trivial

end

/-! ## C120 -/

/-- C120, POSIX: given paths, iterators and answers without null characters, each operation does exactly what it does in the
model in which the operating system gets whole texts; every text it hands out is whole; the paths, iterators and entries it
gives back have no null characters, so this goes on for whatever is done with them. Missing, because false (`c120_violated`):
the same for paths with null characters. -/
theorem c120_operations_partial {α : Type} (op : FsOp α) (ec : EcArg) (h : ArgsNulFree op) (t : List Event) (o : Except Stop (α × EcArg))
    (ht : ∀ ev ∈ t, CAnswer ev) :
    (Exec (Prog.asC (op.prog ec)) t o ↔ Exec (op.prog ec) t o) ∧
    (Exec (op.prog ec) t o → (∀ ev ∈ t, Sys.cut ev.call = ev.call) ∧ ∀ r ec', o = .ok (r, ec') → ResultNulFree op r) := by
  obtain ⟨h1, h2⟩ := (fair_op op ec h).exec ht (o := o)
  exact ⟨h1.symm, fun he => ⟨(h2 he).1, fun r ec' e => (h2 he).2 _ e⟩⟩

/-- C120 for the questions asked to an entry, in any number and order, and for `refresh`. -/
theorem c120_entries_partial (e : Entry) (he : EntryNulFree e) (t : List Event) (ht : ∀ ev ∈ t, CAnswer ev) :
    (∀ as o, (Exec (Prog.asC (interview as e)) t o ↔ Exec (interview as e) t o) ∧
      (Exec (interview as e) t o → ∀ ev ∈ t, Sys.cut ev.call = ev.call)) ∧
    (∀ ec o, (Exec (Prog.asC (refresh e ec)) t o ↔ Exec (refresh e ec) t o) ∧
      (Exec (refresh e ec) t o → (∀ ev ∈ t, Sys.cut ev.call = ev.call) ∧ ∀ e' ec', o = .ok (e', ec') → EntryNulFree e')) := by
  refine ⟨fun as o => ?_, fun ec o => ?_⟩
  · obtain ⟨h1, h2⟩ := (fair_interview as e he).exec ht (o := o)
    exact ⟨h1.symm, fun hx => (h2 hx).1⟩
  · obtain ⟨h1, h2⟩ := (fair_refresh (ec := ec) he).exec ht (o := o)
    exact ⟨h1.symm, fun hx => ⟨(h2 hx).1, fun e' ec' h => (h2 hx).2 _ h⟩⟩

/-- A path with a null character. -/
def nulPath : Path := mkPath .posix "a\x00b".toList

/-- C120, violated: `remove` of the path `a\0b` always removes the file `a`, which is another path, and `rename` to it renames
to `a`; nothing is reported. -/
theorem c120_violated :
    nulPath.pathname = "a\x00b".toList ∧
    (∀ ec t o, Exec (Prog.asC ((FsOp.remove nulPath).prog ec)) t o → ∃ r t', t = ⟨.remove "a".toList, r⟩ :: t') ∧
    (∀ ec p t o, Exec (Prog.asC ((FsOp.rename p nulPath).prog ec)) t o → ∃ r t', t = ⟨.rename (cString p.pathname) "a".toList, r⟩ :: t') ∧
    (∀ c, Exec (Prog.asC ((FsOp.remove nulPath).prog (.ref c))) [⟨.remove "a".toList, (.ok () : Except Errno Unit)⟩] (.ok (true, .ref none))) := by
  have hn : nulPath.pathname = "a\x00b".toList := by decide +kernel
  refine ⟨hn, fun ec t o h => ?_, fun ec p t o h => ?_, fun c => ?_⟩
  · simp only [FsOp.prog, Asap.remove] at h
    obtain ⟨r, t', rfl, _⟩ := exec_call.mp h
    exact ⟨r, t', rfl⟩
  · simp only [FsOp.prog, Asap.rename, Prog.asC, Sys.cut] at h
    obtain ⟨r, t', rfl, _⟩ := exec_call.mp h
    exact ⟨r, t', rfl⟩
  · simp only [FsOp.prog, Asap.remove]
    exact exec_call.mpr ⟨_, [], rfl, exec_ret.mpr ⟨rfl, rfl⟩⟩

example : ArgsNulFree (.copy true 9 (mkPath .posix "a/b".toList) (mkPath .posix "c".toList) 0) :=
  ⟨nf_mkPath (by decide), nf_mkPath (by decide)⟩
example : CAnswer ⟨.readlink "a".toList 100, (.ok "b/c".toList : Except Errno Str)⟩ := by show '\x00' ∉ "b/c".toList; decide
example : Exec ((FsOp.readSymlink (mkPath .posix "a".toList)).prog (.ref none))
    [⟨.pathconf, (100 : Int)⟩, ⟨.readlink "a".toList 100, (.ok "b/c".toList : Except Errno Str)⟩] (.ok (mkPath .posix "b/c".toList, .ref none)) := by
  refine exec_call.mpr ⟨_, _, rfl, ?_⟩
  exact exec_call.mpr ⟨_, _, rfl, exec_ret.mpr ⟨rfl, rfl⟩⟩

end Asap
