import Verif.Props.CopyA
import Verif.Dir.StreamLemmas
import Verif.Ops.Recursive

/-!
# C49: the decisions of `copy`; C51: errors while listing
-/

namespace Asap
namespace Spec

/-- What `copy` is to do. -/
inductive Action where
  /-- report the error -/
  | fail (e : Errno)
  /-- report success -/
  | nothing
  /-- copy the link itself -/
  | relink
  /-- make a link to the source -/
  | symlink
  | hardLink
  /-- copy the file, to the name given or into that directory -/
  | file (into : Bool)
  /-- copy a directory with its contents, making the new directory first -/
  | tree (make : Bool)
  deriving DecidableEq

/-- The options that concern links and directories. -/
def recursive (opts : CopyOptions) : Prop := opts.getLsbD 3 = true
def copiesLinks (opts : CopyOptions) : Prop := opts.getLsbD 4 = true
def skipsLinks (opts : CopyOptions) : Prop := opts.getLsbD 5 = true
def directoriesOnly (opts : CopyOptions) : Prop := opts.getLsbD 6 = true
def makesLinks (opts : CopyOptions) : Prop := opts.getLsbD 7 = true
def makesHardLinks (opts : CopyOptions) : Prop := opts.getLsbD 8 = true

instance (opts) : Decidable (recursive opts) := by unfold recursive; exact inferInstance
instance (opts) : Decidable (copiesLinks opts) := by unfold copiesLinks; exact inferInstance
instance (opts) : Decidable (skipsLinks opts) := by unfold skipsLinks; exact inferInstance
instance (opts) : Decidable (directoriesOnly opts) := by unfold directoriesOnly; exact inferInstance
instance (opts) : Decidable (makesLinks opts) := by unfold makesLinks; exact inferInstance
instance (opts) : Decidable (makesHardLinks opts) := by unfold makesHardLinks; exact inferInstance
instance (a b) : Decidable (OneFile a b) := by unfold OneFile; exact inferInstance

/-- Neither regular file, directory nor link. -/
def special (t : FType) : Prop := t ≠ .regular ∧ t ≠ .directory ∧ t ≠ .symlink
instance (t) : Decidable (special t) := by unfold special; exact inferInstance

/-- Once source and destination are acceptable: `f` is the type of the source, `d` that of the destination if there
is one. -/
def act (opts : CopyOptions) (f : FType) (d : Option FType) : Action :=
  match f with
  | .symlink => if skipsLinks opts then .nothing else if d = none then .relink else .fail .EEXIST
  | .regular =>
    if directoriesOnly opts then .nothing
    else if makesLinks opts then .symlink
    else if makesHardLinks opts then .hardLink
    else .file (d = some .directory)
  | .directory =>
    if makesLinks opts then .fail .EISDIR
    else if recursive opts ∨ opts = 0 then .tree (d = none)
    else .nothing
  | _ => .fail .ENOSYS

/-- The decision of `copy`: `f` are the attributes of the source, `r` what is known of the destination. -/
def plan (opts : CopyOptions) (f : Stat) (r : Except Errno Stat) : Action :=
  match r with
  | .error e =>
    if e ≠ .ENOENT ∧ e ≠ .ENOTDIR then .fail e
    else act opts (typeOf f.mode) none
  | .ok d =>
    if special (typeOf f.mode) ∨ special (typeOf d.mode) ∨ (typeOf f.mode = .directory ∧ typeOf d.mode = .regular) ∨ OneFile f d then .fail .ENOSYS
    else act opts (typeOf f.mode) (some (typeOf d.mode))

/-- A look at `p`, not following a final link if `link`. -/
def lookEv (link : Bool) (p : Path) (r : Except Errno Stat) : Event :=
  if link then ⟨.lstat p.pathname, r⟩ else ⟨.stat p.pathname, r⟩

/-- The source is looked at as a link if an option concerns links. -/
def linkwise (opts : CopyOptions) : Bool := makesLinks opts ∨ skipsLinks opts ∨ copiesLinks opts
/-- The destination is. -/
def linkwiseTo (opts : CopyOptions) : Bool := makesLinks opts ∨ skipsLinks opts

abbrev succeeds : Except Stop (Unit × EcArg) := .ok ((), .ref none)
abbrev fails (e : Errno) : Except Stop (Unit × EcArg) := .ok ((), .ref (some e))

/-- The copy of the entries of the directory `src`, open as `d`, into `to`: what happens after `first` (whether no
entry has been read so far). `one a b` is the copy of a single entry. Note `later`. -/
inductive Copies (one : Path → Path → List Event → Except Stop (Unit × EcArg) → Prop) (src to : Path) (d : Nat) :
    Bool → List Event → Except Stop (Unit × EcArg) → Prop
  /-- `.` and `..` are passed over -/
  | dot {first} (ent : Dirent) {t o} : ent.dot → Copies one src to d first t o →
      Copies one src to d first (rdEv d (.ok (some ent)) :: t) o
  /-- the end -/
  | done {first} (r) : Copies one src to d first [rdEv d (.ok none), clEv d r] succeeds
  /-- the first entry cannot be read -/
  | unread (e) (r) : Copies one src to d true [rdEv d (.error e), clEv d r] (fails e)
  /-- a later entry cannot be read: the error is lost -/
  | later (e) (r) : Copies one src to d false [rdEv d (.error e), clEv d r] succeeds
  /-- an entry is copied, then the others -/
  | entry {first} (ent : Dirent) {t1 t2 o} : ¬ ent.dot → one (mkPath .posix (appendText src.pathname ent.name))
      (mkPath .posix (appendText to.pathname ent.name)) t1 succeeds → Copies one src to d false t2 o →
      Copies one src to d first (rdEv d (.ok (some ent)) :: (t1 ++ t2)) o
  /-- an entry fails -/
  | failed {first} (ent : Dirent) {t1} (e) (r) : ¬ ent.dot → one (mkPath .posix (appendText src.pathname ent.name))
      (mkPath .posix (appendText to.pathname ent.name)) t1 (fails e) →
      Copies one src to d first (rdEv d (.ok (some ent)) :: (t1 ++ [clEv d r])) (fails e)
  /-- the copy of an entry is stopped -/
  | stopped {first} (ent : Dirent) {t1} (x) : ¬ ent.dot → one (mkPath .posix (appendText src.pathname ent.name))
      (mkPath .posix (appendText to.pathname ent.name)) t1 (.error x) →
      Copies one src to d first (rdEv d (.ok (some ent)) :: t1) (.error x)
  /-- the bound of the model is reached, between entries or after reading one -/
  | out {first} : Copies one src to d first [] (.error .fuel)
  | outRead {first} (ent : Dirent) : Copies one src to d first [rdEv d (.ok (some ent))] (.error .fuel)

/-- The calls and the outcome that carry out an action. -/
def Does (sf : Bool) (n : Nat) (src to : Path) (opts : CopyOptions) (a : Action) (t : List Event) (o : Except Stop (Unit × EcArg)) : Prop :=
  match a with
  | .fail e => t = [] ∧ o = fails e
  | .nothing => t = [] ∧ o = succeeds
  | .relink => Exec (copySymlink src to (.ref none)) t o
  | .symlink => (∃ e, t = [⟨.symlink src.pathname to.pathname, (.error e : Except Errno Unit)⟩] ∧ o = fails e) ∨
      (t = [⟨.symlink src.pathname to.pathname, (.ok () : Except Errno Unit)⟩] ∧ o = succeeds)
  | .hardLink => (∃ e, t = [⟨.link src.pathname to.pathname, (.error e : Except Errno Unit)⟩] ∧ o = fails e) ∨
      (t = [⟨.link src.pathname to.pathname, (.ok () : Except Errno Unit)⟩] ∧ o = succeeds)
  | .file into => ∃ r, Exec (copyFile sf n src (if into then mkPath .posix (appendText to.pathname (filePart src.pathname)) else to)
      opts (.ref none)) t r ∧ o = r.map fun v => ((), v.2)
  | .tree make => ∃ t1 t2, t = t1 ++ t2 ∧ (make = false → t1 = []) ∧
      ((make = true ∧ t2 = [] ∧ ∃ e, Exec (createDirectoryLike to src (.ref none)) t1 (.ok (false, .ref (some e))) ∧ o = fails e) ∨
       ((make = true → ∃ b, Exec (createDirectoryLike to src (.ref none)) t1 (.ok (b, .ref none))) ∧
        ((∃ e, t2 = [opEv src.pathname (.error e)] ∧ o = fails e) ∨
         (∃ d t3, t2 = opEv src.pathname (.ok d) :: t3 ∧
           Copies (fun a b t o => Exec (copy sf n a b opts (.ref none)) t o) src to d true t3 o))))

end Spec
open Spec

theorem has_recursive (opts : CopyOptions) : opts.has .recursive = true ↔ recursive opts := by
  have := has_pow opts 3 (by decide); rw [show (BitVec.twoPow 16 3) = CopyOptions.recursive from rfl] at this
  rw [this]; rfl
theorem has_copyLinks (opts : CopyOptions) : opts.has .copySymlinks = true ↔ copiesLinks opts := by
  have := has_pow opts 4 (by decide); rw [show (BitVec.twoPow 16 4) = CopyOptions.copySymlinks from rfl] at this
  rw [this]; rfl
theorem has_skipLinks (opts : CopyOptions) : opts.has .skipSymlinks = true ↔ skipsLinks opts := by
  have := has_pow opts 5 (by decide); rw [show (BitVec.twoPow 16 5) = CopyOptions.skipSymlinks from rfl] at this
  rw [this]; rfl
theorem has_directoriesOnly (opts : CopyOptions) : opts.has .directoriesOnly = true ↔ directoriesOnly opts := by
  have := has_pow opts 6 (by decide); rw [show (BitVec.twoPow 16 6) = CopyOptions.directoriesOnly from rfl] at this
  rw [this]; rfl
theorem has_makeLinks (opts : CopyOptions) : opts.has .createSymlinks = true ↔ makesLinks opts := by
  have := has_pow opts 7 (by decide); rw [show (BitVec.twoPow 16 7) = CopyOptions.createSymlinks from rfl] at this
  rw [this]; rfl
theorem has_makeHardLinks (opts : CopyOptions) : opts.has .createHardLinks = true ↔ makesHardLinks opts := by
  have := has_pow opts 8 (by decide); rw [show (BitVec.twoPow 16 8) = CopyOptions.createHardLinks from rfl] at this
  rw [this]; rfl

/-- The names in a listing are names. -/
def Spec.RealNames (t : List Event) : Prop := ∀ d ent, rdEv d (.ok (some ent)) ∈ t → IsName ent.name

theorem filePart_entry (s : Str) {w : Str} (hw : '/' ∉ w) : filePart (appendText s w) = w := by
  unfold appendText
  rcases last_slash s with h | ⟨a, v, hv, rfl⟩
  · rw [filePart_noSlash h]
    split
    · rename_i h'; rw [h']; exact filePart_noSlash hw
    · rw [List.append_assoc]; exact filePart_slash s hw
  · rw [filePart_slash a hv]
    split
    · rename_i h'; rw [h', List.append_nil, List.append_assoc]; exact filePart_slash a hw
    · rw [List.append_assoc]; exact filePart_slash _ hw

theorem target_path {to src : Path} (ht : Shape to) {w : Str} (hw : IsName w) :
    filename .posix (mkPath .posix (appendText src.pathname w)) = .ok (fileOf w) ∧
    append .posix to (fileOf w) = .ok (mkPath .posix (appendText to.pathname w)) := by
  constructor
  · rw [(mkPath_shape _).filename, mkPath_pathname, stored_eq_self, filePart_entry _ hw.2]
    intro h
    rw [filenames_appendText, filenames_noSlash hw.2, if_neg hw.1] at h
    simp at h
  · have : fileOf w = mkPath .posix w := by rw [mkPath_name hw]; simp [fileOf, hw.1]
    rw [this, append_name ht, entryPath, startsSlash_name hw.2]
    rfl

theorem entryPath_name {src : Path} {w : Str} (hw : IsName w) : entryPath src w = mkPath .posix (appendText src.pathname w) := by
  rw [entryPath, startsSlash_name hw.2]
  rfl

/-- What the `error_code` form can end with. -/
def Calmly (p : Prog (Unit × EcArg)) : Prop := ∀ t o, Exec p t o → o = succeeds ∨ (∃ e, o = fails e) ∨ ∃ x, o = .error x ∧ ∀ y, x ≠ .thrown y

theorem Rel.calmly {p q : Prog (Unit × EcArg)} (h : Rel (fun _ => True) p q) : Calmly p := by
  induction h with
  | ok v => intro t o h; obtain ⟨-, rfl⟩ := exec_ret.mp h; exact .inl rfl
  | err v e x hx => intro t o h; obtain ⟨-, rfl⟩ := exec_ret.mp h; exact .inr (.inl ⟨e, rfl⟩)
  | fault f => intro t o h; obtain ⟨-, rfl⟩ := exec_stop.mp h; exact .inr (.inr ⟨_, rfl, by simp⟩)
  | fuel => intro t o h; obtain ⟨-, rfl⟩ := exec_stop.mp h; exact .inr (.inr ⟨_, rfl, by simp⟩)
  | call c k k' _ ih => intro t o h; obtain ⟨r, t', rfl, h'⟩ := exec_call.mp h; exact ih r trivial t' o h'

/-- What a program that does not throw does with a clean-up for exceptions. -/
theorem exec_onThrow_of {α : Type} {p : Prog α} {d : Prog Unit} {t : List Event} {o : Except Stop α}
    (hp : NoThrow (fun _ => True) p) (h : Exec (p.onThrow d) t o) : Exec p t o := by
  induction hp generalizing t with
  | ret a => exact h
  | fault f => exact h
  | fuel => exact h
  | call c k hk ih =>
    obtain ⟨r, t', rfl, h'⟩ := exec_call.mp h
    exact .call _ _ _ _ _ (ih r trivial h')

theorem Spec.RealNames.append {t1 t2 : List Event} (h : RealNames (t1 ++ t2)) : RealNames t1 ∧ RealNames t2 :=
  ⟨fun d e h' => h d e (List.mem_append_left _ h'), fun d e h' => h d e (List.mem_append_right _ h')⟩

theorem copies_dots {one : Path → Path → List Event → Except Stop (Unit × EcArg) → Prop} {src to : Path} {d : Nat} {first : Bool} {o : Except Stop (Unit × EcArg)}
    {dots : List Dirent} (hd : ∀ e ∈ dots, Dirent.dot e) {t : List Event} (h : Copies one src to d first t o) :
    Copies one src to d first (rdAll d dots ++ t) o := by
  induction dots with
  | nil => exact h
  | cons e l ih =>
    exact .dot e (hd e (by simp)) (ih fun x hx => hd x (by simp [hx]))

theorem exec_destroy {s : Stream} {d : Nat} (hs : s.Live d) {t : List Event} {o : Except Stop Unit} :
    Exec (DirIter.destroy (some s)) t o ↔ ∃ r, t = [clEv d r] ∧ o = .ok () := by
  simp only [DirIter.destroy, Prog.bind_eq, exec_bind, exec_streamClose hs.handle]
  constructor
  · rintro (⟨x, ⟨r, -, h⟩, rfl⟩ | ⟨a, t1, t2, rfl, ⟨r, rfl, h⟩, h2⟩)
    · cases h
    · obtain ⟨rfl, rfl⟩ := exec_ret.mp h2
      exact ⟨r, rfl, rfl⟩
  · rintro ⟨r, rfl, rfl⟩
    exact .inr ⟨_, _, [], rfl, ⟨r, rfl, rfl⟩, .ret _⟩

/-- The loop of `copy`. -/
theorem copyLoop_copies {h : Handler} {rec : Path → Path → EcArg → Prog (Unit × EcArg)} {src to : Path} (ht : Shape to)
    (hr : ∀ a b, NoThrow (fun _ => True) (rec a b (.ref none))) (hc : ∀ a b, Calmly (rec a b (.ref none))) {d : Nat} :
    ∀ (n : Nat) {s : Stream} {ent : Dirent} {t : List Event} {o : Except Stop (Unit × EcArg)}, s.Live d → s.root = src → IsName ent.name → ¬ ent.dot →
      s.entry.path = entryPath src ent.name → RealNames t →
      Exec (copyLoop h rec to n (some s) none (.ref none)) t o →
      ∀ first, Copies (fun a b t o => Exec (rec a b (.ref none)) t o) src to d first (rdEv d (.ok (some ent)) :: t) o := by
  intro n
  induction n with
  | zero =>
    intro s ent t o _ _ _ _ _ _ hx first
    obtain ⟨rfl, rfl⟩ := exec_stop.mp hx
    exact .outRead ent
  | succ n ih =>
    intro s ent t o hs hroot hn hdot hpath hreal hx first
    have hp := target_path (src := src) ht hn
    simp only [copyLoop, ne_eq, not_true_eq_false, if_false, Prog.bind_eq, hpath, entryPath_name hn, hp.1, hp.2, Prog.ofRes_ok, Prog.ret_bind] at hx
    rcases exec_bind.mp hx with ⟨x, h1, rfl⟩ | ⟨⟨⟨⟩, ec⟩, t1, t2, rfl, h1, h2⟩
    · have h1 := exec_onThrow_of (hr _ _) h1
      exact .stopped ent x hdot h1
    · have h1 := exec_onThrow_of (hr _ _) h1
      rcases hc _ _ _ _ h1 with h3 | ⟨e, h3⟩ | ⟨x, h3, -⟩
      · cases h3
        simp only [isSet_none, Bool.false_eq_true, if_false] at h2
        refine .entry ent hdot h1 ?_
        rcases exec_bind.mp h2 with ⟨x, h4, rfl⟩ | ⟨⟨it, m⟩, t3, t4, rfl, h4, h5⟩
        · obtain ⟨dots, hd, ⟨hl, rfl, h6⟩ | ⟨hl, ⟨a, c, r, h6, rfl, h7⟩ | ⟨ent', h6, h7, rfl, h8⟩⟩⟩ := (exec_dirIterIncr hs).mp h4
          · cases h6
            simpa using copies_dots hd (Copies.out (src := src) (to := to) (d := d))
          · cases h7
          · cases h8
        · obtain ⟨dots, hd, ⟨hl, rfl, h6⟩ | ⟨hl, ⟨a, c, r, h6, rfl, h7⟩ | ⟨ent', h6, h7, rfl, h8⟩⟩⟩ := (exec_dirIterIncr hs).mp h4
          · cases h6
          · cases h7
            cases n with
            | zero => omega
            | succ n =>
              simp only [copyLoop] at h5
              obtain ⟨rfl, rfl⟩ := exec_ret.mp h5
              rw [List.append_nil]
              refine copies_dots hd ?_
              rcases a with e | _ | ent'
              · exact .later e r
              · exact .done r
              · have := hreal.append.2.append.1 d ent' (by simp)
                simp [ends, this.1] at h6
          · cases h8
            rw [List.append_assoc]
            refine copies_dots hd ?_
            have hn' := hreal.append.2.append.1 d ent' (by simp)
            exact ih (hs.at _ _) (by exact hroot) hn' h6 (by rw [← hroot]; rfl) hreal.append.2.append.2 h5 false
      · cases h3
        simp only [isSet_some, if_true] at h2
        rcases exec_bind.mp h2 with ⟨x, h4, rfl⟩ | ⟨⟨⟩, t3, t4, rfl, h4, h5⟩
        · obtain ⟨r, -, h⟩ := (exec_destroy hs).mp h4
          cases h
        · obtain ⟨r, rfl, h⟩ := (exec_destroy hs).mp h4
          obtain ⟨rfl, rfl⟩ := exec_ret.mp h5
          exact .failed ent e r hdot h1
      · cases h3

theorem createDirectoryLike_ends {a b : Path} {t : List Event} {o : Except Stop (Bool × EcArg)}
    (h : Exec (createDirectoryLike a b (.ref none)) t o) : (∃ v, o = .ok (v, .ref none)) ∨ ∃ e, o = .ok (false, .ref (some e)) := by
  simp only [createDirectoryLike, clear_ref, Prog.bind_eq] at h
  rcases exec_getFileStatus_bind.mp h with ⟨e, t', rfl, h1⟩ | ⟨st, t', rfl, h1⟩
  · dsimp only at h1
    split at h1
    · obtain ⟨-, rfl⟩ := exec_ret.mp h1
      exact .inr ⟨e, rfl⟩
    · rw [if_pos (by rw [typeOfErr]; split <;> rfl)] at h1
      obtain ⟨-, rfl⟩ := exec_ret.mp h1
      exact .inr ⟨.ENOTDIR, rfl⟩
  · simp only [statusOf_known, Bool.not_true, Bool.false_eq_true, if_false, Prog.useStat, Prog.ret_bind] at h1
    split at h1
    · obtain ⟨-, rfl⟩ := exec_ret.mp h1
      exact .inr ⟨.ENOTDIR, rfl⟩
    · rcases exec_mkdir.mp h1 with ⟨e, t2, rfl, h2⟩ | ⟨⟨⟩, t2, rfl, h2⟩
      · dsimp only at h2
        split at h2
        · obtain ⟨-, rfl⟩ := exec_ret.mp h2
          exact .inl ⟨_, rfl⟩
        · obtain ⟨-, rfl⟩ := exec_ret.mp h2
          exact .inr ⟨e, rfl⟩
      · obtain ⟨-, rfl⟩ := exec_ret.mp h2
        exact .inl ⟨_, rfl⟩

theorem copyDir_does {sf : Bool} {n : Nat} {hd : Handler} {src to : Path} (hs : Shape src) (ht : Shape to) {opts : CopyOptions} {ts : FStatus}
    {t : List Event} {o : Except Stop (Unit × EcArg)} (hreal : RealNames t)
    (hx : Exec (copyDir (fun a b ec => copy sf n a b opts ec) n hd src to ts (.ref none)) t o) :
    Does sf n src to opts (.tree (!ts.exists')) t o := by
  have rest : ∀ {t}, RealNames t → Exec ((DirIter.new n src .none (.ref none)).bind fun v =>
        if v.2.isSet then .ret ((), v.2) else copyLoop hd (fun a b ec => copy sf n a b opts ec) to n v.1 none v.2) t o →
      ((∃ e, t = [opEv src.pathname (.error e)] ∧ o = fails e) ∨
         (∃ d t3, t = opEv src.pathname (.ok d) :: t3 ∧
           Copies (fun a b t o => Exec (copy sf n a b opts (.ref none)) t o) src to d true t3 o)) := by
    intro t hreal hx
    rcases exec_bind.mp hx with ⟨x, h1, rfl⟩ | ⟨⟨it, ec⟩, t1, t2, rfl, h1, h2⟩
    · rcases (exec_dirIterNew hs).mp h1 with ⟨e, -, h⟩ | ⟨d, dots, hd, ⟨hl, rfl, h⟩ | ⟨hl, ⟨a, c, r, h6, rfl, h7⟩ | ⟨ent', h6, h7, rfl, h8⟩⟩⟩
      · cases h
      · cases h
        refine .inr ⟨d, _, rfl, ?_⟩
        simpa using copies_dots hd (Copies.out (src := src) (to := to) (d := d))
      · cases h7
      · cases h8
    · rcases (exec_dirIterNew hs).mp h1 with ⟨e, rfl, h⟩ | ⟨d, dots, hd, ⟨hl, rfl, h⟩ | ⟨hl, ⟨a, c, r, h6, rfl, h7⟩ | ⟨ent', h6, h7, rfl, h8⟩⟩⟩
      · cases h
        have hno : (DirOptions.none.has .skipDenied) = false := by decide
        simp only [hno, Bool.false_eq_true, false_and, if_false, isSet_some, if_true] at h2
        obtain ⟨rfl, rfl⟩ := exec_ret.mp h2
        exact .inl ⟨e, rfl, rfl⟩
      · cases h
      · cases h7
        refine .inr ⟨d, rdAll d dots ++ [rdEv d a, clEv d r] ++ t2, rfl, ?_⟩
        rw [List.append_assoc]
        refine copies_dots hd ?_
        rcases a with e | _ | ent'
        · simp only [ends, Option.some.injEq] at h6
          subst h6
          simp only [isSet_some, if_true] at h2
          obtain ⟨rfl, rfl⟩ := exec_ret.mp h2
          exact .unread e r
        · simp only [ends, Option.some.injEq] at h6
          subst h6
          simp only [isSet_none, Bool.false_eq_true, if_false] at h2
          cases n with
          | zero => omega
          | succ n =>
            simp only [copyLoop] at h2
            obtain ⟨rfl, rfl⟩ := exec_ret.mp h2
            exact .done r
        · have := hreal d ent' (by simp)
          simp [ends, this.1] at h6
      · cases h8
        simp only [isSet_none, Bool.false_eq_true, if_false] at h2
        refine .inr ⟨d, rdAll d dots ++ [rdEv d (.ok (some ent'))] ++ t2, rfl, ?_⟩
        rw [List.append_assoc]
        refine copies_dots hd ?_
        exact copyLoop_copies ht (fun a b => (rel_copy sf n a b opts none).noThrow) (fun a b => (rel_copy sf n a b opts none).calmly) n
          (Stream.Live.at (s := ⟨some d, src, .default⟩) ⟨rfl, hs⟩ ent' (entryPath src ent'.name)) rfl (hreal d ent' (by simp)) h6 rfl
          (hreal.append.2) h2 true
  simp only [copyDir, Prog.bind_eq] at hx
  unfold Does
  cases hex : ts.exists'
  · simp only [hex, Bool.not_false, if_true, Prog.bind_assoc] at hx
    rcases exec_bind.mp hx with ⟨x, h1, rfl⟩ | ⟨⟨b, ec⟩, t1, t2, rfl, h1, h2⟩
    · rcases createDirectoryLike_ends h1 with ⟨v, h⟩ | ⟨e, h⟩ <;> cases h
    · refine ⟨t1, t2, rfl, fun h => Bool.noConfusion h, ?_⟩
      rcases createDirectoryLike_ends h1 with ⟨v, h⟩ | ⟨e, h⟩
      · cases h
        simp only [Prog.ret_bind, isSet_none, Bool.false_eq_true, if_false] at h2
        exact .inr ⟨fun _ => ⟨b, h1⟩, rest hreal.append.2 h2⟩
      · cases h
        simp only [Prog.ret_bind, isSet_some, if_true] at h2
        obtain ⟨rfl, rfl⟩ := exec_ret.mp h2
        exact .inl ⟨rfl, rfl, e, h1, rfl⟩
  · simp only [hex, Bool.not_true, Bool.false_eq_true, if_false, Prog.ret_bind, isSet_none] at hx
    exact ⟨[], t, rfl, fun _ => rfl, .inr ⟨fun h => by simp at h, rest hreal hx⟩⟩

theorem copyDispatch_does {sf : Bool} {n : Nat} {hd : Handler} {src to : Path} (hs : Shape src) (ht : Shape to) {opts : CopyOptions} {f d : FStatus}
    {t : List Event} {o : Except Stop (Unit × EcArg)} (hreal : RealNames t)
    (hf : f.type = .symlink ∨ f.type = .regular ∨ f.type = .directory)
    (hx : Exec (copyDispatch (fun a b ec => copy sf n a b opts ec) sf n hd src to opts f d (.ref none)) t o) :
    Does sf n src to opts (act opts f.type (if d.exists' then some d.type else none)) t o := by
  unfold copyDispatch at hx
  simp only [has_makeLinks, has_skipLinks, has_directoriesOnly, has_makeHardLinks] at hx
  unfold act
  rcases hf with hf | hf | hf
  · simp only [FStatus.isSymlink, hf, beq_self_eq_true, if_true] at hx ⊢
    split at hx <;> rename_i h1
    · rw [if_pos h1]
      exact exec_ret.mp hx
    · rw [if_neg h1]
      cases hex : d.exists'
      · simp only [hex, Bool.not_false, if_true] at hx
        simp only [Bool.false_eq_true, if_false, if_true]
        exact hx
      · simp only [hex, Bool.not_true, Bool.false_eq_true, if_false] at hx
        simp only [if_true, reduceCtorEq, if_false]
        exact exec_ret.mp hx
  · simp only [FStatus.isSymlink, FStatus.isRegular, hf, beq_self_eq_true, if_true] at hx ⊢
    rw [if_neg (by decide)] at hx
    split at hx <;> rename_i h1
    · rw [if_pos h1]
      exact exec_ret.mp hx
    · rw [if_neg h1]
      split at hx <;> rename_i h2
      · rw [if_pos h2]
        rcases exec_symlink.mp hx with ⟨e, t', rfl, h3⟩ | ⟨⟨⟩, t', rfl, h3⟩
        · obtain ⟨rfl, rfl⟩ := exec_ret.mp h3; exact .inl ⟨e, rfl, rfl⟩
        · obtain ⟨rfl, rfl⟩ := exec_ret.mp h3; exact .inr ⟨rfl, rfl⟩
      · rw [if_neg h2]
        split at hx <;> rename_i h3
        · rw [if_pos h3]
          rcases exec_link.mp hx with ⟨e, t', rfl, h3⟩ | ⟨⟨⟩, t', rfl, h3⟩
          · obtain ⟨rfl, rfl⟩ := exec_ret.mp h3; exact .inl ⟨e, rfl, rfl⟩
          · obtain ⟨rfl, rfl⟩ := exec_ret.mp h3; exact .inr ⟨rfl, rfl⟩
        · rw [if_neg h3]
          have hfin : ∀ dst, Exec ((copyFile sf n src dst opts (.ref none)).bind fun v => .ret ((), v.2)) t o →
              ∃ r, Exec (copyFile sf n src dst opts (.ref none)) t r ∧ o = r.map fun v => ((), v.2) := by
            intro dst h
            rcases exec_bind.mp h with ⟨x, h1, rfl⟩ | ⟨v, t1, t2, rfl, h1, h2⟩
            · exact ⟨_, h1, rfl⟩
            · obtain ⟨rfl, rfl⟩ := exec_ret.mp h2
              rw [List.append_nil]
              exact ⟨_, h1, rfl⟩
          split at hx <;> rename_i h4
          · have h5 : d.type = .directory := by simpa [FStatus.isDirectory] using h4
            have hex : d.exists' = true := by simp [FStatus.exists', FStatus.known, h5]
            have happ : append .posix to (fileOf (filePart src.pathname)) = .ok (mkPath .posix (appendText to.pathname (filePart src.pathname))) := by
              have hfs : Shape (fileOf (filePart src.pathname)) := by
                unfold fileOf
                split
                · exact .dflt
                · rename_i hne; exact .file _ ⟨hne, filePart_noSlash' _⟩
              rw [ht.append hfs, fileOf_pathname, startsSlash_name (filePart_noSlash' _)]
              rfl
            simp only [hs.filename, happ, Prog.ofRes_ok, Prog.ret_bind, Prog.bind_eq] at hx
            simp only [hex, if_true, h5, decide_true]
            exact hfin _ hx
          · have h5 : (decide ((if d.exists' = true then some d.type else none) = some .directory)) = false := by
              rw [decide_eq_false_iff_not]
              intro h
              split at h
              · simp only [Option.some.injEq] at h; exact h4 (by simp [FStatus.isDirectory, h])
              · cases h
            rw [h5]
            exact hfin _ hx
  · simp only [FStatus.isSymlink, FStatus.isRegular, FStatus.isDirectory, hf, beq_self_eq_true, Bool.true_and, Bool.or_eq_true, has_recursive, has_makeLinks] at hx ⊢
    rw [if_neg (by decide), if_neg (by decide)] at hx
    split at hx <;> rename_i h1
    · rw [if_pos h1]
      exact exec_ret.mp hx
    · rw [if_neg h1]
      have h0 : (opts == CopyOptions.none) = true ↔ opts = 0 := by simp [CopyOptions.none]
      split at hx <;> rename_i h2
      · rw [if_pos (by rwa [h0] at h2)]
        have := copyDir_does hs ht hreal hx
        have h3 : (decide ((if d.exists' = true then some d.type else none) = none)) = !d.exists' := by
          cases d.exists' <;> simp
        rw [h3]
        exact this
      · rw [if_neg (by rwa [h0] at h2)]
        exact exec_ret.mp hx

/-- C49. The source is looked at, then the destination, then the action of the plan is carried out. -/
theorem c49_copy {sf : Bool} {n : Nat} {src to : Path} (hs : Shape src) (ht : Shape to) {opts : CopyOptions} {c : Code}
    {t : List Event} {o : Except Stop (Unit × EcArg)} (hreal : RealNames t)
    (hino : ∀ p st, (⟨.stat p, (.ok st : Except Errno Stat)⟩ : Event) ∈ t ∨ (⟨.lstat p, (.ok st : Except Errno Stat)⟩ : Event) ∈ t → st.ino ≠ 0)
    (hx : Exec (copy sf (n + 1) src to opts (.ref c)) t o) :
    (∃ e, t = [lookEv (linkwise opts) src (.error e)] ∧ o = fails e) ∨
    (∃ f r t', t = lookEv (linkwise opts) src (.ok f) :: lookEv (linkwiseTo opts) to r :: t' ∧ Does sf n src to opts (plan opts f r) t' o) := by
  have hlook : ∀ {α : Type} {b : Bool} {p : Path} {st0 : Option Stat} {c : Code} {f : (FStatus × Option Stat) × EcArg → Prog α} {t o},
      Exec (((if b then getLinkStatus else getFileStatus) p st0 (.ref c)).bind f) t o →
      (∃ e t', t = lookEv b p (.error e) :: t' ∧ Exec (f (({ type := typeOfErr e }, st0), .ref (some e))) t' o) ∨
      (∃ st t', t = lookEv b p (.ok st) :: t' ∧ Exec (f ((statusOf st, some st), .ref none)) t' o) := by
    intro α b p st0 c f t o h
    cases b
    · exact exec_getFileStatus_bind.mp h
    · exact exec_getLinkStatus_bind.mp h
  have hl1 : (linkwiseTo opts || opts.has .copySymlinks) = linkwise opts := by
    rw [Bool.eq_iff_iff]; simp [linkwise, linkwiseTo, has_copyLinks, or_assoc]
  have hl2 : (opts.has .createSymlinks || opts.has .skipSymlinks) = linkwiseTo opts := by
    rw [Bool.eq_iff_iff]; simp [linkwiseTo, has_makeLinks, has_skipLinks]
  have hino' : ∀ b p st, lookEv b p (.ok st) ∈ t → st.ino ≠ 0 := by
    intro b p st h
    cases b
    · exact hino p.pathname st (.inl h)
    · exact hino p.pathname st (.inr h)
  simp only [copy, clear_ref, Prog.bind_eq, hl1, hl2] at hx
  rcases hlook hx with ⟨e, t', rfl, h1⟩ | ⟨f, t', rfl, h1⟩
  · simp only [isSet_some, if_true] at h1
    obtain ⟨rfl, rfl⟩ := exec_ret.mp h1
    exact .inl ⟨e, rfl, rfl⟩
  · simp only [isSet_none, Bool.false_eq_true, if_false] at h1
    right
    rcases hlook h1 with ⟨e, t', rfl, h2⟩ | ⟨d, t', rfl, h2⟩
    · refine ⟨f, .error e, t', rfl, ?_⟩
      have hf0 : statEquivalent f .zero = false := by
        have := hino' (linkwise opts) src f (by simp)
        simp [statEquivalent, Stat.zero, this]
      unfold plan
      dsimp only
      by_cases he : e ≠ .ENOENT ∧ e ≠ .ENOTDIR
      · rw [if_pos he]
        simp only [typeOfErr, he, false_or, if_false, FStatus.known, bne_self_eq_false, Bool.not_false, if_true] at h2
        exact exec_ret.mp h2
      · rw [if_neg he]
        have he' : e = .ENOENT ∨ e = .ENOTDIR := by
          by_cases h : e = .ENOENT
          · exact .inl h
          · exact .inr (Decidable.byContradiction fun h' => he ⟨h, h'⟩)
        have hty : typeOf f.mode ≠ .notFound := by rw [← typeOfMode_eq]; exact (typeOfMode_ne f.mode).2
        have hrej : copyRejects (statusOf f) { type := .notFound } f .zero = true ↔ special (typeOf f.mode) := by
          simp [copyRejects, statusOf_known, hty, FStatus.isOther, FStatus.isRegular, FStatus.isDirectory, FStatus.isSymlink, statusOf_type, special, hf0,
            and_assoc, FStatus.exists']
        have hk : FStatus.known { type := .notFound } = true := rfl
        have hex : FStatus.exists' { type := .notFound } = false := rfl
        simp only [typeOfErr, he', if_true, hk, Bool.not_true, Bool.false_eq_true, if_false, Prog.useStat, Prog.ret_bind] at h2
        split at h2 <;> rename_i h3
        · have h4 : act opts (typeOf f.mode) none = .fail .ENOSYS := by
            have := hrej.mp h3
            unfold special at this
            unfold act
            revert this
            cases typeOf f.mode <;> simp
          rw [h4]
          exact exec_ret.mp h2
        · have := copyDispatch_does hs ht (fun d e h => hreal d e (by simp [h])) ?_ h2
          · simpa only [hex, statusOf_type, Bool.false_eq_true, if_false] using this
          · rw [statusOf_type]
            have : ¬ special (typeOf f.mode) := fun h => h3 (hrej.mpr h)
            unfold special at this
            revert this
            cases typeOf f.mode <;> simp
    · refine ⟨f, .ok d, t', rfl, ?_⟩
      simp only [statusOf_known, Bool.not_true, Bool.false_eq_true, if_false, Prog.useStat, Prog.ret_bind] at h2
      have hrej : copyRejects (statusOf f) (statusOf d) f d = true ↔ (special (typeOf f.mode) ∨ special (typeOf d.mode) ∨ (typeOf f.mode = .directory ∧ typeOf d.mode = .regular) ∨ OneFile f d) := by
        simp [copyRejects, statusOf_exists, FStatus.isOther, FStatus.isRegular, FStatus.isDirectory, FStatus.isSymlink, statusOf_type, special, statEquivalent_iff,
          and_assoc, or_assoc]
      unfold plan
      dsimp only
      split at h2 <;> rename_i h3
      · rw [if_pos (hrej.mp h3)]
        exact exec_ret.mp h2
      · rw [if_neg (fun h => h3 (hrej.mpr h))]
        have := copyDispatch_does hs ht (fun d e h => hreal d e (by simp [h])) ?_ h2
        · simpa only [statusOf_exists, statusOf_type, if_true] using this
        · rw [statusOf_type]
          have : ¬ special (typeOf f.mode) := fun h => h3 (hrej.mpr (.inl h))
          unfold special at this
          revert this
          cases typeOf f.mode <;> simp

/-- Nothing is modified if the plan is an error or nothing to do, or if the source cannot be examined. -/
theorem c49_quiet {sf : Bool} {n : Nat} {src to : Path} (hs : Shape src) (ht : Shape to) {opts : CopyOptions} {c : Code}
    {t : List Event} {o : Except Stop (Unit × EcArg)} (hreal : RealNames t)
    (hino : ∀ p st, (⟨.stat p, (.ok st : Except Errno Stat)⟩ : Event) ∈ t ∨ (⟨.lstat p, (.ok st : Except Errno Stat)⟩ : Event) ∈ t → st.ino ≠ 0)
    (hx : Exec (copy sf (n + 1) src to opts (.ref c)) t o)
    (hplan : ∀ f r t', t = lookEv (linkwise opts) src (.ok f) :: lookEv (linkwiseTo opts) to r :: t' →
      plan opts f r = .nothing ∨ ∃ e, plan opts f r = .fail e) : Quiet t ∧ t.length ≤ 2 := by
  have hl : ∀ b p r, (lookEv b p r).call.mutates = false := by intro b p r; cases b <;> rfl
  rcases c49_copy hs ht hreal hino hx with ⟨e, rfl, -⟩ | ⟨f, r, t', rfl, hd⟩
  · exact ⟨fun ev h => by simp at h; rw [h]; exact hl _ _ _, by simp⟩
  · have : t' = [] := by
      rcases hplan f r t' rfl with h | ⟨e, h⟩
      · rw [h] at hd; exact hd.1
      · rw [h] at hd; exact hd.1
    subst this
    refine ⟨fun ev h => ?_, by simp⟩
    simp at h
    rcases h with rfl | rfl <;> exact hl _ _ _

/-- The two sides of the same file; a directory onto a file; a device. -/
example : plan 0 ⟨1, 2, 0o100644, 1, 7, 0, 0, 0⟩ (.ok ⟨1, 2, 0o100644, 1, 7, 0, 0, 0⟩) = .fail .ENOSYS ∧
    plan 8 ⟨1, 2, 0o040755, 1, 7, 0, 0, 0⟩ (.ok ⟨1, 3, 0o100644, 1, 7, 0, 0, 0⟩) = .fail .ENOSYS ∧
    plan 8 ⟨1, 2, 0o100644, 1, 7, 0, 0, 0⟩ (.ok ⟨1, 3, 0o060644, 1, 7, 0, 0, 0⟩) = .fail .ENOSYS ∧
    plan 128 ⟨1, 2, 0o040755, 1, 7, 0, 0, 0⟩ (.error .ENOENT) = .fail .EISDIR ∧
    plan 8 ⟨1, 2, 0o040755, 1, 7, 0, 0, 0⟩ (.error .ENOENT) = .tree true ∧
    plan 0 ⟨1, 2, 0o100755, 1, 7, 0, 0, 0⟩ (.ok ⟨1, 3, 0o040755, 1, 7, 0, 0, 0⟩) = .file true := by decide

/-! ## C51 -/

theorem Spec.Copies.unread_only {one : Path → Path → List Event → Except Stop (Unit × EcArg) → Prop} {src to : Path} {d : Nat} {o : Except Stop (Unit × EcArg)}
    {dots : List Dirent} (hd : ∀ e ∈ dots, Dirent.dot e) {e : Errno} {t : List Event}
    (h : Copies one src to d true (rdAll d dots ++ rdEv d (.error e) :: t) o) : o = fails e := by
  induction dots with
  | nil =>
    generalize hl : (rdAll d [] ++ rdEv d (.error e) :: t) = l at h
    cases h with
    | dot ent _ _ => simp [rdEv] at hl
    | done r => simp [rdEv] at hl
    | unread e' r => simp [rdEv] at hl; rw [hl.1]
    | entry ent _ _ _ => simp [rdEv] at hl
    | failed ent _ _ _ _ => simp [rdEv] at hl
    | stopped ent _ _ _ => simp [rdEv] at hl
    | out => simp at hl
    | outRead ent => simp [rdEv] at hl
  | cons a dots ih =>
    have ha : a.dot := hd a (by simp)
    generalize hl : (rdAll d (a :: dots) ++ rdEv d (.error e) :: t) = l at h
    have hc : rdAll d (a :: dots) ++ rdEv d (.error e) :: t = rdEv d (.ok (some a)) :: (rdAll d dots ++ rdEv d (.error e) :: t) := rfl
    rw [hc] at hl
    cases h with
    | dot ent _ h =>
      simp only [List.cons.injEq] at hl
      rw [← hl.2] at h
      exact ih (fun x hx => hd x (by simp [hx])) h
    | done r => simp [rdEv] at hl
    | unread e' r => simp [rdEv] at hl
    | entry ent h _ _ => simp [rdEv] at hl; exact absurd (hl.1 ▸ ha) h
    | failed ent _ _ h _ => simp [rdEv] at hl; exact absurd (hl.1 ▸ ha) h
    | stopped ent _ h _ => simp [rdEv] at hl; exact absurd (hl.1 ▸ ha) h
    | out => simp at hl
    | outRead ent => simp [rdEv] at hl

theorem createDirectoryLike_opens {a b : Path} {t : List Event} {o : Except Stop (Bool × EcArg)}
    (h : Exec (createDirectoryLike a b (.ref none)) t o) : ∀ ev ∈ t, ∀ p, ev.call ≠ .opendir p := by
  simp only [createDirectoryLike, clear_ref, Prog.bind_eq] at h
  rcases exec_getFileStatus_bind.mp h with ⟨e, t', rfl, h1⟩ | ⟨st, t', rfl, h1⟩
  · dsimp only at h1
    split at h1
    · obtain ⟨rfl, -⟩ := exec_ret.mp h1
      simp
    · rw [if_pos (by rw [typeOfErr]; split <;> rfl)] at h1
      obtain ⟨rfl, -⟩ := exec_ret.mp h1
      simp
  · simp only [statusOf_known, Bool.not_true, Bool.false_eq_true, if_false, Prog.useStat, Prog.ret_bind] at h1
    split at h1
    · obtain ⟨rfl, -⟩ := exec_ret.mp h1
      simp
    · rcases exec_mkdir.mp h1 with ⟨e, t2, rfl, h2⟩ | ⟨⟨⟩, t2, rfl, h2⟩
      · dsimp only at h2
        split at h2
        · obtain ⟨rfl, -⟩ := exec_ret.mp h2
          simp
        · obtain ⟨rfl, -⟩ := exec_ret.mp h2
          simp
      · obtain ⟨rfl, -⟩ := exec_ret.mp h2
        simp

/-- The first opening in a trace. -/
theorem first_opening {p : Str} {r r' : Except Errno Nat} : ∀ {a b x y : List Event}, (∀ ev ∈ a, ∀ p, ev.call ≠ .opendir p) →
    (∀ ev ∈ b, ∀ p, ev.call ≠ .opendir p) → a ++ opEv p r :: x = b ++ opEv p r' :: y → r = r' ∧ x = y
  | [], [], _, _, _, _, h => by simpa [opEv] using h
  | [], ev :: b, _, _, _, hb, h => by
    simp only [List.nil_append, List.cons_append, List.cons.injEq] at h
    exact absurd (by rw [← h.1]; rfl) (hb ev (by simp) p)
  | ev :: a, [], _, _, ha, _, h => by
    simp only [List.nil_append, List.cons_append, List.cons.injEq] at h
    exact absurd (by rw [h.1]; rfl) (ha ev (by simp) p)
  | _ :: a, _ :: b, _, _, ha, hb, h => by
    simp only [List.cons_append, List.cons.injEq] at h
    exact first_opening (fun ev he => ha ev (by simp [he])) (fun ev he => hb ev (by simp [he])) h.2

theorem no_opening {p : Str} {r : Except Errno Nat} {a b x : List Event} (ha : ∀ ev ∈ a, ∀ p, ev.call ≠ .opendir p)
    (h : a = b ++ opEv p r :: x) : False :=
  ha (opEv p r) (by rw [h]; simp) p rfl

/-- C51, proved for the opening of the source directory and the reading of its first entry: their errors are reported.
Missing: later readings (`c51_violated`). `f`, `r` are the answers about source and destination, `pre` the calls that
make the destination directory. -/
theorem c51_first_partial {sf : Bool} {n : Nat} {src to : Path} (hs : Shape src) (ht : Shape to) {opts : CopyOptions} {c : Code}
    {t : List Event} {o : Except Stop (Unit × EcArg)} (hreal : RealNames t)
    (hino : ∀ p st, (⟨.stat p, (.ok st : Except Errno Stat)⟩ : Event) ∈ t ∨ (⟨.lstat p, (.ok st : Except Errno Stat)⟩ : Event) ∈ t → st.ino ≠ 0)
    (hx : Exec (copy sf (n + 1) src to opts (.ref c)) t o) {f : Stat} {r : Except Errno Stat} {make : Bool} (hplan : plan opts f r = .tree make)
    {pre post : List Event} (hpre : ∀ ev ∈ pre, ∀ p, ev.call ≠ .opendir p) {e : Errno}
    (hrest : t = lookEv (linkwise opts) src (.ok f) :: lookEv (linkwiseTo opts) to r :: (pre ++ opEv src.pathname (.error e) :: post) ∨
      ∃ d dots, (∀ x ∈ dots, Dirent.dot x) ∧
        t = lookEv (linkwise opts) src (.ok f) :: lookEv (linkwiseTo opts) to r ::
          (pre ++ opEv src.pathname (.ok d) :: (rdAll d dots ++ rdEv d (.error e) :: post))) :
    o = fails e := by
  have hlook : ∀ {b p q q'}, lookEv b p q = lookEv b p q' → q = q' := by
    intro b p q q' h; cases b <;> simpa [lookEv] using h
  have key : ∃ r' rest, t = lookEv (linkwise opts) src (.ok f) :: lookEv (linkwiseTo opts) to r :: (pre ++ opEv src.pathname r' :: rest) ∧
      (r' = .error e ∨ ∃ d dots, r' = .ok d ∧ (∀ x ∈ dots, Dirent.dot x) ∧ rest = rdAll d dots ++ rdEv d (.error e) :: post) := by
    rcases hrest with h | ⟨d, dots, hd, h⟩
    · exact ⟨_, _, h, .inl rfl⟩
    · exact ⟨_, _, h, .inr ⟨d, dots, rfl, hd, rfl⟩⟩
  obtain ⟨r', rest, ht', hkey⟩ := key
  rcases c49_copy hs ht hreal hino hx with ⟨e', rfl, -⟩ | ⟨f', q, t', rfl, hd⟩
  · simp at ht'
  · simp only [List.cons.injEq] at ht'
    obtain ⟨h1, h2, rfl⟩ := ht'
    obtain rfl : f' = f := by simpa using hlook h1
    obtain rfl := hlook h2
    rw [hplan] at hd
    obtain ⟨t1, t2, h3, hmk, ⟨-, rfl, e1, h4, -⟩ | ⟨h4, h5⟩⟩ := hd
    · exact (no_opening (createDirectoryLike_opens h4) (by simpa using h3.symm)).elim
    · have ho : ∀ ev ∈ t1, ∀ p, ev.call ≠ .opendir p := by
        cases make
        · rw [hmk rfl]; simp
        · obtain ⟨b, h6⟩ := h4 rfl
          exact createDirectoryLike_opens h6
      rcases h5 with ⟨e1, rfl, rfl⟩ | ⟨d, t3, rfl, h6⟩
      · obtain ⟨rfl, -⟩ := first_opening hpre ho h3
        rcases hkey with h | ⟨d, dots, h, -⟩
        · cases h; rfl
        · cases h
      · obtain ⟨rfl, rfl⟩ := first_opening hpre ho h3
        rcases hkey with h | ⟨d', dots, h, hdots, rfl⟩
        · cases h
        · cases h
          exact h6.unread_only hdots

/-- C51 is false: the directory `a` has the entry `x`, copied (here: as a directory would be, nothing is done), then reading on
fails with `EIO`; success is reported. -/
theorem c51_violated : ∃ t, Exec (copy true 6 (mkPath .posix "a".toList) (mkPath .posix "b".toList) 72 (.ref none)) t succeeds ∧
    rdEv 3 (.error (.other 5)) ∈ t := by
  refine ⟨[⟨.stat "a".toList, .ok ⟨1, 2, 0o040755, 1, 7, 0, 0, 0⟩⟩, ⟨.stat "b".toList, .error .ENOENT⟩, ⟨.stat "a".toList, .ok ⟨1, 2, 0o040755, 1, 7, 0, 0, 0⟩⟩,
    ⟨.mkdir "b".toList 0o040755, .ok ()⟩, ⟨.opendir "a".toList, .ok 3⟩, rdEv 3 (.ok (some ⟨"x".toList, .reg⟩)),
    ⟨.stat "a/x".toList, .ok ⟨1, 3, 0o100644, 1, 7, 0, 0, 0⟩⟩, ⟨.stat "b/x".toList, .error .ENOENT⟩, rdEv 3 (.error (.other 5)), clEv 3 (.ok ())],
    feed_exec (by rfl), by simp⟩

end Asap
