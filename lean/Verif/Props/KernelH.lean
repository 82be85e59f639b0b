import Verif.Props.KernelG

/-!
# C134: `copy` of what is not a directory, on a file system with links and open files
-/

namespace Asap
open Spec Spec.FileSys

variable {cap : Nat → Nat}

/-! ## Specification -/

namespace Spec

/-- The options by which `copy` looks at the source itself instead of through a symbolic link. -/
def LooksAtLink (opts : CopyOptions) : Bool := opts.has .createSymlinks || opts.has .skipSymlinks || opts.has .copySymlinks

/-- The same of the destination. -/
def LooksAtLinkTo (opts : CopyOptions) : Bool := opts.has .createSymlinks || opts.has .skipSymlinks

/-- What a path is seen as, itself or through links. -/
def LookedAt (link : Bool) (d : Vol) (p : Path) (st : FStatus) : Prop :=
  if link then onVol (symlinkStatus p (.ref none)) d = (.ok (st, .ref none), d)
  else onVol (status p (.ref none)) d = (.ok (st, .ref none), d)

/-- Where `copy` puts a copy of the file `a`: in the directory `b`, or at `b`. -/
def PutAt (opts : CopyOptions) (d : Vol) (a b t : Path) : Prop :=
  ((∃ perms, LookedAt (LooksAtLinkTo opts) d b ⟨.directory, perms⟩) ∧ ∃ w, filename .posix a = .ok w ∧ append .posix b w = .ok t) ∨
  ((¬ ∃ perms, LookedAt (LooksAtLinkTo opts) d b ⟨.directory, perms⟩) ∧ t = b)

/-- `t` has become a copy of `a`, and whatever is not the file that was at `t` is as it was. -/
def BecameCopy (s s' : FileSys) (a t : Path) : Prop :=
  ∃ l perms, s.contents a = some l ∧ s'.contents a = some l ∧ s'.contents t = some l ∧
    onVol (symlinkStatus a (.ref none)) s.vol = (.ok (⟨.regular, perms⟩, .ref none), s.vol) ∧
    onVol (symlinkStatus t (.ref none)) s'.vol = (.ok (⟨.regular, perms⟩, .ref none), s'.vol) ∧
    onVol (fileSize t (.ref none)) s'.vol = (.ok (BitVec.ofNat 64 l.length, .ref none), s'.vol) ∧
    ∀ q, Value q → onVol (equivalent q t (.ref none)) s.vol ≠ (.ok (true, .ref none), s.vol) →
      (∀ x, s.contents q = some x → s'.contents q = some x) ∧
      (∀ st, onVol (status q (.ref none)) s.vol = (.ok (st, .ref none), s.vol) → onVol (status q (.ref none)) s'.vol = (.ok (st, .ref none), s'.vol)) ∧
      (∀ st, onVol (symlinkStatus q (.ref none)) s.vol = (.ok (st, .ref none), s.vol) →
        onVol (symlinkStatus q (.ref none)) s'.vol = (.ok (st, .ref none), s'.vol))

end Spec

/-! ## Running -/

/-- What `stat` or `lstat` answers. -/
def view (link : Bool) (d : Vol) (p : Path) : Except Errno Stat := d.attrs (if link then d.findLink p.pathname else d.find p.pathname)

theorem lookedAt_iff {link : Bool} {d : Vol} {p : Path} {st : FStatus} : LookedAt link d p st ↔ ∃ x, view link d p = .ok x ∧ st = statusOf x := by
  cases link
  · exact status_seen
  · exact symlinkStatus_seen

theorem onFiles_look_ok {link : Bool} {p : Path} {s : FileSys} {st0 : Option Stat} {c : Code} {st : Stat} (h : view link s.vol p = .ok st) :
    onFiles cap ((if link then getLinkStatus else getFileStatus) p st0 (.ref c)) s = (.ok ((statusOf st, some st), .ref none), s) := by
  cases link
  · exact onFiles_stat_ok h
  · exact eval_getLinkStatus_ok (m := kernelFile cap) (s := s) (s' := s)
      (by show (s.vol.attrs (s.vol.findLink p.pathname), s) = _; rw [show s.vol.attrs (s.vol.findLink p.pathname) = _ from h]; rfl)

theorem onFiles_look_error {link : Bool} {p : Path} {s : FileSys} {st0 : Option Stat} {c : Code} {e : Errno} (h : view link s.vol p = .error e) :
    onFiles cap ((if link then getLinkStatus else getFileStatus) p st0 (.ref c)) s = (.ok (({ type := typeOfErr e }, st0), .ref (some e)), s) := by
  cases link
  · exact onFiles_stat_error h
  · exact eval_getLinkStatus_error (m := kernelFile cap) (s := s) (s' := s)
      (by show (s.vol.attrs (s.vol.findLink p.pathname), s) = _; rw [show s.vol.attrs (s.vol.findLink p.pathname) = _ from h]; rfl)

theorem onFiles_report {α : Type} (h : Handler) (c : Code) (e : Errno) (v : α) (s : FileSys) :
    onFiles cap (h.report (.ref c) (some e) v) s = (.ok (v, .ref (some e)), s) := rfl

theorem view_seen {link : Bool} {d : Vol} {p : Path} {st : Stat} (h : view link d p = .ok st) : ∃ m i, d.node m = some i ∧ st = Vol.attr m i := by
  obtain ⟨m, i, -, h1, h2⟩ := attrs_seen h
  exact ⟨m, i, h1, h2⟩

theorem attr_notOther (n : Nat) (i : INode) : (statusOf (Vol.attr n i)).isOther = false := by
  rw [statusOf_attr]
  obtain ⟨b, mo, l⟩ := i
  cases b <;> rfl

/-- `copy` of something there: an error, or the second half with what was seen of the destination. -/
theorem copy_runs (sf : Bool) (n : Nat) (a b : Path) (opts : CopyOptions) (c : Code) (s : FileSys) {st : Stat} (hf : view (LooksAtLink opts) s.vol a = .ok st) :
    ((∃ e, onFiles cap (copy sf (n + 1) a b opts (.ref c)) s = (.ok ((), .ref (some e)), s)) ∧
      ((∃ e, view (LooksAtLinkTo opts) s.vol b = .error e ∧ typeOfErr e = .none) ∨
       (∃ st', view (LooksAtLinkTo opts) s.vol b = .ok st' ∧
         (((statusOf st).isDirectory && (statusOf st').isRegular) = true ∨ statEquivalent st st' = true)))) ∨
    (∃ t : FStatus, ((∃ st', view (LooksAtLinkTo opts) s.vol b = .ok st' ∧ t = statusOf st') ∨
        ((∃ e, view (LooksAtLinkTo opts) s.vol b = .error e) ∧ t = { type := .notFound })) ∧
      onFiles cap (copy sf (n + 1) a b opts (.ref c)) s =
        onFiles cap (copyDispatch (fun a b ec => copy sf n a b opts ec) sf n ⟨"copy".toList, some a, some b⟩ a b opts (statusOf st) t (.ref none)) s) := by
  obtain ⟨m, i, hm, rfl⟩ := view_seen hf
  have hfrom := onFiles_look_ok (cap := cap) (st0 := some .zero) (c := none) hf
  have key : onFiles cap (copy sf (n + 1) a b opts (.ref c)) s =
      onFiles cap (((if LooksAtLinkTo opts then getLinkStatus else getFileStatus) b (some .zero) (.ref none)).bind fun r =>
        if !r.1.1.known then Handler.report ⟨"copy".toList, some a, some b⟩ (.ref none) r.2.code ()
        else (Prog.useStat (some (Vol.attr m i))).bind fun fst => (Prog.useStat r.1.2).bind fun tst =>
          if copyRejects (statusOf (Vol.attr m i)) r.1.1 fst tst then Handler.report ⟨"copy".toList, some a, some b⟩ (.ref none) (some .ENOSYS) ()
          else copyDispatch (fun a b ec => copy sf n a b opts ec) sf n ⟨"copy".toList, some a, some b⟩ a b opts (statusOf (Vol.attr m i)) r.1.1 (.ref none)) s := by
    show onFiles cap (((if LooksAtLink opts then getLinkStatus else getFileStatus) a (some .zero) (.ref none)).bind _) s = _
    rw [onFiles_bind hfrom]
    rfl
  rw [key]
  cases hb : view (LooksAtLinkTo opts) s.vol b with
  | error e =>
    rw [onFiles_bind (onFiles_look_error hb)]
    unfold typeOfErr
    by_cases he : e = .ENOENT ∨ e = .ENOTDIR
    · refine .inr ⟨{ type := .notFound }, .inr ⟨⟨e, rfl⟩, rfl⟩, ?_⟩
      simp only [if_pos he]
      have hr : copyRejects (statusOf (Vol.attr m i)) { type := .notFound } (Vol.attr m i) .zero = false := by
        unfold copyRejects
        rw [(attr_exists m i).1, attr_notOther]
        have : statEquivalent (Vol.attr m i) .zero = false := by
          unfold statEquivalent
          have : ((Vol.attr m i).dev == Stat.zero.dev) = false := by
            show ((Vol.attr m i).dev == (0 : BitVec 64)) = false
            unfold Vol.attr
            rfl
          rw [this]; rfl
        rw [this]
        show (!true || false || false || ((statusOf (Vol.attr m i)).isDirectory && false) || false) = false
        simp
      show onFiles cap (if copyRejects (statusOf (Vol.attr m i)) { type := .notFound } (Vol.attr m i) .zero then _ else _) s = _
      rw [hr]
      rfl
    · refine .inl ⟨⟨e, ?_⟩, .inl ⟨e, rfl, if_neg he⟩⟩
      simp only [if_neg he]
      rfl
  | ok st' =>
    rw [onFiles_bind (onFiles_look_ok hb)]
    obtain ⟨m', i', hm', rfl⟩ := view_seen hb
    simp only [(attr_exists m' i').2, Bool.not_true, Bool.false_eq_true, if_false]
    by_cases hr : copyRejects (statusOf (Vol.attr m i)) (statusOf (Vol.attr m' i')) (Vol.attr m i) (Vol.attr m' i') = true
    · refine .inl ⟨⟨.ENOSYS, ?_⟩, .inr ⟨_, rfl, ?_⟩⟩
      · show onFiles cap (if copyRejects (statusOf (Vol.attr m i)) (statusOf (Vol.attr m' i')) (Vol.attr m i) (Vol.attr m' i') then _ else _) s = _
        rw [hr]
        rfl
      · unfold copyRejects at hr
        rw [(attr_exists m i).1, attr_notOther, attr_notOther] at hr
        simpa using hr
    · refine .inr ⟨statusOf (Vol.attr m' i'), .inl ⟨_, rfl, rfl⟩, ?_⟩
      show onFiles cap (if copyRejects (statusOf (Vol.attr m i)) (statusOf (Vol.attr m' i')) (Vol.attr m i) (Vol.attr m' i') then _ else _) s = _
      rw [Bool.not_eq_true] at hr
      rw [hr]
      rfl

/-- A program that only makes calls on the volume does to it what it does without open files. -/
inductive OfVol {α : Type} : Prog α → Prop
  | ret (a) : OfVol (.ret a)
  | stop (x) : OfVol (.stop x)
  | call (c : Sys) (k) : (∀ cap s, answerFile cap c s = ((answer c s.vol).1, { s with vol := (answer c s.vol).2 })) → (∀ r, OfVol (k r)) → OfVol (.call c k)

theorem OfVol.run {α : Type} {p : Prog α} (h : OfVol p) (s : FileSys) :
    onFiles cap p s = ((onVol p s.vol).1, { s with vol := (onVol p s.vol).2 }) := by
  induction h generalizing s with
  | ret a => rfl
  | stop x => rfl
  | call c k hc _ ih => rw [onFiles_call, hc, ih]; rfl

theorem OfVol.bind {α β : Type} {p : Prog α} {f : α → Prog β} (h : OfVol p) (hf : ∀ a, OfVol (f a)) : OfVol (p.bind f) := by
  induction h with
  | ret a => exact hf a
  | stop x => exact .stop x
  | call c k hc _ ih => exact .call c _ hc ih

theorem ofVol_report {α : Type} (h : Handler) (ec : EcArg) (c : Code) (v : α) : OfVol (h.report ec c v) := by
  unfold Handler.report
  repeat' first | exact .ret _ | exact .stop _ | split

theorem ofVol_createSymlink (a b : Path) (ec : EcArg) : OfVol (createSymlink a b ec) := by
  refine .call _ _ (fun _ _ => rfl) fun r => ?_
  rcases r with e | u
  · exact ofVol_report ..
  · exact .ret _

theorem ofVol_createHardLink (a b : Path) (ec : EcArg) : OfVol (createHardLink a b ec) := by
  refine .call _ _ (fun _ _ => rfl) fun r => ?_
  rcases r with e | u
  · exact ofVol_report ..
  · exact .ret _

theorem ofVol_readSymlink (a : Path) (ec : EcArg) : OfVol (readSymlink a ec) := by
  refine .call _ _ (fun _ _ => rfl) fun (r : Int) => ?_
  show OfVol (if 0 < r then _ else _)
  split
  · refine .call _ _ (fun _ _ => rfl) fun r => ?_
    rcases r with e | u
    · exact ofVol_report ..
    · dsimp only
      split
      · exact .ret _
      · exact .stop _
  · exact .stop _

theorem ofVol_copySymlink (a b : Path) (ec : EcArg) : OfVol (copySymlink a b ec) := by
  unfold copySymlink
  simp only [Prog.bind_eq]
  refine (ofVol_readSymlink _ _).bind fun r => ?_
  split
  · exact ofVol_report ..
  · exact ofVol_createSymlink ..

theorem has_or {a b c : Bool} (h : (a || b || c) = false) : a = false ∧ b = false ∧ c = false := by simpa [and_assoc] using h

/-- What `copy` of a file is, once past the checks. -/
theorem dispatch_file {rec : Path → Path → EcArg → Prog (Unit × EcArg)} (sf : Bool) (n : Nat) (h : Handler) (a b : Path) (opts : CopyOptions) {f t : FStatus}
    (hf : f.type = .regular) (h1 : opts.has .directoriesOnly = false) (h2 : opts.has .createSymlinks = false) (h3 : opts.has .createHardLinks = false) {u : Path}
    (ht : (t.isDirectory = true ∧ ∃ w, filename .posix a = .ok w ∧ append .posix b w = .ok u) ∨ (t.isDirectory = false ∧ u = b)) :
    copyDispatch rec sf n h a b opts f t (.ref none) = (copyFile sf n a u opts (.ref none)).bind fun r => .ret ((), r.2) := by
  have e1 : f.isSymlink = false := by unfold FStatus.isSymlink; rw [hf]; rfl
  have e2 : f.isRegular = true := by unfold FStatus.isRegular; rw [hf]; rfl
  unfold copyDispatch
  simp only [e1, e2, h1, h2, h3, Bool.false_eq_true, if_false, if_true]
  rcases ht with ⟨h4, w, h5, h6⟩ | ⟨h4, rfl⟩
  · simp only [h4, if_true, h5, Prog.bind_eq]
    show (Prog.ofRes (append .posix b w)).bind _ = _
    rw [h6]
    rfl
  · simp only [h4, Bool.false_eq_true, if_false]
    rfl

theorem putAt_dispatch {opts : CopyOptions} {d : Vol} {a b u : Path} (h : PutAt opts d a b u) {t : FStatus}
    (ht : (∃ st', view (LooksAtLinkTo opts) d b = .ok st' ∧ t = statusOf st') ∨ ((∃ e, view (LooksAtLinkTo opts) d b = .error e) ∧ t = { type := .notFound })) :
    (t.isDirectory = true ∧ ∃ w, filename .posix a = .ok w ∧ append .posix b w = .ok u) ∨ (t.isDirectory = false ∧ u = b) := by
  rcases h with ⟨⟨perms, h1⟩, h2⟩ | ⟨h1, h2⟩
  · obtain ⟨x, h3, h4⟩ := lookedAt_iff.mp h1
    rcases ht with ⟨st', h5, rfl⟩ | ⟨⟨e, h5⟩, -⟩
    · rw [h3] at h5
      cases h5
      exact .inl ⟨by rw [← h4]; rfl, h2⟩
    · rw [h3] at h5; cases h5
  · refine .inr ⟨?_, h2⟩
    rcases ht with ⟨st', h5, rfl⟩ | ⟨-, rfl⟩
    · cases hd : (statusOf st').isDirectory with
      | false => rfl
      | true =>
        refine absurd ⟨(statusOf st').perms, lookedAt_iff.mpr ⟨st', h5, ?_⟩⟩ h1
        have : (statusOf st').type = .directory := by simpa [FStatus.isDirectory] using hd
        rw [← this]
    · rfl

/-! ## C134 -/

/-- **C134.** `copy(a, b)` of a regular file on a file system with links, without the options that link: it ends, all descriptors it opened are
closed, and either nothing has changed, or there is no error and the destination (`b`, or the name of `a` in the directory `b`) has become a
copy of `a` and all else is as it was. -/
theorem c134_file (hcap : ∀ t, 0 < cap t) (sf : Bool) (n : Nat) (a b u : Path) (hu : Value u) (opts : CopyOptions) (c : Code) (s : FileSys) (hs : s.Sound)
    (hn : ∀ l, s.contents a = some l → l.length < n ∧ l.length < 2 ^ 63) (perms : Mode)
    (hf : LookedAt (LooksAtLink opts) s.vol a ⟨.regular, perms⟩)
    (h1 : opts.has .directoriesOnly = false) (h2 : opts.has .createSymlinks = false) (h3 : opts.has .createHardLinks = false)
    (ht : PutAt opts s.vol a b u) :
    ∃ e s', onFiles cap (copy sf (n + 1) a b opts (.ref c)) s = (.ok ((), .ref e), s') ∧ s'.Sound ∧ s'.opened = s.opened ∧
      ((s'.vol = s.vol ∧ s'.data = s.data) ∨ (e = none ∧ BecameCopy s s' a u)) := by
  obtain ⟨st, hv, hst⟩ := lookedAt_iff.mp hf
  rcases copy_runs (cap := cap) sf n a b opts c s hv with ⟨⟨e, h4⟩, -⟩ | ⟨t, h4, h5⟩
  · exact ⟨some e, s, h4, hs, rfl, .inl ⟨rfl, rfl⟩⟩
  · rw [h5, dispatch_file sf n _ a b opts (by rw [← hst]) h1 h2 h3 (putAt_dispatch ht h4)]
    obtain ⟨r, s', h6, -, -, h7, -⟩ := copy_does hcap sf a u opts none hs hn
    obtain ⟨r', s'', h6', h8, h9, h10⟩ := c132_copy_file hcap sf n a u hu opts none s hs hn
    rw [h6] at h6'
    cases h6'
    rw [onFiles_bind h6]
    rcases h10 with ⟨hr, h10, h11⟩ | ⟨rfl, h10⟩
    · rcases h7 with ⟨e, rfl, -⟩ | ⟨_, _, _, _, _, _, rfl, _⟩
      · exact ⟨e, s', rfl, h8, h9, .inl ⟨h10, h11⟩⟩
      · cases hr
    · exact ⟨none, s', rfl, h8, h9, .inr ⟨rfl, h10⟩⟩

/-- It is `copy_file` to that destination, with its error, or an error for which nothing was done. -/
theorem c134_as_copy_file (hcap : ∀ t, 0 < cap t) (sf : Bool) (n : Nat) (a b u : Path) (opts : CopyOptions) (c : Code) (s : FileSys) (hs : s.Sound)
    (hn : ∀ l, s.contents a = some l → l.length < n ∧ l.length < 2 ^ 63) (perms : Mode)
    (hf : LookedAt (LooksAtLink opts) s.vol a ⟨.regular, perms⟩)
    (h1 : opts.has .directoriesOnly = false) (h2 : opts.has .createSymlinks = false) (h3 : opts.has .createHardLinks = false)
    (ht : PutAt opts s.vol a b u) :
    (∃ e, onFiles cap (copy sf (n + 1) a b opts (.ref c)) s = (.ok ((), .ref (some e)), s)) ∨
    ∃ v ec s', onFiles cap (copyFile sf n a u opts (.ref none)) s = (.ok (v, ec), s') ∧ onFiles cap (copy sf (n + 1) a b opts (.ref c)) s = (.ok ((), ec), s') := by
  obtain ⟨st, hv, hst⟩ := lookedAt_iff.mp hf
  rcases copy_runs (cap := cap) sf n a b opts c s hv with ⟨h4, -⟩ | ⟨t, h4, h5⟩
  · exact .inl h4
  · rw [h5, dispatch_file sf n _ a b opts (by rw [← hst]) h1 h2 h3 (putAt_dispatch ht h4)]
    obtain ⟨⟨v, ec⟩, s', h6, -⟩ := copy_does hcap sf a u opts none hs hn
    exact .inr ⟨v, ec, s', h6, by rw [onFiles_bind h6]; rfl⟩

/-- What is the same file is not copied, linked or skipped: an error, and nothing has changed. -/
theorem c134_same (sf : Bool) (n : Nat) (a b : Path) (ha : Value a) (hb : Value b) (opts : CopyOptions) (c : Code) (s : FileSys)
    (h1 : LooksAtLink opts = false) (h : onVol (equivalent a b (.ref none)) s.vol = (.ok (true, .ref none), s.vol)) :
    ∃ e, onFiles cap (copy sf (n + 1) a b opts (.ref c)) s = (.ok ((), .ref (some e)), s) := by
  obtain ⟨m, i, k, j, h2, h3, h4, h5, h6⟩ := equivalent_seen ha hb h
  have h6 : m = k := by simpa using h6.symm
  subst h6
  rw [h3] at h5
  cases h5
  have h7 : LooksAtLinkTo opts = false := by
    unfold LooksAtLinkTo
    unfold LooksAtLink at h1
    simp only [Bool.or_eq_false_iff] at h1 ⊢
    exact h1.1
  have hva : view false s.vol a = .ok (Vol.attr m i) := attrs_node h2 h3
  have hvb : view false s.vol b = .ok (Vol.attr m i) := attrs_node h4 h3
  refine ⟨.ENOSYS, ?_⟩
  have h8 := onFiles_look_ok (cap := cap) (link := false) (st0 := some .zero) (c := none) hva
  have h9 := onFiles_look_ok (cap := cap) (link := false) (st0 := some .zero) (c := none) hvb
  show onFiles cap (((if LooksAtLink opts then getLinkStatus else getFileStatus) a (some .zero) (.ref none)).bind _) s = _
  rw [h1, onFiles_bind h8]
  show onFiles cap (((if LooksAtLinkTo opts then getLinkStatus else getFileStatus) b (some .zero) (.ref none)).bind _) s = _
  rw [h7, onFiles_bind h9]
  simp only [(attr_exists m i).2, Bool.not_true, Bool.false_eq_true, if_false]
  show onFiles cap (if copyRejects (statusOf (Vol.attr m i)) (statusOf (Vol.attr m i)) (Vol.attr m i) (Vol.attr m i) then _ else _) s = _
  have : copyRejects (statusOf (Vol.attr m i)) (statusOf (Vol.attr m i)) (Vol.attr m i) (Vol.attr m i) = true := by
    unfold copyRejects statEquivalent
    simp
  rw [this]
  rfl

theorem view_of_link {d : Vol} {p : Path} {m : Nat} {i : INode} (h1 : d.findLink p.pathname = .ok m) (h2 : d.node m = some i)
    (h3 : (kindOf i.body == .symlink) = false) (link : Bool) : view link d p = .ok (Vol.attr m i) := by
  cases link
  · exact attrs_node (Vol.find_of_findLink h1 (text_none h2 h3)) h2
  · exact attrs_node h1 h2

/-- Nothing is at a name that can be given. -/
theorem view_missing {d d' : Vol} {u : Path} {n : Nat} {w : Str} {i : INode} (h7 : d.place u.pathname = .ok (n, w)) (h17 : d.Made d' n w i) (link : Bool) :
    view link d u = .error .ENOENT := by
  have hfl : d.findLink u.pathname = .error .ENOENT := by
    unfold Vol.findLink
    rw [h7]
    exact h17.missing
  have hfi : d.find u.pathname = .error .ENOENT := by
    obtain ⟨hp, h9⟩ := Vol.place_ok.mp h7
    unfold Vol.find
    rw [if_neg hp]
    rcases Vol.placeOf_ok.mp h9 with ⟨-, -, rfl⟩ | ⟨vs, h10, h11⟩
    · exact absurd (.inl rfl) (Vol.special_false.mp h17.name).1
    · rw [h10]
      obtain ⟨k, h12⟩ := Vol.follow_append d _ _ vs [w] _ h11
      rw [h12, Vol.follow_cons, h17.missing]
  unfold view
  rw [hfl, hfi, ite_self]
  rfl

/-- When it copies: `a` itself is a regular file, and the destination is a name at which a symbolic link could be made (so that nothing is
there), or another regular file with `overwrite_existing`. -/
theorem c134_copies (hcap : ∀ t, 0 < cap t) (sf : Bool) (n : Nat) (a b u : Path) (ha : Value a) (hu : Value u) (opts : CopyOptions) (c : Code) (s : FileSys)
    (hs : s.Sound) (hn : ∀ l, s.contents a = some l → l.length < n ∧ l.length < 2 ^ 63) (perms : Mode)
    (hf : onVol (symlinkStatus a (.ref none)) s.vol = (.ok (⟨.regular, perms⟩, .ref none), s.vol))
    (h1 : opts.has .directoriesOnly = false) (h2 : opts.has .createSymlinks = false) (h3 : opts.has .createHardLinks = false)
    (ht : PutAt opts s.vol a b u)
    (h4 : (∃ t d, onVol (createSymlink t u (.ref none)) s.vol = (.ok ((), .ref none), d)) ∨
      (opts.has .skipExisting = false ∧ opts.has .updateExisting = false ∧ opts.has .overwriteExisting = true ∧
        (∃ perms', onVol (symlinkStatus u (.ref none)) s.vol = (.ok (⟨.regular, perms'⟩, .ref none), s.vol)) ∧
        onVol (equivalent a u (.ref none)) s.vol = (.ok (false, .ref none), s.vol))) :
    ∃ s', onFiles cap (copy sf (n + 1) a b opts (.ref c)) s = (.ok ((), .ref none), s') ∧ s'.Sound ∧ s'.opened = s.opened ∧ BecameCopy s s' a u := by
  have seen : ∀ {p perms}, onVol (symlinkStatus p (.ref none)) s.vol = (.ok (⟨.regular, perms⟩, .ref none), s.vol) →
      ∃ m z mo l, s.vol.findLink p.pathname = .ok m ∧ s.vol.node m = some ⟨.file z, mo, l⟩ := by
    intro p perms h
    obtain ⟨st, h3, h4⟩ := symlinkStatus_seen.mp h
    obtain ⟨m, i, h5, h6, rfl⟩ := attrs_seen h3
    obtain ⟨z, mo, l, rfl⟩ := regular_file (n := m) (i := i) (by rw [← h4]; rfl)
    exact ⟨m, z, mo, l, h5, h6⟩
  obtain ⟨s', h5⟩ := c132_copies hcap sf n a u ha hu opts none s hs hn perms hf h4
  obtain ⟨r', s'', h6, h8, h9, h10⟩ := c132_copy_file hcap sf n a u hu opts none s hs hn
  rw [h5] at h6
  cases h6
  obtain ⟨m, z, mo, l, h11, h12⟩ := seen hf
  have hv := view_of_link h11 h12 rfl (LooksAtLink opts)
  have hreg : (statusOf (Vol.attr m ⟨.file z, mo, l⟩)).type = .regular := by rw [statusOf_attr]; rfl
  rcases copy_runs (cap := cap) sf n a b opts c s hv with ⟨-, h13⟩ | ⟨t, h13, h14⟩
  · exfalso
    rcases ht with ⟨⟨perms1, hd⟩, -⟩ | ⟨-, rfl⟩
    · obtain ⟨x, hx, hy⟩ := lookedAt_iff.mp hd
      obtain ⟨k, j, hk, rfl⟩ := view_seen hx
      rcases h13 with ⟨e, he, -⟩ | ⟨st', he, he'⟩
      · rw [hx] at he; cases he
      · rw [hx] at he
        cases he
        rcases he' with he' | he'
        · unfold FStatus.isDirectory at he'
          rw [hreg] at he'
          cases he'
        · have : m = k := by
            unfold statEquivalent Vol.attr at he'
            simpa using he'
          subst this
          rw [h12] at hk
          cases hk
          rw [statusOf_attr] at hy
          cases hy
    · rcases h4 with ⟨t, d, h4⟩ | ⟨-, -, -, ⟨perms', h15⟩, h16⟩
      · obtain ⟨n1, w1, -, -, h7, h17⟩ := symlink_ok h4
        have hve := view_missing h7 h17 (LooksAtLinkTo opts)
        rcases h13 with ⟨e, he, he'⟩ | ⟨st', he, -⟩
        · rw [hve] at he
          cases he
          cases he'
        · rw [hve] at he; cases he
      · obtain ⟨o, z1, mo1, nl, h17, h18⟩ := seen h15
        rw [equivalent_at ha hu (Vol.find_of_findLink h11 (text_none h12 rfl)) h12 (Vol.find_of_findLink h17 (text_none h18 rfl)) h18] at h16
        have hvb := view_of_link h17 h18 rfl (LooksAtLinkTo opts)
        rcases h13 with ⟨e, he, -⟩ | ⟨st', he, he'⟩
        · rw [hvb] at he; cases he
        · rw [hvb] at he
          cases he
          rcases he' with he' | he'
          · unfold FStatus.isDirectory at he'
            rw [hreg] at he'
            cases he'
          · have : m = o := by
              unfold statEquivalent Vol.attr at he'
              simpa using he'
            subst this
            simp at h16
  · rw [h14, dispatch_file sf n _ a b opts hreg h1 h2 h3 (putAt_dispatch ht h13), onFiles_bind h5]
    rcases h10 with ⟨hr, -⟩ | ⟨-, h10⟩
    · cases hr
    · exact ⟨s', rfl, h8, h9, h10⟩

theorem not_refused {d d' : Vol} {u : Path} {n : Nat} {w : Str} {i : INode} (h7 : d.place u.pathname = .ok (n, w)) (h17 : d.Made d' n w i) {link : Bool} {st : Stat} :
    ¬ ((∃ e, view link d u = .error e ∧ typeOfErr e = .none) ∨
       (∃ st', view link d u = .ok st' ∧ (((statusOf st).isDirectory && (statusOf st').isRegular) = true ∨ statEquivalent st st' = true))) := by
  rw [view_missing h7 h17]
  rintro (⟨e, he, he'⟩ | ⟨st', he, -⟩)
  · cases he
    cases he'
  · cases he

/-- A run of the second half that is a run on the volume. -/
theorem volume_runs {p : Prog (Unit × EcArg)} (h : OfVol p) {s s' : FileSys} (he : onFiles cap p s = (.ok ((), .ref none), s')) :
    onVol p s.vol = (.ok ((), .ref none), s'.vol) ∧ s'.data = s.data ∧ s'.opened = s.opened := by
  rw [h.run] at he
  obtain ⟨h1, h2⟩ := Prod.mk.inj he
  subst h2
  exact ⟨Prod.ext h1 rfl, rfl, rfl⟩

theorem fits_contents {s s' : FileSys} (h : s.vol.Fits s'.vol) (hd : s'.data = s.data) {q : Path} {x : Bytes} (hq : s.contents q = some x) :
    s'.contents q = some x := by
  obtain ⟨k, z, mo, l, h1, h2, rfl⟩ := contents_seen hq
  obtain ⟨⟨b, mo', l'⟩, h3, z', h4⟩ := h.node k _ h2
  simp only at h4
  subst h4
  rw [contents_at (h.find h1) h3, hd]

theorem copySymlink_made {a b : Path} {d d' : Vol} (h : onVol (copySymlink a b (.ref none)) d = (.ok ((), .ref none), d')) : d.Fits d' := by
  cases hr : onVol (readSymlink a (.ref none)) d with
  | mk o d1 =>
    have h : onVol ((readSymlink a (.ref none)).bind fun x => if x.2.isSet then _ else createSymlink x.1 b (.ref none)) d = _ := h
    cases o with
    | error x =>
      rw [show onVol ((readSymlink a (.ref none)).bind _) d = _ from eval_bind_error (m := kernel) hr] at h
      cases h
    | ok r =>
      rw [onVol_bind hr] at h
      obtain ⟨rfl, ⟨e, he⟩ | ⟨m, t, h1, h2, h3, rfl⟩⟩ := readSymlink_seen hr
      · obtain ⟨r, ec⟩ := r
        subst he
        cases h
      · have h : onVol (createSymlink (mkPath .posix (t.take 4096)) b (.ref none)) d1 = _ := h
        obtain ⟨n, w, -, -, -, hm⟩ := symlink_ok h
        exact hm.fits

/-- With `create_symlinks`, `copy` of a regular file without an error has made `b` a symbolic link that reads as `a`, and all else is as it was. -/
theorem c134_create_symlinks (sf : Bool) (n : Nat) (a b : Path) (ha : Value a) (opts : CopyOptions) (c : Code) (s s' : FileSys) (perms : Mode)
    (hf : LookedAt (LooksAtLink opts) s.vol a ⟨.regular, perms⟩) (h1 : opts.has .directoriesOnly = false) (h2 : opts.has .createSymlinks = true)
    (h : onFiles cap (copy sf (n + 1) a b opts (.ref c)) s = (.ok ((), .ref none), s')) :
    (∃ r, onVol (readSymlink b (.ref none)) s'.vol = (.ok (r, .ref none), s'.vol) ∧ r.pathname = a.pathname) ∧
    onVol (isSymlinkP b (.ref none)) s'.vol = (.ok (true, .ref none), s'.vol) ∧ Unchanged s.vol s'.vol ∧ (∀ q x, s.contents q = some x → s'.contents q = some x) ∧
    s'.opened = s.opened := by
  obtain ⟨st, hv, hst⟩ := lookedAt_iff.mp hf
  rcases copy_runs (cap := cap) sf n a b opts c s hv with ⟨⟨e, h4⟩, -⟩ | ⟨t, h4, h5⟩
  · rw [h4] at h; cases h
  · rw [h5, ← hst] at h
    have : copyDispatch (fun a b ec => copy sf n a b opts ec) sf n ⟨"copy".toList, some a, some b⟩ a b opts ⟨.regular, perms⟩ t (.ref none) =
        createSymlink a b (.ref none) := by
      unfold copyDispatch
      simp only [h1, h2, FStatus.isSymlink, FStatus.isRegular]
      rfl
    rw [this] at h
    obtain ⟨h6, h7, h8⟩ := volume_runs (ofVol_createSymlink ..) h
    obtain ⟨h9, h10, h11⟩ := c125_create_symlink ha none _ _ h6
    obtain ⟨_, _, -, -, -, hm⟩ := symlink_ok h6
    exact ⟨h9, h10, h11, fun q x => fits_contents hm.fits h7, h8⟩

/-- With `create_hard_links`, `copy` of a regular file without an error has made `b` the same file, counted once more, and all else is as it was. -/
theorem c134_create_hard_links (sf : Bool) (n : Nat) (a b : Path) (ha : Value a) (hb : Value b) (opts : CopyOptions) (c : Code) (s s' : FileSys) (perms : Mode)
    (hf : onVol (symlinkStatus a (.ref none)) s.vol = (.ok (⟨.regular, perms⟩, .ref none), s.vol))
    (h1 : opts.has .directoriesOnly = false) (h2 : opts.has .createSymlinks = false) (h3 : opts.has .createHardLinks = true)
    (h : onFiles cap (copy sf (n + 1) a b opts (.ref c)) s = (.ok ((), .ref none), s')) :
    onVol (equivalent a b (.ref none)) s'.vol = (.ok (true, .ref none), s'.vol) ∧ s'.contents b = s.contents a ∧
    (∃ v, onVol (hardLinkCount a (.ref none)) s.vol = (.ok (v, .ref none), s.vol) ∧
      onVol (hardLinkCount b (.ref none)) s'.vol = (.ok (v + 1, .ref none), s'.vol)) ∧ Unchanged s.vol s'.vol ∧ (∀ q x, s.contents q = some x → s'.contents q = some x) ∧
    s'.opened = s.opened := by
  obtain ⟨st, hv, hst⟩ := symlinkStatus_seen.mp hf
  obtain ⟨m, i, h5, h6, rfl⟩ := attrs_seen hv
  obtain ⟨z, mo, l, rfl⟩ := regular_file (n := m) (i := i) (by rw [← hst]; rfl)
  rcases copy_runs (cap := cap) sf n a b opts c s (view_of_link h5 h6 rfl _) with ⟨⟨e, h4⟩, -⟩ | ⟨t, h4, h7⟩
  · rw [h4] at h; cases h
  · rw [h7, ← hst] at h
    have : copyDispatch (fun a b ec => copy sf n a b opts ec) sf n ⟨"copy".toList, some a, some b⟩ a b opts ⟨.regular, perms⟩ t (.ref none) =
        createHardLink a b (.ref none) := by
      unfold copyDispatch
      simp only [h1, h2, h3, FStatus.isSymlink, FStatus.isRegular]
      rfl
    rw [this] at h
    obtain ⟨h8, h9, h10⟩ := volume_runs (ofVol_createHardLink ..) h
    obtain ⟨h11, ⟨v, h12, -, h13⟩, h14⟩ := c125_create_hard_link ha hb none _ _ (isSymlink_at h5 h6) h8
    have h15 : s.vol.hardLink a.pathname b.pathname = (.ok (), s'.vol) := by
      have h8 : onVol (.call (.link a.pathname b.pathname) _) s.vol = _ := h8
      rw [onVol_call] at h8
      generalize ha' : answer (.link a.pathname b.pathname) s.vol = x at h8
      obtain ⟨r, d1⟩ := x
      cases r with
      | error e => cases h8
      | ok u =>
        have hd : s'.vol = d1 := (Prod.mk.inj h8).2.symm
        rw [hd]
        exact ha'
    obtain ⟨m1, n1, w1, i1, h16, h17, -, h18, -, h19, h20, h21, -, -⟩ := Vol.hardLink_ok h15
    rw [h5] at h16
    cases h16
    rw [h6] at h18
    cases h18
    refine ⟨h11, ?_, ⟨v, h12, h13⟩, h14, fun q x => fits_contents h19 h9, h10⟩
    rw [contents_at (Vol.find_of_findLink h5 (text_none h6 rfl)) h6,
      contents_at (Vol.find_of_findLink (Vol.findLink_ok.mpr ⟨n1, w1, h19.place h17, h20⟩) (text_none h21 rfl)) h21, h9]

/-- With `copy_symlinks`, `copy` of a symbolic link without an error has made `b` a symbolic link that reads as `a` does, and all else is as it was. -/
theorem c134_copy_symlinks (sf : Bool) (n : Nat) (a b : Path) (opts : CopyOptions) (c : Code) (s s' : FileSys) (perms : Mode)
    (hf : LookedAt (LooksAtLink opts) s.vol a ⟨.symlink, perms⟩) (h1 : opts.has .skipSymlinks = false)
    (h : onFiles cap (copy sf (n + 1) a b opts (.ref c)) s = (.ok ((), .ref none), s')) :
    (∃ r, onVol (readSymlink a (.ref none)) s.vol = (.ok (r, .ref none), s.vol) ∧ onVol (readSymlink b (.ref none)) s'.vol = (.ok (r, .ref none), s'.vol)) ∧
    onVol (isSymlinkP b (.ref none)) s'.vol = (.ok (true, .ref none), s'.vol) ∧ Unchanged s.vol s'.vol ∧ (∀ q x, s.contents q = some x → s'.contents q = some x) ∧
    s'.opened = s.opened := by
  obtain ⟨st, hv, hst⟩ := lookedAt_iff.mp hf
  rcases copy_runs (cap := cap) sf n a b opts c s hv with ⟨⟨e, h4⟩, -⟩ | ⟨t, h4, h5⟩
  · rw [h4] at h; cases h
  · rw [h5, ← hst] at h
    have : copyDispatch (fun a b ec => copy sf n a b opts ec) sf n ⟨"copy".toList, some a, some b⟩ a b opts ⟨.symlink, perms⟩ t (.ref none) =
        if !t.exists' then copySymlink a b (.ref none) else Handler.report ⟨"copy".toList, some a, some b⟩ (.ref none) (some .EEXIST) () := by
      unfold copyDispatch
      simp only [h1, FStatus.isSymlink]
      rfl
    rw [this] at h
    split at h
    · obtain ⟨h6, h7, h8⟩ := volume_runs (ofVol_copySymlink ..) h
      obtain ⟨⟨r, h9, -, h10⟩, h11, h12⟩ := c125_copy_symlink none _ _ h6
      exact ⟨⟨r, h9, h10⟩, h11, h12, fun q x => fits_contents (copySymlink_made h6) h7, h8⟩
    · cases h

/-- A symbolic link with `skip_symlinks` and a regular file with `directories_only` are passed over: nothing changes. -/
theorem c134_passes (sf : Bool) (n : Nat) (a b : Path) (opts : CopyOptions) (c : Code) (s : FileSys) (perms : Mode)
    (hf : (LookedAt (LooksAtLink opts) s.vol a ⟨.symlink, perms⟩ ∧ opts.has .skipSymlinks = true) ∨
      (LookedAt (LooksAtLink opts) s.vol a ⟨.regular, perms⟩ ∧ opts.has .directoriesOnly = true)) :
    ∃ e, onFiles cap (copy sf (n + 1) a b opts (.ref c)) s = (.ok ((), .ref e), s) ∧
      ((∃ t d, onVol (createSymlink t b (.ref none)) s.vol = (.ok ((), .ref none), d)) → e = none) := by
  have pass : ∀ k, LookedAt (LooksAtLink opts) s.vol a ⟨k, perms⟩ → (∀ t, copyDispatch (fun a b ec => copy sf n a b opts ec) sf n
      ⟨"copy".toList, some a, some b⟩ a b opts ⟨k, perms⟩ t (.ref none) = .ret ((), .ref none)) →
      ∃ e, onFiles cap (copy sf (n + 1) a b opts (.ref c)) s = (.ok ((), .ref e), s) ∧
        ((∃ t d, onVol (createSymlink t b (.ref none)) s.vol = (.ok ((), .ref none), d)) → e = none) := by
    intro k hk hd
    obtain ⟨st, hv, hst⟩ := lookedAt_iff.mp hk
    rcases copy_runs (cap := cap) sf n a b opts c s hv with ⟨⟨e, h4⟩, h13⟩ | ⟨t, h4, h5⟩
    · refine ⟨_, h4, ?_⟩
      rintro ⟨t, d, h⟩
      obtain ⟨n1, w1, -, -, h7, h17⟩ := symlink_ok h
      exact absurd h13 (not_refused h7 h17)
    · exact ⟨none, by rw [h5, ← hst, hd]; rfl, fun _ => rfl⟩
  rcases hf with ⟨h1, h2⟩ | ⟨h1, h2⟩
  · refine pass _ h1 fun t => ?_
    unfold copyDispatch
    simp only [h2, FStatus.isSymlink]
    rfl
  · refine pass _ h1 fun t => ?_
    unfold copyDispatch
    simp only [h2, FStatus.isSymlink, FStatus.isRegular]
    rfl

theorem missing_notFound {d d' : Vol} {u : Path} {n : Nat} {w : Str} {i : INode} (h7 : d.place u.pathname = .ok (n, w)) (h17 : d.Made d' n w i) {link : Bool} {t : FStatus}
    (h : (∃ st', view link d u = .ok st' ∧ t = statusOf st') ∨ ((∃ e, view link d u = .error e) ∧ t = { type := .notFound })) : t = { type := .notFound } := by
  rw [view_missing h7 h17] at h
  rcases h with ⟨st', h, -⟩ | ⟨-, h⟩
  · cases h
  · exact h

/-- With these options `copy` makes the link whenever the operation for that kind of link would. -/
theorem c134_links (sf : Bool) (n : Nat) (a b : Path) (opts : CopyOptions) (c : Code) (s : FileSys) (perms : Mode) (d d' : Vol) (x : Path)
    (hb : onVol (createSymlink x b (.ref none)) s.vol = (.ok ((), .ref none), d'))
    (h : (LookedAt (LooksAtLink opts) s.vol a ⟨.regular, perms⟩ ∧ opts.has .directoriesOnly = false ∧ opts.has .createSymlinks = true ∧
        onVol (createSymlink a b (.ref none)) s.vol = (.ok ((), .ref none), d)) ∨
      (LookedAt (LooksAtLink opts) s.vol a ⟨.regular, perms⟩ ∧ opts.has .directoriesOnly = false ∧ opts.has .createSymlinks = false ∧
        opts.has .createHardLinks = true ∧ onVol (createHardLink a b (.ref none)) s.vol = (.ok ((), .ref none), d)) ∨
      (LookedAt (LooksAtLink opts) s.vol a ⟨.symlink, perms⟩ ∧ opts.has .skipSymlinks = false ∧
        onVol (copySymlink a b (.ref none)) s.vol = (.ok ((), .ref none), d))) :
    onFiles cap (copy sf (n + 1) a b opts (.ref c)) s = (.ok ((), .ref none), { s with vol := d }) := by
  obtain ⟨n1, w1, -, -, h7, h17⟩ := symlink_ok hb
  have go : ∀ k (p : Prog (Unit × EcArg)), LookedAt (LooksAtLink opts) s.vol a ⟨k, perms⟩ → OfVol p → onVol p s.vol = (.ok ((), .ref none), d) →
      copyDispatch (fun a b ec => copy sf n a b opts ec) sf n ⟨"copy".toList, some a, some b⟩ a b opts ⟨k, perms⟩ { type := .notFound } (.ref none) = p →
      onFiles cap (copy sf (n + 1) a b opts (.ref c)) s = (.ok ((), .ref none), { s with vol := d }) := by
    intro k p hk hp hr hd
    obtain ⟨st, hv, hst⟩ := lookedAt_iff.mp hk
    rcases copy_runs (cap := cap) sf n a b opts c s hv with ⟨-, h13⟩ | ⟨t, h4, h5⟩
    · exact absurd h13 (not_refused h7 h17)
    · rw [missing_notFound h7 h17 h4] at h5
      rw [h5, ← hst, hd, hp.run, hr]
  rcases h with ⟨h1, h2, h3, h4⟩ | ⟨h1, h2, h3, h5, h4⟩ | ⟨h1, h2, h4⟩
  · refine go _ _ h1 (ofVol_createSymlink ..) h4 ?_
    unfold copyDispatch
    simp only [h2, h3, FStatus.isSymlink, FStatus.isRegular]
    rfl
  · refine go _ _ h1 (ofVol_createHardLink ..) h4 ?_
    unfold copyDispatch
    simp only [h2, h3, h5, FStatus.isSymlink, FStatus.isRegular]
    rfl
  · refine go _ _ h1 (ofVol_copySymlink ..) h4 ?_
    unfold copyDispatch
    simp only [h2, FStatus.isSymlink]
    rfl

/-- `f` onto the new name `n`, over `g`, as a symbolic link, as a hard link; the link `l` as a link, and passed over. -/
example : twoFiles.Sound ∧ Value (mkPath .posix "n".toList) ∧ PutAt .none twoFiles.vol (mkPath .posix "f".toList) (mkPath .posix "n".toList) (mkPath .posix "n".toList) ∧
    LookedAt (LooksAtLink .none) twoFiles.vol (mkPath .posix "f".toList) ⟨.regular, 0o640⟩ ∧
    (∃ t d, onVol (createSymlink t (mkPath .posix "n".toList) (.ref none)) twoFiles.vol = (.ok ((), .ref none), d)) ∧
    (onFiles (fun _ => 1) (copy true 5 (mkPath .posix "f".toList) (mkPath .posix "n".toList) .none (.ref none)) twoFiles).1 = .ok ((), .ref none) ∧
    (onFiles (fun _ => 1) (copy true 5 (mkPath .posix "f".toList) (mkPath .posix "n".toList) .none (.ref none)) twoFiles).2.contents (mkPath .posix "n".toList) =
      some [7, 8, 9] ∧
    (onFiles (fun _ => 1) (copy true 5 (mkPath .posix "f".toList) (mkPath .posix "g".toList) .overwriteExisting (.ref none)) twoFiles).2.contents
      (mkPath .posix "g".toList) = some [7, 8, 9] ∧
    (onFiles (fun _ => 1) (copy true 5 (mkPath .posix "f".toList) (mkPath .posix "n".toList) .createSymlinks (.ref none)) twoFiles).1 = .ok ((), .ref none) ∧
    (onFiles (fun _ => 1) (copy true 5 (mkPath .posix "f".toList) (mkPath .posix "n".toList) .createHardLinks (.ref none)) twoFiles).1 = .ok ((), .ref none) ∧
    LookedAt (LooksAtLink .copySymlinks) twoFiles.vol (mkPath .posix "l".toList) ⟨.symlink, 0o777⟩ ∧
    (onFiles (fun _ => 1) (copy true 5 (mkPath .posix "l".toList) (mkPath .posix "n".toList) .copySymlinks (.ref none)) twoFiles).1 = .ok ((), .ref none) ∧
    (onFiles (fun _ => 1) (copy true 5 (mkPath .posix "l".toList) (mkPath .posix "n".toList) .skipSymlinks (.ref none)) twoFiles).1 = .ok ((), .ref none) := by
  refine ⟨twoFiles_sound, .reach (reach_mkPath _), .inr ⟨?_, rfl⟩, Prod.ext (by rfl) rfl, ⟨mkPath .posix "f".toList, _, Prod.ext (by rfl) rfl⟩,
    by rfl, by rfl, by rfl, by rfl, by rfl, Prod.ext (by rfl) rfl, by rfl, by rfl⟩
  rintro ⟨perms, h⟩
  obtain ⟨x, h1, -⟩ := lookedAt_iff.mp h
  have h2 : view (LooksAtLinkTo .none) twoFiles.vol (mkPath .posix "n".toList) = .error .ENOENT := by rfl
  rw [h2] at h1
  cases h1

/-- `f` onto the link to it. -/
example : onVol (equivalent (mkPath .posix "f".toList) (mkPath .posix "l".toList) (.ref none)) twoFiles.vol = (.ok (true, .ref none), twoFiles.vol) ∧
    (onFiles (fun _ => 1) (copy true 5 (mkPath .posix "f".toList) (mkPath .posix "l".toList) .overwriteExisting (.ref none)) twoFiles).1 = .ok ((), .ref (some .ENOSYS)) :=
  ⟨Prod.ext (by rfl) rfl, by rfl⟩

/-- A file and a directory. -/
def fileAndDir : FileSys where
  vol := ⟨fun n => match n with
    | 0 => some ⟨.dir 0 [("f".toList, 1), ("d".toList, 2)], 0o755, 3⟩
    | 1 => some ⟨.file 3, 0o640, 1⟩
    | 2 => some ⟨.dir 0 [], 0o755, 2⟩
    | _ => none, 0, 3⟩
  data := fun n => match n with
    | 1 => [7, 8, 9]
    | _ => []
  opened := fun _ => none
  count := 3
  clock := 0

/-- A file into a directory. -/
example : PutAt .none fileAndDir.vol (mkPath .posix "f".toList) (mkPath .posix "d".toList) (mkPath .posix "d/f".toList) ∧
    (onFiles (fun _ => 1) (copy true 5 (mkPath .posix "f".toList) (mkPath .posix "d".toList) .none (.ref none)) fileAndDir).1 = .ok ((), .ref none) ∧
    (onFiles (fun _ => 1) (copy true 5 (mkPath .posix "f".toList) (mkPath .posix "d".toList) .none (.ref none)) fileAndDir).2.contents (mkPath .posix "d/f".toList) =
      some [7, 8, 9] :=
  ⟨.inl ⟨⟨0o755, Prod.ext (by rfl) rfl⟩, _, rfl, by rfl⟩, by rfl, by rfl⟩

end Asap
