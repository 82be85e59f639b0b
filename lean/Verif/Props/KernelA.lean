import Verif.Os.KernelLemmas
import Verif.Props.OpsD

/-!
# What an operation did is what the next one sees (C125)
-/

namespace Asap
open Spec

/-- What could be seen of the file system can still be seen, and is the same. -/
def Spec.Unchanged (d d' : Vol) : Prop :=
  ∀ (q : Path) (c : Code) (st : FStatus),
    (onVol (status q (.ref c)) d = (.ok (st, .ref none), d) → onVol (status q (.ref c)) d' = (.ok (st, .ref none), d')) ∧
    (onVol (symlinkStatus q (.ref c)) d = (.ok (st, .ref none), d) → onVol (symlinkStatus q (.ref c)) d' = (.ok (st, .ref none), d'))

theorem onVol_ret {α : Type} (a : α) (d : Vol) : onVol (.ret a) d = (.ok a, d) := rfl
theorem onVol_stop {α : Type} (x : Stop) (d : Vol) : onVol (.stop x : Prog α) d = (.error x, d) := rfl
theorem onVol_call {α : Type} (c : Sys) (k : c.Ret → Prog α) (d : Vol) : onVol (.call c k) d = onVol (k (answer c d).1) (answer c d).2 := rfl

theorem onVol_bind {α β : Type} {p : Prog α} {f : α → Prog β} {d d' : Vol} {a : α} (h : onVol p d = (.ok a, d')) :
    onVol (p.bind f) d = onVol (f a) d' := eval_bind_ok (m := kernel) h

theorem onVol_status_ok {p : Path} {c : Code} {d : Vol} {st : Stat} (h : d.attrs (d.find p.pathname) = .ok st) :
    onVol (status p (.ref c)) d = (.ok (statusOf st, .ref none), d) :=
  eval_status_ok (m := kernel) (s := d) (s' := d) (by show (d.attrs (d.find p.pathname), d) = _; rw [h]; rfl)
theorem onVol_status_error {p : Path} {c : Code} {d : Vol} {e : Errno} (h : d.attrs (d.find p.pathname) = .error e) :
    onVol (status p (.ref c)) d = (.ok ({ type := typeOfErr e }, .ref (some e)), d) :=
  eval_status_error (m := kernel) (s := d) (s' := d) (by show (d.attrs (d.find p.pathname), d) = _; rw [h]; rfl)
theorem onVol_lstatus_ok {p : Path} {c : Code} {d : Vol} {st : Stat} (h : d.attrs (d.findLink p.pathname) = .ok st) :
    onVol (symlinkStatus p (.ref c)) d = (.ok (statusOf st, .ref none), d) :=
  eval_symlinkStatus_ok (m := kernel) (s := d) (s' := d) (by show (d.attrs (d.findLink p.pathname), d) = _; rw [h]; rfl)
theorem onVol_lstatus_error {p : Path} {c : Code} {d : Vol} {e : Errno} (h : d.attrs (d.findLink p.pathname) = .error e) :
    onVol (symlinkStatus p (.ref c)) d = (.ok ({ type := typeOfErr e }, .ref (some e)), d) :=
  eval_symlinkStatus_error (m := kernel) (s := d) (s' := d) (by show (d.attrs (d.findLink p.pathname), d) = _; rw [h]; rfl)
theorem onVol_getStatus_ok {p : Path} {c : Code} {d : Vol} {st : Stat} {st0 : Option Stat} (h : d.attrs (d.find p.pathname) = .ok st) :
    onVol (getFileStatus p st0 (.ref c)) d = (.ok ((statusOf st, some st), .ref none), d) :=
  eval_getFileStatus_ok (m := kernel) (s := d) (s' := d) (by show (d.attrs (d.find p.pathname), d) = _; rw [h]; rfl)

theorem status_seen {d : Vol} {q : Path} {c : Code} {st : FStatus} :
    onVol (status q (.ref c)) d = (.ok (st, .ref none), d) ↔ ∃ s, d.attrs (d.find q.pathname) = .ok s ∧ st = statusOf s := by
  cases h : d.attrs (d.find q.pathname) with
  | error e =>
    rw [onVol_status_error h]
    simp
  | ok s =>
    rw [onVol_status_ok h]
    simp [eq_comm]

theorem symlinkStatus_seen {d : Vol} {q : Path} {c : Code} {st : FStatus} :
    onVol (symlinkStatus q (.ref c)) d = (.ok (st, .ref none), d) ↔ ∃ s, d.attrs (d.findLink q.pathname) = .ok s ∧ st = statusOf s := by
  cases h : d.attrs (d.findLink q.pathname) with
  | error e =>
    rw [onVol_lstatus_error h]
    simp
  | ok s =>
    rw [onVol_lstatus_ok h]
    simp [eq_comm]

theorem statusOf_mode {a b : Stat} (h : a.mode = b.mode) : statusOf a = statusOf b := by
  unfold statusOf; rw [h]

theorem attrs_mode {d d' : Vol} {x : Except Errno Nat} {s : Stat}
    (ha : ∀ k j, d.node k = some j → ∃ j', d'.node k = some j' ∧ (Vol.attr k j').mode = (Vol.attr k j).mode)
    (h : d.attrs x = .ok s) : ∃ m s', x = .ok m ∧ d'.attrs (.ok m) = .ok s' ∧ statusOf s' = statusOf s := by
  cases x with
  | error e => cases h
  | ok m =>
    unfold Vol.attrs at h
    simp only at h
    cases hm : d.node m with
    | none => simp [hm] at h
    | some i =>
      obtain ⟨i', h1, h2⟩ := ha m i hm
      simp only [hm] at h
      cases h
      refine ⟨m, Vol.attr m i', rfl, ?_, statusOf_mode h2⟩
      unfold Vol.attrs
      simp only [h1]

theorem unchanged_of {d d' : Vol} (hf : d.Fits d')
    (ha : ∀ k j, d.node k = some j → ∃ j', d'.node k = some j' ∧ (Vol.attr k j').mode = (Vol.attr k j).mode) : Unchanged d d' := by
  intro q c st
  constructor
  · intro hs
    obtain ⟨s, h1, h2⟩ := status_seen.mp hs
    obtain ⟨m, s', h3, h4, h5⟩ := attrs_mode ha h1
    exact status_seen.mpr ⟨s', by rw [hf.find h3]; exact h4, h2.trans h5.symm⟩
  · intro hs
    obtain ⟨s, h1, h2⟩ := symlinkStatus_seen.mp hs
    obtain ⟨m, s', h3, h4, h5⟩ := attrs_mode ha h1
    exact symlinkStatus_seen.mpr ⟨s', by rw [hf.findLink h3]; exact h4, h2.trans h5.symm⟩

theorem Spec.Vol.Made.unchanged {d d' : Vol} {n : Nat} {w : Str} {i : INode} (h : d.Made d' n w i) : Unchanged d d' :=
  unchanged_of h.fits fun k j hk => by
    obtain ⟨j', h1, h2⟩ := h.attr k j hk
    exact ⟨j', h1, by rw [h2]⟩

/-! ## The mode of an inode -/

theorem mode_type (t m : Mode) (ht : t &&& 0o170000 = t) : (t ||| (m &&& 0o7777)) &&& 0o170000 = t := by
  rw [BitVec.and_comm, BitVec.and_or_distrib_left, BitVec.and_comm, ht, ← BitVec.and_assoc, BitVec.and_comm _ m, BitVec.and_assoc]
  rw [show (0o170000 &&& 0o7777 : Mode) = 0 by decide]
  simp

theorem mode_perms (t m : Mode) (ht : t &&& 0o7777 = 0) : (t ||| (m &&& 0o7777)) &&& 0o7777 = m &&& 0o7777 := by
  rw [BitVec.and_comm, BitVec.and_or_distrib_left, BitVec.and_comm, ht, ← BitVec.and_assoc, BitVec.and_comm _ m, BitVec.and_assoc]
  simp

/-- The kind of an inode. -/
def kindOf : Body → FType
  | .file _ => .regular
  | .dir .. => .directory
  | .link _ => .symlink

theorem statusOf_attr (n : Nat) (i : INode) : statusOf (Vol.attr n i) = ⟨kindOf i.body, i.mode &&& 0o7777⟩ := by
  obtain ⟨b, m, l⟩ := i
  unfold statusOf Vol.attr
  cases b with
  | file s =>
    simp only [kindOf]
    rw [show Perms.mask = 0o7777 from rfl, mode_perms _ _ (by decide)]
    unfold typeOfMode
    rw [mode_type _ _ (by decide)]
    rfl
  | dir up es =>
    simp only [kindOf]
    rw [show Perms.mask = 0o7777 from rfl, mode_perms _ _ (by decide)]
    unfold typeOfMode
    rw [mode_type _ _ (by decide)]
    rfl
  | link t =>
    simp only [kindOf]
    rw [show Perms.mask = 0o7777 from rfl, mode_perms _ _ (by decide)]
    unfold typeOfMode
    rw [mode_type _ _ (by decide)]
    rfl

theorem attrs_node {d : Vol} {x : Except Errno Nat} {m : Nat} {i : INode} (hx : x = .ok m) (hm : d.node m = some i) :
    d.attrs x = .ok (Vol.attr m i) := by
  subst hx
  unfold Vol.attrs
  simp only [hm]

theorem eval_stat_at {d : Vol} {q : Path} {c : Code} {m : Nat} {i : INode} (hf : d.find q.pathname = .ok m) (hm : d.node m = some i) :
    onVol (status q (.ref c)) d = (.ok (⟨kindOf i.body, i.mode &&& 0o7777⟩, .ref none), d) :=
  status_seen.mpr ⟨_, attrs_node hf hm, (statusOf_attr ..).symm⟩

theorem eval_lstat_at {d : Vol} {q : Path} {c : Code} {m : Nat} {i : INode} (hf : d.findLink q.pathname = .ok m) (hm : d.node m = some i) :
    onVol (symlinkStatus q (.ref c)) d = (.ok (⟨kindOf i.body, i.mode &&& 0o7777⟩, .ref none), d) :=
  symlinkStatus_seen.mpr ⟨_, attrs_node hf hm, (statusOf_attr ..).symm⟩

/-! ## Directories -/

theorem Spec.Vol.start_cwd {d d' : Vol} (h : d'.cwd = d.cwd) {s : Str} : d.start d.cwd s = d'.start d'.cwd s := by
  unfold Vol.start; rw [h]

theorem mkdir_ok {p : Path} {c : Code} {d d' : Vol} (h : onVol (createDirectory p (.ref c)) d = (.ok (true, .ref none), d')) :
    ∃ n w, p.pathname ≠ [] ∧ d.placeOf (d.start d.cwd p.pathname) (filenames p.pathname) = .ok (n, w) ∧
      d.Made d' n w ⟨.dir n [], Perms.all, 2⟩ := by
  have h : onVol (.call _ _) d = _ := h
  rw [onVol_call] at h
  generalize ha : answer (.mkdir p.pathname Perms.all) d = a at h
  obtain ⟨r, d1⟩ := a
  have ha : d.make (if p.pathname = [] then .error .ENOENT else d.placeOf (d.start d.cwd p.pathname) (filenames p.pathname))
      (fun up => ⟨.dir up [], Perms.all, 2⟩) = (r, d1) := ha
  cases r with
  | ok u =>
    obtain ⟨-, rfl⟩ := Prod.mk.inj h
    obtain ⟨n, w, h1, h2⟩ := Vol.make_ok ha
    split at h1
    · cases h1
    · exact ⟨n, w, ‹_›, h1, h2⟩
  | error e =>
    dsimp only at h
    split at h
    · cases h
    · cases h

/-- After a directory has been created, it is a directory, creating it again reports without an error that it was there,
and everything else is as it was. -/
theorem c125_create_directory (p : Path) (c : Code) (d d' : Vol)
    (h : onVol (createDirectory p (.ref c)) d = (.ok (true, .ref none), d')) :
    onVol (status p (.ref c)) d' = (.ok (⟨.directory, Perms.all⟩, .ref none), d') ∧
    onVol (symlinkStatus p (.ref c)) d' = (.ok (⟨.directory, Perms.all⟩, .ref none), d') ∧
    onVol (isDirectoryP p (.ref c)) d' = (.ok (true, .ref none), d') ∧
    onVol (createDirectory p (.ref c)) d' = (.ok (false, .ref none), d') ∧
    Unchanged d d' := by
  obtain ⟨n, w, hp, hpl, hm⟩ := mkdir_ok h
  obtain ⟨h1, h2⟩ := Vol.find_of_placeOf hp (hm.fits.placeOf (by rw [← Vol.start_cwd hm.fits.cwd]; exact hpl)) hm.look
    (by unfold Vol.isDir; rw [hm.node])
  have h3 : onVol (status p (.ref c)) d' = (.ok (⟨.directory, Perms.all &&& 0o7777⟩, .ref none), d') := eval_stat_at h1 hm.node
  have h4 : onVol (symlinkStatus p (.ref c)) d' = (.ok (⟨.directory, Perms.all &&& 0o7777⟩, .ref none), d') := eval_lstat_at h2 hm.node
  rw [show (Perms.all &&& 0o7777 : Mode) = Perms.all by decide] at h3 h4
  refine ⟨h3, h4, ?_, ?_, hm.unchanged⟩
  · show onVol ((status p (.ref c)).bind _) d' = _
    rw [onVol_bind h3]; rfl
  · show onVol (.call _ _) d' = _
    rw [onVol_call]
    have : answer (.mkdir p.pathname Perms.all) d' = (.error .EEXIST, d') := by
      show d'.make (if p.pathname = [] then .error .ENOENT else d'.placeOf (d'.start d'.cwd p.pathname) (filenames p.pathname)) _ = _
      rw [if_neg hp, hm.fits.placeOf (by rw [← Vol.start_cwd hm.fits.cwd]; exact hpl)]
      unfold Vol.make
      simp only [hm.look]
    rw [this]; rfl

/-! ## Symbolic links -/

theorem symlink_ok {t l : Path} {c : Code} {d d' : Vol} (h : onVol (createSymlink t l (.ref c)) d = (.ok ((), .ref none), d')) :
    ∃ n w, t.pathname ≠ [] ∧ t.pathname.length < 4096 ∧ d.place l.pathname = .ok (n, w) ∧
      d.Made d' n w ⟨.link t.pathname, 0o777, 1⟩ := by
  have h : onVol (.call _ _) d = _ := h
  rw [onVol_call] at h
  generalize ha : answer (.symlink t.pathname l.pathname) d = a at h
  obtain ⟨r, d1⟩ := a
  have ha : (if t.pathname = [] then (.error .ENOENT, d)
      else if 4096 ≤ t.pathname.length then (.error .ENAMETOOLONG, d)
      else d.make (d.place l.pathname) (fun _ => ⟨.link t.pathname, 0o777, 1⟩)) = ((r, d1) : Except Errno Unit × Vol) := ha
  cases r with
  | ok u =>
    obtain ⟨-, rfl⟩ := Prod.mk.inj h
    split at ha
    · cases ha
    · split at ha
      · cases ha
      · obtain ⟨n, w, h1, h2⟩ := Vol.make_ok ha
        exact ⟨n, w, ‹_›, by omega, h1, h2⟩
  | error e => cases h

theorem readSymlink_take {d : Vol} {l : Path} {c : Code} {m : Nat} {t : Str} (hf : d.findLink l.pathname = .ok m) (ht : d.text m = some t)
    (h0 : t ≠ []) : onVol (readSymlink l (.ref c)) d = (.ok (mkPath .posix (t.take 4096), .ref none), d) := by
  have ha : answer (.readlink l.pathname (Int.toNat 4096)) d = ((.ok (t.take 4096) : Except Errno Str), d) := by
    show (d.linkText l.pathname 4096, d) = _
    unfold Vol.linkText
    rw [hf]
    simp only [ht]
  have h2 : ((t.take 4096).length : Int) ≤ (4096 : Int) ∧ 0 < (t.take 4096).length := by
    have := List.length_pos_iff.mpr h0
    rw [List.length_take]
    omega
  unfold readSymlink
  rw [onVol_call]
  show onVol (if (0 : Int) < 4096 then .call (.readlink l.pathname (4096 : Int).toNat) _ else _) d = _
  rw [if_pos (by decide), onVol_call]
  rw [ha]
  show onVol (if ((t.take 4096).length : Int) ≤ (4096 : Int) ∧ 0 < (t.take 4096).length then _ else _) d = _
  rw [if_pos h2]
  rfl

theorem readSymlink_at {d : Vol} {l : Path} {c : Code} {m : Nat} {t : Str} (hf : d.findLink l.pathname = .ok m) (ht : d.text m = some t)
    (h0 : t ≠ []) (h1 : t.length < 4096) : onVol (readSymlink l (.ref c)) d = (.ok (mkPath .posix t, .ref none), d) := by
  rw [readSymlink_take hf ht h0, List.take_of_length_le (by omega)]

theorem readSymlink_seen {d d' : Vol} {l : Path} {c : Code} {r : Path × EcArg} (h : onVol (readSymlink l (.ref c)) d = (.ok r, d')) :
    d' = d ∧ ((∃ e, r.2 = .ref (some e)) ∨
      ∃ m t, d.findLink l.pathname = .ok m ∧ d.text m = some t ∧ t ≠ [] ∧ r = (mkPath .posix (t.take 4096), .ref none)) := by
  have ha : answer (.readlink l.pathname (Int.toNat 4096)) d = (d.linkText l.pathname 4096, d) := rfl
  unfold readSymlink at h
  rw [onVol_call] at h
  have h : onVol (if (0 : Int) < 4096 then .call (.readlink l.pathname (4096 : Int).toNat) _ else _) d = _ := h
  rw [if_pos (by decide), onVol_call, ha] at h
  unfold Vol.linkText at h
  cases hf : d.findLink l.pathname with
  | error e =>
    rw [hf] at h
    cases h
    exact ⟨rfl, .inl ⟨e, rfl⟩⟩
  | ok m =>
    cases ht : d.text m with
    | none =>
      simp only [hf, ht] at h
      cases h
      exact ⟨rfl, .inl ⟨_, rfl⟩⟩
    | some t =>
      simp only [hf, ht] at h
      split at h
      · rename_i hl
        have h0 : t ≠ [] := by rintro rfl; simp at hl
        obtain ⟨h1, h2⟩ := Prod.mk.inj h
        cases h1
        exact ⟨h2.symm, .inr ⟨m, t, rfl, ht, h0, rfl⟩⟩
      · cases h

theorem isSymlink_at {d : Vol} {l : Path} {c : Code} {m : Nat} {i : INode} (hf : d.findLink l.pathname = .ok m) (hm : d.node m = some i) :
    onVol (isSymlinkP l (.ref c)) d = (.ok (kindOf i.body == .symlink, .ref none), d) := by
  have h := eval_lstat_at (c := c) hf hm
  show onVol ((symlinkStatus l (.ref c)).bind _) d = _
  rw [onVol_bind h]
  rfl

/-- After a symbolic link has been created, it is one, reading it gives the target as it was given, and everything else is as it was. -/
theorem c125_create_symlink {t l : Path} (ht : Value t) (c : Code) (d d' : Vol)
    (h : onVol (createSymlink t l (.ref c)) d = (.ok ((), .ref none), d')) :
    (∃ r, onVol (readSymlink l (.ref c)) d' = (.ok (r, .ref none), d') ∧ r.pathname = t.pathname) ∧
    onVol (isSymlinkP l (.ref c)) d' = (.ok (true, .ref none), d') ∧ Unchanged d d' := by
  obtain ⟨n, w, h0, h1, hpl, hm⟩ := symlink_ok h
  have hf : d'.findLink l.pathname = .ok d.next := Vol.findLink_ok.mpr ⟨n, w, hm.fits.place hpl, hm.look⟩
  have hx : d'.text d.next = some t.pathname := by unfold Vol.text; rw [hm.node]
  exact ⟨⟨_, readSymlink_at hf hx h0 h1, by rw [mkPath_pathname, ht.shape.stored]⟩, isSymlink_at hf hm.node, hm.unchanged⟩

/-- A copy of a symbolic link reads as the symbolic link did. -/
theorem c125_copy_symlink {a b : Path} (c : Code) (d d' : Vol)
    (h : onVol (copySymlink a b (.ref c)) d = (.ok ((), .ref none), d')) :
    (∃ r, onVol (readSymlink a (.ref c)) d = (.ok (r, .ref none), d) ∧ onVol (readSymlink a (.ref c)) d' = (.ok (r, .ref none), d') ∧
      onVol (readSymlink b (.ref c)) d' = (.ok (r, .ref none), d')) ∧
    onVol (isSymlinkP b (.ref c)) d' = (.ok (true, .ref none), d') ∧ Unchanged d d' := by
  cases hr : onVol (readSymlink a (.ref none)) d with
  | mk o d1 =>
    have h : onVol ((readSymlink a (.ref none)).bind fun x => if x.2.isSet then _ else createSymlink x.1 b (.ref none)) d = _ := h
    cases o with
    | error x =>
      rw [show onVol ((readSymlink a (.ref none)).bind _) d = _ from eval_bind_error (m := kernel) hr] at h
      cases h
    | ok r =>
      rw [onVol_bind hr] at h
      obtain ⟨rfl, ⟨e, he⟩ | ⟨m, t, h1, h2, h3, rfl⟩⟩ := readSymlink_seen hr
      · obtain ⟨r, ec⟩ := r
        subst he
        cases h
      · have h : onVol (createSymlink (mkPath .posix (t.take 4096)) b (.ref none)) d1 = _ := h
        obtain ⟨n, w, h4, h5, hpl, hm⟩ := symlink_ok h
        have hf : d'.findLink b.pathname = .ok d1.next := Vol.findLink_ok.mpr ⟨n, w, hm.fits.place hpl, hm.look⟩
        have hx : d'.text d1.next = some (mkPath .posix (t.take 4096)).pathname := by unfold Vol.text; rw [hm.node]
        have hs : (d1.node m).isSome = true := by
          obtain ⟨x, y, -, hl⟩ := Vol.findLink_ok.mp h1
          exact Vol.look_isSome hl
        refine ⟨⟨_, readSymlink_take h1 h2 h3, readSymlink_take (hm.fits.findLink h1) (by rw [hm.fits.text hs]; exact h2) h3, ?_⟩,
          isSymlink_at hf hm.node, hm.unchanged⟩
        rw [readSymlink_at hf hx h4 h5, mkPath_idem]

/-! ## Hard links -/

theorem text_none {d : Vol} {m : Nat} {i : INode} (hm : d.node m = some i) (h : (kindOf i.body == .symlink) = false) : d.text m = none := by
  unfold Vol.text
  rw [hm]
  obtain ⟨b, mo, l⟩ := i
  cases b with
  | file s => rfl
  | dir up es => rfl
  | link t => cases h

theorem equivalent_at {d : Vol} {p q : Path} (hp : Value p) (hq : Value q) {c : Code} {m n : Nat} {i j : INode}
    (h1 : d.find p.pathname = .ok m) (h2 : d.node m = some i) (h3 : d.find q.pathname = .ok n) (h4 : d.node n = some j) :
    onVol (equivalent p q (.ref c)) d = (.ok (m == n, .ref none), d) := by
  have e1 : (mkPath .posix p.pathname).pathname = p.pathname := by rw [mkPath_pathname, hp.shape.stored]
  have e2 : (mkPath .posix q.pathname).pathname = q.pathname := by rw [mkPath_pathname, hq.shape.stored]
  have hx (k : Nat) (x : INode) : (statusOf (Vol.attr k x)).exists' = true := by
    rw [statusOf_attr]
    obtain ⟨b, mo, l⟩ := x
    cases b <;> rfl
  unfold equivalent
  simp only [Prog.bind_eq]
  rw [onVol_bind (onVol_getStatus_ok (by rw [e1]; exact attrs_node h1 h2))]
  simp only [hx, Bool.not_true, Bool.false_eq_true, if_false]
  rw [onVol_bind (onVol_getStatus_ok (by rw [e2]; exact attrs_node h3 h4))]
  simp only [hx, Bool.not_true, Bool.false_eq_true, if_false]
  show (Except.ok (statEquivalent (Vol.attr m i) (Vol.attr n j), EcArg.ref none), d) = _
  unfold statEquivalent Vol.attr
  simp

theorem count_at {d : Vol} {p : Path} {c : Code} {m : Nat} {i : INode} (h1 : d.find p.pathname = .ok m) (h2 : d.node m = some i) :
    onVol (hardLinkCount p (.ref c)) d = (.ok (BitVec.ofNat 64 i.nlink, .ref none), d) := by
  unfold hardLinkCount
  simp only [Prog.bind_eq]
  rw [onVol_bind (onVol_getStatus_ok (attrs_node h1 h2))]
  rfl

/-- A hard link to something other than a symbolic link is the same file, it is counted, and everything else is as it was. -/
theorem c125_create_hard_link {a b : Path} (ha : Value a) (hb : Value b) (c : Code) (d d' : Vol)
    (hl : onVol (isSymlinkP a (.ref c)) d = (.ok (false, .ref none), d))
    (h : onVol (createHardLink a b (.ref c)) d = (.ok ((), .ref none), d')) :
    onVol (equivalent a b (.ref c)) d' = (.ok (true, .ref none), d') ∧
    (∃ v, onVol (hardLinkCount a (.ref c)) d = (.ok (v, .ref none), d) ∧
      onVol (hardLinkCount a (.ref c)) d' = (.ok (v + 1, .ref none), d') ∧
      onVol (hardLinkCount b (.ref c)) d' = (.ok (v + 1, .ref none), d')) ∧ Unchanged d d' := by
  have h : onVol (.call _ _) d = _ := h
  rw [onVol_call] at h
  generalize ha' : answer (.link a.pathname b.pathname) d = x at h
  obtain ⟨r, d1⟩ := x
  have ha' : d.hardLink a.pathname b.pathname = (r, d1) := ha'
  cases r with
  | error e => cases h
  | ok u =>
    have hd : d' = d1 := (Prod.mk.inj h).2.symm
    subst hd
    obtain ⟨m, n, w, i, h1, h2, h3, h4, h5, h6, h7, h8, h9, h10⟩ := Vol.hardLink_ok ha'
    rw [isSymlink_at h1 h4] at hl
    have hk : (kindOf i.body == .symlink) = false := by
      have := (Prod.mk.inj hl).1
      simpa using this
    have ht := text_none h4 hk
    have ht' : d'.text m = none := text_none h8 hk
    have e1 := h6.find (Vol.find_of_findLink h1 ht)
    have e2 : d'.find b.pathname = .ok m := Vol.find_of_findLink (Vol.findLink_ok.mpr ⟨n, w, h6.place h2, h7⟩) ht'
    refine ⟨?_, ⟨_, count_at (Vol.find_of_findLink h1 ht) h4, ?_, ?_⟩, unchanged_of h6 h10⟩
    · rw [equivalent_at ha hb e1 h8 e2 h8]; simp
    · rw [count_at e1 h8, BitVec.ofNat_add]; rfl
    · rw [count_at e2 h8, BitVec.ofNat_add]; rfl

/-! ## Sizes and permissions -/

theorem size_at {d : Vol} {p : Path} {c : Code} {m : Nat} {i : INode} {s : BitVec 64} (h1 : d.find p.pathname = .ok m)
    (h2 : d.node m = some i) (h3 : i.body = .file s) : onVol (fileSize p (.ref c)) d = (.ok (s, .ref none), d) := by
  unfold fileSize
  simp only [Prog.bind_eq]
  rw [onVol_bind (onVol_getStatus_ok (attrs_node h1 h2)), statusOf_attr, h3]
  show (Except.ok ((Vol.attr m i).size, EcArg.ref none), d) = _
  unfold Vol.attr
  rw [h3]

theorem onVol_getStatus_error {p : Path} {c : Code} {d : Vol} {e : Errno} {st0 : Option Stat} (h : d.attrs (d.find p.pathname) = .error e) :
    onVol (getFileStatus p st0 (.ref c)) d = (.ok (({ type := typeOfErr e }, st0), .ref (some e)), d) :=
  eval_getFileStatus_error (m := kernel) (s := d) (s' := d) (by show (d.attrs (d.find p.pathname), d) = _; rw [h]; rfl)

theorem attrs_seen {d : Vol} {x : Except Errno Nat} {s : Stat} (h : d.attrs x = .ok s) : ∃ m i, x = .ok m ∧ d.node m = some i ∧ s = Vol.attr m i := by
  cases x with
  | error e => cases h
  | ok m =>
    unfold Vol.attrs at h
    simp only at h
    cases hm : d.node m with
    | none => simp [hm] at h
    | some i => simp only [hm] at h; cases h; exact ⟨m, i, rfl, hm, rfl⟩

theorem typeOfErr_exists (e : Errno) : ({ type := typeOfErr e } : FStatus).exists' = false := by
  unfold typeOfErr
  split
  · rfl
  · rfl

/-- What is compared and there is one inode or two. -/
theorem equivalent_seen {d : Vol} {p q : Path} (hp : Value p) (hq : Value q) {c : Code} {b : Bool}
    (h : onVol (equivalent p q (.ref c)) d = (.ok (b, .ref none), d)) : ∃ m i n j, d.find p.pathname = .ok m ∧ d.node m = some i ∧
      d.find q.pathname = .ok n ∧ d.node n = some j ∧ b = (m == n) := by
  have e1 : (mkPath .posix p.pathname).pathname = p.pathname := by rw [mkPath_pathname, hp.shape.stored]
  have e2 : (mkPath .posix q.pathname).pathname = q.pathname := by rw [mkPath_pathname, hq.shape.stored]
  cases h1 : d.attrs (d.find p.pathname) with
  | error e =>
    unfold equivalent at h
    simp only [Prog.bind_eq] at h
    rw [onVol_bind (onVol_getStatus_error (by rw [e1]; exact h1))] at h
    simp only [typeOfErr_exists, Bool.not_false, if_true] at h
    cases h
  | ok s =>
    obtain ⟨m, i, h3, h4, rfl⟩ := attrs_seen h1
    cases h2 : d.attrs (d.find q.pathname) with
    | error e =>
      have hx : (statusOf (Vol.attr m i)).exists' = true := by
        rw [statusOf_attr]
        obtain ⟨b, mo, l⟩ := i
        cases b <;> rfl
      unfold equivalent at h
      simp only [Prog.bind_eq] at h
      rw [onVol_bind (onVol_getStatus_ok (by rw [e1]; exact h1))] at h
      simp only [hx, Bool.not_true, Bool.false_eq_true, if_false] at h
      rw [onVol_bind (onVol_getStatus_error (by rw [e2]; exact h2))] at h
      simp only [typeOfErr_exists, Bool.not_false, if_true] at h
      cases h
    | ok s =>
      obtain ⟨n, j, h5, h6, rfl⟩ := attrs_seen h2
      rw [equivalent_at hp hq h3 h4 h5 h6] at h
      refine ⟨m, i, n, j, h3, h4, h5, h6, ?_⟩
      cases h
      rfl

theorem size_seen {d : Vol} {p : Path} {c : Code} {v : BitVec 64} (h : onVol (fileSize p (.ref c)) d = (.ok (v, .ref none), d)) :
    ∃ m i, d.find p.pathname = .ok m ∧ d.node m = some i ∧ i.body = .file v := by
  cases h1 : d.attrs (d.find p.pathname) with
  | error e =>
    unfold fileSize at h
    simp only [Prog.bind_eq] at h
    rw [onVol_bind (onVol_getStatus_error h1)] at h
    simp only [typeOfErr_exists, Bool.not_false, Bool.true_or, if_true] at h
    cases h
  | ok s =>
    obtain ⟨m, i, h3, h4, rfl⟩ := attrs_seen h1
    refine ⟨m, i, h3, h4, ?_⟩
    unfold fileSize at h
    simp only [Prog.bind_eq] at h
    rw [onVol_bind (onVol_getStatus_ok h1), statusOf_attr] at h
    obtain ⟨b, mo, l⟩ := i
    cases b with
    | file s => cases h; rfl
    | dir up es => cases h
    | link t => cases h

theorem beq_nat_true {m n : Nat} (h : true = (m == n)) : m = n := by simpa using h.symm
theorem beq_nat_false {m n : Nat} (h : false = (m == n)) : m ≠ n := by simpa using h.symm

/-- After a file has been resized, it has that size under all its names, other files have the sizes they had,
and everything else is as it was. -/
theorem c125_resize_file {p : Path} (hp : Value p) (n : BitVec 64) (c : Code) (d d' : Vol)
    (h : onVol (resizeFile p n (.ref c)) d = (.ok ((), .ref none), d')) :
    onVol (fileSize p (.ref c)) d' = (.ok (n, .ref none), d') ∧
    (∀ q v, Value q → onVol (fileSize q (.ref c)) d = (.ok (v, .ref none), d) →
      (onVol (equivalent p q (.ref c)) d = (.ok (true, .ref none), d) → onVol (fileSize q (.ref c)) d' = (.ok (n, .ref none), d')) ∧
      (onVol (equivalent p q (.ref c)) d = (.ok (false, .ref none), d) → onVol (fileSize q (.ref c)) d' = (.ok (v, .ref none), d'))) ∧
    Unchanged d d' := by
  have h : onVol (.call _ _) d = _ := h
  rw [onVol_call] at h
  generalize ha : answer (.truncate p.pathname n) d = x at h
  obtain ⟨r, d1⟩ := x
  have ha : d.resize p.pathname n = (r, d1) := ha
  cases r with
  | error e => cases h
  | ok u =>
    have hd : d' = d1 := (Prod.mk.inj h).2.symm
    subst hd
    unfold Vol.resize at ha
    split at ha
    · cases ha
    · rename_i m hf
      split at ha
      · rename_i s mo l hm
        split at ha
        · cases ha
        · have hd : d' = d.set m ⟨.file n, mo, l⟩ := (Prod.mk.inj ha).2.symm
          have he : d.Edit d' (Vol.at1 m fun _ => ⟨.file n, mo, l⟩) := by
            rw [hd]; exact Vol.set_edit d m _ (fun _ => ⟨.file n, mo, l⟩) hm
          have hfit : d.Fits d' := by
            refine he.fits fun k i hk => ?_
            unfold Vol.at1
            split
            · rename_i hkm; subst hkm; rw [hm] at hk; cases hk; exact ⟨_, rfl⟩
            · exact Vol.body_refl ..
          have hmode : ∀ k j, d.node k = some j → ∃ j', d'.node k = some j' ∧ (Vol.attr k j').mode = (Vol.attr k j).mode := by
            intro k i hk
            refine ⟨_, he.here hk, ?_⟩
            unfold Vol.at1
            split
            · rename_i hkm; subst hkm; rw [hm] at hk; cases hk; rfl
            · rfl
          have hm' : d'.node m = some ⟨.file n, mo, l⟩ := by rw [he.here hm, Vol.at1, if_pos rfl]
          refine ⟨size_at (hfit.find hf) hm' rfl, fun q v hq hv => ⟨fun hqe => ?_, fun hqe => ?_⟩, unchanged_of hfit hmode⟩
          · obtain ⟨m1, i1, n1, j1, h1, -, h3, -, h5⟩ := equivalent_seen hp hq hqe
            rw [hf] at h1; cases h1
            have h5 := beq_nat_true h5
            subst h5
            exact size_at (hfit.find h3) hm' rfl
          · obtain ⟨m1, i1, n1, j1, h1, -, h3, -, h5⟩ := equivalent_seen hp hq hqe
            rw [hf] at h1; cases h1
            have h5 := beq_nat_false h5
            obtain ⟨k, i, h6, h7, h8⟩ := size_seen hv
            rw [h3] at h6; cases h6
            refine size_at (i := i) (hfit.find h3) ?_ h8
            rw [he.here h7, Vol.at1, if_neg (Ne.symm h5)]
      · cases ha
      · cases ha

/-- After permissions have been replaced, the file has them under all its names, and other files have those they had. -/
theorem c125_permissions {p : Path} (hp : Value p) (prms : Perms) (c : Code) (d d' : Vol)
    (h : onVol (permissions p prms .replace (.ref c)) d = (.ok ((), .ref none), d')) :
    ∀ q st, Value q → onVol (status q (.ref c)) d = (.ok (st, .ref none), d) →
      (onVol (equivalent p q (.ref c)) d = (.ok (true, .ref none), d) →
        onVol (status q (.ref c)) d' = (.ok (⟨st.type, prms &&& Perms.mask⟩, .ref none), d')) ∧
      (onVol (equivalent p q (.ref c)) d = (.ok (false, .ref none), d) →
        onVol (status q (.ref c)) d' = (.ok (st, .ref none), d')) := by
  have h : onVol (.call (.fchmodat p.pathname ((prms &&& Perms.mask) &&& Perms.mask) false) _) d = _ := h
  rw [onVol_call] at h
  generalize ha : answer (.fchmodat p.pathname ((prms &&& Perms.mask) &&& Perms.mask) false) d = x at h
  obtain ⟨r, d1⟩ := x
  have ha : d.chmod p.pathname ((prms &&& Perms.mask) &&& Perms.mask) = (r, d1) := ha
  rw [BitVec.and_assoc, BitVec.and_self] at ha
  cases r with
  | error e => cases h
  | ok u =>
    have hd : d' = d1 := (Prod.mk.inj h).2.symm
    subst hd
    unfold Vol.chmod at ha
    split at ha
    · cases ha
    · rename_i m hf
      split at ha
      · rename_i b mo l hm
        have hd : d' = d.set m ⟨b, prms &&& Perms.mask, l⟩ := (Prod.mk.inj ha).2.symm
        have he : d.Edit d' (Vol.at1 m fun i => ⟨i.body, prms &&& Perms.mask, i.nlink⟩) := by
          rw [hd]; exact Vol.set_edit d m _ (fun i => ⟨i.body, prms &&& Perms.mask, i.nlink⟩) hm
        have hfit : d.Fits d' := by
          refine he.fits fun k i hk => ?_
          unfold Vol.at1
          split
          · exact Vol.body_refl ..
          · exact Vol.body_refl ..
        intro q st hq hst
        obtain ⟨s, h1, rfl⟩ := status_seen.mp hst
        obtain ⟨k, i, h2, h3, rfl⟩ := attrs_seen h1
        rw [statusOf_attr]
        constructor
        · intro hqe
          obtain ⟨m1, i1, n1, j1, h4, -, h5, -, h6⟩ := equivalent_seen hp hq hqe
          rw [hf] at h4; cases h4
          rw [h2] at h5; cases h5
          have h6 := beq_nat_true h6
          subst h6
          rw [eval_stat_at (hfit.find h2) (he.here h3), Vol.at1, if_pos rfl]
          show (Except.ok ((⟨kindOf i.body, (prms &&& Perms.mask) &&& 0o7777⟩ : FStatus), EcArg.ref none), d') = _
          rw [show (0o7777 : Mode) = Perms.mask from rfl, BitVec.and_assoc, BitVec.and_self]
        · intro hqe
          obtain ⟨m1, i1, n1, j1, h4, -, h5, -, h6⟩ := equivalent_seen hp hq hqe
          rw [hf] at h4; cases h4
          rw [h2] at h5; cases h5
          have h6 := beq_nat_false h6
          rw [eval_stat_at (hfit.find h2) (he.here h3), Vol.at1, if_neg (Ne.symm h6)]
      · cases ha

/-! ## Removal -/

/-- After something has been removed, it is not there, removing it again reports so without an error, what is there was there,
and what was there is still there or cannot be found any more. -/
theorem c125_remove {p : Path} (c : Code) (d d' : Vol)
    (h : onVol (remove p (.ref c)) d = (.ok (true, .ref none), d')) :
    onVol (symlinkStatus p (.ref c)) d' = (.ok ({ type := .notFound }, .ref (some .ENOENT)), d') ∧
    onVol (remove p (.ref c)) d' = (.ok (false, .ref none), d') ∧
    Unchanged d' d ∧
    ∀ q st, onVol (status q (.ref c)) d = (.ok (st, .ref none), d) →
      onVol (status q (.ref c)) d' = (.ok (st, .ref none), d') ∨
      onVol (status q (.ref c)) d' = (.ok ({ type := .notFound }, .ref (some .ENOENT)), d') := by
  by_cases hpe : p.isEmpty = true
  · unfold remove at h
    rw [if_pos hpe] at h
    cases h
  unfold remove at h
  rw [if_neg hpe, onVol_call] at h
  generalize ha : answer (.remove p.pathname) d = x at h
  obtain ⟨r, d1⟩ := x
  have ha : d.erase p.pathname = (r, d1) := ha
  cases r with
  | error e =>
    dsimp only at h
    split at h
    · cases h
    · cases h
  | ok u =>
    have hd : d' = d1 := (Prod.mk.inj h).2.symm
    subst hd
    obtain ⟨m, n, w, h1, h2, h3, h4, h5, h6, -, -, -, h10⟩ := Vol.erase_ok ha
    have hback : ∀ k j, d'.node k = some j → ∃ j', d.node k = some j' ∧ (Vol.attr k j').mode = (Vol.attr k j).mode := by
      intro k j hk
      cases hd : d.node k with
      | none => have := h5.isSome k; rw [hk, hd] at this; cases this
      | some i =>
        obtain ⟨j', h11, h12⟩ := h10 k i hd
        rw [hk] at h11; cases h11
        exact ⟨i, rfl, h12.symm⟩
    have hgone : d'.place p.pathname = .ok (n, w) ∨ d'.place p.pathname = .error .ENOENT := h5.place h1
    have hlk : d'.findLink p.pathname = .error .ENOENT := by
      unfold Vol.findLink
      rcases hgone with h | h
      · rw [h]; exact h6
      · rw [h]
    refine ⟨onVol_lstatus_error (by rw [hlk]; rfl), ?_, unchanged_of h5.back hback, fun q st hq => ?_⟩
    · have : answer (.remove p.pathname) d' = ((.error .ENOENT : Except Errno Unit), d') := by
        show d'.erase p.pathname = _
        unfold Vol.erase
        rcases hgone with h | h
        · rw [h]; simp only [h6]
        · rw [h]
      unfold remove
      rw [if_neg hpe, onVol_call, this]
      rfl
    · obtain ⟨s, h11, rfl⟩ := status_seen.mp hq
      obtain ⟨k, s', h12, h13, h14⟩ := attrs_mode h10 h11
      rcases h5.find h12 with h | h
      · exact .inl (status_seen.mpr ⟨s', by rw [h]; exact h13, h14.symm⟩)
      · exact .inr (onVol_status_error (by rw [h]; rfl))

/-! ## Moving -/

theorem rename_ok {a b : Path} {c : Code} {d d' : Vol} (h : onVol (rename a b (.ref c)) d = (.ok ((), .ref none), d')) :
    d.move a.pathname b.pathname = (.ok (), d') := by
  have h : onVol (.call _ _) d = _ := h
  rw [onVol_call] at h
  generalize ha : answer (.rename a.pathname b.pathname) d = x at h
  obtain ⟨r, d1⟩ := x
  have ha : d.move a.pathname b.pathname = (r, d1) := ha
  cases r with
  | error e => cases h
  | ok u =>
    have hd : d' = d1 := (Prod.mk.inj h).2.symm
    subst hd
    exact ha

/-- The place a name in the working directory names. -/
theorem Spec.Vol.place_name {d : Vol} {w : Str} (h0 : w ≠ []) (hs : '/' ∉ w) : d.place w = .ok (d.cwd, w) := by
  refine Vol.place_ok.mpr ⟨h0, Vol.placeOf_ok.mpr (.inr ⟨[], ?_, ?_⟩)⟩
  · unfold relElements
    rw [filenames_noSlash hs, if_neg h0]
    have : endsSlash w = false := by
      unfold endsSlash
      cases hl : w.getLast? with
      | none => rfl
      | some x =>
        have hx := List.mem_of_getLast? hl
        have : x ≠ '/' := by rintro rfl; exact hs hx
        simpa using this
    rw [this]
    simp
  · rw [Vol.follow_nil]
    unfold Vol.start
    have : startsSlash w = false := by
      unfold startsSlash
      cases w with
      | nil => rfl
      | cons x w =>
        have : x ≠ '/' := by rintro rfl; exact hs (List.mem_cons_self ..)
        simpa using this
    rw [this]
    rfl

/-- After something has been moved, it is what is seen at the new place, provided that the directory part of the new path still
leads to the directory it led to, and nothing is seen at the old place, likewise, unless both were the same file. -/
theorem c125_rename_general {a b : Path} (c : Code) (d d' : Vol)
    (h : onVol (rename a b (.ref c)) d = (.ok ((), .ref none), d')) :
    ∃ st, onVol (symlinkStatus a (.ref c)) d = (.ok (st, .ref none), d) ∧
      (d'.place b.pathname = d.place b.pathname → onVol (symlinkStatus b (.ref c)) d' = (.ok (st, .ref none), d')) ∧
      (d'.place a.pathname = d.place a.pathname → d.findLink a.pathname ≠ d.findLink b.pathname →
        onVol (symlinkStatus a (.ref c)) d' = (.ok ({ type := .notFound }, .ref (some .ENOENT)), d')) ∧
      (d.findLink a.pathname = d.findLink b.pathname → d' = d) := by
  obtain ⟨m, n, w, n', w', i, h1, h2, h3, h4, -, -, h5⟩ := Vol.move_ok (rename_ok h)
  have hfa : d.findLink a.pathname = .ok m := Vol.findLink_ok.mpr ⟨n, w, h1, h3⟩
  have hfb : d.findLink b.pathname = d.look n' w' := by unfold Vol.findLink; rw [h2]
  refine ⟨_, eval_lstat_at hfa h4, ?_, ?_, ?_⟩
  · intro hb
    rcases h5 with ⟨h6, rfl⟩ | ⟨h6, h7, -, -, i', h8, h9⟩
    · exact eval_lstat_at (by rw [hfb]; exact h6) h4
    · have : d'.findLink b.pathname = .ok m := Vol.findLink_ok.mpr ⟨n', w', hb.trans h2, h7⟩
      rw [eval_lstat_at this h8, ← statusOf_attr m, ← statusOf_attr m, statusOf_mode h9]
  · intro ha hne
    rcases h5 with ⟨h6, rfl⟩ | ⟨h6, -, h7, -⟩
    · exact absurd (by rw [hfa, hfb, h6]) hne
    · have : d'.findLink a.pathname = .error .ENOENT := by
        unfold Vol.findLink
        rw [ha, h1]
        exact h7
      exact onVol_lstatus_error (by rw [this]; rfl)
  · intro he
    rcases h5 with ⟨-, rfl⟩ | ⟨h6, -⟩
    · rfl
    · rw [hfa, hfb] at he
      exact absurd he.symm h6

/-- Between names in the working directory nothing more is needed. -/
theorem c125_rename {a b : Path} (ha : a.pathname ≠ [] ∧ '/' ∉ a.pathname) (hb : b.pathname ≠ [] ∧ '/' ∉ b.pathname) (c : Code) (d d' : Vol)
    (h : onVol (rename a b (.ref c)) d = (.ok ((), .ref none), d')) :
    ∃ st, onVol (symlinkStatus a (.ref c)) d = (.ok (st, .ref none), d) ∧ onVol (symlinkStatus b (.ref c)) d' = (.ok (st, .ref none), d') ∧
      (d.findLink a.pathname ≠ d.findLink b.pathname →
        onVol (symlinkStatus a (.ref c)) d' = (.ok ({ type := .notFound }, .ref (some .ENOENT)), d')) := by
  have hcwd : d'.cwd = d.cwd := by
    obtain ⟨m, n, w, n', w', i, -, -, -, -, -, -, h5⟩ := Vol.move_ok (rename_ok h)
    rcases h5 with ⟨-, rfl⟩ | ⟨-, -, -, h6, -⟩
    · rfl
    · exact h6
  obtain ⟨st, h1, h2, h3, -⟩ := c125_rename_general c d d' h
  refine ⟨st, h1, h2 ?_, h3 ?_⟩
  · rw [Vol.place_name hb.1 hb.2, Vol.place_name hb.1 hb.2, hcwd]
  · rw [Vol.place_name ha.1 ha.2, Vol.place_name ha.1 ha.2, hcwd]

/-- A directory with a file and a symbolic link to the directory itself. -/
def loopVol : Vol := ⟨fun n => match n with
  | 0 => some ⟨.dir 0 [("f".toList, 1), ("l".toList, 2)], 0o755, 2⟩
  | 1 => some ⟨.file 3, 0o644, 1⟩
  | 2 => some ⟨.link ".".toList, 0o777, 1⟩
  | _ => none, 0, 3⟩

/-- The proviso is needed: a path that leads through what is replaced, here `l/l`, does not lead to it afterwards. -/
theorem c125_rename_proviso : ∃ (d d' : Vol) (a b : Path), Value a ∧ Value b ∧
    onVol (rename a b (.ref none)) d = (.ok ((), .ref none), d') ∧
    onVol (status a (.ref none)) d = (.ok (⟨.regular, 0o644⟩, .ref none), d) ∧
    onVol (symlinkStatus b (.ref none)) d' = (.ok ({ type := .notFound }, .ref (some .ENOTDIR)), d') :=
  ⟨loopVol, (onVol (rename (mkPath .posix "f".toList) (mkPath .posix "l/l".toList) (.ref none)) loopVol).2,
    mkPath .posix "f".toList, mkPath .posix "l/l".toList, .reach (reach_mkPath _), .reach (reach_mkPath _),
    Prod.ext (by rfl) rfl, Prod.ext (by rfl) rfl, Prod.ext (by rfl) rfl⟩

/-! ## A volume on which all this happens -/

/-- A root directory with a file, a directory and a symbolic link to the file. -/
def aVol : Vol := ⟨fun n => match n with
  | 0 => some ⟨.dir 0 [("f".toList, 1), ("d".toList, 2), ("l".toList, 3)], 0o755, 3⟩
  | 1 => some ⟨.file 3, 0o644, 1⟩
  | 2 => some ⟨.dir 0 [], 0o755, 2⟩
  | 3 => some ⟨.link "/f".toList, 0o777, 1⟩
  | _ => none, 0, 4⟩

example : (onVol (createDirectory (mkPath .posix "/d/x/".toList) (.ref none)) aVol).1 = .ok (true, .ref none) := by rfl
example : (onVol (createSymlink (mkPath .posix "f".toList) (mkPath .posix "d/x".toList) (.ref none)) aVol).1 = .ok ((), .ref none) := by rfl
example : (onVol (copySymlink (mkPath .posix "l".toList) (mkPath .posix "d/x".toList) (.ref none)) aVol).1 = .ok ((), .ref none) := by rfl
example : (onVol (createHardLink (mkPath .posix "f".toList) (mkPath .posix "d/x".toList) (.ref none)) aVol).1 = .ok ((), .ref none) := by rfl
example : (onVol (isSymlinkP (mkPath .posix "f".toList) (.ref none)) aVol).1 = .ok (false, .ref none) := by rfl
example : (onVol (resizeFile (mkPath .posix "l".toList) 7 (.ref none)) aVol).1 = .ok ((), .ref none) := by rfl
example : (onVol (equivalent (mkPath .posix "l".toList) (mkPath .posix "f".toList) (.ref none)) aVol).1 = .ok (true, .ref none) := by rfl
example : (onVol (permissions (mkPath .posix "l".toList) 0o600 .replace (.ref none)) aVol).1 = .ok ((), .ref none) := by rfl
example : (onVol (remove (mkPath .posix "d".toList) (.ref none)) aVol).1 = .ok (true, .ref none) := by rfl
example : (onVol (rename (mkPath .posix "f".toList) (mkPath .posix "l".toList) (.ref none)) aVol).1 = .ok ((), .ref none) := by rfl

end Asap
