import Verif.Os.Conf
import Verif.Props.RemoveB
import Verif.Props.ErrA

/-!
# C110: where `copy` acts
-/

namespace Asap
namespace Spec

/-- What `copy` may make or write: `to`, what is under it, and `to` followed by the filename of `from`. -/
def CopyDest (src to x : Str) : Prop := Under to x ∨ x = addElem to (filePart src)

/-- The calls `copy` may make, after the calls `t`: everything it makes is at the destination, it writes only to files it opened for writing
there, and nothing is removed, renamed, truncated or changed by name. -/
def CopyMay (src to : Str) (t : List Event) : Sys → Prop
  | .stat x | .lstat x => Under src x ∨ CopyDest src to x
  | .readlink x _ | .opendir x => Under src x
  | .mkdir x _ => Under to x
  | .symlink _ l => Under to l
  | .link x l => Under src x ∧ Under to l
  | .openf x f _ => if f.write then CopyDest src to x else Under src x ∧ f.creat = false
  | .write fd _ | .ftruncate fd _ | .fchmod fd _ | .sendfile fd _ _ =>
    ∃ x f m, (⟨.openf x f m, (.ok fd : Except Errno Nat)⟩ : Event) ∈ t ∧ f.write = true
  | .read _ _ | .close _ | .readdir _ | .closedir _ | .pathconf => True
  | _ => False

/-- What an exception of `copy` says: it names a place at the source or the destination. -/
def CopyBlames (src to : Str) (x : FsError) : Prop :=
  (x.npaths = 1 ∧ Under src x.path1.pathname) ∨
  (x.npaths = 2 ∧ (CopyDest src to x.path2.pathname ∨ CopyDest src to x.path1.pathname ∧ Under src x.path2.pathname))

end Spec
open Spec

/-- A listing has names. -/
def RealEv (ev : Event) : Prop := ∀ d ent, ev = rdEv d (.ok (some ent)) → IsName ent.name

/-- `Conf` for `copy`. -/
abbrev CopyConf (a b : Str) {α : Type} (Q : α → Prop) (t : List Event) (p : Prog α) : Prop := Conf (CopyMay a b) RealEv (CopyBlames a b) Q t p

section
variable {a b : Str} {t : List Event}

/-- Where a recursive call works. -/
structure CopyAt (a b : Str) (src to : Path) : Prop where
  shape : Shape src
  toShape : Shape to
  under : Under a src.pathname
  dest : Under b to.pathname
  file : CopyDest a b (appendText to.pathname (filePart src.pathname))

theorem CopyMay.mono {t t' : List Event} {c : Sys} (h : CopyMay a b t c) (ht : t ⊆ t') : CopyMay a b t' c := by
  cases c <;> first | exact h | (obtain ⟨x, f, m, h1, h2⟩ := h; exact ⟨x, f, m, ht h1, h2⟩)

theorem conf_createFileStatus {m : Code} {p : Path} {st : Option Stat} {c : Code} :
    CopyConf a b (fun x => ∃ c, x.2 = .ref c) t (createFileStatus m p st (.ref c)) := by
  unfold createFileStatus
  split
  · exact .ret _ _ ⟨_, rfl⟩
  · exact .ret _ _ ⟨_, rfl⟩
  · exact .ret _ _ ⟨_, rfl⟩
  · exact .ret _ _ ⟨_, rfl⟩
  · exact .fault _ _

theorem conf_getFileStatus {p : Path} {st : Option Stat} {c : Code} (h : Under a p.pathname ∨ CopyDest a b p.pathname) :
    CopyConf a b (fun x => ∃ c, x.2 = .ref c) t (getFileStatus p st (.ref c)) := by
  refine .call _ _ _ h fun r _ => ?_
  rcases r with e | r
  · exact conf_createFileStatus.bind fun _ _ _ h => .ret _ _ h
  · exact conf_createFileStatus.bind fun _ _ _ h => .ret _ _ h

theorem conf_getLinkStatus {p : Path} {st : Option Stat} {c : Code} (h : Under a p.pathname ∨ CopyDest a b p.pathname) :
    CopyConf a b (fun x => ∃ c, x.2 = .ref c) t (getLinkStatus p st (.ref c)) := by
  refine .call _ _ _ h fun r _ => ?_
  rcases r with e | r
  · exact conf_createFileStatus.bind fun _ _ _ h => .ret _ _ h
  · exact conf_createFileStatus.bind fun _ _ _ h => .ret _ _ h

theorem conf_refreshStatus {p : Path} (h : Under a p.pathname ∨ CopyDest a b p.pathname) :
    CopyConf a b (fun _ => True) t (refreshStatus p) := by
  refine .call _ _ _ h fun r _ => ?_
  rcases r with e | r
  · exact conf_createFileStatus.bind fun _ _ _ _ => .ret _ _ trivial
  · exact conf_createFileStatus.bind fun _ _ _ _ => .ret _ _ trivial

theorem conf_useStat {st : Option Stat} : CopyConf a b (fun _ => True) t (Prog.useStat st) := by
  cases st
  · exact .fault _ _
  · exact .ret _ _ trivial

/-- `fd` was opened for writing. -/
def Opened (t : List Event) (fd : Nat) : Prop := ∃ x f m, (⟨.openf x f m, (.ok fd : Except Errno Nat)⟩ : Event) ∈ t ∧ f.write = true

theorem Opened.mono {t t' : List Event} {fd : Nat} (h : Opened t fd) (ht : t ⊆ t') : Opened t' fd := by
  obtain ⟨x, f, m, h1, h2⟩ := h
  exact ⟨x, f, m, ht h1, h2⟩

theorem conf_sendLoop {out inp n : Nat} {count : Int} (h : Opened t out) : CopyConf a b (fun _ => True) t (sendLoop out inp n count) := by
  induction n generalizing t count with
  | zero => exact .fuel _
  | succ n ih =>
    refine .call _ _ _ h fun r _ => ?_
    rcases r with e | r
    · exact .ret _ _ trivial
    · dsimp only
      split
      · exact ih (h.mono fun _ h => List.mem_cons_of_mem _ h)
      · exact .ret _ _ trivial

theorem conf_copyDefault {out inp n : Nat} (h : Opened t out) : CopyConf a b (fun _ => True) t (copyDefault inp out n) := by
  induction n generalizing t with
  | zero => exact .fuel _
  | succ n ih =>
    refine .call _ _ _ trivial fun r _ => ?_
    rcases r with e | r
    · exact .ret _ _ trivial
    · dsimp only
      split
      · exact .ret _ _ trivial
      · have h' := h.mono (t' := ⟨.read inp bufsiz, .ok r⟩ :: t) fun _ h => List.mem_cons_of_mem _ h
        refine .call _ _ _ h' fun r _ => ?_
        rcases r with e | r
        · exact .ret _ _ trivial
        · exact ih (h'.mono fun _ h => List.mem_cons_of_mem _ h)

theorem conf_doCopyFile {sf : Bool} {out inp n : Nat} {size : Int} (h : Opened t out) :
    CopyConf a b (fun _ => True) t (doCopyFile sf n inp out size) := by
  unfold doCopyFile
  have hs : CopyConf a b (fun _ => True) t (copySendfile n inp out size) := by
    unfold copySendfile
    split
    · exact .ret _ _ trivial
    · exact (conf_sendLoop h).bind fun _ _ _ _ => .ret _ _ trivial
  simp only [Prog.bind_eq]
  split
  · refine hs.bind fun t' ht x _ => ?_
    split
    · exact .ret _ _ trivial
    · exact conf_copyDefault (h.mono ht)
  · exact conf_copyDefault h

theorem conf_closeFd {fd : Nat} : CopyConf a b (fun _ => True) t (closeFd fd) := .call _ _ _ trivial fun _ _ => .ret _ _ trivial

theorem conf_copyInto {sf : Bool} {n inp : Nat} {h : Handler} {fst : Stat} {to : Path} {tst : Option Stat} {ec : EcArg}
    (hX : ∀ m c, CopyBlames a b (h.error m c)) (ht : CopyDest a b to.pathname) :
    CopyConf a b (fun _ => True) t (copyInto sf n h inp fst to tst ec) := by
  have hr : ∀ {t : List Event} {ec : EcArg} {c : Code} {x : Bool}, CopyConf a b (fun _ => True) t (h.report ec c x) := fun {t ec c x} => .report (hX _ _)
  refine .call _ _ _ ht fun r _ => ?_
  rcases r with e | out
  · exact hr
  · have ho : Opened (⟨.openf to.pathname ⟨true, tst.isNone, false⟩ fst.mode, .ok out⟩ :: t) out := ⟨_, _, _, List.mem_cons_self .., rfl⟩
    refine .finally' ?_ fun _ _ => conf_closeFd
    simp only [Prog.bind_eq]
    refine (conf_refreshStatus (.inr ht)).bind fun t' ht' x _ => ?_
    have ho' := ho.mono ht'
    have hfin : ∀ {t'' : List Event}, t' ⊆ t'' → CopyConf a b (fun _ => True) t'' ((doCopyFile sf n inp out fst.size.toInt).bind fun m =>
        if m ≠ none then h.report ec m false else .ret (true, ec)) := by
      intro t'' hs
      refine (conf_doCopyFile (ho'.mono hs)).bind fun _ _ _ _ => ?_
      split
      · exact hr
      · exact .ret _ _ trivial
    split
    · exact hr
    · cases tst with
      | none => exact hfin fun _ h => h
      | some st =>
        dsimp only
        split
        · exact hr
        · refine .call _ _ _ ho' fun r _ => ?_
          rcases r with e | _
          · exact hr
          · refine .call _ _ _ (ho'.mono fun _ h => List.mem_cons_of_mem _ h) fun r _ => ?_
            rcases r with e | _
            · exact hr
            · exact hfin fun _ h => List.mem_cons_of_mem _ (List.mem_cons_of_mem _ h)

theorem conf_copyFile {sf : Bool} {n : Nat} {src to : Path} {opts : CopyOptions} {ec : EcArg} (hs : Under a src.pathname)
    (ht : CopyDest a b to.pathname) : CopyConf a b (fun _ => True) t (copyFile sf n src to opts ec) := by
  unfold copyFile
  dsimp only
  have hX : ∀ m c, CopyBlames a b ((⟨"copy_file".toList, some to, some src⟩ : Handler).error m c) := fun m c => .inr ⟨rfl, .inr ⟨ht, hs⟩⟩
  generalize (⟨"copy_file".toList, some to, some src⟩ : Handler) = h at hX
  have hr : ∀ {t : List Event} {ec : EcArg} {c : Code} {x : Bool}, CopyConf a b (fun _ => True) t (h.report ec c x) := fun {t ec c x} => .report (hX _ _)
  refine .call _ _ _ ⟨hs, rfl⟩ fun r _ => ?_
  rcases r with e | inp
  · exact hr
  · refine .finally' ?_ fun _ _ => conf_closeFd
    unfold copyOpened
    simp only [Prog.bind_eq]
    refine (conf_refreshStatus (.inl hs)).bind fun t1 h1 x _ => ?_
    split
    · exact hr
    split
    · exact hr
    refine (conf_getFileStatus (.inr ht)).bind fun t2 h2 y _ => ?_
    split
    · exact hr
    split
    · exact conf_copyInto hX ht
    split
    · exact hr
    refine conf_useStat.bind fun t3 h3 z _ => ?_
    split
    · exact hr
    split
    · exact .ret _ _ trivial
    split
    · split
      · exact conf_copyInto hX ht
      · exact .ret _ _ trivial
    split
    · exact conf_copyInto hX ht
    · exact hr.bind fun _ _ _ _ => .ret _ _ trivial

theorem under_may {p : Path} (h : Under b p.pathname) : Under a p.pathname ∨ CopyDest a b p.pathname := .inr (.inl h)

theorem conf_createDirectoryLike {to src : Path} {ec : EcArg} (hs : Under a src.pathname) (ht : Under b to.pathname) :
    CopyConf a b (fun _ => True) t (createDirectoryLike to src ec) := by
  simp only [createDirectoryLike, Prog.bind_eq]
  refine (conf_getFileStatus (.inl hs)).bind fun t1 h1 x _ => ?_
  have hX : ∀ m c, CopyBlames a b ((⟨"create_directory".toList, some to, some src⟩ : Handler).error m c) := fun m c => .inr ⟨rfl, .inr ⟨.inl ht, hs⟩⟩
  split
  · exact .report (hX _ _)
  split
  · exact .reportMsg (hX _ _)
  refine conf_useStat.bind fun t3 h3 z _ => .call _ _ _ ht fun r _ => ?_
  rcases r with e | _
  · dsimp only
    split
    · exact .ret _ _ trivial
    · exact (Conf.report (hX _ _)).bind fun _ _ _ _ => .ret _ _ trivial
  · exact .ret _ _ trivial

theorem conf_createSymlinkAs {fn : Str} {target link : Path} {ec : EcArg} (h : Under b link.pathname) :
    CopyConf a b (fun _ => True) t (createSymlinkAs fn target link ec) := by
  refine .call _ _ _ h fun r _ => ?_
  rcases r with e | _
  · exact .report (.inr ⟨rfl, .inl (.inl h)⟩)
  · exact .ret _ _ trivial

theorem conf_createHardLink {target link : Path} {ec : EcArg} (hs : Under a target.pathname) (h : Under b link.pathname) :
    CopyConf a b (fun _ => True) t (createHardLink target link ec) := by
  refine .call _ _ _ ⟨hs, h⟩ fun r _ => ?_
  rcases r with e | _
  · exact .report (.inr ⟨rfl, .inl (.inl h)⟩)
  · exact .ret _ _ trivial

theorem conf_copySymlink {src to : Path} {ec : EcArg} (hs : Under a src.pathname) (ht : Under b to.pathname) :
    CopyConf a b (fun _ => True) t (copySymlink src to ec) := by
  simp only [copySymlink, Prog.bind_eq]
  refine Conf.bind (Q := fun _ => True) ?_ fun t1 h1 x _ => ?_
  · unfold readSymlink
    refine .call _ _ _ trivial fun size _ => ?_
    split
    · refine .call _ _ _ hs fun r _ => ?_
      rcases r with e | r
      · exact .ret _ _ trivial
      · dsimp only
        split
        · exact .ret _ _ trivial
        · exact .fault _ _
    · exact .fault _ _
  · split
    · exact .report (.inr ⟨rfl, .inl (.inl ht)⟩)
    · exact conf_createSymlinkAs ht

/-! ## The iterator -/

/-- The entry of a stream over `root`. -/
structure EntryOf (root : Path) (s : Stream) : Prop where
  same : s.root = root
  entry : ∃ w, IsName w ∧ w ≠ ['.'] ∧ w ≠ ['.', '.'] ∧ s.entry.path = mkPath .posix (appendText root.pathname w)

theorem conf_close {s : Stream} : CopyConf a b (fun s' => s'.handle = none) t s.close := by
  unfold Stream.close
  cases h : s.handle with
  | none => exact .ret _ _ h
  | some d => exact .call _ _ _ trivial fun _ _ => .ret _ _ rfl

theorem conf_advance {n : Nat} {s : Stream} {root : Path} (hr : Shape root) (hs : s.root = root) :
    CopyConf a b (fun x => (x.1 = true → EntryOf root x.2.1) ∧ (x.1 = false → x.2.1.handle = none)) t (s.advance n) := by
  induction n generalizing t with
  | zero => exact .fuel _
  | succ n ih =>
    unfold Stream.advance
    split
    · exact .fault _ _
    · rename_i d hd
      refine .call _ _ _ trivial fun r hA => ?_
      rcases r with e | _ | ent
      · exact conf_close.bind fun _ _ s' h => .ret _ _ ⟨(nomatch ·), fun _ => h⟩
      · exact conf_close.bind fun _ _ s' h => .ret _ _ ⟨(nomatch ·), fun _ => h⟩
      · dsimp only
        split
        · exact ih
        · rename_i hdot
          have hw : IsName ent.name := hA d ent rfl
          rw [if_neg hw.1]
          subst hs
          rw [append_name hr, entryPath_eq hw]
          refine .ret _ _ ⟨fun _ => ⟨rfl, ent.name, hw, fun h => hdot (.inl h), fun h => hdot (.inr h), rfl⟩, (nomatch ·)⟩

/-- What an iterator over `root` is at. -/
def IterOf (root : Path) (it : DirIter) : Prop := ∀ s, it = some s → EntryOf root s

theorem conf_dirIterNew {n : Nat} {p : Path} {opts : DirOptions} {ec : EcArg} (hp : Shape p) (hs : Under a p.pathname) :
    CopyConf a b (fun x => IterOf p x.1) t (DirIter.new n p opts ec) := by
  simp only [DirIter.new, Prog.bind_eq]
  refine Conf.bind (Q := fun x => x.1.good = true → EntryOf p x.1) ?_ fun t1 h1 x hx => ?_
  · unfold Stream.new
    refine .call _ _ _ hs fun r _ => ?_
    rcases r with e | d
    · dsimp only
      split
      · exact .ret _ _ fun h => nomatch h
      · exact .ret _ _ fun h => nomatch h
    · refine (conf_advance hp rfl).bind fun _ _ x hx => .ret _ _ ?_
      intro hg
      cases h : x.1 with
      | true => exact hx.1 h
      | false =>
        have := hx.2 h
        simp [Stream.good, this] at hg
  · split
    · split
      · exact (Conf.report (.inl ⟨rfl, hs⟩)).bind fun _ _ _ _ => .ret _ _ fun s h => nomatch h
      · exact .ret _ _ fun s h => nomatch h
    · rename_i hg
      refine .ret _ _ ?_
      rintro s ⟨⟩
      exact hx (by simpa using hg)

theorem conf_dirIterIncr {n : Nat} {p : Path} {s : Stream} {c : Code} (hp : Shape p) (hs : EntryOf p s) :
    CopyConf a b (fun x => IterOf p x.1) t (DirIter.incr n (some s) (.ref c)) := by
  simp only [DirIter.incr, Prog.bind_eq]
  refine (conf_advance hp hs.same).bind fun t1 h1 x hx => ?_
  split
  · rename_i hok
    refine .ret _ _ ?_
    rintro s ⟨⟩
    exact hx.1 hok
  · split
    · exact .ret _ _ fun s h => nomatch h
    · exact .ret _ _ fun s h => nomatch h

theorem conf_destroy {s : Stream} : CopyConf a b (fun _ => True) t (DirIter.destroy (some s)) :=
  conf_close.bind fun _ _ _ _ => .ret _ _ trivial

theorem conf_onThrow {α : Type} {Q : α → Prop} {p : Prog α} {d : Prog Unit} (h : CopyConf a b Q t p)
    (hd : ∀ t', CopyConf a b (fun _ => True) t' d) : CopyConf a b Q t (p.onThrow d) := by
  induction h with
  | ret t a h => exact .ret t a h
  | fault t f => exact .fault t f
  | fuel t => exact .fuel t
  | thrown t x h => exact (hd t).bind fun t' _ _ _ => .thrown t' x h
  | call t c k hc _ ih => exact .call t c _ hc ih

/-! ## `copy` -/

theorem under_snoc {p x w : Str} (hx : Under p x) (hw : IsName w) (h1 : w ≠ ['.']) (h2 : w ≠ ['.', '.']) : Under p (appendText x w) := by
  obtain ⟨ws, h3, rfl⟩ := hx
  refine ⟨ws ++ [w], ?_, foldl_snoc ws hw⟩
  intro v hv
  rcases List.mem_append.mp hv with h | h
  · exact h3 v h
  · exact List.mem_singleton.mp h ▸ ⟨hw, h1, h2⟩

theorem CopyAt.entry {src to : Path} (h : CopyAt a b src to) {w : Str} (hw : IsName w) (h1 : w ≠ ['.']) (h2 : w ≠ ['.', '.']) :
    CopyAt a b (mkPath .posix (appendText src.pathname w)) (mkPath .posix (appendText to.pathname w)) := by
  have hs := stored_appendText src.pathname w (startsSlash_name hw.2) h.shape.stored
  have ht := stored_appendText to.pathname w (startsSlash_name hw.2) h.toShape.stored
  refine ⟨mkPath_shape _, mkPath_shape _, ?_, ?_, ?_⟩
  · rw [mkPath_pathname, hs]; exact under_snoc h.under hw h1 h2
  · rw [mkPath_pathname, ht]; exact under_snoc h.dest hw h1 h2
  · rw [mkPath_pathname, mkPath_pathname, hs, ht, filePart_entry _ hw.2]
    exact .inl (under_snoc (under_snoc h.dest hw h1 h2) hw h1 h2)

theorem conf_copyLoop {rec : Path → Path → EcArg → Prog (Unit × EcArg)} {src to : Path} {ec : EcArg} {h : Handler}
    (hp : CopyAt a b src to) (hX : ∀ m c, CopyBlames a b (h.error m c))
    (hrec : ∀ s d ec t, CopyAt a b s d → CopyConf a b (fun _ => True) t (rec s d ec)) {n : Nat} {it : DirIter} {m : Code} (hit : IterOf src it) :
    CopyConf a b (fun _ => True) t (copyLoop h rec to n it m ec) := by
  induction n generalizing it m ec t with
  | zero => exact .fuel _
  | succ n ih =>
    cases it with
    | none => exact .ret _ _ trivial
    | some s =>
      have he := hit s rfl
      unfold copyLoop
      split
      · exact .finally' (.report (hX _ _)) fun _ _ => conf_destroy
      · obtain ⟨w, hw, h1, h2, hpath⟩ := he.entry
        obtain ⟨h3, h4⟩ := target_path (src := src) hp.toShape hw
        simp only [Prog.bind_eq, hpath, h3, h4, Prog.ofRes_ok, Prog.ret_bind]
        refine (conf_onThrow (hrec _ _ _ _ (hp.entry hw h1 h2)) fun _ => conf_destroy).bind fun t1 _ x _ => ?_
        split
        · exact conf_destroy.bind fun _ _ _ _ => .ret _ _ trivial
        · exact (conf_dirIterIncr hp.shape he).bind fun t2 _ y hy => ih hy

theorem conf_copy {sf : Bool} {n : Nat} {src to : Path} {opts : CopyOptions} {ec : EcArg} (hp : CopyAt a b src to) :
    CopyConf a b (fun _ => True) t (copy sf n src to opts ec) := by
  induction n generalizing src to ec t with
  | zero => exact .fuel _
  | succ n ih =>
    have hX : ∀ m c, CopyBlames a b ((⟨"copy".toList, some src, some to⟩ : Handler).error m c) := fun m c => .inr ⟨rfl, .inl (.inl hp.dest)⟩
    unfold copy
    dsimp only
    generalize (⟨"copy".toList, some src, some to⟩ : Handler) = h at hX
    have hr : ∀ {t : List Event} {ec : EcArg} {c : Code}, CopyConf a b (fun _ => True) t (h.report ec c ()) := fun {t ec c} => .report (hX _ _)
    simp only [Prog.bind_eq]
    refine Conf.bind (Q := fun x => ∃ c, x.2 = .ref c) ?_ fun t1 _ x hx => ?_
    · split
      · exact conf_getLinkStatus (.inl hp.under)
      · exact conf_getFileStatus (.inl hp.under)
    split
    · exact hr
    refine Conf.bind (Q := fun _ => True) ?_ fun t2 _ y _ => ?_
    · obtain ⟨c, hc⟩ := hx
      rw [hc]
      split
      · exact (conf_getLinkStatus (under_may hp.dest)).mono fun _ _ => trivial
      · exact (conf_getFileStatus (under_may hp.dest)).mono fun _ _ => trivial
    split
    · exact hr
    refine conf_useStat.bind fun t3 _ z _ => conf_useStat.bind fun t4 _ u _ => ?_
    split
    · exact hr
    unfold copyDispatch
    dsimp only
    split
    · split
      · exact .ret _ _ trivial
      split
      · exact conf_copySymlink hp.under hp.dest
      · exact hr
    split
    · split
      · exact .ret _ _ trivial
      split
      · exact conf_createSymlinkAs hp.dest
      split
      · exact conf_createHardLink hp.under hp.dest
      split
      · have hfs : Shape (fileOf (filePart src.pathname)) := (good_fileOf (b := true) (filePart_noSlash' _)).shape
        have hap : append .posix to (fileOf (filePart src.pathname)) = .ok (mkPath .posix (appendText to.pathname (filePart src.pathname))) := by
          rw [hp.toShape.append hfs, fileOf_pathname, startsSlash_name (filePart_noSlash' _)]
          simp
        simp only [Prog.bind_eq, hp.shape.filename, hap, Prog.ofRes_ok, Prog.ret_bind]
        refine (conf_copyFile hp.under ?_).bind fun _ _ _ _ => .ret _ _ trivial
        rw [mkPath_pathname, stored_appendText _ _ (startsSlash_name (filePart_noSlash' _)) hp.toShape.stored]
        exact hp.file
      · exact (conf_copyFile hp.under (.inl hp.dest)).bind fun _ _ _ _ => .ret _ _ trivial
    split
    · exact hr
    split
    · unfold copyDir
      simp only [Prog.bind_eq]
      have hend : ∀ {t : List Event} {ec : EcArg}, CopyConf a b (fun _ => True) t (if ec.isSet = true then .ret ((), ec) else
          (DirIter.new n src .none ec).bind fun x => if x.2.isSet = true then .ret ((), x.2) else
            copyLoop h (fun a b ec => copy sf n a b opts ec) to n x.1 none x.2) := by
        intro t ec
        split
        · exact .ret _ _ trivial
        · refine (conf_dirIterNew hp.shape hp.under).bind fun t5 _ v hv => ?_
          split
          · exact .ret _ _ trivial
          · exact conf_copyLoop hp hX (fun s d ec t hp => ih hp) hv
      split
      · exact ((conf_createDirectoryLike hp.under hp.dest).bind (R := fun _ => True) fun _ _ _ _ => .ret _ _ trivial).bind fun _ _ _ _ => hend
      · exact hend
    · exact .ret _ _ trivial

end

/-- **C110.** Each call of `copy(from, to)`, whatever the system answers (names in listings being names), looks only at `from`, `to` and what
is under them, and makes or writes only `to`, what is under it, or `to/filename(from)`. The exceptions name such places. -/
theorem c110_copy {sf : Bool} {n : Nat} {src to : Path} {opts : CopyOptions} {ec : EcArg} (hs : Shape src) (hd : Shape to) {t : List Event}
    {o : Except Stop (Unit × EcArg)} (hn : RealNames t) (hx : Exec (copy sf n src to opts ec) t o) :
    (∀ t1 ev t2, t = t1 ++ ev :: t2 → CopyMay src.pathname to.pathname t1 ev.call) ∧
    ∀ x, o = .error (.thrown x) → CopyBlames src.pathname to.pathname x := by
  have hat : CopyAt src.pathname to.pathname src to :=
    ⟨hs, hd, ⟨[], by simp, rfl⟩, ⟨[], by simp, rfl⟩, .inr (addElem_appendText (startsSlash_name (filePart_noSlash' _))).symm⟩
  have h := (conf_copy (sf := sf) (n := n) (opts := opts) (ec := ec) (t := []) hat).exec hx fun ev he d ent h => hn d ent (h ▸ he)
  refine ⟨fun t1 ev t2 e => CopyMay.mono (h.1 t1 ev t2 e) ?_, h.2.1⟩
  intro e he
  simpa using he

/-- **C110.** Nothing is removed or changed by name: `copy` makes no `remove`, `rename`, `truncate`, `chmod` or time change. -/
theorem c110_keeps {sf : Bool} {n : Nat} {src to : Path} {opts : CopyOptions} {ec : EcArg} (hs : Shape src) (hd : Shape to) {t : List Event}
    {o : Except Stop (Unit × EcArg)} (hn : RealNames t) (hx : Exec (copy sf n src to opts ec) t o) {ev : Event} (he : ev ∈ t) :
    (∀ p, ev.call ≠ .remove p) ∧ (∀ p q, ev.call ≠ .rename p q) ∧ (∀ p l, ev.call ≠ .truncate p l) ∧ (∀ p m b, ev.call ≠ .fchmodat p m b) ∧
    ∀ p s n, ev.call ≠ .utimensat p s n := by
  obtain ⟨t1, t2, e⟩ := List.append_of_mem he
  have h := (c110_copy hs hd hn hx).1 t1 ev t2 e
  refine ⟨fun p hp => ?_, fun p q hp => ?_, fun p m hp => ?_, fun p m b hp => ?_, fun p s n hp => ?_⟩ <;> (rw [hp] at h; exact h)

/-- **C52 for `copy` (partial).** The exceptions name one or two places at the source or the destination; which, the statement says. They are
those of the inner call that failed, not always the arguments. -/
theorem c52_copy_partial {sf : Bool} {n : Nat} {src to : Path} {opts : CopyOptions} (hs : Shape src) (hd : Shape to) {t : List Event}
    {x : FsError} (hn : RealNames t) (hx : Exec (copy sf n src to opts .null) t (.error (.thrown x))) :
    CopyBlames src.pathname to.pathname x := (c110_copy hs hd hn hx).2 x rfl

/-- **C52 for `proximate` and `relative` (partial).** The exceptions name no path or have `path1()` equal to one of the arguments. -/
theorem c52_relative_partial (el : Bool) (p base : Path) {t : List Event} {x : FsError}
    (h : Exec (proximate el p base .null) t (.error (.thrown x)) ∨ Exec (relative el p base .null) t (.error (.thrown x))) :
    Names [] x ∨ 1 ≤ x.npaths ∧ (x.path1.pathname = p.pathname ∨ x.path1.pathname = base.pathname) := by
  have hv : ∀ f, Thr (fun _ => True) (fun x => Names [] x ∨ 1 ≤ x.npaths ∧ (x.path1.pathname = p.pathname ∨ x.path1.pathname = base.pathname))
      (viaCanonicalThrow el f p base) := by
    intro f
    simp only [viaCanonicalThrow, Prog.bind_eq]
    refine .bind ((thr_weaklyCanonical el _ _).mono fun x h => h.imp id fun h => ⟨h.1, ?_⟩) fun _ =>
      .bind ((thr_weaklyCanonical el _ _).mono fun x h => h.imp id fun h => ⟨h.1, ?_⟩) fun _ => .bind (.ofRes _) fun _ => .ret _
    · first | exact .inl h.2 | exact .inr h.2
    · first | exact .inl h.2 | exact .inr h.2
  rcases h with h | h
  · exact (hv _).exec (by simp) h
  · exact (hv _).exec (by simp) h

/-- Non-vacuity: `copy("a", "b", recursive)` of a directory with the file `x`; `b/x` is written. -/
def copySample : List Event :=
  [⟨.stat "a".toList, .ok ⟨1, 2, 0o040755, 1, 7, 0, 0, 0⟩⟩, ⟨.stat "b".toList, .error .ENOENT⟩,
    ⟨.stat "a".toList, .ok ⟨1, 2, 0o040755, 1, 7, 0, 0, 0⟩⟩, ⟨.mkdir "b".toList 0o040755, .ok ()⟩, ⟨.opendir "a".toList, .ok 3⟩,
    rdEv 3 (.ok (some ⟨".".toList, .dir⟩)), rdEv 3 (.ok (some ⟨"x".toList, .reg⟩)),
    ⟨.stat "a/x".toList, .ok ⟨1, 3, 0o100644, 1, 2, 0, 0, 0⟩⟩, ⟨.stat "b/x".toList, .error .ENOENT⟩,
    ⟨.openf "a/x".toList ⟨false, false, true⟩ 0, .ok 4⟩, ⟨.lstat "a/x".toList, .ok ⟨1, 3, 0o100644, 1, 2, 0, 0, 0⟩⟩,
    ⟨.stat "b/x".toList, .error .ENOENT⟩, ⟨.openf "b/x".toList ⟨true, true, false⟩ 0o100644, .ok 5⟩,
    ⟨.lstat "b/x".toList, .ok ⟨1, 9, 0o100644, 1, 0, 0, 0, 0⟩⟩, ⟨.sendfile 5 4 2, .ok 2⟩, ⟨.close 5, .ok ()⟩, ⟨.close 4, .ok ()⟩,
    rdEv 3 (.ok none), clEv 3 (.ok ())]

example : Exec (copy true 6 (mkPath .posix "a".toList) (mkPath .posix "b".toList) 8 (.ref none)) copySample (.ok ((), .ref none)) ∧
    RealNames copySample :=
  ⟨feed_exec (by rfl), by
    intro d ent h
    simp [copySample, rdEv, clEv] at h
    rcases h with ⟨-, rfl⟩ | ⟨-, rfl⟩ <;> exact ⟨by simp, by decide⟩⟩

theorem Under.prefix {p x : Str} (h : Under p x) : p <+: x := by
  obtain ⟨ws, h1, rfl⟩ := h
  induction ws generalizing p with
  | nil => exact List.prefix_refl _
  | cons w ws ih =>
    refine List.IsPrefix.trans ?_ (ih fun v hv => h1 v (List.mem_cons_of_mem _ hv))
    have := startsSlash_name (h1 w (List.mem_cons_self ..)).1.2
    unfold addElem
    rw [this]
    simp only [Bool.false_eq_true, if_false]
    split
    · exact List.prefix_append _ _
    · exact List.prefix_append _ _

/-- Non-vacuity: the places of `copy("a/f", "b")`, and places it never touches. -/
example : CopyDest "a/f".toList "b".toList "b/f".toList ∧ CopyDest "a/f".toList "b".toList "b/f/g".toList ∧
    ¬ CopyDest "a/f".toList "b".toList "c".toList := by
  refine ⟨.inr (by decide), .inl ⟨["f".toList, "g".toList], by simp [IsName], by decide⟩, ?_⟩
  rintro (h | h)
  · exact absurd (Under.prefix h) (by decide)
  · exact absurd h (by decide)

end Asap
