import Verif.Os.Conf
import Verif.Props.WinX

/-!
# C111: where `copy` acts on Windows
-/

namespace Asap
namespace Spec

/-- `x` is the text of `to / from.filename()`. -/
def WinInto (src to : Path) (x : Str) : Prop := ∃ f q, filename .windows src = .ok f ∧ append .windows to f = .ok q ∧ x = q.pathname

/-- What `copy` may make or write: `to`, what is under it, and `to / from.filename()`. -/
def WinDest (src to : Path) (x : Str) : Prop := WinUnder to.pathname x ∨ WinInto src to x

/-- What `copy` may look at, after the calls `t`: the source, the destination, and the targets of links it has read. -/
def WinLook (src to : Path) (t : List Event) (x : Str) : Prop :=
  WinUnder src.pathname x ∨ WinDest src to x ∨
    ∃ h ws r, (⟨.win (.reparse h), (.ok ws : Except Errno (List (BitVec 16)))⟩ : Event) ∈ t ∧ Win.printName ws = .ok r ∧ x = r.pathname

/-- The calls `copy` may make, after the calls `t`. Files are opened for no access, to read attributes (`0x80`) or to read a reparse point (`8`). -/
def WinCopyMay (src to : Path) (t : List Event) : Sys → Prop
  | .win (.getAttrs x) | .win (.getPerms x _) => WinLook src to t x
  | .win (.createFile x o) => WinLook src to t x ∧ (o.access = 0#32 ∨ o.access = 0x80#32 ∨ o.access = 8#32)
  | .win (.closeHandle _) | .win (.infoByHandle _) | .win (.attrTag _) | .win (.reparse _) | .win (.getFileTime _) => True
  | .win (.findNext _) | .win (.findClose _) | .win .lastError => True
  | .win (.findFirst s) => ∃ x, WinUnder src.pathname x ∧ s = searchText x
  | .win (.createDirectoryEx x d) => WinUnder src.pathname x ∧ WinUnder to.pathname d
  | .win (.createSymlink l _ _) => WinUnder to.pathname l
  | .win (.createHardLink l x) => WinUnder to.pathname l ∧ WinUnder src.pathname x
  | .win (.copyFile x d _) => WinUnder src.pathname x ∧ WinDest src to d
  | _ => False

/-- What an exception of `copy` says: it names a place at the source or the destination. -/
def WinBlames (src to : Path) (x : FsError) : Prop :=
  (x.npaths = 1 ∧ WinUnder src.pathname x.path1.pathname) ∨
  (x.npaths = 2 ∧ (WinDest src to x.path2.pathname ∨ WinDest src to x.path1.pathname ∧ WinUnder src.pathname x.path2.pathname))

end Spec
open Spec

section
variable {α β : Type} {M : List Event → Sys → Prop} {A : Event → Prop} {X : FsError → Prop} {Q : α → Prop} {t : List Event}

theorem Conf.report_ref {h : Handler} {c e : Code} {d : α} : Conf M A X (fun x => ∃ c, x.2 = .ref c) t (h.report (.ref c) e d) :=
  .ret _ _ ⟨_, rfl⟩

theorem Conf.onThrow {p : Prog α} {d : Prog Unit} (h : Conf M A X Q t p)
    (hd : ∀ t', Conf M A X (fun _ => True) t' d) : Conf M A X Q t (p.onThrow d) := by
  induction h with
  | ret t a h => exact .ret t a h
  | fault t f => exact .fault t f
  | fuel t => exact .fuel t
  | thrown t x h => exact (hd t).bind fun t' _ _ _ => .thrown t' x h
  | call t c k hc _ ih => exact .call t c _ hc ih

/-- As `Conf.bind`, with what the first part did. -/
theorem Conf.bind_exec {R : β → Prop} {p : Prog α} {f : α → Prog β} (h : Conf M A X Q t p)
    (hf : ∀ u a, Exec p u (.ok a) → Q a → Conf M A X R (u.reverse ++ t) (f a)) : Conf M A X R t (p.bind f) := by
  induction h with
  | ret t a h => exact hf [] a (exec_ret.mpr ⟨rfl, rfl⟩) h
  | fault t f => exact .fault t f
  | fuel t => exact .fuel t
  | thrown t x h => exact .thrown t x h
  | call t c k hc _ ih =>
    refine .call t c _ hc fun r hr => ih r hr fun u a hu hq => ?_
    have := hf (⟨c, r⟩ :: u) a (exec_call.mpr ⟨r, u, rfl, hu⟩) hq
    rwa [List.reverse_cons, List.append_assoc] at this

theorem Conf.any {p : Prog α} (h : Conf M A X Q t p) : Conf M A X (fun _ => True) t p := h.mono fun _ _ => trivial

end

namespace Win

/-- `Conf` for `copy` on Windows. -/
abbrev WinConf (a b : Path) {α : Type} (Q : α → Prop) (t : List Event) (p : Prog α) : Prop :=
  Conf (WinCopyMay a b) winNamed (WinBlames a b) Q t p

section
variable {a b : Path} {t : List Event} {α : Type}

theorem _root_.Asap.Spec.WinLook.mono {t t' : List Event} {x : Str} (h : WinLook a b t x) (ht : t ⊆ t') : WinLook a b t' x := by
  rcases h with h | h | ⟨d, ws, r, h1, h2, h3⟩
  · exact .inl h
  · exact .inr (.inl h)
  · exact .inr (.inr ⟨d, ws, r, ht h1, h2, h3⟩)

theorem sub_cons {ev : Event} {t t' : List Event} (h : ev :: t ⊆ t') : t ⊆ t' := fun _ he => h (List.mem_cons_of_mem _ he)

theorem conf_withFile {Q : α → Prop} {p : Path} {o : WinOpen} {f : Errno → Prog α} {g : Nat → Prog α} (hp : WinLook a b t p.pathname)
    (ho : o.access = 0#32 ∨ o.access = 0x80#32 ∨ o.access = 8#32) (hf : ∀ t' e, t ⊆ t' → WinConf a b Q t' (f e))
    (hg : ∀ t' h, t ⊆ t' → WinConf a b Q t' (g h)) : WinConf a b Q t (withFile p o f g) := by
  refine .call _ _ _ ⟨hp, ho⟩ fun r _ => ?_
  rcases r with e | h
  · exact hf _ _ fun _ h => List.mem_cons_of_mem _ h
  · exact .finally' (hg _ _ fun _ h => List.mem_cons_of_mem _ h) fun _ _ => .call _ _ _ trivial fun _ _ => .ret _ _ trivial

theorem failure_ref (e : Errno) (c : Code) : ∃ c', (processStatusFailure e (.ref c)).2 = .ref c' := by
  unfold processStatusFailure
  split
  · exact ⟨_, rfl⟩
  · split
    · exact ⟨_, rfl⟩
    · split <;> exact ⟨_, rfl⟩

theorem conf_status {p : Path} {c : Code} (hp : WinLook a b t p.pathname) :
    WinConf a b (fun x => ∃ c, x.2 = .ref c) t (status p (.ref c)) := by
  refine .call _ _ _ hp fun r _ => ?_
  rcases r with e | at'
  · exact .ret _ _ (failure_ref e none)
  · have hp := hp.mono (t' := ⟨.win (.getAttrs p.pathname), .ok at'⟩ :: t) fun _ h => List.mem_cons_of_mem _ h
    refine Conf.bind (Q := fun _ => True) ?_ fun t1 h1 x _ => ?_
    · unfold targetAttrs
      split
      · refine conf_withFile hp (.inl rfl) (fun _ _ _ => .ret _ _ trivial) fun _ _ _ => .call _ _ _ trivial fun r _ => ?_
        rcases r with e | _
        · exact .ret _ _ trivial
        · exact .ret _ _ trivial
      · exact .ret _ _ trivial
    · rcases x with e | at'
      · exact .ret _ _ (failure_ref e none)
      · refine .call _ _ _ (hp.mono h1) fun r _ => ?_
        rcases r with e | _
        · exact .ret _ _ (failure_ref e none)
        · exact .ret _ _ ⟨_, rfl⟩

theorem conf_symlinkStatus {p : Path} {c : Code} (hp : WinLook a b t p.pathname) :
    WinConf a b (fun x => ∃ c, x.2 = .ref c) t (symlinkStatus p (.ref c)) := by
  refine .call _ _ _ hp fun r _ => ?_
  rcases r with e | at'
  · exact .ret _ _ (failure_ref e none)
  · have hp := hp.mono (t' := ⟨.win (.getAttrs p.pathname), .ok at'⟩ :: t) fun _ h => List.mem_cons_of_mem _ h
    refine .call _ _ _ hp fun r _ => ?_
    rcases r with e | pr
    · exact .ret _ _ (failure_ref e none)
    · have hp := hp.mono (t' := ⟨.win (.getPerms p.pathname at'), .ok pr⟩ :: _) fun _ h => List.mem_cons_of_mem _ h
      dsimp only
      split
      · refine Conf.bind (Q := fun x => ∃ c, x.2 = .ref c) ?_ fun t1 h1 x hx => .ret _ _ hx
        refine conf_withFile hp (.inr (.inr rfl)) (fun _ _ _ => .report_ref) fun _ _ _ => .call _ _ _ trivial fun r _ => ?_
        rcases r with e | _
        · exact .report_ref
        · exact .ret _ _ ⟨_, rfl⟩
      · exact .ret _ _ ⟨_, rfl⟩

theorem conf_equivalent {p q : Path} {c : Code} (hp : WinLook a b t p.pathname) (hq : WinLook a b t q.pathname) :
    WinConf a b (fun x => ∃ c, x.2 = .ref c) t (equivalent p q (.ref c)) := by
  refine conf_withFile hp (.inl rfl) (fun _ _ _ => .report_ref) fun t1 f1 h1 =>
    conf_withFile (hq.mono h1) (.inl rfl) (fun _ _ _ => .report_ref) fun t2 f2 h2 => .call _ _ _ trivial fun r _ => ?_
  rcases r with e | i1
  · exact .report_ref
  · refine .call _ _ _ trivial fun r _ => ?_
    rcases r with e | i2
    · exact .report_ref
    · exact .ret _ _ ⟨_, rfl⟩

theorem conf_lastWriteTime {k : SysClock} {p : Path} {c : Code} (hp : WinLook a b t p.pathname) :
    WinConf a b (fun x => ∃ c, x.2 = .ref c) t (lastWriteTime k p (.ref c)) := by
  refine conf_withFile hp (.inr (.inl rfl)) (fun _ _ _ => .report_ref) fun t1 f1 h1 => .call _ _ _ trivial fun r _ => ?_
  rcases r with e | ft
  · exact .report_ref
  · exact (Conf.ofRes (Q := fun _ => True) fun _ _ => trivial).bind fun _ _ _ _ => .ret _ _ ⟨_, rfl⟩

theorem conf_copyFile {k : SysClock} {src to : Path} {opts : CopyOptions} {ec : EcArg} (hs : WinUnder a.pathname src.pathname)
    (ht : WinDest a b to.pathname) : WinConf a b (fun _ => True) t (copyFile k src to opts ec) := by
  have hX : ∀ m c, WinBlames a b ((⟨"copy_file".toList, some to, some src⟩ : Handler).error m c) := fun m c => .inr ⟨rfl, .inr ⟨ht, hs⟩⟩
  unfold copyFile
  dsimp only
  generalize (⟨"copy_file".toList, some to, some src⟩ : Handler) = h at hX
  have hr : ∀ {t : List Event} {ec : EcArg} {c : Code} {x : Bool}, WinConf a b (fun _ => True) t (h.report ec c x) := fun {t ec c x} => .report (hX _ _)
  have hls : ∀ {t}, WinLook a b t src.pathname := .inl hs
  have hlt : ∀ {t}, WinLook a b t to.pathname := .inr (.inl ht)
  refine (conf_status hls).bind fun t1 _ f _ => ?_
  split
  · exact hr
  split
  · exact hr
  refine (conf_status hlt).bind fun t2 _ g _ => ?_
  split
  · exact hr
  split
  · exact hr
  refine Conf.bind (Q := fun _ => True) ?_ fun t3 _ e _ => ?_
  · split
    · exact (conf_equivalent hls hlt).any
    · exact .ret _ _ trivial
  split
  · exact hr
  split
  · exact .ret _ _ trivial
  refine Conf.bind (Q := fun _ => True) ?_ fun t4 _ x _ => ?_
  · unfold shouldCopy
    split
    · refine (conf_lastWriteTime hls).bind fun _ _ _ _ => ?_
      split
      · exact hr
      · refine (conf_lastWriteTime hlt).bind fun _ _ _ _ => ?_
        split
        · exact hr
        · exact .ret _ _ trivial
    split
    · exact .ret _ _ trivial
    · exact hr
  unfold doCopy
  split
  · exact .ret _ _ trivial
  · refine .call _ _ _ ⟨hs, ht⟩ fun r _ => ?_
    rcases r with e | _
    · exact hr
    · exact .ret _ _ trivial

theorem conf_createDirectoryLike {to src : Path} {ec : EcArg} (hs : WinUnder a.pathname src.pathname) (ht : WinUnder b.pathname to.pathname) :
    WinConf a b (fun _ => True) t (createDirectoryLike to src ec) := by
  refine .call _ _ _ ⟨hs, ht⟩ fun r _ => ?_
  rcases r with e | _
  · dsimp only
    split
    · exact (Conf.report (.inr ⟨rfl, .inr ⟨.inl ht, hs⟩⟩)).bind fun _ _ _ _ => .ret _ _ trivial
    · exact .ret _ _ trivial
  · exact .ret _ _ trivial

theorem conf_createSymlinkAs {fn : Str} {dir : Bool} {target link : Path} {ec : EcArg} (h : WinUnder b.pathname link.pathname) :
    WinConf a b (fun _ => True) t (createSymlinkAs fn dir target link ec) := by
  refine .call _ _ _ h fun r _ => ?_
  rcases r with e | _
  · exact .report (.inr ⟨rfl, .inl (.inl h)⟩)
  · exact .ret _ _ trivial

theorem conf_createHardLink {target link : Path} {ec : EcArg} (hs : WinUnder a.pathname target.pathname) (h : WinUnder b.pathname link.pathname) :
    WinConf a b (fun _ => True) t (createHardLink target link ec) := by
  refine .call _ _ _ ⟨h, hs⟩ fun r _ => ?_
  rcases r with e | _
  · exact .report (.inr ⟨rfl, .inl (.inl h)⟩)
  · exact .ret _ _ trivial

theorem conf_readSymlink {p : Path} {c : Code} (hp : WinLook a b t p.pathname) :
    WinConf a b (fun x => ∃ c, x.2 = .ref c) t (readSymlink p (.ref c)) := by
  refine conf_withFile hp (.inr (.inr rfl)) (fun _ _ _ => .report_ref) fun t1 f1 h1 => .call _ _ _ trivial fun r _ => ?_
  rcases r with e | ws
  · exact .report_ref
  · exact (Conf.ofRes (Q := fun _ => True) fun _ _ => trivial).bind fun _ _ _ _ => .ret _ _ ⟨_, rfl⟩

/-- Where the target of a link comes from. -/
theorem read_from {p : Path} {c : Code} {t : List Event} {r : Path} {ec : EcArg} (hx : Exec (readSymlink p (.ref c)) t (.ok (r, ec)))
    (hc : ec.isSet = false) : ∃ h ws, (⟨.win (.reparse h), (.ok ws : Except Errno (List (BitVec 16)))⟩ : Event) ∈ t ∧ printName ws = .ok r := by
  unfold readSymlink withFile at hx
  obtain ⟨v, t', rfl, h⟩ := exec_call.mp hx
  rcases v with e | fd
  · obtain ⟨-, h⟩ := exec_ret.mp h
    cases h
    cases hc
  · rcases exec_finally_call.mp h with ⟨-, u, v, rfl, h5⟩ | ⟨h, -⟩
    · dsimp only at h5
      obtain ⟨w, u', rfl, h6⟩ := exec_call.mp h5
      rcases w with e | ws
      · obtain ⟨-, h⟩ := exec_ret.mp h6
        cases h
        cases hc
      · dsimp only at h6
        cases hp : printName ws with
        | error f =>
          rw [hp] at h6
          obtain ⟨-, h⟩ := exec_stop.mp h6
          cases h
        | ok q =>
          rw [hp] at h6
          obtain ⟨-, h⟩ := exec_ret.mp h6
          cases h
          exact ⟨fd, ws, by simp, hp⟩
    · exact absurd trivial h

theorem conf_copySymlink {src to : Path} {ec : EcArg} (hs : WinUnder a.pathname src.pathname) (ht : WinUnder b.pathname to.pathname) :
    WinConf a b (fun _ => True) t (copySymlink src to ec) := by
  have hr : ∀ {t : List Event} {ec : EcArg} {c : Code}, WinConf a b (fun _ => True) t
      ((⟨"copy_symlink".toList, some src, some to⟩ : Handler).report ec c ()) := fun {t ec c} => .report (.inr ⟨rfl, .inl (.inl ht)⟩)
  refine (conf_readSymlink (.inl hs)).bind_exec fun u x hu hq => ?_
  split
  · exact hr
  rename_i hset
  obtain ⟨d, ws, h1, h2⟩ := read_from hu (by simpa using hset)
  obtain ⟨c, hc⟩ := hq
  have hl : WinLook a b (u.reverse ++ t) x.1.pathname := .inr (.inr ⟨d, ws, _, by simp [h1], h2, rfl⟩)
  refine Conf.bind (Q := fun _ => True) ?_ fun t1 _ y _ => ?_
  · rw [hc]
    exact (conf_status hl).bind fun _ _ _ _ => .ret _ _ trivial
  split
  · exact hr
  split
  · exact conf_createSymlinkAs ht
  · exact conf_createSymlinkAs ht

/-! ## The iterator -/

/-- The entry of a stream over `root`. -/
structure EntryAt (root : Str) (s : Stream) : Prop where
  same : s.root = mkPath .windows root
  entry : ∃ w, PlainName w ∧ ¬ dotName w ∧ s.entry.path = mkPath .windows (winAppendText root w)

theorem conf_close {s : Stream} : WinConf a b (fun s' => s'.handle = none) t (Stream.close s) := by
  unfold Stream.close
  split
  · exact .call _ _ _ trivial fun _ _ => .ret _ _ rfl
  · rename_i h
    exact .ret _ _ h

theorem entryAt_set {root : Str} {s : Stream} (hs : s.root = mkPath .windows root) {ent : FindData} (hn : dotName ent.name ∨ PlainName ent.name)
    (hd : ¬ dotName ent.name) : ∃ s', setEntry s ent = .ret s' ∧ EntryAt root s' :=
  have hw : PlainName ent.name := hn.resolve_left hd
  ⟨_, setEntry_plain hs hw, hs, _, hw, hd, rfl⟩

theorem conf_advance {n : Nat} {s : Stream} {root : Str} (hs : s.root = mkPath .windows root) :
    WinConf a b (fun x => x.1 = true → EntryAt root x.2.1) t (Stream.advance n s) := by
  induction n generalizing t with
  | zero => exact .fuel _
  | succ n ih =>
    unfold Stream.advance
    split
    · exact .ret _ _ (nomatch ·)
    · refine .call _ _ _ trivial fun r hA => ?_
      rcases r with e | ent
      · exact conf_close.bind fun _ _ _ _ => .ret _ _ (nomatch ·)
      · dsimp only
        split
        · exact ih
        · rename_i hdot
          obtain ⟨s', h1, h2⟩ := entryAt_set hs hA (fun h => hdot ((isDots_iff _).mpr h))
          rw [h1]
          exact .ret _ _ fun _ => h2

theorem conf_skipDots {n d : Nat} {ent : FindData} (hn : dotName ent.name ∨ PlainName ent.name) :
    WinConf a b (fun x => ∀ e, x = some e → ¬ dotName e.name ∧ PlainName e.name) t (skipDots d n ent) := by
  induction n generalizing t ent with
  | zero => exact .fuel _
  | succ n ih =>
    unfold skipDots
    split
    · refine .call _ _ _ trivial fun r hA => ?_
      rcases r with e | ent
      · exact .call _ _ _ trivial fun _ _ => .ret _ _ fun _ h => nomatch h
      · exact ih hA
    · rename_i hdot
      have hd : ¬ dotName ent.name := fun h => hdot ((isDots_iff _).mpr h)
      refine .ret _ _ ?_
      rintro e ⟨⟩
      exact ⟨hd, hn.resolve_left hd⟩

/-- What an iterator over `root` is at. -/
def IterAt (root : Str) (it : DirIter) : Prop := ∀ s, it = some s → EntryAt root s

theorem conf_dirIterNew {n : Nat} {r : Str} {opts : DirOptions} {ec : EcArg} (hs : WinUnder a.pathname (mkPath .windows r).pathname) :
    WinConf a b (fun x => IterAt r x.1) t (DirIter.new n (mkPath .windows r) opts ec) := by
  unfold DirIter.new
  refine Conf.bind (Q := fun x => x.1.good = true → EntryAt r x.1) ?_ fun t1 h1 x hx => ?_
  · unfold Stream.new
    rw [pattern_text]
    refine .call _ _ _ ⟨_, hs, rfl⟩ fun v hA => ?_
    rcases v with e | ⟨d, ent⟩
    · exact .ret _ _ (nomatch ·)
    · refine (conf_skipDots hA).bind fun _ _ y hy => ?_
      cases y with
      | none => exact .call _ _ _ trivial fun _ _ => .ret _ _ (nomatch ·)
      | some ent =>
        obtain ⟨h1, h2⟩ := hy _ rfl
        obtain ⟨s', h3, h4⟩ := entryAt_set (root := r) (s := ⟨some d, mkPath .windows r, .default⟩) rfl (.inr h2) h1
        dsimp only
        rw [h3]
        exact .ret _ _ fun _ => h4
  · dsimp only
    split
    · split
      · exact (Conf.report (.inl ⟨rfl, hs⟩)).bind fun _ _ _ _ => .ret _ _ fun s h => nomatch h
      · exact .ret _ _ fun s h => nomatch h
    · rename_i hg
      refine .ret _ _ ?_
      rintro s ⟨⟩
      exact hx (by simpa using hg)

theorem conf_dirIterIncr {n : Nat} {r : Str} {s : Stream} {c : Code} (hs : EntryAt r s) :
    WinConf a b (fun x => IterAt r x.1) t (DirIter.incr n (some s) (.ref c)) := by
  unfold DirIter.incr
  refine (conf_advance hs.same).bind fun t1 h1 x hx => ?_
  split
  · rename_i hok
    refine .ret _ _ ?_
    rintro s ⟨⟩
    exact hx hok
  · split
    · exact .ret _ _ fun s h => nomatch h
    · exact .ret _ _ fun s h => nomatch h

theorem conf_destroy {s : Stream} : WinConf a b (fun _ => True) t (destroy (some s)) := conf_close.bind fun _ _ _ _ => .ret _ _ trivial

/-! ## `copy` -/

/-- Where a recursive call works. -/
structure WinAt (a b : Path) (r s : Str) : Prop where
  under : WinUnder a.pathname (mkPath .windows r).pathname
  dest : WinUnder b.pathname (mkPath .windows s).pathname
  file : ∀ x, WinInto (mkPath .windows r) (mkPath .windows s) x → WinDest a b x

theorem WinAt.entry {r s : Str} (h : WinAt a b r s) {w : Str} (hw : PlainName w) (hd : ¬ dotName w) :
    WinAt a b (winAppendText r w) (winAppendText s w) := by
  refine ⟨(WinUnder.append h.under hw hd).1, (WinUnder.append h.dest hw hd).1, ?_⟩
  rintro x ⟨f, q, h1, h2, rfl⟩
  obtain ⟨a', b', e1, e2, e3⟩ := entry_paths r (winAppendText s w) hw
  rw [(win_append_plain r hw).1] at e1
  cases e1
  rw [h1] at e2
  cases e2
  rw [(win_append_plain _ hw).1] at h2
  cases h2
  exact .inl (WinUnder.append (WinUnder.append h.dest hw hd).1 hw hd).1

theorem conf_copyLoop {rec : Path → Path → EcArg → Prog (Unit × EcArg)} {r s : Str} {ec : EcArg} {h : Handler}
    (hp : WinAt a b r s) (hX : ∀ m c, WinBlames a b (h.error m c))
    (hrec : ∀ x y ec t, WinAt a b x y → WinConf a b (fun _ => True) t (rec (mkPath .windows x) (mkPath .windows y) ec)) {n : Nat} {it : DirIter} {m : Code}
    (hit : IterAt r it) : WinConf a b (fun _ => True) t (copyLoop h rec (mkPath .windows s) n it m ec) := by
  induction n generalizing it m ec t with
  | zero => exact .fuel _
  | succ n ih =>
    cases it with
    | none => exact .ret _ _ trivial
    | some st =>
      have he := hit st rfl
      unfold copyLoop
      split
      · exact .finally' (.report (hX _ _)) fun _ _ => conf_destroy
      · obtain ⟨w, hw, hd, hpath⟩ := he.entry
        obtain ⟨a', b', e1, e2, e3⟩ := entry_paths r s hw
        rw [(win_append_plain r hw).1] at e1
        cases e1
        rw [(win_append_plain s hw).1] at e3
        cases e3
        simp only [hpath, e2, (win_append_plain s hw).1, Prog.ofRes_ok, Prog.ret_bind]
        refine (Conf.onThrow (hrec _ _ _ _ (hp.entry hw hd)) fun _ => conf_destroy).bind fun t1 _ x _ => ?_
        split
        · exact conf_destroy.bind fun _ _ _ _ => .ret _ _ trivial
        · exact (conf_dirIterIncr he).bind fun t2 _ y hy => ih hy

theorem conf_copy {k : SysClock} {n : Nat} {r s : Str} {opts : CopyOptions} {ec : EcArg} (hp : WinAt a b r s) :
    WinConf a b (fun _ => True) t (copy k n (mkPath .windows r) (mkPath .windows s) opts ec) := by
  induction n generalizing r s ec t with
  | zero => exact .fuel _
  | succ n ih =>
    have hX : ∀ m c, WinBlames a b ((⟨"copy".toList, some (mkPath .windows r), some (mkPath .windows s)⟩ : Handler).error m c) :=
      fun m c => .inr ⟨rfl, .inl (.inl hp.dest)⟩
    have hls : ∀ {t}, WinLook a b t (mkPath .windows r).pathname := .inl hp.under
    have hlt : ∀ {t}, WinLook a b t (mkPath .windows s).pathname := .inr (.inl (.inl hp.dest))
    unfold copy
    dsimp only
    generalize (⟨"copy".toList, some (mkPath .windows r), some (mkPath .windows s)⟩ : Handler) = h at hX
    have hr : ∀ {t : List Event} {ec : EcArg} {c : Code}, WinConf a b (fun _ => True) t (h.report ec c ()) := fun {t ec c} => .report (hX _ _)
    refine Conf.bind (Q := fun _ => True) ?_ fun t1 _ x _ => ?_
    · split
      · exact (conf_symlinkStatus hls).any
      · exact (conf_status hls).any
    split
    · exact hr
    refine Conf.bind (Q := fun _ => True) ?_ fun t2 _ y _ => ?_
    · split
      · exact (conf_symlinkStatus hlt).any
      · exact (conf_status hlt).any
    split
    · exact hr
    split
    · exact hr
    refine Conf.bind (Q := fun _ => True) ?_ fun t3 _ z _ => ?_
    · split
      · exact (conf_equivalent hls hlt).any
      · exact .ret _ _ trivial
    split
    · exact hr
    split
    · exact hr
    unfold copyDispatch
    dsimp only
    split
    · split
      · exact .ret _ _ trivial
      split
      · exact conf_copySymlink hp.under hp.dest
      · exact hr
    split
    · split
      · exact .ret _ _ trivial
      split
      · exact conf_createSymlinkAs hp.dest
      split
      · exact conf_createHardLink hp.under hp.dest
      split
      · refine (Conf.ofRes (Q := fun f => filename .windows (mkPath .windows r) = .ok f) fun _ h => h).bind fun _ _ f hf =>
          (Conf.ofRes (Q := fun q => append .windows (mkPath .windows s) f = .ok q) fun _ h => h).bind fun _ _ q hq =>
          (conf_copyFile hp.under (hp.file _ ⟨f, q, hf, hq, rfl⟩)).bind fun _ _ _ _ => .ret _ _ trivial
      · exact (conf_copyFile hp.under (.inl hp.dest)).bind fun _ _ _ _ => .ret _ _ trivial
    split
    · exact hr
    split
    · unfold copyDir
      refine Conf.bind (Q := fun _ => True) ?_ fun t4 _ ec _ => ?_
      · split
        · exact (conf_createDirectoryLike hp.under hp.dest).bind fun _ _ _ _ => .ret _ _ trivial
        · exact .ret _ _ trivial
      split
      · exact .ret _ _ trivial
      · refine (conf_dirIterNew hp.under).bind fun t5 _ v hv => ?_
        split
        · exact .ret _ _ trivial
        · exact conf_copyLoop hp hX (fun x y ec t hp => ih hp) hv
    · exact .ret _ _ trivial

end

end Win

theorem Spec.WinCopyMay.mono {a b : Path} {t t' : List Event} {c : Sys} (h : WinCopyMay a b t c) (ht : t ⊆ t') : WinCopyMay a b t' c := by
  cases c <;> try exact h
  rename_i c
  cases c <;> first | exact h | exact WinLook.mono h ht | exact ⟨WinLook.mono h.1 ht, h.2⟩

/-- **C111.** Each call of `copy(from, to)` on Windows, whatever the system answers (listed names being names), looks only at `from`, `to`,
what is under them and the targets of links it read, and makes or writes only `to`, what is under it, or `to / from.filename()`. The
exceptions name such places. -/
theorem c111_copy {k : SysClock} {n : Nat} {r s : Str} {opts : CopyOptions} {ec : EcArg} {t : List Event} {o : Except Stop (Unit × EcArg)}
    (hn : ∀ ev ∈ t, winNamed ev) (hx : Exec (Win.copy k n (mkPath .windows r) (mkPath .windows s) opts ec) t o) :
    (∀ t1 ev t2, t = t1 ++ ev :: t2 → WinCopyMay (mkPath .windows r) (mkPath .windows s) t1 ev.call) ∧
    ∀ x, o = .error (.thrown x) → WinBlames (mkPath .windows r) (mkPath .windows s) x := by
  have hat : Win.WinAt (mkPath .windows r) (mkPath .windows s) r s := ⟨.here, .here, fun x h => .inr h⟩
  have h := (Win.conf_copy (k := k) (n := n) (opts := opts) (ec := ec) (t := []) hat).exec hx hn
  refine ⟨fun t1 ev t2 e => WinCopyMay.mono (h.1 t1 ev t2 e) ?_, h.2.1⟩
  intro e he
  simpa using he

/-- Non-vacuity: the copy of the directory `d` with the file `a` to `n`. -/
def winCopySample : List Event :=
  copyLook ++
  [⟨.win (.createDirectoryEx "d".toList "n".toList), (.ok () : Except Errno Unit)⟩,
    ⟨.win (.findFirst "d\\*".toList), (.ok (7, ⟨".".toList, 16#32, 0#32⟩) : Except Errno (Nat × FindData))⟩,
    gotNext 7 ⟨"a".toList, 0#32, 0#32⟩,
    ⟨.win (.getAttrs "d\\a".toList), (.ok 0x20#32 : Except Errno (BitVec 32))⟩,
    ⟨.win (.getPerms "d\\a".toList 0x20#32), (.ok 0x1ff#32 : Except Errno Mode)⟩,
    ⟨.win (.getAttrs "n\\a".toList), (.error (.ofWin 2) : Except Errno (BitVec 32))⟩,
    ⟨.win (.getAttrs "d\\a".toList), (.ok 0x20#32 : Except Errno (BitVec 32))⟩,
    ⟨.win (.getPerms "d\\a".toList 0x20#32), (.ok 0x1ff#32 : Except Errno Mode)⟩,
    ⟨.win (.getAttrs "n\\a".toList), (.error (.ofWin 2) : Except Errno (BitVec 32))⟩,
    ⟨.win (.copyFile "d\\a".toList "n\\a".toList false), (.ok () : Except Errno Unit)⟩,
    lastNext 7 (.ofWin 18), closedFind 7 (.ok ())]

example (c : SysClock) : Exec (Win.copy c 6 (mkPath .windows "d".toList) (mkPath .windows "n".toList) 8 (.ref none)) winCopySample succeeds ∧
    ∀ ev ∈ winCopySample, winNamed ev := by
  refine ⟨feed_exec (by rfl), ?_⟩
  simp only [winCopySample, copyLook, List.cons_append, List.nil_append, List.forall_mem_cons, winNamed, gotNext, lastNext, closedFind]
  simp only [and_true, true_and]
  exact ⟨.inl (.inl rfl), .inr ⟨by decide, by decide, by decide⟩, by simp⟩

theorem Spec.WinUnder.prefix {p x : Str} (h : WinUnder p x) : p <+: x := by
  induction h with
  | here => exact List.prefix_refl _
  | sep _ _ _ ih => exact ih.trans (List.prefix_append _ _)
  | join _ _ _ _ ih => exact ih.trans (List.prefix_append _ _)

/-- Non-vacuity: the places of `copy("d\\f", "n")`, and a place it never touches. -/
example : WinDest (mkPath .windows "d\\f".toList) (mkPath .windows "n".toList) "n\\f".toList ∧
    ¬ WinDest (mkPath .windows "d\\f".toList) (mkPath .windows "n".toList) "d".toList := by
  refine ⟨.inr ⟨_, _, rfl, rfl, by rfl⟩, ?_⟩
  rintro (h | ⟨f, q, h1, h2, h3⟩)
  · exact absurd h.prefix (by decide)
  · cases h1
    cases h2
    exact absurd h3 (by decide)

end Asap
