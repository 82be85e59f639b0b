import Verif.Props.WinAF
import Verif.Props.ErrW

/-!
# C115: what `canonical`, `weakly_canonical`, `proximate` and `relative` do on Windows otherwise
-/

namespace Asap
open Spec
namespace Win

/-! ## Nothing is changed -/

theorem harmless_unfold {α : Type} {p : Prog α} (h : Only Harmless (fun _ => True) p) : Only Harmless (fun _ => True) (unfoldTests p) := by
  induction h with
  | ret a h => exact .ret a h
  | stop s => exact .stop s
  | call c k h1 h2 ih =>
    cases c with
    | winTest q p =>
      refine Only.harm ?_ fun a => ih _
      cases q
      · exact only_isDirectoryP ..
      · exact only_isSymlinkP ..
      · exact only_existsP ..
    | winReadlink p => exact (only_readSymlink ..).harm fun a => ih _
    | _ => exact .call _ _ h1 ih

theorem harmless_canonLoop (el : Bool) (h : Handler) (root : Path) : ∀ (n : Nat) (result : Path) (cs : List Path) (k : Int) (m : Code)
    (ec : EcArg), Only Harmless (fun _ => True) (winCanonLoop el h root n result cs k m ec)
  | _, _, [], _, _, _ => by unfold winCanonLoop; exact .ret _ trivial
  | n, _, _ :: _, _, some _, _ => by cases n <;> exact .ret _ trivial
  | 0, _, _ :: _, _, none, _ => .stop _
  | n + 1, result, f :: cs, k, none, ec => by
    have ih := harmless_canonLoop el h root n
    unfold winCanonLoop
    dsimp only
    split
    · exact ih ..
    split
    · refine .call _ _ rfl fun bm => ?_
      split
      · exact (Only.report ..).harm fun _ => ih ..
      · exact ih ..
    split
    · exact (Only.ofRes _).harm fun _ => ih ..
    refine (Only.ofRes _).harm fun res => .call _ _ rfl fun bm => ?_
    split
    · refine .call _ _ rfl ?_
      rintro (e | s)
      · exact ih ..
      · dsimp only
        split
        · exact .stop _
        split
        · exact (Only.report ..).harm fun _ => ih ..
        refine (Only.ofRes _).harm fun abs => ?_
        split
        · exact (Only.ofRes _).harm fun _ => ih ..
        · exact (Only.ofRes _).harm fun _ => ih ..
    · exact ih ..

theorem harmless_canonical (el : Bool) (n : Nat) (p : Path) (ec : EcArg) : Only Harmless (fun _ => True) (Win.canonical el n p ec) := by
  unfold Win.canonical
  refine Only.harm ?_ fun x => harmless_unfold ?_
  · unfold doAbsolute
    harmless <;> exact only_currentPath ..
  · unfold winCanonical
    refine (Only.ofRes _).harm fun rel => (harmless_canonLoop ..).harm fun x => ?_
    split
    · exact Only.report ..
    · refine .call _ _ rfl fun bm => ?_
      split
      · exact Only.report ..
      · exact .ret _ trivial

theorem harmless_prefix : ∀ (xs : List Path) (r : Path) (m : Code), Only Harmless (fun _ => True) (existingPrefix xs r m)
  | [], _, _ => .ret _ trivial
  | x :: xs, r, m => by
    simp only [existingPrefix, Prog.bind_eq]
    refine (Only.ofRes _).harm fun tmp => (only_status ..).harm fun st => ?_
    split
    · exact harmless_prefix ..
    · exact .ret _ trivial

theorem harmless_weakly (el : Bool) (n : Nat) (p : Path) (ec : EcArg) :
    Only Harmless (fun _ => True) (Win.weaklyCanonical el n p ec) := by
  simp only [Win.weaklyCanonical, Prog.bind_eq]
  split
  · exact harmless_canonical ..
  refine (only_status ..).harm fun st => ?_
  split
  · exact Only.report ..
  split
  · exact harmless_canonical ..
  refine (harmless_prefix ..).harm fun x => Only.harm ?_ fun y => ?_
  · split
    · exact (harmless_canonical ..).harm fun _ => .ret _ trivial
    · exact .ret _ trivial
  · split
    · exact .ret _ trivial
    · exact (Only.ofRes _).harm fun _ => (Only.ofRes _).harm fun _ => .ret _ trivial

theorem harmless_via (el : Bool) (n : Nat) (f : Path → Path → Res Path) (p b : Path) (c : Code) :
    Only Harmless (fun _ => True) (Win.viaCanonicalEc el n f p b c) ∧ Only Harmless (fun _ => True) (Win.viaCanonicalThrow el n f p b) := by
  constructor
  · simp only [Win.viaCanonicalEc, Prog.bind_eq]
    refine (harmless_weakly ..).harm fun x => ?_
    split
    · exact .ret _ trivial
    refine (harmless_weakly ..).harm fun x => ?_
    split
    · exact .ret _ trivial
    · exact (Only.ofRes _).harm fun _ => .ret _ trivial
  · simp only [Win.viaCanonicalThrow, Prog.bind_eq]
    exact (harmless_weakly ..).harm fun x => (harmless_weakly ..).harm fun x => (Only.ofRes _).harm fun _ => .ret _ trivial

theorem harmless_proximate (el : Bool) (n : Nat) (p b : Path) (ec : EcArg) :
    Only Harmless (fun _ => True) (Win.proximate el n p b ec) := by
  cases ec
  · exact (harmless_via el n _ p b none).2
  · exact (harmless_via el n _ p b _).1

theorem harmless_relative (el : Bool) (n : Nat) (p b : Path) (ec : EcArg) :
    Only Harmless (fun _ => True) (Win.relative el n p b ec) := by
  cases ec
  · exact (harmless_via el n _ p b none).2
  · exact (harmless_via el n _ p b _).1

theorem harmless_proximateCwd (el : Bool) (n : Nat) (p : Path) (ec : EcArg) :
    Only Harmless (fun _ => True) (Win.proximateCwd el n p ec) := by
  simp only [Win.proximateCwd, Prog.bind_eq]
  exact (only_currentPath _).harm fun _ => harmless_proximate ..

theorem harmless_relativeCwd (el : Bool) (n : Nat) (p : Path) (ec : EcArg) :
    Only Harmless (fun _ => True) (Win.relativeCwd el n p ec) := by
  simp only [Win.relativeCwd, Prog.bind_eq]
  exact (only_currentPath _).harm fun _ => harmless_relative ..

/-! ## Exceptions -/

/-- Exceptions satisfy `P`, results `Q`. -/
inductive Ends {α : Type} (P : FsError → Prop) (Q : α → Prop) : Prog α → Prop where
  | ret (a : α) (h : Q a) : Ends P Q (.ret a)
  | fault (f : Fault) : Ends P Q (.stop (.fault f))
  | fuel : Ends P Q (.stop .fuel)
  | thrown (x : FsError) (h : P x) : Ends P Q (.stop (.thrown x))
  | call (c : Sys) (k : c.Ret → Prog α) (h : ∀ r, Ends P Q (k r)) : Ends P Q (.call c k)

section
variable {α β : Type} {P : FsError → Prop} {Q : α → Prop} {R : β → Prop}

theorem Ends.bind {p : Prog α} {f : α → Prog β} (h : Ends P Q p) (hf : ∀ a, Q a → Ends P R (f a)) : Ends P R (p.bind f) := by
  induction h with
  | ret a h => exact hf a h
  | fault x => exact .fault x
  | fuel => exact .fuel
  | thrown x h => exact .thrown x h
  | call c k _ ih => exact .call _ _ ih

theorem Ends.thr {p : Prog α} (h : Thr (fun _ => True) P p) : Ends P (fun _ => True) p := by
  induction h with
  | ret a => exact .ret a trivial
  | fault x => exact .fault x
  | fuel => exact .fuel
  | thrown x h => exact .thrown x h
  | call c k _ ih => exact .call _ _ fun r => ih r trivial

theorem Ends.noThrow {p : Prog α} (h : NoThrow (fun _ => True) p) : Ends P (fun _ => True) p := .thr h.thr

theorem Ends.ofRes (r : Res α) : Ends P (fun _ => True) (Prog.ofRes r) := .thr (.ofRes r)

theorem Ends.mono {P' : FsError → Prop} {Q' : α → Prop} {p : Prog α} (h : Ends P Q p) (hP : ∀ x, P x → P' x) (hQ : ∀ a, Q a → Q' a) :
    Ends P' Q' p := by
  induction h with
  | ret a h => exact .ret a (hQ a h)
  | fault x => exact .fault x
  | fuel => exact .fuel
  | thrown x h => exact .thrown x (hP x h)
  | call c k _ ih => exact .call _ _ ih

theorem Ends.exec {p : Prog α} (h : Ends P Q p) {t : List Event} {o : Except Stop α} (he : Exec p t o) :
    (∀ x, o = .error (.thrown x) → P x) ∧ ∀ a, o = .ok a → Q a := by
  induction h generalizing t with
  | ret a h => cases he; exact ⟨nofun, fun _ h' => by cases h'; exact h⟩
  | fault x => cases he; exact ⟨nofun, nofun⟩
  | fuel => cases he; exact ⟨nofun, nofun⟩
  | thrown x h => cases he; exact ⟨fun _ h' => by cases h'; exact h, nofun⟩
  | call c k _ ih =>
    cases he with
    | call _ _ r _ _ h => exact ih _ h

theorem Ends.report {h : Handler} {ec : EcArg} {c : Code} {d : α} {nul : Prop} (hn : ec = .null → nul)
    (hP : ∀ m c, nul → P (h.error m c)) : Ends P (fun x : α × EcArg => x.2 = .null → nul) (h.report ec c d) := by
  cases ec
  · exact .thrown _ (hP _ _ (hn rfl))
  · exact .ret _ nofun

theorem Ends.unfold {p : Prog α} (h : Ends P Q p) : Ends P Q (unfoldTests p) := by
  induction h with
  | ret a h => exact .ret a h
  | fault f => exact .fault f
  | fuel => exact .fuel
  | thrown x h => exact .thrown x h
  | call c k h1 ih =>
    cases c with
    | winTest q p =>
      refine .bind (.noThrow ?_) fun a _ => ih _
      cases q
      · exact noThrow_isDirectoryP ..
      · exact .bind (noThrow_symlinkStatus ..) fun _ => .ret _
      · exact .bind (noThrow_status ..) fun _ => .ret _
    | winReadlink p => exact .bind (.noThrow (rel_readSymlink _ _).noThrow) fun a _ => ih _
    | _ => exact .call _ _ ih

end

theorem ends_canonLoop {P : FsError → Prop} (el : Bool) (h : Handler) (root : Path) (nul : Prop) (hP : ∀ m c, nul → P (h.error m c)) :
    ∀ (n : Nat) (result : Path) (cs : List Path) (k : Int) (m : Code) (ec : EcArg), (ec = .null → nul) →
      Ends P (fun x : Path × Code × EcArg => x.2.2 = .null → nul) (winCanonLoop el h root n result cs k m ec)
  | _, _, [], _, _, _, hn => by unfold winCanonLoop; exact .ret _ hn
  | n, _, _ :: _, _, some _, _, hn => by cases n <;> exact .ret _ hn
  | 0, _, _ :: _, _, none, _, _ => .fuel
  | n + 1, result, f :: cs, k, none, ec, hn => by
    have ih := ends_canonLoop el h root nul hP n
    unfold winCanonLoop
    dsimp only
    split
    · exact ih _ _ _ _ _ hn
    split
    · refine .call _ _ fun bm => ?_
      split
      · exact (Ends.report hn hP).bind fun _ hx => ih _ _ _ _ _ hx
      · exact ih _ _ _ _ _ hn
    split
    · exact (Ends.ofRes _).bind fun _ _ => ih _ _ _ _ _ hn
    refine (Ends.ofRes _).bind fun res _ => .call _ _ fun bm => ?_
    split
    · refine .call _ _ ?_
      rintro (e | s)
      · exact ih _ _ _ _ _ hn
      · dsimp only
        split
        · exact .fault _
        split
        · exact (Ends.report hn hP).bind fun _ hx => ih _ _ _ _ _ hx
        refine (Ends.ofRes _).bind fun abs _ => ?_
        split
        · exact (Ends.ofRes _).bind fun _ _ => ih _ _ _ _ _ hn
        · exact (Ends.ofRes _).bind fun _ _ => ih _ _ _ _ _ hn
    · exact ih _ _ _ _ _ hn

/-- Which exceptions there are when `p` is resolved: none unless the form without `error_code` is called; with no path, if the current
directory is not known, or with `p` first. -/
def ResolveError (p : Path) (ec : EcArg) (x : FsError) : Prop :=
  ec = .null ∧ (Names [] x ∨ 1 ≤ x.npaths ∧ x.path1.pathname = p.pathname)

theorem ends_currentPath (ec : EcArg) :
    Ends (fun x => ec = .null ∧ Names [] x) (fun x : Path × EcArg => x.2 = .null → ec = .null) (Win.currentPath ec) := by
  unfold Win.currentPath
  dsimp only
  refine .call _ _ fun z => .call _ _ fun r => ?_
  have hn : ec.clear = .null → ec = .null := by cases ec <;> simp [EcArg.clear]
  rcases r with e | _ | s
  · cases ec
    · exact .thrown _ ⟨rfl, rfl, rfl, rfl⟩
    · exact .ret _ nofun
  · exact .fault _
  · exact .ret _ hn

theorem ends_doAbsolute (p : Path) (ec : EcArg) :
    Ends (fun x => ec = .null ∧ Names [] x) (fun x : (Path × Path) × EcArg => x.2 = .null → ec = .null) (Win.doAbsolute p ec) := by
  have hn : ec.clear = .null → ec = .null := by cases ec <;> simp [EcArg.clear]
  unfold Win.doAbsolute
  refine (Ends.ofRes _).bind fun abs _ => ?_
  split
  · exact .ret _ hn
  · refine Ends.bind ((ends_currentPath ec.clear).mono (fun x h => ⟨hn h.1, h.2⟩) fun a h h' => hn (h h')) fun x hx => ?_
    split
    · exact .ret _ hx
    · exact (Ends.ofRes _).bind fun _ _ => .ret _ hx

theorem ends_canonical (el : Bool) (n : Nat) (p : Path) (ec : EcArg) :
    Ends (ResolveError p ec) (fun x : Path × EcArg => x.2 = .null → ec = .null) (Win.canonical el n p ec) := by
  have hn : ec.clear = .null → ec = .null := by cases ec <;> simp [EcArg.clear]
  unfold Win.canonical
  refine Ends.bind ((ends_doAbsolute p ec.clear).mono (fun x h => ⟨hn h.1, .inl h.2⟩) fun a h h' => hn (h h')) fun x hx => Ends.unfold ?_
  have hP : ∀ m c, ec = .null → ResolveError p ec ((⟨"canonical".toList, some p, some x.1.2⟩ : Handler).error m c) :=
    fun m c h => ⟨h, .inr ⟨by first | (show 1 ≤ 2; decide) | (show 1 ≤ 1; decide), rfl⟩⟩
  unfold winCanonical
  refine (Ends.ofRes _).bind fun rel _ => (ends_canonLoop _ _ _ (ec = .null) hP _ _ _ _ _ _ hx).bind fun y hy => ?_
  split
  · exact .report hy hP
  · refine .call _ _ fun bm => ?_
    split
    · exact .report hy hP
    · exact .ret _ hy

theorem noThrow_prefix : ∀ (xs : List Path) (r : Path) (m : Code), NoThrow (fun _ => True) (existingPrefix xs r m)
  | [], _, _ => .ret _
  | x :: xs, r, m => by
    simp only [existingPrefix, Prog.bind_eq]
    refine (NoThrow.ofRes _).bind fun tmp => (noThrow_status ..).bind fun st => ?_
    split
    · exact noThrow_prefix ..
    · exact .ret _

theorem ends_weakly (el : Bool) (n : Nat) (p : Path) (ec : EcArg) :
    Ends (ResolveError p ec) (fun x : Path × EcArg => x.2 = .null → ec = .null) (Win.weaklyCanonical el n p ec) := by
  have hn : ec.clear = .null → ec = .null := by cases ec <;> simp [EcArg.clear]
  have hc : ∀ q, q.pathname = p.pathname →
      Ends (ResolveError p ec) (fun x : Path × EcArg => x.2 = .null → ec = .null) (Win.canonical el n q ec.clear) := fun q hq =>
    (ends_canonical el n q ec.clear).mono (fun x h => ⟨hn h.1, h.2.imp id fun h => ⟨h.1, h.2.trans hq⟩⟩) fun a h h' => hn (h h')
  simp only [Win.weaklyCanonical, Prog.bind_eq]
  split
  · rename_i he
    refine hc _ ?_
    rw [Path.isEmpty, List.isEmpty_iff] at he
    rw [he]; rfl
  refine Ends.bind (.noThrow (noThrow_status ..)) fun st _ => ?_
  split
  · refine .report hn fun m c h => ⟨h, .inr ⟨by first | (show 1 ≤ 2; decide) | (show 1 ≤ 1; decide), rfl⟩⟩
  split
  · exact hc _ rfl
  refine Ends.bind (.noThrow (noThrow_prefix ..)) fun x _ => Ends.bind (Q := fun _ => True) ?_ fun y _ => ?_
  · split
    · refine Ends.bind (Q := fun _ => True) ?_ fun _ _ => .ret _ trivial
      exact (ends_canonical ..).mono (fun x h => nomatch h.1) fun _ _ => trivial
    · exact .ret _ trivial
  · split
    · exact .ret _ hn
    · exact (Ends.ofRes _).bind fun _ _ => (Ends.ofRes _).bind fun _ _ => .ret _ hn

theorem ends_viaEc (el : Bool) (n : Nat) (f : Path → Path → Res Path) (p b : Path) (c : Code) :
    Ends (fun _ => False) (fun x : Path × EcArg => x.2 ≠ .null) (Win.viaCanonicalEc el n f p b c) := by
  have hw : ∀ p ec, ec ≠ .null → Ends (fun _ => False) (fun x : Path × EcArg => x.2 ≠ .null) (Win.weaklyCanonical el n p ec) :=
    fun p ec h => (ends_weakly el n p ec).mono (fun x h' => h h'.1) fun a h' h'' => h (h' h'')
  simp only [Win.viaCanonicalEc, Prog.bind_eq]
  refine Ends.bind (hw _ _ (by simp)) fun x hx => ?_
  split
  · exact .ret _ hx
  refine Ends.bind (hw _ _ hx) fun y hy => ?_
  split
  · exact .ret _ hy
  · exact (Ends.ofRes _).bind fun _ _ => .ret _ hy

theorem ends_viaThrow (el : Bool) (n : Nat) (f : Path → Path → Res Path) (p b : Path) :
    Ends (fun x => ResolveError p .null x ∨ ResolveError b .null x) (fun _ => True) (Win.viaCanonicalThrow el n f p b) := by
  simp only [Win.viaCanonicalThrow, Prog.bind_eq]
  refine Ends.bind ((ends_weakly el n p _).mono (fun x h => .inl h) fun a h => h) fun x hx => ?_
  refine Ends.bind ((ends_weakly el n b _).mono (fun x h => .inr h) fun a h => h) fun x hx => ?_
  exact (Ends.ofRes _).bind fun _ _ => .ret _ trivial

end Win

/-! ## The claims -/

namespace Spec

/-- The functions of Windows that resolve a path. `n` bounds the loop of `canonical`; `el` says whether copies at a `return` are elided. -/
inductive Resolve where
  | canonical (p : Path)
  | weaklyCanonical (p : Path)
  | proximate (p base : Path)
  | relative (p base : Path)
  | proximateCwd (p : Path)
  | relativeCwd (p : Path)

/-- The path asked about. -/
def Resolve.arg : Resolve → Path
  | canonical p | weaklyCanonical p | proximate p _ | relative p _ | proximateCwd p | relativeCwd p => p

/-- The other path given. -/
def Resolve.base? : Resolve → Option Path
  | proximate _ b | relative _ b => some b
  | _ => none

/-- The call takes the current directory for the base. -/
def Resolve.cwd : Resolve → Bool
  | proximateCwd _ | relativeCwd _ => true
  | _ => false

/-- What the call runs. -/
def Resolve.run (el : Bool) (n : Nat) (ec : EcArg) : Resolve → Prog (Path × EcArg)
  | canonical p => Win.canonical el n p ec
  | weaklyCanonical p => Win.weaklyCanonical el n p ec
  | proximate p b => Win.proximate el n p b ec
  | relative p b => Win.relative el n p b ec
  | proximateCwd p => Win.proximateCwd el n p ec
  | relativeCwd p => Win.relativeCwd el n p ec

end Spec

open Spec

/-- **C115, nothing is changed**: resolving a path only asks; whatever the system answers, nothing on the disk is changed. -/
theorem c115_looking (f : Resolve) (el : Bool) (n : Nat) (ec : EcArg) (t : List Event) (o : Except Stop (Path × EcArg))
    (h : Exec (f.run el n ec) t o) : Quiet t := by
  cases f with
  | canonical p => exact (Win.harmless_canonical ..).exec h |>.1
  | weaklyCanonical p => exact (Win.harmless_weakly ..).exec h |>.1
  | proximate p b => exact (Win.harmless_proximate ..).exec h |>.1
  | relative p b => exact (Win.harmless_relative ..).exec h |>.1
  | proximateCwd p => exact (Win.harmless_proximateCwd ..).exec h |>.1
  | relativeCwd p => exact (Win.harmless_relativeCwd ..).exec h |>.1

/-- **C115, errors go to the `error_code`**: the overloads with an `error_code` throw no `filesystem_error`, except those that take the
current directory for the base: these do, naming no path, if the system does not tell it (`c115_no_throw_violated`). -/
theorem c115_no_throw_partial (f : Resolve) (el : Bool) (n : Nat) (c : Code) (t : List Event) (x : FsError)
    (h : Exec (f.run el n (.ref c)) t (.error (.thrown x))) :
    f.cwd = true ∧ x.npaths = 0 ∧ ∃ z e, ⟨.win (.getCwd z), (.error e : Except Errno (Option Str))⟩ ∈ t := by
  have viaCwd : ∀ q : Path → Prog (Path × EcArg), (∀ b, Win.Ends (fun _ => False) (fun _ => True) (q b)) →
      Exec ((Win.currentPath .null).bind fun y => q y.1) t (.error (.thrown x)) →
      x.npaths = 0 ∧ ∃ z e, ⟨.win (.getCwd z), (.error e : Except Errno (Option Str))⟩ ∈ t := by
    intro q hq h
    rcases exec_bind.mp h with ⟨s, h1, h2⟩ | ⟨a, t1, t2, -, -, h3⟩
    · cases h2
      obtain ⟨z, t1, rfl, h2⟩ := exec_call.mp h1
      obtain ⟨r, t2, rfl, h3⟩ := exec_call.mp h2
      rcases r with e | _ | s
      · cases h3
        exact ⟨rfl, z, e, by simp⟩
      · cases h3
      · cases h3
    · exact (((hq _).exec h3).1 _ rfl).elim
  have none' {p : Prog (Path × EcArg)} {R : Path × EcArg → Prop} (hp : Win.Ends (fun _ => False) R p) (h : Exec p t (.error (.thrown x))) : False :=
    (hp.exec h).1 _ rfl
  have out {Q : Path × EcArg → Prop} {p : Path} {q : Prog (Path × EcArg)} (hq : Win.Ends (Win.ResolveError p (.ref c)) Q q) :
      Win.Ends (fun _ => False) Q q := hq.mono (fun _ h => nomatch h.1) fun _ h => h
  cases f with
  | canonical p => exact (none' (out (Win.ends_canonical ..)) h).elim
  | weaklyCanonical p => exact (none' (out (Win.ends_weakly ..)) h).elim
  | proximate p b => exact (none' (Win.ends_viaEc ..) h).elim
  | relative p b => exact (none' (Win.ends_viaEc ..) h).elim
  | proximateCwd p => exact ⟨rfl, viaCwd (fun b => Win.proximate el n p b (.ref c)) (fun b => (Win.ends_viaEc ..).mono (fun _ h => h) fun _ _ => trivial) h⟩
  | relativeCwd p => exact ⟨rfl, viaCwd (fun b => Win.relative el n p b (.ref c)) (fun b => (Win.ends_viaEc ..).mono (fun _ h => h) fun _ _ => trivial) h⟩

/-- **C115 is violated**: `proximate(p, ec)` throws if the current directory is not known. -/
theorem c115_no_throw_violated : ∃ t x,
    Exec ((Resolve.proximateCwd (mkPath .windows "x".toList)).run true 10 (.ref none)) t (.error (.thrown x)) ∧
    t = [⟨.win .cwdSize, (4 : Nat)⟩, ⟨.win (.getCwd 4), (.error .EACCES : Except Errno (Option Str))⟩] :=
  ⟨_, _, feed_exec (by rfl), rfl⟩

/-- **C115, exceptions**: a `filesystem_error` has no path, or its first path is the one asked about, the base given, or the current
directory where that is the base. -/
theorem c115_exceptions (f : Resolve) (el : Bool) (n : Nat) (ec : EcArg) (t : List Event) (x : FsError)
    (h : Exec (f.run el n ec) t (.error (.thrown x))) (hx : x.npaths ≠ 0) :
    x.path1.pathname = f.arg.pathname ∨ (∃ b, f.base? = some b ∧ x.path1.pathname = b.pathname) ∨
      f.cwd = true ∧ ∃ z s, ⟨.win (.getCwd z), (.ok (some s) : Except Errno (Option Str))⟩ ∈ t ∧ x.path1.pathname = (mkPath .windows s).pathname := by
  have res {p : Path} {ec : EcArg} (h : Win.ResolveError p ec x) : x.path1.pathname = p.pathname := by
    rcases h with ⟨-, h | h⟩
    · exact (hx h.1).elim
    · exact h.2
  have via : ∀ (g : Path → Path → Res Path) (p b : Path) (t : List Event), Exec (Win.viaCanonicalThrow el n g p b) t (.error (.thrown x)) →
      x.path1.pathname = p.pathname ∨ x.path1.pathname = b.pathname := fun g p b t h =>
    (((Win.ends_viaThrow el n g p b).exec h).1 _ rfl).imp res res
  have viaCwd : ∀ (g : Path → Path → Res Path) (p : Path),
      Exec ((Win.currentPath .null).bind fun y => Win.viaCanonicalThrow el n g p y.1) t (.error (.thrown x)) →
      x.path1.pathname = p.pathname ∨ ∃ z s, ⟨.win (.getCwd z), (.ok (some s) : Except Errno (Option Str))⟩ ∈ t ∧ x.path1.pathname = (mkPath .windows s).pathname := by
    intro g p h
    rcases exec_bind.mp h with ⟨s, h1, h2⟩ | ⟨a, t1, t2, rfl, h1, h3⟩
    · cases h2
      exact (hx (((Win.ends_currentPath .null).exec h1).1 _ rfl).2.1).elim
    · obtain ⟨z, t1, rfl, h2⟩ := exec_call.mp h1
      obtain ⟨r, t2, rfl, h4⟩ := exec_call.mp h2
      rcases r with e | _ | s
      · cases h4
      · cases h4
      · cases h4
        rcases via _ _ _ _ h3 with h | h
        · exact .inl h
        · exact .inr ⟨z, s, by simp, h⟩
  cases ec with
  | ref c =>
    obtain ⟨-, h, -⟩ := c115_no_throw_partial _ _ _ _ _ _ h
    exact (hx h).elim
  | null =>
    cases f with
    | canonical p => exact .inl (res (((Win.ends_canonical ..).exec h).1 _ rfl))
    | weaklyCanonical p => exact .inl (res (((Win.ends_weakly ..).exec h).1 _ rfl))
    | proximate p b => exact (via _ _ _ _ h).imp id fun h => .inl ⟨b, rfl, h⟩
    | relative p b => exact (via _ _ _ _ h).imp id fun h => .inl ⟨b, rfl, h⟩
    | proximateCwd p => exact (viaCwd _ _ h).imp id fun h => .inr ⟨rfl, h⟩
    | relativeCwd p => exact (viaCwd _ _ h).imp id fun h => .inr ⟨rfl, h⟩

/-- Not vacuous: the base cannot be read, and the exception names it. -/
example : ∃ t x, Exec ((Resolve.proximate (mkPath .windows "C:\\".toList) (mkPath .windows "C:\\b".toList)).run true 10 .null) t (.error (.thrown x)) ∧
    x.npaths = 1 ∧ x.path1.pathname = "C:\\b".toList :=
  ⟨[⟨.win (.getAttrs "C:\\".toList), (.ok 0x10 : Except Errno (BitVec 32))⟩,
    ⟨.win (.getPerms "C:\\".toList 0x10#32), (.ok 0x1ff#32 : Except Errno Mode)⟩,
    ⟨.win (.getAttrs "C:\\".toList), (.ok 0x10 : Except Errno (BitVec 32))⟩,
    ⟨.win (.getPerms "C:\\".toList 0x10#32), (.ok 0x1ff#32 : Except Errno Mode)⟩,
    ⟨.win (.getAttrs "C:\\b".toList), (.error .EACCES : Except Errno (BitVec 32))⟩], _, feed_exec (by rfl), rfl, rfl⟩

/-- The answer is the lexical function `f` of what `weakly_canonical` gives for the two paths, asked one after the other, without errors. -/
def Spec.FromBoth (f : Path → Path → Res Path) (el : Bool) (n : Nat) (p b : Path) (ec : EcArg) (t : List Event) (r : Path) : Prop :=
  ∃ t1 t2 x y e e1 e2, t = t1 ++ t2 ∧ Exec (Win.weaklyCanonical el n p ec) t1 (.ok (x, e1)) ∧ Exec (Win.weaklyCanonical el n b e) t2 (.ok (y, e2)) ∧
    (ec ≠ .null → e1.isSet = false ∧ e2.isSet = false) ∧ f x y = .ok r

theorem Win.exec_viaEc {el : Bool} {n : Nat} {f : Path → Path → Res Path} {p b : Path} {c : Code} {t : List Event} {r : Path} {ec' : EcArg}
    (h : Exec (Win.viaCanonicalEc el n f p b c) t (.ok (r, ec'))) (he : ec'.isSet = false) : FromBoth f el n p b (.ref c) t r := by
  simp only [Win.viaCanonicalEc, Prog.bind_eq] at h
  rcases exec_bind.mp h with ⟨s, -, h2⟩ | ⟨⟨x, e1⟩, t1, t2, rfl, h1, h⟩
  · cases h2
  dsimp only at h
  split at h
  · rename_i hs; cases h; rw [he] at hs; cases hs
  rename_i hs1
  rcases exec_bind.mp h with ⟨s, -, h2⟩ | ⟨⟨y, e2⟩, t2, t3, rfl, h2, h⟩
  · cases h2
  dsimp only at h
  split at h
  · rename_i hs; cases h; rw [he] at hs; cases hs
  rename_i hs2
  rcases exec_bind.mp h with ⟨s, -, h2⟩ | ⟨z, t3, t4, rfl, h3, h⟩
  · cases h2
  cases h
  cases hf : f x y with
  | error e => rw [hf] at h3; cases h3
  | ok r' =>
    rw [hf] at h3
    cases h3
    exact ⟨t1, t2, x, y, e1, e1, _, by simp, h1, h2, fun _ => ⟨by simpa using hs1, by simpa using hs2⟩, hf⟩

theorem Win.exec_viaThrow {el : Bool} {n : Nat} {f : Path → Path → Res Path} {p b : Path} {t : List Event} {r : Path} {ec' : EcArg}
    (h : Exec (Win.viaCanonicalThrow el n f p b) t (.ok (r, ec'))) : FromBoth f el n p b .null t r := by
  simp only [Win.viaCanonicalThrow, Prog.bind_eq] at h
  rcases exec_bind.mp h with ⟨s, -, h2⟩ | ⟨⟨x, e1⟩, t1, t2, rfl, h1, h⟩
  · cases h2
  rcases exec_bind.mp h with ⟨s, -, h2⟩ | ⟨⟨y, e2⟩, t2, t3, rfl, h2, h⟩
  · cases h2
  rcases exec_bind.mp h with ⟨s, -, h2⟩ | ⟨z, t3, t4, rfl, h3, h⟩
  · cases h2
  cases h
  cases hf : f x y with
  | error e => simp only [hf] at h3; cases h3
  | ok r' =>
    simp only [hf] at h3
    cases h3
    exact ⟨t1, t2, x, y, .null, e1, e2, by simp, h1, h2, fun h => absurd rfl h, hf⟩

/-- **C115, results**: `proximate` and `relative` that report no error return `lexically_proximate` and `lexically_relative` of what
`weakly_canonical` returns for the path and for the base. -/
theorem c115_results (el : Bool) (n : Nat) (p b : Path) (ec ec' : EcArg) (t : List Event) (r : Path) (he : ec'.isSet = false) :
    (Exec (Win.proximate el n p b ec) t (.ok (r, ec')) → FromBoth (lexicallyProximate .windows) el n p b ec t r) ∧
    (Exec (Win.relative el n p b ec) t (.ok (r, ec')) → FromBoth (lexicallyRelative .windows) el n p b ec t r) := by
  cases ec with
  | null => exact ⟨fun h => Win.exec_viaThrow h, fun h => Win.exec_viaThrow h⟩
  | ref c => exact ⟨fun h => Win.exec_viaEc h he, fun h => Win.exec_viaEc h he⟩

/-- **C115, results** with the current directory: the base is the text the system tells. -/
theorem c115_results_cwd (el : Bool) (n : Nat) (p : Path) (ec ec' : EcArg) (t : List Event) (r : Path) (he : ec'.isSet = false) :
    (Exec (Win.proximateCwd el n p ec) t (.ok (r, ec')) → ∃ z s t', t = ⟨.win .cwdSize, (z : Nat)⟩ :: ⟨.win (.getCwd z), (.ok (some s) : Except Errno (Option Str))⟩ :: t' ∧
      FromBoth (lexicallyProximate .windows) el n p (mkPath .windows s) ec t' r) ∧
    (Exec (Win.relativeCwd el n p ec) t (.ok (r, ec')) → ∃ z s t', t = ⟨.win .cwdSize, (z : Nat)⟩ :: ⟨.win (.getCwd z), (.ok (some s) : Except Errno (Option Str))⟩ :: t' ∧
      FromBoth (lexicallyRelative .windows) el n p (mkPath .windows s) ec t' r) := by
  have key : ∀ q : Path → Prog (Path × EcArg), Exec ((Win.currentPath .null).bind fun y => q y.1) t (.ok (r, ec')) →
      ∃ z s t', t = ⟨.win .cwdSize, (z : Nat)⟩ :: ⟨.win (.getCwd z), (.ok (some s) : Except Errno (Option Str))⟩ :: t' ∧
        Exec (q (mkPath .windows s)) t' (.ok (r, ec')) := by
    intro q h
    rcases exec_bind.mp h with ⟨s, -, h2⟩ | ⟨a, t1, t2, rfl, h1, h3⟩
    · cases h2
    · obtain ⟨z, t1, rfl, h2⟩ := exec_call.mp h1
      obtain ⟨r, t2, rfl, h4⟩ := exec_call.mp h2
      rcases r with e | _ | s
      · cases h4
      · cases h4
      · cases h4
        exact ⟨z, s, _, rfl, h3⟩
  constructor
  · intro h
    obtain ⟨z, s, t', h1, h2⟩ := key (fun b => Win.proximate el n p b ec) h
    exact ⟨z, s, t', h1, (c115_results el n p _ ec ec' t' r he).1 h2⟩
  · intro h
    obtain ⟨z, s, t', h1, h2⟩ := key (fun b => Win.relative el n p b ec) h
    exact ⟨z, s, t', h1, (c115_results el n p _ ec ec' t' r he).2 h2⟩

/-- Not vacuous: `C:\a` relative to `C:\`. -/
example : ∃ t, Exec (Win.relative true 10 (mkPath .windows "C:\\a".toList) (mkPath .windows "C:\\".toList) (.ref none)) t (.ok (mkPath .windows "a".toList, .ref none)) :=
  ⟨[⟨.win (.getAttrs "C:\\a".toList), (.ok 0x10 : Except Errno (BitVec 32))⟩, ⟨.win (.getPerms "C:\\a".toList 0x10#32), (.ok 0x1ff#32 : Except Errno Mode)⟩,
    ⟨.win (.getAttrs "C:\\a".toList), (.ok 0x10 : Except Errno (BitVec 32))⟩, ⟨.win (.getPerms "C:\\a".toList 0x10#32), (.ok 0x1ff#32 : Except Errno Mode)⟩,
    ⟨.win (.getAttrs "C:\\a".toList), (.ok 0x10 : Except Errno (BitVec 32))⟩, ⟨.win (.getPerms "C:\\a".toList 0x10#32), (.ok 0x1ff#32 : Except Errno Mode)⟩,
    ⟨.win (.getAttrs "C:\\".toList), (.ok 0x10 : Except Errno (BitVec 32))⟩, ⟨.win (.getPerms "C:\\".toList 0x10#32), (.ok 0x1ff#32 : Except Errno Mode)⟩,
    ⟨.win (.getAttrs "C:\\".toList), (.ok 0x10 : Except Errno (BitVec 32))⟩, ⟨.win (.getPerms "C:\\".toList 0x10#32), (.ok 0x1ff#32 : Except Errno Mode)⟩],
   feed_exec (by rfl)⟩

/-- **C115 is violated**: `x` exists and `x\y` does not; the system does not tell the current directory, so `x` is not resolved;
`weakly_canonical` returns an empty path and reports no error. -/
theorem c115_violated : ∃ t,
    Exec (Win.weaklyCanonical true 10 (mkPath .windows "x\\y".toList) (.ref none)) t (.ok (mkPath .windows [], .ref none)) := 
  ⟨[⟨.win (.getAttrs "x\\y".toList), (.error (.other 3) : Except Errno (BitVec 32))⟩,
    ⟨.win (.getAttrs "x".toList), (.ok 0x10 : Except Errno (BitVec 32))⟩,
    ⟨.win (.getPerms "x".toList 0x10#32), (.ok 0x1ff#32 : Except Errno Mode)⟩,
    ⟨.win (.getAttrs "x\\y".toList), (.error (.other 3) : Except Errno (BitVec 32))⟩,
    ⟨.win .cwdSize, (4 : Nat)⟩, ⟨.win (.getCwd 4), (.error .EACCES : Except Errno (Option Str))⟩,
    ⟨.win (.getAttrs []), (.error (.other 3) : Except Errno (BitVec 32))⟩], feed_exec (by rfl)⟩

end Asap
