import Verif.Props.OpsE
import Verif.Os.Ghost

/-!
# C25: the decisions of `copy_file`
-/

namespace Asap
open Spec

variable {α : Type} {t : List Event} {o : Except Stop α}

theorem exec_refreshStatus_bind {p : Path} {f : (FStatus × Stat) × Code → Prog α} :
    Exec ((refreshStatus p).bind f) t o ↔
    (∃ (e : Errno) (t' : List Event), t = ⟨.lstat p.pathname, (.error e : Except Errno Stat)⟩ :: t' ∧
      Exec (f (({ type := typeOfErr e }, .zero), some e)) t' o) ∨
    (∃ (st : Stat) (t' : List Event), t = ⟨.lstat p.pathname, (.ok st : Except Errno Stat)⟩ :: t' ∧
      Exec (f ((statusOf st, st), none)) t' o) := by
  have : refreshStatus p = .call (.lstat p.pathname) (fun
      | .ok st => .ret ((statusOf st, st), none)
      | .error e => .ret (({ type := typeOfErr e }, .zero), some e)) := by
    unfold refreshStatus
    congr 1
    funext r
    rcases r with e | st
    · simp [createFileStatus_err, EcArg.code]
    · simp [createFileStatus_ok, EcArg.code, EcArg.assign]
  rw [this]
  exact exec_lstat

/-- Nothing in the trace can have changed anything. -/
def Spec.Quiet (t : List Event) : Prop := ∀ ev ∈ t, ev.call.mutates = false

/-- Two names of one file. -/
def Spec.OneFile (a b : Stat) : Prop := a.dev = b.dev ∧ a.ino = b.ino

/-- `a` was written to strictly later than `b`. -/
def Spec.Newer (a b : Stat) : Prop :=
  b.mtimeSec < a.mtimeSec ∨ (b.mtimeSec = a.mtimeSec ∧ b.mtimeNsec < a.mtimeNsec)

/-- The three options for existing destinations. -/
def Spec.skips (opts : CopyOptions) : Prop := opts.getLsbD 0 = true
def Spec.overwrites (opts : CopyOptions) : Prop := opts.getLsbD 1 = true
def Spec.updates (opts : CopyOptions) : Prop := opts.getLsbD 2 = true

instance (opts) : Decidable (skips opts) := by unfold skips; exact inferInstance
instance (opts) : Decidable (overwrites opts) := by unfold overwrites; exact inferInstance
instance (opts) : Decidable (updates opts) := by unfold updates; exact inferInstance

theorem has_pow (opts : CopyOptions) (i : Nat) (hi : i < 16) :
    CopyOptions.has opts (BitVec.twoPow 16 i) = opts.getLsbD i := by
  unfold CopyOptions.has CopyOptions.none
  rw [BitVec.and_twoPow]
  cases h : opts.getLsbD i
  · simp
  · simp only [if_true]
    rw [bne_iff_ne]
    intro hz
    have := congrArg (fun v => BitVec.getLsbD v i) hz
    simp [hi] at this

theorem has_skip (opts : CopyOptions) : opts.has .skipExisting = true ↔ skips opts := by
  have := has_pow opts 0 (by decide); rw [show (BitVec.twoPow 16 0) = CopyOptions.skipExisting from rfl] at this
  rw [this]; rfl
theorem has_overwrite (opts : CopyOptions) : opts.has .overwriteExisting = true ↔ overwrites opts := by
  have := has_pow opts 1 (by decide); rw [show (BitVec.twoPow 16 1) = CopyOptions.overwriteExisting from rfl] at this
  rw [this]; rfl
theorem has_update (opts : CopyOptions) : opts.has .updateExisting = true ↔ updates opts := by
  have := has_pow opts 2 (by decide); rw [show (BitVec.twoPow 16 2) = CopyOptions.updateExisting from rfl] at this
  rw [this]; rfl

theorem statEquivalent_iff (a b : Stat) : statEquivalent a b = true ↔ OneFile a b := by
  simp [statEquivalent, OneFile]

theorem isNewer_iff (a b : Stat) : isNewer a b = true ↔ Newer a b := by
  unfold isNewer Newer
  split
  · simp; omega
  · split
    · simp; omega
    · simp; omega

/-- The outcome: false and the error. -/
abbrev Spec.failed (e : Errno) : Except Stop (Bool × EcArg) := .ok (false, .ref (some e))
/-- The outcome: false, no error. -/
abbrev Spec.skipped : Except Stop (Bool × EcArg) := .ok (false, .ref none)

/-- What follows the look at the destination, given the source's attributes and the answer:
the trace and the outcome. -/
structure Spec.Decides (to : Path) (opts : CopyOptions) (f : Stat) (fd : Nat) (r : Except Errno Stat)
    (t : List Event) (o : Except Stop (Bool × EcArg)) : Prop where
  /-- the destination cannot be examined -/
  unknown : ∀ e, r = .error e → e ≠ .ENOENT → e ≠ .ENOTDIR → (∃ rc, t = [⟨.close fd, rc⟩]) ∧ o = failed e
  /-- no destination: it is opened for creation -/
  missing : ∀ e, r = .error e → (e = .ENOENT ∨ e = .ENOTDIR) →
    ∃ ro t', t = ⟨.openf to.pathname ⟨true, true, false⟩ f.mode, ro⟩ :: t'
  /-- the destination is no regular file -/
  special : ∀ d, r = .ok d → typeOf d.mode ≠ .regular → (∃ rc, t = [⟨.close fd, rc⟩]) ∧ o = failed .ENOTSUP
  /-- both are the same file -/
  same : ∀ d, r = .ok d → typeOf d.mode = .regular → OneFile f d → (∃ rc, t = [⟨.close fd, rc⟩]) ∧ o = failed .EEXIST
  /-- `skip_existing` -/
  skip : ∀ d, r = .ok d → typeOf d.mode = .regular → ¬ OneFile f d → skips opts →
    (∃ rc, t = [⟨.close fd, rc⟩]) ∧ o = skipped
  /-- `update_existing`, source not newer -/
  old : ∀ d, r = .ok d → typeOf d.mode = .regular → ¬ OneFile f d → ¬ skips opts → updates opts → ¬ Newer f d →
    (∃ rc, t = [⟨.close fd, rc⟩]) ∧ o = skipped
  /-- `update_existing`, source newer, or `overwrite_existing` -/
  replace : ∀ d, r = .ok d → typeOf d.mode = .regular → ¬ OneFile f d → ¬ skips opts →
    (updates opts ∧ Newer f d ∨ ¬ updates opts ∧ overwrites opts) →
    ∃ ro t', t = ⟨.openf to.pathname ⟨true, false, false⟩ f.mode, ro⟩ :: t'
  /-- no option -/
  refuse : ∀ d, r = .ok d → typeOf d.mode = .regular → ¬ OneFile f d → ¬ skips opts → ¬ updates opts →
    ¬ overwrites opts → (∃ rc, t = [⟨.close fd, rc⟩]) ∧ o = failed .EEXIST

/-- A destructor closing `fd` after an outcome that unwinds. -/
theorem exec_closing {fd : Nat} {p : Prog α} : Exec (p.finally' (closeFd fd)) t o ↔
    (Unwinds o ∧ ∃ t' r, t = t' ++ [⟨.close fd, r⟩] ∧ Exec p t' o) ∨ (¬ Unwinds o ∧ Exec p t o) := exec_finally_call

theorem closing_ret {fd : Nat} {a : α} (h : Exec ((Prog.ret a).finally' (closeFd fd)) t o) :
    (∃ rc, t = [⟨.close fd, rc⟩]) ∧ o = .ok a := by
  rcases exec_closing.mp h with ⟨_, t', r, rfl, h'⟩ | ⟨hu, h'⟩
  · cases h'; exact ⟨⟨r, rfl⟩, rfl⟩
  · cases h'; exact absurd trivial hu

theorem finally_call {c : Sys} {k : c.Ret → Prog α} {d : Prog Unit} :
    (Prog.call c k).finally' d = .call c (fun r => (k r).finally' d) := rfl

theorem copyInto_starts {sf : Bool} {n : Nat} {hd : Handler} {inp : Nat} {f : Stat} {to : Path} {d : Option Stat}
    {ec : EcArg} {o : Except Stop (Bool × EcArg)}
    (h : Exec ((copyInto sf n hd inp f to d ec).finally' (closeFd inp)) t o) :
    ∃ ro t', t = ⟨.openf to.pathname ⟨true, d.isNone, false⟩ f.mode, ro⟩ :: t' := by
  obtain ⟨r, t', h1, _⟩ := exec_call.mp h
  exact ⟨r, t', h1⟩

/-- C25. The source is opened and examined, then the destination. In particular: an existing
destination is only touched if it is a regular file other than the source, `skip_existing` is not
given, and either `update_existing` is given and the source is strictly newer, or it is not given but
`overwrite_existing` is. -/
theorem c25_copy_file (sf : Bool) (n : Nat) (src to : Path) (opts : CopyOptions) (c : Code) (t : List Event)
    (o : Except Stop (Bool × EcArg)) (h : Exec (copyFile sf n src to opts (.ref c)) t o) :
    (∃ e, t = [⟨.openf src.pathname ⟨false, false, true⟩ 0, (.error e : Except Errno Nat)⟩] ∧ o = failed e) ∨
    (∃ fd t1, t = ⟨.openf src.pathname ⟨false, false, true⟩ 0, (.ok fd : Except Errno Nat)⟩ :: t1 ∧
      ((∃ e rc, t1 = [⟨.lstat src.pathname, (.error e : Except Errno Stat)⟩, ⟨.close fd, rc⟩] ∧ o = failed e) ∨
       (∃ f rc, t1 = [⟨.lstat src.pathname, (.ok f : Except Errno Stat)⟩, ⟨.close fd, rc⟩] ∧
         typeOf f.mode ≠ .regular ∧ o = failed .ENOTSUP) ∨
       (∃ f r t2, t1 = ⟨.lstat src.pathname, (.ok f : Except Errno Stat)⟩ :: ⟨.stat to.pathname, r⟩ :: t2 ∧
         typeOf f.mode = .regular ∧ Decides to opts f fd r t2 o))) := by
  simp only [copyFile, clear_ref] at h
  rcases exec_openf.mp h with ⟨e, t', rfl, h1⟩ | ⟨fd, t1, rfl, h1⟩
  · simp [Handler.report] at h1
    obtain ⟨rfl, rfl⟩ := h1
    exact .inl ⟨e, rfl, rfl⟩
  refine .inr ⟨fd, t1, rfl, ?_⟩
  simp only at h1
  -- the source
  have hsplit : ∀ g : ((FStatus × Stat) × Code) → Prog (Bool × EcArg),
      Exec (((refreshStatus src).bind g).finally' (closeFd fd)) t1 o →
      (∃ (e : Errno) (t' : List Event), t1 = ⟨.lstat src.pathname, (.error e : Except Errno Stat)⟩ :: t' ∧
        Exec ((g (({ type := typeOfErr e }, .zero), some e)).finally' (closeFd fd)) t' o) ∨
      (∃ (st : Stat) (t' : List Event), t1 = ⟨.lstat src.pathname, (.ok st : Except Errno Stat)⟩ :: t' ∧
        Exec ((g ((statusOf st, st), none)).finally' (closeFd fd)) t' o) := by
    intro g hg
    rcases exec_closing.mp hg with ⟨hu, t', r, rfl, hx⟩ | ⟨hu, hx⟩
    · rcases exec_refreshStatus_bind.mp hx with ⟨e, t'', rfl, hy⟩ | ⟨st, t'', rfl, hy⟩
      · exact .inl ⟨e, _, rfl, exec_closing.mpr (.inl ⟨hu, t'', r, rfl, hy⟩)⟩
      · exact .inr ⟨st, _, rfl, exec_closing.mpr (.inl ⟨hu, t'', r, rfl, hy⟩)⟩
    · rcases exec_refreshStatus_bind.mp hx with ⟨e, t'', rfl, hy⟩ | ⟨st, t'', rfl, hy⟩
      · exact .inl ⟨e, _, rfl, exec_closing.mpr (.inr ⟨hu, hy⟩)⟩
      · exact .inr ⟨st, _, rfl, exec_closing.mpr (.inr ⟨hu, hy⟩)⟩
  simp only [copyOpened, Prog.bind_eq] at h1
  rcases hsplit _ h1 with ⟨e, t2, rfl, h2⟩ | ⟨f, t2, rfl, h2⟩
  · simp only [ne_eq, reduceCtorEq, not_false_eq_true, if_true, Handler.report] at h2
    obtain ⟨⟨rc, rfl⟩, rfl⟩ := closing_ret h2
    exact .inl ⟨e, rc, rfl, rfl⟩
  right
  simp only [ne_eq, not_true_eq_false, if_false, FStatus.isRegular, statusOf_type] at h2
  by_cases hreg : typeOf f.mode = .regular
  rotate_left
  · rw [if_pos (by simpa using hreg)] at h2
    simp only [Handler.report] at h2
    obtain ⟨⟨rc, rfl⟩, rfl⟩ := closing_ret h2
    exact .inl ⟨f, rc, rfl, hreg, rfl⟩
  right
  rw [if_neg (by simpa using hreg)] at h2
  simp only [getFileStatus_ref, Prog.call_bind, finally_call] at h2
  rcases exec_stat.mp h2 with ⟨e, t3, rfl, h3⟩ | ⟨d, t3, rfl, h3⟩
  · -- not found, or not to be examined
    refine ⟨f, _, t3, rfl, hreg, ?_⟩
    simp only [Prog.ret_bind, FStatus.known, FStatus.exists', typeOfErr] at h3
    by_cases hm : e = .ENOENT ∨ e = .ENOTDIR
    · simp only [hm, if_true] at h3
      simp only [bne, Bool.not_and, show (FType.notFound == FType.none) = false from rfl,
        show (FType.notFound == FType.notFound) = true from rfl, Bool.not_true, Bool.not_false, Bool.or_true,
        Bool.false_eq_true, if_false, if_true] at h3
      have := copyInto_starts h3
      constructor
      · rintro e' ⟨⟩ h1 h2; rcases hm with h | h <;> contradiction
      · rintro e' ⟨⟩ _; exact this
      all_goals rintro d ⟨⟩
    · simp only [hm, if_false] at h3
      simp only [bne, show (FType.none == FType.none) = true from rfl, Bool.not_true, Bool.not_false, if_true,
        Handler.report, EcArg.code] at h3
      have := closing_ret h3
      constructor
      · rintro e' ⟨⟩ h1 h2; exact this
      · rintro e' ⟨⟩ h; exact absurd h hm
      all_goals rintro d ⟨⟩
  · refine ⟨f, _, t3, rfl, hreg, ?_⟩
    have hk : (statusOf d).known = true := by
      simp only [FStatus.known, statusOf_type]; unfold typeOf; split <;> rfl
    have he : (statusOf d).exists' = true := by
      simp only [FStatus.exists', hk, statusOf_type]; unfold typeOf; split <;> rfl
    simp only [Prog.ret_bind, hk, he, FStatus.isRegular, statusOf_type, Bool.not_true, Bool.false_eq_true, if_false,
      Prog.useStat] at h3
    by_cases hdr : typeOf d.mode = .regular
    rotate_left
    · rw [if_pos (by simpa using hdr)] at h3
      simp only [Handler.report] at h3
      have := closing_ret h3
      constructor
      · rintro e' ⟨⟩
      · rintro e' ⟨⟩
      · rintro d' ⟨⟩ _; exact this
      all_goals exact fun d' hd h => absurd (by cases hd; exact h) hdr
    rw [if_neg (by simpa using hdr)] at h3
    by_cases hsame : OneFile f d
    · rw [if_pos ((statEquivalent_iff _ _).mpr hsame)] at h3
      simp only [Handler.report] at h3
      have := closing_ret h3
      constructor
      · rintro e' ⟨⟩
      · rintro e' ⟨⟩
      · rintro d' ⟨⟩ h; exact absurd hdr h
      · rintro d' ⟨⟩ _ _; exact this
      all_goals exact fun d' hd _ h => absurd (by cases hd; exact hsame) h
    rw [if_neg (fun h => hsame ((statEquivalent_iff _ _).mp h))] at h3
    by_cases hskip : skips opts
    · rw [if_pos ((has_skip _).mpr hskip)] at h3
      have := closing_ret h3
      constructor
      · rintro e' ⟨⟩
      · rintro e' ⟨⟩
      · rintro d' ⟨⟩ h; exact absurd hdr h
      · rintro d' ⟨⟩ _ h; exact absurd h hsame
      · rintro d' ⟨⟩ _ _ _; exact this
      all_goals exact fun d' hd _ _ h => absurd hskip h
    rw [if_neg (fun h => hskip ((has_skip _).mp h))] at h3
    by_cases hup : updates opts
    · rw [if_pos ((has_update _).mpr hup)] at h3
      by_cases hnew : Newer f d
      · rw [if_pos ((isNewer_iff _ _).mpr hnew)] at h3
        have := copyInto_starts h3
        constructor
        · rintro e' ⟨⟩
        · rintro e' ⟨⟩
        · rintro d' ⟨⟩ h; exact absurd hdr h
        · rintro d' ⟨⟩ _ h; exact absurd h hsame
        · rintro d' ⟨⟩ _ _ h; exact absurd h hskip
        · rintro d' ⟨⟩ _ _ _ _ h; exact absurd hnew h
        · rintro d' ⟨⟩ _ _ _ _; exact this
        · rintro d' ⟨⟩ _ _ _ h; exact absurd hup h
      · rw [if_neg (fun h => hnew ((isNewer_iff _ _).mp h))] at h3
        have := closing_ret h3
        constructor
        · rintro e' ⟨⟩
        · rintro e' ⟨⟩
        · rintro d' ⟨⟩ h; exact absurd hdr h
        · rintro d' ⟨⟩ _ h; exact absurd h hsame
        · rintro d' ⟨⟩ _ _ h; exact absurd h hskip
        · rintro d' ⟨⟩ _ _ _ _ _; exact this
        · rintro d' ⟨⟩ _ _ _ (⟨_, h⟩ | ⟨h, _⟩)
          · exact absurd h hnew
          · exact absurd hup h
        · rintro d' ⟨⟩ _ _ _ h; exact absurd hup h
    rw [if_neg (fun h => hup ((has_update _).mp h))] at h3
    by_cases hov : overwrites opts
    · rw [if_pos ((has_overwrite _).mpr hov)] at h3
      have := copyInto_starts h3
      constructor
      · rintro e' ⟨⟩
      · rintro e' ⟨⟩
      · rintro d' ⟨⟩ h; exact absurd hdr h
      · rintro d' ⟨⟩ _ h; exact absurd h hsame
      · rintro d' ⟨⟩ _ _ h; exact absurd h hskip
      · rintro d' ⟨⟩ _ _ _ h; exact absurd h hup
      · rintro d' ⟨⟩ _ _ _ _; exact this
      · rintro d' ⟨⟩ _ _ _ _ h; exact absurd hov h
    · rw [if_neg (fun h => hov ((has_overwrite _).mp h))] at h3
      simp only [Handler.report, Prog.ret_bind] at h3
      have := closing_ret h3
      constructor
      · rintro e' ⟨⟩
      · rintro e' ⟨⟩
      · rintro d' ⟨⟩ h; exact absurd hdr h
      · rintro d' ⟨⟩ _ h; exact absurd h hsame
      · rintro d' ⟨⟩ _ _ h; exact absurd h hskip
      · rintro d' ⟨⟩ _ _ _ h; exact absurd h hup
      · rintro d' ⟨⟩ _ _ _ (⟨h, _⟩ | ⟨_, h⟩)
        · exact absurd h hup
        · exact absurd h hov
      · rintro d' ⟨⟩ _ _ _ _ _; exact this

/-- C25, the other way round: if anything was changed or `copy_file` returned true, then the source is a
regular file and the destination was missing, or a regular file other than the source which the
options permit to replace. -/
theorem c25_touched (sf : Bool) (n : Nat) (src to : Path) (opts : CopyOptions) (c : Code) (t : List Event)
    (o : Except Stop (Bool × EcArg)) (h : Exec (copyFile sf n src to opts (.ref c)) t o)
    (hm : (∃ ev ∈ t, ev.call.mutates = true) ∨ ∃ ec, o = .ok (true, ec)) :
    ∃ f r, (⟨.lstat src.pathname, (.ok f : Except Errno Stat)⟩ : Event) ∈ t ∧ (⟨.stat to.pathname, r⟩ : Event) ∈ t ∧
      typeOf f.mode = .regular ∧
      (r = .error .ENOENT ∨ r = .error .ENOTDIR ∨ ∃ d, r = .ok d ∧ typeOf d.mode = .regular ∧ ¬ OneFile f d ∧
        ¬ skips opts ∧ (updates opts ∧ Newer f d ∨ ¬ updates opts ∧ overwrites opts)) := by
  rcases c25_copy_file sf n src to opts c t o h with ⟨e, rfl, rfl⟩ | ⟨fd, t1, rfl, ⟨e, rc, rfl, rfl⟩ | ⟨f, rc, rfl, _, rfl⟩ |
      ⟨f, r, t2, rfl, hf, hd⟩⟩
  · simp [Sys.mutates] at hm
  · simp [Sys.mutates] at hm
  · simp [Sys.mutates] at hm
  refine ⟨f, r, by simp, by simp, hf, ?_⟩
  have quiet : ∀ {e : Code}, (∃ rc, t2 = [⟨.close fd, rc⟩]) → o = .ok (false, .ref e) → False := by
    rintro e ⟨rc, rfl⟩ rfl
    simp [Sys.mutates] at hm
  rcases r with e | d
  · by_cases he : e = .ENOENT
    · exact .inl (by rw [he])
    · by_cases he' : e = .ENOTDIR
      · exact .inr (.inl (by rw [he']))
      · obtain ⟨h1, h2⟩ := hd.unknown e rfl he he'
        exact (quiet h1 h2).elim
  · refine .inr (.inr ⟨d, rfl, ?_⟩)
    by_cases h1 : typeOf d.mode = .regular
    rotate_left
    · exact (quiet (hd.special d rfl h1).1 (hd.special d rfl h1).2).elim
    by_cases h2 : OneFile f d
    · exact (quiet (hd.same d rfl h1 h2).1 (hd.same d rfl h1 h2).2).elim
    by_cases h3 : skips opts
    · exact (quiet (hd.skip d rfl h1 h2 h3).1 (hd.skip d rfl h1 h2 h3).2).elim
    refine ⟨h1, h2, h3, ?_⟩
    by_cases h4 : updates opts
    · by_cases h5 : Newer f d
      · exact .inl ⟨h4, h5⟩
      · exact (quiet (hd.old d rfl h1 h2 h3 h4 h5).1 (hd.old d rfl h1 h2 h3 h4 h5).2).elim
    · by_cases h5 : overwrites opts
      · exact .inr ⟨h4, h5⟩
      · exact (quiet (hd.refuse d rfl h1 h2 h3 h4 h5).1 (hd.refuse d rfl h1 h2 h3 h4 h5).2).elim

/-- Non-trivial case: the destination exists, no option is given. -/
example : ∃ t, Exec (copyFile true 5 (mkPath .posix "a".toList) (mkPath .posix "b".toList) CopyOptions.none (.ref none)) t
      (failed .EEXIST) ∧ (⟨.stat "b".toList, (.ok { Stat.zero with mode := 0o100644, ino := 2 } : Except Errno Stat)⟩ : Event) ∈ t := by
  refine ⟨[⟨.openf "a".toList ⟨false, false, true⟩ 0, (.ok 3 : Except Errno Nat)⟩,
    ⟨.lstat "a".toList, (.ok { Stat.zero with mode := 0o100644, ino := 1 } : Except Errno Stat)⟩,
    ⟨.stat "b".toList, (.ok { Stat.zero with mode := 0o100644, ino := 2 } : Except Errno Stat)⟩,
    ⟨.close 3, (.ok () : Except Errno Unit)⟩], ?_, by simp⟩
  exact .call _ _ _ _ _ (.call _ _ _ _ _ (.call _ _ _ _ _ (.call _ _ _ _ _ (.ret _))))

end Asap
