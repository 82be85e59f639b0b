import Verif.Dir.Iter
import Verif.Ops.Exec
import Verif.Props.OpsE

/-!
# C48: the observers of `directory_entry`
-/

namespace Asap
namespace Spec

/-- What can be asked about a file. `is g`: one of the predicates on the type of the file a link leads to. -/
inductive Ask where
  | exists'
  | is (g : FType → Bool)
  | isSymlink
  | fileSize
  | hardLinkCount
  | lastWriteTime
  | status
  | symlinkStatus

inductive Val where
  | bool (b : Bool)
  | num (n : BitVec 64)
  | time (t : Int)
  | status (s : FStatus)
  deriving DecidableEq

/-- Ask the entry. -/
def Ask.entry (a : Ask) (e : Entry) (ec : EcArg) : Prog ((Val × Entry) × EcArg) :=
  match a with
  | .exists' => (e.existsE ec).bind fun r => .ret ((.bool r.1.1, r.1.2), r.2)
  | .is g => (e.isType (fun s => g s.type) ec).bind fun r => .ret ((.bool r.1.1, r.1.2), r.2)
  | .isSymlink => (e.isSymlinkE ec).bind fun r => .ret ((.bool r.1.1, r.1.2), r.2)
  | .fileSize => (getSize e ec).bind fun r => .ret ((.num r.1.1, r.1.2), r.2)
  | .hardLinkCount => (getHardLinkCount e ec).bind fun r => .ret ((.num r.1.1, r.1.2), r.2)
  | .lastWriteTime => (getLastWriteTime e ec).bind fun r => .ret ((.time r.1.1, r.1.2), r.2)
  | .status => (getStatus e ec).bind fun r => .ret ((.status r.1.1, r.1.2), r.2)
  | .symlinkStatus => (getSymLinkStatus e ec).bind fun r => .ret ((.status r.1.1, r.1.2), r.2)

/-- Ask the free function. -/
def Ask.free (a : Ask) (p : Path) (ec : EcArg) : Prog (Val × EcArg) :=
  match a with
  | .exists' => (existsP p ec).bind fun r => .ret (.bool r.1, r.2)
  | .is g => (isTypeP (fun s => g s.type) p ec).bind fun r => .ret (.bool r.1, r.2)
  | .isSymlink => (isSymlinkP p ec).bind fun r => .ret (.bool r.1, r.2)
  | .fileSize => (Asap.fileSize p ec).bind fun r => .ret (.num r.1, r.2)
  | .hardLinkCount => (Asap.hardLinkCount p ec).bind fun r => .ret (.num r.1, r.2)
  | .lastWriteTime => (Asap.lastWriteTime p ec).bind fun r => .ret (.time r.1, r.2)
  | .status => (Asap.status p ec).bind fun r => .ret (.status r.1, r.2)
  | .symlinkStatus => (Asap.symlinkStatus p ec).bind fun r => .ret (.status r.1, r.2)

/-- A history of observers; those not marked are called too, but their answers are dropped. -/
def interview : List (Ask × EcArg × Bool) → Entry → Prog (List (Val × EcArg))
  | [], _ => .ret []
  | (a, ec, keep) :: as, e =>
    (a.entry e ec).bind fun r => (interview as r.1.2).bind fun l => .ret (if keep then (r.1.1, r.2) :: l else l)

/-- The answers of the free functions to the marked questions. -/
def freely (p : Path) : List (Ask × EcArg × Bool) → Prog (List (Val × EcArg))
  | [] => .ret []
  | (a, ec, keep) :: as =>
    if keep then (a.free p ec).bind fun r => (freely p as).bind fun l => .ret (r :: l)
    else freely p as

/-- The file system does not change: `p` is the file `st`, and itself (if a link, not followed) `lst`; the time stamp
of `st` is representable, and not the least time. -/
structure Rests (m : Machine) (s : m.State) (p : Path) (st lst : Stat) : Prop where
  stat : m.step (.stat p.pathname) s = (.ok st, s)
  lstat : m.step (.lstat p.pathname) s = (.ok lst, s)
  follows : typeOf st.mode ≠ .symlink
  nsec : 0 ≤ st.mtimeNsec ∧ st.mtimeNsec < 1000000000
  range : -2 ^ 63 < st.mtimeSec * 1000000000 + st.mtimeNsec ∧ st.mtimeSec * 1000000000 + st.mtimeNsec < 2 ^ 63

/-- The questions an entry answers like the free function. -/
def Agrees (st lst : Stat) : Ask → EcArg → Prop
  | .exists', ec | .is _, ec => ec = .null
  | .isSymlink, _ => typeOf lst.mode ≠ .symlink
  | .fileSize, _ => typeOf st.mode = .regular
  | .lastWriteTime, _ => True
  | _, _ => False

/-- Questions about the type, possible before the entry has been completed. -/
def Typed : Ask → Prop
  | .exists' | .is _ => True
  | _ => False

/-- Which histories are covered. An entry from an iteration (`warm = false`) is complete after the first question
about its type; before, other questions than about the type fail. -/
def Covered (st lst : Stat) : Bool → List (Ask × EcArg × Bool) → Prop
  | _, [] => True
  | true, (a, ec, keep) :: as => (keep = true → Agrees st lst a ec) ∧ Covered st lst true as
  | false, (.isSymlink, _, keep) :: as => (keep = true → typeOf lst.mode ≠ .symlink) ∧ Covered st lst false as
  | false, (a, ec, keep) :: as => (keep = true → Agrees st lst a ec) ∧ Typed a ∧ Covered st lst true as

end Spec
open Spec

/-- What the cache knows about a file that is not a link. -/
structure Knows (e : Entry) (p : Path) (st : Stat) (warm : Bool) : Prop where
  path : e.path = p
  symlink : e.cache.symlink = false
  type : e.cache.type = typeOf st.mode
  resolved : e.cache.typeResolved = false
  cacheType : e.cache.cacheType = if warm then .full else .basic
  size : warm = true → typeOf st.mode = .regular → e.cache.size = st.size
  time : warm = true → e.cache.writeTime = st.mtimeSec * 1000000000 + st.mtimeNsec

theorem typeOf_ne (m : Mode) : typeOf m ≠ .none ∧ typeOf m ≠ .notFound := by
  rw [← typeOfMode_eq]; exact typeOfMode_ne m

theorem rests_extract {m : Machine} {s : m.State} {p : Path} {st lst : Stat} (h : Rests m s p st lst) (q : Path) (ec : EcArg) :
    extractLastWriteTime q st ec = .ret (st.mtimeSec * 1000000000 + st.mtimeNsec, ec.clear) := by
  have hrep : timeIsRepresentable st.mtimeSec st.mtimeNsec = true := by
    have := h.range; have := h.nsec
    unfold timeIsRepresentable
    split <;> simp only [decide_eq_true_eq] <;> omega
  unfold extractLastWriteTime
  rw [hrep, timeFromSpec_exact _ _ h.nsec.1 h.nsec.2 ⟨by have := h.range; omega, h.range.2⟩]
  rfl

theorem eval_updateBasic {m : Machine} {s : m.State} {p : Path} {st lst : Stat} (h : Rests m s p st lst) {e : Entry} (hp : e.path = p)
    (hsym : e.cache.symlink = false) (hres : e.cache.typeResolved = false) (ht : e.cache.cacheType = .empty ∨ e.cache.type = typeOf st.mode) (b : Bool) (ec : EcArg) :
    ∃ e', (updateBasic b e ec).eval m s = (.ok (e', ec.clear), s) ∧ Knows e' p st true := by
  subst hp
  have hsy : (statusOf st).isSymlink = false := by
    unfold FStatus.isSymlink; rw [statusOf_type]; simpa using h.follows
  unfold updateBasic
  simp only [Prog.bind_eq]
  rw [eval_bind_ok (eval_getFileStatus_ok h.stat)]
  simp only [statusOf_known, isSet_none, Bool.not_true, Bool.false_eq_true, or_self, and_false, if_false, hsy, statusOf_exists, if_true,
    Prog.useStat, rests_extract h, Prog.ret_bind]
  by_cases he : e.cache.cacheType = .empty
  · simp only [he, if_true, Prog.ret_bind, Bool.false_and, Bool.false_eq_true, if_false]
    split
    · exact ⟨_, rfl, rfl, rfl, statusOf_type st, hres, rfl, fun _ _ => rfl, fun _ => rfl⟩
    · rename_i hr
      refine ⟨_, rfl, rfl, rfl, statusOf_type st, hres, rfl, fun _ h' => ?_, fun _ => rfl⟩
      rw [← statusOf_type] at h'
      exact absurd (by simp [FStatus.isRegular, h']) hr
  · have ht := ht.resolve_left he
    simp only [he, if_false, Prog.ret_bind, hsym, Bool.false_and, Bool.false_eq_true]
    split
    · exact ⟨_, rfl, rfl, (by first | rfl | exact hsym), ht, hres, rfl, fun _ _ => rfl, fun _ => rfl⟩
    · rename_i hr
      refine ⟨_, rfl, rfl, (by first | rfl | exact hsym), ht, hres, rfl, fun _ h' => ?_, fun _ => rfl⟩
      rw [← statusOf_type] at h'
      exact absurd (by simp [FStatus.isRegular, h']) hr

theorem eval_getFileStatus {m : Machine} {s : m.State} {p : Path} {st : Stat} (h : m.step (.stat p.pathname) s = (.ok st, s))
    (st0 : Option Stat) (ec : EcArg) : (getFileStatus p st0 ec).eval m s = (.ok ((statusOf st, some st), ec.clear), s) := by
  unfold getFileStatus
  rw [eval_call_of h]
  cases ec <;> rfl

theorem eval_getLinkStatus {m : Machine} {s : m.State} {p : Path} {st : Stat} (h : m.step (.lstat p.pathname) s = (.ok st, s))
    (st0 : Option Stat) (ec : EcArg) : (getLinkStatus p st0 ec).eval m s = (.ok ((statusOf st, some st), ec.clear), s) := by
  unfold getLinkStatus
  rw [eval_call_of h]
  cases ec <;> rfl

theorem clear_clear (ec : EcArg) : ec.clear.clear = ec.clear := by cases ec <;> rfl

theorem eval_getFileType {m : Machine} {s : m.State} {p : Path} {st lst : Stat} (h : Rests m s p st lst) {e : Entry} {warm : Bool}
    (hk : Knows e p st warm) (ec : EcArg) : ∃ e', (getFileType e ec).eval m s =
      (.ok ((if ec = .null then typeOf st.mode else .none, e'), ec.clear), s) ∧ Knows e' p st true := by
  have step : ∃ e', (if e.cache.cacheType = .empty ∨ (e.cache.cacheType = .basic ∧ !e.cache.typeResolved) then updateBasic true e ec.clear
      else Prog.ret (e, ec.clear)).eval m s = (.ok (e', ec.clear), s) ∧ Knows e' p st true := by
    cases warm with
    | true => exact ⟨e, by simp [hk.cacheType], hk⟩
    | false =>
      obtain ⟨e', h1, h2⟩ := eval_updateBasic h hk.path hk.symlink hk.resolved (.inr hk.type) true ec.clear
      refine ⟨e', ?_, h2⟩
      simp only [hk.cacheType, hk.resolved]
      simp only [Bool.false_eq_true, if_false, reduceCtorEq, false_or, Bool.not_false, and_self, if_true]
      rw [h1, clear_clear]
  obtain ⟨e', h1, h2⟩ := step
  refine ⟨e', ?_, h2⟩
  unfold getFileType
  simp only [Prog.bind_eq]
  have hex : FStatus.exists' { type := e'.cache.type } = true := by
    rw [h2.type]
    have := typeOf_ne st.mode
    simp [FStatus.exists', FStatus.known, this]
  have := eval_bind_ok (f := fun r : Entry × EcArg => if r.2 ≠ .null then (.ret ((.none, r.1), r.2) : Prog ((FType × Entry) × EcArg)) else
    Prog.bind (if (!FStatus.exists' { type := r.1.cache.type }) = true then
          (handleError "in directory_entry::GetSymLinkFileType".toList r.1 (some .ENOENT) false r.2).bind fun x => .ret x.2
          else .ret r.2) fun ec => .ret ((r.1.cache.type, r.1), ec)) h1
  refine Eq.trans ?_ (this.trans ?_)
  · split <;> rfl
  · cases ec with
    | null =>
      rw [h2.type] at hex
      simp only [EcArg.clear, ne_eq, not_true_eq_false, if_false, hex, Bool.not_true, Bool.false_eq_true, Prog.ret_bind, if_true, h2.type, eval_ret]
    | ref c =>
      simp only [EcArg.clear, ne_eq, reduceCtorEq, not_false_eq_true, if_true, if_false, eval_ret]

/-- A question to an entry that knows its file. -/
theorem eval_ask {m : Machine} {s : m.State} {p : Path} {st lst : Stat} (h : Rests m s p st lst) {e : Entry} {warm : Bool}
    (hk : Knows e p st warm) (a : Ask) (ec : EcArg) (ha : warm = true ∨ Typed a ∨ a = .isSymlink) :
    ∃ e' v, (a.entry e ec).eval m s = (.ok ((v, e'), ec.clear), s) ∧ ((Knows e' p st true ∧ (warm = true ∨ Typed a)) ∨ (Knows e' p st warm ∧ ¬ Typed a)) ∧
      (Agrees st lst a ec → (a.free p ec).eval m s = (.ok (v, ec.clear), s)) := by
  have hpath := hk.path
  have hex : FStatus.exists' (statusOf st) = true := statusOf_exists st
  have free : ∀ g : FStatus → Bool, (isTypeP g p ec).eval m s = (.ok (g (statusOf st), ec.clear), s) := by
    intro g
    simp only [isTypeP, status, Prog.bind_eq]
    rw [eval_bind_ok (eval_bind_ok (eval_getFileStatus h.stat none ec))]
    rfl
  cases a with
  | exists' =>
    obtain ⟨e', h1, h2⟩ := eval_getFileType h hk ec
    refine ⟨e', .bool (FStatus.exists' { type := if ec = .null then typeOf st.mode else .none }), ?_, .inl ⟨h2, .inr trivial⟩, ?_⟩
    · simp only [Ask.entry, Entry.existsE, Prog.bind_eq]
      rw [eval_bind, eval_bind_ok h1]
      rfl
    · rintro rfl
      simp only [Ask.free, existsP, status, Prog.bind_eq]
      rw [eval_bind, eval_bind, eval_bind_ok (eval_getFileStatus h.stat none .null)]
      simp only [eval_ret, hex, statusOf_known, if_true, EcArg.clear]
      have := typeOf_ne st.mode
      simp [FStatus.exists', FStatus.known, this]
  | is g =>
    obtain ⟨e', h1, h2⟩ := eval_getFileType h hk ec
    refine ⟨e', .bool (g (if ec = .null then typeOf st.mode else .none)), ?_, .inl ⟨h2, .inr trivial⟩, ?_⟩
    · simp only [Ask.entry, Entry.isType, Prog.bind_eq]
      rw [eval_bind, eval_bind_ok h1]
      rfl
    · rintro rfl
      simp only [Ask.free]
      rw [eval_bind_ok (free _), statusOf_type]
      rfl
  | isSymlink =>
    refine ⟨e, .bool false, ?_, .inr ⟨hk, fun h => h⟩, ?_⟩
    · have hne : e.cache.cacheType ≠ .empty := by rw [hk.cacheType]; cases warm <;> simp
      simp only [Ask.entry, Entry.isSymlinkE, getSymLinkFileType, Prog.bind_eq, hne, if_false, Prog.ret_bind, Bool.false_eq_true, hk.symlink]
      have hex : FStatus.exists' { type := typeOf st.mode } = true := by
        have := typeOf_ne st.mode
        simp [FStatus.exists', FStatus.known, this]
      simp only [hk.type, hex, Bool.not_true, Bool.false_eq_true, if_false, Prog.ret_bind, eval_ret]
      rw [beq_eq_false_iff_ne.mpr h.follows]
    · intro hl
      simp only [Ask.free, isSymlinkP, symlinkStatus, Prog.bind_eq]
      rw [eval_bind, eval_bind, eval_bind_ok (eval_getLinkStatus h.lstat none ec)]
      simp only [eval_ret, FStatus.isSymlink, statusOf_type]
      have : typeOf lst.mode ≠ .symlink := hl
      simp [this]
  | fileSize =>
    have hw : warm = true := by simpa [Typed] using ha
    subst hw
    refine ⟨e, .num e.cache.size, ?_, .inl ⟨hk, .inl rfl⟩, ?_⟩
    · simp only [Ask.entry, getSize, hk.cacheType, if_true, Prog.ret_bind, eval_ret]
    · intro hr
      have hr : typeOf st.mode = .regular := hr
      have : (statusOf st).isRegular = true := by simp [FStatus.isRegular, statusOf_type, hr]
      simp only [Ask.free, Asap.fileSize, Prog.bind_eq]
      rw [eval_bind, eval_bind_ok (eval_getFileStatus h.stat none (.ref none))]
      simp only [hex, this]
      simp [Prog.useStat, hk.size rfl hr]
  | hardLinkCount =>
    have hw : warm = true := by simpa [Typed] using ha
    subst hw
    refine ⟨e, .num e.cache.nlink, ?_, .inl ⟨hk, .inl rfl⟩, fun h => h.elim⟩
    simp only [Ask.entry, getHardLinkCount, hk.cacheType, if_true, Prog.bind_eq, Prog.ret_bind, eval_ret]
  | lastWriteTime =>
    have hw : warm = true := by simpa [Typed] using ha
    subst hw
    have ht := hk.time rfl
    have hmin : e.cache.writeTime ≠ timeMin := by
      have := h.range
      rw [ht]; unfold timeMin; omega
    refine ⟨e, .time e.cache.writeTime, ?_, .inl ⟨hk, .inl rfl⟩, fun _ => ?_⟩
    · simp only [Ask.entry, getLastWriteTime, hk.cacheType, if_true, Prog.bind_eq, Prog.ret_bind, hmin, decide_false, Bool.and_false,
        Bool.false_eq_true, if_false, eval_ret]
    · simp only [Ask.free, Asap.lastWriteTime, Prog.bind_eq]
      rw [eval_bind, eval_bind_ok (eval_getFileStatus h.stat none (.ref none))]
      simp only [clear_ref, isSet_none, Bool.false_eq_true, if_false, Prog.useStat, Prog.ret_bind, rests_extract h, ht, eval_ret, clear_clear]
  | status =>
    have hw : warm = true := by simpa [Typed] using ha
    subst hw
    by_cases hp : e.cache.permsResolved = true
    · refine ⟨e, .status ⟨e.cache.type, e.cache.nonSymlinkPerms⟩, ?_, .inl ⟨hk, .inl rfl⟩, fun h => h.elim⟩
      simp only [Ask.entry, getStatus, hk.cacheType, if_true, Prog.bind_eq, hp, Bool.not_true, Bool.false_eq_true, if_false, Prog.ret_bind, eval_ret]
    · refine ⟨{ e with cache := { e.cache with cacheType := .full } }, .status ⟨e.cache.type, e.cache.nonSymlinkPerms⟩, ?_,
        .inl ⟨⟨hk.path, hk.symlink, hk.type, hk.resolved, rfl, hk.size, hk.time⟩, .inl rfl⟩,
        fun h => h.elim⟩
      simp only [Bool.not_eq_true] at hp
      simp only [Ask.entry, getStatus, updatePerms, hk.cacheType, hk.symlink, if_true, Prog.bind_eq, hp, Bool.not_false, ne_eq, not_true_eq_false,
        if_false, Bool.false_and, Bool.false_eq_true, Prog.ret_bind, eval_ret, clear_clear]
  | symlinkStatus =>
    have hw : warm = true := by simpa [Typed] using ha
    subst hw
    refine ⟨e, .status ⟨e.cache.type, e.cache.symlinkPerms⟩, ?_, .inl ⟨hk, .inl rfl⟩, fun h => h.elim⟩
    simp only [Ask.entry, getSymLinkStatus, hk.cacheType, if_true, Prog.bind_eq, Prog.ret_bind, eval_ret]

theorem eval_interview {m : Machine} {s : m.State} {p : Path} {st lst : Stat} (h : Rests m s p st lst) (as : List (Ask × EcArg × Bool)) :
    ∀ {e : Entry} {warm : Bool}, Knows e p st warm → Covered st lst warm as →
      ∃ l, (interview as e).eval m s = (.ok l, s) ∧ (freely p as).eval m s = (.ok l, s) := by
  induction as with
  | nil => exact fun _ _ => ⟨[], rfl, rfl⟩
  | cons x as ih =>
    obtain ⟨a, ec, keep⟩ := x
    intro e warm hk hc
    have hcov : (keep = true → Agrees st lst a ec) ∧ (warm = true ∨ Typed a ∨ a = .isSymlink) ∧
        (warm = true ∨ Typed a → Covered st lst true as) ∧ (warm = false → ¬ Typed a → Covered st lst false as) := by
      cases warm with
      | true => exact ⟨hc.1, .inl rfl, fun _ => hc.2, fun h => Bool.noConfusion h⟩
      | false =>
        cases a with
        | isSymlink => exact ⟨hc.1, .inr (.inr rfl), fun h => h.elim (fun h => Bool.noConfusion h) fun h => h.elim, fun _ _ => hc.2⟩
        | exists' => exact ⟨hc.1, .inr (.inl hc.2.1), fun _ => hc.2.2, fun _ h => absurd hc.2.1 h⟩
        | is g => exact ⟨hc.1, .inr (.inl hc.2.1), fun _ => hc.2.2, fun _ h => absurd hc.2.1 h⟩
        | fileSize => exact hc.2.1.elim
        | hardLinkCount => exact hc.2.1.elim
        | lastWriteTime => exact hc.2.1.elim
        | status => exact hc.2.1.elim
        | symlinkStatus => exact hc.2.1.elim
    obtain ⟨hkeep, hask, h1, h2⟩ := hcov
    obtain ⟨e', v, he, hk', hf⟩ := eval_ask h hk a ec hask
    have rest : ∃ l, (interview as e').eval m s = (.ok l, s) ∧ (freely p as).eval m s = (.ok l, s) := by
      rcases hk' with ⟨hk', hw⟩ | ⟨hk', hnt⟩
      · exact ih hk' (h1 hw)
      · cases warm with
        | true => exact ih hk' (h1 (.inl rfl))
        | false => exact ih hk' (h2 rfl hnt)
    obtain ⟨l, hi, hl⟩ := rest
    cases keep with
    | true =>
      refine ⟨(v, ec.clear) :: l, ?_, ?_⟩
      · simp only [interview]
        rw [eval_bind_ok he, eval_bind_ok hi]
        rfl
      · simp only [freely, if_true]
        rw [eval_bind_ok (hf (hkeep rfl)), eval_bind_ok hl]
        rfl
    | false =>
      refine ⟨l, ?_, ?_⟩
      · simp only [interview]
        rw [eval_bind_ok he, eval_bind_ok hi]
        rfl
      · simpa only [freely, Bool.false_eq_true, if_false] using hl

/-- An entry after construction, `assign` or `refresh`. -/
theorem eval_refresh {m : Machine} {s : m.State} {p : Path} {st lst : Stat} (h : Rests m s p st lst) {e : Entry} (hp : e.path = p) (ec : EcArg) :
    ∃ e' ec', (refresh e ec).eval m s = (.ok (e', ec'), s) ∧ Knows e' p st true ∧ ec'.code = none ∧
      e'.cache.nlink = umaxErr ∧ e'.cache.nonSymlinkPerms = Perms.unknown ∧ e'.cache.symlinkPerms = Perms.unknown ∧
      (typeOf st.mode ≠ .regular → e'.cache.size = umaxErr) := by
  subst hp
  have hsy : (statusOf st).isSymlink = false := by
    unfold FStatus.isSymlink; rw [statusOf_type]; simpa using h.follows
  have hup : ∃ e', (updateBasic true { e with cache := .reset } (.ref none)).eval m s = (.ok (e', .ref none), s) ∧ Knows e' e.path st true ∧
      e'.cache.nlink = umaxErr ∧ e'.cache.nonSymlinkPerms = Perms.unknown ∧ e'.cache.symlinkPerms = Perms.unknown ∧
      (typeOf st.mode ≠ .regular → e'.cache.size = umaxErr) := by
    have hemp : (Cache.reset).cacheType = .empty := rfl
    unfold updateBasic
    simp only [Prog.bind_eq]
    rw [eval_bind_ok (eval_getFileStatus_ok (s := s) (p := e.path) h.stat)]
    simp only [statusOf_known, isSet_none, Bool.not_true, Bool.false_eq_true, or_self, and_false, if_false, hsy, statusOf_exists, if_true,
      Prog.useStat, rests_extract h, Prog.ret_bind, hemp, Bool.false_and]
    by_cases hr : (statusOf st).isRegular = true
    · simp only [hr, if_true, Prog.ret_bind]
      refine ⟨_, rfl, ⟨rfl, rfl, statusOf_type st, rfl, rfl, fun _ _ => rfl, fun _ => rfl⟩, rfl, rfl, rfl, fun hn => ?_⟩
      rw [← statusOf_type] at hn
      simp [FStatus.isRegular, hn] at hr
    · simp only [hr, Bool.false_eq_true, if_false, Prog.ret_bind]
      refine ⟨_, rfl, ⟨rfl, rfl, statusOf_type st, rfl, rfl, fun _ h' => ?_, fun _ => rfl⟩, rfl, rfl, rfl, fun _ => rfl⟩
      rw [← statusOf_type] at h'
      exact absurd (by simp [FStatus.isRegular, h']) hr
  obtain ⟨e', h1, h2, h3⟩ := hup
  refine ⟨e', (match ec with | .ref _ => .ref none | .null => .null), ?_, h2, by cases ec <;> rfl, h3⟩
  unfold refresh
  simp only [Prog.bind_eq]
  rw [eval_bind_ok h1]
  cases ec <;> rfl

/-- What the entry knows after a step of the stream. -/
theorem advance_entry {n : Nat} {σ σ' : Stream} {c : Code} {t : List Event} (hx : Exec (σ.advance n) t (.ok (true, σ', c))) :
    ∃ (d : Nat) (ent : Dirent), t.getLast? = some ⟨.readdir d, .ok (some ent)⟩ ∧ σ'.entry.cache.type = typeOfD ent.dtype ∧
      σ'.entry.cache.cacheType = .basic ∧ σ'.entry.cache.typeResolved = σ.entry.cache.typeResolved ∧
      σ'.entry.cache.symlink = if typeOfD ent.dtype = .symlink then true else σ.entry.cache.symlink := by
  induction n generalizing t with
  | zero => simp [Stream.advance] at hx
  | succ n ih =>
    unfold Stream.advance at hx
    cases hh : σ.handle with
    | none => simp [hh] at hx
    | some d =>
      simp only [hh] at hx
      obtain ⟨r, t', rfl, hy⟩ := exec_call.mp hx
      clear hx
      cases r with
      | error e =>
        simp only [Stream.close, hh, Prog.bind_eq, Prog.call_bind] at hy
        obtain ⟨r', t2, -, hz⟩ := exec_call.mp hy
        exact absurd (exec_ret.mp hz).2 (by simp)
      | ok o =>
        cases o with
        | none =>
          simp only [Stream.close, hh, Prog.bind_eq, Prog.call_bind] at hy
          obtain ⟨r', t2, -, hz⟩ := exec_call.mp hy
          exact absurd (exec_ret.mp hz).2 (by simp)
        | some ent =>
          dsimp only at hy
          split at hy
          · obtain ⟨d', ent', h1, h2⟩ := ih hy
            refine ⟨d', ent', ?_, h2⟩
            cases t' with
            | nil => simp at h1
            | cons x t' => rw [List.getLast?_cons_cons]; exact h1
          · split at hy
            · simp only [Stream.close, hh, Prog.bind_eq, Prog.call_bind] at hy
              obtain ⟨r', t2, -, hz⟩ := exec_call.mp hy
              exact absurd (exec_ret.mp hz).2 (by simp)
            · simp only [Prog.bind_eq] at hy
              rcases exec_bind.mp hy with ⟨x, -, hz⟩ | ⟨q, t1, t2, rfl, h1, hz⟩
              · cases hz
              · obtain ⟨rfl, hw⟩ := exec_ret.mp hz
                have ht1 : t1 = [] := by
                  unfold Prog.ofRes at h1
                  split at h1
                  · exact (exec_ret.mp h1).1
                  · exact (exec_stop.mp h1).1
                subst ht1
                simp only [Except.ok.injEq, Prod.mk.injEq, true_and] at hw
                obtain ⟨rfl, -⟩ := hw
                refine ⟨d, ent, rfl, ?_⟩
                by_cases hs : typeOfD ent.dtype = .symlink <;> simp [hs]

/-! ## The theorems -/

/-- An entry just constructed, assigned or refreshed for a file that exists: any history of observers succeeds, and
the answers of those that `Agrees` lists are those of the free functions: `exists` and the type predicates without an
`error_code`, `is_symlink` of a file that is not a link, `file_size` of a regular file, `last_write_time`.
Missing: the other observers (see the `c48_violated_` theorems), files that do not exist. -/
theorem c48_refreshed_partial {m : Machine} {s : m.State} {st lst : Stat} {e : Entry} (h : Rests m s e.path st lst) (ec : EcArg)
    {as : List (Ask × EcArg × Bool)} (hc : Covered st lst true as) :
    ∃ l, ((refresh e ec).bind fun r => interview as r.1).eval m s = (.ok l, s) ∧ (freely e.path as).eval m s = (.ok l, s) := by
  obtain ⟨e', ec', h1, h2, -⟩ := eval_refresh h rfl ec
  rw [eval_bind_ok h1]
  exact eval_interview h as h2 hc

/-- `directory_entry(p)` and `directory_entry(p, ec)`. -/
theorem c48_constructed_partial {m : Machine} {s : m.State} {p : Path} {st lst : Stat} (h : Rests m s p st lst)
    {as : List (Ask × EcArg × Bool)} (hc : Covered st lst true as) :
    ∃ l, ((Entry.new p).bind fun r => interview as r.1).eval m s = (.ok l, s) ∧ (freely p as).eval m s = (.ok l, s) :=
  c48_refreshed_partial (e := ⟨p, .reset⟩) h _ hc

/-- The value of `d_type`: as in `IFTODT`, the file type bits of the mode, shifted. -/
def Spec.dtBits : DType → Nat
  | .unknown => 0
  | .fifo => 1
  | .chr => 2
  | .dir => 4
  | .blk => 6
  | .reg => 8
  | .lnk => 10
  | .sock => 12

/-- The directory tells the type of a file with this mode. -/
def Spec.tellsType (d : DType) (m : Mode) : Prop := dtBits d ≠ 0 ∧ m.toNat / 4096 % 16 = dtBits d

theorem typeOfD_tells {d : DType} {m : Mode} (h : tellsType d m) : typeOfD d = typeOf m := by
  obtain ⟨h1, h2⟩ := h
  rw [Spec.typeOf, h2]
  cases d
  all_goals first | rfl | exact absurd rfl h1

/-- An entry from an iteration that has met no link so far, and whose type `readdir` gives correctly. -/
theorem c48_iterated_partial {m : Machine} {s : m.State} {p : Path} {st lst : Stat} (h : Rests m s p st lst)
    {as : List (Ask × EcArg × Bool)} (hc : Covered st lst false as)
    {n : Nat} {σ σ' : Stream} {c : Code} {t : List Event} (hx : Exec (σ.advance n) t (.ok (true, σ', c)))
    (hlink : σ.entry.cache.symlink = false) (hres : σ.entry.cache.typeResolved = false) (hp : σ'.entry.path = p)
    (hd : ∀ d ent, t.getLast? = some ⟨.readdir d, .ok (some ent)⟩ → tellsType ent.dtype st.mode) :
    ∃ l, (interview as σ'.entry).eval m s = (.ok l, s) ∧ (freely p as).eval m s = (.ok l, s) := by
  refine eval_interview h as ?_ hc
  obtain ⟨d, ent, h1, h2, h3, h4, h5⟩ := advance_entry hx
  have ht := typeOfD_tells (hd d ent h1)
  refine ⟨hp, ?_, h2.trans ht, h4.trans hres, h3, fun h => Bool.noConfusion h, fun h => Bool.noConfusion h⟩
  rw [h5, ht, if_neg h.follows, hlink]

/-! ## What is wrong -/

/-- The entry is constructed and asked one question. -/
def Spec.askNew (p : Path) (a : Ask) (ec : EcArg) : Prog (List (Val × EcArg)) :=
  (Entry.new p).bind fun r => interview [(a, ec, true)] r.1

/-- `exists(ec)` is false for every existing file. -/
theorem c48_violated_exists {m : Machine} {s : m.State} {p : Path} {st lst : Stat} (h : Rests m s p st lst) (c : Code) :
    (askNew p .exists' (.ref c)).eval m s = (.ok [(.bool false, .ref none)], s) ∧
    (Ask.exists'.free p (.ref c)).eval m s = (.ok (.bool true, .ref none), s) := by
  obtain ⟨e', ec', h1, h2, -⟩ := eval_refresh h (e := ⟨p, .reset⟩) rfl (.ref none)
  obtain ⟨e2, h3, h4⟩ := eval_getFileType h h2 (.ref c)
  constructor
  · unfold askNew Entry.new
    rw [eval_bind_ok h1]
    simp only [interview, Ask.entry, Entry.existsE, Prog.bind_eq, Prog.bind_assoc]
    rw [eval_bind_ok h3]
    rfl
  · simp only [Ask.free, existsP, status, Prog.bind_eq, Prog.bind_assoc]
    rw [eval_bind_ok (eval_getFileStatus h.stat none _)]
    simp [statusOf_exists, statusOf_known]

/-- `is_directory(ec)` is false for every directory, and likewise for every type and its predicate. -/
theorem c48_violated_is {m : Machine} {s : m.State} {p : Path} {st lst : Stat} (h : Rests m s p st lst) (c : Code) (g : FType → Bool)
    (hg : g .none = false) (ht : g (typeOf st.mode) = true) :
    (askNew p (.is g) (.ref c)).eval m s = (.ok [(.bool false, .ref none)], s) ∧
    ((Ask.is g).free p (.ref c)).eval m s = (.ok (.bool true, .ref none), s) := by
  obtain ⟨e', ec', h1, h2, -⟩ := eval_refresh h (e := ⟨p, .reset⟩) rfl (.ref none)
  obtain ⟨e2, h3, h4⟩ := eval_getFileType h h2 (.ref c)
  constructor
  · unfold askNew Entry.new
    rw [eval_bind_ok h1]
    simp only [interview, Ask.entry, Entry.isType, Prog.bind_eq, Prog.bind_assoc]
    rw [eval_bind_ok h3]
    simp [hg]
  · simp only [Ask.free, isTypeP, status, Prog.bind_eq, Prog.bind_assoc]
    rw [eval_bind_ok (eval_getFileStatus h.stat none _)]
    simp [statusOf_type, ht]

/-- `exists()` throws for a file that does not exist. -/
theorem c48_violated_missing {m : Machine} {s : m.State} {p : Path} (h : m.step (.stat p.pathname) s = (.error .ENOENT, s)) :
    (∃ x, (askNew p .exists' .null).eval m s = (.error (.thrown x), s)) ∧
    (Ask.exists'.free p .null).eval m s = (.ok (.bool false, .null), s) := by
  have hst : ∀ ec st0, (getFileStatus p st0 ec).eval m s = (.ok (({ type := .notFound }, st0), ec.assign (some .ENOENT)), s) := by
    intro ec st0
    unfold getFileStatus
    rw [eval_call_of h]
    rfl
  have hup : ∀ b ec, (updateBasic b ⟨p, .reset⟩ ec).eval m s =
      ((Handler.report ⟨"UpdateBasicFileInformation".toList, some p, none⟩ ec.clear (some .ENOENT) ()).bind fun r =>
        .ret ((⟨p, .reset⟩ : Entry), r.2)).eval m s := by
    intro b ec
    unfold updateBasic
    simp only [Prog.bind_eq]
    rw [eval_bind_ok (hst _ _)]
    rfl
  constructor
  · refine ⟨Handler.error ⟨"UpdateBasicFileInformation".toList, some p, none⟩ ("in ".toList ++ "UpdateBasicFileInformation".toList) (some .ENOENT), ?_⟩
    · unfold askNew Entry.new refresh
      simp only [Prog.bind_eq, Prog.bind_assoc]
      rw [eval_bind_ok (hup _ _)]
      simp only [handleError, Prog.ret_bind, interview, Ask.entry, Entry.existsE, getFileType, Prog.bind_eq, Prog.bind_assoc]
      have hemp : Cache.reset.cacheType = .empty := rfl
      simp only [hemp, true_or, if_true, Prog.bind_assoc]
      rw [eval_bind_error (hup _ _)]
  · simp only [Ask.free, existsP, status, Prog.bind_eq, Prog.bind_assoc]
    rw [eval_bind_ok (hst _ _)]
    rfl

/-- `is_symlink()` is false for links that lead to a file. -/
theorem c48_violated_symlink {m : Machine} {s : m.State} {p : Path} {st lst : Stat} (h : Rests m s p st lst) (hl : typeOf lst.mode = .symlink)
    (ec : EcArg) :
    (askNew p .isSymlink ec).eval m s = (.ok [(.bool false, ec.clear)], s) ∧
    (Ask.isSymlink.free p ec).eval m s = (.ok (.bool true, ec.clear), s) := by
  obtain ⟨e', ec', h1, h2, -⟩ := eval_refresh h (e := ⟨p, .reset⟩) rfl (.ref none)
  constructor
  · unfold askNew Entry.new
    rw [eval_bind_ok h1]
    have hex : FStatus.exists' { type := typeOf st.mode } = true := by
      have := typeOf_ne st.mode
      simp [FStatus.exists', FStatus.known, this]
    have hne : e'.cache.cacheType ≠ .empty := by rw [h2.cacheType]; simp
    simp only [interview, Ask.entry, Entry.isSymlinkE, getSymLinkFileType, Prog.bind_eq, hne, if_false, Prog.ret_bind, Bool.false_eq_true, h2.symlink]
    simp only [h2.type, hex, Bool.not_true, Bool.false_eq_true, if_false, Prog.ret_bind, eval_ret, if_true]
    rw [beq_eq_false_iff_ne.mpr h.follows]
  · simp only [Ask.free, isSymlinkP, symlinkStatus, Prog.bind_eq, Prog.bind_assoc]
    rw [eval_bind_ok (eval_getLinkStatus h.lstat none ec)]
    simp [FStatus.isSymlink, statusOf_type, hl]

/-- `hard_link_count()` is `uintmax_t(-1)` for every file, without an error. -/
theorem c48_violated_links {m : Machine} {s : m.State} {p : Path} {st lst : Stat} (h : Rests m s p st lst) (ec : EcArg) :
    (askNew p .hardLinkCount ec).eval m s = (.ok [(.num umaxErr, ec.clear)], s) ∧
    (Ask.hardLinkCount.free p ec).eval m s = (.ok (.num (BitVec.ofNat 64 st.nlink), ec.clear), s) := by
  obtain ⟨e', ec', h1, h2, -, h3, -⟩ := eval_refresh h (e := ⟨p, .reset⟩) rfl (.ref none)
  constructor
  · unfold askNew Entry.new
    rw [eval_bind_ok h1]
    simp only [interview, Ask.entry, getHardLinkCount, h2.cacheType, h3, if_true, Prog.bind_eq, Prog.ret_bind, eval_ret]
  · simp only [Ask.free, Asap.hardLinkCount, Prog.bind_eq, Prog.bind_assoc]
    rw [eval_bind_ok (eval_getFileStatus h.stat none _)]
    simp [Prog.useStat]

/-- `file_size()` of a directory is `uintmax_t(-1)` without an error; the free function reports one. -/
theorem c48_violated_size {m : Machine} {s : m.State} {p : Path} {st lst : Stat} (h : Rests m s p st lst) (hd : typeOf st.mode = .directory)
    (c : Code) :
    (askNew p .fileSize (.ref c)).eval m s = (.ok [(.num umaxErr, .ref none)], s) ∧
    (Ask.fileSize.free p (.ref c)).eval m s = (.ok (.num umaxErr, .ref (some .EISDIR)), s) := by
  obtain ⟨e', ec', h1, h2, -, -, -, -, h3⟩ := eval_refresh h (e := ⟨p, .reset⟩) rfl (.ref none)
  constructor
  · unfold askNew Entry.new
    rw [eval_bind_ok h1]
    simp only [interview, Ask.entry, getSize, h2.cacheType, h3 (by simp [hd]), if_true, Prog.ret_bind, eval_ret, clear_ref]
  · simp only [Ask.free, Asap.fileSize, Prog.bind_eq, Prog.bind_assoc]
    rw [eval_bind_ok (eval_getFileStatus h.stat none _)]
    simp [FStatus.isRegular, FStatus.isDirectory, statusOf_type, hd, statusOf_exists, Handler.report]

/-- `status()` and `symlink_status()` lack the permissions. -/
theorem c48_violated_status {m : Machine} {s : m.State} {p : Path} {st lst : Stat} (h : Rests m s p st lst) (ec : EcArg) :
    (askNew p .status ec).eval m s = (.ok [(.status ⟨typeOf st.mode, Perms.unknown⟩, ec.clear)], s) ∧
    (Ask.status.free p ec).eval m s = (.ok (.status ⟨typeOf st.mode, st.mode &&& Perms.mask⟩, ec.clear), s) ∧
    (askNew p .symlinkStatus ec).eval m s = (.ok [(.status ⟨typeOf st.mode, Perms.unknown⟩, ec.clear)], s) ∧
    (Ask.symlinkStatus.free p ec).eval m s = (.ok (.status ⟨typeOf lst.mode, lst.mode &&& Perms.mask⟩, ec.clear), s) := by
  obtain ⟨e', ec', h1, h2, -, -, h3, h4, -⟩ := eval_refresh h (e := ⟨p, .reset⟩) rfl (.ref none)
  refine ⟨?_, ?_, ?_, ?_⟩
  · unfold askNew Entry.new
    rw [eval_bind_ok h1]
    by_cases hp : e'.cache.permsResolved = true
    · simp only [interview, Ask.entry, getStatus, h2.cacheType, h2.type, h3, if_true, Prog.bind_eq, hp, Bool.not_true, Bool.false_eq_true, if_false, Prog.ret_bind, eval_ret]
    · simp only [Bool.not_eq_true] at hp
      simp only [interview, Ask.entry, getStatus, updatePerms, h2.cacheType, h2.symlink, h2.type, h3, if_true, Prog.bind_eq, hp, Bool.not_false, ne_eq, not_true_eq_false,
        if_false, Bool.false_and, Bool.false_eq_true, Prog.ret_bind, eval_ret, clear_clear]
  · simp only [Ask.free, Asap.status, Prog.bind_eq, Prog.bind_assoc]
    rw [eval_bind_ok (eval_getFileStatus h.stat none _)]
    simp [statusOf, typeOfMode_eq]
  · unfold askNew Entry.new
    rw [eval_bind_ok h1]
    simp only [interview, Ask.entry, getSymLinkStatus, h2.cacheType, h2.type, h4, if_true, Prog.bind_eq, Prog.ret_bind, eval_ret]
  · simp only [Ask.free, Asap.symlinkStatus, Prog.bind_eq, Prog.bind_assoc]
    rw [eval_bind_ok (eval_getLinkStatus h.lstat none _)]
    simp [statusOf, typeOfMode_eq]

/-- For an entry just obtained by iteration, `file_size`, `hard_link_count`, `last_write_time`, `status` and
`symlink_status` fail an assertion. -/
theorem c48_violated_iterated {n : Nat} {σ σ' : Stream} {c : Code} {t : List Event} (hx : Exec (σ.advance n) t (.ok (true, σ', c)))
    {a : Ask} (ha : ¬ Typed a) (hs : a ≠ .isSymlink) (ec : EcArg) (m : Machine) (s : m.State) :
    (a.entry σ'.entry ec).eval m s = (.error (.fault .assertFail), s) := by
  obtain ⟨d, ent, -, -, h1, -⟩ := advance_entry hx
  cases a with
  | exists' => exact absurd trivial ha
  | is g => exact absurd trivial ha
  | isSymlink => exact absurd rfl hs
  | fileSize => simp only [Ask.entry, getSize, updateExtra, h1, ne_eq, reduceCtorEq, not_false_eq_true, if_true, Prog.bind_eq, Prog.stop_bind, eval_stop]
  | hardLinkCount => simp only [Ask.entry, getHardLinkCount, updateExtra, h1, ne_eq, reduceCtorEq, not_false_eq_true, if_true, Prog.bind_eq, Prog.stop_bind, eval_stop]
  | lastWriteTime => simp only [Ask.entry, getLastWriteTime, updateExtra, h1, ne_eq, reduceCtorEq, not_false_eq_true, if_true, Prog.bind_eq, Prog.stop_bind, eval_stop]
  | status => simp only [Ask.entry, getStatus, updateExtra, h1, ne_eq, reduceCtorEq, not_false_eq_true, if_true, Prog.bind_eq, Prog.stop_bind, eval_stop]
  | symlinkStatus => simp only [Ask.entry, getSymLinkStatus, updateExtra, h1, ne_eq, reduceCtorEq, not_false_eq_true, if_true, Prog.bind_eq, Prog.stop_bind, eval_stop]

/-- A file system for the examples: one file, seen through `stat` and `lstat`. -/
def Spec.oneStat (st lst : Stat) : Machine where
  State := Unit
  step := fun c s => match c with
    | .stat _ => (.ok st, s)
    | .lstat _ => (.ok lst, s)
    | .pathconf => ((4096 : Int), s)
    | .winTest .. => ((false, none), s)
    | .win c => (c.fails, s)
    | .port c => (c.fails, s)
    | .getenv _ => ((none : Option Str), s)
    | .realpath _ | .getcwd _ | .mkdir .. | .remove _ | .rename .. | .truncate .. | .symlink .. | .link .. | .readlink ..
    | .chdir _ | .openf .. | .close _ | .fchmod .. | .ftruncate .. | .sendfile ..
    | .read .. | .write .. | .fchmodat .. | .utimensat .. | .statvfs _ | .opendir _ | .readdir _
    | .closedir _ | .winReadlink _ => (.error .ENOSYS, s)

/-- A regular file of 7 bytes, mode 644. -/
def Spec.someFile : Stat := ⟨1, 2, 0o100644, 1, 7, 1600000000, 5, 0⟩

theorem someFile_rests : Rests (oneStat someFile someFile) () (mkPath .posix "a/b".toList) someFile someFile :=
  ⟨rfl, rfl, by decide, by decide, by decide⟩

/-- C48 is false. -/
theorem c48_violated : ¬ ∀ (m : Machine) (s : m.State) (p : Path) (st lst : Stat) (as : List (Ask × EcArg × Bool)), Rests m s p st lst →
    ((Entry.new p).bind fun r => interview as r.1).eval m s = (freely p as).eval m s := by
  intro hall
  have h1 := hall _ _ _ _ _ [(.exists', .ref none, true)] someFile_rests
  have h2 := c48_violated_exists someFile_rests none
  unfold askNew at h2
  rw [h2.1] at h1
  simp only [freely, if_true] at h1
  rw [eval_bind_ok h2.2] at h1
  simp only [Prog.ret_bind] at h1
  cases h1

/-- Non-trivial cases for the partial theorems: a mixed history. -/
example : Covered someFile someFile true [(.fileSize, .null, true), (.hardLinkCount, .null, false), (.is (· == .regular), .null, true),
    (.exists', .ref none, false), (.lastWriteTime, .ref none, true), (.isSymlink, .null, true)] :=
  ⟨fun _ => (by decide : typeOf someFile.mode = .regular), fun h => by simp at h, fun _ => rfl, fun h => by simp at h, fun _ => trivial,
    fun _ => (by decide : typeOf someFile.mode ≠ .symlink), trivial⟩

example : Covered someFile someFile false [(.isSymlink, .null, true), (.exists', .null, true), (.fileSize, .ref none, true)] :=
  ⟨fun _ => by decide, fun _ => rfl, trivial, fun _ => (by decide : typeOf someFile.mode = .regular), trivial⟩

example : ∃ (σ σ' : Stream) (t : List Event) (c : Code), Exec (σ.advance 3) t (.ok (true, σ', c)) ∧ σ.entry.cache.symlink = false ∧
    σ.entry.cache.typeResolved = false ∧ σ'.entry.path = mkPath .posix "a/b".toList ∧
    (∀ d ent, t.getLast? = some ⟨.readdir d, .ok (some ent)⟩ → tellsType ent.dtype someFile.mode) := by
  refine ⟨⟨some 3, mkPath .posix "a".toList, .default⟩, _, [⟨.readdir 3, .ok (some ⟨".".toList, .dir⟩)⟩, ⟨.readdir 3, .ok (some ⟨"b".toList, .reg⟩)⟩],
    none, feed_exec (by rfl), rfl, rfl, by rfl, ?_⟩
  intro d ent h
  simp at h
  obtain ⟨rfl, h⟩ := h
  cases h
  exact ⟨by decide, by decide⟩

end Asap
