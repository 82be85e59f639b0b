import Verif.Props.OpsA
import Verif.Props.OpsB

/-!
# Further property theorems about operations without directory iteration

As in `Verif/Props/OpsB.lean`, the `error_code` overloads are described.
-/

namespace Asap
open Spec

/-! ## C39 -/

/-- In the state `s` the files have the attributes `f`: following links, by name. Looking changes
nothing. -/
def Spec.Attributes (m : Machine) (s : m.State) (f : Str → Except Errno Stat) : Prop :=
  ∀ p, m.step (.stat p) s = (f p, s)

/-- Two names of the same file. -/
def Spec.SameFile (f : Str → Except Errno Stat) (p q : Str) : Prop :=
  ∃ a b, f p = .ok a ∧ f q = .ok b ∧ a.dev = b.dev ∧ a.ino = b.ino

theorem run_equivalent (m : Machine) (s : m.State) (f : Str → Except Errno Stat) (hf : Attributes m s f)
    {p q : Path} (hp : Value p) (hq : Value q) (c : Code) :
    ∃ t, (equivalent p q (.ref c)).run m s =
      (match f p.pathname, f q.pathname with
       | .ok a, .ok b => .ok (statEquivalent a b, .ref none)
       | _, _ => .ok (false, .ref (some .ENOTSUP)), t, s) := by
  have ep : (mkPath .posix p.pathname).pathname = p.pathname := by
    rw [mkPath_pathname]; exact hp.shape.stored
  have eq : (mkPath .posix q.pathname).pathname = q.pathname := by
    rw [mkPath_pathname]; exact hq.shape.stored
  refine run_of_eval ?_
  have nf : ∀ e, FStatus.exists' { type := typeOfErr e } = false := by
    intro e; unfold typeOfErr; split <;> rfl
  simp only [equivalent, clear_ref, Prog.bind_eq]
  cases h1 : f p.pathname with
  | error e =>
    rw [eval_bind_ok (eval_getFileStatus_error (e := e) (by rw [ep, hf, h1]))]
    simp [nf, Handler.report]
  | ok a =>
    rw [eval_bind_ok (eval_getFileStatus_ok (st := a) (by rw [ep, hf, h1]))]
    simp only [statusOf_exists, Bool.not_true, Bool.false_eq_true, if_false]
    cases h2 : f q.pathname with
    | error e =>
      rw [eval_bind_ok (eval_getFileStatus_error (e := e) (by rw [eq, hf, h2]))]
      simp [nf, Handler.report]
    | ok b =>
      rw [eval_bind_ok (eval_getFileStatus_ok (st := b) (by rw [eq, hf, h2]))]
      simp [Prog.useStat, statusOf_exists]

/-- C39. In a fixed state of the file system: `equivalent` reports an error iff one of the
names does not resolve, with `not_supported`; otherwise it is true iff both resolve to
the same file; and thus reflexive on existing files, symmetric and transitive. -/
theorem c39_equivalent (m : Machine) (s : m.State) (f : Str → Except Errno Stat) (hf : Attributes m s f) :
    let eqv (p q : Path) (b : Bool) (c : Code) : Prop :=
      ∀ c₀, ∃ t, (equivalent p q (.ref c₀)).run m s = (.ok (b, .ref c), t, s)
    (∀ p q, Value p → Value q → ((∃ b c, c ≠ none ∧ eqv p q b c) ↔
      ((∃ e, f p.pathname = .error e) ∨ ∃ e, f q.pathname = .error e))) ∧
    (∀ p q, Value p → Value q → (eqv p q true none ↔ SameFile f p.pathname q.pathname)) ∧
    (∀ p q, Value p → Value q → ∃ b c, eqv p q b c ∧ (c = none ∨ c = some .ENOTSUP)) ∧
    (∀ p st, Value p → f p.pathname = .ok st → eqv p p true none) ∧
    (∀ p q b, Value p → Value q → eqv p q b none → eqv q p b none) ∧
    (∀ p q r, Value p → Value q → Value r → eqv p q true none → eqv q r true none → eqv p r true none) := by
  intro eqv
  have key : ∀ p q, Value p → Value q → ∀ b c, eqv p q b c ↔
      ((∃ a a', f p.pathname = .ok a ∧ f q.pathname = .ok a' ∧ b = statEquivalent a a' ∧ c = none) ∨
       (((∃ e, f p.pathname = .error e) ∨ ∃ e, f q.pathname = .error e) ∧ b = false ∧ c = some .ENOTSUP)) := by
    intro p q hp hq b c
    constructor
    · intro h
      obtain ⟨t, ht⟩ := h none
      obtain ⟨t', ht'⟩ := run_equivalent m s f hf hp hq none
      rw [ht'] at ht
      cases h1 : f p.pathname with
      | error e => simp [h1] at ht; exact .inr ⟨.inl ⟨e, rfl⟩, ht.1.1, ht.1.2.symm⟩
      | ok a => cases h2 : f q.pathname with
        | error e => simp [h1, h2] at ht; exact .inr ⟨.inr ⟨e, rfl⟩, ht.1.1, ht.1.2.symm⟩
        | ok a' => simp [h1, h2] at ht; exact .inl ⟨a, a', rfl, rfl, ht.1.1.symm, ht.1.2.symm⟩
    · rintro (⟨a, a', h1, h2, rfl, rfl⟩ | ⟨h, rfl, rfl⟩) c₀
      · obtain ⟨t', ht'⟩ := run_equivalent m s f hf hp hq c₀
        rw [h1, h2] at ht'
        exact ⟨t', ht'⟩
      · obtain ⟨t', ht'⟩ := run_equivalent m s f hf hp hq c₀
        refine ⟨t', ?_⟩
        rw [ht']
        rcases h with ⟨e, h⟩ | ⟨e, h⟩
        · rw [h]
        · rw [h]; cases f p.pathname <;> rfl
  have same : ∀ p q, Value p → Value q → (eqv p q true none ↔ SameFile f p.pathname q.pathname) := by
    intro p q hp hq
    rw [key p q hp hq]
    constructor
    · rintro (⟨a, a', h1, h2, h3, _⟩ | ⟨_, h, _⟩)
      · simp [statEquivalent] at h3
        exact ⟨a, a', h1, h2, h3⟩
      · cases h
    · rintro ⟨a, a', h1, h2, h3⟩
      exact .inl ⟨a, a', h1, h2, by simp [statEquivalent, h3], rfl⟩
  refine ⟨?_, same, ?_, ?_, ?_, ?_⟩
  · intro p q hp hq
    constructor
    · rintro ⟨b, c, hc, h⟩
      rcases (key p q hp hq b c).mp h with ⟨_, _, _, _, _, rfl⟩ | ⟨h, _⟩
      · exact absurd rfl hc
      · exact h
    · intro h
      exact ⟨false, some .ENOTSUP, by simp, (key p q hp hq _ _).mpr (.inr ⟨h, rfl, rfl⟩)⟩
  · intro p q hp hq
    cases h1 : f p.pathname with
    | error e => exact ⟨_, _, (key p q hp hq _ _).mpr (.inr ⟨.inl ⟨e, h1⟩, rfl, rfl⟩), .inr rfl⟩
    | ok a => cases h2 : f q.pathname with
      | error e => exact ⟨_, _, (key p q hp hq _ _).mpr (.inr ⟨.inr ⟨e, h2⟩, rfl, rfl⟩), .inr rfl⟩
      | ok b => exact ⟨_, _, (key p q hp hq _ _).mpr (.inl ⟨a, b, h1, h2, rfl, rfl⟩), .inl rfl⟩
  · intro p st hp h
    exact (same p p hp hp).mpr ⟨st, st, h, h, rfl, rfl⟩
  · intro p q b hp hq h
    rcases (key p q hp hq _ _).mp h with ⟨a, a', h1, h2, h3, _⟩ | ⟨_, _, h⟩
    · refine (key q p hq hp _ _).mpr (.inl ⟨a', a, h2, h1, ?_, rfl⟩)
      rw [h3]
      rw [Bool.eq_iff_iff]
      simp only [statEquivalent, Bool.and_eq_true, beq_iff_eq]
      constructor <;> (rintro ⟨h, h'⟩; exact ⟨h.symm, h'.symm⟩)
    · cases h
  · intro p q r hp hq hr h1 h2
    obtain ⟨a, b, ha, hb, h3, h4⟩ := (same p q hp hq).mp h1
    obtain ⟨b', c, hb', hc, h5, h6⟩ := (same q r hq hr).mp h2
    rw [hb] at hb'
    cases hb'
    exact (same p r hp hr).mpr ⟨a, c, ha, hc, h3.trans h5, h4.trans h6⟩

/-- A machine with two names for one file. -/
example : ∃ (m : Machine) (s : m.State) (f : Str → Except Errno Stat), Attributes m s f ∧
    SameFile f "a".toList "b".toList ∧ ∃ e, f "c".toList = .error e :=
  ⟨⟨Unit, fun c s => match c with
      | .stat p => (if p = "c".toList then .error .ENOENT else .ok { Stat.zero with ino := 7 }, s)
      | .lstat _ | .mkdir .. | .remove _ | .rename .. | .truncate .. | .symlink .. | .link .. | .readlink ..
      | .chdir _ | .getcwd _ | .realpath _ | .openf .. | .close _ | .fchmod .. | .ftruncate .. | .sendfile ..
      | .read .. | .write .. | .fchmodat .. | .utimensat .. | .statvfs _ | .opendir _ | .readdir _
      | .closedir _ | .winReadlink _ => (.error .ENOSYS, s)
      | .pathconf => ((4096 : Int), s)
      | .winTest .. => ((false, none), s)
      | .win c => (c.fails, s)
      | .port c => (c.fails, s)
      | .getenv _ => ((none : Option Str), s)⟩, (), fun p => if p = "c".toList then .error .ENOENT else .ok { Stat.zero with ino := 7 },
   fun _ => rfl, ⟨_, _, rfl, rfl, rfl, rfl⟩, ⟨_, rfl⟩⟩

/-! ## C40 -/

/-- The directory named by the environment: the first variable that is set. -/
def Spec.tempName (env : Str → Option Str) : Str :=
  ((env "TMPDIR".toList).orElse fun _ => (env "TMP".toList).orElse fun _ => (env "TEMP".toList).orElse fun _ =>
    env "TEMPDIR".toList).getD "/tmp".toList

theorem exec_firstEnv {α : Type} {f : Str → Prog α} {o : Except Stop α} : ∀ {vs : List Str} {t : List Event}
    {env : Str → Option Str}, (∀ v s, (⟨.getenv v, s⟩ : Event) ∈ t → s = env v) → Exec ((firstEnv vs).bind f) t o →
    ∃ t1 t2, t = t1 ++ t2 ∧ (∀ ev ∈ t1, ∃ v s, ev = ⟨.getenv v, s⟩) ∧
      Exec (f ((vs.findSome? env).getD "/tmp".toList)) t2 o
  | [], t, env, _, h => ⟨[], t, rfl, by simp, h⟩
  | v :: vs, t, env, henv, h => by
    simp only [firstEnv, Prog.call_bind, exec_getenv] at h
    obtain ⟨r, t', rfl, h⟩ := h
    have hr := henv v r (by simp)
    cases r with
    | some s =>
      refine ⟨[⟨.getenv v, some s⟩], t', rfl, by simp, ?_⟩
      simp only [List.findSome?, ← hr]
      exact h
    | none =>
      obtain ⟨t1, t2, rfl, h1, h2⟩ := exec_firstEnv (vs := vs) (env := env)
        (fun v s hm => henv v s (List.mem_cons_of_mem _ hm)) h
      refine ⟨⟨.getenv v, none⟩ :: t1, t2, rfl, ?_, ?_⟩
      · intro ev hm
        rcases List.mem_cons.mp hm with rfl | hm
        · exact ⟨v, none, rfl⟩
        · exact h1 ev hm
      · simp only [List.findSome?, ← hr]
        exact h2

/-- C40. With the environment `env`, the directory `d` named by the first variable set is asked
for its status, and nothing else is done than that and reading the environment. If it is a
directory its path is returned without error; if it does not exist or is something else the
error is `not_a_directory`; if the status cannot be read that error is reported. In the
last two cases the path is empty. -/
theorem c40_temp_directory_path (env : Str → Option Str) (c : Code) (t : List Event)
    (o : Except Stop (Path × EcArg)) (h : Exec (tempDirectoryPath (.ref c)) t o)
    (henv : ∀ v s, (⟨.getenv v, s⟩ : Event) ∈ t → s = env v) :
    ∃ (t1 : List Event) (r : Except Errno Stat),
      let d := mkPath .posix (tempName env)
      t = t1 ++ [⟨.stat d.pathname, r⟩] ∧ (∀ ev ∈ t1, ∃ v s, ev = ⟨.getenv v, s⟩) ∧
      o = match r with
        | .ok st => if typeOf st.mode = .directory then .ok (d, .ref none) else .ok (.default, .ref (some .ENOTDIR))
        | .error e => if e = .ENOENT ∨ e = .ENOTDIR then .ok (.default, .ref (some .ENOTDIR))
          else .ok (.default, .ref (some e)) := by
  simp only [tempDirectoryPath, clear_ref, Prog.bind_eq] at h
  obtain ⟨t1, t2, rfl, h1, h2⟩ := exec_firstEnv henv h
  have hn : (["TMPDIR".toList, "TMP".toList, "TEMP".toList, "TEMPDIR".toList].findSome? env).getD "/tmp".toList =
      tempName env := by
    unfold tempName
    simp only [List.findSome?]
    generalize env "TMPDIR".toList = a
    generalize env "TMP".toList = b
    generalize env "TEMP".toList = c
    generalize env "TEMPDIR".toList = d
    cases a <;> cases b <;> cases c <;> cases d <;> rfl
  rw [hn] at h2
  simp only [exec_status_bind] at h2
  rcases h2 with ⟨e, t', rfl, h2⟩ | ⟨st, t', rfl, h2⟩
  · refine ⟨t1, .error e, ?_⟩
    by_cases he : e = .ENOENT ∨ e = .ENOTDIR
    · simp [typeOfErr, he, FStatus.known, FStatus.exists', Handler.reportMsg] at h2
      obtain ⟨rfl, rfl⟩ := h2
      exact ⟨rfl, h1, by simp [he]⟩
    · simp [typeOfErr, he, FStatus.known, Handler.reportMsg, EcArg.code] at h2
      obtain ⟨rfl, rfl⟩ := h2
      exact ⟨rfl, h1, by simp [he]⟩
  · refine ⟨t1, .ok st, ?_⟩
    simp only [statusOf_known, statusOf_exists, Bool.not_true, Bool.false_eq_true, if_false, Bool.false_or] at h2
    have hd : (statusOf st).isDirectory = decide (typeOf st.mode = .directory) := by
      rw [← typeOfMode_eq]
      simp [FStatus.isDirectory, statusOf]
      cases typeOfMode st.mode <;> rfl
    by_cases hdir : typeOf st.mode = .directory
    · simp [hd, hdir] at h2
      obtain ⟨rfl, rfl⟩ := h2
      exact ⟨rfl, h1, by simp [hdir]⟩
    · simp [hd, hdir, Handler.reportMsg] at h2
      obtain ⟨rfl, rfl⟩ := h2
      exact ⟨rfl, h1, by simp [hdir]⟩

example : tempName (fun v => if v = "TEMP".toList then some "/t".toList else none) = "/t".toList ∧
    Exec (tempDirectoryPath (.ref none))
      [⟨.getenv "TMPDIR".toList, (none : Option Str)⟩, ⟨.getenv "TMP".toList, (none : Option Str)⟩,
       ⟨.getenv "TEMP".toList, some "/t".toList⟩,
       ⟨.stat "/t".toList, (.ok { Stat.zero with mode := 0o41777 } : Except Errno Stat)⟩]
      (.ok (mkPath .posix "/t".toList, .ref none)) :=
  ⟨rfl, .call _ _ _ _ _ (.call _ _ _ _ _ (.call _ _ _ _ _ (.call _ _ _ _ _ (.ret _))))⟩

end Asap
