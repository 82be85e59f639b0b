import Verif.Dir.Iter
import Verif.Ops.Exec
import Verif.Ops.Agree2
import Verif.Path.Total

/-!
# Executions of directory streams
-/

namespace Asap
open Spec

/-- `.` and `..`. -/
@[reducible] def Dirent.dot (e : Dirent) : Prop := e.name = ".".toList ∨ e.name = "..".toList

/-- The event `readdir` on `d` answering `a`. -/
def rdEv (d : Nat) (a : Except Errno (Option Dirent)) : Event := ⟨.readdir d, a⟩
/-- The event `closedir` on `d`. -/
def clEv (d : Nat) (r : Except Errno Unit) : Event := ⟨.closedir d, r⟩
/-- The event `opendir`. -/
def opEv (p : Str) (r : Except Errno Nat) : Event := ⟨.opendir p, r⟩

/-- An answer that ends the listing, and the code it leaves. -/
def ends : Except Errno (Option Dirent) → Option Code
  | .error e => some (some e)
  | .ok none => some none
  | .ok (some ent) => if ent.name = [] then some none else none

/-- The stream after reading `ent`, positioned at the path `q`. -/
def Stream.at (s : Stream) (ent : Dirent) (q : Path) : Stream :=
  let t := typeOfD ent.dtype
  let c := { s.entry.cache with type := t, cacheType := .basic }
  { s with entry := ⟨q, if t = .symlink then { c with symlink := true } else c⟩ }

/-- The closed stream. -/
def Stream.closed (s : Stream) : Stream := { s with handle := none }

theorem exec_streamClose {s : Stream} {d : Nat} (h : s.handle = some d) {t : List Event} {o : Except Stop Stream} :
    Exec s.close t o ↔ ∃ r, t = [clEv d r] ∧ o = .ok s.closed := by
  unfold Stream.close
  rw [h]
  simp only [exec_call, exec_ret]
  constructor
  · rintro ⟨r, t', rfl, rfl, rfl⟩; exact ⟨r, rfl, rfl⟩
  · rintro ⟨r, rfl, rfl⟩; exact ⟨r, [], rfl, rfl, rfl⟩

/-- The path of an entry in a directory. -/
def entryPath (root : Path) (name : Str) : Path :=
  if startsSlash name then mkPath .posix name else mkPath .posix (appendText root.pathname name)

theorem append_name {root : Path} (hr : Shape root) (name : Str) :
    append .posix root (mkPath .posix name) = .ok (entryPath root name) := by
  rw [hr.append (mkPath_shape name), mkPath_pathname]
  unfold entryPath
  by_cases h : startsSlash name = true
  · have : startsSlash (stored name) = true := by
      unfold stored; split
      · rfl
      · exact h
    simp [h, this]
  · have : stored name = name := by
      unfold stored
      split
      · rename_i h'
        cases name with
        | nil => simp at h'
        | cons c cs =>
          simp [startsSlash] at h
          simp [h] at h'
      · rfl
    simp [h, this]

/-- The events of reading a list of entries. -/
def rdAll (d : Nat) (l : List Dirent) : List Event := l.map fun e => rdEv d (.ok (some e))

@[simp] theorem rdAll_nil (d : Nat) : rdAll d [] = [] := rfl
@[simp] theorem rdAll_append (d : Nat) (l l' : List Dirent) : rdAll d (l ++ l') = rdAll d l ++ rdAll d l' :=
  List.map_append
@[simp] theorem rdAll_length (d : Nat) (l : List Dirent) : (rdAll d l).length = l.length := List.length_map _

/-- All executions of `advance` on an open stream: entries `.` and `..` are skipped; then the
listing ends and the stream is closed, or there is an entry, or the bound is
reached. -/
theorem exec_advance {s : Stream} {d : Nat} (hs : s.handle = some d) (hr : Shape s.root) {n : Nat}
    {t : List Event} {o : Except Stop (Bool × Stream × Code)} :
    Exec (s.advance n) t o ↔ ∃ dots : List Dirent, (∀ e ∈ dots, e.dot) ∧
      ((dots.length = n ∧ t = rdAll d dots ∧ o = .error .fuel) ∨
       (dots.length < n ∧ ((∃ a c r, ends a = some c ∧
            t = rdAll d dots ++ [rdEv d a, clEv d r] ∧ o = .ok (false, s.closed, c)) ∨
          (∃ ent, ¬ ent.dot ∧ ent.name ≠ [] ∧
            t = rdAll d dots ++ [rdEv d (.ok (some ent))] ∧
            o = .ok (true, s.at ent (entryPath s.root ent.name), none))))) := by
  obtain ⟨hdl, root, entry⟩ := s
  cases hs
  have hs : (⟨some d, root, entry⟩ : Stream).handle = some d := rfl
  induction n generalizing t with
  | zero =>
    simp only [Stream.advance, exec_stop]
    constructor
    · rintro ⟨rfl, rfl⟩; exact ⟨[], by simp, .inl ⟨rfl, rfl, rfl⟩⟩
    · rintro ⟨dots, _, ⟨h, rfl, rfl⟩ | ⟨h, _⟩⟩
      · simp at h; subst h; exact ⟨rfl, rfl⟩
      · omega
  | succ n ih =>
    unfold Stream.advance
    simp only
    rw [exec_call]
    constructor
    · rintro ⟨r, t', rfl, h⟩
      rcases r with e | _ | ent
      · simp only [Prog.bind_eq, exec_bind, exec_streamClose hs] at h
        rcases h with ⟨x, ⟨r, _, h⟩, _⟩ | ⟨s', t1, t2, rfl, ⟨r, rfl, h⟩, h2⟩
        · cases h
        · cases h
          simp only [exec_ret] at h2
          obtain ⟨rfl, rfl⟩ := h2
          exact ⟨[], by simp, .inr ⟨by simp, .inl ⟨.error e, some e, r, rfl, rfl, rfl⟩⟩⟩
      · simp only [Prog.bind_eq, exec_bind, exec_streamClose hs] at h
        rcases h with ⟨x, ⟨r, _, h⟩, _⟩ | ⟨s', t1, t2, rfl, ⟨r, rfl, h⟩, h2⟩
        · cases h
        · cases h
          simp only [exec_ret] at h2
          obtain ⟨rfl, rfl⟩ := h2
          exact ⟨[], by simp, .inr ⟨by simp, .inl ⟨.ok none, none, r, rfl, rfl, rfl⟩⟩⟩
      · simp only at h
        by_cases hd : ent.name = ".".toList ∨ ent.name = "..".toList
        · rw [if_pos hd] at h
          obtain ⟨dots, h1, h2⟩ := ih.mp h
          refine ⟨ent :: dots, ?_, ?_⟩
          · intro e he
            rcases List.mem_cons.mp he with rfl | he
            · exact hd
            · exact h1 e he
          · rcases h2 with ⟨h2, rfl, rfl⟩ | ⟨h2, ⟨a, c, r, h3, rfl, rfl⟩ | ⟨ent', h3, h4, rfl, rfl⟩⟩
            · exact .inl ⟨by simp [h2], rfl, rfl⟩
            · exact .inr ⟨by simp [h2], .inl ⟨a, c, r, h3, rfl, rfl⟩⟩
            · exact .inr ⟨by simp [h2], .inr ⟨ent', h3, h4, rfl, rfl⟩⟩
        · rw [if_neg hd] at h
          by_cases hn : ent.name = []
          · rw [if_pos hn] at h
            simp only [Prog.bind_eq, exec_bind, exec_streamClose hs] at h
            rcases h with ⟨x, ⟨r, _, h⟩, _⟩ | ⟨s', t1, t2, rfl, ⟨r, rfl, h⟩, h2⟩
            · cases h
            · cases h
              simp only [exec_ret] at h2
              obtain ⟨rfl, rfl⟩ := h2
              exact ⟨[], by simp, .inr ⟨by simp, .inl ⟨.ok (some ent), none, r, by simp [ends, hn], rfl, rfl⟩⟩⟩
          · rw [if_neg hn] at h
            rw [append_name hr] at h
            simp only [Prog.bind_eq, Prog.ofRes_ok, Prog.ret_bind, exec_ret] at h
            obtain ⟨rfl, rfl⟩ := h
            exact ⟨[], by simp, .inr ⟨by simp, .inr ⟨ent, hd, hn, rfl, rfl⟩⟩⟩
    · rintro ⟨dots, h1, h2⟩
      cases dots with
      | cons e dots =>
        have hd : e.name = ".".toList ∨ e.name = "..".toList := h1 e (by simp)
        rcases h2 with ⟨h2, rfl, rfl⟩ | ⟨h2, ⟨a, c, r, h3, rfl, rfl⟩ | ⟨ent', h3, h4, rfl, rfl⟩⟩
        · refine ⟨_, _, rfl, ?_⟩
          simp only
          rw [if_pos hd]
          exact ih.mpr ⟨dots, fun x hx => h1 x (by simp [hx]), .inl ⟨by simpa using h2, rfl, rfl⟩⟩
        · refine ⟨_, _, rfl, ?_⟩
          simp only
          rw [if_pos hd]
          exact ih.mpr ⟨dots, fun x hx => h1 x (by simp [hx]), .inr ⟨by simpa using h2, .inl ⟨a, c, r, h3, rfl, rfl⟩⟩⟩
        · refine ⟨_, _, rfl, ?_⟩
          simp only
          rw [if_pos hd]
          exact ih.mpr ⟨dots, fun x hx => h1 x (by simp [hx]), .inr ⟨by simpa using h2, .inr ⟨ent', h3, h4, rfl, rfl⟩⟩⟩
      | nil =>
        rcases h2 with ⟨h2, rfl, rfl⟩ | ⟨h2, ⟨a, c, r, h3, rfl, rfl⟩ | ⟨ent, h3, h4, rfl, rfl⟩⟩
        · simp at h2
        · have hcl : Exec ((Stream.close ⟨some d, root, entry⟩).bind fun s => .ret (false, s, c)) [clEv d r]
              (.ok (false, Stream.closed ⟨some d, root, entry⟩, c)) := by
            rw [exec_bind]
            exact .inr ⟨_, [clEv d r], [], rfl, (exec_streamClose hs).mpr ⟨r, rfl, rfl⟩, .ret _⟩
          refine ⟨a, [clEv d r], rfl, ?_⟩
          rcases a with e | _ | ent
          · simp only [ends, Option.some.injEq] at h3; subst h3; exact hcl
          · simp only [ends, Option.some.injEq] at h3; subst h3; exact hcl
          · simp only [ends] at h3
            split at h3
            · rename_i hn
              simp only [Option.some.injEq] at h3; subst h3
              have hd : ¬ (ent.name = ".".toList ∨ ent.name = "..".toList) := by rw [hn]; decide
              simp only
              rw [if_neg hd, if_pos hn]; exact hcl
            · cases h3
        · refine ⟨_, [], rfl, ?_⟩
          simp only
          rw [if_neg h3, if_neg h4, append_name hr]
          exact .ret _

/-- A stream positioned at an entry: open and with a proper root. -/
structure Stream.Live (s : Stream) (d : Nat) : Prop where
  handle : s.handle = some d
  root : Shape s.root

theorem Stream.Live.at {s : Stream} {d : Nat} (h : s.Live d) (ent : Dirent) (q : Path) : (s.at ent q).Live d :=
  ⟨h.handle, h.root⟩

theorem Stream.closed_good (s : Stream) : s.closed.good = false := rfl
theorem Stream.Live.good {s : Stream} {d : Nat} (h : s.Live d) : s.good = true := by simp [Stream.good, h.handle]

theorem exec_streamNew {n : Nat} {p : Path} (hp : Shape p) {opts : DirOptions} {t : List Event}
    {o : Except Stop (Stream × Code)} : Exec (Stream.new n p opts) t o ↔
    (∃ e, t = [opEv p.pathname (.error e)] ∧
      o = .ok (⟨none, p, .default⟩, if opts.has .skipDenied ∧ e = .EACCES then none else some e)) ∨
    (∃ d dots, (∀ e ∈ dots, Dirent.dot e) ∧
      ((dots.length = n ∧ t = opEv p.pathname (.ok d) :: rdAll d dots ∧ o = .error .fuel) ∨
       (dots.length < n ∧ ((∃ a c r, ends a = some c ∧
            t = opEv p.pathname (.ok d) :: (rdAll d dots ++ [rdEv d a, clEv d r]) ∧
            o = .ok (⟨none, p, .default⟩, c)) ∨
          (∃ ent, ¬ ent.dot ∧ ent.name ≠ [] ∧
            t = opEv p.pathname (.ok d) :: (rdAll d dots ++ [rdEv d (.ok (some ent))]) ∧
            o = .ok (Stream.at ⟨some d, p, .default⟩ ent (entryPath p ent.name), none)))))) := by
  unfold Stream.new
  simp only
  rw [exec_call]
  have hadv : ∀ {d t o}, _ ↔ _ := fun {d t o} =>
    exec_advance (s := ⟨some d, p, .default⟩) (d := d) rfl hp (n := n) (t := t) (o := o)
  constructor
  · rintro ⟨r, t', rfl, h⟩
    rcases r with e | d
    · left
      simp only at h
      refine ⟨e, ?_⟩
      split at h <;> rename_i hc <;> simp only [exec_ret] at h <;> obtain ⟨rfl, rfl⟩ := h
      · exact ⟨rfl, by rw [if_pos hc]⟩
      · exact ⟨rfl, by rw [if_neg hc]⟩
    · right
      simp only [Prog.bind_eq, exec_bind] at h
      refine ⟨d, ?_⟩
      rcases h with ⟨x, h, rfl⟩ | ⟨⟨b, s, m⟩, t1, t2, rfl, h, h2⟩
      · obtain ⟨dots, h1, ⟨h2, rfl, h3⟩ | ⟨h2, ⟨a, c, r, _, _, h3⟩ | ⟨ent, _, _, _, h3⟩⟩⟩ := hadv.mp h
        · cases h3; exact ⟨dots, h1, .inl ⟨h2, rfl, rfl⟩⟩
        · cases h3
        · cases h3
      · simp only [exec_ret] at h2
        obtain ⟨rfl, rfl⟩ := h2
        obtain ⟨dots, h1, ⟨h2, _, h3⟩ | ⟨h2, ⟨a, c, r, h4, rfl, h3⟩ | ⟨ent, h4, h5, rfl, h3⟩⟩⟩ := hadv.mp h
        · cases h3
        · cases h3; exact ⟨dots, h1, .inr ⟨h2, .inl ⟨a, m, r, h4, by simp [opEv], rfl⟩⟩⟩
        · cases h3; exact ⟨dots, h1, .inr ⟨h2, .inr ⟨ent, h4, h5, by simp [opEv], rfl⟩⟩⟩
  · rintro (⟨e, rfl, rfl⟩ | ⟨d, dots, h1, ⟨h2, rfl, rfl⟩ | ⟨h2, ⟨a, c, r, h4, rfl, rfl⟩ | ⟨ent, h4, h5, rfl, rfl⟩⟩⟩)
    · refine ⟨.error e, [], rfl, ?_⟩
      simp only
      split <;> simp
    · refine ⟨.ok d, _, rfl, ?_⟩
      simp only [Prog.bind_eq, exec_bind]
      exact .inl ⟨.fuel, hadv.mpr ⟨dots, h1, .inl ⟨h2, rfl, rfl⟩⟩, rfl⟩
    · refine ⟨.ok d, _, rfl, ?_⟩
      simp only [Prog.bind_eq, exec_bind]
      exact .inr ⟨_, _, [], by simp, hadv.mpr ⟨dots, h1, .inr ⟨h2, .inl ⟨a, c, r, h4, rfl, rfl⟩⟩⟩, .ret _⟩
    · refine ⟨.ok d, _, rfl, ?_⟩
      simp only [Prog.bind_eq, exec_bind]
      exact .inr ⟨_, _, [], by simp, hadv.mpr ⟨dots, h1, .inr ⟨h2, .inr ⟨ent, h4, h5, rfl, rfl⟩⟩⟩, .ret _⟩

/-- The constructor of `directory_iterator`, with an `error_code`. -/
theorem exec_dirIterNew {n : Nat} {p : Path} (hp : Shape p) {opts : DirOptions} {c0 : Code} {t : List Event}
    {o : Except Stop (DirIter × EcArg)} : Exec (DirIter.new n p opts (.ref c0)) t o ↔
    (∃ e, t = [opEv p.pathname (.error e)] ∧
      o = .ok (none, .ref (if opts.has .skipDenied ∧ e = .EACCES then none else some e))) ∨
    (∃ d dots, (∀ e ∈ dots, Dirent.dot e) ∧
      ((dots.length = n ∧ t = opEv p.pathname (.ok d) :: rdAll d dots ∧ o = .error .fuel) ∨
       (dots.length < n ∧ ((∃ a c r, ends a = some c ∧
            t = opEv p.pathname (.ok d) :: (rdAll d dots ++ [rdEv d a, clEv d r]) ∧ o = .ok (none, .ref c)) ∨
          (∃ ent, ¬ ent.dot ∧ ent.name ≠ [] ∧
            t = opEv p.pathname (.ok d) :: (rdAll d dots ++ [rdEv d (.ok (some ent))]) ∧
            o = .ok (some (Stream.at ⟨some d, p, .default⟩ ent (entryPath p ent.name)), .ref none)))))) := by
  simp only [DirIter.new, clear_ref, Prog.bind_eq, exec_bind, exec_streamNew hp, assign_ref]
  constructor
  · rintro (⟨x, ⟨e, _, h⟩ | ⟨d, dots, h1, ⟨h2, rfl, h3⟩ | ⟨h2, ⟨a, c, r, h4, rfl, h3⟩ | ⟨ent, h4, h5, rfl, h3⟩⟩⟩, rfl⟩ |
      ⟨⟨s, m⟩, t1, t2, rfl, ⟨e, rfl, h⟩ | ⟨d, dots, h1, ⟨h2, rfl, h3⟩ | ⟨h2, ⟨a, c, r, h4, rfl, h3⟩ | ⟨ent, h4, h5, rfl, h3⟩⟩⟩, h⟩)
    · cases h
    · cases h3; exact .inr ⟨d, dots, h1, .inl ⟨h2, rfl, rfl⟩⟩
    · cases h3
    · cases h3
    · rename_i h'
      cases h
      refine .inl ⟨e, ?_⟩
      by_cases hc : opts.has .skipDenied = true ∧ e = .EACCES
      · simp only [if_pos hc, Stream.good] at h' ⊢
        simp at h'
        obtain ⟨rfl, rfl⟩ := h'
        exact ⟨by simp, rfl⟩
      · simp only [if_neg hc, Stream.good] at h' ⊢
        simp [Handler.report] at h'
        obtain ⟨rfl, rfl⟩ := h'
        exact ⟨by simp, rfl⟩
    · cases h3
    · cases h3
      refine .inr ⟨d, dots, h1, .inr ⟨h2, .inl ⟨a, m, r, h4, ?_⟩⟩⟩
      cases m with
      | none => simp [Stream.good] at h; obtain ⟨rfl, rfl⟩ := h; exact ⟨by simp, rfl⟩
      | some e => simp [Stream.good, Handler.report] at h; obtain ⟨rfl, rfl⟩ := h; exact ⟨by simp, rfl⟩
    · cases h3
      rw [if_neg (by simp [Stream.good, Stream.at])] at h
      simp only [exec_ret] at h
      obtain ⟨rfl, rfl⟩ := h
      exact .inr ⟨d, dots, h1, .inr ⟨h2, .inr ⟨ent, h4, h5, by simp, rfl⟩⟩⟩
  · rintro (⟨e, rfl, rfl⟩ | ⟨d, dots, h1, ⟨h2, rfl, rfl⟩ | ⟨h2, ⟨a, c, r, h4, rfl, rfl⟩ | ⟨ent, h4, h5, rfl, rfl⟩⟩⟩)
    · refine .inr ⟨_, _, [], by simp, .inl ⟨e, rfl, rfl⟩, ?_⟩
      by_cases hc : opts.has .skipDenied = true ∧ e = .EACCES
      · simp only [if_pos hc, Stream.good]; simp
      · simp only [if_neg hc, Stream.good]; simp [Handler.report]
    · exact .inl ⟨.fuel, .inr ⟨d, dots, h1, .inl ⟨h2, rfl, rfl⟩⟩, rfl⟩
    · refine .inr ⟨_, _, [], by simp, .inr ⟨d, dots, h1, .inr ⟨h2, .inl ⟨a, c, r, h4, rfl, rfl⟩⟩⟩, ?_⟩
      cases c <;> simp [Stream.good, Handler.report]
    · refine .inr ⟨_, _, [], by simp, .inr ⟨d, dots, h1, .inr ⟨h2, .inr ⟨ent, h4, h5, rfl, rfl⟩⟩⟩, ?_⟩
      simp [Stream.good, Stream.at]

/-- `increment` of a `directory_iterator` that is not at the end. -/
theorem exec_dirIterIncr {n : Nat} {s : Stream} {d : Nat} (hs : s.Live d) {c0 : Code} {t : List Event}
    {o : Except Stop (DirIter × EcArg)} : Exec (DirIter.incr n (some s) (.ref c0)) t o ↔
    ∃ dots, (∀ e ∈ dots, Dirent.dot e) ∧
      ((dots.length = n ∧ t = rdAll d dots ∧ o = .error .fuel) ∨
       (dots.length < n ∧ ((∃ a c r, ends a = some c ∧
            t = rdAll d dots ++ [rdEv d a, clEv d r] ∧ o = .ok (none, .ref c)) ∨
          (∃ ent, ¬ ent.dot ∧ ent.name ≠ [] ∧ t = rdAll d dots ++ [rdEv d (.ok (some ent))] ∧
            o = .ok (some (s.at ent (entryPath s.root ent.name)), .ref none))))) := by
  simp only [DirIter.incr, clear_ref, Prog.bind_eq, exec_bind, exec_advance hs.handle hs.root]
  constructor
  · rintro (⟨x, ⟨dots, h1, ⟨h2, rfl, h3⟩ | ⟨h2, ⟨a, c, r, h4, rfl, h3⟩ | ⟨ent, h4, h5, rfl, h3⟩⟩⟩, rfl⟩ |
      ⟨⟨b, s', m⟩, t1, t2, rfl, ⟨dots, h1, ⟨h2, rfl, h3⟩ | ⟨h2, ⟨a, c, r, h4, rfl, h3⟩ | ⟨ent, h4, h5, rfl, h3⟩⟩⟩, h⟩)
    · cases h3; exact ⟨dots, h1, .inl ⟨h2, rfl, rfl⟩⟩
    · cases h3
    · cases h3
    · cases h3
    · cases h3
      refine ⟨dots, h1, .inr ⟨h2, .inl ⟨a, m, r, h4, ?_⟩⟩⟩
      cases m with
      | none => simp at h; obtain ⟨rfl, rfl⟩ := h; exact ⟨by simp, rfl⟩
      | some e => simp [Handler.reportMsg] at h; obtain ⟨rfl, rfl⟩ := h; exact ⟨by simp, rfl⟩
    · cases h3
      simp at h
      obtain ⟨rfl, rfl⟩ := h
      exact ⟨dots, h1, .inr ⟨h2, .inr ⟨ent, h4, h5, by simp, rfl⟩⟩⟩
  · rintro ⟨dots, h1, ⟨h2, rfl, rfl⟩ | ⟨h2, ⟨a, c, r, h4, rfl, rfl⟩ | ⟨ent, h4, h5, rfl, rfl⟩⟩⟩
    · exact .inl ⟨.fuel, ⟨dots, h1, .inl ⟨h2, rfl, rfl⟩⟩, rfl⟩
    · refine .inr ⟨_, _, [], by simp, ⟨dots, h1, .inr ⟨h2, .inl ⟨a, c, r, h4, rfl, rfl⟩⟩⟩, ?_⟩
      cases c <;> simp [Handler.reportMsg]
    · refine .inr ⟨_, _, [], by simp, ⟨dots, h1, .inr ⟨h2, .inr ⟨ent, h4, h5, rfl, rfl⟩⟩⟩, ?_⟩
      simp

end Asap
