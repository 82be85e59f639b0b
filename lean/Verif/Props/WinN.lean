import Verif.Win.Agree
import Verif.Path.WinParent
import Verif.Os.Eval

/-!
# C78: listing a directory on Windows
-/

namespace Asap
namespace Spec

/-- The client loop `for (; it != directory_iterator{}; it.increment(ec))`, at most `k` rounds:
the paths seen and the final code. It stops at the first error. -/
def visitWinFrom (n : Nat) : Nat → DirIter → Code → Prog (List Path × Code)
  | _, _, some e => .ret ([], some e)
  | _, none, none => .ret ([], none)
  | 0, some _, none => .stop .fuel
  | k + 1, some s, none => (Win.DirIter.incr n (some s) (.ref none)).bind fun x =>
    (visitWinFrom n k x.1 x.2.code).bind fun y => .ret (s.entry.path :: y.1, y.2)

/-- `for (directory_iterator it(p, ec); …)`. -/
def visitWin (n k : Nat) (p : Path) (opts : DirOptions) : Prog (List Path × Code) :=
  (Win.DirIter.new n p opts (.ref none)).bind fun x => visitWinFrom n k x.1 x.2.code

/-- `.` and `..`. -/
def dotName (w : Str) : Prop := w = ['.'] ∨ w = ['.', '.']

instance (w : Str) : Decidable (dotName w) := by unfold dotName; infer_instance

/-- The names of the entries of a directory, besides itself and its parent. -/
def winEntries (ents : List FindData) : List Str := (ents.map FindData.name).filter fun w => ¬ dotName w

/-- A successful read of handle `d`. -/
def gotNext (d : Nat) (e : FindData) : Event := ⟨.win (.findNext d), (.ok e : Except Errno FindData)⟩
/-- The last read. -/
def lastNext (d : Nat) (e : Errno) : Event := ⟨.win (.findNext d), (.error e : Except Errno FindData)⟩
/-- Closing `d`. -/
def closedFind (d : Nat) (r : Except Errno Unit) : Event := ⟨.win (.findClose d), r⟩

/-- The error of a listing that was ended by error `e` of Windows: the end of a directory (18) is none. -/
def endCode (e : Errno) : Code := if e.winValue = 18 then none else some e

/-- The error of a directory that could not be opened: a refusal (5) is `permission_denied`, and skipped if
asked for. -/
def openCode (opts : DirOptions) (e : Errno) : Code :=
  if e.winValue = 5 then (if opts.has .skipDenied then none else some .EACCES) else endCode e

/-- What is searched for in the directory `s`: everything in it, i.e. `s` and `*`, separated unless `s` ends with a
separator or a colon. -/
def searchText (s : Str) : Str :=
  s ++ (if s.getLast?.any fun c => winSep c || c == ':' then ['*'] else ['\\', '*'])

end Spec
open Spec
namespace Win

theorem pattern_text (s : Str) : pattern s = searchText s := by
  unfold pattern searchText
  cases h : s.getLast? with
  | none => rfl
  | some c =>
    have : (some c = some '\\' ∨ some c = some '/' ∨ some c = some ':') ↔ (some c).any (fun c => winSep c || c == ':') = true := by
      simp [winSep, or_assoc, or_comm, or_left_comm]
    simp only [this]
    split <;> rfl

theorem isDots_iff (w : Str) : isDots w = true ↔ dotName w := by
  unfold isDots dotName
  simp only [Bool.or_eq_true, beq_iff_eq]
  exact Iff.rfl

/-- A path `p/w` for a directory with the text `r`. -/
def Entered (r w : Str) (q : Path) : Prop :=
  append .windows (mkPath .windows r) (mkPath .windows w) = .ok q ∧ ∃ u, q = mkPath .windows u ∧ winElements u = winAppended r w

theorem Entered.names {r w : Str} {q : Path} (h : Entered r w q) : q.names = winAppended r w := by
  obtain ⟨_, u, rfl, h⟩ := h
  rw [win_names, h]

/-- The stream at an entry. -/
structure Placed (d : Nat) (r w : Str) (s : Stream) : Prop where
  handle : s.handle = some d
  root : s.root = mkPath .windows r
  path : Entered r w s.entry.path

/-- A stream open on the directory with the text `r`. -/
structure OpenOn (d : Nat) (r : Str) (s : Stream) : Prop where
  handle : s.handle = some d
  root : s.root = mkPath .windows r

theorem exec_setEntry {d : Nat} {r : Str} {s : Stream} (hs : OpenOn d r s) {ent : FindData} {t : List Event}
    {o : Except Stop Stream} (h : Exec (setEntry s ent) t o) : t = [] ∧ ∃ s', o = .ok s' ∧ Placed d r ent.name s' := by
  unfold setEntry at h
  obtain ⟨u, h1, h2⟩ := win_append r ent.name
  rw [hs.root, h1] at h
  simp only [Prog.ofRes, Prog.ret_bind, exec_ret] at h
  exact ⟨h.1, _, h.2, hs.handle, rfl, h1, u, rfl, h2⟩

theorem exec_close {d : Nat} {s : Stream} (hs : s.handle = some d) {t : List Event} {o : Except Stop Stream}
    (h : Exec (Stream.close s) t o) : ∃ r, t = [closedFind d r] ∧ o = .ok { s with handle := none } := by
  unfold Stream.close at h
  rw [hs] at h
  obtain ⟨r, t', rfl, h'⟩ := exec_call.mp h
  simp only [exec_ret] at h'
  obtain ⟨rfl, rfl⟩ := h'
  exact ⟨r, rfl, rfl⟩

/-- All ways to advance. -/
theorem exec_advance {n d : Nat} {r : Str} {s : Stream} (hs : OpenOn d r s) {t : List Event}
    {o : Except Stop (Bool × Stream × Code)} (h : Exec (Stream.advance n s) t o) :
    ∃ dots : List FindData, (∀ e ∈ dots, dotName e.name) ∧
      ((dots.length = n ∧ t = dots.map (gotNext d) ∧ o = .error .fuel) ∨
       (∃ e c s', t = dots.map (gotNext d) ++ [lastNext d e, closedFind d c] ∧ o = .ok (false, s', endCode e)) ∨
       (∃ ent s', ¬ dotName ent.name ∧ t = dots.map (gotNext d) ++ [gotNext d ent] ∧ o = .ok (true, s', none) ∧
         Placed d r ent.name s')) := by
  induction n generalizing t with
  | zero =>
    simp only [Stream.advance, exec_stop] at h
    exact ⟨[], by simp, .inl ⟨rfl, h.1, h.2⟩⟩
  | succ n ih =>
    unfold Stream.advance at h
    rw [hs.handle] at h
    obtain ⟨a, t', rfl, h'⟩ := exec_call.mp h
    clear h
    have h := h'
    clear h'
    rcases a with e | ent
    · refine ⟨[], by simp, .inr (.inl ?_)⟩
      rcases exec_bind.mp h with ⟨x, h1, rfl⟩ | ⟨s', t1, t2, rfl, h1, h2⟩
      · obtain ⟨_, _, h2⟩ := exec_close hs.handle h1
        cases h2
      · obtain ⟨c, rfl, h3⟩ := exec_close hs.handle h1
        cases h3
        simp only [exec_ret] at h2
        obtain ⟨rfl, rfl⟩ := h2
        exact ⟨e, c, _, rfl, rfl⟩
    · dsimp only at h
      split at h
      · rename_i hd
        rw [isDots_iff] at hd
        obtain ⟨dots, h1, h2⟩ := ih h
        refine ⟨ent :: dots, ?_, ?_⟩
        · intro e he
          rcases List.mem_cons.mp he with rfl | he
          · exact hd
          · exact h1 e he
        · rcases h2 with ⟨h2, rfl, rfl⟩ | ⟨e, c, s', rfl, rfl⟩ | ⟨ent', s', h3, rfl, rfl, h4⟩
          · exact .inl ⟨by simp [h2], rfl, rfl⟩
          · exact .inr (.inl ⟨e, c, s', rfl, rfl⟩)
          · exact .inr (.inr ⟨ent', s', h3, rfl, rfl, h4⟩)
      · rename_i hd
        rw [isDots_iff] at hd
        refine ⟨[], by simp, .inr (.inr ⟨ent, ?_⟩)⟩
        rcases exec_bind.mp h with ⟨x, h1, rfl⟩ | ⟨s', t1, t2, rfl, h1, h2⟩
        · obtain ⟨_, _, h1, _⟩ := exec_setEntry hs h1
          cases h1
        · obtain ⟨rfl, _, h1, h3⟩ := exec_setEntry hs h1
          cases h1
          simp only [exec_ret] at h2
          obtain ⟨rfl, rfl⟩ := h2
          exact ⟨_, hd, rfl, rfl, h3⟩

/-- All ways to skip `.` and `..` at the start. -/
theorem exec_skipDots {n d : Nat} {ent : FindData} {t : List Event} {o : Except Stop (Option FindData)}
    (h : Exec (skipDots d n ent) t o) :
    ∃ rest : List FindData, (∀ e ∈ (ent :: rest).dropLast, dotName e.name) ∧
      ((rest.length = n ∧ t = rest.map (gotNext d) ∧ o = .error .fuel) ∨
       (∃ e c, (∀ e ∈ ent :: rest, dotName e.name) ∧ t = rest.map (gotNext d) ++ [lastNext d e, closedFind d c] ∧ o = .ok none) ∨
       (∃ x, (ent :: rest).getLast? = some x ∧ ¬ dotName x.name ∧ t = rest.map (gotNext d) ∧ o = .ok (some x))) := by
  induction n generalizing ent t with
  | zero =>
    simp only [skipDots, exec_stop] at h
    exact ⟨[], by simp, .inl ⟨rfl, h.1, h.2⟩⟩
  | succ n ih =>
    unfold skipDots at h
    split at h
    · rename_i hd
      rw [isDots_iff] at hd
      obtain ⟨a, t', rfl, h'⟩ := exec_call.mp h
      clear h
      have h := h'
      clear h'
      rcases a with e | ent'
      · obtain ⟨c, t', rfl, h'⟩ := exec_call.mp h
        clear h
        have h := h'
        clear h'
        simp only [exec_ret] at h
        obtain ⟨rfl, rfl⟩ := h
        exact ⟨[], by simp, .inr (.inl ⟨e, c, by simpa using hd, rfl, rfl⟩)⟩
      · obtain ⟨rest, h1, h2⟩ := ih h
        have hall : ∀ l : List FindData, (∀ e ∈ l, dotName e.name) → ∀ e ∈ ent :: l, dotName e.name := by
          intro l hl e he
          rcases List.mem_cons.mp he with rfl | he
          · exact hd
          · exact hl e he
        refine ⟨ent' :: rest, by rw [List.dropLast_cons_cons]; exact hall _ h1, ?_⟩
        rcases h2 with ⟨h2, rfl, rfl⟩ | ⟨e, c, h3, rfl, rfl⟩ | ⟨x, h3, h4, rfl, rfl⟩
        · exact .inl ⟨by simp [h2], rfl, rfl⟩
        · exact .inr (.inl ⟨e, c, hall _ h3, rfl, rfl⟩)
        · exact .inr (.inr ⟨x, by simpa using h3, h4, rfl, rfl⟩)
    · rename_i hd
      rw [isDots_iff] at hd
      simp only [exec_ret] at h
      obtain ⟨rfl, rfl⟩ := h
      exact ⟨[], by simp, .inr (.inr ⟨ent, rfl, hd, rfl, rfl⟩)⟩

theorem openError_code (opts : DirOptions) (e : Errno) : openError opts (some e) = openCode opts e := by
  unfold openError openCode endCode ERROR_ACCESS_DENIED ERROR_NO_MORE_FILES
  rfl

theorem winEntries_dots {l : List FindData} (h : ∀ e ∈ l, dotName e.name) : winEntries l = [] := by
  unfold winEntries
  rw [List.filter_eq_nil_iff]
  intro w hw
  obtain ⟨e, he, rfl⟩ := List.mem_map.mp hw
  simp [h e he]

theorem winEntries_append (a b : List FindData) : winEntries (a ++ b) = winEntries a ++ winEntries b := by
  simp [winEntries]

theorem winEntries_one {e : FindData} (h : ¬ dotName e.name) : winEntries [e] = [e.name] := by
  simp [winEntries, h]

/-- All ways to open a directory. -/
theorem exec_streamNew {n : Nat} {r : Str} {opts : DirOptions} {t : List Event} {o : Except Stop (Stream × Code)}
    (h : Exec (Stream.new n (mkPath .windows r) opts) t o) :
    let first (x : Except Errno (Nat × FindData)) : Event := ⟨.win (.findFirst (searchText (mkPath .windows r).pathname)), x⟩
    (∃ e s, t = [first (.error e)] ∧ s.good = false ∧ o = .ok (s, openCode opts e)) ∨
    ∃ (d : Nat) (ent : FindData) (rest : List FindData), (∀ e ∈ (ent :: rest).dropLast, dotName e.name) ∧
      ((o = .error .fuel ∧ n < t.length ∧ t = first (.ok (d, ent)) :: rest.map (gotNext d)) ∨
       (∃ (e : Errno) (c : Except Errno Unit) (last : Code) (s : Stream), (∀ e ∈ ent :: rest, dotName e.name) ∧
         t = first (.ok (d, ent)) :: (rest.map (gotNext d) ++ [lastNext d e, closedFind d c, ⟨.win .lastError, last⟩]) ∧
         s.good = false ∧ o = .ok (s, last.bind (openCode opts))) ∨
       (∃ x s, (ent :: rest).getLast? = some x ∧ ¬ dotName x.name ∧ t = first (.ok (d, ent)) :: rest.map (gotNext d) ∧
         Placed d r x.name s ∧ o = .ok (s, none))) := by
  intro first
  unfold Stream.new at h
  rw [pattern_text] at h
  obtain ⟨a, t', rfl, h'⟩ := exec_call.mp h
  clear h
  have h := h'
  clear h'
  rcases a with e | ⟨d, ent⟩
  · simp only [exec_ret] at h
    obtain ⟨rfl, rfl⟩ := h
    exact .inl ⟨e, _, rfl, rfl, by rw [openError_code]⟩
  · refine .inr ⟨d, ent, ?_⟩
    rcases exec_bind.mp h with ⟨x, h1, rfl⟩ | ⟨v, t1, t2, rfl, h1, h2⟩
    · obtain ⟨rest, hr, ⟨h2, rfl, h3⟩ | ⟨_, _, _, _, h3⟩ | ⟨_, _, _, _, h3⟩⟩ := exec_skipDots h1
      · cases h3
        exact ⟨rest, hr, .inl ⟨rfl, by simp [h2], rfl⟩⟩
      · cases h3
      · cases h3
    · obtain ⟨rest, hr, ⟨_, _, h3⟩ | ⟨e, c, h4, rfl, h3⟩ | ⟨x, h4, h5, rfl, h3⟩⟩ := exec_skipDots h1
      · cases h3
      · cases h3
        obtain ⟨last, t', rfl, h6⟩ := exec_call.mp h2
        simp only [exec_ret] at h6
        obtain ⟨rfl, rfl⟩ := h6
        refine ⟨rest, hr, .inr (.inl ⟨e, c, last, ⟨none, mkPath .windows r, .default⟩, h4, by simp [first], rfl, ?_⟩)⟩
        cases last with
        | none => rfl
        | some e => rw [openError_code]; rfl
      · cases h3
        have hs : OpenOn d r { handle := some d, root := mkPath .windows r, entry := .default } := ⟨rfl, rfl⟩
        rcases exec_bind.mp h2 with ⟨y, h6, rfl⟩ | ⟨s', t1, t2, rfl, h6, h7⟩
        · obtain ⟨_, _, h6, _⟩ := exec_setEntry hs h6
          cases h6
        · obtain ⟨rfl, _, h6, h8⟩ := exec_setEntry hs h6
          cases h6
          simp only [exec_ret] at h7
          obtain ⟨rfl, rfl⟩ := h7
          exact ⟨rest, hr, .inr (.inr ⟨x, _, h4, h5, by simp [first], h8, rfl⟩)⟩

theorem visitWinFrom_end (n k : Nat) (it : DirIter) (e : Errno) : visitWinFrom n k it (some e) = .ret ([], some e) := by
  cases k <;> rfl

theorem visitWinFrom_none (n k : Nat) (c : Code) : visitWinFrom n k none c = .ret ([], c) := by
  cases c <;> cases k <;> rfl

theorem exec_visitFrom {n k d : Nat} {r w : Str} {s : Stream} (hs : Placed d r w s) {t : List Event}
    {o : Except Stop (List Path × Code)} (h : Exec (visitWinFrom n k (some s) none) t o) :
    (o = .error .fuel ∧ (n ≤ t.length ∨ k ≤ t.length)) ∨
    ∃ (ents : List FindData) (e : Errno) (c : Except Errno Unit) (vs : List Path),
      t = ents.map (gotNext d) ++ [lastNext d e, closedFind d c] ∧ o = .ok (vs, endCode e) ∧
      vs.map Path.names = (w :: winEntries ents).map (winAppended r) := by
  induction k generalizing s w t o with
  | zero => simp only [visitWinFrom, exec_stop] at h; exact .inl ⟨h.2, .inr (by omega)⟩
  | succ k ih =>
    have ho : OpenOn d r s := ⟨hs.handle, hs.root⟩
    simp only [visitWinFrom, DirIter.incr, Prog.bind_assoc, clear_ref] at h
    rcases exec_bind.mp h with ⟨x, h1, rfl⟩ | ⟨v, t1, t2, rfl, h1, h2⟩
    · obtain ⟨dots, hd, ⟨h2, rfl, h3⟩ | ⟨e, c, s', rfl, h3⟩ | ⟨ent, s', _, _, h3, _⟩⟩ := exec_advance ho h1
      · cases h3
        exact .inl ⟨rfl, .inl (by simp [h2])⟩
      · cases h3
      · cases h3
    · obtain ⟨dots, hd, ⟨_, _, h3⟩ | ⟨e, c, s', rfl, h3⟩ | ⟨ent, s', hne, rfl, h3, hp⟩⟩ := exec_advance ho h1
      · cases h3
      · cases h3
        have h4 : Exec (.ret ([s.entry.path], endCode e)) t2 o := by
          cases hc : endCode e with
          | none =>
            rw [hc] at h2
            simpa [Prog.ret_bind, visitWinFrom_none, EcArg.code] using h2
          | some e' =>
            rw [hc] at h2
            simpa [Handler.reportMsg, Prog.ret_bind, visitWinFrom_none, EcArg.code, EcArg.assign] using h2
        simp only [exec_ret] at h4
        obtain ⟨rfl, rfl⟩ := h4
        exact .inr ⟨dots, e, c, _, by simp, rfl, by simp [winEntries_dots hd, hs.path.names]⟩
      · cases h3
        have h4 : Exec ((visitWinFrom n k (some s') none).bind fun y => .ret (s.entry.path :: y.1, y.2)) t2 o := h2
        rcases exec_bind.mp h4 with ⟨x, h5, rfl⟩ | ⟨v, t3, t4, rfl, h5, h6⟩
        · rcases ih hp h5 with ⟨h7, h8⟩ | ⟨_, _, _, _, _, h7, _⟩
          · cases h7
            refine .inl ⟨rfl, ?_⟩
            simp only [List.length_append, List.length_map, List.length_cons, List.length_nil]
            omega
          · cases h7
        · rcases ih hp h5 with ⟨h7, h8⟩ | ⟨ents, e, c, vs, rfl, h7, h8⟩
          · cases h7
          · cases h7
            simp only [exec_ret] at h6
            obtain ⟨rfl, rfl⟩ := h6
            refine .inr ⟨dots ++ ent :: ents, e, c, _, by simp, rfl, ?_⟩
            rw [List.map_cons, h8, winEntries_append, winEntries_dots hd, show ent :: ents = [ent] ++ ents from rfl,
              winEntries_append, winEntries_one hne, hs.path.names]
            rfl

end Win

/-- **C78.** Every way Windows can answer a listing of the directory with the text `r` is one of these. The search fails
at once: nothing is seen, and the error is reported, unless it is a refusal to be skipped or says that there are no
files. Or a search `d` is begun, read until an error `e`, and closed. If there are other entries than `.` and `..`, exactly these
are seen, each once, in order, as `r/name`, and the error is `e`, unless it says that this was the end. If there are no
others, nothing is seen, and the error is the last error recorded after the search has been closed, whatever `e` was. Or
more than `n` entries were read: the loop ends whenever the directory does. -/
theorem c78_listing_partial (r : Str) (n k : Nat) (opts : DirOptions) (t : List Event) (o : Except Stop (List Path × Code))
    (h : Exec (visitWin n k (mkPath .windows r) opts) t o) :
    let first (x : Except Errno (Nat × FindData)) : Event := ⟨.win (.findFirst (searchText (mkPath .windows r).pathname)), x⟩
    (∃ e, t = [first (.error e)] ∧ o = .ok ([], openCode opts e)) ∨
    (∃ (d : Nat) (ent : FindData) (ents : List FindData) (e : Errno) (c : Except Errno Unit),
      (∃ vs, winEntries (ent :: ents) ≠ [] ∧
        t = first (.ok (d, ent)) :: (ents.map (gotNext d) ++ [lastNext d e, closedFind d c]) ∧
        o = .ok (vs, endCode e) ∧ vs.map Path.names = (winEntries (ent :: ents)).map (winAppended r)) ∨
      (∃ last : Code, winEntries (ent :: ents) = [] ∧
        t = first (.ok (d, ent)) :: (ents.map (gotNext d) ++ [lastNext d e, closedFind d c, ⟨.win .lastError, last⟩]) ∧
        o = .ok ([], last.bind (openCode opts)))) ∨
    (o = .error .fuel ∧ (n < t.length ∨ k < t.length)) := by
  intro first
  simp only [visitWin, Win.DirIter.new, Prog.bind_assoc, clear_ref] at h
  have hbad : ∀ {s : Stream} {c : Code} {t : List Event} {o : Except Stop (List Path × Code)}, s.good = false →
      Exec (Prog.bind (if (!s.good) = true then
        (match c with
        | some e => (Handler.report ⟨"directory_iterator::directory_iterator(...)".toList, some (mkPath .windows r), none⟩
            ((EcArg.ref none).assign c) (some e) ()).bind fun y => .ret ((none : DirIter), y.2)
        | none => .ret (none, (EcArg.ref none).assign c))
        else .ret (some s, (EcArg.ref none).assign c)) fun x => visitWinFrom n k x.1 x.2.code) t o → t = [] ∧ o = .ok ([], c) := by
    intro s c t o hg h
    rw [hg] at h
    cases c with
    | none => simpa [Prog.ret_bind, Win.visitWinFrom_none, EcArg.code, EcArg.assign] using h
    | some e => simpa [Handler.report, Prog.ret_bind, Win.visitWinFrom_none, EcArg.code, EcArg.assign] using h
  rcases exec_bind.mp h with ⟨x, h1, rfl⟩ | ⟨v, t1, t2, rfl, h1, h2⟩
  · rcases Win.exec_streamNew h1 with ⟨e, s, _, _, h2⟩ | ⟨d, ent, rest, hr, ⟨h2, h3, _⟩ | ⟨_, _, _, _, _, _, _, h2⟩ | ⟨_, _, _, _, _, _, h2⟩⟩
    · cases h2
    · cases h2
      exact .inr (.inr ⟨rfl, .inl h3⟩)
    · cases h2
    · cases h2
  · rcases Win.exec_streamNew h1 with ⟨e, s, rfl, hg, h3⟩ | ⟨d, ent, rest, hr, ⟨h3, _⟩ | ⟨e, c, last, s, hd, rfl, hg, h3⟩ | ⟨x, s, hx, hne, rfl, hp, h3⟩⟩
    · cases h3
      obtain ⟨rfl, rfl⟩ := hbad hg h2
      exact .inl ⟨e, by simp [first], rfl⟩
    · cases h3
    · cases h3
      obtain ⟨rfl, rfl⟩ := hbad hg h2
      exact .inr (.inl ⟨d, ent, rest, e, c, .inr ⟨last, Win.winEntries_dots hd, by simp [first], rfl⟩⟩)
    · cases h3
      have hg : s.good = true := by simp [Stream.good, hp.handle]
      have h4 : Exec (visitWinFrom n k (some s) none) t2 o := by
        rw [hg] at h2
        exact h2
      rcases Win.exec_visitFrom hp h4 with ⟨rfl, h5⟩ | ⟨ents, e, c, vs, rfl, rfl, h5⟩
      · refine .inr (.inr ⟨rfl, ?_⟩)
        simp only [List.length_append, List.length_cons, List.length_map]
        omega
      · have hw : winEntries (ent :: rest) = [x.name] := by
          obtain ⟨l, hl⟩ := List.getLast?_eq_some_iff.mp hx
          rw [hl, List.dropLast_concat] at hr
          rw [hl, Win.winEntries_append, Win.winEntries_dots hr, Win.winEntries_one hne]
          rfl
        have hw2 : winEntries (ent :: (rest ++ ents)) = x.name :: winEntries ents := by
          rw [← List.cons_append, Win.winEntries_append, hw]
          rfl
        refine .inr (.inl ⟨d, ent, rest ++ ents, e, c, .inl ⟨vs, by simp [hw2], by simp [first], rfl, ?_⟩⟩)
        rw [hw2, h5]

/-- A listing of `d`: `.`, `a`, `..`, then the end. -/
example :
    let ent (n : Str) : FindData := { name := n, attrs := 0#32, tag := 0#32 }
    Exec (visitWin 9 9 (mkPath .windows "d".toList) .none)
      [⟨.win (.findFirst "d\\*".toList), (.ok (7, ent ".".toList) : Except Errno (Nat × FindData))⟩,
       gotNext 7 (ent "a".toList), gotNext 7 (ent "..".toList), lastNext 7 (.ofWin 18), closedFind 7 (.ok ())]
      (.ok ([mkPath .windows "d\\a".toList], none)) :=
  feed_exec (by rfl)

/-- **C78** is violated. An error in reading a directory where only `.` has been found is lost if closing the search
leaves no last error; an error of closing is reported instead of it. A drive without any entries, where Windows
says that there is no such file, is not listed as empty. And the empty path, which is no directory, lists the root of
the current drive. -/
theorem c78_violated :
    let dot : FindData := { name := ".".toList, attrs := 16#32, tag := 0#32 }
    let a : FindData := { name := "a".toList, attrs := 0#32, tag := 0#32 }
    let first (s : String) (x : Except Errno (Nat × FindData)) : Event := ⟨.win (.findFirst s.toList), x⟩
    let disk : Errno := .ofWin 23
    (∀ c, Exec (visitWin 9 9 (mkPath .windows "d".toList) .none)
      [first "d\\*" (.ok (7, dot)), lastNext 7 disk, closedFind 7 c, ⟨.win .lastError, (none : Code)⟩] (.ok ([], none))) ∧
    (∀ c, Exec (visitWin 9 9 (mkPath .windows "d".toList) .none)
      [first "d\\*" (.ok (7, dot)), lastNext 7 (.ofWin 18), closedFind 7 c, ⟨.win .lastError, (some disk : Code)⟩]
      (.ok ([], some disk))) ∧
    Exec (visitWin 9 9 (mkPath .windows "E:\\".toList) .none) [first "E:\\*" (.error .ENOENT)] (.ok ([], some .ENOENT)) ∧
    Exec (visitWin 9 9 (mkPath .windows []) .none)
      [first "\\*" (.ok (7, a)), lastNext 7 (.ofWin 18), closedFind 7 (.ok ())] (.ok ([mkPath .windows "a".toList], none)) := by
  refine ⟨?_, ?_, feed_exec (by rfl), feed_exec (by rfl)⟩
  · intro c
    rcases c with e | _ <;> exact feed_exec (by rfl)
  · intro c
    rcases c with e | _ <;> exact feed_exec (by rfl)

end Asap
