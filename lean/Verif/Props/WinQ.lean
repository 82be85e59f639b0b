import Verif.Props.WinP

/-!
# `remove_all` on Windows whatever the operating system answers: C81, C82

Nothing is assumed of the operating system, except that the names it lists are names of files: other processes may change
the tree at any time.
-/

namespace Asap
namespace Spec

/-- `x` is `p` followed by names other than `.` and `..`, each after a backslash unless what comes before is empty or ends
with a separator or a colon. -/
inductive WinUnder (p : Str) : Str → Prop
  | here : WinUnder p p
  | sep {x w : Str} (h : WinUnder p x) (hw : PlainName w) (hd : ¬ dotName w) : WinUnder p (x ++ '\\' :: w)
  | join {x w : Str} (h : WinUnder p x) (hw : PlainName w) (hd : ¬ dotName w)
      (hx : x = [] ∨ ∃ y c, x = y ++ [c] ∧ (c = '\\' ∨ c = '/' ∨ c = ':')) : WinUnder p (x ++ w)

/-- The calls concern only paths under `p`; reparse points are opened without following them; a directory is listed only
when the calls just before saw that it is a directory and not a reparse point. -/
inductive WinWithin (p : Str) : List Event → Prop
  | nil : WinWithin p []
  | attrs (x : Str) (r : Except Errno Mask) (h : WinUnder p x) {t : List Event} :
    WinWithin p t → WinWithin p (⟨.win (.getAttrs x), r⟩ :: t)
  | perms (x : Str) (a : Mask) (r : Except Errno Mode) (h : WinUnder p x) {t : List Event} :
    WinWithin p t → WinWithin p (⟨.win (.getPerms x a), r⟩ :: t)
  | opened (x : Str) (o : WinOpen) (r : Except Errno Nat) (h : WinUnder p x) (ho : o.reparse = true) {t : List Event} :
    WinWithin p t → WinWithin p (⟨.win (.createFile x o), r⟩ :: t)
  | tag (d : Nat) (r : Except Errno (List (BitVec 16))) {t : List Event} :
    WinWithin p t → WinWithin p (⟨.win (.reparse d), r⟩ :: t)
  | closed (d : Nat) (r : Except Errno Unit) {t : List Event} :
    WinWithin p t → WinWithin p (⟨.win (.closeHandle d), r⟩ :: t)
  | enter (x : Str) (a : Mask) (m : Mode) (r : Except Errno (Nat × FindData)) (h : WinUnder p x)
      (hd : a.getLsbD 4 = true) (hr : a.getLsbD 10 = false) {t : List Event} :
    WinWithin p t → WinWithin p (⟨.win (.getAttrs x), (.ok a : Except Errno Mask)⟩ ::
      ⟨.win (.getPerms x a), (.ok m : Except Errno Mode)⟩ :: ⟨.win (.findFirst (searchText x)), r⟩ :: t)
  | next (d : Nat) (r : Except Errno FindData) {t : List Event} :
    WinWithin p t → WinWithin p (⟨.win (.findNext d), r⟩ :: t)
  | closedSearch (d : Nat) (r : Except Errno Unit) {t : List Event} :
    WinWithin p t → WinWithin p (⟨.win (.findClose d), r⟩ :: t)
  | last (r : Code) {t : List Event} : WinWithin p t → WinWithin p (⟨.win .lastError, r⟩ :: t)
  | rmdir (x : Str) (r : Except Errno Unit) (h : WinUnder p x) {t : List Event} :
    WinWithin p t → WinWithin p (⟨.win (.removeDirectory x), r⟩ :: t)
  | delete (x : Str) (r : Except Errno Unit) (h : WinUnder p x) {t : List Event} :
    WinWithin p t → WinWithin p (⟨.win (.deleteFile x), r⟩ :: t)

/-- Every listed name is `.`, `..` or the name of a file. -/
def winNamed : Event → Prop
  | ⟨.win (.findFirst _), .ok (_, ent)⟩ => dotName ent.name ∨ PlainName ent.name
  | ⟨.win (.findNext _), .ok ent⟩ => dotName ent.name ∨ PlainName ent.name
  | _ => True

/-- The error answered by a call, for the calls whose errors matter (the results of `CloseHandle` and `FindClose` do not). -/
def winErrorOf : Event → Option Errno
  | ⟨.win (.getAttrs _), .error e⟩ => some e
  | ⟨.win (.getPerms _ _), .error e⟩ => some e
  | ⟨.win (.createFile _ _), .error e⟩ => some e
  | ⟨.win (.reparse _), .error e⟩ => some e
  | ⟨.win (.findFirst _), .error e⟩ => some e
  | ⟨.win (.findNext _), .error e⟩ => some e
  | ⟨.win .lastError, c⟩ => c
  | ⟨.win (.removeDirectory _), .error e⟩ => some e
  | ⟨.win (.deleteFile _), .error e⟩ => some e
  | _ => none

/-- What a call removed. -/
def winRemoves : Event → Option Str
  | ⟨.win (.removeDirectory x), .ok _⟩ => some x
  | ⟨.win (.deleteFile x), .ok _⟩ => some x
  | _ => none

/-- The number of files removed. -/
def winRemoved (t : List Event) : Nat := t.countP fun ev => (winRemoves ev).isSome

/-- No call answered that a file is missing (2). -/
def WinNoneMissing (t : List Event) : Prop := ∀ ev ∈ t, ∀ e, winErrorOf ev = some e → e.winValue ≠ 2

/-- Some call answered this error; a refusal (5) may have been turned into `permission_denied`. -/
def WinSource (t : List Event) (e : Errno) : Prop :=
  ∃ ev ∈ t, ∃ e', winErrorOf ev = some e' ∧ (e = e' ∨ (e'.winValue = 5 ∧ e = .EACCES))

end Spec
open Spec
namespace Win

/-! ## Executions -/

/-- Every execution among listed names that are names satisfies `R`. -/
def Run {α : Type} (R : Except Stop α → List Event → Prop) (p : Prog α) : Prop :=
  ∀ t o, Exec p t o → (∀ ev ∈ t, winNamed ev) → R o t

theorem Run.ret {α : Type} {R : Except Stop α → List Event → Prop} {a : α} (h : R (.ok a) []) : Run R (.ret a) := by
  intro t o hx _
  obtain ⟨rfl, rfl⟩ := exec_ret.mp hx
  exact h

theorem Run.stop {α : Type} {R : Except Stop α → List Event → Prop} {x : Stop} (h : R (.error x) []) : Run R (.stop x) := by
  intro t o hx _
  obtain ⟨rfl, rfl⟩ := exec_stop.mp hx
  exact h

theorem Run.call {α : Type} {R : Except Stop α → List Event → Prop} {c : Sys} {k : c.Ret → Prog α}
    (h : ∀ r, winNamed ⟨c, r⟩ → Run (fun o t => R o (⟨c, r⟩ :: t)) (k r)) : Run R (.call c k) := by
  intro t o hx hn
  obtain ⟨r, t', rfl, h'⟩ := exec_call.mp hx
  exact h r (hn _ (by simp)) _ _ h' fun ev he => hn _ (by simp [he])

theorem Run.bind {α β : Type} {R1 : Except Stop α → List Event → Prop} {R : Except Stop β → List Event → Prop}
    {p : Prog α} {f : α → Prog β} (h1 : Run R1 p)
    (h2 : ∀ a t1, R1 (.ok a) t1 → Run (fun o t => R o (t1 ++ t)) (f a))
    (h3 : ∀ x t1, R1 (.error x) t1 → R (.error x) t1) : Run R (p.bind f) := by
  intro t o hx hn
  rcases exec_bind.mp hx with ⟨x, h, rfl⟩ | ⟨a, t1, t2, rfl, h, h'⟩
  · exact h3 _ _ (h1 _ _ h hn)
  · exact h2 _ _ (h1 _ _ h fun ev he => hn _ (by simp [he])) _ _ h' fun ev he => hn _ (by simp [he])

theorem Run.mono {α : Type} {R R' : Except Stop α → List Event → Prop} {p : Prog α} (h : Run R p)
    (hR : ∀ o t, R o t → R' o t) : Run R' p := fun t o hx hn => hR _ _ (h t o hx hn)

theorem _root_.Asap.Spec.WinWithin.append {p : Str} {t1 t2 : List Event} (h1 : WinWithin p t1) (h2 : WinWithin p t2) :
    WinWithin p (t1 ++ t2) := by
  induction h1 with
  | nil => exact h2
  | attrs x r h _ ih => exact .attrs x r h ih
  | perms x a r h _ ih => exact .perms x a r h ih
  | opened x o r h ho _ ih => exact .opened x o r h ho ih
  | tag d r _ ih => exact .tag d r ih
  | closed d r _ ih => exact .closed d r ih
  | enter x a m r h hd hr _ ih => exact .enter x a m r h hd hr ih
  | next d r _ ih => exact .next d r ih
  | closedSearch d r _ ih => exact .closedSearch d r ih
  | last r _ ih => exact .last r ih
  | rmdir x r h _ ih => exact .rmdir x r h ih
  | delete x r h _ ih => exact .delete x r h ih

theorem _root_.Asap.Spec.WinNoneMissing.append {t1 t2 : List Event} (h : WinNoneMissing (t1 ++ t2)) :
    WinNoneMissing t1 ∧ WinNoneMissing t2 :=
  ⟨fun ev h' => h ev (List.mem_append_left _ h'), fun ev h' => h ev (List.mem_append_right _ h')⟩

theorem _root_.Asap.Spec.WinSource.left {t1 t2 : List Event} {e : Errno} (h : WinSource t1 e) : WinSource (t1 ++ t2) e := by
  obtain ⟨ev, h1, h2⟩ := h; exact ⟨ev, by simp [h1], h2⟩

theorem _root_.Asap.Spec.WinSource.right {t1 t2 : List Event} {e : Errno} (h : WinSource t2 e) : WinSource (t1 ++ t2) e := by
  obtain ⟨ev, h1, h2⟩ := h; exact ⟨ev, by simp [h1], h2⟩

theorem winRemoved_append (t1 t2 : List Event) : winRemoved (t1 ++ t2) = winRemoved t1 + winRemoved t2 :=
  List.countP_append

/-- A path text below another. -/
theorem _root_.Asap.Spec.WinUnder.append {p s w : Str} (h : WinUnder p (mkPath .windows s).pathname) (hw : PlainName w) (hd : ¬ dotName w) :
    WinUnder p (mkPath .windows (winAppendText s w)).pathname ∧ (mkPath .windows (winAppendText s w)).pathname ≠ [] := by
  obtain ⟨w1, w2, w3, w4, w5, w6⟩ := hw.facts
  have hnm := (win_append_plain s hw).2.2.2.2.1
  have hp : (mkPath .windows (winAppendText s w)).pathname = winAppendText s w := win_pathname_named (by rw [hnm]; simp)
  have hr : winStoredRest w = w := by rw [(winStoredRest_facts w).2.2 (by rw [w1, w3]; simp), w1]
  refine ⟨?_, ?_⟩
  · rw [hp]
    unfold winAppendText
    rw [if_neg (by simp [w2]), hr, ← win_pathname]
    split
    · rw [List.append_assoc]
      exact .sep h hw hd
    · rename_i hc
      rw [List.append_nil]
      refine .join h hw hd ?_
      rw [win_pathname]
      have hf : winFile s = [] := Classical.byContradiction fun h => hc (.inl h)
      rcases winFile_nil_rest hf with h0 | h0
      · rw [h0, List.append_nil]
        by_cases hz : winRootLen s = 0
        · left
          rw [← List.length_eq_zero_iff, (winStoredRoot_facts s).2.1, hz]
        · right
          obtain ⟨q1, q2, q3⟩ := winStoredRoot_facts s
          have hroot := q3 hz
          generalize hrt : winStoredRoot s = rt at q2 hroot
          cases hroot with
          | drive a h => exact ⟨[a], ':', rfl, by simp⟩
          | _ =>
            exfalso
            apply hc
            right
            refine ⟨?_, by rw [winUnc, ← q2]; simp⟩
            rw [← (winStoredRest_facts s).2.1, h0]
            rfl
      · right
        rcases List.eq_nil_or_concat (winStoredRest s) with h1 | ⟨y, c, h1⟩
        · rw [h1] at h0; cases h0
        · refine ⟨winStoredRoot s ++ y, c, by rw [h1]; simp, ?_⟩
          rw [h1] at h0
          have : winSep c = true := by simpa [winEndsSep] using h0
          simp only [winSep] at this
          grind
  · rw [hp]
    intro h0
    rw [h0] at hnm
    simp [winTail, winRootLen, winNames, winPieces] at hnm

/-- An open stream at an entry under `p`. -/
structure Here (p : Str) (s : Stream) : Prop where
  handle : ∃ d, s.handle = some d
  root : ∃ r, s.root = mkPath .windows r ∧ WinUnder p s.root.pathname
  path : ∃ u, s.entry.path = mkPath .windows u
  under : WinUnder p s.entry.path.pathname
  named : s.entry.path.pathname ≠ []

/-- The stream can be put at a listed entry. -/
structure Ready (p : Str) (s : Stream) : Prop where
  handle : ∃ d, s.handle = some d
  root : ∃ r, s.root = mkPath .windows r ∧ WinUnder p s.root.pathname

theorem Here.ready {p : Str} {s : Stream} (h : Here p s) : Ready p s := ⟨h.handle, h.root⟩

theorem here_setEntry {p : Str} {s : Stream} (hs : Ready p s) {ent : FindData} (hn : dotName ent.name ∨ PlainName ent.name)
    (hd : ¬ dotName ent.name) : ∃ s', setEntry s ent = .ret s' ∧ Here p s' := by
  obtain ⟨r, hr, hu⟩ := hs.root
  have hw : PlainName ent.name := hn.resolve_left hd
  refine ⟨_, setEntry_plain hr hw, hs.handle, ⟨r, hr, hu⟩, ⟨_, rfl⟩, ?_, ?_⟩
  · exact (WinUnder.append (hr ▸ hu) hw hd).1
  · exact (WinUnder.append (hr ▸ hu) hw hd).2

def AdvR (p : Str) (o : Except Stop (Bool × Stream × Code)) (t : List Event) : Prop :=
  WinWithin p t ∧ winRemoved t = 0 ∧
    (o = .error .fuel ∨ (∃ s', o = .ok (true, s', none) ∧ Here p s') ∨
     (∃ s' c, o = .ok (false, s', c) ∧ ∀ e, c = some e → WinSource t e))

theorem run_advance {p : Str} {n : Nat} {s : Stream} (hs : Ready p s) : Run (AdvR p) (Stream.advance n s) := by
  obtain ⟨d, hd⟩ := hs.handle
  induction n with
  | zero => exact .stop ⟨.nil, rfl, .inl rfl⟩
  | succ n ih =>
    unfold Stream.advance
    rw [hd]
    refine .call fun r hn => ?_
    rcases r with e | ent
    · dsimp only
      unfold Stream.close
      rw [hd]
      simp only [Prog.call_bind, Prog.ret_bind]
      refine .call fun c _ => .ret ⟨.next d _ (.closedSearch d _ .nil), rfl, .inr (.inr ⟨_, _, rfl, ?_⟩)⟩
      intro e' h
      split at h
      · cases h
      · cases h; exact ⟨_, List.mem_cons_self, e, rfl, .inl rfl⟩
    · dsimp only
      split <;> rename_i hdot
      · refine ih.mono fun o t h => ⟨.next d _ h.1, h.2.1, ?_⟩
        rcases h.2.2 with h | h | ⟨s', c, h1, h2⟩
        · exact .inl h
        · exact .inr (.inl h)
        · exact .inr (.inr ⟨s', c, h1, fun e h => WinSource.right (t1 := [_]) (h2 e h)⟩)
      · obtain ⟨s', h1, h2⟩ := here_setEntry hs hn (fun h => hdot ((isDots_iff _).mpr h))
        rw [h1, Prog.ret_bind]
        exact .ret ⟨.next d _ .nil, rfl, .inr (.inl ⟨s', rfl, h2⟩)⟩

def SkipR (p : Str) (o : Except Stop (Option FindData)) (t : List Event) : Prop :=
  WinWithin p t ∧ winRemoved t = 0 ∧
    (o = .error .fuel ∨ o = .ok none ∨
     ∃ ent, o = .ok (some ent) ∧ ¬ dotName ent.name ∧ PlainName ent.name)

theorem run_skipDots {p : Str} {n d : Nat} {ent : FindData} (hn : dotName ent.name ∨ PlainName ent.name) :
    Run (SkipR p) (skipDots d n ent) := by
  induction n generalizing ent with
  | zero => exact .stop ⟨.nil, rfl, .inl rfl⟩
  | succ n ih =>
    unfold skipDots
    split <;> rename_i hdot
    · refine .call fun r hr => ?_
      rcases r with e | ent'
      · exact .call fun c _ => .ret ⟨.next d _ (.closedSearch d _ .nil), rfl, .inr (.inl rfl)⟩
      · exact (ih hr).mono fun o t h => ⟨.next d _ h.1, h.2.1, h.2.2⟩
    · have hd : ¬ dotName ent.name := fun h => hdot ((isDots_iff _).mpr h)
      exact .ret ⟨.nil, rfl, .inr (.inr ⟨ent, rfl, hd, hn.resolve_left hd⟩)⟩

/-- What opening a directory does: the first call lists it, the others are harmless. -/
def NewR (p x : Str) (o : Except Stop (DirIter × EcArg)) (t : List Event) : Prop :=
  ∃ r t', t = (⟨.win (.findFirst (searchText x)), r⟩ : Event) :: t' ∧ WinWithin p t' ∧ winRemoved t = 0 ∧
    (o = .error .fuel ∨ (∃ s, o = .ok (some s, .ref none) ∧ Here p s) ∨
     (∃ c, o = .ok (none, .ref c) ∧ ∀ e, c = some e → WinSource t e))

theorem openError_source {c : Code} {t : List Event} (h : ∀ e, c = some e → ∃ ev ∈ t, winErrorOf ev = some e) {e : Errno}
    (he : openError .none c = some e) : WinSource t e := by
  cases c with
  | none => cases he
  | some e' =>
    obtain ⟨ev, h1, h2⟩ := h e' rfl
    unfold openError at he
    dsimp only at he
    split at he <;> rename_i h5
    · rw [if_neg (by decide)] at he
      cases he
      exact ⟨ev, h1, e', h2, .inr ⟨h5, rfl⟩⟩
    · split at he
      · cases he
      · cases he
        exact ⟨ev, h1, e, h2, .inl rfl⟩

theorem run_dirNew {p s : Str} {n : Nat} {c : Code} (hu : WinUnder p (mkPath .windows s).pathname) :
    Run (NewR p (mkPath .windows s).pathname) (DirIter.new n (mkPath .windows s) .none (.ref c)) := by
  have fin : ∀ (m : Code) (t : List Event), (∀ e, m = some e → ∃ ev ∈ t, winErrorOf ev = some e) →
      Run (fun o t' => t' = [] ∧ ∃ c, o = .ok (none, .ref c) ∧ ∀ e, c = some e → WinSource t e)
        ((match openError .none m with
          | some e => ((Handler.report ⟨"directory_iterator::directory_iterator(...)".toList, some (mkPath .windows s), none⟩ (EcArg.ref (openError .none m)) (some e) ()).bind fun y => .ret ((none : DirIter), y.2))
          | none => .ret ((none : DirIter), EcArg.ref (openError .none m))) : Prog (DirIter × EcArg)) := by
    intro m t hm
    cases ho : openError .none m with
    | none => exact .ret ⟨rfl, none, rfl, by simp⟩
    | some e =>
      refine .ret ⟨rfl, some e, rfl, ?_⟩
      rintro e' ⟨⟩
      exact openError_source hm ho
  unfold DirIter.new Stream.new
  rw [pattern_text]
  simp only [Prog.call_bind, clear_ref]
  refine .call fun r hn => ?_
  rcases r with e | ⟨d, ent⟩
  · simp only [Prog.ret_bind, assign_ref]
    refine (fin (some e) [⟨.win (.findFirst (searchText (mkPath .windows s).pathname)), .error e⟩] ?_).mono ?_
    · rintro e' ⟨⟩; exact ⟨_, List.mem_singleton.mpr rfl, rfl⟩
    · rintro o t ⟨rfl, c, rfl, h⟩
      exact ⟨_, [], rfl, .nil, rfl, .inr (.inr ⟨c, rfl, h⟩)⟩
  · rw [Prog.bind_assoc]
    refine .bind (run_skipDots (p := p) hn) ?_ ?_
    · rintro a t1 ⟨h1, h2, h | h | ⟨ent', h, h3, h4⟩⟩
      · cases h
      · cases h
        simp only [Prog.call_bind]
        refine .call fun last _ => ?_
        simp only [Prog.ret_bind, assign_ref]
        refine (fin last [⟨.win .lastError, last⟩] ?_).mono ?_
        · intro e' h; exact ⟨_, List.mem_singleton.mpr rfl, h⟩
        · rintro o t ⟨rfl, c, rfl, h⟩
          refine ⟨_, _, rfl, WinWithin.append h1 (.last _ .nil), ?_, .inr (.inr ⟨c, rfl, fun e he => ?_⟩)⟩
          · show winRemoved (t1 ++ [_]) = 0
            rw [winRemoved_append, h2]; rfl
          · exact WinSource.right (t1 := _ :: t1) (h e he)
      · cases h
        obtain ⟨s', g1, g2⟩ := here_setEntry (p := p) (s := ⟨some d, mkPath .windows s, .default⟩) ⟨⟨d, rfl⟩, s, rfl, hu⟩ (.inr h4) h3
        simp only [g1, Prog.ret_bind]
        obtain ⟨d', hd'⟩ := g2.handle
        rw [if_neg (by simp [Stream.good, hd'])]
        refine .ret ⟨_, t1, by rw [List.append_nil], h1, by rw [List.append_nil]; exact h2, .inr (.inl ⟨s', rfl, g2⟩)⟩
    · rintro x t1 ⟨h1, h2, h | h | ⟨ent', h, _⟩⟩
      · cases h
        exact ⟨_, t1, rfl, h1, h2, .inl rfl⟩
      · cases h
      · cases h

def IncrR (p : Str) (o : Except Stop (DirIter × EcArg)) (t : List Event) : Prop :=
  WinWithin p t ∧ winRemoved t = 0 ∧
    (o = .error .fuel ∨ (∃ s, o = .ok (some s, .ref none) ∧ Here p s) ∨
     (∃ c, o = .ok (none, .ref c) ∧ ∀ e, c = some e → WinSource t e))

theorem run_incr {p : Str} {n : Nat} {s : Stream} {c : Code} (hs : Ready p s) :
    Run (IncrR p) (DirIter.incr n (some s) (.ref c)) := by
  unfold DirIter.incr
  refine .bind (run_advance hs) ?_ ?_
  · rintro a t1 ⟨h1, h2, h | ⟨s', h, h3⟩ | ⟨s', c, h, h3⟩⟩
    · cases h
    · cases h
      exact .ret ⟨by rw [List.append_nil]; exact h1, by rw [List.append_nil]; exact h2, .inr (.inl ⟨s', rfl, h3⟩)⟩
    · cases h
      cases c with
      | none => exact .ret ⟨by rw [List.append_nil]; exact h1, by rw [List.append_nil]; exact h2, .inr (.inr ⟨none, rfl, by simp⟩)⟩
      | some e =>
        exact .ret ⟨by rw [List.append_nil]; exact h1, by rw [List.append_nil]; exact h2,
          .inr (.inr ⟨some e, rfl, by rw [List.append_nil]; exact h3⟩)⟩
  · rintro x t1 ⟨h1, h2, h | ⟨s', h, _⟩ | ⟨s', c, h, _⟩⟩
    · cases h; exact ⟨h1, h2, .inl rfl⟩
    · cases h
    · cases h

/-- What `symlink_status` does. -/
def StatR (p x : Str) (o : Except Stop (FStatus × EcArg)) (t : List Event) : Prop :=
  ∃ st m, o = .ok (st, .ref m) ∧ WinWithin p t ∧ winRemoved t = 0 ∧ (∀ e, m = some e → WinSource t e) ∧
    (m = none → st.isDirectory = true → ∃ (a : Mask) (prm : Mode), a.getLsbD 4 = true ∧ a.getLsbD 10 = false ∧
      t = [⟨.win (.getAttrs x), (.ok a : Except Errno Mask)⟩, ⟨.win (.getPerms x a), (.ok prm : Except Errno Mode)⟩])

theorem statusFailure_source {e : Errno} {t : List Event} (h : ∃ ev ∈ t, winErrorOf ev = some e) (c : Code) :
    ∃ st e', processStatusFailure e (.ref c) = (st, .ref (some e')) ∧ WinSource t e' := by
  obtain ⟨ev, h1, h2⟩ := h
  unfold processStatusFailure
  split
  · exact ⟨_, e, rfl, ev, h1, e, h2, .inl rfl⟩
  · split
    · exact ⟨_, e, rfl, ev, h1, e, h2, .inl rfl⟩
    · split <;> rename_i h5
      · exact ⟨_, .EACCES, rfl, ev, h1, e, h2, .inr ⟨h5, rfl⟩⟩
      · exact ⟨_, e, rfl, ev, h1, e, h2, .inl rfl⟩

theorem run_symlinkStatus {p : Str} {q : Path} {c : Code} (hu : WinUnder p q.pathname) :
    Run (StatR p q.pathname) (symlinkStatus q (.ref c)) := by
  unfold symlinkStatus
  simp only [clear_ref]
  refine .call fun r _ => ?_
  rcases r with e | a
  · obtain ⟨st, e', h1, h2⟩ := statusFailure_source (t := [⟨.win (.getAttrs q.pathname), .error e⟩]) ⟨_, List.mem_singleton.mpr rfl, rfl⟩ none
    dsimp only
    rw [h1]
    exact .ret ⟨st, some e', rfl, .attrs _ _ hu .nil, rfl, by rintro _ ⟨⟩; exact h2, by simp⟩
  · refine .call fun r _ => ?_
    rcases r with e | prm
    · obtain ⟨st, e', h1, h2⟩ := statusFailure_source (t := [⟨.win (.getAttrs q.pathname), .ok a⟩, ⟨.win (.getPerms q.pathname a), .error e⟩])
        ⟨_, List.mem_cons_of_mem _ (List.mem_singleton.mpr rfl), rfl⟩ none
      dsimp only
      rw [h1]
      exact .ret ⟨st, some e', rfl, .attrs _ _ hu (.perms _ _ _ hu .nil), rfl, by rintro _ ⟨⟩; exact h2, by simp⟩
    · dsimp only
      split <;> rename_i hrep
      · unfold isReparsePointSymlink withFile
        simp only [Prog.call_bind, clear_ref]
        refine .call fun r _ => ?_
        rcases r with e | h
        · refine .ret ⟨_, some e, rfl, .attrs _ _ hu (.perms _ _ _ hu (.opened _ _ _ hu rfl .nil)), rfl, ?_, by simp⟩
          rintro _ ⟨⟩
          exact ⟨_, List.mem_cons_of_mem _ (List.mem_cons_of_mem _ (List.mem_singleton.mpr rfl)), e, rfl, .inl rfl⟩
        · simp only [Prog.finally', closeHandle, Prog.call_bind]
          refine .call fun r _ => ?_
          rcases r with e | ws
          · refine .call fun r _ => .ret ⟨_, some e, rfl, .attrs _ _ hu (.perms _ _ _ hu (.opened _ _ _ hu rfl (.tag _ _ (.closed _ _ .nil)))), rfl, ?_, by simp⟩
            rintro _ ⟨⟩
            exact ⟨_, List.mem_cons_of_mem _ (List.mem_cons_of_mem _ (List.mem_cons_of_mem _ List.mem_cons_self)), e, rfl, .inl rfl⟩
          · refine .call fun r _ => .ret ⟨_, none, rfl, .attrs _ _ hu (.perms _ _ _ hu (.opened _ _ _ hu rfl (.tag _ _ (.closed _ _ .nil)))), rfl, by simp, ?_⟩
            intro _ hd
            simp only [FStatus.isDirectory] at hd
            split at hd <;> cases hd
      · refine .ret ⟨_, none, rfl, .attrs _ _ hu (.perms _ _ _ hu .nil), rfl, by simp, ?_⟩
        intro _ hd
        refine ⟨a, prm, ?_, ?_, rfl⟩
        · rw [← has_directory]
          simp only [FStatus.isDirectory] at hd
          split at hd
          · assumption
          · cases hd
        · rw [← has_reparse]; simpa using hrep

/-- What `remove` does. -/
def RemR (p x : Str) (o : Except Stop (Bool × EcArg)) (t : List Event) : Prop :=
  ∃ b m, o = .ok (b, .ref m) ∧ WinWithin p t ∧ (∀ e, m = some e → WinSource t e) ∧
    (m = none → WinNoneMissing t → b = true ∧ ∃ t' ev, t = t' ++ [ev] ∧ winRemoved t' = 0 ∧ winRemoves ev = some x)

theorem run_remove {p : Str} {q : Path} {c : Code} (hu : WinUnder p q.pathname) (hne : q.pathname ≠ []) :
    Run (RemR p q.pathname) (remove q (.ref c)) := by
  unfold remove
  have : q.isEmpty = false := by simp [Path.isEmpty, hne]
  simp only [clear_ref, this, Bool.false_eq_true, if_false]
  refine .call fun r _ => ?_
  rcases r with e | a
  · dsimp only
    split <;> rename_i he
    · refine .ret ⟨false, none, rfl, .attrs _ _ hu .nil, by simp, fun _ h => ?_⟩
      exact absurd he (h _ (List.mem_singleton.mpr rfl) e rfl)
    · refine .ret ⟨false, some e, rfl, .attrs _ _ hu .nil, ?_, by simp⟩
      rintro _ ⟨⟩
      exact ⟨_, List.mem_singleton.mpr rfl, e, rfl, .inl rfl⟩
  · dsimp only
    split
    · refine .call fun r _ => ?_
      rcases r with e | _
      · dsimp only
        split <;> rename_i he
        · refine .ret ⟨false, some e, rfl, .attrs _ _ hu (.rmdir _ _ hu .nil), ?_, by simp⟩
          rintro _ ⟨⟩
          exact ⟨_, List.mem_cons_of_mem _ (List.mem_singleton.mpr rfl), e, rfl, .inl rfl⟩
        · refine .ret ⟨true, none, rfl, .attrs _ _ hu (.rmdir _ _ hu .nil), by simp, fun _ h => ?_⟩
          exact absurd (Classical.not_not.mp he) (h _ (List.mem_cons_of_mem _ (List.mem_singleton.mpr rfl)) e rfl)
      · exact .ret ⟨true, none, rfl, .attrs _ _ hu (.rmdir _ _ hu .nil), by simp, fun _ _ => ⟨rfl, [_], _, rfl, rfl, rfl⟩⟩
    · refine .call fun r _ => ?_
      rcases r with e | _
      · dsimp only
        split <;> rename_i he
        · refine .ret ⟨false, some e, rfl, .attrs _ _ hu (.delete _ _ hu .nil), ?_, by simp⟩
          rintro _ ⟨⟩
          exact ⟨_, List.mem_cons_of_mem _ (List.mem_singleton.mpr rfl), e, rfl, .inl rfl⟩
        · refine .ret ⟨true, none, rfl, .attrs _ _ hu (.delete _ _ hu .nil), by simp, fun _ h => ?_⟩
          exact absurd (Classical.not_not.mp he) (h _ (List.mem_cons_of_mem _ (List.mem_singleton.mpr rfl)) e rfl)
      · exact .ret ⟨true, none, rfl, .attrs _ _ hu (.delete _ _ hu .nil), by simp, fun _ _ => ⟨rfl, [_], _, rfl, rfl, rfl⟩⟩

/-- What removing a tree does. -/
def TreeR (p x : Str) (o : Except Stop (BitVec 64 × Code)) (t : List Event) : Prop :=
  WinWithin p t ∧ (o = .error .fuel ∨ ∃ cnt m, o = .ok (cnt, m) ∧ (∀ e, m = some e → WinSource t e) ∧
    (m = none → WinNoneMissing t → cnt = BitVec.ofNat 64 (winRemoved t) ∧
      ∃ t' ev, t = t' ++ [ev] ∧ winRemoves ev = some x))

/-- What removing the contents of a directory does. -/
def LoopR (p : Str) (cnt : BitVec 64) (o : Except Stop (BitVec 64 × Code)) (t : List Event) : Prop :=
  WinWithin p t ∧ (o = .error .fuel ∨ ∃ cnt' m, o = .ok (cnt', m) ∧ (∀ e, m = some e → WinSource t e) ∧
    (m = none → WinNoneMissing t → cnt' = cnt + BitVec.ofNat 64 (winRemoved t)))

theorem run_removeLoop {p : Str} {f : Path → Prog (BitVec 64 × Code)}
    (hf : ∀ u, WinUnder p (mkPath .windows u).pathname → (mkPath .windows u).pathname ≠ [] →
      Run (TreeR p (mkPath .windows u).pathname) (f (mkPath .windows u)))
    {n : Nat} {it : DirIter} {cnt : BitVec 64} (hit : ∀ s, it = some s → Here p s) :
    Run (LoopR p cnt) (removeLoop f n it cnt) := by
  induction n generalizing it cnt with
  | zero => exact .stop ⟨.nil, .inl rfl⟩
  | succ n ih =>
    cases it with
    | none => exact .ret ⟨.nil, .inr ⟨cnt, none, rfl, by simp, fun _ _ => by simp [winRemoved]⟩⟩
    | some s =>
      have hs := hit s rfl
      obtain ⟨u, hq⟩ := hs.path
      have hu := hs.under
      have hne := hs.named
      unfold removeLoop
      rw [hq] at hu hne ⊢
      refine .bind (hf u hu hne) ?_ ?_
      · rintro ⟨other, m⟩ t1 ⟨h1, h | ⟨cnt1, m1, h, h2, h3⟩⟩
        · cases h
        cases h
        dsimp only
        split <;> rename_i hm
        · obtain ⟨d, hd⟩ := hs.handle
          unfold destroy Stream.close
          dsimp only
          rw [hd]
          refine .call fun r _ => .ret ⟨WinWithin.append h1 (.closedSearch d r .nil), .inr ⟨_, _, rfl, fun e he => (h2 e he).left, fun h => absurd h hm⟩⟩
        · have hm' : m = none := by simpa using hm
          subst hm'
          refine .bind (run_incr hs.ready) ?_ ?_
          · rintro ⟨it', ec⟩ t2 ⟨g1, g2, h | ⟨s', h, g3⟩ | ⟨c, h, g3⟩⟩
            · cases h
            · cases h
              refine (ih (it := some s') (by rintro _ ⟨⟩; exact g3)).mono ?_
              rintro o t ⟨k1, h | ⟨cnt', m', h, k2, k3⟩⟩
              · exact ⟨WinWithin.append h1 (WinWithin.append g1 k1), .inl h⟩
              · refine ⟨WinWithin.append h1 (WinWithin.append g1 k1), .inr ⟨cnt', m', h, fun e he => (k2 e he).right.right, fun hm hn => ?_⟩⟩
                rw [k3 hm hn.append.2.append.2, (h3 rfl hn.append.1).1, winRemoved_append, winRemoved_append, g2, Nat.zero_add, BitVec.ofNat_add, BitVec.add_assoc]
            · cases h
              cases c with
              | some e =>
                exact .ret ⟨WinWithin.append h1 (WinWithin.append g1 .nil), .inr ⟨_, _, rfl, fun e' he => by cases he; exact (g3 e rfl).left.right, by simp⟩⟩
              | none =>
                refine (ih (it := none) (by simp)).mono ?_
                rintro o t ⟨k1, h | ⟨cnt', m', h, k2, k3⟩⟩
                · exact ⟨WinWithin.append h1 (WinWithin.append g1 k1), .inl h⟩
                · refine ⟨WinWithin.append h1 (WinWithin.append g1 k1), .inr ⟨cnt', m', h, fun e he => (k2 e he).right.right, fun hm hn => ?_⟩⟩
                  rw [k3 hm hn.append.2.append.2, (h3 rfl hn.append.1).1, winRemoved_append, winRemoved_append, g2, Nat.zero_add, BitVec.ofNat_add, BitVec.add_assoc]
          · rintro x t2 ⟨g1, g2, h | ⟨s', h, g3⟩ | ⟨c, h, g3⟩⟩
            · cases h; exact ⟨WinWithin.append h1 g1, .inl rfl⟩
            · cases h
            · cases h
      · rintro x t1 ⟨h1, h | ⟨cnt1, m1, h, _⟩⟩
        · cases h; exact ⟨h1, .inl rfl⟩
        · cases h

theorem run_doRemoveAll {p : Str} {n : Nat} : ∀ u, WinUnder p (mkPath .windows u).pathname → (mkPath .windows u).pathname ≠ [] →
    Run (TreeR p (mkPath .windows u).pathname) (doRemoveAll n (mkPath .windows u)) := by
  induction n with
  | zero => exact fun u _ _ => .stop ⟨.nil, .inl rfl⟩
  | succ n ih =>
    intro u hu hne
    unfold doRemoveAll
    -- the last step
    have last : ∀ (cnt : BitVec 64) (t1 : List Event), WinWithin p t1 → (WinNoneMissing t1 → cnt = 1 + BitVec.ofNat 64 (winRemoved t1)) →
        Run (fun o t => TreeR p (mkPath .windows u).pathname o (t1 ++ t))
          ((remove (mkPath .windows u) (.ref none)).bind fun z =>
            if !z.1 then .ret (umaxErr, z.2.code) else .ret (cnt, z.2.code)) := by
      intro cnt t1 ht1 hcnt
      refine .bind (run_remove hu hne) ?_ ?_
      · rintro _ t2 ⟨b, m, ⟨⟩, h1, h2, h3⟩
        dsimp only
        split <;> rename_i hb
        · refine .ret ⟨by rw [List.append_nil]; exact WinWithin.append ht1 h1, .inr ⟨_, m, rfl, ?_, ?_⟩⟩
          · rw [List.append_nil]; exact fun e he => (h2 e he).right
          · rw [List.append_nil]
            intro hm hn
            rw [(h3 hm hn.append.2).1] at hb
            cases hb
        · refine .ret ⟨by rw [List.append_nil]; exact WinWithin.append ht1 h1, .inr ⟨_, m, rfl, ?_, ?_⟩⟩
          · rw [List.append_nil]; exact fun e he => (h2 e he).right
          · rw [List.append_nil]
            intro hm hn
            obtain ⟨-, t', ev, rfl, g1, g2⟩ := h3 hm hn.append.2
            refine ⟨?_, t1 ++ t', ev, by rw [List.append_assoc], g2⟩
            rw [hcnt hn.append.1, winRemoved_append, winRemoved_append, g1, BitVec.add_comm]
            have : winRemoved [ev] = 1 := by simp [winRemoved, g2]
            rw [this, BitVec.ofNat_add]
            rfl
      · rintro x t2 ⟨b, m, h, _⟩
        cases h
    refine .bind (run_symlinkStatus hu) ?_ ?_
    · rintro _ t1 ⟨st, m, ⟨⟩, h1, h2, h3, h4⟩
      dsimp only
      cases m with
      | some e => exact .ret ⟨by rw [List.append_nil]; exact h1, .inr ⟨_, some e, rfl, by rw [List.append_nil]; exact h3, by simp⟩⟩
      | none =>
        rw [if_neg (by simp [EcArg.isSet])]
        split <;> rename_i hdir
        · obtain ⟨a, prm, ha, hr, rfl⟩ := h4 rfl hdir
          rw [Prog.bind_assoc]
          refine .bind (run_dirNew hu) ?_ ?_
          · rintro ⟨it, ec⟩ t2 ⟨r, t2', rfl, g1, g2, hit⟩
            have hpre := WinWithin.enter (mkPath .windows u).pathname a prm r hu ha hr g1
            have hloop : ∀ it : DirIter, (∀ s, it = some s → Here p s) → Run (fun o t => TreeR p (mkPath .windows u).pathname o
                ([⟨.win (.getAttrs (mkPath .windows u).pathname), (.ok a : Except Errno Mask)⟩,
                  ⟨.win (.getPerms (mkPath .windows u).pathname a), (.ok prm : Except Errno Mode)⟩] ++
                  ((⟨.win (.findFirst (searchText (mkPath .windows u).pathname)), r⟩ :: t2') ++ t)))
                ((removeLoop (doRemoveAll n) n it 1).bind fun (y : BitVec 64 × Code) =>
                  if y.2 ≠ none then .ret (umaxErr, y.2)
                  else (remove (mkPath .windows u) (.ref none)).bind fun z =>
                    if !z.1 then .ret (umaxErr, z.2.code) else .ret (y.1, z.2.code)) := by
              intro it hit
              refine .bind (run_removeLoop (p := p) ih hit) ?_ ?_
              · rintro ⟨cnt, m⟩ t3 ⟨k1, h | ⟨cnt', m', h, k2, k3⟩⟩
                · cases h
                cases h
                dsimp only
                have hpre' := hpre.append k1
                cases m with
                | some e =>
                  rw [if_pos (by simp)]
                  refine .ret ⟨by simpa using hpre', .inr ⟨_, some e, rfl, fun e' he => ?_, by simp⟩⟩
                  rw [List.append_nil]
                  exact (k2 e' he).right.right
                | none =>
                  rw [if_neg (by simp)]
                  refine (last cnt _ hpre' fun hn => ?_).mono fun o t h => by simpa using h
                  rw [k3 rfl hn.append.2, winRemoved_append]
                  show _ = 1 + BitVec.ofNat 64 (winRemoved (⟨.win (.findFirst (searchText (mkPath .windows u).pathname)), r⟩ :: t2') + _)
                  rw [g2, Nat.zero_add]
              · rintro x t3 ⟨k1, h | ⟨cnt', m', h, _⟩⟩
                · cases h
                  exact ⟨by simpa using hpre.append k1, .inl rfl⟩
                · cases h
            rcases hit with h | ⟨s, h, g3⟩ | ⟨c, h, g3⟩
            · cases h
            · cases h
              exact hloop (some s) (by rintro _ ⟨⟩; exact g3)
            · cases h
              cases c with
              | some e =>
                refine .ret ⟨by simpa using hpre, .inr ⟨_, some e, rfl, fun e' he => ?_, by simp⟩⟩
                rw [List.append_nil]
                exact (g3 e' he).right
              | none => exact hloop none (by simp)
          · rintro x t2 ⟨r, t2', rfl, g1, g2, h | ⟨s, h, _⟩ | ⟨c, h, _⟩⟩
            · cases h
              exact ⟨.enter _ _ _ _ hu ha hr g1, .inl rfl⟩
            · cases h
            · cases h
        · exact last _ t1 h1 fun _ => by rw [h2]; rfl
    · rintro x t1 ⟨st, m, h, _⟩
      cases h

/-- What `remove_all` does. -/
def AllR (p : Str) (o : Except Stop (BitVec 64 × EcArg)) (t : List Event) : Prop :=
  WinWithin p t ∧ (o = .error .fuel ∨ ∃ cnt m, o = .ok (cnt, .ref m) ∧
    (∀ e, m = some e → cnt = BitVec.allOnes 64 ∧ WinSource t e) ∧
    (m = none → WinNoneMissing t → cnt = BitVec.ofNat 64 (winRemoved t) ∧
      ∃ t' ev, t = t' ++ [ev] ∧ winRemoves ev = some p))

theorem run_removeAll {n : Nat} {u : Str} {c : Code} (hne : (mkPath .windows u).pathname ≠ []) :
    Run (AllR (mkPath .windows u).pathname) (removeAll n (mkPath .windows u) (.ref c)) := by
  unfold removeAll
  have : (mkPath .windows u).isEmpty = false := by simp [Path.isEmpty, hne]
  simp only [clear_ref, this, Bool.false_eq_true, if_false]
  refine .bind (run_doRemoveAll u .here hne) ?_ ?_
  · rintro ⟨cnt, m⟩ t1 ⟨h1, h | ⟨cnt', m', h, h2, h3⟩⟩
    · cases h
    cases h
    cases m with
    | none => exact .ret ⟨by rw [List.append_nil]; exact h1, .inr ⟨cnt, none, rfl, by simp, by rw [List.append_nil]; exact h3⟩⟩
    | some e =>
      dsimp only
      split <;> rename_i he
      · refine .ret ⟨by rw [List.append_nil]; exact h1, .inr ⟨_, none, rfl, by simp, ?_⟩⟩
        rw [List.append_nil]
        intro _ hn
        exfalso
        obtain ⟨ev, g1, e', g2, rfl | ⟨g3, rfl⟩⟩ := h2 e rfl
        · exact hn ev g1 e g2 he
        · exact absurd he (by decide)
      · refine .ret ⟨by rw [List.append_nil]; exact h1, .inr ⟨_, some e, rfl, ?_, by simp⟩⟩
        rintro _ ⟨⟩
        rw [List.append_nil]
        exact ⟨rfl, h2 e rfl⟩
  · rintro x t1 ⟨h1, h | ⟨cnt, m, h, _⟩⟩
    · cases h; exact ⟨h1, .inl rfl⟩
    · cases h

end Win
open Win

/-- C81. Whatever the operating system answers, also when other processes interfere, `remove_all` on Windows examines,
lists and removes only `p` and paths that extend `p` by names the system listed, and lists a directory only when the calls
just before saw that it is a directory and not a reparse point. -/
theorem c81_within {n : Nat} {u : Str} {c : Code} {t : List Event} {o : Except Stop (BitVec 64 × EcArg)}
    (hn : ∀ ev ∈ t, winNamed ev) (hx : Exec (Win.removeAll n (mkPath .windows u) (.ref c)) t o) :
    WinWithin (mkPath .windows u).pathname t := by
  by_cases hne : (mkPath .windows u).pathname = []
  · unfold Win.removeAll at hx
    rw [if_pos (by simp [Path.isEmpty, hne])] at hx
    obtain ⟨rfl, -⟩ := exec_ret.mp hx
    exact .nil
  · exact (run_removeAll hne t o hx hn).1

/-- C82, in part. `remove_all` on Windows, whatever the operating system answers. If no error is reported and no call
answered that a file is missing, then the last call removed `p`, and the result is the number of files removed (modulo
2^64). A reported error is one that some call answered, or `permission_denied` for a refusal, and then the result is -1.
The part about missing files is false: `c82_violated`. -/
theorem c82_partial {n : Nat} {u : Str} (hne : (mkPath .windows u).pathname ≠ []) {c : Code} {t : List Event}
    {cnt : BitVec 64} {m : EcArg} (hn : ∀ ev ∈ t, winNamed ev)
    (hx : Exec (Win.removeAll n (mkPath .windows u) (.ref c)) t (.ok (cnt, m))) :
    (m = .ref none → WinNoneMissing t → cnt = BitVec.ofNat 64 (winRemoved t) ∧
      ∃ t' ev, t = t' ++ [ev] ∧ winRemoves ev = some (mkPath .windows u).pathname) ∧
    (∀ e, m = .ref (some e) → cnt = BitVec.allOnes 64 ∧ WinSource t e) := by
  obtain ⟨-, h | ⟨cnt', m', h, h1, h2⟩⟩ := run_removeAll hne t _ hx hn
  · cases h
  · cases h
    exact ⟨fun h => h2 (by cases h; rfl), fun e h => h1 e (by cases h; rfl)⟩

/-- A directory with one file. -/
def Spec.winRemoveRun : List Event :=
  [⟨.win (.getAttrs "d".toList), .ok 0x10#32⟩, ⟨.win (.getPerms "d".toList 0x10#32), .ok 0o777⟩,
   ⟨.win (.findFirst "d\\*".toList), .ok (3, ⟨".".toList, 0x10#32, 0⟩)⟩, ⟨.win (.findNext 3), .ok ⟨"x".toList, 0x20#32, 0⟩⟩,
   ⟨.win (.getAttrs "d\\x".toList), .ok 0x20#32⟩, ⟨.win (.getPerms "d\\x".toList 0x20#32), .ok 0o666⟩,
   ⟨.win (.getAttrs "d\\x".toList), .ok 0x20#32⟩, ⟨.win (.deleteFile "d\\x".toList), .ok ()⟩,
   ⟨.win (.findNext 3), .error (.ofWin 18)⟩, ⟨.win (.findClose 3), .ok ()⟩,
   ⟨.win (.getAttrs "d".toList), .ok 0x10#32⟩, ⟨.win (.removeDirectory "d".toList), .ok ()⟩]

/-- It is removed. -/
example : Exec (Win.removeAll 9 (mkPath .windows "d".toList) (.ref none)) winRemoveRun (.ok (2#64, .ref none)) ∧
    (∀ ev ∈ winRemoveRun, winNamed ev) ∧ WinNoneMissing winRemoveRun := by
  refine ⟨feed_exec (by decide +kernel), ?_, ?_⟩
  · intro ev h
    simp only [winRemoveRun, List.mem_cons, List.not_mem_nil, or_false] at h
    rcases h with rfl | rfl | rfl | rfl | rfl | rfl | rfl | rfl | rfl | rfl | rfl | rfl <;>
      simp [winNamed, dotName, PlainName, winSep]
  · intro ev h
    simp only [winRemoveRun, List.mem_cons, List.not_mem_nil, or_false] at h
    rcases h with rfl | rfl | rfl | rfl | rfl | rfl | rfl | rfl | rfl | rfl | rfl | rfl <;>
      simp [winErrorOf]
    decide

/-- C82 is false. A file in the directory vanishes before it is examined: 0 is returned without error, although `d` was
never removed. The file itself vanishes before `remove` looks at it: 2^64-1 is returned without error. It vanishes after
`remove` looked at it: 1 is returned although nothing was removed. The directory of the file does not exist (3): an error
is reported, not 0. -/
theorem c82_violated :
    (∃ t, Exec (Win.removeAll 9 (mkPath .windows "d".toList) (.ref none)) t (.ok (0#64, .ref none)) ∧
      (∀ ev ∈ t, winRemoves ev = none) ∧ (⟨.win (.getAttrs "d".toList), .ok 0x10#32⟩ : Event) ∈ t) ∧
    (∃ t, Exec (Win.removeAll 9 (mkPath .windows "d".toList) (.ref none)) t (.ok (BitVec.allOnes 64, .ref none)) ∧
      winRemoved t = 0) ∧
    (∃ t, Exec (Win.removeAll 9 (mkPath .windows "d".toList) (.ref none)) t (.ok (1#64, .ref none)) ∧ winRemoved t = 0) ∧
    Exec (Win.removeAll 9 (mkPath .windows "e\\d".toList) (.ref none))
      [⟨.win (.getAttrs "e\\d".toList), .error (.ofWin 3)⟩] (.ok (BitVec.allOnes 64, .ref (some (.ofWin 3)))) := by
  refine ⟨⟨[⟨.win (.getAttrs "d".toList), .ok 0x10#32⟩, ⟨.win (.getPerms "d".toList 0x10#32), .ok 0o777⟩,
      ⟨.win (.findFirst "d\\*".toList), .ok (3, ⟨"x".toList, 0x20#32, 0⟩)⟩,
      ⟨.win (.getAttrs "d\\x".toList), .error (.ofWin 2)⟩, ⟨.win (.findClose 3), .ok ()⟩], feed_exec (by decide +kernel), ?_, by simp⟩,
    ⟨[⟨.win (.getAttrs "d".toList), .ok 0x20#32⟩, ⟨.win (.getPerms "d".toList 0x20#32), .ok 0o666⟩,
      ⟨.win (.getAttrs "d".toList), .error (.ofWin 2)⟩], feed_exec (by decide +kernel), rfl⟩,
    ⟨[⟨.win (.getAttrs "d".toList), .ok 0x20#32⟩, ⟨.win (.getPerms "d".toList 0x20#32), .ok 0o666⟩,
      ⟨.win (.getAttrs "d".toList), .ok 0x20#32⟩, ⟨.win (.deleteFile "d".toList), .error (.ofWin 2)⟩],
      feed_exec (by decide +kernel), rfl⟩,
    feed_exec (by decide +kernel)⟩
  intro ev h
  simp only [List.mem_cons, List.not_mem_nil, or_false] at h
  rcases h with rfl | rfl | rfl | rfl | rfl <;> rfl

end Asap
