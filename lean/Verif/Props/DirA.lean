import Verif.Dir.StreamLemmas
import Verif.Props.OpsD

/-!
# C42: listing a directory with `directory_iterator`
-/

namespace Asap
open Spec

/-- The client loop `for (; it != directory_iterator{}; it.increment(ec))`, at most `k` rounds:
the paths seen and the final code. It stops at the first error. -/
def Spec.visitFrom (n : Nat) : Nat → DirIter → Code → Prog (List Path × Code)
  | _, _, some e => .ret ([], some e)
  | _, none, none => .ret ([], none)
  | 0, some _, none => .stop .fuel
  | k + 1, some s, none => do
    let (it, ec) ← DirIter.incr n (some s) (.ref none)
    let (l, c) ← visitFrom n k it ec.code
    .ret (s.entry.path :: l, c)

/-- `for (directory_iterator it(p, ec); …)`. -/
def Spec.visit (n k : Nat) (p : Path) (opts : DirOptions) : Prog (List Path × Code) := do
  let (it, ec) ← DirIter.new n p opts (.ref none)
  visitFrom n k it ec.code

/-- What a listing shows of the entries read. -/
def Spec.shown (p : Path) (ents : List Dirent) : List Path :=
  (ents.filter fun e => ¬ e.dot).map fun e => entryPath p e.name

theorem shown_dots {p : Path} {dots : List Dirent} (h : ∀ e ∈ dots, Dirent.dot e) : shown p dots = [] := by
  unfold shown
  rw [List.map_eq_nil_iff, List.filter_eq_nil_iff]
  intro e he
  simp only [decide_not, Bool.not_eq_true', decide_eq_false_iff_not]
  exact fun hn => hn (h e he)

theorem shown_append {p : Path} {l l' : List Dirent} : shown p (l ++ l') = shown p l ++ shown p l' := by
  simp [shown]

theorem shown_one {p : Path} {e : Dirent} (h : ¬ e.dot) : shown p [e] = [entryPath p e.name] := by
  simp only [shown, List.filter_cons, List.filter_nil]
  rw [if_pos (by simpa using h)]; rfl

theorem ends_ent {e : Dirent} (h : e.name ≠ []) : ends (.ok (some e)) = none := by simp [ends, h]

theorem ends_dot {e : Dirent} (h : e.dot) : ends (.ok (some e)) = none := by
  refine ends_ent ?_
  rcases h with h | h <;> rw [h] <;> decide

theorem exec_visitFrom_some {n k : Nat} {it : DirIter} {e : Errno} {t o} :
    Exec (visitFrom n k it (some e)) t o ↔ t = [] ∧ o = .ok ([], some e) := by
  cases k <;> simp [visitFrom]

theorem exec_visitFrom {n : Nat} {s : Stream} {d : Nat} (hs : s.Live d) (k : Nat) {t : List Event}
    {o : Except Stop (List Path × Code)} (h : Exec (visitFrom n k (some s) none) t o) :
    (∃ ents a c r, ends a = some c ∧ (∀ e ∈ ents, ends (.ok (some e)) = none) ∧
      t = rdAll d ents ++ [rdEv d a, clEv d r] ∧
      o = .ok (s.entry.path :: shown s.root ents, c)) ∨
    (o = .error .fuel ∧ (n ≤ t.length ∨ k ≤ t.length + 1)) := by
  induction k generalizing s t o with
  | zero => simp [visitFrom] at h; exact .inr ⟨h.2, .inr (by omega)⟩
  | succ k ih =>
    simp only [visitFrom, Prog.bind_eq] at h
    rcases exec_bind.mp h with ⟨x, h1, rfl⟩ | ⟨⟨it, ec⟩, t1, t2, rfl, h1, h2⟩
    · obtain ⟨dots, hd, ⟨h2, rfl, h3⟩ | ⟨h2, ⟨a, c, r, h4, rfl, h3⟩ | ⟨ent, h4, h5, rfl, h3⟩⟩⟩ := (exec_dirIterIncr hs).mp h1
      · cases h3; exact .inr ⟨rfl, .inl (by simp [h2])⟩
      · cases h3
      · cases h3
    · obtain ⟨dots, hd, ⟨_, _, h3⟩ | ⟨h3, ⟨a, c, r, h4, rfl, h5⟩ | ⟨ent, h4, h6, rfl, h5⟩⟩⟩ := (exec_dirIterIncr hs).mp h1
      · cases h3
      · cases h5
        left
        have hc : Exec ((visitFrom n k none c).bind fun x => .ret (s.entry.path :: x.1, x.2)) t2 o := h2
        refine ⟨dots, a, c, r, h4, fun e he => ends_dot (hd e he), ?_⟩
        rw [shown_dots hd]
        cases c with
        | some e =>
          rcases exec_bind.mp hc with ⟨x, h1, rfl⟩ | ⟨v, t3, t4, rfl, h1, h2⟩
          · rw [exec_visitFrom_some] at h1; cases h1.2
          · rw [exec_visitFrom_some] at h1
            obtain ⟨rfl, h1⟩ := h1
            cases h1
            simp only [exec_ret] at h2
            obtain ⟨rfl, rfl⟩ := h2
            exact ⟨by simp, rfl⟩
        | none =>
          have hv : visitFrom n k none none = .ret ([], none) := by cases k <;> rfl
          rw [hv] at hc
          simp at hc
          obtain ⟨rfl, rfl⟩ := hc
          exact ⟨by simp, rfl⟩
      · cases h5
        have hdots : ∀ e ∈ dots, ends (.ok (some e)) = none := fun e he => ends_dot (hd e he)
        rcases exec_bind.mp h2 with ⟨x, h1, rfl⟩ | ⟨v, t3, t4, rfl, h1, h2⟩
        · rcases ih (hs.at ent _) h1 with ⟨ents, a, c, r, _, _, _, h7⟩ | ⟨h7, h8⟩
          · cases h7
          · cases h7
            exact .inr ⟨rfl, by simp only [List.length_append, rdAll_length, List.length_cons, List.length_nil]; omega⟩
        · rcases ih (hs.at ent _) h1 with ⟨ents, a, c, r, h7, h8, rfl, h9⟩ | ⟨h7, h8⟩
          · cases h9
            simp only [exec_ret] at h2
            obtain ⟨rfl, rfl⟩ := h2
            refine .inl ⟨dots ++ ent :: ents, a, c, r, h7, ?_, ?_, ?_⟩
            · intro e he
              rcases List.mem_append.mp he with he | he
              · exact hdots e he
              · rcases List.mem_cons.mp he with rfl | he
                · exact ends_ent h6
                · exact h8 e he
            · simp [rdAll]
            · show _ = Except.ok (_ :: shown s.root (dots ++ ([ent] ++ ents)), c)
              rw [shown_append, shown_append, shown_dots hd, shown_one h4]
              rfl
          · cases h7

/-- All executions of the listing. -/
theorem exec_visit {n k : Nat} {p : Path} (hp : Shape p) {opts : DirOptions} {t : List Event}
    {o : Except Stop (List Path × Code)} (h : Exec (visit n k p opts) t o) :
    (∃ e, t = [opEv p.pathname (.error e)] ∧
      o = .ok ([], if opts.has .skipDenied ∧ e = .EACCES then none else some e)) ∨
    (∃ d ents a c r, ends a = some c ∧ (∀ e ∈ ents, ends (.ok (some e)) = none) ∧
      t = opEv p.pathname (.ok d) :: (rdAll d ents ++ [rdEv d a, clEv d r]) ∧ o = .ok (shown p ents, c)) ∨
    (o = .error .fuel ∧ (n < t.length ∨ k < t.length)) := by
  simp only [visit, Prog.bind_eq] at h
  have hnone : ∀ c, visitFrom n k none c = .ret ([], c) := by intro c; cases c <;> cases k <;> rfl
  rcases exec_bind.mp h with ⟨x, h1, rfl⟩ | ⟨⟨it, ec⟩, t1, t2, rfl, h1, h2⟩
  · rcases (exec_dirIterNew hp).mp h1 with ⟨e, _, h3⟩ | ⟨d, dots, hd, ⟨h2, rfl, h3⟩ | ⟨h2, ⟨a, c, r, h4, rfl, h3⟩ | ⟨ent, h4, h5, rfl, h3⟩⟩⟩
    · cases h3
    · cases h3; exact .inr (.inr ⟨rfl, .inl (by simp [h2])⟩)
    · cases h3
    · cases h3
  · rcases (exec_dirIterNew hp).mp h1 with ⟨e, rfl, h3⟩ | ⟨d, dots, hd, ⟨_, _, h3⟩ | ⟨h3, ⟨a, c, r, h4, rfl, h5⟩ | ⟨ent, h4, h6, rfl, h5⟩⟩⟩
    · cases h3
      simp only [hnone, exec_ret] at h2
      obtain ⟨rfl, rfl⟩ := h2
      exact .inl ⟨e, by simp, rfl⟩
    · cases h3
    · cases h5
      simp only [hnone, exec_ret] at h2
      obtain ⟨rfl, rfl⟩ := h2
      exact .inr (.inl ⟨d, dots, a, c, r, h4, fun e he => ends_dot (hd e he), by simp, by rw [shown_dots hd]; rfl⟩)
    · cases h5
      have hl : (Stream.at ⟨some d, p, .default⟩ ent (entryPath p ent.name)).Live d := ⟨rfl, hp⟩
      rcases exec_visitFrom hl k h2 with ⟨ents, a, c, r, h7, h8, rfl, h9⟩ | ⟨h7, h8⟩
      · refine .inr (.inl ⟨d, dots ++ ([ent] ++ ents), a, c, r, h7, ?_, ?_, ?_⟩)
        · intro e he
          rcases List.mem_append.mp he with he | he
          · exact ends_dot (hd e he)
          · rcases List.mem_cons.mp he with rfl | he
            · exact ends_ent h6
            · exact h8 e he
        · simp [rdAll]
        · rw [h9, shown_append, shown_append, shown_dots hd, shown_one h4]
          rfl
      · exact .inr (.inr ⟨h7, by simp only [List.length_append, rdAll_length, List.length_cons, List.length_nil]; omega⟩)

/-- The names a directory holds, besides itself and its parent. -/
def Spec.entryNames (ents : List Dirent) : List Str :=
  (ents.map Dirent.name).filter fun w => w ≠ ".".toList ∧ w ≠ "..".toList

theorem entryPath_text {p : Path} (hp : Shape p) {w : Str} (hw : IsName w) :
    (entryPath p w).pathname = addElem p.pathname w := by
  have hs : startsSlash w = false := by
    cases w with
    | nil => rfl
    | cons c cs =>
      have := hw.2
      simp only [List.mem_cons, not_or] at this
      simpa [startsSlash] using fun h => this.1 h.symm
  unfold entryPath
  rw [hs, if_neg (by simp), mkPath_pathname, addElem_appendText hs]
  exact stored_appendText _ _ hs hp.stored

theorem addElem_inj {s v w : Str} (hv : IsName v) (hw : IsName w) (h : addElem s v = addElem s w) : v = w := by
  have hs : ∀ {w : Str}, IsName w → startsSlash w = false := by
    intro w hw
    cases w with
    | nil => rfl
    | cons c cs =>
      have := hw.2
      simp only [List.mem_cons, not_or] at this
      simpa [startsSlash] using fun h => this.1 h.symm
  unfold addElem at h
  rw [hs hv, hs hw] at h
  simp only [Bool.false_eq_true, if_false] at h
  split at h <;> simpa using h

theorem shown_texts {p : Path} (hp : Shape p) (ents : List Dirent) (h : ∀ e ∈ ents, IsName e.name) :
    (shown p ents).map Path.pathname = (entryNames ents).map (addElem p.pathname) := by
  induction ents with
  | nil => rfl
  | cons e ents ih =>
    have ih := ih fun x hx => h x (by simp [hx])
    by_cases hd : e.dot
    · have h1 : shown p (e :: ents) = shown p ents := by
        show shown p ([e] ++ ents) = _
        rw [shown_append, shown_dots (by simpa using hd)]; rfl
      have h2 : entryNames (e :: ents) = entryNames ents := by
        unfold entryNames
        rw [List.map_cons, List.filter_cons, if_neg]
        simp only [ne_eq, decide_eq_true_eq]
        rintro ⟨h1, h2⟩
        exact hd.elim h1 h2
      rw [h1, h2, ih]
    · have h1 : shown p (e :: ents) = entryPath p e.name :: shown p ents := by
        show shown p ([e] ++ ents) = _
        rw [shown_append, shown_one hd]; rfl
      have h2 : entryNames (e :: ents) = e.name :: entryNames ents := by
        unfold entryNames
        rw [List.map_cons, List.filter_cons, if_pos]
        simp only [ne_eq, decide_eq_true_eq]
        exact ⟨fun h => hd (.inl h), fun h => hd (.inr h)⟩
      rw [h1, h2, List.map_cons, List.map_cons, ih, entryPath_text hp (h e (by simp))]

/-- C42. Every way the operating system can answer a listing of `p` is one of these. The directory
cannot be opened: nothing is seen, and the error is reported, unless it is a denied
permission to be skipped. Or it is opened once, the handle `d` is read until the end or
an error, and closed; what is seen are exactly the entries read other than `.` and `..`, each once,
in order, under the path `p/name`; an error of reading is reported. Or more
than `n` entries were read: the loop ends whenever the directory does. Names
are assumed non-empty and without slash. -/
theorem c42_directory_iterator {p : Path} (hp : Value p) (n k : Nat) (opts : DirOptions) (t : List Event)
    (o : Except Stop (List Path × Code)) (h : Exec (visit n k p opts) t o)
    (hnames : ∀ d ent, (⟨.readdir d, (.ok (some ent) : Except Errno (Option Dirent))⟩ : Event) ∈ t → IsName ent.name) :
    (∃ e, t = [⟨.opendir p.pathname, (.error e : Except Errno Nat)⟩] ∧
      o = .ok ([], if opts.has .skipDenied ∧ e = .EACCES then none else some e)) ∨
    (∃ d ents vs c last r,
      t = [⟨.opendir p.pathname, (.ok d : Except Errno Nat)⟩] ++
        ents.map (fun e => ⟨.readdir d, (.ok (some e) : Except Errno (Option Dirent))⟩) ++
        [⟨.readdir d, last⟩, ⟨.closedir d, r⟩] ∧
      ((last = .ok none ∧ c = none) ∨ ∃ e, last = .error e ∧ c = some e) ∧
      o = .ok (vs, c) ∧
      vs.map Path.pathname = (entryNames ents).map (addElem p.pathname) ∧
      ((entryNames ents).Nodup → vs.Nodup)) ∨
    (o = .error .fuel ∧ (n < t.length ∨ k < t.length)) := by
  rcases exec_visit hp.shape h with ⟨e, h1, h2⟩ | ⟨d, ents, a, c, r, h1, h2, h3, h4⟩ | h
  · exact .inl ⟨e, h1, h2⟩
  · have hn : ∀ e ∈ ents, IsName e.name := by
      intro e he
      refine hnames d e ?_
      rw [h3]
      simp only [List.mem_cons, List.mem_append, rdAll, List.mem_map]
      exact .inr (.inl ⟨e, he, rfl⟩)
    have hlast : (a = .ok none ∧ c = none) ∨ ∃ e, a = .error e ∧ c = some e := by
      rcases a with e | _ | ent
      · simp [ends] at h1; exact .inr ⟨e, rfl, h1.symm⟩
      · simp [ends] at h1; exact .inl ⟨rfl, h1.symm⟩
      · exfalso
        have : IsName ent.name := hnames d ent (by rw [h3]; simp [rdEv])
        rw [ends_ent this.1] at h1
        cases h1
    have htext := shown_texts hp.shape ents hn
    refine .inr (.inl ⟨d, ents, _, c, a, r, ?_, hlast, h4, htext, ?_⟩)
    · rw [h3]; simp [rdAll, rdEv, opEv, clEv]
    · intro hnd
      have hname : ∀ w ∈ entryNames ents, IsName w := by
        intro w hw
        unfold entryNames at hw
        rw [List.mem_filter, List.mem_map] at hw
        obtain ⟨⟨e, he, rfl⟩, _⟩ := hw
        exact hn e he
      have : ((entryNames ents).map (addElem p.pathname)).Nodup := by
        rw [List.nodup_iff_pairwise_ne] at hnd ⊢
        rw [List.pairwise_map]
        refine List.Pairwise.imp_of_mem ?_ hnd
        intro a b ha hb hab h
        exact hab (addElem_inj (hname a ha) (hname b hb) h)
      rw [← htext] at this
      rw [List.nodup_iff_pairwise_ne] at this ⊢
      rw [List.pairwise_map] at this
      exact this.imp fun h heq => h (by rw [heq])
  · exact .inr (.inr h)

/-- A listing of `d`: `.`, `a`, then the end. -/
example : ∃ t o, Exec (visit 9 9 (mkPath .posix "d".toList) .none) t o ∧
    o = .ok ([mkPath .posix "d/a".toList], none) ∧
    (∀ d ent, (⟨.readdir d, (.ok (some ent) : Except Errno (Option Dirent))⟩ : Event) ∈ t → IsName ent.name) := by
  refine ⟨[⟨.opendir "d".toList, (.ok 3 : Except Errno Nat)⟩,
    ⟨.readdir 3, (.ok (some ⟨".".toList, .dir⟩) : Except Errno (Option Dirent))⟩,
    ⟨.readdir 3, (.ok (some ⟨"a".toList, .reg⟩) : Except Errno (Option Dirent))⟩,
    ⟨.readdir 3, (.ok none : Except Errno (Option Dirent))⟩, ⟨.closedir 3, (.ok () : Except Errno Unit)⟩], _, ?_, rfl, ?_⟩
  · exact .call _ _ _ _ _ (.call _ _ _ _ _ (.call _ _ _ _ _ (.call _ _ _ _ _ (.call _ _ _ _ _ (.ret _)))))
  · intro d ent h
    simp at h
    rcases h with h | h <;> obtain ⟨rfl, h⟩ := h <;> cases h
    · exact ⟨by decide, by decide⟩
    · exact ⟨by decide, by decide⟩

end Asap
