import Verif.Props.DirB
import Verif.Props.OpsB

/-!
# C44, C46: recursive iteration with `follow_directory_symlink`

With this option the library enters neither links nor directories (`c44_violated`). What remains is proved here: every
history sees exactly the entries of the directory given, as if all directories below it were empty.
-/

namespace Asap
namespace Spec

/-- The directory with everything below its entries taken away. -/
def shallow : Dir → Dir
  | .denied e => .denied e
  | .done l => .done l
  | .entry ent _ rest => .entry ent (.done none) (shallow rest)

/-- `Reads`, and examining a file changes nothing and shows a time stamp that `file_time_type` can hold. -/
def Looks (view : Str → Dir) (σ : Table) (ev : Event) (σ' : Table) : Prop :=
  Reads view σ ev σ' ∧ match ev with
    | ⟨.stat _, r⟩ => σ' = σ ∧ ∀ st, r = .ok st → 0 ≤ st.mtimeNsec ∧ st.mtimeNsec < 1000000000 ∧
        -2 ^ 63 ≤ st.mtimeSec * 1000000000 + st.mtimeNsec ∧ st.mtimeSec * 1000000000 + st.mtimeNsec < 2 ^ 63
    | _ => True

end Spec
open Spec

theorem wp_weaken {α σ : Type} {step step' : σ → Event → σ → Prop} (h : ∀ s e s', step' s e s' → step s e s')
    {Q : Except Stop α → σ → Prop} {p : Prog α} {s : σ} (hp : wp step Q p s) : wp step' Q p s := by
  induction p generalizing s with
  | ret a => exact hp
  | stop x => exact hp
  | call c k ih => exact fun r s' hs => ih r (hp r s' (h _ _ _ hs))

theorem looks_reads {view : Str → Dir} (s : Table) (e : Event) (s' : Table) (h : Looks view s e s') : Reads view s e s' := h.1

theorem preorder_shallow_skipDots (sk : Bool) (k : Nat) (root : Str) (L : Dir) :
    preorder sk k root (shallow (skipDots L)) = preorder sk k root (shallow L) := by
  induction L with
  | denied e => rfl
  | done l => rfl
  | entry ent sub rest _ ih =>
    unfold skipDots
    split
    · rename_i h; rw [ih]; simp only [shallow, preorder]; rw [if_pos h]
    · rfl

theorem preorder_shallow_entry (sk : Bool) (k : Nat) (root : Str) {ent : Dirent} (h : ¬ ent.dot) (sub rest : Dir) :
    preorder sk k root (shallow (.entry ent sub rest)) = ⟨k, .ok (addElem root ent.name)⟩ :: preorder sk k root (shallow rest) := by
  simp only [shallow, preorder]
  rw [if_neg h]
  split <;> rfl

theorem preorder_shallow_depth (sk : Bool) (k : Nat) (root : Str) (L : Dir) :
    ∀ x ∈ preorder sk k root (shallow L), x.depth = k := by
  induction L with
  | denied e =>
    intro x hx
    simp only [shallow, preorder] at hx
    split at hx
    · cases hx
    · cases List.mem_singleton.mp hx; rfl
  | done l =>
    intro x hx
    cases l with
    | none => cases hx
    | some e => cases List.mem_singleton.mp hx; rfl
  | entry ent sub rest _ ih =>
    intro x hx
    by_cases h : ent.dot
    · simp only [shallow, preorder, if_pos h] at hx; exact ih x hx
    · rw [preorder_shallow_entry _ _ _ h] at hx
      rcases List.mem_cons.mp hx with rfl | hx
      · rfl
      · exact ih x hx

section
variable {view : Str → Dir}

/-- The only stream is at an entry, and the items are that entry and what follows it in its directory. -/
def Cur1 (view : Str → Dir) (sk : Bool) (n : Nat) (ss : List Stream) (σ : Table) (items : List Item) : Prop :=
  ∃ (s : Stream) (f : Frame) (ent : Dirent), ss = [s] ∧ Reading view n s f ∧ σ = [(f.h, f.rest)] ∧
    s.entry.path.pathname = addElem f.root ent.name ∧ Shape s.entry.path ∧ s.entry.cache.cacheType = .basic ∧
    items = ⟨0, .ok (addElem f.root ent.name)⟩ :: preorder sk 0 f.root (shallow f.rest)

/-- The iterator has arrived at the first of the items. -/
def Landed1 (view : Str → Dir) (opts : DirOptions) (n : Nat) (it : RecIter) (ec : EcArg) (σ : Table) (pending : Bool) :
    List Item → Prop
  | [] => it.impl = none ∧ σ = [] ∧ ec = .ref none
  | ⟨_, .error e⟩ :: _ => it.impl = none ∧ σ = [] ∧ ec = .ref (some e)
  | ⟨k, .ok p⟩ :: xs => ∃ ss, it.impl = some (ss, opts) ∧ Cur1 view (opts.has .skipDenied) n ss σ (⟨k, .ok p⟩ :: xs) ∧
      it.recursion = pending ∧ ec = .ref none

theorem Cur1.moved {sk : Bool} {n : Nat} {s : Stream} {σ : Table} {items : List Item}
    (h : Cur1 view sk n [s] σ items) : Cur1 view sk n [s.moved] σ items := by
  obtain ⟨s', f, ent, he, h1, h2, h3, h4, h5, h6⟩ := h
  cases he
  refine ⟨_, f, ent, rfl, h1.moved, h2, ?_, mkPath_shape _, h5, h6⟩
  simp only [Stream.moved, Path.moved, mkPath_pathname]
  rw [h4.stored, h3]

/-- Reading the next entry of the only stream. -/
theorem wp_next1 {Q : Except Stop (Bool × Stream × Code) → Table → Prop} {sk : Bool} {n : Nat} {s : Stream} {f : Frame}
    (hr : Reading view n s f)
    (hdone : preorder sk 0 f.root (shallow f.rest) = [] → Q (.ok (false, s.closed, none)) [])
    (herr : ∀ e, preorder sk 0 f.root (shallow f.rest) = [⟨0, .error e⟩] → Q (.ok (false, s.closed, some e)) [])
    (hent : ∀ s' σ p xs, preorder sk 0 f.root (shallow f.rest) = ⟨0, .ok p⟩ :: xs →
      Cur1 view sk n [s'] σ (⟨0, .ok p⟩ :: xs) → Q (.ok (true, s', none)) σ) :
    wp (Looks view) Q (s.advance n) [(f.h, f.rest)] := by
  refine wp_weaken looks_reads ?_
  rw [← preorder_shallow_skipDots] at hdone herr hent
  refine wp_advance hr.handle hr.shape hr.dots hr.regular hr.opened (by simp) (fun e he => ?_) (fun ent sub rest he => ?_)
  · rw [he] at hdone herr
    cases e with
    | none => exact hdone rfl
    | some e => exact herr e rfl
  · have hdot := skipDots_entry he
    have hreg := regular_skipDots hr.regular
    have hsh := shows_skipDots hr.shows
    have hdts : dots (skipDots f.rest) < n := Nat.lt_of_le_of_lt (dots_skipDots _) hr.dots
    rw [he] at hent hreg hsh hdts
    have hpre := preorder_shallow_entry sk 0 f.root hdot sub rest
    obtain ⟨h1, h4, h5, h6⟩ := hreg
    refine hent _ _ _ _ hpre ⟨_, ⟨f.h, f.root, (s.at ent (entryPath s.root ent.name)).entry.cache.symlink, rest⟩, ent, rfl,
      ⟨hr.handle, hr.shape, hr.root, h5, ?_, h6, hsh.1, rfl⟩, rfl, ?_, ?_, ?_, rfl⟩
    · simp only [dots, if_neg hdot] at hdts; dsimp only; omega
    · rw [← hr.root]; exact entryPath_text hr.shape h1
    · simp only [Stream.at, entryPath]
      split <;> exact mkPath_shape _
    · simp only [Stream.at]; split <;> rfl

/-- `Advance` with one stream. -/
theorem wp_recAdvance1 {Q : Except Stop (RecIter × EcArg) → Table → Prop} {opts : DirOptions} {n : Nat} {it : RecIter} {c : Code}
    {s : Stream} {f : Frame} (hi : it.impl = some ([s], opts)) (hr : Reading view n s f)
    (hQ : ∀ it' ec σ, Landed1 view opts n it' ec σ it.recursion (preorder (opts.has .skipDenied) 0 f.root (shallow f.rest)) →
      Q (.ok (it', ec)) σ) :
    wp (Looks view) Q (RecIter.advance n it (.ref c)) [(f.h, f.rest)] := by
  unfold RecIter.advance
  simp only [hi, Prog.bind_eq, clear_ref]
  apply wp_bind
  unfold advanceStack
  simp only [Prog.bind_eq]
  apply wp_bind
  refine wp_next1 (sk := opts.has .skipDenied) hr (fun h => ?_) (fun e h => ?_) (fun s' σ p xs h hc => ?_)
  · rw [h] at hQ
    exact hQ _ _ _ ⟨rfl, rfl, rfl⟩
  · rw [h] at hQ
    exact hQ _ _ _ ⟨rfl, rfl, rfl⟩
  · rw [h] at hQ
    exact hQ _ _ _ ⟨_, rfl, hc, rfl, rfl⟩

/-- Completing an entry that has been read never reports an error. -/
theorem wp_updateBasic1 {Q : Except Stop (Entry × EcArg) → Table → Prop} {e : Entry} {c : Code} {σ : Table}
    (h : e.cache.cacheType = .basic) (hQ : ∀ e', Q (.ok (e', .ref none)) σ) :
    wp (Looks view) Q (updateBasic true e (.ref c)) σ := by
  unfold updateBasic getFileStatus
  simp only [Prog.bind_eq, clear_ref, h, reduceCtorEq, false_and, if_false, Prog.call_bind]
  intro r σ' hs
  obtain ⟨rfl, hst⟩ := hs.2
  rcases r with er | st
  · have : ∃ s m, (s.isRegular = false ∧ s.exists' = false) ∧ createFileStatus (some er) e.path none (.ref none) = .ret (s, m) := by
      cases er <;> exact ⟨_, _, ⟨rfl, rfl⟩, rfl⟩
    obtain ⟨s, m, ⟨h1, h2⟩, h3⟩ := this
    simp only [h3, Prog.ret_bind, h1, h2, Bool.false_eq_true, if_false]
    split <;> exact wp_ret (hQ _)
  · obtain ⟨h0, h1, h2, h3⟩ := hst st rfl
    have hx : ∀ q, extractLastWriteTime q st (.ref none) = .ret (st.mtimeSec * 1000000000 + st.mtimeNsec, .ref none) := by
      intro q
      have hrep : timeIsRepresentable st.mtimeSec st.mtimeNsec = true := by
        unfold timeIsRepresentable
        split <;> simp only [decide_eq_true_eq] <;> omega
      unfold extractLastWriteTime
      rw [hrep, timeFromSpec_exact _ _ h0 h1 ⟨h2, h3⟩]
      rfl
    simp only [createFileStatus, Prog.ret_bind, Prog.useStat, hx]
    split <;> split <;> split <;> exact wp_ret (hQ _)

/-- `TryRecursion` with the option does nothing visible. -/
theorem wp_try1 {Q : Except Stop ((Bool × RecIter) × EcArg) → Table → Prop} {opts : DirOptions} {n : Nat} {it : RecIter} {c : Code}
    {s : Stream} {f : Frame} (hf : opts.has .followSymlink = true)
    (hi : it.impl = some ([s], opts)) (hr : Reading view n s f) (hct : s.entry.cache.cacheType = .basic)
    (hQ : ∀ s' f', Reading view n s' f' → f'.h = f.h → f'.root = f.root → f'.rest = f.rest →
      Q (.ok ((false, { it with impl := some ([s'], opts) }), .ref none)) [(f.h, f.rest)]) :
    wp (Looks view) Q (it.tryRecursion n (.ref c)) [(f.h, f.rest)] := by
  have fin : ∀ e : Entry, Q (.ok ((false, { it with impl := some ([{ s with entry := e }], opts) }), .ref none)) [(f.h, f.rest)] := by
    intro e
    exact hQ _ ⟨f.h, f.root, e.cache.symlink, f.rest⟩
      ⟨hr.handle, hr.shape, hr.root, hr.regular, hr.dots, hr.opened, hr.shows, rfl⟩ rfl rfl rfl
  unfold RecIter.tryRecursion
  simp only [hi, Prog.bind_eq, clear_ref, hf, Bool.not_true, Bool.false_eq_true, if_false]
  apply wp_bind
  apply wp_bind
  unfold getFileType
  simp only [Prog.bind_eq, clear_ref]
  split
  · apply wp_bind
    refine wp_updateBasic1 hct fun e' => ?_
    exact fin e'
  · exact fin s.entry

/-- `increment`. -/
theorem wp_recIncr1 {Q : Except Stop (RecIter × EcArg) → Table → Prop} {opts : DirOptions} {n : Nat} {it : RecIter} {c : Code}
    {ss : List Stream} {σ : Table} {x : Item} {xs : List Item} (hf : opts.has .followSymlink = true)
    (hi : it.impl = some (ss, opts)) (hc : Cur1 view (opts.has .skipDenied) n ss σ (x :: xs))
    (hQ : ∀ it' ec σ, Landed1 view opts n it' ec σ true
      (if it.recursion then xs else xs.dropWhile fun y => x.depth < y.depth) → Q (.ok (it', ec)) σ) :
    wp (Looks view) Q (RecIter.incr n it (.ref c)) σ := by
  obtain ⟨s, f, ent, rfl, hr, rfl, hpn, hsp, hct, hitems⟩ := hc
  cases hitems
  have hsame : ((preorder (opts.has .skipDenied) 0 f.root (shallow f.rest)).dropWhile fun y => decide ((0 : Nat) < y.depth)) =
      preorder (opts.has .skipDenied) 0 f.root (shallow f.rest) := by
    refine dropWhile_head fun y hy => ?_
    have := preorder_shallow_depth (opts.has .skipDenied) 0 f.root f.rest y (List.mem_of_mem_head? hy)
    simp [this]
  simp only [hsame, ite_self] at hQ
  unfold RecIter.incr
  simp only [Prog.bind_eq, clear_ref]
  apply wp_bind
  split
  · apply wp_bind
    refine wp_try1 hf hi hr hct fun s' f' hr' h1 h2 h3 => ?_
    refine wp_ret ?_
    simp only [isSet_none, Bool.or_self, Bool.false_eq_true, if_false]
    rw [← h1, ← h3]
    refine wp_recAdvance1 (opts := opts) rfl hr' ?_
    rw [h2, h3]
    exact hQ
  · refine wp_ret ?_
    simp only [Bool.false_eq_true, if_false]
    exact wp_recAdvance1 (opts := opts) hi hr hQ

/-- `pop`. -/
theorem wp_recPop1 {Q : Except Stop (RecIter × EcArg) → Table → Prop} {opts : DirOptions} {n : Nat} {it : RecIter} {c : Code}
    {ss : List Stream} {σ : Table} {x : Item} {xs : List Item}
    (hi : it.impl = some (ss, opts)) (hc : Cur1 view (opts.has .skipDenied) n ss σ (x :: xs))
    (hQ : ∀ it' ec σ, Landed1 view opts n it' ec σ it.recursion (xs.dropWhile fun y => x.depth ≤ y.depth) → Q (.ok (it', ec)) σ) :
    wp (Looks view) Q (RecIter.pop n it (.ref c)) σ := by
  obtain ⟨s, f, ent, rfl, hr, rfl, hpn, hsp, hct, hitems⟩ := hc
  cases hitems
  have hnone : ((preorder (opts.has .skipDenied) 0 f.root (shallow f.rest)).dropWhile fun y => decide ((0 : Nat) ≤ y.depth)) = [] := by
    have := dropWhile_all (p := fun y : Item => decide ((0 : Nat) ≤ y.depth)) (m := [])
      (l := preorder (opts.has .skipDenied) 0 f.root (shallow f.rest)) (by simp)
    simpa using this
  rw [hnone] at hQ
  unfold RecIter.pop
  simp only [hi, Prog.bind_eq, clear_ref]
  apply wp_bind
  refine wp_weaken looks_reads ?_
  refine wp_closeTop (σ := []) hr.handle (by simp) ?_
  exact hQ _ _ _ ⟨rfl, rfl, rfl⟩

def Follows1 (view : Str → Dir) (opts : DirOptions) (n : Nat) (acts : List Act) : Prop :=
  ∀ (it : RecIter) (ss : List Stream) (σ : Table) (items : List Item), it.impl = some (ss, opts) →
    Cur1 view (opts.has .skipDenied) n ss σ items →
    wp (Looks view) (Seen (follow acts items it.recursion)) (drive n acts it) σ

theorem wp_land1 {opts : DirOptions} {n : Nat} {acts : List Act} (h : Follows1 view opts n acts) {it : RecIter} {ec : EcArg}
    {σ : Table} {items : List Item} {pending : Bool} (hl : Landed1 view opts n it ec σ pending items) :
    wp (Looks view) (Seen (land acts items pending))
      ((look it).bind fun v => (drive n acts it).bind fun l => .ret ((v, ec.code) :: l)) σ := by
  rcases items with _ | ⟨⟨k, e | p⟩, xs⟩
  · obtain ⟨h1, h2, h3⟩ := hl
    simp only [look, h1, drive_end n acts h1, Prog.ret_bind, h3]
    refine wp_ret ⟨?_, fun _ => h2⟩
    simp [land, EcArg.code]
  · obtain ⟨h1, h2, h3⟩ := hl
    simp only [look, h1, drive_end n acts h1, Prog.ret_bind, h3]
    refine wp_ret ⟨?_, fun _ => h2⟩
    simp [land, EcArg.code]
  · obtain ⟨ss, h1, h2, h3, h4⟩ := hl
    have hf := h it ss σ _ h1 h2
    obtain ⟨s, f, ent, rfl, hr, hσ, hpn, hsp, hct, hitems⟩ := h2
    cases hitems
    simp only [look, RecIter.deref, RecIter.depth, h1, Prog.bind_eq, Prog.ret_bind]
    apply wp_bind
    refine wp_mono ?_ hf
    rintro o σ' ⟨rfl, h6⟩
    dsimp only
    refine wp_ret ⟨?_, fun hx => h6 ?_⟩
    · rw [land, ← h3, ← hpn, h4]
      simp [EcArg.code]
    · rw [land, ← h3] at hx
      cases hfo : follow acts (⟨0, .ok (addElem f.root ent.name)⟩ ::
        preorder (opts.has .skipDenied) 0 f.root (shallow f.rest)) it.recursion with
      | nil => rw [hfo] at hx; simp at hx
      | cons y ys => rw [hfo, List.getLast?_cons_cons] at hx; exact hx

theorem follows1 {opts : DirOptions} {n : Nat} (hf : opts.has .followSymlink = true) (acts : List Act) :
    Follows1 view opts n acts := by
  induction acts with
  | nil =>
    intro it ss σ items hi hc
    exact ⟨by simp [follow], by simp [follow]⟩
  | cons a acts ih =>
    intro it ss σ items hi hc
    have hc' := hc
    obtain ⟨s, f, ent, _, _, _, _, _, _, hitems⟩ := hc'
    cases items with
    | nil => cases hitems
    | cons x xs =>
      clear hitems
      unfold drive
      simp only [hi]
      cases a with
      | disable =>
        have := ih it.disable ss σ (x :: xs) hi hc
        rw [follow]
        · exact this
        · intro hx; cases hx
      | incr =>
        simp only [Prog.bind_eq]
        apply wp_bind
        rw [follow]
        exact wp_recIncr1 hf hi hc fun it' ec σ' hL => wp_land1 ih hL
      | pop =>
        simp only [Prog.bind_eq]
        apply wp_bind
        rw [follow]
        exact wp_recPop1 hi hc fun it' ec σ' hL => wp_land1 ih hL

theorem wp_session1 {opts : DirOptions} {n : Nat} (hf : opts.has .followSymlink = true) (acts : List Act) {p : Path} (hp : Shape p)
    {L : Dir} (hv : view p.pathname = L) (hsh : Shows view p.pathname L) (hreg : Regular n L) (hdts : dots L < n) :
    wp (Looks view) (Seen (land acts (preorder (opts.has .skipDenied) 0 p.pathname (shallow L)) true)) (session n p opts acts) [] := by
  unfold session RecIter.new Stream.new
  simp only [Prog.bind_eq, clear_ref, Prog.call_bind]
  intro r σ' h
  rcases r with e | d
  · obtain ⟨h1, h2⟩ := h.1
    subst h2
    have hL : L = .denied e := by rw [← hv, h1]
    subst hL
    dsimp only
    by_cases hsk : opts.has .skipDenied = true ∧ e = .EACCES
    · rw [if_pos hsk]
      exact wp_land1 (follows1 hf acts) (it := ⟨none, true⟩) (by simp only [shallow, preorder]; rw [if_pos hsk]; exact ⟨rfl, rfl, rfl⟩)
    · rw [if_neg hsk]
      exact wp_land1 (follows1 hf acts) (it := ⟨none, true⟩) (by simp only [shallow, preorder]; rw [if_neg hsk]; exact ⟨rfl, rfl, rfl⟩)
  · obtain ⟨h1, h2, h3⟩ := h.1
    subst h3
    rw [hv] at h1 ⊢
    dsimp only
    apply wp_bind
    apply wp_bind
    apply wp_bind
    have hr : Reading view n ⟨some d, p, .default⟩ ⟨d, p.pathname, false, L⟩ := ⟨rfl, hp, rfl, hreg, hdts, h1, hsh, rfl⟩
    refine wp_next1 (f := ⟨d, p.pathname, false, L⟩) (sk := opts.has .skipDenied) hr (fun h => ?_) (fun e h => ?_) (fun s' σ q xs h hc => ?_)
    · exact wp_land1 (follows1 hf acts) (it := ⟨none, true⟩) (by rw [h]; exact ⟨rfl, rfl, rfl⟩)
    · exact wp_land1 (follows1 hf acts) (it := ⟨none, true⟩) (by rw [h]; exact ⟨rfl, rfl, rfl⟩)
    · dsimp only
      have hg : s'.good = true := by
        obtain ⟨s, f, ent, he, hr', _⟩ := hc
        cases he
        simp [Stream.good, hr'.handle]
      simp only [wp, hg, Bool.not_true, Bool.false_eq_true, if_false]
      refine wp_land1 (follows1 hf acts) (it := ⟨some ([s'.moved], opts), true⟩) ?_
      rw [h]
      exact ⟨_, rfl, hc.moved, rfl, rfl⟩

end

/-- C46, and what is left of C44: with `follow_directory_symlink` every history of `increment`, `pop` and
`disable_recursion_pending` sees exactly what it would see if every directory below the root were empty. Missing of C44:
the directories, linked or not, are not entered (`c44_violated`). -/
theorem c44_flat_partial {p : Path} (hp : Value p) {opts : DirOptions} (hf : opts.has .followSymlink = true) {n : Nat} {acts : List Act}
    {view : Str → Dir} {L : Dir} (hv : view p.pathname = L) (hsh : Shows view p.pathname L) (hreg : Regular n L) (hdts : dots L < n)
    {t : List Event} {o : Except Stop (List Obs)} {σ : Table}
    (h : Exec (session n p opts acts) t o) (hs : Steps (Looks view) [] t σ) :
    o = .ok (land acts (preorder (opts.has .skipDenied) 0 p.pathname (shallow L)) true) ∧
      ((land acts (preorder (opts.has .skipDenied) 0 p.pathname (shallow L)) true).getLast?.map Prod.fst = some none → σ = []) :=
  wp_sound (wp_session1 hf acts hp.shape hv hsh hreg hdts) h hs

theorem looks_total (view : Str → Dir) (σ : Table) (c : Sys) : ∃ (r : c.Ret) (σ' : Table), Looks view σ ⟨c, r⟩ σ' := by
  by_cases hc : ∃ p, c = .stat p
  · obtain ⟨p, rfl⟩ := hc
    exact ⟨.error .ENOENT, σ, trivial, rfl, fun st h => by cases h⟩
  · obtain ⟨r, σ', h⟩ := reads_total view σ c
    refine ⟨r, σ', h, ?_⟩
    cases c <;> first | trivial | exact absurd ⟨_, rfl⟩ hc

/-- Executions exist whatever the tree. -/
example (view : Str → Dir) (n : Nat) (p : Path) (opts : DirOptions) (acts : List Act) :
    ∃ t o σ, Exec (session n p opts acts) t o ∧ Steps (Looks view) [] t σ :=
  exec_exists (looks_total view) _ _

/-- With the option, a client incrementing through `d` (a file or link `a`, and the directory `b` with the file `c` in it) sees
`d/a` and `d/b` and then the end. -/
example {ty : DType} (hty : ty ≠ .dir) {t : List Event} {o : Except Stop (List Obs)} {σ : Table}
    (h : Exec (session 9 (mkPath .posix "d".toList) .followSymlink [.incr, .incr, .incr]) t o)
    (hs : Steps (Looks (sampleView ⟨"a".toList, ty⟩)) [] t σ) :
    o = .ok [(some ("d/a".toList, 0), none), (some ("d/b".toList, 0), none), (none, none)] := by
  have hd : dots (sample ⟨"a".toList, ty⟩) < 9 := by simp [sample, dots, Dirent.dot]
  rw [(c44_flat_partial value_d (by decide) (by rfl) (sample_shows hty) (sample_regular hty) hd h hs).1]
  have : preorder (DirOptions.followSymlink.has .skipDenied) 0 (mkPath .posix "d".toList).pathname (shallow (sample ⟨"a".toList, ty⟩)) =
      [⟨0, .ok "d/a".toList⟩, ⟨0, .ok "d/b".toList⟩] := by cases ty <;> rfl
  rw [this]
  exact congrArg Except.ok (land_incr 3 _ (by decide))

end Asap
