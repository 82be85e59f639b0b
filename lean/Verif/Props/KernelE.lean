import Verif.Os.KernelTidy
import Verif.Props.KernelD

/-!
# C130: listing a directory on a file system with links
-/

namespace Asap
open Spec

/-! ## The file system obeys the laws of directory streams -/

/-- The laws of this file system. -/
def volLaws : Laws Vol := ⟨fun d x r => r = d.listing x, fun d ev d' => answer ev.call d = (ev.ret, d')⟩

theorem volLaws_step (s : Os Vol) (c : Sys) : volLaws.step s ⟨c, (answerDir c s).1⟩ (answerDir c s).2 := by
  obtain ⟨d, T⟩ := s
  cases c
  case opendir q =>
    show volLaws.step ⟨d, T⟩ ⟨.opendir q, (match d.listing q with
        | .error e => ((.error e : Except Errno Nat), (⟨d, T⟩ : Os Vol))
        | .ok l => (.ok (fresh T), ⟨d, (fresh T, l) :: T⟩)).1⟩ (match d.listing q with
        | .error e => ((.error e : Except Errno Nat), (⟨d, T⟩ : Os Vol))
        | .ok l => (.ok (fresh T), ⟨d, (fresh T, l) :: T⟩)).2
    cases hl : d.listing q with
    | error e => exact ⟨hl.symm, rfl⟩
    | ok l => exact ⟨l, hl.symm, fresh_notin T, rfl⟩
  case readdir q =>
    show volLaws.step ⟨d, T⟩ ⟨.readdir q, (readNext q ⟨d, T⟩).1⟩ (readNext q ⟨d, T⟩).2
    unfold readNext
    simp only [Laws.step]
    cases hl : T.find? (·.1 = q) with
    | none => trivial
    | some e =>
      obtain ⟨k, l⟩ := e
      cases l with
      | nil => exact ⟨rfl, rfl⟩
      | cons a l => exact ⟨rfl, rfl⟩
  case closedir q => exact fun _ => rfl
  all_goals exact ⟨rfl, rfl⟩

theorem onDisk_wp {α : Type} {Q : Except Stop α → Os Vol → Prop} {p : Prog α} {s : Os Vol} (h : wp volLaws.step Q p s) :
    Q (p.eval kernelDir s).1 (p.eval kernelDir s).2 := by
  obtain ⟨t, s', h1, h2, h3⟩ := eval_steps (m := kernelDir) (step := volLaws.step) (R := Eq)
    (fun u s c h => ⟨_, by subst h; exact volLaws_step u c, rfl⟩) p (u := s) rfl
  rw [h3]
  exact wp_sound h h1 h2

/-! ## The client's loop -/

section
variable {τ : Type} {L : Laws τ} {δ : τ} {T : List (Nat × List Dirent)}

theorem wpK_visitFrom {n : Nat} (hn : 0 < n) {h : Nat} (hh : h ∉ T.map Prod.fst) : ∀ (l : List Dirent) (k : Nat) (s : Stream), s.Live h → l.length < k →
    (∀ e ∈ l, ¬ e.dot ∧ IsName e.name) →
    wp L.step (fun o σ => o = .ok (s.entry.path :: l.map (fun e => mkPath .posix (appendText s.root.pathname e.name)), none) ∧ σ = ⟨δ, T⟩)
      (visitFrom n k (some s) none) ⟨δ, (h, l) :: T⟩ := by
  intro l
  induction l with
  | nil =>
    intro k s hs hk hl
    obtain ⟨k, rfl⟩ : ∃ j, k = j + 1 := ⟨k - 1, by omega⟩
    unfold visitFrom
    simp only [Prog.bind_eq]
    apply wp_bind
    refine wpK_incr hs (by simpa [dotCount] using hn) (by simp) hh (fun _ => ?_) (fun pre ent rest he => by simp at he)
    apply wp_bind
    cases k <;> exact ⟨rfl, rfl⟩
  | cons e l ih =>
    intro k s hs hk hl
    obtain ⟨k, rfl⟩ : ∃ j, k = j + 1 := ⟨k - 1, by simp at hk; omega⟩
    unfold visitFrom
    simp only [Prog.bind_eq]
    apply wp_bind
    refine wpK_incr hs ?_ (fun x hx => (hl x hx).2) hh (fun h => absurd (h e (by simp)) (hl e (by simp)).1) (fun pre ent rest he hp hx => ?_)
    · unfold dotCount
      rw [List.countP_eq_zero.mpr (by intro x hx; simpa using (hl x hx).1)]
      exact hn
    · have : pre = [] := by
        cases pre with
        | nil => rfl
        | cons a pre =>
          simp only [List.cons_append, List.cons.injEq] at he
          exact absurd (hp a (by simp)) (by rw [← he.1]; exact (hl e (by simp)).1)
      subst this
      simp only [List.nil_append, List.cons.injEq] at he
      obtain ⟨rfl, rfl⟩ := he
      apply wp_bind
      refine wp_mono ?_ (ih k _ (hs.at _ _) (by simp at hk; omega) fun x hx => hl x (by simp [hx]))
      rintro o σ ⟨rfl, rfl⟩
      exact ⟨rfl, rfl⟩

end

/-! ## Paths of entries -/

namespace Spec.Vol

theorem follow_final (d : Vol) (k n : Nat) (ws : List Str) (r : Nat) (hf : d.follow k n (ws ++ [[]]) = .ok r) : d.follow k n ws = .ok r := by
  induction k, n, ws using follow_ind d with
  | case1 k n =>
    rw [List.nil_append, follow_cons] at hf
    cases hl : d.look n [] with
    | error e => rw [hl] at hf; cases hf
    | ok m =>
      rw [hl] at hf
      obtain ⟨up, es, mo, l, hn, h⟩ := look_ok.mp hl
      have hm : m = n := by
        rcases h with ⟨-, h⟩ | ⟨h, -⟩
        · exact h
        · exact absurd (Or.inl rfl) h
      subst hm
      have ht : d.text m = none := by unfold text; rw [hn]
      simp only [ht, follow_nil] at hf
      rw [follow_nil, hf]
  | case2 k n w ws e he => rw [List.cons_append, follow_cons, he] at hf; cases hf
  | case3 k n w ws m hl ht ih =>
    rw [List.cons_append, follow_cons, hl] at hf; simp only [ht] at hf
    rw [follow_cons, hl]; simp only [ht]
    exact ih hf
  | case4 n w ws m t hl ht => rw [List.cons_append, follow_cons, hl] at hf; simp only [ht] at hf; cases hf
  | case5 n w ws m t k hl ht ih =>
    rw [List.cons_append, follow_cons, hl] at hf; simp only [ht] at hf
    rw [follow_cons, hl]; simp only [ht]
    rw [← List.append_assoc] at hf
    exact ih hf

/-- The names of a path to a directory lead to it without the final separator. -/
theorem follow_filenames {d : Vol} {p : Str} {n : Nat} (h : d.find p = .ok n) : d.follow 40 (d.start d.cwd p) (filenames p) = .ok n := by
  unfold find at h
  split at h
  · cases h
  · unfold relElements at h
    split at h
    · exact follow_final d _ _ _ _ h
    · rwa [List.append_nil] at h

/-- An entry of a directory is found at the path of the entry. -/
theorem findLink_entry {d : Vol} {p w : Str} {n : Nat} (h : d.find p = .ok n) (hw : IsName w) : d.findLink (appendText p w) = d.look n w := by
  have hp : p ≠ [] := by rintro rfl; simp [find] at h
  have hs : startsSlash w = false := startsSlash_name hw.2
  have hu : relElements w = [w] := by
    unfold relElements
    rw [filenames_noSlash hw.2, if_neg hw.1]
    have : endsSlash w = false := by
      unfold endsSlash
      rw [beq_eq_false_iff_ne]
      intro hl
      exact hw.2 (List.mem_of_getLast? hl)
    simp [this]
  have hpl : d.place (appendText p w) = .ok (n, w) := by
    refine place_ok.mpr ⟨by unfold appendText; simp [hp], ?_⟩
    rw [relElements_appendText hs hw.1, hu, placeOf_ok]
    refine .inr ⟨filenames p, rfl, ?_⟩
    rw [show d.start d.cwd (appendText p w) = d.start d.cwd p by unfold start; rw [startsSlash_appendText hs]]
    exact follow_filenames h
  unfold findLink
  rw [hpl]

theorem look_mem {d : Vol} (hd : d.Tidy) {n : Nat} {up : Nat} {es : List (Str × Nat)} {mo : Mode} {l : Nat} (hn : d.node n = some ⟨.dir up es, mo, l⟩)
    {w : Str} (hw : IsPlain w) : (∃ m, d.look n w = .ok m) ↔ w ∈ es.map Prod.fst := by
  have hw' : ¬ (w = [] ∨ w = dot) := by rintro (h | h); exact hw.1.1 h; exact hw.2.1 h
  constructor
  · rintro ⟨m, h⟩
    obtain ⟨up', es', mo', l', hn', h⟩ := look_ok.mp h
    rw [hn] at hn'
    cases hn'
    rcases h with ⟨h, -⟩ | ⟨-, -, h⟩
    · exact absurd h hw'
    · rw [if_neg hw.2.2] at h
      exact List.mem_map.mpr ⟨_, lookup_some_mem h, rfl⟩
  · intro h
    obtain ⟨m, hm⟩ := lookup_of_mem h
    exact ⟨m, look_ok.mpr ⟨up, es, mo, l, hn, .inr ⟨hw', ((hd n _ hn).2 _ _ (lookup_some_mem hm)).2.2.2, by rw [if_neg hw.2.2]; exact hm⟩⟩⟩

theorem follow_error (d : Vol) (k n : Nat) (ws : List Str) (e : Errno) (hf : d.follow k n ws = .error e) : e = .ENOENT ∨ e = .ENOTDIR ∨ e = .ELOOP := by
  induction k, n, ws using follow_ind d with
  | case1 k n => rw [follow_nil] at hf; cases hf
  | case2 k n w ws e' he =>
    rw [follow_cons, he] at hf
    cases hf
    unfold look at he
    repeat' (split at he)
    all_goals first | (cases he; done) | (cases he; simp)
  | case3 k n w ws m hl ht ih => rw [follow_cons, hl] at hf; simp only [ht] at hf; exact ih hf
  | case4 n w ws m t hl ht => rw [follow_cons, hl] at hf; simp only [ht] at hf; cases hf; simp
  | case5 n w ws m t k hl ht ih => rw [follow_cons, hl] at hf; simp only [ht] at hf; exact ih hf

theorem listing_error {d : Vol} {p : Str} {e : Errno} (h : d.listing p = .error e) : e = .ENOENT ∨ e = .ENOTDIR ∨ e = .ELOOP := by
  unfold listing at h
  cases hf : d.find p with
  | error e' =>
    rw [hf] at h
    cases h
    unfold find at hf
    split at hf
    · cases hf; simp
    · exact follow_error _ _ _ _ _ hf
  | ok n =>
    rw [hf] at h
    dsimp only at h
    split at h <;> cases h <;> simp

end Spec.Vol

theorem appendText_pathname {s w : Str} (hw : IsName w) : (mkPath .posix (appendText s w)).pathname = appendText s w := by
  rw [mkPath_pathname]
  apply stored_eq_self
  intro h
  rw [filenames_appendText] at h
  simp [filenames_noSlash hw.2, hw.1] at h

theorem dirents {d : Vol} (hd : d.Tidy) {n : Nat} {up : Nat} {es : List (Str × Nat)} {mo : Mode} {l : Nat} (hn : d.node n = some ⟨.dir up es, mo, l⟩) :
    ∀ e ∈ es.map (fun e => (⟨e.1, d.dtype e.2⟩ : Dirent)), ¬ e.dot ∧ IsName e.name := by
  intro e he
  obtain ⟨⟨v, k⟩, h7, rfl⟩ := List.mem_map.mp he
  obtain ⟨h8, h9, h10, -⟩ := (hd n _ hn).2 v k h7
  exact ⟨by simp only [Dirent.dot]; rintro (h | h); exact h9 h; exact h10 h, h8⟩

theorem dotDot_prefix {l pre rest : List Dirent} {ent : Dirent} (hl : ∀ e ∈ l, ¬ e.dot)
    (he : (⟨dot, .dir⟩ : Dirent) :: ⟨dotdot, .dir⟩ :: l = pre ++ ent :: rest) (hp : ∀ e ∈ pre, e.dot) (hx : ¬ ent.dot) : l = ent :: rest := by
  rcases pre with _ | ⟨a, _ | ⟨b, _ | ⟨c, pre⟩⟩⟩
  · simp only [List.nil_append, List.cons.injEq] at he
    exact absurd (by rw [← he.1]; simp [Dirent.dot]) hx
  · simp only [List.cons_append, List.nil_append, List.cons.injEq] at he
    exact absurd (by rw [← he.2.1]; simp [Dirent.dot]) hx
  · simp only [List.cons_append, List.nil_append, List.cons.injEq] at he
    exact he.2.2
  · simp only [List.cons_append, List.cons.injEq] at he
    exact absurd (hp c (by simp)) (hl c (by rw [he.2.2]; simp))

/-- The paths of the entries. -/
def entriesOf (p : Str) (es : List (Str × Nat)) : List Path := es.map fun e => mkPath .posix (appendText p e.1)

theorem visit_at {p : Path} (hp : Shape p) {d : Vol} (hd : d.Tidy) {opts : DirOptions} {m up : Nat} {es : List (Str × Nat)} {mo : Mode} {nl : Nat}
    (hf : d.find p.pathname = .ok m) (hm : d.node m = some ⟨.dir up es, mo, nl⟩) {n k : Nat} (hn : 3 ≤ n) (hk : es.length < k) :
    onDisk (visit n k p opts) d = (.ok (entriesOf p.pathname es, none), ⟨d, []⟩) := by
  have hl : d.listing p.pathname = .ok (⟨dot, .dir⟩ :: ⟨dotdot, .dir⟩ :: es.map fun e => ⟨e.1, d.dtype e.2⟩) := by
    unfold Vol.listing; rw [hf]; simp only [hm]
  have hno := dirents hd hm
  have hvs : entriesOf p.pathname es = (es.map fun e => (⟨e.1, d.dtype e.2⟩ : Dirent)).map fun e => mkPath .posix (appendText p.pathname e.name) := by
    rw [List.map_map]; rfl
  have hlen : (es.map fun e => (⟨e.1, d.dtype e.2⟩ : Dirent)).length < k := by simpa using hk
  rw [hvs]
  generalize (es.map fun e => (⟨e.1, d.dtype e.2⟩ : Dirent)) = dl at hl hno hlen
  suffices h : wp volLaws.step (fun o σ => o = .ok (dl.map fun e => mkPath .posix (appendText p.pathname e.name), none) ∧ σ = ⟨d, []⟩) (visit n k p opts) ⟨d, []⟩ by
    have := onDisk_wp h
    exact Prod.ext this.1 this.2
  unfold visit
  simp only [Prog.bind_eq]
  apply wp_bind
  refine wpK_new hp ?_ ?_ ?_ ?_
  · intro e he
    have he : .error e = d.listing p.pathname := he
    rw [hl] at he; cases he
  · intro l he
    have he : .ok l = d.listing p.pathname := he
    rw [hl] at he
    cases he
    constructor
    · unfold dotCount
      rw [List.countP_cons, List.countP_cons, List.countP_eq_zero.mpr (by intro e he; simpa using (hno e he).1)]
      split <;> split <;> omega
    · intro e he
      rcases List.mem_cons.mp he with rfl | he
      · simp [IsName]
      · rcases List.mem_cons.mp he with rfl | he
        · simp [IsName]
        · exact (hno e he).2
  · intro l he hall
    have he : .ok l = d.listing p.pathname := he
    rw [hl] at he
    cases he
    have : dl = [] := by
      cases dl with
      | nil => rfl
      | cons a dl => exact absurd (hall a (by simp)) (hno a (by simp)).1
    subst this
    cases k <;> exact ⟨rfl, rfl⟩
  · intro l h pre ent rest he hl' hp' hx hh
    have he : .ok l = d.listing p.pathname := he
    rw [hl] at he
    cases he
    have hdl := dotDot_prefix (fun e he => (hno e he).1) hl' hp' hx
    subst hdl
    exact wpK_visitFrom (show 0 < n by omega) hh rest k (Stream.at ⟨some h, p, .default⟩ ent (mkPath .posix (appendText p.pathname ent.name)))
      ⟨rfl, hp⟩ (by simp at hlen; omega) fun e he => hno e (by simp [he])

theorem isEmpty_at {p : Path} (hp : Shape p) {d : Vol} (hd : d.Tidy) {m up : Nat} {es : List (Str × Nat)} {mo : Mode} {nl : Nat}
    (hf : d.find p.pathname = .ok m) (hm : d.node m = some ⟨.dir up es, mo, nl⟩) {n : Nat} (hn : 3 ≤ n) (c : Code) :
    onDisk (isEmptyFile n p (.ref c)) d = (.ok (es.isEmpty, .ref none), ⟨d, []⟩) := by
  have hl : d.listing p.pathname = .ok (⟨dot, .dir⟩ :: ⟨dotdot, .dir⟩ :: es.map fun e => ⟨e.1, d.dtype e.2⟩) := by
    unfold Vol.listing; rw [hf]; simp only [hm]
  have hno := dirents hd hm
  have hst : (getFileStatus p none (.ref none)).eval kernelDir ⟨d, []⟩ = (.ok ((statusOf (Vol.attr m ⟨.dir up es, mo, nl⟩), some (Vol.attr m ⟨.dir up es, mo, nl⟩)), .ref none), ⟨d, []⟩) :=
    eval_getFileStatus_ok (m := kernelDir) (s := (⟨d, []⟩ : Os Vol)) (s' := (⟨d, []⟩ : Os Vol)) (by
      show ((d.attrs (d.find p.pathname) : Except Errno Stat), (⟨d, []⟩ : Os Vol)) = _
      rw [attrs_node hf hm]; rfl)
  unfold onDisk isEmptyFile
  simp only [Prog.bind_eq]
  rw [eval_bind_ok hst, statusOf_attr]
  show (isEmptyDirectory n p (.ref none)).eval kernelDir ⟨d, []⟩ = _
  have hes : es.isEmpty = (es.map fun e => (⟨e.1, d.dtype e.2⟩ : Dirent)).isEmpty := by simp
  rw [hes]
  generalize (es.map fun e => (⟨e.1, d.dtype e.2⟩ : Dirent)) = dl at hl hno
  suffices h : wp volLaws.step (fun o σ => o = .ok (dl.isEmpty, .ref none) ∧ σ = ⟨d, []⟩) (isEmptyDirectory n p (.ref none)) ⟨d, []⟩ by
    have := onDisk_wp h
    exact Prod.ext this.1 this.2
  unfold isEmptyDirectory
  simp only [Prog.bind_eq]
  apply wp_bind
  refine wpK_new hp ?_ ?_ ?_ ?_
  · intro e he
    have he : .error e = d.listing p.pathname := he
    rw [hl] at he; cases he
  · intro l he
    have he : .ok l = d.listing p.pathname := he
    rw [hl] at he
    cases he
    constructor
    · unfold dotCount
      rw [List.countP_cons, List.countP_cons, List.countP_eq_zero.mpr (by intro e he; simpa using (hno e he).1)]
      split <;> split <;> omega
    · intro e he
      rcases List.mem_cons.mp he with rfl | he
      · simp [IsName]
      · rcases List.mem_cons.mp he with rfl | he
        · simp [IsName]
        · exact (hno e he).2
  · intro l he hall
    have he : .ok l = d.listing p.pathname := he
    rw [hl] at he
    cases he
    have : dl = [] := by
      cases dl with
      | nil => rfl
      | cons a dl => exact absurd (hall a (by simp)) (hno a (by simp)).1
    subst this
    exact ⟨rfl, rfl⟩
  · intro l h pre ent rest he hl' hp' hx hh
    have he : .ok l = d.listing p.pathname := he
    rw [hl] at he
    cases he
    have hdl := dotDot_prefix (fun e he => (hno e he).1) hl' hp' hx
    subst hdl
    apply wp_bind
    exact wpK_destroy rfl hh ⟨rfl, rfl⟩

theorem visit_error {p : Path} (hp : Shape p) {d : Vol} {opts : DirOptions} {e : Errno} (hl : d.listing p.pathname = .error e) (n k : Nat) :
    onDisk (visit n k p opts) d = (.ok ([], some e), ⟨d, []⟩) := by
  suffices h : wp volLaws.step (fun o σ => o = .ok ([], some e) ∧ σ = ⟨d, []⟩) (visit n k p opts) ⟨d, []⟩ by
    have := onDisk_wp h
    exact Prod.ext this.1 this.2
  have hne : e ≠ .EACCES := by rcases Vol.listing_error hl with rfl | rfl | rfl <;> decide
  unfold visit
  simp only [Prog.bind_eq]
  apply wp_bind
  refine wpK_new hp ?_ ?_ ?_ ?_
  · intro e' he
    have he : .error e' = d.listing p.pathname := he
    rw [hl] at he; cases he
    rw [if_neg fun h => hne h.2]
    cases k <;> exact ⟨rfl, rfl⟩
  · intro l he
    have he : .ok l = d.listing p.pathname := he
    rw [hl] at he; cases he
  · intro l he
    have he : .ok l = d.listing p.pathname := he
    rw [hl] at he; cases he
  · intro l h pre ent rest he
    have he : .ok l = d.listing p.pathname := he
    rw [hl] at he; cases he

/-! ## C130 -/

/-- **C130.** On a file system with hard links and symbolic links whose directories are in order, listing a directory with a
`directory_iterator` gives each of its entries once: the paths are `p / name` for names other than `.` and `..`, none occurs twice,
and `p / name` is among them exactly if `symlink_status` finds something there. There is no error, the disk is the same afterwards
and no directory stream is left open. `is_empty` answers whether the listing is empty. This holds also if `p` leads to the directory
through symbolic links. -/
theorem c130_lists (p : Path) (hp : Value p) (d : Vol) (hd : d.Tidy) (opts : DirOptions) (perms : Mode)
    (hs : onVol (status p (.ref none)) d = (.ok (⟨.directory, perms⟩, .ref none), d)) :
    ∃ vs : List Path, (∀ n k, 3 ≤ n → vs.length < k → onDisk (visit n k p opts) d = (.ok (vs, none), ⟨d, []⟩)) ∧
      vs.Nodup ∧
      (∀ v ∈ vs, ∃ w, IsPlain w ∧ append .posix p (mkPath .posix w) = .ok v) ∧
      (∀ w v, IsPlain w → append .posix p (mkPath .posix w) = .ok v →
        (v ∈ vs ↔ ∃ st, onVol (symlinkStatus v (.ref none)) d = (.ok (st, .ref none), d))) ∧
      ∀ n c, 3 ≤ n → onDisk (isEmptyFile n p (.ref c)) d = (.ok (vs.isEmpty, .ref none), ⟨d, []⟩) := by
  obtain ⟨s, h1, h2⟩ := status_seen.mp hs
  obtain ⟨m, i, hf, hm, rfl⟩ := attrs_seen h1
  rw [statusOf_attr] at h2
  obtain ⟨b, mo, nl⟩ := i
  cases b with
  | file x => cases h2
  | link x => cases h2
  | dir up es =>
    have hsh := hp.shape
    have hto : ∀ w, IsPlain w → append .posix p (mkPath .posix w) = .ok (mkPath .posix (appendText p.pathname w)) := fun w hw => by
      rw [append_name hsh, entryPath_eq hw.1]
    have hpl : ∀ e ∈ es, IsPlain e.1 := fun e he => by
      obtain ⟨h1, h2, h3, -⟩ := (hd m _ hm).2 e.1 e.2 he
      exact ⟨h1, h2, h3⟩
    have hinj : ∀ v w, IsPlain v → IsPlain w → mkPath .posix (appendText p.pathname v) = mkPath .posix (appendText p.pathname w) → v = w := by
      intro v w hv hw h
      have := congrArg Path.pathname h
      rw [appendText_pathname hv.1, appendText_pathname hw.1] at this
      unfold appendText at this
      exact List.append_cancel_left this
    refine ⟨entriesOf p.pathname es, fun n k hn hk => visit_at hsh hd hf hm hn (by simpa [entriesOf] using hk), ?_, ?_, ?_, fun n c hn => ?_⟩
    · have hnd := (hd m _ hm).1
      unfold entriesOf
      have : es.map (fun e => mkPath .posix (appendText p.pathname e.1)) = (es.map Prod.fst).map fun w => mkPath .posix (appendText p.pathname w) := by
        rw [List.map_map]; rfl
      rw [this]
      have hall : ∀ w ∈ es.map Prod.fst, IsPlain w := by
        intro w hw
        obtain ⟨e, he, rfl⟩ := List.mem_map.mp hw
        exact hpl e he
      exact List.pairwise_map.mpr (List.Pairwise.imp_of_mem (fun ha hb hne h => hne (hinj _ _ (hall _ ha) (hall _ hb) h)) hnd)
    · intro v hv
      obtain ⟨e, he, rfl⟩ := List.mem_map.mp hv
      exact ⟨e.1, hpl e he, hto _ (hpl e he)⟩
    · intro w v hw hv
      rw [hto w hw] at hv
      cases hv
      have key : (∃ st, onVol (symlinkStatus (mkPath .posix (appendText p.pathname w)) (.ref none)) d = (.ok (st, .ref none), d)) ↔ ∃ k, d.look m w = .ok k := by
        have hfl := Vol.findLink_entry hf hw.1
        constructor
        · rintro ⟨st, h⟩
          obtain ⟨s, h3, -⟩ := symlinkStatus_seen.mp h
          obtain ⟨k, -, h4, -⟩ := attrs_seen h3
          rw [appendText_pathname hw.1, hfl] at h4
          exact ⟨k, h4⟩
        · rintro ⟨k, hk⟩
          obtain ⟨i, hi⟩ := Option.isSome_iff_exists.mp (Vol.look_isSome hk)
          exact ⟨_, eval_lstat_at (by rw [appendText_pathname hw.1, hfl]; exact hk) hi⟩
      rw [key, Vol.look_mem hd hm hw]
      constructor
      · intro h
        obtain ⟨e, he, heq⟩ := List.mem_map.mp h
        rw [← hinj _ _ (hpl e he) hw heq]
        exact List.mem_map.mpr ⟨e, he, rfl⟩
      · intro h
        obtain ⟨e, he, rfl⟩ := List.mem_map.mp h
        exact List.mem_map.mpr ⟨e, he, rfl⟩
    · rw [isEmpty_at hsh hd hf hm hn c]
      simp [entriesOf]

/-- **C130.** What is not a directory is not listed: where `status` reports an error the listing reports the same error, and where
it finds something else the listing reports `ENOTDIR`. Nothing is shown and the disk is the same afterwards. -/
theorem c130_fails (p : Path) (hp : Value p) (d : Vol) (opts : DirOptions) (n k : Nat) (st : FStatus) :
    (∀ e, onVol (status p (.ref none)) d = (.ok (st, .ref (some e)), d) → onDisk (visit n k p opts) d = (.ok ([], some e), ⟨d, []⟩)) ∧
    (onVol (status p (.ref none)) d = (.ok (st, .ref none), d) → st.type ≠ .directory →
      onDisk (visit n k p opts) d = (.ok ([], some .ENOTDIR), ⟨d, []⟩)) := by
  refine ⟨fun e hs => visit_error hp.shape ?_ n k, fun hs ht => visit_error hp.shape ?_ n k⟩
  · cases h : d.attrs (d.find p.pathname) with
    | ok s => rw [onVol_status_ok h] at hs; simp at hs
    | error e' =>
      rw [onVol_status_error h] at hs
      simp only [Prod.mk.injEq, Except.ok.injEq, EcArg.ref.injEq, Option.some.injEq, and_true] at hs
      obtain ⟨-, rfl⟩ := hs
      unfold Vol.listing
      unfold Vol.attrs at h
      cases hf : d.find p.pathname with
      | error e => rw [hf] at h; cases h; rfl
      | ok m =>
        rw [hf] at h
        dsimp only at h ⊢
        cases hm : d.node m with
        | none => rw [hm] at h; cases h; rfl
        | some i => rw [hm] at h; cases h
  · obtain ⟨s, h1, h2⟩ := status_seen.mp hs
    obtain ⟨m, ⟨b, mo, nl⟩, hf, hm, rfl⟩ := attrs_seen h1
    rw [statusOf_attr] at h2
    unfold Vol.listing
    rw [hf]
    dsimp only
    rw [hm]
    cases b with
    | dir up es => subst h2; exact absurd rfl ht
    | file x => rfl
    | link x => rfl

/-- **C130.** `is_empty` of a regular file answers whether `file_size` is 0. -/
theorem c130_file (p : Path) (d : Vol) (n : Nat) (c : Code) (perms : Mode)
    (hs : onVol (status p (.ref none)) d = (.ok (⟨.regular, perms⟩, .ref none), d)) :
    ∃ size, onVol (fileSize p (.ref c)) d = (.ok (size, .ref none), d) ∧
      onDisk (isEmptyFile n p (.ref c)) d = (.ok (size == 0, .ref none), ⟨d, []⟩) := by
  obtain ⟨s, h1, h2⟩ := status_seen.mp hs
  obtain ⟨m, ⟨b, mo, nl⟩, hf, hm, rfl⟩ := attrs_seen h1
  rw [statusOf_attr] at h2
  cases b with
  | dir up es => cases h2
  | link x => cases h2
  | file x =>
    refine ⟨x, ?_, ?_⟩
    · unfold fileSize
      simp only [Prog.bind_eq]
      rw [onVol_bind (onVol_getStatus_ok h1), statusOf_attr]
      rfl
    · have hst : (getFileStatus p none (.ref none)).eval kernelDir ⟨d, []⟩ = (.ok ((statusOf (Vol.attr m ⟨.file x, mo, nl⟩), some (Vol.attr m ⟨.file x, mo, nl⟩)), .ref none), ⟨d, []⟩) :=
        eval_getFileStatus_ok (m := kernelDir) (s := (⟨d, []⟩ : Os Vol)) (s' := (⟨d, []⟩ : Os Vol)) (by
          show ((d.attrs (d.find p.pathname) : Except Errno Stat), (⟨d, []⟩ : Os Vol)) = _
          rw [attrs_node hf hm]; rfl)
      unfold onDisk isEmptyFile
      simp only [Prog.bind_eq]
      rw [eval_bind_ok hst, statusOf_attr]
      rfl

/-- **C130.** Directories stay in order: whatever operations are carried out, in whatever order, each directory then again has
names only, none twice, and something behind each. -/
theorem c130_tidy {α : Type} (q : Prog α) (s : Os Vol) (h : s.disk.Tidy) : (q.eval kernelDir s).2.disk.Tidy := eval_tidy q h

/-- A file system with nothing but its root. -/
theorem c130_start (mo : Mode) (nl : Nat) : (⟨fun n => if n = 0 then some ⟨.dir 0 [], mo, nl⟩ else none, 0, 1⟩ : Vol).Tidy := by
  intro n i h
  simp only at h
  split at h
  · cases h; exact ⟨by simp, by simp⟩
  · cases h

theorem linksVol_tidy : linksVol.Tidy := by
  intro n i h
  rcases n with _ | _ | _ | _ | _ | _ | _ | _ | n <;> simp only [linksVol] at h <;> cases h
  all_goals first
    | trivial
    | (refine ⟨by decide, ?_⟩
       intro v k hv
       simp only [List.mem_cons, Prod.mk.injEq, List.not_mem_nil, or_false] at hv
       first
       | (rcases hv with ⟨rfl, rfl⟩ | ⟨rfl, rfl⟩ | ⟨rfl, rfl⟩ <;> exact ⟨by simp [IsName], by decide, by decide, rfl⟩)
       | (obtain ⟨rfl, rfl⟩ := hv; exact ⟨by simp [IsName], by decide, by decide, rfl⟩))

/-- Through the symbolic link `d/l`, which leads to `o`. -/
example : Value (mkPath .posix "d/l".toList) ∧ linksVol.Tidy ∧
    onVol (status (mkPath .posix "d/l".toList) (.ref none)) linksVol = (.ok (⟨.directory, 0o755⟩, .ref none), linksVol) ∧
    onDisk (visit 3 2 (mkPath .posix "d/l".toList) .none) linksVol = (.ok ([mkPath .posix "d/l/x".toList], none), ⟨linksVol, []⟩) :=
  ⟨.reach (reach_mkPath _), linksVol_tidy, Prod.ext (by rfl) rfl, Prod.ext (by rfl) (by rfl)⟩

end Asap
