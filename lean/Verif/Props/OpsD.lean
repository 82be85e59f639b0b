import Verif.Props.OpsC

/-!
# C41: `weakly_canonical`

Stated for a file system that does not change while it is looked at.
-/

namespace Asap
open Spec

/-- In the state `s`: attributes `f`, the resolver `rp`, the working directory `cwd`. Looking
changes nothing. -/
structure Spec.Still (m : Machine) (s : m.State) (f : Str → Except Errno Stat) (rp : Str → Except Errno Str)
    (cwd : Str) : Prop where
  stat : ∀ p, m.step (.stat p) s = (f p, s)
  realpath : ∀ p, m.step (.realpath p) s = (rp p, s)
  size : ∃ n : Int, 0 < n ∧ m.step .pathconf s = (n, s)
  getcwd : ∀ n, m.step (.getcwd n) s = (.ok cwd, s)

/-- A directory text followed by an element: one separator between them, if needed;
a root replaces everything. -/
def Spec.addElem (s w : Str) : Str :=
  if startsSlash w then w else if s = [] ∨ endsSlash s = true then s ++ w else s ++ '/' :: w

/-- The path made of the first `k` elements of `s`. -/
def Spec.prefixOf (s : Str) (k : Nat) : Str := ((elements s).take k).foldl addElem []

/-- The absolute form of a text. -/
def Spec.absText (cwd s : Str) : Str := if startsSlash s then s else addElem (stored cwd) s

/-- The answers of `stat` that mean there is no such file. -/
def Spec.Missing (e : Errno) : Prop := e = .ENOENT ∨ e = .ENOTDIR

theorem addElem_appendText {s w : Str} (hw : startsSlash w = false) : addElem s w = appendText s w := by
  unfold addElem appendText
  rw [hw, if_neg (by simp)]
  by_cases h : filePart s = []
  · rw [if_pos ((filePart_eq_nil_iff s).mp h), if_pos h]; simp
  · rw [if_neg (fun h' => h ((filePart_eq_nil_iff s).mpr h')), if_neg h]; simp

/-- Appending an element to a path, by text. -/
theorem append_elemPath {r : Path} (hr : Shape r) {w : Str} (hw : IsElem w) :
    ∃ q, append .posix r (elemPath w) = .ok q ∧ Shape q ∧ q.pathname = addElem r.pathname w := by
  refine ⟨_, hr.append (elemPath_shape hw), ?_, ?_⟩
  · split
    · exact elemPath_shape hw
    · exact mkPath_shape _
  · show Path.pathname (if startsSlash w = true then _ else _) = _
    by_cases hs : startsSlash w = true
    · rw [if_pos hs]; simp [addElem, hs, elemPath]
    · have hs' : startsSlash w = false := by simpa using hs
      rw [if_neg hs, addElem_appendText hs', mkPath_pathname]
      exact stored_appendText _ _ hs' hr.stored

theorem appendAll_elems {r : Path} (hr : Shape r) (ws : List Str) (hw : ∀ w ∈ ws, IsElem w) :
    ∃ q, appendAll r (ws.map elemPath) = .ok q ∧ Shape q ∧ q.pathname = ws.foldl addElem r.pathname := by
  induction ws generalizing r with
  | nil => exact ⟨r, rfl, hr, rfl⟩
  | cons w ws ih =>
    obtain ⟨q, h1, h2, h3⟩ := append_elemPath hr (hw w (by simp))
    obtain ⟨q', h4, h5, h6⟩ := ih h2 (fun x hx => hw x (by simp [hx]))
    refine ⟨q', ?_, h5, by rw [h6, h3]; rfl⟩
    simp only [List.map_cons, appendAll, h1]
    exact h4

/-- What the search loop finds. -/
theorem eval_existingPrefix {m : Machine} {s : m.State} {f : Str → Except Errno Stat} (hf : Attributes m s f)
    (ws : List Str) (hw : ∀ w ∈ ws, IsElem w) {r : Path} (hr : Shape r) :
    ∃ k q code, k ≤ ws.length ∧
      (existingPrefix (ws.map elemPath) r).eval m s = (.ok (q, (ws.drop k).map elemPath, code), s) ∧
      Shape q ∧ q.pathname = (ws.take k).foldl addElem r.pathname ∧
      (∀ j, 0 < j → j ≤ k → ∃ st, f ((ws.take j).foldl addElem r.pathname) = .ok st) ∧
      (k = ws.length → code = none) ∧
      (k < ws.length → ∃ e, f ((ws.take (k + 1)).foldl addElem r.pathname) = .error e ∧
        (Missing e → code = none) ∧ (¬ Missing e → code = some e)) := by
  induction ws generalizing r with
  | nil => exact ⟨0, r, none, Nat.le_refl _, rfl, hr, rfl, by omega, fun _ => rfl, by simp⟩
  | cons w ws ih =>
    obtain ⟨q, h1, h2, h3⟩ := append_elemPath hr (hw w (by simp))
    simp only [List.map_cons, existingPrefix, h1, Prog.bind_eq, Prog.ofRes_ok, Prog.ret_bind]
    cases hq : f q.pathname with
    | error e =>
      refine ⟨0, r, if FStatus.known { type := typeOfErr e } then none else some e, by simp, ?_, hr, rfl, by omega,
        by simp, ?_⟩
      · rw [eval_bind_ok (eval_status_error (e := e) (by rw [hf, hq]))]
        have nf : FStatus.exists' { type := typeOfErr e } = false := by
          unfold typeOfErr; split <;> rfl
        simp [nf]
      · intro _
        refine ⟨e, ?_, ?_, ?_⟩
        · rw [← hq, h3]; rfl
        · rintro (rfl | rfl) <;> rfl
        · intro h
          have : typeOfErr e = .none := by
            unfold typeOfErr
            rw [if_neg]
            exact h
          rw [this]; rfl
    | ok st =>
      obtain ⟨k, q', code, hk, h4, h5, h6, h7, h8, h9⟩ := ih (fun x hx => hw x (by simp [hx])) h2
      refine ⟨k + 1, q', code, by simpa using hk, ?_, h5, ?_, ?_, ?_, ?_⟩
      · rw [eval_bind_ok (eval_status_ok (st := st) (by rw [hf, hq]))]
        simp only [statusOf_exists, if_true]
        exact h4
      · rw [h6, h3]; rfl
      · intro j hj hjk
        cases j with
        | zero => omega
        | succ j =>
          by_cases hj0 : j = 0
          · subst hj0
            exact ⟨st, by rw [← hq, h3]; rfl⟩
          · obtain ⟨st', h⟩ := h7 j (by omega) (by omega)
            exact ⟨st', by rw [← h, h3]; rfl⟩
      · intro h; exact h8 (by simpa using h)
      · intro h
        obtain ⟨e, he, hm⟩ := h9 (by simpa using h)
        exact ⟨e, by rw [← he, h3]; rfl, hm⟩

theorem eval_doAbsolute {m : Machine} {s : m.State} {f rp cwd} (hs : Still m s f rp cwd) {p : Path} (hp : Shape p)
    (c : Code) : ∃ pa d, (doAbsolute p (.ref c)).eval m s = (.ok ((pa, d), .ref none), s) ∧
      pa.pathname = absText cwd p.pathname := by
  simp only [doAbsolute, hp.isAbsolute, clear_ref, Prog.bind_eq, Prog.ofRes_ok, Prog.ret_bind]
  by_cases h : startsSlash p.pathname = true
  · exact ⟨p, .default, by simp [h], by simp [absText, h]⟩
  · have h' : startsSlash p.pathname = false := by simpa using h
    obtain ⟨n, hn, hsz⟩ := hs.size
    refine ⟨mkPath .posix (appendText (mkPath .posix cwd).pathname p.pathname), mkPath .posix cwd, ?_, ?_⟩
    · simp only [h', Bool.false_eq_true, if_false, currentPath, clear_ref]
      rw [eval_bind_ok (a := (mkPath .posix cwd, .ref none)) (s' := s)]
      · simp only [isSet_none, Bool.false_eq_true, if_false]
        rw [(mkPath_shape cwd).append hp, h', if_neg (by simp)]
        rfl
      · rw [eval_call_of hsz, if_pos hn, eval_call_of (hs.getcwd _)]; rfl
    · rw [mkPath_pathname, mkPath_pathname, absText, if_neg h, addElem_appendText h']
      exact stored_appendText _ _ h' (by have := (mkPath_shape cwd).stored; rwa [mkPath_pathname] at this)

/-- `canonical` is the resolver applied to the absolute form. -/
theorem eval_canonical {m : Machine} {s : m.State} {f rp cwd} (hs : Still m s f rp cwd) {p : Path} (hp : Shape p)
    (c : Code) : (canonical p (.ref c)).eval m s =
      (match rp (absText cwd p.pathname) with
        | .ok r => .ok (mkPath .posix r, .ref none)
        | .error e => .ok (.default, .ref (some e)), s) := by
  obtain ⟨pa, d, h1, h2⟩ := eval_doAbsolute hs hp none
  simp only [canonical, clear_ref, Prog.bind_eq]
  have h3 := hs.realpath pa.pathname
  rw [h2] at h3
  rw [eval_bind_ok h1, h2, eval_call_of h3]
  cases rp (absText cwd p.pathname) <;> rfl

theorem foldl_addElem_ne_nil (ws : List Str) {s : Str} (h : s ≠ []) : ws.foldl addElem s ≠ [] := by
  induction ws generalizing s with
  | nil => exact h
  | cons w ws ih =>
    apply ih
    unfold addElem
    split
    · rename_i h'; intro hw; simp [hw, startsSlash] at h'
    · split <;> simp [h]

theorem elements_head_ne_nil {s w : Str} {ws : List Str} (h : elements s = w :: ws) : w ≠ [] := by
  unfold elements at h
  intro hw
  subst hw
  by_cases h1 : startsSlash s = true
  · simp [h1] at h
  · simp only [h1, Bool.false_eq_true, if_false, List.nil_append] at h
    cases hf : filenames s with
    | nil => simp [hf] at h
    | cons x xs =>
      simp [hf] at h
      exact (filenames_mem (s := s) (w := x) (by simp [hf])).1 h.1

theorem prefixOf_eq_nil {s : Str} {k : Nat} (hk : k ≤ (elements s).length) : prefixOf s k = [] ↔ k = 0 := by
  constructor
  · intro h
    cases k with
    | zero => rfl
    | succ k =>
      cases he : elements s with
      | nil => simp [he] at hk
      | cons w ws =>
        exfalso
        refine foldl_addElem_ne_nil (ws.take k) (s := addElem [] w) ?_ ?_
        · unfold addElem; split <;> simp [elements_head_ne_nil he]
        · simpa [prefixOf, he] using h
  · rintro rfl; rfl

/-- The complete behaviour when `p` does not exist. -/
theorem eval_weaklyCanonical_missing {m : Machine} {s : m.State} {f rp cwd} (hs : Still m s f rp cwd) {p : Path}
    (hp : Shape p) (hne : p.pathname ≠ []) (el : Bool) (c : Code) {e : Errno} (he : Missing e)
    (hf : f p.pathname = .error e) :
    ∃ k code, k ≤ (elements p.pathname).length ∧
      (∀ j, 0 < j → j ≤ k → ∃ st, f (prefixOf p.pathname j) = .ok st) ∧
      (k = (elements p.pathname).length → code = none) ∧
      (k < (elements p.pathname).length → ∃ e, f (prefixOf p.pathname (k + 1)) = .error e ∧
        (Missing e → code = none) ∧ (¬ Missing e → code = some e)) ∧
      ((code ≠ none ∨ (0 < k ∧ ∃ e, rp (absText cwd (prefixOf p.pathname k)) = .error e)) →
        (weaklyCanonical el p (.ref c)).eval m s = (.ok (mkPath .posix [], .ref none), s)) ∧
      (∀ cp, code = none → (k = 0 → cp = []) → (0 < k → rp (absText cwd (prefixOf p.pathname k)) = .ok cp) →
        ∃ q q', (weaklyCanonical el p (.ref c)).eval m s = (.ok (q, .ref none), s) ∧
          lexicallyNormal .posix el (mkPath .posix (((elements p.pathname).drop k).foldl addElem (stored cp))) = .ok q' ∧
          q.pathname = q'.pathname ∧ Shape q) := by
  have hel : ∀ w ∈ elements p.pathname, IsElem w := fun w hw => elements_isElem hw
  obtain ⟨k, q, code, hk, h1, h2, h3, h4, h5, h6⟩ := eval_existingPrefix (hs.stat) (elements p.pathname) hel
    (r := .default) .dflt
  rw [← hp.elems] at h1
  change q.pathname = prefixOf p.pathname k at h3
  have hk1 : FStatus.known { type := typeOfErr e } = true := by rcases he with rfl | rfl <;> rfl
  have hk2 : FStatus.exists' { type := typeOfErr e } = false := by rcases he with rfl | rfl <;> rfl
  have hq0 : (q.isEmpty = true) ↔ k = 0 := by
    rw [← prefixOf_eq_nil hk, ← h3]; simp [Path.isEmpty]
  refine ⟨k, code, hk, h4, h5, h6, ?_, ?_⟩
  · intro h
    simp only [weaklyCanonical, clear_ref, Prog.bind_eq]
    rw [if_neg (by simpa [Path.isEmpty] using hne), eval_bind_ok (eval_status_error (e := e) (by rw [hs.stat, hf]))]
    simp only [hk1, hk2, Bool.not_true, Bool.false_eq_true, if_false]
    rw [eval_bind_ok h1]
    cases code with
    | some e' => simp [Path.clear]
    | none =>
      rcases h with h | ⟨hk0, e', he'⟩
      · exact absurd rfl h
      · have hq1 : q.isEmpty = false := by
          rw [← Bool.not_eq_true, hq0]; omega
        simp only [hq1, Bool.not_false, and_self, if_true]
        rw [eval_bind_ok (a := (Path.default, some e')) (s' := s)]
        · simp [Path.clear]
        · rw [eval_bind_ok (by rw [eval_canonical hs h2, h3, he'])]
          rfl
  · intro cp hc0 hcp0 hcp1
    subst hc0
    obtain ⟨r, hr1, hr2, hr3⟩ : ∃ r : Path, Shape r ∧ r.pathname = stored cp ∧
        ∀ {β : Type} (g : Path × Code → Prog β) (G : Prog (Path × Code)),
        G = (if none = (none : Code) ∧ (!q.isEmpty) = true then
          (canonical q (.ref none)).bind fun x => .ret (x.1, x.2.code) else .ret (q, none)) →
        (G.bind g).eval m s = (g (r, none)).eval m s := by
      by_cases hk0 : k = 0
      · refine ⟨q, h2, ?_, ?_⟩
        · rw [hcp0 hk0, h3, (prefixOf_eq_nil hk).mpr hk0]; rfl
        · intro β g G hG
          rw [hG, hq0.mpr hk0]; rfl
      · refine ⟨mkPath .posix cp, mkPath_shape _, mkPath_pathname _, ?_⟩
        intro β g G hG
        have hq1 : q.isEmpty = false := by
          rw [← Bool.not_eq_true, hq0]; exact hk0
        rw [hG, if_pos (by simp [hq1])]
        rw [eval_bind_ok (a := (mkPath .posix cp, none)) (s' := s)]
        rw [eval_bind_ok (by rw [eval_canonical hs h2, h3, hcp1 (by omega)])]
        rfl
    obtain ⟨u, hu1, hu2, hu3⟩ := appendAll_elems hr1 ((elements p.pathname).drop k)
      (fun w hw => hel w (List.mem_of_mem_drop hw))
    obtain ⟨v, hv1, hv2, hv3⟩ := hu2.lexicallyNormal el
    obtain ⟨v', hv1', hv2', hv3'⟩ := (mkPath_shape u.pathname).lexicallyNormal el
    refine ⟨returned .posix el v, v', ?_, ?_, ?_, ?_⟩
    · simp only [weaklyCanonical, clear_ref, Prog.bind_eq]
      rw [if_neg (by simpa [Path.isEmpty] using hne), eval_bind_ok (eval_status_error (e := e) (by rw [hs.stat, hf]))]
      simp only [hk1, hk2, Bool.not_true, Bool.false_eq_true, if_false]
      rw [eval_bind_ok h1]
      rw [hr3 _ _ rfl]
      simp only [ne_eq, not_true_eq_false, if_false, hu1, Prog.ofRes_ok, Prog.ret_bind, hv1, eval_ret]
    · rw [← hr2, ← hu3]; exact hv1'
    · rw [hv3', mkPath_pathname, hu2.stored, ← hv3]
      cases el
      · simp only [returned, Path.moved, Bool.false_eq_true, if_false]
        rw [mkPath_pathname, hv2.shape.stored]
      · rfl
    · cases el
      · exact mkPath_shape _
      · exact hv2.shape

/-- C41, the part that holds, in a file system that does not change. The empty path and every path
that exists: what `canonical` gives. If the look-up of `p` fails for another
reason than a missing file, that reason is reported. If `p` is missing and its first `k`
elements are the longest existing prefix (the next one being missing): the
canonical form of the prefix followed by the other elements, lexically normalised.
Not covered, because false (`c41_violated`): failures of `canonical` on the prefix. -/
theorem c41_weakly_canonical_partial {m : Machine} {s : m.State} {f rp cwd} (hs : Still m s f rp cwd) {p : Path}
    (hp : Value p) (el : Bool) (c : Code) :
    (p.pathname = [] → (weaklyCanonical el p (.ref c)).eval m s = (canonical (mkPath .posix []) (.ref c)).eval m s) ∧
    (∀ st, p.pathname ≠ [] → f p.pathname = .ok st →
      (weaklyCanonical el p (.ref c)).eval m s = (canonical p (.ref c)).eval m s) ∧
    (∀ e, p.pathname ≠ [] → f p.pathname = .error e → ¬ Missing e →
      (weaklyCanonical el p (.ref c)).eval m s = (.ok (.default, .ref (some e)), s)) ∧
    (∀ e, p.pathname ≠ [] → f p.pathname = .error e → Missing e →
      ∀ k, k ≤ p.names.length → (∀ j, 0 < j → j ≤ k → ∃ st, f (prefixOf p.pathname j) = .ok st) →
      (k < p.names.length → ∃ e', f (prefixOf p.pathname (k + 1)) = .error e' ∧ Missing e') →
      ∀ cp, (k = 0 → cp = []) → (0 < k → rp (absText cwd (prefixOf p.pathname k)) = .ok cp) →
      ∃ q q', (weaklyCanonical el p (.ref c)).eval m s = (.ok (q, .ref none), s) ∧
        lexicallyNormal .posix el (mkPath .posix ((p.names.drop k).foldl addElem (stored cp))) = .ok q' ∧
        q.pathname = q'.pathname) := by
  refine ⟨?_, ?_, ?_, ?_⟩
  · intro h
    simp only [weaklyCanonical, clear_ref, Prog.bind_eq]
    rw [if_pos (by simpa [Path.isEmpty] using h), eval_canonical hs (mkPath_shape _), eval_canonical hs (mkPath_shape _)]
  · intro st h hf
    simp only [weaklyCanonical, clear_ref, Prog.bind_eq]
    rw [if_neg (by simpa [Path.isEmpty] using h), eval_bind_ok (eval_status_ok (st := st) (by rw [hs.stat, hf]))]
    simp only [statusOf_known, statusOf_exists, Bool.not_true, Bool.false_eq_true, if_false, if_true]
    rw [eval_canonical hs hp.shape, eval_canonical hs hp.shape]
  · intro e h hf hm
    have ht : typeOfErr e = .none := if_neg hm
    simp only [weaklyCanonical, clear_ref, Prog.bind_eq]
    rw [if_neg (by simpa [Path.isEmpty] using h), eval_bind_ok (eval_status_error (e := e) (by rw [hs.stat, hf]))]
    rw [ht]
    rfl
  · intro e hne hf hm k hk hok hmiss cp hcp0 hcp1
    rw [hp.shape.names] at hk hmiss ⊢
    obtain ⟨k', code, hk', h4, h5, h6, _, h7⟩ := eval_weaklyCanonical_missing hs hp.shape hne el c hm hf
    have hkk : k' = k := by
      rcases Nat.lt_trichotomy k' k with h | h | h
      · obtain ⟨e', he', _⟩ := h6 (by omega)
        obtain ⟨st, hst⟩ := hok (k' + 1) (by omega) (by omega)
        rw [hst] at he'; cases he'
      · exact h
      · obtain ⟨e', he', _⟩ := hmiss (by omega)
        obtain ⟨st, hst⟩ := h4 (k + 1) (by omega) (by omega)
        rw [hst] at he'; cases he'
    subst hkk
    have hcode : code = none := by
      by_cases h : k' = (elements p.pathname).length
      · exact h5 h
      · obtain ⟨e', he', hc, _⟩ := h6 (by omega)
        obtain ⟨e'', he'', hm'⟩ := hmiss (by omega)
        rw [he'] at he''; cases he''
        exact hc hm'
    obtain ⟨q, q', a1, a2, a3, _⟩ := h7 cp hcode hcp0 hcp1
    exact ⟨q, q', a1, a2, a3⟩

/-- A file system for the examples: the attributes and the resolver are given, everything else is
unsupported. -/
def Spec.lookOnly (f : Str → Except Errno Stat) (rp : Str → Except Errno Str) (cwd : Str) : Machine where
  State := Unit
  step := fun c s => match c with
    | .stat p => (f p, s)
    | .realpath p => (rp p, s)
    | .getcwd _ => (.ok cwd, s)
    | .pathconf => ((4096 : Int), s)
    | .winTest .. => ((false, none), s)
    | .win c => (c.fails, s)
    | .port c => (c.fails, s)
    | .getenv _ => ((none : Option Str), s)
    | .lstat _ | .mkdir .. | .remove _ | .rename .. | .truncate .. | .symlink .. | .link .. | .readlink ..
    | .chdir _ | .openf .. | .close _ | .fchmod .. | .ftruncate .. | .sendfile ..
    | .read .. | .write .. | .fchmodat .. | .utimensat .. | .statvfs _ | .opendir _ | .readdir _
    | .closedir _ | .winReadlink _ => (.error .ENOSYS, s)

theorem lookOnly_still (f rp cwd) : Still (lookOnly f rp cwd) () f rp cwd :=
  ⟨fun _ => rfl, fun _ => rfl, ⟨4096, by decide, rfl⟩, fun _ => rfl⟩

/-- C41 is false: if the longest existing prefix cannot be resolved (here: its absolute form is too
long), the result is the empty path and no error is reported. -/
theorem c41_violated (el : Bool) : ∃ (m : Machine) (s : m.State) (f : Str → Except Errno Stat)
    (rp : Str → Except Errno Str) (cwd : Str), Still m s f rp cwd ∧
    f "x".toList = .ok Stat.zero ∧ f "x/y".toList = .error .ENOENT ∧
    (canonical (mkPath .posix "x".toList) (.ref none)).eval m s = (.ok (.default, .ref (some .ENAMETOOLONG)), s) ∧
    (weaklyCanonical el (mkPath .posix "x/y".toList) (.ref none)).eval m s = (.ok (mkPath .posix [], .ref none), s) := by
  refine ⟨lookOnly (fun p => if p = "x".toList then .ok Stat.zero else .error .ENOENT) (fun _ => .error .ENAMETOOLONG)
    "/".toList, (), _, _, _, lookOnly_still _ _ _, rfl, rfl, ?_, ?_⟩
  · cases el <;> rfl
  · cases el <;> rfl

/-- Non-trivial case for the partial theorem: `x` exists and resolves to `/r`, `x/../y` is missing. -/
example : ∃ (m : Machine) (s : m.State) (f : Str → Except Errno Stat) (rp : Str → Except Errno Str) (cwd : Str),
    Still m s f rp cwd ∧ f (mkPath .posix "x/../y".toList).pathname = .error .ENOENT ∧
    (∀ j, 0 < j → j ≤ 2 → ∃ st, f (prefixOf (mkPath .posix "x/../y".toList).pathname j) = .ok st) ∧
    (2 < (mkPath .posix "x/../y".toList).names.length →
      ∃ e', f (prefixOf (mkPath .posix "x/../y".toList).pathname 3) = .error e' ∧ Missing e') ∧
    rp (absText cwd (prefixOf (mkPath .posix "x/../y".toList).pathname 2)) = .ok "/r".toList :=
  ⟨lookOnly (fun p => if p = "x/../y".toList then .error .ENOENT else .ok Stat.zero) (fun _ => .ok "/r".toList)
    "/".toList, (), _, _, _, lookOnly_still _ _ _, rfl,
   fun j h1 h2 => by
     have : j = 1 ∨ j = 2 := by omega
     rcases this with rfl | rfl <;> exact ⟨_, rfl⟩,
   fun _ => ⟨.ENOENT, rfl, .inl rfl⟩, rfl⟩

end Asap
