import Verif.Props.OpsD

/-!
# C123, C124: `canonical`, `relative` and `proximate` on POSIX

Stated for a file system that does not change while it is looked at.
-/

namespace Asap
open Spec

namespace Spec

/-- What POSIX says about the answers of `realpath`: absolute, no filename `.` or `..`, single
separators, none at the end. -/
structure Resolved (r : Str) : Prop where
  abs : r.head? = some '/'
  plain : ∀ w ∈ filenames r, w ≠ dot ∧ w ≠ dotdot
  single : ¬ ['/', '/'] <:+: r
  ends : r.getLast? = some '/' → r = ['/']

/-- A resolver: its answers are resolved and resolve to themselves. -/
def Resolver (rp : Str → Except Errno Str) : Prop := ∀ x r, rp x = .ok r → Resolved r ∧ rp r = .ok r

/-- The way from the place with the elements `b` to the place with the elements `p`: after the
longest common part, up once for each element left of `b`, then down along `p`. -/
structure Way (p b r : List Str) : Prop where
  way : ∃ C A B, p = C ++ A ∧ b = C ++ B ∧ (∀ x y, A.head? = some x → B.head? = some y → x ≠ y) ∧
    (A = [] → B = [] → r = [dot]) ∧ (¬ (A = [] ∧ B = []) → r = List.replicate B.length dotdot ++ A)

end Spec

/-! ### Texts -/

theorem resolved_stored {r : Str} (h : Resolved r) : stored r = r := by
  unfold stored
  split
  · rename_i h'
    obtain ⟨h1, h2⟩ := h'
    have : r.getLast? = some '/' := by
      rcases eq_nil_or_snoc r with h0 | ⟨a, x, rfl⟩
      · exact absurd h0 h1
      · simp only [List.all_append, List.all_cons, List.all_nil, Bool.and_true, Bool.and_eq_true, beq_iff_eq] at h2
        simp [h2.2]
    rw [h.ends this]
  · rfl

theorem resolved_names {r : Str} (h : Resolved r) : (mkPath .posix r).names = ['/'] :: filenames r := by
  rw [(mkPath_shape r).names, mkPath_pathname, resolved_stored h, elements, startsSlash_iff.mpr h.abs]
  by_cases he : endsSlash r = true
  · have := h.ends (by simpa [endsSlash] using he)
    subst this; decide
  · simp [he]

/-- Joined elements are a text unless there is nothing to join. -/
theorem join_relWf_ne_nil {l : List Str} (h : RelWf l) (h0 : l ≠ []) (h1 : l ≠ [[]]) : join l ≠ [] := by
  obtain ⟨ns, tr, hn, rfl⟩ := h
  cases ns with
  | nil => cases tr <;> simp at h0 h1
  | cons w ws =>
    cases tr with
    | false => simpa using join_ne_nil hn (by simp)
    | true =>
      simp only [if_true]
      rw [join_trail (by simp)]; simp

theorem upCount_length {bs : List Str} (h : ∀ w ∈ bs, w ≠ dot ∧ w ≠ dotdot) : upCount bs = (bs.length : Int) := by
  rw [upCount_plain bs (fun h' => (h _ h').2 rfl), List.filter_eq_self.mpr]
  intro w hw
  simpa using (h w hw).1

/-- `lexically_relative` of two absolute paths, the base without `.`, `..` and final separator. -/
theorem Shape.relative_way {p base : Path} (hp : Shape p) (hb : Shape base) (hpa : startsSlash p.pathname = true)
    (hba : startsSlash base.pathname = true) (hpl : ∀ w ∈ filenames base.pathname, w ≠ dot ∧ w ≠ dotdot)
    (ht : base.names.getLast? ≠ some []) (hne : p.names ≠ base.names ++ [[]]) :
    ∃ r, Asap.lexicallyRelative .posix p base = .ok r ∧ r.pathname ≠ [] ∧ Way p.names base.names r.names := by
  obtain ⟨r, h1, h2, _, h4⟩ := hp.lexicallyRelative hb
  have hab : startsSlash p.pathname = startsSlash base.pathname := by rw [hpa, hba]
  have hbe : relElements base.pathname = filenames base.pathname := by
    unfold relElements
    by_cases h : endsSlash base.pathname = true ∧ filenames base.pathname ≠ []
    · exfalso; apply ht
      rw [hb.names, elements, if_pos h]; simp
    · rw [if_neg h, List.append_nil]
  obtain ⟨c, e1, e2⟩ := strip_spec (relElements p.pathname) (relElements base.pathname)
  have e3 := strip_head (relElements p.pathname) (relElements base.pathname)
  have hrt := h4
  rw [relText, if_pos hab, strip_rel hab] at hrt
  generalize strip (relElements p.pathname) (relElements base.pathname) = ab at *
  obtain ⟨as, bs⟩ := ab
  simp only at e1 e2 e3
  have hpn : p.names = (['/'] :: c) ++ as := by rw [hp.names, elements_rel, hpa, e1]; simp
  have hbn : base.names = (['/'] :: c) ++ bs := by rw [hb.names, elements_rel, hba, e2]; simp
  have hbs : ∀ w ∈ bs, w ≠ dot ∧ w ≠ dotdot := fun w hw => hpl w (by rw [← hbe, e2]; simp [hw])
  have hup := upCount_length hbs
  by_cases h0 : as = [] ∧ bs = []
  · obtain ⟨rfl, rfl⟩ := h0
    refine ⟨r, h1, by rw [hrt]; simp [dot], ⟨_, _, _, hpn, hbn, e3, ?_, ?_⟩⟩
    · intro _ _
      rw [h2.shape.names, hrt]; decide
    · intro h; exact absurd ⟨rfl, rfl⟩ h
  · have hrt' : r.pathname = join (List.replicate bs.length dotdot ++ as) := by
      cases as with
      | nil =>
        cases bs with
        | nil => exact absurd ⟨rfl, rfl⟩ h0
        | cons b bs =>
          rw [hrt]
          show (if upCount (b :: bs) < 0 then [] else join (List.replicate (upCount (b :: bs)).toNat dotdot ++ [])) = _
          rw [hup, if_neg (by omega)]
          simp only [Int.toNat_natCast]
      | cons a as =>
        rw [hrt]
        show (if upCount bs < 0 then [] else join (List.replicate (upCount bs).toNat dotdot ++ a :: as)) = _
        rw [hup, if_neg (by omega)]
        simp only [Int.toNat_natCast]
    have hwf := relWf_ups (relWf_suffix (relElements_wf _) e1) bs.length
    have hj : join (List.replicate bs.length dotdot ++ as) ≠ [] := by
      apply join_relWf_ne_nil hwf
      · intro h
        simp only [List.append_eq_nil_iff, List.replicate_eq_nil_iff, List.length_eq_zero_iff] at h
        exact h0 ⟨h.2, h.1⟩
      · intro h
        cases bs with
        | nil =>
          simp only [List.length_nil, List.replicate_zero, List.nil_append] at h
          apply hne
          rw [hpn, hbn, h]; simp
        | cons b bs => simp [List.replicate_succ] at h
    obtain ⟨j1, j2⟩ := relElements_join hwf hj
    refine ⟨r, h1, by rw [hrt']; exact hj, ⟨_, _, _, hpn, hbn, e3, fun h h' => absurd ⟨h, h'⟩ h0, ?_⟩⟩
    intro _
    rw [h2.shape.names, hrt', elements_rel, j1, j2]; simp

/-! ### Walking -/

theorem walk_back (W : World) : ∀ (bs : List Str) (n w : W.Node) (as : List Str), (∀ b ∈ bs, IsPlain b) →
    walk W n bs = some w → W.isDir w = true →
    W.isDir n = true ∧ walk W w (List.replicate bs.length dotdot ++ as) = walk W n as
  | [], n, w, as, _, h, hd => by
    simp only [walk, Option.some.injEq] at h
    subst h
    exact ⟨hd, rfl⟩
  | b :: bs, n, w, as, hb, h, hd => by
    have hb1 := hb b (by simp)
    rw [walk] at h
    simp only [hb1.1.ne_slash, hb1.1.1, hb1.2.1, hb1.2.2, if_false, or_self] at h
    cases hc : W.child n b with
    | none => simp [hc] at h
    | some x =>
      simp only [hc] at h
      obtain ⟨h1, h2⟩ := walk_back W bs x w (dotdot :: as) (fun v hv => hb v (by simp [hv])) h hd
      refine ⟨W.child_dir _ _ _ hc, ?_⟩
      have : List.replicate (b :: bs).length dotdot ++ as = List.replicate bs.length dotdot ++ dotdot :: as := by
        rw [List.length_cons, List.replicate_succ']; simp
      rw [this, h2, walk_dotdot, h1, if_pos rfl, W.parent_child _ _ _ hc]

/-- The way leads to the place. -/
theorem Spec.Way.walk {p bs r : List Str} (h : Way p (['/'] :: bs) r) (hb : ∀ w ∈ bs, IsPlain w)
    (hp0 : p.head? = some ['/']) (W : World) {w : W.Node} (hw : walk W W.root (['/'] :: bs) = some w)
    (hd : W.isDir w = true) : Asap.Spec.walk W w r = Asap.Spec.walk W W.root p := by
  obtain ⟨C, A, B, rfl, h2, h3, h4, h5⟩ := h.way
  have hB : ∀ v ∈ B, IsPlain v := by
    intro v hv
    cases C with
    | nil =>
      simp only [List.nil_append] at h2 hp0
      exact absurd rfl (h3 _ ['/'] hp0 (by rw [← h2]; rfl))
    | cons c C =>
      simp only [List.cons_append, List.cons.injEq] at h2
      exact hb v (by rw [h2.2]; simp [hv])
  rw [h2, walk_append] at hw
  cases hc : Asap.Spec.walk W W.root C with
  | none => simp [hc] at hw
  | some n =>
    simp only [hc, Option.bind_some] at hw
    rw [walk_append, hc]
    simp only [Option.bind_some]
    by_cases h0 : A = [] ∧ B = []
    · obtain ⟨rfl, rfl⟩ := h0
      simp only [Asap.Spec.walk, Option.some.injEq] at hw
      subst hw
      rw [h4 rfl rfl, walk_dot, hd]; rfl
    · rw [h5 h0]
      exact (walk_back W B n w A hB hw hd).2

/-! ### Results -/

section
variable {m : Machine} {s : m.State} {f : Str → Except Errno Stat} {rp : Str → Except Errno Str} {cwd : Str}

/-- The path made of an answer of the resolver. -/
theorem answer_path {r : Str} (h : Resolved r) : (mkPath .posix r).pathname = r := by
  rw [mkPath_pathname, resolved_stored h]

/-- Absolute results of `weakly_canonical` have no `.` and `..`. -/
theorem weaklyCanonical_plain (hs : Still m s f rp cwd) (hr : Resolver rp) {p q : Path} (hp : Value p) {el : Bool}
    {c : Code} (h : (weaklyCanonical el p (.ref c)).eval m s = (.ok (q, .ref none), s))
    (ha : q.pathname.head? = some '/') : Shape q ∧ ∀ w ∈ filenames q.pathname, w ≠ dot ∧ w ≠ dotdot := by
  obtain ⟨c1, c2, c3, _⟩ := c41_weakly_canonical_partial hs hp el c
  have canon : ∀ {u : Path}, Shape u → (canonical u (.ref c)).eval m s = (.ok (q, .ref none), s) →
      Shape q ∧ ∀ w ∈ filenames q.pathname, w ≠ dot ∧ w ≠ dotdot := by
    intro u hu hc
    rw [eval_canonical hs hu] at hc
    cases hx : rp (absText cwd u.pathname) with
    | error e => simp [hx] at hc
    | ok r =>
      simp only [hx, Prod.mk.injEq, Except.ok.injEq, and_true] at hc
      subst hc
      refine ⟨mkPath_shape _, ?_⟩
      rw [answer_path (hr _ _ hx).1]
      exact (hr _ _ hx).1.plain
  by_cases h0 : p.pathname = []
  · rw [c1 h0] at h
    exact canon (mkPath_shape _) h
  cases hf : f p.pathname with
  | ok st =>
    rw [c2 st h0 hf] at h
    exact canon hp.shape h
  | error e =>
    by_cases hm : Missing e
    · obtain ⟨k, code, hk, _, _, _, h7, h8⟩ := eval_weaklyCanonical_missing hs hp.shape h0 el c hm hf
      have fails : (code ≠ none ∨ (0 < k ∧ ∃ e, rp (absText cwd (prefixOf p.pathname k)) = .error e)) → False := by
        intro hc
        rw [h7 hc] at h
        simp only [Prod.mk.injEq, Except.ok.injEq, and_true] at h
        subst h
        revert ha; decide
      have hcode : code = none := by
        cases code with
        | none => rfl
        | some x => exact (fails (.inl (by simp))).elim
      obtain ⟨cp, hcp0, hcp1⟩ : ∃ cp, (k = 0 → cp = []) ∧
          (0 < k → rp (absText cwd (prefixOf p.pathname k)) = .ok cp) := by
        by_cases hk0 : k = 0
        · exact ⟨[], fun _ => rfl, fun h => by omega⟩
        · cases hx : rp (absText cwd (prefixOf p.pathname k)) with
          | error e => exact (fails (.inr ⟨by omega, e, hx⟩)).elim
          | ok r => exact ⟨r, fun h => absurd h hk0, fun _ => rfl⟩
      obtain ⟨q1, q', a1, a2, a3, a4⟩ := h8 cp hcode hcp0 hcp1
      rw [a1] at h
      simp only [Prod.mk.injEq, Except.ok.injEq, and_true] at h
      subst h
      refine ⟨a4, ?_⟩
      obtain ⟨v, v1, _, v3⟩ := (mkPath_shape _).lexicallyNormal (p := mkPath .posix
        (((elements p.pathname).drop k).foldl addElem (stored cp))) el
      rw [a2] at v1
      cases v1
      have hn : IsNormal q1.pathname := by rw [a3, v3]; exact normalText_isNormal _
      intro w hw
      constructor
      · rintro rfl
        rw [hn.noDot hw] at ha
        revert ha; decide
      · rintro rfl
        have := hn.upsRel hw
        rw [startsSlash_iff.mpr ha] at this
        cases this
    · rw [c3 e h0 hf hm] at h
      simp at h

/-! ### C123 -/

/-- C123. `canonical` gives the path of the resolver's answer for the absolute form of the path, or reports its
error. The result is absolute and has no `.`, no `..` and no final separator. It is its own canonical form. Two paths have the same
(equal) canonical form iff the resolver gives the same answer for both. -/
theorem c123_canonical (hs : Still m s f rp cwd) (hr : Resolver rp) {p : Path} (hp : Value p) (c : Code) :
    (∀ e, rp (absText cwd p.pathname) = .error e →
      (canonical p (.ref c)).eval m s = (.ok (.default, .ref (some e)), s)) ∧
    (∀ r, rp (absText cwd p.pathname) = .ok r →
      ∃ q, (canonical p (.ref c)).eval m s = (.ok (q, .ref none), s) ∧ q.pathname = r ∧
        isAbsolute .posix q = .ok true ∧
        (∃ ns, q.names = ['/'] :: ns ∧ ∀ w ∈ ns, IsPlain w) ∧
        (canonical q (.ref c)).eval m s = (.ok (q, .ref none), s) ∧
        ∀ p' q' c', Value p' → (canonical p' (.ref c')).eval m s = (.ok (q', .ref none), s) →
          (q.compare q' = 0 ↔ rp (absText cwd p'.pathname) = .ok r)) := by
  constructor
  · intro e he
    rw [eval_canonical hs hp.shape, he]
  · intro r he
    obtain ⟨h1, h2⟩ := hr _ _ he
    have hpn := answer_path h1
    refine ⟨mkPath .posix r, by rw [eval_canonical hs hp.shape, he], hpn, ?_, ⟨filenames r, resolved_names h1, ?_⟩, ?_, ?_⟩
    · rw [(mkPath_shape r).isAbsolute, hpn, startsSlash_iff.mpr h1.abs]
    · exact fun w hw => ⟨filenames_mem hw, (h1.plain w hw).1, (h1.plain w hw).2⟩
    · rw [eval_canonical hs (mkPath_shape r), hpn, absText, if_pos (startsSlash_iff.mpr h1.abs), h2]
    · intro p' q' c' hp' hq'
      rw [eval_canonical hs hp'.shape] at hq'
      cases hx : rp (absText cwd p'.pathname) with
      | error e => simp [hx] at hq'
      | ok r' =>
        simp only [hx, Prod.mk.injEq, Except.ok.injEq, and_true] at hq'
        subst hq'
        have h3 := (hr _ _ hx).1
        rw [((mkPath_shape r).compare (mkPath_shape r')).2.1, hpn, answer_path h3]
        rw [← genericText_eq_iff, genericText_of_noDouble _ ((noDouble_iff r).mpr h1.single),
          genericText_of_noDouble _ ((noDouble_iff r').mpr h3.single)]
        constructor
        · rintro rfl; rfl
        · intro h; cases h; rfl

/-- Non-trivial case: `a` and `b` are links to `/d`. -/
example : ∃ (m : Machine) (s : m.State) (f : Str → Except Errno Stat) (rp : Str → Except Errno Str) (cwd : Str),
    Still m s f rp cwd ∧ Resolver rp ∧ Value (mkPath .posix "b".toList) ∧
    rp (absText cwd (mkPath .posix "a".toList).pathname) = .ok "/d".toList ∧
    rp (absText cwd (mkPath .posix "b".toList).pathname) = .ok "/d".toList := by
  refine ⟨lookOnly (fun _ => .ok Stat.zero) (fun x => if x = "/w/a".toList ∨ x = "/w/b".toList ∨ x = "/d".toList then
    .ok "/d".toList else .error .ENOENT) "/w".toList, (), _, _, _, lookOnly_still _ _ _, ?_, .reach (reach_mkPath _), rfl, rfl⟩
  intro x r h
  dsimp only at h
  split at h
  · cases h
    exact ⟨⟨by decide, by decide, by decide, by decide⟩, rfl⟩
  · cases h

/-! ### C124 -/

theorem weaklyCanonical_code (el : Bool) (p : Path) (c c' : Code) :
    weaklyCanonical el p (.ref c) = weaklyCanonical el p (.ref c') := by
  simp only [weaklyCanonical, clear_ref]

/-- C124, the part that holds. If `weakly_canonical` gives the absolute paths `q` for `p` and `qb` for the base and
`qb` has no final separator, `relative` and `proximate` both give the
way from `qb` to `q`: up once for each element of `qb` after the longest common part, then down along `q`. In every file system
in which `qb` names a directory without going through links, the result, looked up there, is what `q` names.
Not covered: relative results of `weakly_canonical` and bases with a final separator, where the property is
false (`c124_violated`), and the path that is the base followed by a separator. -/
theorem c124_relative_partial (hs : Still m s f rp cwd) (hr : Resolver rp) {p base q qb : Path} (hp : Value p)
    (hb : Value base) (el : Bool) (c : Code)
    (hq : (weaklyCanonical el p (.ref c)).eval m s = (.ok (q, .ref none), s))
    (hqb : (weaklyCanonical el base (.ref c)).eval m s = (.ok (qb, .ref none), s))
    (ha : q.pathname.head? = some '/') (hab : qb.pathname.head? = some '/')
    (ht : qb.names.getLast? ≠ some []) (hne : q.names ≠ qb.names ++ [[]]) :
    ∃ r, (relative el p base (.ref c)).eval m s = (.ok (r, .ref none), s) ∧
      (proximate el p base (.ref c)).eval m s = (.ok (r, .ref none), s) ∧
      Way q.names qb.names r.names ∧
      ∀ (W : World) (w : W.Node), walk W W.root qb.names = some w → W.isDir w = true →
        walk W w r.names = walk W W.root q.names := by
  obtain ⟨s1, _⟩ := weaklyCanonical_plain hs hr hp hq ha
  obtain ⟨s2, p2⟩ := weaklyCanonical_plain hs hr hb hqb hab
  obtain ⟨r, r1, r2, r3⟩ := s1.relative_way s2 (startsSlash_iff.mpr ha) (startsSlash_iff.mpr hab) p2 ht hne
  have hqb' := hqb
  rw [weaklyCanonical_code el base c none] at hqb'
  refine ⟨r, ?_, ?_, r3, ?_⟩
  · simp only [relative, viaCanonicalEc, Prog.bind_eq]
    rw [eval_bind_ok hq]
    simp only [isSet_none, Bool.false_eq_true, if_false]
    rw [eval_bind_ok hqb']
    simp only [isSet_none, Bool.false_eq_true, if_false, r1]
    rfl
  · simp only [proximate, viaCanonicalEc, Prog.bind_eq]
    rw [eval_bind_ok hq]
    simp only [isSet_none, Bool.false_eq_true, if_false]
    rw [eval_bind_ok hqb']
    have : lexicallyProximate .posix q qb = .ok r := by
      simp [lexicallyProximate, r1, bind, Except.bind, pure, Except.pure, r2]
    simp only [isSet_none, Bool.false_eq_true, if_false, this]
    rfl
  · intro W w hw hd
    have hn : ∀ (u : Path), Shape u → startsSlash u.pathname = true → u.names = ['/'] :: relElements u.pathname := by
      intro u hu hua
      rw [hu.names, elements_rel, hua]; rfl
    have h1 := hn q s1 (startsSlash_iff.mpr ha)
    have h2 := hn qb s2 (startsSlash_iff.mpr hab)
    rw [h2] at hw r3
    refine r3.walk ?_ (by rw [h1]; rfl) W hw hd
    intro v hv
    have hv' : v ∈ filenames qb.pathname := by
      unfold relElements at hv
      split at hv
      · rename_i h
        exfalso; apply ht
        rw [h2, relElements, if_pos h]
        rw [← List.cons_append, List.getLast?_concat]
      · simpa using hv
    exact ⟨filenames_mem hv', (p2 v hv').1, (p2 v hv').2⟩

/-- For files that exist the conditions hold: `q` and `qb` are the canonical forms. -/
theorem c124_existing_partial (hs : Still m s f rp cwd) (hr : Resolver rp) {p base : Path} (hp : Value p)
    (hb : Value base) (el : Bool) (c : Code) {st stb : Stat} {x y : Str} (hp0 : p.pathname ≠ []) (hb0 : base.pathname ≠ [])
    (h1 : f p.pathname = .ok st) (h2 : f base.pathname = .ok stb)
    (hx : rp (absText cwd p.pathname) = .ok x) (hy : rp (absText cwd base.pathname) = .ok y) :
    ∃ r, (relative el p base (.ref c)).eval m s = (.ok (r, .ref none), s) ∧
      (proximate el p base (.ref c)).eval m s = (.ok (r, .ref none), s) ∧
      Way (elements x) (elements y) r.names ∧
      ∀ (W : World) (w : W.Node), walk W W.root (elements y) = some w → W.isDir w = true →
        walk W w r.names = walk W W.root (elements x) := by
  have hq : (weaklyCanonical el p (.ref c)).eval m s = (.ok (mkPath .posix x, .ref none), s) := by
    rw [(c41_weakly_canonical_partial hs hp el c).2.1 st hp0 h1, eval_canonical hs hp.shape, hx]
  have hqb : (weaklyCanonical el base (.ref c)).eval m s = (.ok (mkPath .posix y, .ref none), s) := by
    rw [(c41_weakly_canonical_partial hs hb el c).2.1 stb hb0 h2, eval_canonical hs hb.shape, hy]
  have rx := (hr _ _ hx).1
  have ry := (hr _ _ hy).1
  have nx : (mkPath .posix x).names = elements x := by rw [(mkPath_shape x).names, answer_path rx]
  have ny : (mkPath .posix y).names = elements y := by rw [(mkPath_shape y).names, answer_path ry]
  have last : ∀ {z : Str}, Resolved z → (mkPath .posix z).names.getLast? ≠ some [] := by
    intro z hz
    rw [resolved_names hz]
    intro hl
    have := List.mem_of_getLast? hl
    simp only [List.mem_cons] at this
    rcases this with h | h
    · cases h
    · exact (filenames_mem h).1 rfl
  have := c124_relative_partial hs hr hp hb el c hq hqb (by rw [answer_path rx]; exact rx.abs)
    (by rw [answer_path ry]; exact ry.abs) (last ry) (fun h => last rx (by rw [h]; simp))
  rwa [nx, ny] at this

/-- C124 is false: the relative path of a file that does not exist yet, given by its name in the
current directory, is empty, without an error; and from a directory that does not exist yet, given with a final
separator, the result leads to a different place. -/
theorem c124_violated : ∃ (m : Machine) (s : m.State) (f : Str → Except Errno Stat) (rp : Str → Except Errno Str) (cwd : Str),
    Still m s f rp cwd ∧ Resolver rp ∧ f "/w".toList = .ok Stat.zero ∧ f "n".toList = .error .ENOENT ∧
    (relativeCwd true (mkPath .posix "n".toList) (.ref none)).eval m s = (.ok (.default, .ref none), s) ∧
    (∃ q qb r, (weaklyCanonical true (mkPath .posix "/w/n/x".toList) (.ref none)).eval m s = (.ok (q, .ref none), s) ∧
      q.pathname = "/w/n/x".toList ∧
      (weaklyCanonical true (mkPath .posix "/w/n/".toList) (.ref none)).eval m s = (.ok (qb, .ref none), s) ∧
      qb.pathname = "/w/n/".toList ∧
      (relative true (mkPath .posix "/w/n/x".toList) (mkPath .posix "/w/n/".toList) (.ref none)).eval m s
        = (.ok (r, .ref none), s) ∧ r.pathname = "../x".toList) := by
  refine ⟨lookOnly (fun x => if x = "/w".toList ∨ x = "/".toList then .ok Stat.zero else .error .ENOENT)
    (fun x => if x = "/w".toList ∨ x = "/".toList then .ok x else .error .ENOENT) "/w".toList, (), _, _, _,
    lookOnly_still _ _ _, ?_, rfl, rfl, rfl, ⟨_, _, _, rfl, rfl, rfl, rfl, rfl, rfl⟩⟩
  intro x r h
  dsimp only at h
  split at h
  · rename_i hx
    cases h
    refine ⟨?_, if_pos hx⟩
    rcases hx with rfl | rfl <;> exact ⟨by decide, by decide, by decide, by decide⟩
  · cases h

/-- Non-trivial case: `/a/l` is a link to `/c`, seen from the directory `/a/b`: the result is `../../c`. -/
example : ∃ (m : Machine) (s : m.State) (f : Str → Except Errno Stat) (rp : Str → Except Errno Str) (cwd : Str) (r : Path),
    Still m s f rp cwd ∧ Resolver rp ∧
    f (mkPath .posix "/a/l".toList).pathname = .ok Stat.zero ∧ f (mkPath .posix "b".toList).pathname = .ok Stat.zero ∧
    rp (absText cwd (mkPath .posix "/a/l".toList).pathname) = .ok "/c".toList ∧
    rp (absText cwd (mkPath .posix "b".toList).pathname) = .ok "/a/b".toList ∧
    (relative true (mkPath .posix "/a/l".toList) (mkPath .posix "b".toList) (.ref none)).eval m s = (.ok (r, .ref none), s) ∧
    r.pathname = "../../c".toList := by
  refine ⟨lookOnly (fun _ => .ok Stat.zero)
    (fun x => if x = "/a/l".toList ∨ x = "/c".toList then .ok "/c".toList else if x = "/a/b".toList then .ok x else .error .ENOENT)
    "/a".toList, (), _, _, _, _, lookOnly_still _ _ _, ?_, rfl, rfl, rfl, rfl, rfl, rfl⟩
  intro x r h
  dsimp only at h
  split at h
  · cases h
    exact ⟨⟨by decide, by decide, by decide, by decide⟩, rfl⟩
  · split at h
    · rename_i hx
      cases h
      subst hx
      exact ⟨⟨by decide, by decide, by decide, by decide⟩, rfl⟩
    · cases h

end

end Asap
