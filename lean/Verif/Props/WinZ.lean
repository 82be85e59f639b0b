import Verif.Props.WinY
import Verif.Props.CopyD

/-!
# C100: a recursive copy on Windows reproduces the tree

As C50: the disk holds a source tree of directories and files with their contents, a destination that grows, and everything
else. The specification knows what the calls `copy` makes do to the two trees, and nothing about any other call: it could
change everything.
-/

namespace Asap
namespace Spec

/-- Names are names and differ, there are only files and directories, and only directories have entries. -/
def WinTree.Sound : WinTree Kind → Prop
  | .nil => True
  | .node w x sub rest => PlainName w ∧ ¬ dotName w ∧ w ∉ rest.names ∧ (∀ t, x ≠ .link t) ∧ (x ≠ .dir → sub = .nil) ∧ sub.Sound ∧ rest.Sound

/-- The source, the destination by the names leading to its files, and everything else. -/
structure WinGarden (ω : Type) where
  src : Option (WinNode Kind)
  dst : List Str → Option Kind
  outside : ω

/-- The operating system, without other processes, for a source named `S` and a destination named `D`. If `may`, any call may
fail, without effect, except that a search does not break off (C98). -/
def winCopying (ω : Type) (S D : Str) (k : Nat) (may : Prop) : WinLaws (WinGarden ω) where
  opens g q r := ∀ ws sub, PlainNames ws → q = searchText (winPlace S ws) → winFind g.src ws = some (.dir, sub) → sub.Sound →
    match r with
    | .ok l => WinLists k sub l
    | .error e => may ∧ e.winValue ≠ 18
  does g _ ev g' := match ev with
    | ⟨.win (.getAttrs p), r⟩ =>
      (∀ ws x sub, PlainNames ws → p = winPlace S ws → winFind g.src ws = some (x, sub) → g' = g ∧
        match r with
        | .ok a => a.getLsbD 4 = decide (x = .dir) ∧ a.getLsbD 10 = false
        | .error _ => may) ∧
      (∀ ws, PlainNames ws → p = winPlace D ws → g.dst ws = none → g' = g ∧ ∃ e, r = .error e ∧ (may ∨ Absent e))
    | ⟨.win (.getPerms p _), r⟩ => ∀ ws y, PlainNames ws → p = winPlace S ws → winFind g.src ws = some y →
      g' = g ∧ ∀ e, r = .error e → may
    | ⟨.win (.createDirectoryEx tmpl p), r⟩ => ∀ ws vs sub, PlainNames ws → PlainNames vs → tmpl = winPlace S vs → p = winPlace D ws →
      winFind g.src vs = some (.dir, sub) → Free g.dst ws →
      match r with
      | .ok () => g' = { g with dst := grow g.dst ws .dir }
      | .error e => may ∧ e.winValue ≠ 183 ∧ g' = g
    | ⟨.win (.copyFile a p _), r⟩ => ∀ ws vs b sub, PlainNames ws → PlainNames vs → a = winPlace S vs → p = winPlace D ws →
      winFind g.src vs = some (.file b, sub) → Free g.dst ws →
      match r with
      | .ok () => g' = { g with dst := grow g.dst ws (.file b) }
      | .error _ => may ∧ g' = g
    | _ => True

end Spec
open Spec
namespace Win

/-! ## Trees -/

theorem wt_no_child {κ : Type} {s : WinTree κ} {w : Str} (h : w ∉ s.names) : s.child w = none := by
  induction s with
  | nil => rfl
  | node v t sub rest _ ih =>
    simp only [WinTree.names, List.mem_cons, not_or, WinTree.child] at h ⊢
    rw [if_neg (Ne.symm h.1)]
    exact ih h.2

theorem wt_child_total {κ : Type} {s : WinTree κ} {w : Str} {c : WinNode κ} (h : s.child w = some c) : winTotal c ≤ s.size := by
  induction s with
  | nil => simp [WinTree.child] at h
  | node v t sub rest _ ih =>
    simp only [WinTree.child, WinTree.size] at h ⊢
    by_cases hv : v = w
    · simp only [hv, if_true, Option.some.injEq] at h; subst h; simp only [winTotal]; omega
    · simp only [hv, if_false] at h; have := ih h; omega

theorem _root_.Asap.Spec.WinTree.Sound.child {s : WinTree Kind} (hs : s.Sound) {w : Str} {x : Kind} {sub : WinTree Kind} (h : s.child w = some (x, sub)) :
    PlainName w ∧ ¬ dotName w ∧ (∀ t, x ≠ .link t) ∧ (x ≠ .dir → sub = .nil) ∧ sub.Sound := by
  induction s with
  | nil => simp [WinTree.child] at h
  | node v t' sub' rest _ ih =>
    obtain ⟨h1, h2, -, h3, h4, h5, h6⟩ := hs
    simp only [WinTree.child] at h
    split at h <;> rename_i hv
    · cases h; subst hv; exact ⟨h1, h2, h3, h4, h5⟩
    · exact ih h6 h

theorem _root_.Asap.Spec.WinTree.Sound.nodup {s : WinTree Kind} (hs : s.Sound) : s.names.Nodup := by
  induction s with
  | nil => simp [WinTree.names]
  | node v t' sub' rest _ ih =>
    obtain ⟨h1, h2, h7, h3, h4, h5, h6⟩ := hs
    simp only [WinTree.names, List.nodup_cons]
    exact ⟨h7, ih h6⟩

section
variable {ω : Type} {S D : Str} {k : Nat} {may : Prop} {T : List (Nat × Str × List FindData)}

/-! ## Looking -/

theorem failure_set (e : Errno) : ∃ e', (processStatusFailure e (.ref none)).2 = .ref (some e') := by
  unfold processStatusFailure
  split
  · exact ⟨_, rfl⟩
  split
  · exact ⟨_, rfl⟩
  split <;> exact ⟨_, rfl⟩

/-- Looking at the source, with links followed or not. -/
theorem wpW_see (b : Bool) {g : WinGarden ω} {ws : List Str} {x : Kind} {sub : WinTree Kind} {c : Code}
    {Q : Except Stop (FStatus × EcArg) → WinGarden ω → List (Nat × Str × List FindData) → Prop}
    (hws : PlainNames ws) (hf : winFind g.src ws = some (x, sub)) (hx : ∀ t, x ≠ .link t)
    (h1 : ∀ st : FStatus, st.type = x.type → Q (.ok (st, .ref none)) g T)
    (h2 : may → ∀ st e, Q (.ok (st, .ref (some e))) g T) :
    wpW (winCopying ω S D k may) Q (if b then symlinkStatus (mkPath .windows (ws.foldl winAppendText S)) (.ref c)
      else status (mkPath .windows (ws.foldl winAppendText S)) (.ref c)) g T := by
  have hfail : ∀ e, may → ∀ last, wp (winCopying ω S D k may).step (fun o s => Q o s.disk s.table)
      (.ret (processStatusFailure e (.ref none))) ⟨g, T, last⟩ := by
    intro e hm last
    obtain ⟨e', he⟩ := failure_set e
    show Q (.ok _) g T
    rw [show processStatusFailure e (.ref none) = ((processStatusFailure e (.ref none)).1, .ref (some e')) by rw [← he]]
    exact h2 hm _ _
  have hty : (if decide (x = Kind.dir) = true then FType.directory else FType.regular) = x.type := by
    cases x with
    | file b => rfl
    | dir => rfl
    | link t => exact absurd rfl (hx t)
  intro last
  cases b
  · rw [if_neg (by simp)]
    unfold status targetAttrs
    simp only [clear_ref]
    intro r σ' h
    simp only [WinLaws.step, winCopying] at h
    obtain ⟨⟨h, -⟩, hT⟩ := h
    obtain ⟨hg, h0⟩ := h ws x sub hws rfl hf
    obtain ⟨g1, T1, l1⟩ := σ'
    dsimp only at hg hT
    subst hg hT
    rcases r with e | a
    · exact hfail e h0 l1
    obtain ⟨h4, h10⟩ := h0
    dsimp only
    rw [has_reparse, h10, if_neg (by simp)]
    intro r σ' h
    simp only [WinLaws.step, winCopying] at h
    obtain ⟨h, hT⟩ := h
    obtain ⟨hg, h0⟩ := h ws _ hws rfl hf
    obtain ⟨g1, T1, l2⟩ := σ'
    dsimp only at hg hT
    subst hg hT
    rcases r with e | m
    · exact hfail e (h0 e rfl) l2
    · dsimp only
      rw [has_directory, h4]
      exact h1 _ hty
  · rw [if_pos rfl]
    unfold symlinkStatus
    simp only [clear_ref]
    intro r σ' h
    simp only [WinLaws.step, winCopying] at h
    obtain ⟨⟨h, -⟩, hT⟩ := h
    obtain ⟨hg, h0⟩ := h ws x sub hws rfl hf
    obtain ⟨g1, T1, l1⟩ := σ'
    dsimp only at hg hT
    subst hg hT
    rcases r with e | a
    · exact hfail e h0 l1
    obtain ⟨h4, h10⟩ := h0
    dsimp only
    intro r σ' h
    simp only [WinLaws.step, winCopying] at h
    obtain ⟨h, hT⟩ := h
    obtain ⟨hg, h0⟩ := h ws _ hws rfl hf
    obtain ⟨g1, T1, l2⟩ := σ'
    dsimp only at hg hT
    subst hg hT
    rcases r with e | m
    · exact hfail e (h0 e rfl) l2
    · dsimp only
      rw [has_reparse, h10, if_neg (by simp), has_directory, h4]
      exact h1 _ hty

/-- Looking at the destination, which is not there. -/
theorem wpW_seeNone {g : WinGarden ω} {ws : List Str} {c : Code}
    {Q : Except Stop (FStatus × EcArg) → WinGarden ω → List (Nat × Str × List FindData) → Prop}
    (hws : PlainNames ws) (hf : g.dst ws = none)
    (h1 : ∀ st e, st.type = .notFound → Q (.ok (st, .ref (some e))) g T)
    (h2 : may → ∀ st e, st.type = .none ∨ st.type = .unknown → Q (.ok (st, .ref (some e))) g T) :
    wpW (winCopying ω S D k may) Q (status (mkPath .windows (ws.foldl winAppendText D)) (.ref c)) g T := by
  intro last
  unfold status
  simp only [clear_ref]
  intro r σ' h
  simp only [WinLaws.step, winCopying] at h
  obtain ⟨⟨-, h⟩, hT⟩ := h
  obtain ⟨hg, e, rfl, h0⟩ := h ws hws rfl hf
  obtain ⟨g1, T1, l1⟩ := σ'
  dsimp only at hg hT
  subst hg hT
  dsimp only
  show Q (.ok (processStatusFailure e (.ref none))) g1 T1
  by_cases hn : isNotFoundError e.winValue = true
  · rw [show processStatusFailure e (.ref none) = (⟨.notFound, Perms.none⟩, .ref (some e)) by unfold processStatusFailure; rw [if_pos hn]; rfl]
    exact h1 _ e rfl
  · have hm : may := h0.resolve_right fun h => hn ((notFound_absent e).mpr h)
    unfold processStatusFailure
    rw [if_neg hn]
    split
    · exact h2 hm _ _ (.inr rfl)
    split <;> exact h2 hm _ _ (.inl rfl)

/-! ## A file -/

theorem wpW_copyFile {c : SysClock} {g : WinGarden ω} {ws : List Str} {b : Bytes} {sub : WinTree Kind} {opts : CopyOptions} {ec : Code}
    {Q : Except Stop (Bool × EcArg) → WinGarden ω → List (Nat × Str × List FindData) → Prop} (hws : PlainNames ws)
    (hf : winFind g.src ws = some (.file b, sub)) (hfree : Free g.dst ws)
    (h1 : Q (.ok (true, .ref none)) { g with dst := grow g.dst ws (.file b) } T)
    (h2 : may → ∀ e, Q (.ok (false, .ref (some e))) g T) :
    wpW (winCopying ω S D k may) Q (copyFile c (mkPath .windows (ws.foldl winAppendText S)) (mkPath .windows (ws.foldl winAppendText D)) opts (.ref ec)) g T := by
  unfold copyFile
  simp only [clear_ref]
  apply wpW_bind
  refine wpW_see (b := false) hws hf (by simp) (fun st hst => ?_) (fun hm st e => ?_)
  · dsimp only
    rw [if_neg (by simp [EcArg.isSet]), if_neg (by simp [FStatus.isRegular, hst, Kind.type])]
    apply wpW_bind
    refine wpW_seeNone hws hfree.1 (fun st' e hst' => ?_) (fun hm st' e hst' => ?_)
    · have hk : st'.known = true := by simp [FStatus.known, hst']
      have hx : st'.exists' = false := by simp [FStatus.exists', hk, hst']
      dsimp only
      rw [if_neg (by simp [hk]), hx]
      simp only [Bool.false_and, Bool.false_eq_true, if_false, Prog.ret_bind, shouldCopy, Bool.not_false, Bool.true_or, if_true, doCopy,
        Bool.not_true]
      intro last r σ' h
      simp only [WinLaws.step, winCopying] at h
      obtain ⟨h, hT⟩ := h
      have h := h ws ws b sub hws hws rfl rfl hf hfree
      obtain ⟨g1, T1, l1⟩ := σ'
      dsimp only at h hT
      subst hT
      rcases r with e | u
      · obtain ⟨hm, rfl⟩ := h
        exact h2 hm e
      · subst h
        exact h1
    · dsimp only
      rcases hst' with h | h
      · have hk : st'.known = false := by simp [FStatus.known, h]
        rw [if_pos (by simp [hk])]
        exact wpW_ret (h2 hm e)
      · have hk : st'.known = true := by simp [FStatus.known, h]
        have hx : st'.exists' = true := by simp [FStatus.exists', hk, h]
        have hr : st'.isRegular = false := by simp [FStatus.isRegular, h]
        rw [if_neg (by simp [hk]), if_pos (by simp [hx, hr])]
        exact wpW_ret (h2 hm _)
  · dsimp only
    rw [if_pos (by simp [EcArg.isSet])]
    exact wpW_ret (h2 hm e)

/-! ## A directory -/

theorem wpW_createDirectoryLike {g : WinGarden ω} {ws : List Str} {sub : WinTree Kind} {c : Code}
    {Q : Except Stop (Bool × EcArg) → WinGarden ω → List (Nat × Str × List FindData) → Prop} (hws : PlainNames ws)
    (hf : winFind g.src ws = some (.dir, sub)) (hfree : Free g.dst ws)
    (h1 : Q (.ok (true, .ref none)) { g with dst := grow g.dst ws .dir } T)
    (h2 : may → ∀ e, Q (.ok (true, .ref (some e))) g T) :
    wpW (winCopying ω S D k may) Q (createDirectoryLike (mkPath .windows (ws.foldl winAppendText D))
      (mkPath .windows (ws.foldl winAppendText S)) (.ref c)) g T := by
  unfold createDirectoryLike
  simp only [clear_ref]
  intro last r σ' h
  simp only [WinLaws.step, winCopying] at h
  obtain ⟨h, hT⟩ := h
  have h := h ws ws sub hws hws rfl rfl hf hfree
  obtain ⟨g1, T1, l1⟩ := σ'
  dsimp only at h hT
  subst hT
  rcases r with e | u
  · obtain ⟨hm, hne, rfl⟩ := h
    dsimp only
    rw [if_pos (show e.winValue ≠ ERROR_ALREADY_EXISTS from hne)]
    exact h2 hm e
  · subst h
    exact h1

theorem wpW_onThrow {τ α : Type} {L : WinLaws τ} {Q : Except Stop α → τ → List (Nat × Str × List FindData) → Prop} {p : Prog α} {d : Prog Unit} {δ : τ}
    {T : List (Nat × Str × List FindData)} (h : wpW L (fun o δ T => Q o δ T ∧ ∀ x, o ≠ .error (.thrown x)) p δ T) : wpW L Q (p.onThrow d) δ T :=
  fun last => wp_onThrow (h last)

/-- The claim for a file and everything below it, with `n` levels. -/
def Reproduces (ω : Type) (S D : Str) (k : Nat) (may : Prop) (c : SysClock) (opts : CopyOptions) (n : Nat) : Prop :=
  ∀ (g : WinGarden ω) (T : List (Nat × Str × List FindData)) (ws : List Str) (x : WinNode Kind) (ec : Code)
    (Q : Except Stop (Unit × EcArg) → WinGarden ω → List (Nat × Str × List FindData) → Prop),
    PlainNames ws → winFind g.src ws = some x → (∀ t, x.1 ≠ .link t) → (x.1 ≠ .dir → x.2 = .nil) → x.2.Sound →
    (∀ v, g.dst (ws ++ v) = none) → (ws ≠ [] → g.dst ws.dropLast = some .dir) → winTotal x + k + 3 ≤ n →
    (∀ dst, (∀ v, dst (ws ++ v) = (winFind (some x) v).map Prod.fst) → (∀ v, ¬ ws <+: v → dst v = g.dst v) →
      Q succeeds { g with dst := dst } T) →
    (may → ∀ e dst, Q (fails e) { g with dst := dst } T) →
    wpW (winCopying ω S D k may) Q (copy c n (mkPath .windows (ws.foldl winAppendText S)) (mkPath .windows (ws.foldl winAppendText D)) opts (.ref ec)) g T

theorem wpW_copyLoop {c : SysClock} {opts : CopyOptions} {n : Nat} (ih : Reproduces ω S D k may c opts n) {hd : Handler}
    {ws : List Str} (hws : PlainNames ws) {sub : WinTree Kind} (hp : sub.Sound)
    (hn : sub.size + k + 3 ≤ n) : ∀ (m : Nat) {g : WinGarden ω} {T : List (Nat × Str × List FindData)} {s : Stream} {d : Nat} {q : Str}
    {rest : List FindData} {w : Str} {Q : Except Stop (Unit × EcArg) → WinGarden ω → List (Nat × Str × List FindData) → Prop},
    s.handle = some d → s.root = mkPath .windows (ws.foldl winAppendText S) →
    s.entry.path = mkPath .windows ((ws ++ [w]).foldl winAppendText S) → d ∉ T.map Prod.fst →
    winFind g.src ws = some (.dir, sub) → (∀ v ∈ w :: realNames rest, v ∈ sub.names) → (w :: realNames rest).Nodup → findDots rest ≤ k + 1 →
    g.dst ws = some .dir → (∀ v ∈ w :: realNames rest, ∀ vs, g.dst (ws ++ v :: vs) = none) →
    (∀ v, v ∉ w :: realNames rest → ∀ vs, g.dst (ws ++ v :: vs) = (winFind (sub.child v) vs).map Prod.fst) →
    (realNames rest).length + k + 3 ≤ m →
    (∀ dst, dst ws = some .dir → (∀ v vs, dst (ws ++ v :: vs) = (winFind (sub.child v) vs).map Prod.fst) → (∀ v, ¬ ws <+: v → dst v = g.dst v) →
      Q succeeds { g with dst := dst } T) →
    (may → ∀ e dst, Q (fails e) { g with dst := dst } T) →
    wpW (winCopying ω S D k may) Q (copyLoop hd (fun a b ec => copy c n a b opts ec) (mkPath .windows (ws.foldl winAppendText D)) m (some s) none (.ref none)) g
      ((d, q, rest) :: T)
  | 0, _, _, _, _, _, _, _, _, _, _, _, _, _, _, _, _, _, _, _, h, _, _ => by omega
  | m + 1, g, T, s, d, q, rest, w, Q, hl, hr, he, hd, hf, hmem, hnd, hdc, hdir, hrem, hdone, hm, h1, h2 => by
    obtain ⟨⟨x, s'⟩, hc⟩ := wt_child_of_mem (hmem w (by simp))
    obtain ⟨hw, -, hx1, hx2, hx3⟩ := hp.child hc
    have hxw := wt_child_total hc
    have hnm : ∀ e ∈ rest, ¬ dotName e.name → PlainName e.name := by
      intro e he hd
      obtain ⟨⟨_, _⟩, hc⟩ := wt_child_of_mem (hmem _ (List.mem_cons_of_mem _ (mem_realNames he hd)))
      exact (hp.child hc).1
    obtain ⟨a, b, ha, hfn, hb⟩ := entry_paths (ws.foldl winAppendText S) (ws.foldl winAppendText D) hw
    rw [(win_append_plain _ hw).1] at ha hb
    cases ha
    cases hb
    have hfold : ∀ u, (ws ++ [w]).foldl winAppendText u = winAppendText (ws.foldl winAppendText u) w := fun u => by rw [List.foldl_append]; rfl
    rw [hfold] at he
    unfold copyLoop
    simp only [ne_eq, not_true_eq_false, if_false, he, hfn, (win_append_plain (ws.foldl winAppendText D) hw).1, Prog.ofRes_ok, Prog.ret_bind]
    rw [← hfold, ← hfold]
    apply wpW_bind
    apply wpW_onThrow
    refine ih g _ (ws ++ [w]) (x, s') _ _ (PlainNames.snoc hws hw) (by rw [wt_find_append _ _ _ hf, hc]) hx1 hx2 hx3 ?_ ?_ (by omega)
      (fun dst ha hb => ?_) (fun hmay e dst => ?_)
    · intro v
      rw [List.append_assoc]
      exact hrem w (by simp) v
    · intro _
      rw [List.dropLast_concat]
      exact hdir
    · refine ⟨?_, fun x h => by cases h⟩
      simp only [isSet_none, Bool.false_eq_true, if_false]
      apply wpW_bind
      obtain ⟨hnw, hnd'⟩ := List.nodup_cons.mp hnd
      have kdir : dst ws = some .dir := by rw [hb ws not_prefix_self]; exact hdir
      have krem : ∀ v ∈ realNames rest, ∀ vs, dst (ws ++ v :: vs) = none := by
        intro v hv vs
        rw [hb _ (by rw [prefix_snoc]; rintro rfl; exact hnw hv)]
        exact hrem v (by simp [hv]) vs
      have kdone : ∀ v, v ∉ realNames rest → ∀ vs, dst (ws ++ v :: vs) = (winFind (sub.child v) vs).map Prod.fst := by
        intro v hv vs
        by_cases hvw : w = v
        · subst hvw
          have := ha vs
          rw [List.append_assoc] at this
          rw [hc]
          exact this
        · rw [hb _ (by rw [prefix_snoc]; exact hvw)]
          exact hdone v (by simp [hv, Ne.symm hvw]) vs
      have kframe : ∀ v, ¬ ws <+: v → dst v = g.dst v := fun v hv => hb v fun h => hv ((List.prefix_append ws [w]).trans h)
      refine wpW_incr hl hr (by omega) hnm hd (fun hdots => ?_) (fun pre ent rest' hrest hpre hent => ?_)
      · dsimp only [EcArg.code]
        obtain ⟨m, rfl⟩ : ∃ j, m = j + 1 := ⟨m - 1, by omega⟩
        unfold copyLoop
        rw [realNames_dots hdots] at kdone
        exact wpW_ret (h1 dst kdir (fun v vs => kdone v (by simp) vs) kframe)
      · dsimp only [EcArg.code]
        subst hrest
        rw [realNames_split hpre hent] at krem kdone hm hnd' hmem
        refine wpW_copyLoop ih hws hp hn m (s := atEntry s _ ent) (w := ent.name) hl hr (by simp [atEntry]) hd hf
          (fun v hv => hmem v (by simp only [List.mem_cons] at hv ⊢; exact .inr hv)) hnd'
          (Nat.le_trans findDots_split hdc) kdir krem kdone (by simp only [List.length_cons] at hm; omega) ?_ ?_
        · intro dst' a1 a2 a3
          exact h1 dst' a1 a2 fun v hv => (a3 v hv).trans (kframe v hv)
        · intro hmay e dst'
          exact h2 hmay e dst'
    · refine ⟨?_, fun x h => by cases h⟩
      simp only [isSet_some, if_true]
      apply wpW_bind
      refine wpW_destroy hl hd ?_
      exact wpW_ret (h2 hmay e dst)

theorem reproduces {c : SysClock} {opts : CopyOptions} (ho : fullCopy opts) (n : Nat) : Reproduces ω S D k may c opts n := by
  obtain ⟨ho1, ho2, ho3, ho4, ho5⟩ := ho
  have o1 : (opts.has .recursive || opts == CopyOptions.none) = true := by
    rcases ho1 with h | h
    · rw [(has_recursive opts).mpr h]; rfl
    · rw [h]; rfl
  have o2 := has_false (has_makeLinks opts) ho2
  have o3 := has_false (has_skipLinks opts) ho3
  have o4 := has_false (has_directoriesOnly opts) ho4
  have o5 := has_false (has_makeHardLinks opts) ho5
  induction n with
  | zero => intro g T ws x ec Q _ _ _ _ _ _ _ h; omega
  | succ n ih =>
    intro g T ws ⟨x, sub⟩ ec Q hws hf hx1 hx2 hx3 hdst hpar hn h1 h2
    simp only at hx1 hx2 hx3
    have hfree : Free g.dst ws := ⟨by simpa using hdst [], hpar⟩
    have hkeep : ∀ e, may → Q (fails e) g T := fun e hm => h2 hm e g.dst
    have hframe : ∀ y v, ¬ ws <+: v → grow g.dst ws y v = g.dst v := by
      intro y v hv
      simp only [grow]
      rw [if_neg]
      rintro rfl
      exact hv (List.prefix_refl _)
    have hdst' : ∀ y v vs, grow g.dst ws y (ws ++ v :: vs) = none := by
      intro y v vs
      simp only [grow]
      rw [if_neg (by simp)]
      exact hdst _
    unfold copy
    simp only [o2, o3, Bool.or_self, Bool.false_or, Bool.false_eq_true, if_false, clear_ref]
    apply wpW_bind
    refine wpW_see _ hws hf hx1 (fun st hst => ?_) (fun hm st e => ?_)
    · dsimp only
      rw [if_neg (by simp [EcArg.isSet])]
      apply wpW_bind
      refine wpW_seeNone hws hfree.1 (fun st' e hst' => ?_) (fun hm st' e hst' => ?_)
      · have hk' : st'.known = true := by simp [FStatus.known, hst']
        have hx' : st'.exists' = false := by simp [FStatus.exists', hk', hst']
        have hr' : st'.isRegular = false := by simp [FStatus.isRegular, hst']
        have hd' : st'.isDirectory = false := by simp [FStatus.isDirectory, hst']
        have ho' : st'.isOther = false := by simp [FStatus.isOther, hx']
        have hs : st.isSymlink = false := by
          cases x with
          | link t => exact absurd rfl (hx1 t)
          | _ => simp [FStatus.isSymlink, hst, Kind.type]
        have hx : st.exists' = true := by cases x <;> simp [FStatus.exists', FStatus.known, hst, Kind.type]
        have ho : st.isOther = false := by
          cases x with
          | link t => exact absurd rfl (hx1 t)
          | _ => simp [FStatus.isOther, FStatus.isRegular, FStatus.isDirectory, hst, Kind.type]
        dsimp only
        rw [if_neg (by simp [hk']), if_neg (by simp [hx, ho, ho', hr'])]
        simp only [hx', Bool.and_false, Bool.false_eq_true, if_false, Prog.ret_bind, EcArg.isSet]
        unfold copyDispatch
        simp only [hs, hd', hx', o2, o4, o5, Bool.false_eq_true, if_false]
        cases x with
        | link t => exact absurd rfl (hx1 t)
        | file b =>
          have hsub : sub = .nil := hx2 (by simp)
          subst hsub
          rw [if_pos (by simp [FStatus.isRegular, hst, Kind.type])]
          apply wpW_bind
          refine wpW_copyFile hws hf hfree (wpW_ret ?_) (fun hm e => wpW_ret (hkeep e hm))
          refine h1 _ (fun v => ?_) (hframe _)
          cases v with
          | nil => simp [grow, winFind]
          | cons v vs =>
            rw [hdst']
            simp only [winFind, WinTree.child]
            cases vs <;> rfl
        | dir =>
          rw [if_neg (by simp [FStatus.isRegular, hst, Kind.type])]
          simp only [Bool.and_false, Bool.false_eq_true, if_false, o1, Bool.and_true]
          rw [if_pos (by simp [FStatus.isDirectory, hst, Kind.type])]
          unfold copyDir
          simp only [hx', Bool.not_false, if_true, Prog.bind_assoc]
          apply wpW_bind
          refine wpW_createDirectoryLike hws hf hfree ?_ (fun hm e => ?_)
          · simp only [Prog.ret_bind, isSet_none, Bool.false_eq_true, if_false]
            apply wpW_bind
            have hlen := wt_names_length_le sub
            simp only [winTotal] at hn
            have hend : ∀ dst : List Str → Option Kind, dst ws = some .dir → (∀ v vs, dst (ws ++ v :: vs) = (winFind (sub.child v) vs).map Prod.fst) →
                ∀ v, dst (ws ++ v) = (winFind (some (.dir, sub)) v).map Prod.fst := by
              intro dst a1 a2 v
              cases v with
              | nil => simpa [winFind] using a1
              | cons v vs => exact a2 v vs
            refine wpW_new (fun e h => ?_) (fun l h => ?_) (fun l h hl hdots => ?_) (fun l d pre ent rest h hl hpre hent hd => ?_)
            · have h := h ws sub hws rfl hf hx3
              have ⟨e', he⟩ : ∃ e', openCode DirOptions.none e = some e' := by
                unfold openCode endCode
                split
                · exact ⟨_, if_neg (by decide)⟩
                · exact ⟨_, if_neg h.2⟩
              rw [he]
              simp only [isSet_some, if_true]
              exact wpW_ret (h2 h.1 e' _)
            · have hl := h ws sub hws rfl hf hx3
              refine ⟨by have := hl.2.1; omega, fun e he hed => ?_⟩
              obtain ⟨⟨_, _⟩, hc⟩ := wt_child_of_mem (hl.2.2.mem_iff.mp (mem_realNames he hed))
              exact (hx3.child hc).1
            · have hls := h ws sub hws rfl hf hx3
              have hnil : sub = .nil := by
                have := hls.2.2
                rw [show ((l.filter fun e => ¬ dotName e.name).map FindData.name) = realNames l from rfl, realNames_dots hdots] at this
                exact wt_names_nil this.symm.eq_nil
              subst hnil
              obtain ⟨n, rfl⟩ : ∃ j, n = j + 1 := ⟨n - 1, by omega⟩
              simp only [isSet_none, Bool.false_eq_true, if_false, copyLoop]
              refine wpW_ret (h1 _ (hend _ (grow_at _ _ _) fun v vs => ?_) (hframe _))
              rw [hdst']
              cases vs <;> rfl
            · have hls := h ws sub hws rfl hf hx3
              subst hl
              have hls' := hls.2.2
              rw [show (((pre ++ ent :: rest).filter fun e => ¬ dotName e.name).map FindData.name) = realNames (pre ++ ent :: rest) from rfl,
                realNames_split hpre hent] at hls'
              have hll := hls'.length_eq
              simp only [List.length_cons] at hll
              simp only [isSet_none, Bool.false_eq_true, if_false]
              refine wpW_copyLoop ih hws hx3 (by omega) n (s := atEntry ⟨some d, mkPath .windows (ws.foldl winAppendText S), .default⟩ _ ent) (w := ent.name)
                rfl rfl (by simp [atEntry]) hd hf (fun v hv => hls'.mem_iff.mp hv) (hls'.nodup_iff.mpr hx3.nodup)
                (Nat.le_trans findDots_split hls.2.1) (grow_at _ _ _) (fun v _ vs => hdst' _ v vs) ?_ (by omega) ?_ (fun hm e dst => h2 hm e dst)
              · intro v hv vs
                dsimp only
                rw [hdst', wt_no_child fun h => hv (hls'.mem_iff.mpr h)]
                cases vs <;> rfl
              · intro dst a1 a2 a3
                exact h1 dst (hend dst a1 a2) fun v hv => (a3 v hv).trans (hframe _ v hv)
          · simp only [Prog.ret_bind, isSet_some, if_true]
            exact wpW_ret (hkeep e hm)
      · dsimp only
        rcases hst' with h | h
        · have hk : st'.known = false := by simp [FStatus.known, h]
          rw [if_pos (by simp [hk])]
          exact wpW_ret (hkeep e hm)
        · have hk : st'.known = true := by simp [FStatus.known, h]
          have ho : st'.isOther = true := by simp [FStatus.isOther, FStatus.exists', FStatus.isRegular, FStatus.isDirectory, FStatus.isSymlink, hk, h]
          rw [if_neg (by simp [hk]), if_pos (by simp [ho])]
          exact wpW_ret (hkeep _ hm)
    · dsimp only
      rw [if_pos (by simp [EcArg.isSet])]
      exact wpW_ret (hkeep e hm)

/-- **C100.** If nothing is at `to`, `copy` on Windows of a tree of directories and files ends (`n` levels and rounds are
enough). Either it reports success, and what is at `to` is the tree: at each name there is what there is in the source, of
the same type with the same contents, and nothing at other names. Or some call failed and an error is reported. In
both cases the source and everything outside `to` are unchanged and no search is left open.
Missing: links and other reparse points; a search that breaks off, because it is false then (`c98_violated`). -/
theorem _root_.Asap.c100_copy_partial {c : SysClock} {opts : CopyOptions} (ho : fullCopy opts) {n : Nat} {ec : Code} {x : WinNode Kind}
    (hx1 : ∀ t, x.1 ≠ .link t) (hx2 : x.1 ≠ .dir → x.2 = .nil) (hx3 : x.2.Sound) (hn : winTotal x + k + 3 ≤ n) {s s' : WinOs (WinGarden ω)}
    (h1 : s.disk.src = some x) (h2 : ∀ ws, s.disk.dst ws = none) {t : List Event} {o : Except Stop (Unit × EcArg)}
    (he : Exec (copy c n (mkPath .windows S) (mkPath .windows D) opts (.ref ec)) t o) (hk : Steps (winCopying ω S D k may).step s t s') :
    ((o = succeeds ∧ ∀ ws, s'.disk.dst ws = (winFind (some x) ws).map Prod.fst) ∨ (may ∧ ∃ e, o = fails e)) ∧
    s'.disk.src = s.disk.src ∧ s'.disk.outside = s.disk.outside ∧ s'.table = s.table := by
  obtain ⟨g, T, last⟩ := s
  suffices h : wpW (winCopying ω S D k may) (fun o g' T' => ((o = succeeds ∧ ∀ ws, g'.dst ws = (winFind (some x) ws).map Prod.fst) ∨
      (may ∧ ∃ e, o = fails e)) ∧ g'.src = g.src ∧ g'.outside = g.outside ∧ T' = T)
      (copy c n (mkPath .windows S) (mkPath .windows D) opts (.ref ec)) g T from wp_sound (h last) he hk
  refine reproduces ho n g T [] x ec _ (by simp [PlainNames]) h1 hx1 hx2 hx3 (fun v => h2 v) (by simp) hn (fun dst ha hb => ?_) (fun hm e dst => ?_)
  · exact ⟨.inl ⟨rfl, fun ws => ha ws⟩, rfl, rfl, rfl⟩
  · exact ⟨.inr ⟨hm, e, rfl⟩, rfl, rfl, rfl⟩

/-! ## The assumptions can be met -/

/-- No path leads both into the source and into the destination. -/
def _root_.Asap.Spec.WinApart (S D : Str) : Prop :=
  ∀ ws vs : List Str, PlainNames ws → PlainNames vs → winPlace S ws ≠ winPlace D vs

theorem sound_winLists (k : Nat) {sub : WinTree Kind} (h : sub.Sound) : ∃ l, WinLists k sub l ∧ l ≠ [] := by
  have hall : ∀ w ∈ sub.names, ¬ dotName w := by
    intro w hw
    obtain ⟨⟨t, s⟩, hc⟩ := wt_child_of_mem hw
    exact (h.child hc).2.1
  refine ⟨⟨".".toList, 0#32, 0#32⟩ :: sub.names.map (⟨·, 0#32, 0#32⟩), ?_, by simp⟩
  have hd : ∀ e ∈ sub.names.map (⟨·, 0#32, 0#32⟩ : Str → FindData), ¬ dotName e.name := by
    intro e he
    obtain ⟨w, hw, rfl⟩ := List.mem_map.mp he
    exact hall w hw
  have hdot : dotName ['.'] := by decide
  refine ⟨?_, ?_, ?_⟩
  · simp [findDots, hdot]
  · rw [findDots, List.countP_cons, List.countP_eq_zero.mpr (by simpa using hd)]
    simp [hdot]
  · rw [List.filter_cons, if_neg (by simp [hdot]), List.filter_eq_self.mpr (by simpa using hd), List.map_map]
    simp [Function.comp_def]

theorem winCopying_total (hap : WinApart S D) (s : WinOs (WinGarden ω)) (c : Sys) :
    ∃ (r : c.Ret) (s' : WinOs (WinGarden ω)), (winCopying ω S D k may).step s ⟨c, r⟩ s' := by
  apply WinLaws.total
  · intro g q
    by_cases h : ∃ ws sub, PlainNames ws ∧ q = searchText (winPlace S ws) ∧ winFind g.src ws = some (.dir, sub) ∧ sub.Sound
    · obtain ⟨ws, sub, h1, h2, h3, h4⟩ := h
      obtain ⟨l, hl, hne⟩ := sound_winLists k h4
      refine ⟨.ok l, fun vs sub' g1 g2 g3 g4 => ?_, fun h => hne (by cases h; rfl)⟩
      obtain rfl := search_inj h1 g1 (h2 ▸ g2)
      rw [h3] at g3
      cases g3
      exact hl
    · exact ⟨.error (.ofWin 3), fun ws sub h1 h2 h3 h4 => absurd ⟨ws, sub, h1, h2, h3, h4⟩ h, by simp⟩
  · intro g T c
    have other : ∀ w : WinCall, (∀ r, (winCopying ω S D k may).does g T ⟨.win w, r⟩ g) →
        ∃ (r : (Sys.win w).Ret) (δ' : WinGarden ω), (winCopying ω S D k may).does g T ⟨.win w, r⟩ δ' := fun w h => ⟨WinCall.fails w, g, h _⟩
    cases c with
    | win w =>
      cases w with
      | getAttrs p =>
        by_cases h : ∃ ws x sub, PlainNames ws ∧ p = winPlace S ws ∧ winFind g.src ws = some (x, sub)
        · obtain ⟨ws, x, sub, h1, h2, h3⟩ := h
          refine ⟨.ok (if x = .dir then 0x10#32 else 0#32), g, fun vs x' sub' g1 g2 g3 => ?_, fun vs g1 g2 => absurd (h2.symm.trans g2) (hap _ _ h1 g1)⟩
          obtain rfl := place_inj h1 g1 (h2 ▸ g2)
          rw [h3] at g3
          cases g3
          refine ⟨rfl, ?_⟩
          by_cases hx : x = .dir
          · simp [hx]
          · simp [hx]
        · exact ⟨.error (.ofWin 2), g, fun ws x sub h1 h2 h3 => absurd ⟨ws, x, sub, h1, h2, h3⟩ h,
            fun _ _ _ _ => ⟨rfl, _, rfl, .inr (by unfold Absent; rw [Errno.winValue_ofWin]; decide)⟩⟩
      | getPerms p a => exact ⟨.ok (0 : Mode), g, fun _ _ _ _ _ => ⟨rfl, fun e h => by cases h⟩⟩
      | createDirectoryEx tmpl p =>
        by_cases h : ∃ ws, PlainNames ws ∧ p = winPlace D ws
        · obtain ⟨ws, h1, h2⟩ := h
          refine ⟨.ok (), { g with dst := grow g.dst ws .dir }, fun vs _ _ g1 _ _ g2 _ _ => ?_⟩
          obtain rfl := place_inj h1 g1 (h2 ▸ g2)
          rfl
        · exact ⟨.ok (), g, fun vs _ _ g1 _ _ g2 _ _ => absurd ⟨vs, g1, g2⟩ h⟩
      | copyFile a p o =>
        by_cases h : ∃ ws vs b sub, PlainNames ws ∧ PlainNames vs ∧ a = winPlace S vs ∧ p = winPlace D ws ∧ winFind g.src vs = some (.file b, sub)
        · obtain ⟨ws, vs, b, sub, h1, h2, h3, h4, h5⟩ := h
          refine ⟨.ok (), { g with dst := grow g.dst ws (.file b) }, fun ws' vs' b' sub' g1 g2 g3 g4 g5 _ => ?_⟩
          obtain rfl := place_inj h1 g1 (h4 ▸ g4)
          obtain rfl := place_inj h2 g2 (h3 ▸ g3)
          rw [h5] at g5
          cases g5
          rfl
        · exact ⟨.ok (), g, fun ws vs b sub h1 h2 h3 h4 h5 _ => absurd ⟨ws, vs, b, sub, h1, h2, h3, h4, h5⟩ h⟩
      | _ => exact other _ fun _ => trivial
    | pathconf => exact ⟨(0 : Int), g, trivial⟩
    | getenv x => exact ⟨none, g, trivial⟩
    | winTest q x => exact ⟨(false, none), g, trivial⟩
    | port c => exact ⟨c.fails, g, trivial⟩
    | _ => exact ⟨.error .ENOENT, g, trivial⟩

/-- Two directories with different names are apart. -/
theorem apart_of_names {S D : Str} (h1 : winNames (winTail S) ≠ []) (h2 : winNames (winTail D) ≠ [])
    (h : ∀ ws vs, winNames (winTail S) ++ ws ≠ winNames (winTail D) ++ vs) : WinApart S D := by
  intro ws vs hw hv he
  unfold winPlace at he
  rw [win_pathname_named (by rw [place_names _ hw]; simp [h1]), win_pathname_named (by rw [place_names _ hv]; simp [h2])] at he
  have := congrArg (fun x => winNames (winTail x)) he
  simp only [place_names _ hw, place_names _ hv] at this
  exact h _ _ this

end
end Win

namespace Spec
/-- A directory with a file, and a directory holding a file and an empty directory. -/
def sampleWinPlant : WinNode Kind :=
  (.dir, .node "g".toList (.file []) .nil
    (.node "s".toList .dir (.node "f.x".toList (.file [1, 2, 3]) .nil (.node "e".toList .dir .nil .nil)) .nil))
end Spec

/-- It is copied. -/
example (c : SysClock) : (∃ t o s', Exec (Win.copy c 20 (mkPath .windows "C:\\a".toList) (mkPath .windows "C:\\b".toList) .recursive (.ref none)) t o ∧
      Steps (winCopying Unit "C:\\a".toList "C:\\b".toList 2 False).step ⟨⟨some sampleWinPlant, fun _ => none, ()⟩, [], none⟩ t s') ∧
    ∀ t o s', Exec (Win.copy c 20 (mkPath .windows "C:\\a".toList) (mkPath .windows "C:\\b".toList) .recursive (.ref none)) t o →
      Steps (winCopying Unit "C:\\a".toList "C:\\b".toList 2 False).step ⟨⟨some sampleWinPlant, fun _ => none, ()⟩, [], none⟩ t s' →
      o = succeeds ∧ s'.disk.dst ["s".toList, "f.x".toList] = some (.file [1, 2, 3]) ∧ s'.disk.dst ["g".toList] = some (.file []) ∧
        s'.disk.dst ["x".toList] = none := by
  have ha : winNames (winTail "C:\\a".toList) = ["a".toList] := by decide
  have hb : winNames (winTail "C:\\b".toList) = ["b".toList] := by decide
  have hap : WinApart "C:\\a".toList "C:\\b".toList := Win.apart_of_names (by rw [ha]; simp) (by rw [hb]; simp) (by
    intro ws vs h
    rw [ha, hb] at h
    simp at h)
  refine ⟨exec_exists (Win.winCopying_total hap) _ _, fun t o s' h1 h2 => ?_⟩
  have hg : PlainName "g".toList ∧ ¬ dotName "g".toList := by unfold PlainName; decide
  have hs : PlainName "s".toList ∧ ¬ dotName "s".toList := by unfold PlainName; decide
  have hf : PlainName "f.x".toList ∧ ¬ dotName "f.x".toList := by unfold PlainName; decide
  have he : PlainName "e".toList ∧ ¬ dotName "e".toList := by unfold PlainName; decide
  have := c100_copy_partial (x := sampleWinPlant) (k := 2) (may := False) (by unfold fullCopy; decide) (by simp [sampleWinPlant]) (by simp [sampleWinPlant])
    ⟨hg.1, hg.2, (by decide), (by simp), (by simp), trivial, hs.1, hs.2, (by decide), (by simp), (by simp),
      ⟨hf.1, hf.2, (by decide), (by simp), (by simp), trivial, he.1, he.2, (by decide), (by simp), (by simp), trivial, trivial⟩, trivial⟩
    (by decide) rfl (fun _ => rfl) h1 h2
  rcases this.1 with ⟨h3, h4⟩ | ⟨h3, -⟩
  · exact ⟨h3, by rw [h4]; decide, by rw [h4]; decide, by rw [h4]; decide⟩
  · exact h3.elim

/-! ## A copy into itself -/

namespace Spec
/-- `p\w\w\…` -/
def winNest (p w : Str) (j : Nat) : Str := winPlace p (List.replicate j w)

/-- The state is the number of directories below the directory `p`, each the only entry `w` of the one before. -/
def winNesting (p w : Str) : WinLaws Nat where
  opens m x r := ∀ j ≤ m, x = searchText (winNest p w j) → r = .ok (if j < m then [⟨w, 0x10#32, 0#32⟩] else [⟨".".toList, 0x10#32, 0#32⟩])
  does m _ ev m' := match ev with
    | ⟨.win (.getAttrs x), r⟩ => ∀ j, x = winNest p w j → m' = m ∧
      match r with
      | .ok a => j ≤ m ∧ a = 0x10#32
      | .error e => m < j ∧ Absent e
    | ⟨.win (.getPerms x _), r⟩ => ∀ j, x = winNest p w j → m' = m ∧ ∃ q, r = .ok q
    | ⟨.win (.createDirectoryEx _ x), r⟩ => x = winNest p w (m + 1) → r = .ok () ∧ m' = m + 1
    | _ => True
end Spec

namespace Win

theorem winNames_replicate {w : Str} (hw : PlainName w) (j : Nat) : PlainNames (List.replicate j w) := by
  intro v hv
  rw [List.eq_of_mem_replicate hv]
  exact hw

theorem winNest_inj {p w : Str} (hw : PlainName w) {i j : Nat} (h : winNest p w i = winNest p w j) : i = j := by
  simpa using congrArg List.length (place_inj (winNames_replicate hw i) (winNames_replicate hw j) h)

theorem winNesting_total (p : Str) {w : Str} (hw : PlainName w) (s : WinOs Nat) (c : Sys) :
    ∃ (r : c.Ret) (s' : WinOs Nat), (winNesting p w).step s ⟨c, r⟩ s' := by
  apply WinLaws.total
  · intro m x
    by_cases h : ∃ j, x = searchText (winNest p w j)
    · obtain ⟨j, rfl⟩ := h
      refine ⟨.ok (if j < m then [⟨w, 0x10#32, 0#32⟩] else [⟨".".toList, 0x10#32, 0#32⟩]), fun j' _ h => ?_, ?_⟩
      · have := congrArg List.length (search_inj (winNames_replicate hw j) (winNames_replicate hw j') h)
        simp only [List.length_replicate] at this
        rw [this]
      · split <;> simp
    · exact ⟨.error (.ofWin 3), fun j _ h' => absurd ⟨j, h'⟩ h, by simp⟩
  · intro m T c
    have other : ∀ w' : WinCall, (∀ r, (winNesting p w).does m T ⟨.win w', r⟩ m) →
        ∃ (r : (Sys.win w').Ret) (δ' : Nat), (winNesting p w).does m T ⟨.win w', r⟩ δ' := fun w' h => ⟨WinCall.fails w', m, h _⟩
    cases c with
    | win w' =>
      cases w' with
      | getAttrs x =>
        by_cases h : ∃ j, x = winNest p w j
        · obtain ⟨j, rfl⟩ := h
          by_cases hj : j ≤ m
          · exact ⟨.ok 0x10#32, m, fun j' h => ⟨rfl, by rw [← winNest_inj hw h]; exact hj, rfl⟩⟩
          · exact ⟨.error (.ofWin 2), m, fun j' h => ⟨rfl, by rw [← winNest_inj hw h]; omega, by unfold Absent; rw [Errno.winValue_ofWin]; decide⟩⟩
        · exact ⟨.error (.ofWin 2), m, fun j h' => absurd ⟨j, h'⟩ h⟩
      | getPerms x a => exact ⟨.ok (0 : Mode), m, fun _ _ => ⟨rfl, _, rfl⟩⟩
      | createDirectoryEx y x => exact ⟨.ok (), m + 1, fun _ => ⟨rfl, rfl⟩⟩
      | _ => exact other _ fun _ => trivial
    | pathconf => exact ⟨(0 : Int), m, trivial⟩
    | getenv x => exact ⟨none, m, trivial⟩
    | winTest q x => exact ⟨(false, none), m, trivial⟩
    | port c => exact ⟨c.fails, m, trivial⟩
    | _ => exact ⟨.error .ENOENT, m, trivial⟩

/-- Looking at one of the directories. -/
theorem wpWN_there {p w : Str} {i m : Nat} (hi : i ≤ m) {T : List (Nat × Str × List FindData)} {c : Code}
    {Q : Except Stop (FStatus × EcArg) → Nat → List (Nat × Str × List FindData) → Prop}
    (h : ∀ st : FStatus, st.type = .directory → Q (.ok (st, .ref none)) m T) :
    wpW (winNesting p w) Q (status (mkPath .windows ((List.replicate i w).foldl winAppendText p)) (.ref c)) m T := by
  have hbits : has 0x10#32 FILE_ATTRIBUTE_DIRECTORY = true ∧ has 0x10#32 FILE_ATTRIBUTE_REPARSE_POINT = false := by decide
  unfold status targetAttrs
  simp only [clear_ref]
  intro last r σ' hs
  obtain ⟨m', T', l1⟩ := σ'
  simp only [WinLaws.step, winNesting] at hs
  obtain ⟨hs, hT⟩ := hs
  obtain ⟨hm, hs2⟩ := hs i rfl
  subst T' m'
  rcases r with e | a
  · have := hs2.1; omega
  obtain ⟨-, rfl⟩ := hs2
  dsimp only
  rw [hbits.2, if_neg (by simp)]
  intro r σ' hs
  obtain ⟨m', T', l2⟩ := σ'
  simp only [WinLaws.step, winNesting] at hs
  obtain ⟨hs, hT⟩ := hs
  obtain ⟨hm, q, rfl⟩ := hs i rfl
  subst T' m'
  dsimp only
  rw [hbits.1, if_pos rfl]
  exact h _ rfl

/-- Looking below the last. -/
theorem wpWN_missing {p w : Str} {i m : Nat} (hi : m < i) {T : List (Nat × Str × List FindData)} {c : Code}
    {Q : Except Stop (FStatus × EcArg) → Nat → List (Nat × Str × List FindData) → Prop}
    (h : ∀ (st : FStatus) ec, st.type = .notFound → Q (.ok (st, ec)) m T) :
    wpW (winNesting p w) Q (status (mkPath .windows ((List.replicate i w).foldl winAppendText p)) (.ref c)) m T := by
  unfold status
  simp only [clear_ref]
  intro last r σ' hs
  obtain ⟨m', T', l1⟩ := σ'
  simp only [WinLaws.step, winNesting] at hs
  obtain ⟨hs, hT⟩ := hs
  obtain ⟨hm, hs2⟩ := hs i rfl
  subst T' m'
  rcases r with e | a
  rotate_left
  · have := hs2.1; omega
  obtain ⟨-, habs⟩ := hs2
  dsimp only
  rw [show processStatusFailure e (.ref none) = (⟨.notFound, Perms.none⟩, .ref (some e)) by
    unfold processStatusFailure; rw [if_pos ((notFound_absent e).mpr habs)]; rfl]
  exact h _ _ rfl

theorem wpWN_copy {c : SysClock} {p w : Str} (hw : PlainName w) (hdot : ¬ dotName w) (n : Nat) : ∀ (i : Nat) (T : List (Nat × Str × List FindData)) (ec : Code),
    wpW (winNesting p w) (fun o _ _ => o = .error .fuel) (copy c n (mkPath .windows ((List.replicate i w).foldl winAppendText p))
      (mkPath .windows ((List.replicate (i + 1) w).foldl winAppendText p)) .recursive (.ref ec)) i T := by
  induction n with
  | zero => intro i T ec last; rfl
  | succ n ih =>
    intro i T ec
    have o1 : CopyOptions.recursive.has .createSymlinks = false := by decide
    have o2 : CopyOptions.recursive.has .skipSymlinks = false := by decide
    have o3 : CopyOptions.recursive.has .copySymlinks = false := by decide
    have o4 : CopyOptions.recursive.has .recursive = true := by decide
    unfold copy
    simp only [o1, o2, o3, Bool.or_self, Bool.false_eq_true, if_false, clear_ref]
    apply wpW_bind
    refine wpWN_there (Nat.le_refl _) fun st hst => ?_
    dsimp only
    rw [if_neg (by simp [EcArg.isSet])]
    apply wpW_bind
    refine wpWN_missing (Nat.lt_succ_self _) fun st' ec' hst' => ?_
    have hk' : st'.known = true := by simp [FStatus.known, hst']
    have hx' : st'.exists' = false := by simp [FStatus.exists', hk', hst']
    have hr' : st'.isRegular = false := by simp [FStatus.isRegular, hst']
    have ho' : st'.isOther = false := by simp [FStatus.isOther, hx']
    have hs : st.isSymlink = false := by simp [FStatus.isSymlink, hst]
    have hd : st.isDirectory = true := by simp [FStatus.isDirectory, hst]
    have hr : st.isRegular = false := by simp [FStatus.isRegular, hst]
    have hx : st.exists' = true := by simp [FStatus.exists', FStatus.known, hst]
    have ho : st.isOther = false := by simp [FStatus.isOther, hd]
    dsimp only
    rw [if_neg (by simp [hk']), if_neg (by simp [hx, ho, ho', hr'])]
    simp only [hx', Bool.and_false, Bool.false_eq_true, if_false, Prog.ret_bind, EcArg.isSet]
    unfold copyDispatch
    simp only [hs, hr, hd, o1, o4, Bool.and_false, Bool.false_eq_true, if_false, Bool.true_and, Bool.true_or, if_true]
    unfold copyDir createDirectoryLike
    simp only [hx', Bool.not_false, if_true, clear_ref, Prog.bind_assoc, Prog.call_bind]
    intro last r σ' h
    obtain ⟨m', T', l1⟩ := σ'
    simp only [WinLaws.step, winNesting] at h
    obtain ⟨h, hT⟩ := h
    obtain ⟨rfl, hm⟩ := h rfl
    subst T' m'
    simp only [Prog.ret_bind, isSet_none, Bool.false_eq_true, if_false]
    refine (wpW_bind (L := winNesting p w) (Q := fun o _ _ => o = .error .fuel) ?_) l1
    by_cases hn : n = 0
    · subst hn
      unfold DirIter.new Stream.new
      simp only [clear_ref, Prog.bind_assoc, Prog.call_bind]
      rw [pattern_text]
      intro last r σ' hs
      rcases r with e | ⟨d, ent⟩
      · simp only [WinLaws.step, winNesting] at hs
        have := hs.1 i (by omega) rfl
        cases this
      · rfl
    have hlist : ∀ l, (winNesting p w).opens (i + 1) (searchText (mkPath .windows ((List.replicate i w).foldl winAppendText p)).pathname) (.ok l) → l = [⟨w, 0x10#32, 0#32⟩] := by
      intro l h
      have := h i (by omega) rfl
      rw [if_pos (by omega)] at this
      cases this
      rfl
    refine wpW_new (fun e h => ?_) (fun l h => ?_) (fun l h hl hd => ?_) (fun l d pre ent rest h hl hpre hent hd => ?_)
    · have := h i (by omega) rfl
      cases this
    · obtain rfl := hlist l h
      refine ⟨?_, by simpa using fun _ => hw⟩
      simp only [findDots, List.countP_cons, hdot, List.countP_nil, decide_false]
      simp
      omega
    · obtain rfl := hlist l h
      exact absurd (hd _ (List.mem_singleton.mpr rfl)) hdot
    · obtain rfl := hlist l h
      have hent' : ent.name = w := by
        have h : ent ∈ [(⟨w, 0x10#32, 0#32⟩ : FindData)] := by rw [hl]; simp
        exact congrArg FindData.name (List.mem_singleton.mp h)
      obtain ⟨n, rfl⟩ : ∃ j, n = j + 1 := ⟨n - 1, by omega⟩
      obtain ⟨a, b, ha, hfn, hb⟩ := entry_paths ((List.replicate i w).foldl winAppendText p) ((List.replicate (i + 1) w).foldl winAppendText p) hw
      rw [(win_append_plain _ hw).1] at ha hb
      cases ha
      cases hb
      simp only [isSet_none, Bool.false_eq_true, if_false]
      unfold copyLoop
      simp only [atEntry, hent', ne_eq, not_true_eq_false, if_false, hfn, (win_append_plain ((List.replicate (i + 1) w).foldl winAppendText p) hw).1, Prog.ofRes_ok, Prog.ret_bind]
      apply wpW_bind
      apply wpW_onThrow
      have hsnoc : ∀ j, winAppendText ((List.replicate j w).foldl winAppendText p) w = (List.replicate (j + 1) w).foldl winAppendText p := by
        intro j
        rw [List.replicate_succ', List.foldl_append]
        rfl
      rw [hsnoc, hsnoc]
      refine wpW_mono ?_ (ih (i + 1) _ none)
      rintro o s _ rfl
      exact ⟨rfl, fun x h => by cases h⟩

end Win

/-- C100 is false when `to` is inside `from`: as `c50_violated`, on Windows. -/
theorem c100_violated (c : SysClock) (n : Nat) :
    (∃ t o s', Exec (Win.copy c n (mkPath .windows "C:\\d".toList) (mkPath .windows "C:\\d\\w".toList) .recursive (.ref none)) t o ∧
      Steps (winNesting "C:\\d".toList "w".toList).step ⟨0, [], none⟩ t s') ∧
    ∀ t o s', Exec (Win.copy c n (mkPath .windows "C:\\d".toList) (mkPath .windows "C:\\d\\w".toList) .recursive (.ref none)) t o →
      Steps (winNesting "C:\\d".toList "w".toList).step ⟨0, [], none⟩ t s' → o = .error .fuel := by
  have hw : PlainName "w".toList := by unfold PlainName; decide
  refine ⟨exec_exists (Win.winNesting_total _ hw) _ _, fun t o s' h1 h2 => ?_⟩
  exact wp_sound (step := (winNesting "C:\\d".toList "w".toList).step) (Q := fun o _ => o = .error .fuel)
    (Win.wpWN_copy (c := c) hw (by decide) n 0 [] none none) h1 h2

end Asap
