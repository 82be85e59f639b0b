import Verif.Props.WinX
import Verif.Win.Kernel
import Verif.Win.Tree

/-!
# C99: `remove_all` on Windows removes a tree and nothing else

As C30: the disk is a tree at the path given to `remove_all` and everything else, about which nothing is known. The
specification knows what the calls of Windows that `remove_all` needs do to a file of the tree, and nothing about any
other call: it could change everything.
-/

namespace Asap
namespace Spec

/-- A file: a directory or not, a reparse point (whatever its tag) or not. -/
structure WinFile where
  dir : Bool
  reparse : Bool
  deriving DecidableEq, Repr

/-- A directory that is not a reparse point. -/
def WinFile.plainDir (x : WinFile) : Bool := x.dir && !x.reparse

/-- Names are names, and only directories that are not reparse points have entries. -/
def WinTree.Proper : WinTree WinFile → Prop
  | .nil => True
  | .node w x sub rest => PlainName w ∧ ¬ dotName w ∧ (x.plainDir = false → sub = .nil) ∧ sub.Proper ∧ rest.Proper

/-- The path of the file reached from `u` through the names `ws`. -/
def winPlace (u : Str) (ws : List Str) : Str := (mkPath .windows (ws.foldl winAppendText u)).pathname

/-- Names of files. -/
def PlainNames (ws : List Str) : Prop := ∀ w ∈ ws, PlainName w

/-- The tree at the path in question, the files in it that are open, and everything else. -/
structure WinSite (ω : Type) where
  root : Option (WinNode WinFile)
  handles : List (Nat × List Str)
  outside : ω

/-- A listing of a directory: its names in any order with any attributes, and `.` or `..` at least once and at most `k + 1`
times. -/
def WinLists {κ : Type} (k : Nat) (sub : WinTree κ) (l : List FindData) : Prop :=
  1 ≤ findDots l ∧ findDots l ≤ k + 1 ∧ ((l.filter fun e => ¬ dotName e.name).map FindData.name).Perm sub.names

/-- The operating system, without other processes and without refusals. A directory can only be removed when it is empty
and no search of it is under way, a file when it is not open. -/
def winRemoving (ω : Type) (u : Str) (k : Nat) : WinLaws (WinSite ω) where
  opens D q r := ∀ ws x sub, PlainNames ws → q = searchText (winPlace u ws) → winFind D.root ws = some (x, sub) → x.plainDir = true →
    sub.Proper → ∃ l, r = .ok l ∧ WinLists k sub l
  does D T ev D' := match ev with
    | ⟨.win (.getAttrs p), r⟩ => ∀ ws, PlainNames ws → p = winPlace u ws →
      (∀ x sub, winFind D.root ws = some (x, sub) →
        D' = D ∧ ∃ a : BitVec 32, r = .ok a ∧ a.getLsbD 4 = x.dir ∧ a.getLsbD 10 = x.reparse) ∧
      (ws = [] → D.root = none → D' = D ∧ ∃ e : Errno, r = .error e ∧ e.winValue = 2)
    | ⟨.win (.getPerms p _), r⟩ => ∀ ws y, PlainNames ws → p = winPlace u ws → winFind D.root ws = some y →
      D' = D ∧ ∃ m, r = .ok m
    | ⟨.win (.createFile p o), r⟩ => ∀ ws y, PlainNames ws → p = winPlace u ws → winFind D.root ws = some y → o.reparse = true →
      ∃ h, r = .ok h ∧ h ∉ D.handles.map Prod.fst ∧ D' = { D with handles := (h, ws) :: D.handles }
    | ⟨.win (.reparse h), r⟩ => ∀ ws x sub, D.handles.find? (·.1 = h) = some (h, ws) → winFind D.root ws = some (x, sub) →
      x.reparse = true → D' = D ∧ ∃ b, r = .ok b
    | ⟨.win (.closeHandle h), _⟩ => h ∈ D.handles.map Prod.fst → D' = { D with handles := D.handles.filter (·.1 ≠ h) }
    | ⟨.win (.removeDirectory p), r⟩ => ∀ ws x sub, PlainNames ws → p = winPlace u ws → winFind D.root ws = some (x, sub) → x.dir = true →
      if sub.names = [] ∧ searchText p ∉ T ∧ ws ∉ D.handles.map Prod.snd then r = .ok () ∧ D' = { D with root := winPut D.root ws none }
      else (∃ e, r = .error e) ∧ D' = D
    | ⟨.win (.deleteFile p), r⟩ => ∀ ws x sub, PlainNames ws → p = winPlace u ws → winFind D.root ws = some (x, sub) →
      if x.dir = false ∧ ws ∉ D.handles.map Prod.snd then r = .ok () ∧ D' = { D with root := winPut D.root ws none }
      else (∃ e, r = .error e) ∧ D' = D
    | _ => True

end Spec
open Spec
namespace Win

/-! ## Places -/

theorem PlainNames.snoc {ws : List Str} {w : Str} (h : PlainNames ws) (hw : PlainName w) : PlainNames (ws ++ [w]) := by
  intro v hv
  rcases List.mem_append.mp hv with h' | h'
  · exact h v h'
  · exact List.mem_singleton.mp h' ▸ hw

theorem place_nil (u : Str) : winPlace u [] = (mkPath .windows u).pathname := rfl

theorem place_names (u : Str) {ws : List Str} (h : PlainNames ws) :
    winNames (winTail (ws.foldl winAppendText u)) = winNames (winTail u) ++ ws := by
  induction ws generalizing u with
  | nil => simp
  | cons w ws ih =>
    rw [List.foldl_cons, ih _ fun v hv => h v (by simp [hv]), (win_append_plain u (h w (by simp))).2.2.2.2.1]
    simp

theorem place_text (u : Str) {ws : List Str} (h : PlainNames ws) (hne : ws ≠ []) : winPlace u ws = ws.foldl winAppendText u := by
  unfold winPlace
  refine win_pathname_named ?_
  rw [place_names u h]
  simp [hne]

theorem append_pathname (s : Str) {w : Str} (hw : PlainName w) : ∃ sep, (mkPath .windows (winAppendText s w)).pathname =
    (mkPath .windows s).pathname ++ sep ++ w := by
  obtain ⟨w1, w2, w3, w4, w5, w6⟩ := hw.facts
  have hnm := (win_append_plain s hw).2.2.2.2.1
  rw [win_pathname_named (by rw [hnm]; simp), win_pathname]
  have hr : winStoredRest w = w := by rw [(winStoredRest_facts w).2.2 (by rw [w1, w3]; simp), w1]
  unfold winAppendText
  rw [if_neg (by simp [w2]), hr]
  exact ⟨_, rfl⟩

theorem place_snoc (u : Str) (ws : List Str) {w : Str} (hw : PlainName w) : ∃ sep, winPlace u (ws ++ [w]) = winPlace u ws ++ sep ++ w := by
  unfold winPlace
  rw [List.foldl_append]
  exact append_pathname _ hw

theorem place_length (u : Str) (ws : List Str) {vs : List Str} (h : PlainNames vs) :
    (winPlace u ws).length + vs.length ≤ (winPlace u (ws ++ vs)).length := by
  induction vs generalizing ws with
  | nil => simp
  | cons v vs ih =>
    have hv := h v (by simp)
    have := ih (ws ++ [v]) fun w hw => h w (by simp [hw])
    obtain ⟨sep, hs⟩ := place_snoc u ws hv
    have h1 : v.length ≠ 0 := fun h => hv.1 (List.length_eq_zero_iff.mp h)
    rw [hs, List.append_assoc ws, List.singleton_append] at this
    simp only [List.length_append, List.length_cons] at this ⊢
    omega

theorem place_inj {u : Str} {ws vs : List Str} (h1 : PlainNames ws) (h2 : PlainNames vs) (h : winPlace u ws = winPlace u vs) : ws = vs := by
  by_cases hw : ws = []
  · subst hw
    have := place_length u [] h2
    rw [List.nil_append, ← h] at this
    exact (List.length_eq_zero_iff.mp (by omega)).symm
  by_cases hv : vs = []
  · subst hv
    have := place_length u [] h1
    rw [List.nil_append, h] at this
    exact List.length_eq_zero_iff.mp (by omega)
  rw [place_text u h1 hw, place_text u h2 hv] at h
  have := place_names u h1
  rw [h, place_names u h2] at this
  exact (List.append_cancel_left this).symm

theorem place_search (u : Str) {ws : List Str} (h : PlainNames ws) (hne : ws ≠ []) :
    searchText (winPlace u ws) = winPlace u ws ++ ['\\', '*'] := by
  rcases nil_or_last ws with rfl | ⟨vs, w, rfl⟩
  · exact absurd rfl hne
  have hw := h w (by simp)
  obtain ⟨sep, hs⟩ := place_snoc u vs hw
  unfold searchText
  rw [if_neg]
  rw [hs]
  rcases nil_or_last w with rfl | ⟨y, c, rfl⟩
  · exact absurd rfl hw.1
  rw [← List.append_assoc, List.getLast?_concat]
  have := hw.2.1 c (by simp)
  have h2 : c ≠ ':' := by rintro rfl; exact hw.2.2 (by simp)
  simp [this, h2]

theorem search_length (s : Str) : s.length + 1 ≤ (searchText s).length ∧ (searchText s).length ≤ s.length + 2 := by
  unfold searchText
  split <;> simp

theorem search_inj {u : Str} {ws vs : List Str} (h1 : PlainNames ws) (h2 : PlainNames vs)
    (h : searchText (winPlace u ws) = searchText (winPlace u vs)) : ws = vs := by
  have key : ∀ {vs : List Str}, PlainNames vs → searchText (winPlace u []) = searchText (winPlace u vs) → vs = [] := by
    intro vs h2 h
    by_cases hv : vs = []
    · exact hv
    have h3 := place_length u [] h2
    rw [List.nil_append] at h3
    have h4 := (search_length (winPlace u [])).2
    rw [h, place_search u h2 hv] at h4
    have : vs.length ≠ 0 := fun h => hv (List.length_eq_zero_iff.mp h)
    simp at h4
    omega
  by_cases hw : ws = []
  · subst hw
    exact (key h2 h).symm
  by_cases hv : vs = []
  · subst hv
    exact key h1 h.symm
  rw [place_search u h1 hw, place_search u h2 hv] at h
  exact place_inj h1 h2 (List.append_cancel_right h)

theorem place_ne_nil {u : Str} (hu : (mkPath .windows u).pathname ≠ []) {ws : List Str} (h : PlainNames ws) : winPlace u ws ≠ [] := by
  intro h0
  have := place_length u [] h
  rw [List.nil_append, h0] at this
  exact hu (List.length_eq_zero_iff.mp (by simp at this; exact List.length_eq_zero_iff.mpr this.1))

/-! ## Trees -/

theorem _root_.Asap.Spec.WinTree.Proper.child {s : WinTree WinFile} (hs : s.Proper) {w : Str} {x : WinFile} {sub : WinTree WinFile} (h : s.child w = some (x, sub)) :
    PlainName w ∧ ¬ dotName w ∧ (x.plainDir = false → sub = .nil) ∧ sub.Proper := by
  induction s with
  | nil => simp [WinTree.child] at h
  | node v t' sub' rest _ ih =>
    obtain ⟨h1, h2, h4, h5, h6⟩ := hs
    simp only [WinTree.child] at h
    split at h <;> rename_i hv
    · cases h; subst hv; exact ⟨h1, h2, h4, h5⟩
    · exact ih h6 h

theorem _root_.Asap.Spec.WinTree.Proper.set {s : WinTree WinFile} (hs : s.Proper) (w : Str) : (s.set w none).Proper := by
  induction s with
  | nil => trivial
  | node v t sub rest _ ih =>
    obtain ⟨h1, h2, h4, h5, h6⟩ := hs
    simp only [WinTree.set]
    split
    · exact h6
    · exact ⟨h1, h2, h4, h5, ih h6⟩

/-- The names of the entries other than `.` and `..`. -/
def realNames (l : List FindData) : List Str := (l.filter fun e => ¬ dotName e.name).map FindData.name

theorem realNames_dots {l : List FindData} (h : ∀ e ∈ l, dotName e.name) : realNames l = [] := by
  unfold realNames
  rw [List.filter_eq_nil_iff.mpr (by intro e he; simp [h e he])]; rfl

theorem realNames_split {pre rest : List FindData} {ent : FindData} (h : ∀ e ∈ pre, dotName e.name) (hd : ¬ dotName ent.name) :
    realNames (pre ++ ent :: rest) = ent.name :: realNames rest := by
  unfold realNames
  rw [List.filter_append, List.filter_eq_nil_iff.mpr (by intro e he; simp [h e he]), List.nil_append, List.filter_cons, if_pos (by simpa using hd)]
  rfl

theorem findDots_split {pre rest : List FindData} {ent : FindData} : findDots rest ≤ findDots (pre ++ ent :: rest) := by
  simp only [findDots, List.countP_append, List.countP_cons]; omega

theorem mem_realNames {l : List FindData} {e : FindData} (h : e ∈ l) (hd : ¬ dotName e.name) : e.name ∈ realNames l :=
  List.mem_map.mpr ⟨e, List.mem_filter.mpr ⟨h, by simpa using hd⟩, rfl⟩

/-! ## The walk -/

section
variable {ω : Type} {u : Str} {k : Nat}

/-- No search of the place, or of a place below, is under way. -/
def Idle (u : Str) (ws : List Str) (T : List (Nat × Str × List FindData)) : Prop :=
  ∀ vs, PlainNames vs → searchText (winPlace u (ws ++ vs)) ∉ T.map (·.2.1)

theorem Idle.child {ws : List Str} {T : List (Nat × Str × List FindData)} (h : Idle u ws T) (hws : PlainNames ws) {w : Str} (hw : PlainName w) (d : Nat)
    (l : List FindData) : Idle u (ws ++ [w]) ((d, searchText (winPlace u ws), l) :: T) := by
  intro vs hvs hm
  have hvs' : PlainNames (w :: vs) := by
    intro v hv
    rcases List.mem_cons.mp hv with rfl | hv
    · exact hw
    · exact hvs v hv
  rw [List.append_assoc, List.singleton_append] at hm
  rw [List.map_cons, List.mem_cons] at hm
  rcases hm with hm | hm
  · have := search_inj (u := u) (ws := ws ++ w :: vs) (vs := ws) (by
      intro v hv
      rcases List.mem_append.mp hv with hv | hv
      · exact hws v hv
      · exact hvs' v hv) hws hm
    simp at this
  · exact h _ hvs' hm

/-- Looking at a file of the tree. -/
theorem wpW_look {D : WinSite ω} {T : List (Nat × Str × List FindData)} {ws : List Str} {x : WinFile} {sub : WinTree WinFile}
    {c : Code} {Q : Except Stop (FStatus × EcArg) → WinSite ω → List (Nat × Str × List FindData) → Prop}
    (hws : PlainNames ws) (hf : winFind D.root ws = some (x, sub))
    (hQ : ∀ st, st.isDirectory = x.plainDir → Q (.ok (st, .ref none)) D T) :
    wpW (winRemoving ω u k) Q (symlinkStatus (mkPath .windows (ws.foldl winAppendText u)) (.ref c)) D T := by
  intro last
  unfold symlinkStatus
  simp only [clear_ref]
  intro r σ' h
  simp only [WinLaws.step, winRemoving] at h
  obtain ⟨h, hT⟩ := h
  obtain ⟨hD, a, rfl, h4, h10⟩ := (h ws hws rfl).1 x sub hf
  obtain ⟨D1, T1, l1⟩ := σ'
  subst hD hT
  intro r σ' h
  simp only [WinLaws.step, winRemoving] at h
  obtain ⟨h, hT⟩ := h
  obtain ⟨hD, m, rfl⟩ := h ws _ hws rfl hf
  obtain ⟨D1, T1, l2⟩ := σ'
  subst hD hT
  dsimp only
  rw [has_reparse, h10, has_directory, h4]
  cases htag : x.reparse with
  | false =>
    rw [if_neg (by simp)]
    refine hQ _ ?_
    unfold FStatus.isDirectory WinFile.plainDir
    rw [htag]
    cases x.dir <;> rfl
  | true =>
    rw [if_pos rfl]
    unfold isReparsePointSymlink withFile
    simp only [Prog.call_bind, clear_ref]
    intro r σ' h
    simp only [WinLaws.step, winRemoving] at h
    obtain ⟨h, hT⟩ := h
    obtain ⟨hd, rfl, hnew, hD⟩ := h ws _ hws rfl hf rfl
    obtain ⟨D2, T2, l3⟩ := σ'
    dsimp only at hD hT
    subst hD hT
    apply wp_bind
    apply wp_finally
    intro r σ' h
    simp only [WinLaws.step, winRemoving] at h
    obtain ⟨h, hT⟩ := h
    obtain ⟨hD, b, rfl⟩ := h ws x sub (by simp [List.find?]) hf htag
    obtain ⟨D3, T3, l4⟩ := σ'
    dsimp only at hD hT
    subst hD hT
    refine ⟨fun _ => ?_, fun h => absurd trivial h⟩
    intro r σ' h
    simp only [WinLaws.step, winRemoving] at h
    obtain ⟨h, hT⟩ := h
    have hD := h (by simp)
    obtain ⟨D4, T4, l5⟩ := σ'
    dsimp only at hD hT
    have hfil : (D1.handles.filter fun y => decide (y.1 ≠ hd)) = D1.handles := by
      rw [List.filter_eq_self]
      intro y hy
      simp only [ne_eq, decide_not, Bool.not_eq_true', decide_eq_false_iff_not]
      rintro rfl
      exact hnew (List.mem_map.mpr ⟨y, hy, rfl⟩)
    rw [List.filter_cons, if_neg (by simp), hfil] at hD
    subst hD hT
    dsimp only
    refine hQ _ ?_
    unfold FStatus.isDirectory WinFile.plainDir
    generalize isLinkTag (reparseTag b) = y
    rw [htag, Bool.not_true, Bool.and_false]
    cases y <;> rfl

/-- Removing a file or an empty directory. -/
theorem wpW_remove {D : WinSite ω} {T : List (Nat × Str × List FindData)} {ws : List Str} {x : WinFile}
    {Q : Except Stop (Bool × EcArg) → WinSite ω → List (Nat × Str × List FindData) → Prop} (hu : (mkPath .windows u).pathname ≠ [])
    (hws : PlainNames ws) (hf : winFind D.root ws = some (x, .nil)) (hh : D.handles = []) (hi : Idle u ws T)
    (hQ : Q (.ok (true, .ref none)) { D with root := winPut D.root ws none } T) :
    wpW (winRemoving ω u k) Q (remove (mkPath .windows (ws.foldl winAppendText u)) (.ref none)) D T := by
  intro last
  have hne : (mkPath .windows (ws.foldl winAppendText u)).isEmpty = false := by
    have := place_ne_nil hu hws
    unfold winPlace at this
    simp [Path.isEmpty, this]
  unfold remove
  simp only [hne, Bool.false_eq_true, if_false, clear_ref]
  intro r σ' h
  simp only [WinLaws.step, winRemoving] at h
  obtain ⟨h, hT⟩ := h
  obtain ⟨hD, a, rfl, h4, -⟩ := (h ws hws rfl).1 x _ hf
  obtain ⟨D1, T1, l1⟩ := σ'
  subst hD hT
  dsimp only
  rw [has_directory, h4]
  cases hd : x.dir
  · rw [if_neg (by simp)]
    intro r σ' h
    simp only [WinLaws.step, winRemoving] at h
    obtain ⟨h, hT⟩ := h
    have h := h ws x _ hws rfl hf
    rw [if_pos ⟨hd, by show ws ∉ D1.handles.map Prod.snd; rw [show D1.handles = [] from hh]; simp⟩] at h
    obtain ⟨rfl, hD⟩ := h
    obtain ⟨D2, T2, l2⟩ := σ'
    dsimp only at hD hT
    subst hD hT
    exact hQ
  · rw [if_pos rfl]
    intro r σ' h
    simp only [WinLaws.step, winRemoving] at h
    obtain ⟨h, hT⟩ := h
    have h := h ws x _ hws rfl hf hd
    have := hi [] (by simp [PlainNames])
    rw [List.append_nil] at this
    rw [if_pos ⟨rfl, this, by show ws ∉ D1.handles.map Prod.snd; rw [show D1.handles = [] from hh]; simp⟩] at h
    obtain ⟨rfl, hD⟩ := h
    obtain ⟨D2, T2, l2⟩ := σ'
    dsimp only at hD hT
    subst hD hT
    exact hQ

/-- The claim for a file and everything below it, with `n` levels. -/
def Removes (ω : Type) (u : Str) (k n : Nat) : Prop :=
  ∀ (D : WinSite ω) (T : List (Nat × Str × List FindData)) (ws : List Str) (x : WinNode WinFile)
    (Q : Except Stop (BitVec 64 × Code) → WinSite ω → List (Nat × Str × List FindData) → Prop),
    PlainNames ws → winFind D.root ws = some x → x.2.Proper → (x.1.plainDir = false → x.2 = .nil) → D.handles = [] → Idle u ws T →
    winTotal x + k + 3 ≤ n → Q (.ok (BitVec.ofNat 64 (winTotal x), none)) { D with root := winPut D.root ws none } T →
    wpW (winRemoving ω u k) Q (doRemoveAll n (mkPath .windows (ws.foldl winAppendText u))) D T

theorem wpW_removeLoop {n : Nat} (ih : Removes ω u k n) : ∀ (m : Nat) {D : WinSite ω} {T : List (Nat × Str × List FindData)} {s : Stream} {d : Nat}
    {rest : List FindData} {ws : List Str} {w : Str} {x : WinFile} {sub : WinTree WinFile} {c : Nat}
    {Q : Except Stop (BitVec 64 × Code) → WinSite ω → List (Nat × Str × List FindData) → Prop},
    s.handle = some d → PlainNames ws → s.root = mkPath .windows (ws.foldl winAppendText u) →
    s.entry.path = mkPath .windows ((ws ++ [w]).foldl winAppendText u) → d ∉ T.map Prod.fst →
    winFind D.root ws = some (x, sub) → sub.Proper → D.handles = [] → Idle u ws T → (w :: realNames rest).Perm sub.names → findDots rest ≤ k + 1 →
    sub.size + k + 3 ≤ n → sub.names.length + k + 2 ≤ m →
    Q (.ok (BitVec.ofNat 64 (c + sub.size), none)) { D with root := winPut D.root ws (some (x, .nil)) } T →
    wpW (winRemoving ω u k) Q (removeLoop (doRemoveAll n) m (some s) (BitVec.ofNat 64 c)) D ((d, searchText (winPlace u ws), rest) :: T)
  | 0, _, _, _, _, _, _, _, _, _, _, _, _, _, _, _, _, _, _, _, _, _, _, _, h, _ => by omega
  | m + 1, D, T, s, d, rest, ws, w, x, sub, c, Q, hl, hws, hr, he, hd, hf, hp, hh, hi, hperm, hdc, hn, hm, hQ => by
    obtain ⟨⟨t, s'⟩, hc⟩ := wt_child_of_mem (hperm.mem_iff.mp (by simp : w ∈ w :: realNames rest))
    obtain ⟨h1, h2, h4, h5⟩ := hp.child hc
    have hsz := wt_size_set hc
    have hlen : sub.names.length = (realNames rest).length + 1 := by rw [← hperm.length_eq]; rfl
    have hnm : ∀ e ∈ rest, ¬ dotName e.name → PlainName e.name := by
      intro e he hd
      obtain ⟨⟨_, _⟩, hc⟩ := wt_child_of_mem (hperm.mem_iff.mp (List.mem_cons_of_mem _ (mem_realNames he hd)))
      exact (hp.child hc).1
    unfold removeLoop
    apply wpW_bind
    rw [he]
    refine ih D _ (ws ++ [w]) (t, s') _ (PlainNames.snoc hws h1) (by rw [wt_find_append _ _ _ hf, hc]) h5 h4 hh (hi.child hws h1 _ _) (by omega) ?_
    simp only [ne_eq, not_true_eq_false, if_false]
    rw [wt_put_append hf]
    have hf' : winFind (winPut D.root ws (some (x, sub.set w none))) ws = some (x, sub.set w none) := wt_find_put hf
    have hperm' : (realNames rest).Perm (sub.set w none).names := by
      rw [wt_names_set]
      exact (List.perm_cons w).mp (hperm.trans (List.perm_cons_erase (hperm.mem_iff.mp (by simp))))
    have hcnt : BitVec.ofNat 64 c + BitVec.ofNat 64 (winTotal (t, s')) = BitVec.ofNat 64 (c + winTotal (t, s')) := by rw [BitVec.ofNat_add]
    apply wpW_bind
    refine wpW_incr hl hr (by omega) hnm hd (fun hdots => ?_) (fun pre ent rest' hrest hpre hent => ?_)
    · dsimp only [EcArg.code]
      rw [realNames_dots hdots] at hperm'
      have hnil : sub.set w none = .nil := wt_names_nil hperm'.symm.eq_nil
      rw [hnil] at hsz ⊢
      obtain ⟨m, rfl⟩ : ∃ j, m = j + 1 := ⟨m - 1, by omega⟩
      unfold removeLoop
      rw [hcnt]
      simp only [WinTree.size, Nat.zero_add] at hsz
      rw [hsz]
      exact wpW_ret hQ
    · dsimp only [EcArg.code]
      subst hrest
      rw [realNames_split hpre hent] at hperm'
      have hlen' : (sub.set w none).names.length = (realNames rest').length + 1 := by rw [← hperm'.length_eq]; rfl
      rw [realNames_split hpre hent, List.length_cons] at hlen
      rw [hcnt]
      refine wpW_removeLoop ih m (s := atEntry s _ ent) hl hws hr (by simp [atEntry]) hd hf' (hp.set w) hh hi hperm'
        (Nat.le_trans findDots_split hdc) (by omega) (by omega) ?_
      rw [wt_put_put hf, Nat.add_assoc, Nat.add_comm (winTotal (t, s')), hsz]
      exact hQ

theorem removes (hu : (mkPath .windows u).pathname ≠ []) (n : Nat) : Removes ω u k n := by
  induction n with
  | zero => intro D T ws x Q _ _ _ _ _ _ h; omega
  | succ n ih =>
    intro D T ws ⟨x, sub⟩ Q hws hf hp hleaf hh hi hn hQ
    unfold doRemoveAll
    apply wpW_bind
    refine wpW_look hws hf fun st hst => ?_
    dsimp only
    rw [if_neg (by simp)]
    have hrem : ∀ {D1 : WinSite ω} {c : Nat}, winFind D1.root ws = some (x, .nil) → D1.handles = [] →
        Q (.ok (BitVec.ofNat 64 c, none)) { D1 with root := winPut D1.root ws none } T →
        wpW (winRemoving ω u k) Q ((remove (mkPath .windows (ws.foldl winAppendText u)) (.ref none)).bind fun __x =>
          if (!__x.fst) = true then .ret (umaxErr, __x.snd.code) else .ret (BitVec.ofNat 64 c, __x.snd.code)) D1 T := by
      intro D1 c hf1 hh1 hQ1
      apply wpW_bind
      exact wpW_remove hu hws hf1 hh1 hi (wpW_ret hQ1)
    rw [hst]
    by_cases hd : x.plainDir = true
    · rw [if_pos hd, Prog.bind_assoc]
      apply wpW_bind
      refine wpW_new (fun e h => ?_) (fun l h => ?_) (fun l h hl hdots => ?_) (fun l d pre ent rest h hl hpre hent hd' => ?_)
      · obtain ⟨l, h, -⟩ := h ws x sub hws rfl hf hd hp
        cases h
      · obtain ⟨l', h', hl⟩ := h ws x sub hws rfl hf hd hp
        cases h'
        have := hl.2.1
        refine ⟨by simp only [winTotal] at hn; omega, fun e he hed => ?_⟩
        obtain ⟨⟨_, _⟩, hc⟩ := wt_child_of_mem (hl.2.2.mem_iff.mp (mem_realNames he hed))
        exact (hp.child hc).1
      · obtain ⟨l', h', hls⟩ := h ws x sub hws rfl hf hd hp
        cases h'
        have hnil : sub = .nil := by
          have := hls.2.2
          rw [show ((l.filter fun e => ¬ dotName e.name).map FindData.name) = realNames l from rfl, realNames_dots hdots] at this
          exact wt_names_nil this.symm.eq_nil
        subst hnil
        obtain ⟨n, rfl⟩ : ∃ j, n = j + 1 := ⟨n - 1, by simp [winTotal] at hn; omega⟩
        simp only [removeLoop, Prog.ret_bind, ne_eq, not_true_eq_false, if_false, EcArg.code]
        exact hrem (c := 1) hf hh hQ
      · obtain ⟨l', h', hls⟩ := h ws x sub hws rfl hf hd hp
        cases h'
        subst hl
        have hls' := hls.2.2
        rw [show (((pre ++ ent :: rest).filter fun e => ¬ dotName e.name).map FindData.name) = realNames (pre ++ ent :: rest) from rfl,
          realNames_split hpre hent] at hls'
        simp only [EcArg.code]
        apply wpW_bind
        have hlen := wt_names_length_le sub
        simp only [winTotal] at hn hQ
        refine wpW_removeLoop ih n (s := atEntry ⟨some d, mkPath .windows (ws.foldl winAppendText u), .default⟩ _ ent) (w := ent.name) (c := 1) (x := x)
          rfl hws rfl (by simp [atEntry]) hd' hf hp hh hi hls' (Nat.le_trans findDots_split hls.2.1) (by omega) (by omega) ?_
        simp only [ne_eq, not_true_eq_false, if_false]
        refine hrem (wt_find_put hf) hh ?_
        rw [wt_put_put hf]
        exact hQ
    · have hd : x.plainDir = false := by simpa using hd
      have hnil := hleaf hd
      simp only at hnil
      subst hnil
      rw [if_neg (by simp [hd]), Prog.ret_bind]
      simp only [ne_eq, not_true_eq_false, if_false]
      exact hrem (c := 1) hf hh hQ

/-- **C99.** `remove_all` on Windows of a tree, without interference and refusals: it succeeds (in particular it ends: `n`
levels and rounds are enough), nothing is left at the path, everything outside the tree is unchanged, no search and no
file is left open, and the result is the number of files there were, modulo 2^64. Reparse points, whatever their tag, are
removed and never entered. If there is nothing at the path, nothing is done and the result is 0. -/
theorem _root_.Asap.c99_remove_all {n : Nat} (hu : (mkPath .windows u).pathname ≠ []) {c : Code} {t : List Event}
    {o : Except Stop (BitVec 64 × EcArg)} {s s' : WinOs (WinSite ω)}
    (hprop : ∀ x sub, s.disk.root = some (x, sub) → sub.Proper ∧ (x.plainDir = false → sub = .nil))
    (hopen : s.disk.handles = []) (hidle : ∀ ws, PlainNames ws → searchText (winPlace u ws) ∉ s.table.map (·.2.1))
    (hn : (s.disk.root.map winTotal).getD 0 + k + 3 ≤ n) (hx : Exec (removeAll n (mkPath .windows u) (.ref c)) t o)
    (hs : Steps (winRemoving ω u k).step s t s') :
    o = .ok (BitVec.ofNat 64 ((s.disk.root.map winTotal).getD 0), .ref none) ∧
    s'.disk.root = none ∧ s'.disk.handles = [] ∧ s'.disk.outside = s.disk.outside ∧ s'.table = s.table := by
  obtain ⟨⟨root, hs0, out⟩, T, last⟩ := s
  suffices h : wpW (winRemoving ω u k) (fun o D' T' => o = .ok (BitVec.ofNat 64 ((root.map winTotal).getD 0), .ref none) ∧
      D'.root = none ∧ D'.handles = [] ∧ D'.outside = out ∧ T' = T) (removeAll n (mkPath .windows u) (.ref c)) ⟨root, hs0, out⟩ T from
    wp_sound (h last) hx hs
  unfold removeAll
  have : (mkPath .windows u).isEmpty = false := by simp [Path.isEmpty, hu]
  simp only [this, Bool.false_eq_true, if_false, clear_ref]
  apply wpW_bind
  cases hr : root with
  | some x =>
    subst hr
    obtain ⟨h1, h2⟩ := hprop x.1 x.2 rfl
    refine removes hu n _ T [] x _ (by simp [PlainNames]) rfl h1 h2 hopen (fun vs hvs => by simpa using hidle vs hvs) (by simpa using hn) ?_
    exact wpW_ret ⟨rfl, rfl, hopen, rfl, rfl⟩
  | none =>
    subst hr
    obtain ⟨n, rfl⟩ : ∃ j, n = j + 1 := ⟨n - 1, by simp at hn; omega⟩
    unfold doRemoveAll
    apply wpW_bind
    intro last
    unfold symlinkStatus
    simp only [clear_ref]
    intro r σ' h
    simp only [WinLaws.step, winRemoving] at h
    obtain ⟨h, hT⟩ := h
    obtain ⟨hD, e, rfl, he⟩ := (h [] (by simp [PlainNames]) rfl).2 rfl trivial
    obtain ⟨D1, T1, l1⟩ := σ'
    subst hD hT
    have hst : processStatusFailure e (.ref none) = (⟨.notFound, Perms.none⟩, .ref (some e)) := by
      unfold processStatusFailure
      rw [he, if_pos (by decide)]
      rfl
    dsimp only
    rw [hst]
    show wp _ _ (Prog.ret _) _
    simp only [wp]
    rw [if_pos (by rfl)]
    refine wpW_ret ?_
    simp only [EcArg.code]
    rw [he, if_pos (by decide)]
    exact wpW_ret ⟨rfl, rfl, hopen, rfl, rfl⟩

/-! ## The assumptions can be met -/

theorem exists_winLists (k : Nat) {sub : WinTree WinFile} (h : sub.Proper) : ∃ l, WinLists k sub l := by
  have hall : ∀ w ∈ sub.names, ¬ dotName w := by
    intro w hw
    obtain ⟨⟨t, s⟩, hc⟩ := wt_child_of_mem hw
    exact (h.child hc).2.1
  refine ⟨⟨".".toList, 0#32, 0#32⟩ :: sub.names.map (⟨·, 0#32, 0#32⟩), ?_⟩
  have hd : ∀ e ∈ sub.names.map (⟨·, 0#32, 0#32⟩ : Str → FindData), ¬ dotName e.name := by
    intro e he
    obtain ⟨w, hw, rfl⟩ := List.mem_map.mp he
    exact hall w hw
  have hdot : dotName ['.'] := by decide
  refine ⟨?_, ?_, ?_⟩
  · simp [findDots, hdot]
  · rw [findDots, List.countP_cons, List.countP_eq_zero.mpr (by simpa using hd)]
    simp [hdot]
  · rw [List.filter_cons, if_neg (by simp [hdot]), List.filter_eq_self.mpr (by simpa using hd), List.map_map]
    simp [Function.comp_def]

theorem winRemoving_total (ω : Type) (u : Str) (k : Nat) (s : WinOs (WinSite ω)) (c : Sys) :
    ∃ (r : c.Ret) (s' : WinOs (WinSite ω)), (winRemoving ω u k).step s ⟨c, r⟩ s' := by
  apply WinLaws.total
  · intro D q
    by_cases h : ∃ ws x sub, PlainNames ws ∧ q = searchText (winPlace u ws) ∧ winFind D.root ws = some (x, sub) ∧ sub.Proper
    · obtain ⟨ws, x, sub, h1, h2, h3, h4⟩ := h
      obtain ⟨l, hl⟩ := exists_winLists k h4
      refine ⟨.ok l, fun vs x' sub' g1 g2 g3 g4 g5 => ⟨l, rfl, ?_⟩, ?_⟩
      · obtain rfl := search_inj h1 g1 (h2 ▸ g2)
        rw [h3] at g3
        cases g3
        exact hl
      · intro h
        cases h
        exact absurd hl.1 (by decide)
    · exact ⟨.error (.ofWin 3), fun ws x sub h1 h2 h3 h4 h5 => absurd ⟨ws, x, sub, h1, h2, h3, h5⟩ h, by simp⟩
  · intro D T c
    have other : ∀ w : WinCall, (∀ r, (winRemoving ω u k).does D T ⟨.win w, r⟩ D) →
        ∃ (r : (Sys.win w).Ret) (δ' : WinSite ω), (winRemoving ω u k).does D T ⟨.win w, r⟩ δ' := fun w h => ⟨WinCall.fails w, D, h _⟩
    cases c with
    | win w =>
      cases w with
      | getAttrs p =>
        by_cases h : ∃ ws x sub, PlainNames ws ∧ p = winPlace u ws ∧ winFind D.root ws = some (x, sub)
        · obtain ⟨ws, x, sub, h1, h2, h3⟩ := h
          refine ⟨.ok ((if x.dir then 0x10#32 else 0#32) ||| (if x.reparse then 0x400#32 else 0#32)), D, fun vs g1 g2 => ?_⟩
          obtain rfl := place_inj h1 g1 (h2 ▸ g2)
          refine ⟨fun x' sub' g3 => ⟨rfl, _, rfl, ?_⟩, fun g g' => ?_⟩
          · rw [h3] at g3
            cases g3
            cases x.dir <;> cases x.reparse <;> decide
          · rw [g'] at h3
            subst g
            cases h3
        · exact ⟨.error (.ofWin 2), D, fun ws h1 h2 => ⟨fun x sub h3 => absurd ⟨ws, x, sub, h1, h2, h3⟩ h,
            fun _ _ => ⟨rfl, _, rfl, Errno.winValue_ofWin 2⟩⟩⟩
      | getPerms p a => exact ⟨.ok (0 : Mode), D, fun _ _ _ _ _ => ⟨rfl, _, rfl⟩⟩
      | createFile p o =>
        by_cases h : ∃ ws, PlainNames ws ∧ p = winPlace u ws
        · obtain ⟨ws, h1, h2⟩ := h
          obtain ⟨d, hd⟩ := exists_other (D.handles.map Prod.fst)
          refine ⟨.ok d, { D with handles := (d, ws) :: D.handles }, fun vs y g1 g2 _ _ => ?_⟩
          obtain rfl := place_inj h1 g1 (h2 ▸ g2)
          exact ⟨d, rfl, hd, rfl⟩
        · exact ⟨.error (.ofWin 2), D, fun ws _ h1 h2 => absurd ⟨ws, h1, h2⟩ h⟩
      | reparse d => exact ⟨.ok [], D, fun _ _ _ _ _ _ => ⟨rfl, _, rfl⟩⟩
      | closeHandle d => exact ⟨.ok (), { D with handles := D.handles.filter (·.1 ≠ d) }, fun _ => rfl⟩
      | removeDirectory p =>
        by_cases h : ∃ ws x sub, PlainNames ws ∧ p = winPlace u ws ∧ winFind D.root ws = some (x, sub)
        · obtain ⟨ws, x, sub, h1, h2, h3⟩ := h
          by_cases hc : sub.names = [] ∧ searchText p ∉ T ∧ ws ∉ D.handles.map Prod.snd
          · refine ⟨.ok (), { D with root := winPut D.root ws none }, fun vs x' sub' g1 g2 g3 _ => ?_⟩
            obtain rfl := place_inj h1 g1 (h2 ▸ g2)
            rw [h3] at g3
            cases g3
            rw [if_pos hc]
            exact ⟨rfl, rfl⟩
          · refine ⟨.error (.ofWin 145), D, fun vs x' sub' g1 g2 g3 _ => ?_⟩
            obtain rfl := place_inj h1 g1 (h2 ▸ g2)
            rw [h3] at g3
            cases g3
            rw [if_neg hc]
            exact ⟨⟨_, rfl⟩, rfl⟩
        · exact ⟨.error (.ofWin 2), D, fun ws x sub h1 h2 h3 => absurd ⟨ws, x, sub, h1, h2, h3⟩ h⟩
      | deleteFile p =>
        by_cases h : ∃ ws x sub, PlainNames ws ∧ p = winPlace u ws ∧ winFind D.root ws = some (x, sub)
        · obtain ⟨ws, x, sub, h1, h2, h3⟩ := h
          by_cases hc : x.dir = false ∧ ws ∉ D.handles.map Prod.snd
          · refine ⟨.ok (), { D with root := winPut D.root ws none }, fun vs x' sub' g1 g2 g3 => ?_⟩
            obtain rfl := place_inj h1 g1 (h2 ▸ g2)
            rw [h3] at g3
            cases g3
            rw [if_pos hc]
            exact ⟨rfl, rfl⟩
          · refine ⟨.error (.ofWin 5), D, fun vs x' sub' g1 g2 g3 => ?_⟩
            obtain rfl := place_inj h1 g1 (h2 ▸ g2)
            rw [h3] at g3
            cases g3
            rw [if_neg hc]
            exact ⟨⟨_, rfl⟩, rfl⟩
        · exact ⟨.error (.ofWin 2), D, fun ws x sub h1 h2 h3 => absurd ⟨ws, x, sub, h1, h2, h3⟩ h⟩
      | _ => exact other _ fun _ => trivial
    | pathconf => exact ⟨(0 : Int), D, trivial⟩
    | getenv x => exact ⟨none, D, trivial⟩
    | winTest q x => exact ⟨(false, none), D, trivial⟩
    | port c => exact ⟨c.fails, D, trivial⟩
    | _ => exact ⟨.error .ENOENT, D, trivial⟩

end
end Win

namespace Spec
/-- A directory with a junction, and a directory holding a file and an empty directory. -/
def sampleWinTree : WinNode WinFile :=
  (⟨true, false⟩, .node "j".toList ⟨true, true⟩ .nil
    (.node "s".toList ⟨true, false⟩ (.node "f.x".toList ⟨false, false⟩ .nil (.node "e".toList ⟨true, false⟩ .nil .nil)) .nil))
end Spec

/-- It is removed, with a count of 5. -/
example : (∃ t o s', Exec (Win.removeAll 20 (mkPath .windows "C:\\d".toList) (.ref none)) t o ∧
      Steps (winRemoving Unit "C:\\d".toList 2).step ⟨⟨some sampleWinTree, [], ()⟩, [], none⟩ t s') ∧
    ∀ t o s', Exec (Win.removeAll 20 (mkPath .windows "C:\\d".toList) (.ref none)) t o →
      Steps (winRemoving Unit "C:\\d".toList 2).step ⟨⟨some sampleWinTree, [], ()⟩, [], none⟩ t s' →
      o = .ok (5#64, .ref none) ∧ s'.disk.root = none := by
  refine ⟨exec_exists (Win.winRemoving_total _ _ _) _ _, fun t o s' h1 h2 => ?_⟩
  have := c99_remove_all (k := 2) (by decide +kernel) (by
    intro x sub h
    cases h
    have hj : PlainName "j".toList ∧ ¬ dotName "j".toList := by unfold PlainName; decide
    have hs : PlainName "s".toList ∧ ¬ dotName "s".toList := by unfold PlainName; decide
    have hf : PlainName "f.x".toList ∧ ¬ dotName "f.x".toList := by unfold PlainName; decide
    have he : PlainName "e".toList ∧ ¬ dotName "e".toList := by unfold PlainName; decide
    exact ⟨⟨hj.1, hj.2, fun _ => rfl, trivial, hs.1, hs.2, (by intro h; cases h), ⟨hf.1, hf.2, fun _ => rfl, trivial, he.1, he.2,
      fun _ => rfl, trivial, trivial⟩, trivial⟩, by intro h; cases h⟩) rfl (by simp) (by decide) h1 h2
  exact ⟨this.1, this.2.1⟩

end Asap
