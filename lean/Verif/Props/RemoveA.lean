import Verif.Props.DirA
import Verif.Props.CopyA
import Verif.Dir.Kernel
import Verif.Ops.Recursive

/-!
# C30: `remove_all` removes a tree and nothing else

The disk is a tree at the path given to `remove_all` and everything else, about which nothing is known. The
specification knows what `lstat`, `opendir` and `remove` do to a file in the tree named through its directories, and
nothing about any other call: it could change everything.
-/

namespace Asap
namespace Spec

/-- The entries of a directory: name, type, and its own entries if it is a directory. -/
inductive Tree where
  | nil
  | node (name : Str) (type : FType) (sub rest : Tree)

/-- A file of any type with its entries. -/
abbrev Node := FType × Tree

/-- The number of files in a tree. -/
def Tree.size : Tree → Nat
  | .nil => 0
  | .node _ _ sub rest => 1 + sub.size + rest.size

def Tree.names : Tree → List Str
  | .nil => []
  | .node w _ _ rest => w :: rest.names

def Tree.child : Tree → Str → Option Node
  | .nil, _ => none
  | .node v t sub rest, w => if v = w then some (t, sub) else rest.child w

/-- Put another file, or none, in the place of an entry. -/
def Tree.set : Tree → Str → Option Node → Tree
  | .nil, _, _ => .nil
  | .node v t sub rest, w, y =>
    if v = w then (match y with
      | none => rest
      | some (t', sub') => .node v t' sub' rest)
    else .node v t sub (rest.set w y)

/-- A type a file can have. -/
def RealType (t : FType) : Prop := t ≠ .none ∧ t ≠ .notFound ∧ t ≠ .reparse

/-- Names are names, and only directories have entries. -/
def Tree.Proper : Tree → Prop
  | .nil => True
  | .node w t sub rest => IsName w ∧ w ≠ ".".toList ∧ w ≠ "..".toList ∧ RealType t ∧
    (t ≠ .directory → sub = .nil) ∧ sub.Proper ∧ rest.Proper

/-- The file reached through the names `ws`. -/
def find : Option Node → List Str → Option Node
  | x, [] => x
  | none, _ :: _ => none
  | some (_, sub), w :: ws => find (sub.child w) ws

/-- Put another file, or none, there. -/
def put : Option Node → List Str → Option Node → Option Node
  | _, [], y => y
  | none, _ :: _, _ => none
  | some (t, sub), w :: ws, y => some (t, sub.set w (put (sub.child w) ws y))

/-- The tree at the path in question, and everything else. -/
structure Site (ω : Type) where
  root : Option Node
  outside : ω

/-- A listing of a directory: its names in any order with any types, and at most `k` times `.` or `..`. -/
def Lists (k : Nat) (sub : Tree) (l : List Dirent) : Prop :=
  dotCount l ≤ k ∧ (∀ e ∈ l, IsName e.name) ∧ ((l.filter fun e => ¬ e.dot).map Dirent.name).Perm sub.names

/-- The operating system, without other processes and without refusals. -/
def removing (ω : Type) (p : Str) (k : Nat) : Laws (Site ω) where
  opens D x r := ∀ ws sub, (∀ w ∈ ws, IsName w) → x = ws.foldl addElem p → find D.root ws = some (.directory, sub) → sub.Proper →
    ∃ l, r = .ok l ∧ Lists k sub l
  does D ev D' := match ev with
    | ⟨.lstat x, r⟩ => ∀ ws, (∀ w ∈ ws, IsName w) → x = ws.foldl addElem p →
      (∀ t sub, find D.root ws = some (t, sub) → RealType t → D' = D ∧ ∃ st, r = .ok st ∧ typeOf st.mode = t) ∧
      (ws = [] → D.root = none → D' = D ∧ r = .error .ENOENT)
    | ⟨.remove x, r⟩ => ∀ ws, (∀ w ∈ ws, IsName w) → x = ws.foldl addElem p →
      (∀ t, find D.root ws = some (t, .nil) → r = .ok () ∧ D' = { D with root := put D.root ws none }) ∧
      (∀ sub, sub ≠ .nil → find D.root ws = some (.directory, sub) → r = .error .ENOTEMPTY ∧ D' = D)
    | _ => True

/-- The number of files in a node, itself included. -/
def count (x : Node) : Nat := 1 + x.2.size

end Spec
open Spec

/-! ## Trees -/

theorem find_append (x : Option Node) (ws : List Str) (w : Str) {t : FType} {sub : Tree} (h : find x ws = some (t, sub)) :
    find x (ws ++ [w]) = sub.child w := by
  induction ws generalizing x with
  | nil => simp only [find] at h; subst h; simp [find]
  | cons v vs ih =>
    cases x with
    | none => simp [find] at h
    | some c => obtain ⟨t', s'⟩ := c; simp only [find, List.cons_append] at h ⊢; exact ih _ h

theorem child_set_some {s : Tree} {w : Str} {c y : Node} (h : s.child w = some c) : (s.set w (some y)).child w = some y := by
  induction s with
  | nil => simp [Tree.child] at h
  | node v t sub rest _ ih =>
    simp only [Tree.child, Tree.set] at h ⊢
    split <;> rename_i hv
    · simp [Tree.child, hv]
    · rw [if_neg hv] at h
      simp only [Tree.child, if_neg hv]
      exact ih h

theorem set_set {s : Tree} {w : Str} {y : Node} {z : Option Node} : (s.set w (some y)).set w z = s.set w z := by
  induction s with
  | nil => rfl
  | node v t sub rest _ ih =>
    simp only [Tree.set]
    split <;> rename_i hv
    · simp [Tree.set, hv]
    · simp [Tree.set, hv, ih]

theorem set_child {s : Tree} {w : Str} {c : Node} (h : s.child w = some c) : s.set w (some c) = s := by
  induction s with
  | nil => rfl
  | node v t sub rest _ ih =>
    simp only [Tree.set, Tree.child] at h ⊢
    split <;> rename_i hv
    · rw [if_pos hv] at h; cases h; rfl
    · rw [if_neg hv] at h; rw [ih h]

theorem find_put {x : Option Node} {ws : List Str} {c y : Node} (h : find x ws = some c) : find (put x ws (some y)) ws = some y := by
  induction ws generalizing x with
  | nil => rfl
  | cons v vs ih =>
    cases x with
    | none => simp [find] at h
    | some b =>
      obtain ⟨t', s'⟩ := b
      simp only [find, put] at h ⊢
      have hc : ∃ z, s'.child v = some z := by
        cases hx : s'.child v with
        | none => rw [hx] at h; cases vs <;> simp [find] at h
        | some z => exact ⟨z, rfl⟩
      obtain ⟨z, hz⟩ := hc
      rw [hz] at h ⊢
      have h2 : ∃ u, put (some z) vs (some y) = some u := by
        obtain ⟨zt, zs⟩ := z
        cases vs with
        | nil => exact ⟨y, rfl⟩
        | cons a as => exact ⟨_, rfl⟩
      obtain ⟨u, hu⟩ := h2
      rw [hu, child_set_some hz, ← hu]
      exact ih h

theorem put_put {x : Option Node} {ws : List Str} {c y : Node} {z : Option Node} (h : find x ws = some c) :
    put (put x ws (some y)) ws z = put x ws z := by
  induction ws generalizing x with
  | nil => rfl
  | cons v vs ih =>
    cases x with
    | none => simp [find] at h
    | some b =>
      obtain ⟨t', s'⟩ := b
      simp only [find, put] at h ⊢
      have hc : ∃ z, s'.child v = some z := by
        cases hx : s'.child v with
        | none => rw [hx] at h; cases vs <;> simp [find] at h
        | some z => exact ⟨z, rfl⟩
      obtain ⟨b, hb⟩ := hc
      rw [hb] at h ⊢
      have h2 : ∃ u, put (some b) vs (some y) = some u := by
        obtain ⟨zt, zs⟩ := b
        cases vs with
        | nil => exact ⟨y, rfl⟩
        | cons a as => exact ⟨_, rfl⟩
      obtain ⟨u, hu⟩ := h2
      rw [hu, child_set_some hb, set_set, ← hu, ih h]

theorem put_append {x : Option Node} {ws : List Str} {w : Str} {t : FType} {sub : Tree} {y : Option Node}
    (h : find x ws = some (t, sub)) : put x (ws ++ [w]) y = put x ws (some (t, sub.set w y)) := by
  induction ws generalizing x with
  | nil => simp only [find] at h; subst h; simp [put]
  | cons v vs ih =>
    cases x with
    | none => simp [find] at h
    | some b =>
      obtain ⟨t', s'⟩ := b
      simp only [find, put, List.cons_append] at h ⊢
      rw [ih h]

theorem names_set (s : Tree) (w : Str) : (s.set w none).names = s.names.erase w := by
  induction s with
  | nil => rfl
  | node v t sub rest _ ih =>
    simp only [Tree.set, Tree.names, List.erase_cons]
    by_cases hv : v = w
    · simp [hv]
    · simp [hv, Tree.names, ih]

theorem size_set {s : Tree} {w : Str} {c : Node} (h : s.child w = some c) : (s.set w none).size + count c = s.size := by
  induction s with
  | nil => simp [Tree.child] at h
  | node v t sub rest _ ih =>
    simp only [Tree.set, Tree.child, Tree.size] at h ⊢
    by_cases hv : v = w
    · simp only [hv, if_true, Option.some.injEq] at h ⊢; subst h; simp only [count]; omega
    · simp only [hv, if_false] at h ⊢; have := ih h; simp only [Tree.size]; omega

theorem child_of_mem {s : Tree} {w : Str} (h : w ∈ s.names) : ∃ c, s.child w = some c := by
  induction s with
  | nil => simp [Tree.names] at h
  | node v t sub rest _ ih =>
    simp only [Tree.names, List.mem_cons, Tree.child] at h ⊢
    by_cases hv : v = w
    · exact ⟨(t, sub), by simp [hv]⟩
    · simp only [hv, if_false]; exact ih (by rcases h with h | h; exact absurd h.symm hv; exact h)

theorem names_length_le (s : Tree) : s.names.length ≤ s.size := by
  induction s with
  | nil => simp [Tree.names, Tree.size]
  | node v t sub rest _ ih => simp only [Tree.names, Tree.size, List.length_cons]; omega

theorem names_nil {s : Tree} (h : s.names = []) : s = .nil := by
  cases s with
  | nil => rfl
  | node => simp [Tree.names] at h

theorem Spec.Tree.Proper.child {s : Tree} (hs : s.Proper) {w : Str} {t : FType} {sub : Tree} (h : s.child w = some (t, sub)) :
    IsName w ∧ w ≠ ".".toList ∧ w ≠ "..".toList ∧ RealType t ∧ (t ≠ .directory → sub = .nil) ∧ sub.Proper := by
  induction s with
  | nil => simp [Tree.child] at h
  | node v t' sub' rest _ ih =>
    obtain ⟨h1, h2, h3, h7, h4, h5, h6⟩ := hs
    simp only [Tree.child] at h
    split at h <;> rename_i hv
    · cases h; subst hv; exact ⟨h1, h2, h3, h7, h4, h5⟩
    · exact ih h6 h

theorem Spec.Tree.Proper.set {s : Tree} (hs : s.Proper) (w : Str) : (s.set w none).Proper := by
  induction s with
  | nil => trivial
  | node v t sub rest _ ih =>
    obtain ⟨h1, h2, h3, h7, h4, h5, h6⟩ := hs
    simp only [Tree.set]
    split
    · exact h6
    · exact ⟨h1, h2, h3, h7, h4, h5, ih h6⟩

/-! ## The walk -/

section
variable {ω : Type} {p : Str} {k : Nat} {T : List (Nat × List Dirent)}

theorem foldl_snoc (ws : List Str) {w : Str} (hw : IsName w) :
    appendText (ws.foldl addElem p) w = (ws ++ [w]).foldl addElem p := by
  rw [List.foldl_append, List.foldl_cons, List.foldl_nil, addElem_appendText]
  cases w with
  | nil => rfl
  | cons c cs => have := hw.2; simp at this; simp [startsSlash, Ne.symm this.1]

/-- The names of the entries other than `.` and `..`. -/
def realNames (l : List Dirent) : List Str := (l.filter fun e => ¬ e.dot).map Dirent.name

theorem realNames_dots {l : List Dirent} (h : ∀ e ∈ l, e.dot) : realNames l = [] := by
  unfold realNames
  rw [List.filter_eq_nil_iff.mpr (by intro e he; simp [h e he])]; rfl

theorem realNames_split {pre rest : List Dirent} {ent : Dirent} (h : ∀ e ∈ pre, e.dot) (hd : ¬ ent.dot) :
    realNames (pre ++ ent :: rest) = ent.name :: realNames rest := by
  unfold realNames
  rw [List.filter_append, List.filter_eq_nil_iff.mpr (by intro e he; simp [h e he]), List.nil_append, List.filter_cons, if_pos (by simpa using hd)]
  rfl

theorem dotCount_split {pre rest : List Dirent} {ent : Dirent} : dotCount rest ≤ dotCount (pre ++ ent :: rest) := by
  simp only [dotCount, List.countP_append, List.countP_cons]; omega

/-- The claim for a file and everything below it, with `n` levels. -/
def Removes (ω : Type) (p : Str) (k n : Nat) : Prop :=
  ∀ (D : Site ω) (T : List (Nat × List Dirent)) (q : Path) (ws : List Str) (x : Node) (Q : Except Stop (BitVec 64 × Code) → Os (Site ω) → Prop),
    Shape q → (∀ w ∈ ws, IsName w) → q.pathname = ws.foldl addElem p → find D.root ws = some x → RealType x.1 → x.2.Proper → (x.1 ≠ .directory → x.2 = .nil) → count x + k + 2 ≤ n →
    Q (.ok (BitVec.ofNat 64 (count x), none)) ⟨{ D with root := put D.root ws none }, T⟩ →
    wp (removing ω p k).step Q (doRemoveAll n q) ⟨D, T⟩

theorem wp_removeLoop {n : Nat} (ih : Removes ω p k n) : ∀ (m : Nat) {D : Site ω} {T : List (Nat × List Dirent)} {s : Stream} {d : Nat}
    {rest : List Dirent} {ws : List Str} {w : Str} {sub : Tree} {c : Nat} {Q : Except Stop (BitVec 64 × Code) → Os (Site ω) → Prop},
    s.Live d → (∀ w ∈ ws, IsName w) → s.root.pathname = ws.foldl addElem p → Shape s.entry.path → s.entry.path.pathname = (ws ++ [w]).foldl addElem p → d ∉ T.map Prod.fst →
    find D.root ws = some (.directory, sub) → sub.Proper → (w :: realNames rest).Perm sub.names → (∀ e ∈ rest, IsName e.name) → dotCount rest ≤ k →
    sub.size + k + 2 ≤ n → sub.names.length + k + 1 ≤ m →
    Q (.ok (BitVec.ofNat 64 (c + sub.size), none)) ⟨{ D with root := put D.root ws (some (.directory, .nil)) }, T⟩ →
    wp (removing ω p k).step Q (removeLoop (doRemoveAll n) m (some s) (BitVec.ofNat 64 c)) ⟨D, (d, rest) :: T⟩
  | 0, _, _, _, _, _, _, _, _, _, _, _, _, _, _, _, _, _, _, _, _, _, _, h, _ => by omega
  | m + 1, D, T, s, d, rest, ws, w, sub, c, Q, hl, hws, hr, hsh, he, hd, hf, hp, hperm, hnm, hdc, hn, hm, hQ => by
    obtain ⟨⟨t, s'⟩, hc⟩ := child_of_mem (hperm.mem_iff.mp (by simp : w ∈ w :: realNames rest))
    obtain ⟨h1, h2, h3, h7, h4, h5⟩ := hp.child hc
    have hsz := size_set hc
    have hlen : sub.names.length = (realNames rest).length + 1 := by rw [← hperm.length_eq]; rfl
    unfold removeLoop
    simp only [Prog.bind_eq]
    apply wp_bind
    refine ih D _ _ (ws ++ [w]) (t, s') _ hsh (by
        intro v hv
        rcases List.mem_append.mp hv with h | h
        · exact hws v h
        · exact (List.mem_singleton.mp h) ▸ h1) he (by rw [find_append _ _ _ hf, hc]) h7 h5 h4 (by omega) ?_
    simp only [ne_eq, not_true_eq_false, if_false]
    rw [put_append hf]
    have hf' : find (put D.root ws (some (.directory, sub.set w none))) ws = some (.directory, sub.set w none) := find_put hf
    have hperm' : (realNames rest).Perm (sub.set w none).names := by
      rw [names_set]
      exact (List.perm_cons w).mp (hperm.trans (List.perm_cons_erase (hperm.mem_iff.mp (by simp))))
    have hcnt : BitVec.ofNat 64 c + BitVec.ofNat 64 (count (t, s')) = BitVec.ofNat 64 (c + count (t, s')) := by rw [BitVec.ofNat_add]
    apply wp_bind
    refine wpK_incr hl (by omega) hnm hd (fun hdots => ?_) (fun pre ent rest' hrest hpre hent => ?_)
    · dsimp only [EcArg.code]
      rw [realNames_dots hdots] at hperm'
      have hnil : sub.set w none = .nil := names_nil hperm'.symm.eq_nil
      rw [hnil] at hsz ⊢
      obtain ⟨m, rfl⟩ : ∃ j, m = j + 1 := ⟨m - 1, by omega⟩
      unfold removeLoop
      rw [hcnt]
      simp only [Tree.size, Nat.zero_add] at hsz
      rw [hsz]
      exact hQ
    · dsimp only [EcArg.code]
      subst hrest
      rw [realNames_split hpre hent] at hperm'
      have hne := hnm ent (by simp)
      have hlen' : (sub.set w none).names.length = (realNames rest').length + 1 := by rw [← hperm'.length_eq]; rfl
      rw [realNames_split hpre hent, List.length_cons] at hlen
      rw [hcnt]
      refine wp_removeLoop ih m (hl.at ent _) hws hr (mkPath_shape _) ?_ hd hf' (hp.set w) hperm' (fun e h => hnm e (by simp [h]))
        (Nat.le_trans dotCount_split hdc) (by omega) (by omega) ?_
      · show (mkPath .posix (appendText s.root.pathname ent.name)).pathname = _
        rw [mkPath_pathname, stored_appendText _ _ (startsSlash_name hne.2) hl.root.stored, hr, foldl_snoc ws hne]
      · rw [put_put hf, Nat.add_assoc, Nat.add_comm (count (t, s')), hsz]
        exact hQ

theorem removes (hp0 : p ≠ []) (n : Nat) : Removes ω p k n := by
  induction n with
  | zero => intro D T q ws x Q _ _ _ _ _ _ _ h; omega
  | succ n ih =>
    intro D T q ws ⟨t, sub⟩ Q hsh hws hq hf htr hp hleaf hn hQ
    unfold doRemoveAll
    simp only [Prog.bind_eq]
    rw [symlinkStatus_ref]
    intro r σ' hstep
    simp only [Laws.step, removing] at hstep
    obtain ⟨hl, hT⟩ := hstep
    obtain ⟨hD, st, rfl, ht⟩ := (hl ws hws hq).1 t sub hf htr
    obtain ⟨D', T'⟩ := σ'
    subst hD hT
    dsimp only [wp, EcArg.isSet, EcArg.code, Option.isSome]
    simp only [Prog.ret_bind, EcArg.isSet, EcArg.code, Option.isSome_none, Bool.false_eq_true, if_false]
    have hdir : (statusOf st).isDirectory = decide (t = .directory) := by
      simp only [FStatus.isDirectory, statusOf_type, ht]; cases t <;> rfl
    have hrem : ∀ {D1 : Site ω} {c : Nat}, find D1.root ws = some (t, .nil) →
        Q (.ok (BitVec.ofNat 64 c, none)) ⟨{ D1 with root := put D1.root ws none }, T'⟩ →
        wp (removing ω p k).step Q ((remove q (.ref none)).bind fun __x =>
          if (!__x.fst) = true then .ret (umaxErr, __x.snd.code) else .ret (BitVec.ofNat 64 c, __x.snd.code)) ⟨D1, T'⟩ := by
      intro D1 c hf1 hQ1
      have hne : q.isEmpty = false := by
        have := foldl_addElem_ne_nil ws hp0
        rw [← hq] at this
        simp [Path.isEmpty, this]
      unfold remove
      simp only [hne, Bool.false_eq_true, if_false, clear_ref]
      intro r σ' hstep
      simp only [Laws.step, removing] at hstep
      obtain ⟨hl, hT⟩ := hstep
      obtain ⟨rfl, hD⟩ := (hl ws hws hq).1 t hf1
      obtain ⟨D2, T2⟩ := σ'
      subst hD hT
      simpa [wp, EcArg.code] using hQ1
    by_cases htd : t = .directory
    · subst htd
      simp only [hdir, decide_true, if_true, Prog.bind_assoc]
      apply wp_bind
      refine wpK_new hsh (fun e h => ?_) (fun l h => ?_) (fun l h hd => ?_) (fun l d pre ent rest h hl hpre hent hd => ?_)
      · obtain ⟨l, h, -⟩ := h ws sub hws hq hf hp
        cases h
      · obtain ⟨l', h', hl⟩ := h ws sub hws hq hf hp
        cases h'
        have := hl.1
        exact ⟨by omega, hl.2.1⟩
      · obtain ⟨l', h', hl⟩ := h ws sub hws hq hf hp
        cases h'
        have hnil : sub = .nil := by
          have := hl.2.2
          rw [show ((l.filter fun e => ¬ e.dot).map Dirent.name) = realNames l from rfl, realNames_dots hd] at this
          exact names_nil this.symm.eq_nil
        subst hnil
        obtain ⟨n, rfl⟩ : ∃ j, n = j + 1 := ⟨n - 1, by simp [count] at hn; omega⟩
        simp only [removeLoop, Prog.ret_bind, ne_eq, not_true_eq_false, if_false, EcArg.code]
        exact hrem (c := 1) hf hQ
      · obtain ⟨l', h', hls⟩ := h ws sub hws hq hf hp
        cases h'
        subst hl
        have hls' := hls.2.2
        rw [show (((pre ++ ent :: rest).filter fun e => ¬ e.dot).map Dirent.name) = realNames (pre ++ ent :: rest) from rfl,
          realNames_split hpre hent] at hls'
        have hne := hls.2.1 ent (by simp)
        simp only [EcArg.code]
        apply wp_bind
        have hlen := names_length_le sub
        simp only [count] at hn hQ
        refine wp_removeLoop ih n (s := Stream.at ⟨some d, q, .default⟩ ent _) (w := ent.name) (c := 1)
          (Stream.Live.at (s := ⟨some d, q, .default⟩) ⟨rfl, hsh⟩ ent _) hws hq (mkPath_shape _) ?_ hd hf hp hls'
          (fun e he => hls.2.1 e (by simp [he])) (Nat.le_trans dotCount_split hls.1) (by omega) (by omega) ?_
        · show (mkPath .posix (appendText q.pathname ent.name)).pathname = _
          rw [mkPath_pathname, stored_appendText _ _ (startsSlash_name hne.2) hsh.stored, hq, foldl_snoc ws hne]
        · simp only [ne_eq, not_true_eq_false, if_false]
          refine hrem (find_put hf) ?_
          rw [put_put hf]
          exact hQ
    · have hnil := hleaf htd
      simp only at hnil
      subst hnil
      simp only [hdir, decide_eq_true_eq, htd, if_false, Prog.ret_bind, ne_eq, not_true_eq_false]
      exact hrem (c := 1) hf hQ

/-- C30. Without interference and refusals `remove_all` succeeds (in particular it terminates: `n` levels and rounds are
enough), nothing is left at `p`, everything outside the tree is unchanged, all streams are closed, and
the result is the number of files there were, modulo 2^64; if there is nothing at `p`, nothing is done and the result is 0. -/
theorem c30_remove_all {n : Nat} {q : Path} (hq : Shape q) (hne : q.pathname ≠ []) {c : Code} {t : List Event} {o : Except Stop (BitVec 64 × EcArg)}
    {s s' : Os (Site ω)} (hprop : ∀ y sub, s.disk.root = some (y, sub) → RealType y ∧ sub.Proper ∧ (y ≠ .directory → sub = .nil))
    (hn : (s.disk.root.map count).getD 0 + k + 2 ≤ n) (hx : Exec (removeAll n q (.ref c)) t o)
    (hs : Steps (removing ω q.pathname k).step s t s') :
    o = .ok (BitVec.ofNat 64 ((s.disk.root.map count).getD 0), .ref none) ∧
    s'.disk.root = none ∧ s'.disk.outside = s.disk.outside ∧ s'.table = s.table := by
  suffices h : wp (removing ω q.pathname k).step (fun o s' => o = .ok (BitVec.ofNat 64 ((s.disk.root.map count).getD 0), .ref none) ∧
      s'.disk.root = none ∧ s'.disk.outside = s.disk.outside ∧ s'.table = s.table) (removeAll n q (.ref c)) s from wp_sound h hx hs
  unfold removeAll
  have : q.isEmpty = false := by simp [Path.isEmpty, hne]
  simp only [this, Bool.false_eq_true, if_false, Prog.bind_eq, clear_ref]
  apply wp_bind
  obtain ⟨⟨root, out⟩, T⟩ := s
  cases hr : root with
  | some x =>
    subst hr
    obtain ⟨h0, h1, h2⟩ := hprop x.1 x.2 rfl
    refine removes hne n _ T q [] x _ hq (by simp) rfl rfl h0 h1 h2 (by simpa using hn) ?_
    exact ⟨rfl, rfl, rfl, rfl⟩
  | none =>
    subst hr
    obtain ⟨n, rfl⟩ : ∃ j, n = j + 1 := ⟨n - 1, by simp at hn; omega⟩
    unfold doRemoveAll
    simp only [Prog.bind_eq]
    rw [symlinkStatus_ref]
    intro r σ' hstep
    simp only [Laws.step, removing] at hstep
    obtain ⟨hl, hT⟩ := hstep
    obtain ⟨hD, rfl⟩ := (hl [] (by simp) rfl).2 rfl trivial
    obtain ⟨D', T'⟩ := σ'
    subst hD hT
    exact ⟨rfl, rfl, rfl, rfl⟩

/-! ## The assumptions can be met -/

theorem filenames_under (p : Str) (ws : List Str) (h : ∀ w ∈ ws, IsName w) :
    filenames (ws.foldl addElem p) = filenames p ++ ws := by
  induction ws generalizing p with
  | nil => simp
  | cons w ws ih =>
    have hw := h w (by simp)
    rw [List.foldl_cons, ih _ fun v hv => h v (by simp [hv]), addElem_appendText (startsSlash_name hw.2), filenames_appendText,
      filenames_noSlash hw.2, if_neg hw.1]
    simp

/-- Different names lead to different paths. -/
theorem under_inj {p : Str} {ws vs : List Str} (hw : ∀ w ∈ ws, IsName w) (hv : ∀ w ∈ vs, IsName w)
    (h : ws.foldl addElem p = vs.foldl addElem p) : ws = vs := by
  have := congrArg filenames h
  rw [filenames_under _ _ hw, filenames_under _ _ hv] at this
  exact List.append_cancel_left this

theorem exists_mode {t : FType} (h : RealType t) : ∃ m, typeOf m = t := by
  obtain ⟨h1, h2, h3⟩ := h
  cases t
  · exact absurd rfl h1
  · exact absurd rfl h2
  · exact ⟨0o100000, by decide⟩
  · exact ⟨0o040000, by decide⟩
  · exact ⟨0o120000, by decide⟩
  · exact ⟨0o060000, by decide⟩
  · exact ⟨0o020000, by decide⟩
  · exact ⟨0o010000, by decide⟩
  · exact ⟨0o140000, by decide⟩
  · exact ⟨0, by decide⟩
  · exact absurd rfl h3

theorem exists_listing (k : Nat) {sub : Tree} (h : sub.Proper) : ∃ l, Lists k sub l := by
  refine ⟨sub.names.map (⟨·, .unknown⟩), ?_⟩
  have hall : ∀ w ∈ sub.names, IsName w ∧ w ≠ ".".toList ∧ w ≠ "..".toList := by
    intro w hw
    obtain ⟨⟨t, s⟩, hc⟩ := child_of_mem hw
    obtain ⟨h1, h2, h3, _⟩ := h.child hc
    exact ⟨h1, h2, h3⟩
  have hd : ∀ e ∈ sub.names.map (⟨·, .unknown⟩ : Str → Dirent), ¬ e.dot := by
    intro e he
    obtain ⟨w, hw, rfl⟩ := List.mem_map.mp he
    obtain ⟨_, h2, h3⟩ := hall w hw
    rintro (h | h)
    · exact h2 h
    · exact h3 h
  refine ⟨?_, ?_, ?_⟩
  · rw [dotCount, List.countP_eq_zero.mpr (by simpa using hd)]
    exact Nat.zero_le _
  · intro e he
    obtain ⟨w, hw, rfl⟩ := List.mem_map.mp he
    exact (hall w hw).1
  · rw [List.filter_eq_self.mpr (by simpa using hd), List.map_map]
    simp [Function.comp_def]

theorem removing_total (ω : Type) (p : Str) (k : Nat) (s : Os (Site ω)) (c : Sys) :
    ∃ (r : c.Ret) (s' : Os (Site ω)), (removing ω p k).step s ⟨c, r⟩ s' := by
  apply Laws.total
  · intro D x
    by_cases h : ∃ ws sub, (∀ w ∈ ws, IsName w) ∧ x = ws.foldl addElem p ∧ find D.root ws = some (.directory, sub) ∧ sub.Proper
    · obtain ⟨ws, sub, h1, h2, h3, h4⟩ := h
      obtain ⟨l, hl⟩ := exists_listing k h4
      refine ⟨.ok l, fun vs sub' g1 g2 g3 g4 => ⟨l, rfl, ?_⟩⟩
      obtain rfl := under_inj h1 g1 (h2 ▸ g2)
      rw [h3] at g3
      cases g3
      exact hl
    · exact ⟨.error .ENOENT, fun ws sub h1 h2 h3 h4 => absurd ⟨ws, sub, h1, h2, h3, h4⟩ h⟩
  · intro D c
    cases c with
    | lstat x =>
      by_cases h : ∃ ws t sub, (∀ w ∈ ws, IsName w) ∧ x = ws.foldl addElem p ∧ find D.root ws = some (t, sub) ∧ RealType t
      · obtain ⟨ws, t, sub, h1, h2, h3, h4⟩ := h
        obtain ⟨m, hm⟩ := exists_mode h4
        refine ⟨.ok ⟨0, 0, m, 1, 0, 0, 0, 0⟩, D, fun vs g1 g2 => ?_⟩
        obtain rfl := under_inj h1 g1 (h2 ▸ g2)
        constructor
        · intro t' sub' g3 g4
          rw [h3] at g3
          cases g3
          exact ⟨rfl, _, rfl, hm⟩
        · rintro rfl g
          rw [g] at h3
          cases h3
      · exact ⟨.error .ENOENT, D, fun ws h1 h2 => ⟨fun t sub h3 h4 => absurd ⟨ws, t, sub, h1, h2, h3, h4⟩ h, fun _ _ => ⟨rfl, rfl⟩⟩⟩
    | remove x =>
      by_cases h : ∃ ws t, (∀ w ∈ ws, IsName w) ∧ x = ws.foldl addElem p ∧ find D.root ws = some (t, .nil)
      · obtain ⟨ws, t, h1, h2, h3⟩ := h
        refine ⟨.ok (), { D with root := put D.root ws none }, fun vs g1 g2 => ?_⟩
        obtain rfl := under_inj h1 g1 (h2 ▸ g2)
        refine ⟨fun _ _ => ⟨rfl, rfl⟩, fun sub g3 g4 => ?_⟩
        rw [h3] at g4
        cases g4
        exact absurd rfl g3
      · exact ⟨.error .ENOTEMPTY, D, fun ws h1 h2 => ⟨fun t h3 => absurd ⟨ws, t, h1, h2, h3⟩ h, fun _ _ _ => ⟨rfl, rfl⟩⟩⟩
    | pathconf => exact ⟨(0 : Int), D, trivial⟩
    | getenv x => exact ⟨none, D, trivial⟩
    | winTest q x => exact ⟨(false, none), D, trivial⟩
    | win c => exact ⟨c.fails, D, trivial⟩
    | port c => exact ⟨c.fails, D, trivial⟩
    | _ => exact ⟨.error .ENOENT, D, trivial⟩

namespace Spec
/-- A directory with a link (to a directory, say), and a directory holding a file and an empty directory. -/
def sampleTree : Node :=
  (.directory, .node "l".toList .symlink .nil
    (.node "s".toList .directory (.node "f".toList .regular .nil (.node "e".toList .directory .nil .nil)) .nil))
end Spec

/-- It is removed, with a count of 5. -/
example : (∃ t o s', Exec (removeAll 20 (mkPath .posix "d".toList) (.ref none)) t o ∧
      Steps (removing Unit "d".toList 2).step ⟨⟨some sampleTree, ()⟩, []⟩ t s') ∧
    ∀ t o s', Exec (removeAll 20 (mkPath .posix "d".toList) (.ref none)) t o →
      Steps (removing Unit "d".toList 2).step ⟨⟨some sampleTree, ()⟩, []⟩ t s' →
      o = .ok (5#64, .ref none) ∧ s'.disk.root = none := by
  refine ⟨exec_exists (removing_total _ _ _) _ _, fun t o s' h1 h2 => ?_⟩
  have hp : (mkPath .posix "d".toList).pathname = "d".toList := by decide
  have := c30_remove_all (mkPath_shape _) (by rw [hp]; decide) (k := 2) (by
    intro y sub h
    cases h
    simp [RealType, Tree.Proper, IsName]) (by decide) h1 (hp ▸ h2)
  exact ⟨this.1, this.2.1⟩

end
end Asap
