import Verif.Props.KernelC

/-!
# C129: `remove_all` removes a tree of a file system with links
-/

namespace Asap
open Spec

/-! ## Trees and addresses -/

theorem find_snoc {x : Option Node} {a : List Str} {u : Str} {y : Node} (h : find x (a ++ [u]) = some y) :
    ∃ t sub, find x a = some (t, sub) ∧ sub.child u = some y := by
  induction a generalizing x with
  | nil =>
    cases x with
    | none => simp [find] at h
    | some c => obtain ⟨t, s⟩ := c; exact ⟨t, s, rfl, h⟩
  | cons b a ih =>
    cases x with
    | none => simp [find] at h
    | some c => obtain ⟨t, s⟩ := c; exact ih h

theorem child_names {s : Tree} {u : Str} {y : Node} (h : s.child u = some y) : u ∈ s.names := by
  induction s with
  | nil => cases h
  | node v t sub rest _ ih =>
    simp only [Tree.child] at h
    split at h
    · rename_i hv; subst hv; simp [Tree.names]
    · simp [Tree.names, ih h]

theorem child_set_other {s : Tree} {w u : Str} {y : Option Node} (h : u ≠ w) : (s.set w y).child u = s.child u := by
  induction s with
  | nil => rfl
  | node v t sub rest _ ih =>
    simp only [Tree.set]
    split
    · rename_i hv
      subst hv
      cases y with
      | none => simp only [Tree.child, if_neg (Ne.symm h)]
      | some z => simp only [Tree.child, if_neg (Ne.symm h)]
    · simp only [Tree.child, ih]

theorem child_set_none {s : Tree} (hn : s.names.Nodup) (w : Str) : (s.set w none).child w = none := by
  cases h : (s.set w none).child w with
  | none => rfl
  | some y =>
    have := child_names h
    rw [names_set] at this
    exact absurd this (by rw [hn.mem_erase_iff]; simp)

theorem names_set_some {s : Tree} {w : Str} {y : Node} : (s.set w (some y)).names = s.names := by
  induction s with
  | nil => rfl
  | node v t sub rest _ ih =>
    simp only [Tree.set]
    split
    · rfl
    · simp only [Tree.names, ih]

/-- What is found after an entry without entries has been taken out. -/
theorem find_after {x : Option Node} {a : List Str} {t : FType} {sa : Tree} {v : Str} (h : find x a = some (t, sa)) (hn : sa.names.Nodup)
    {ws : List Str} {t' : FType} {s' : Tree} (h' : find (put x a (some (t, sa.set v none))) ws = some (t', s')) :
    ∃ s'', find x ws = some (t', s'') ∧ s'.names = (if ws = a then s''.names.erase v else s''.names) ∧ (s'' = .nil → s' = .nil) := by
  induction a generalizing x ws with
  | nil =>
    simp only [find] at h
    subst h
    simp only [put] at h'
    cases ws with
    | nil =>
      simp only [find] at h'
      cases h'
      exact ⟨sa, rfl, by rw [if_pos rfl, names_set], by rintro rfl; rfl⟩
    | cons u us =>
      simp only [find] at h' ⊢
      by_cases hu : u = v
      · subst hu
        rw [child_set_none hn] at h'
        cases us <;> simp [find] at h'
      · rw [child_set_other hu] at h'
        exact ⟨s', h', by simp, id⟩
  | cons b a ih =>
    cases x with
    | none => simp [find] at h
    | some c =>
      obtain ⟨tx, sx⟩ := c
      simp only [find, put] at h h'
      have hz : ∃ z, sx.child b = some z := by
        cases hx : sx.child b with
        | none => rw [hx] at h; cases a <;> simp [find] at h
        | some z => exact ⟨z, rfl⟩
      obtain ⟨z, hz⟩ := hz
      have hu : ∃ y, put (sx.child b) a (some (t, sa.set v none)) = some y := by
        rw [hz]
        obtain ⟨zt, zs⟩ := z
        cases a with
        | nil => exact ⟨_, rfl⟩
        | cons => exact ⟨_, rfl⟩
      obtain ⟨y, hy⟩ := hu
      cases ws with
      | nil =>
        simp only [find] at h'
        cases h'
        refine ⟨sx, rfl, ?_, ?_⟩
        · rw [if_neg (by simp), hy, names_set_some]
        · rintro rfl; rfl
      | cons u us =>
        simp only [find] at h' ⊢
        by_cases hub : u = b
        · subst hub
          rw [hy, child_set_some hz, ← hy] at h'
          obtain ⟨s'', h1, h2, h3⟩ := ih h h'
          exact ⟨s'', h1, by simpa using h2, h3⟩
        · rw [child_set_other hub] at h'
          exact ⟨s', h', by rw [if_neg (by simp [hub])], id⟩

/-! ## The tree at an inode -/

/-- The volume holds the tree `x`: the file at the address `ws` is the inode `ι ws`, and every directory is at one address. -/
structure Spec.TreeAt (d : Vol) (ι : List Str → Nat) (x : Node) : Prop where
  here : ∀ ws t sub, find (some x) ws = some (t, sub) → ∃ b mo l, d.node (ι ws) = some ⟨b, mo, l⟩ ∧ kindOf b = t ∧
    (t ≠ .directory → sub = .nil) ∧ sub.names.Nodup ∧ (∀ v ∈ sub.names, IsName v ∧ v ≠ dot ∧ v ≠ dotdot) ∧
    ∀ up es, b = .dir up es → es.map Prod.fst = sub.names ∧ ∀ v k, es.lookup v = some k → k = ι (ws ++ [v])
  once : ∀ ws vs sub sub', find (some x) ws = some (.directory, sub) → find (some x) vs = some (.directory, sub') →
    ι ws = ι vs → ws = vs

/-- The inodes of the directories of the tree. -/
def Spec.DirsOf (ι : List Str → Nat) (x : Node) (k : Nat) : Prop := ∃ ws sub, find (some x) ws = some (.directory, sub) ∧ k = ι ws

theorem lookup_mem {es : List (Str × Nat)} {v : Str} (h : v ∈ es.map Prod.fst) : ∃ k, es.lookup v = some k := by
  induction es with
  | nil => simp at h
  | cons e es ih =>
    obtain ⟨u, k⟩ := e
    rw [List.lookup_cons]
    by_cases hu : v = u
    · subst hu; exact ⟨k, by simp⟩
    · rw [show (v == u) = false by simpa using hu]
      simp only [List.map_cons, List.mem_cons] at h
      exact ih (by rcases h with h | h; exact absurd h hu; exact h)

section
variable {d : Vol} {ι : List Str → Nat} {x : Node}

/-- A file with entries is a directory. -/
theorem Spec.TreeAt.dir (h : TreeAt d ι x) {a : List Str} {t : FType} {sub : Tree} (hf : find (some x) a = some (t, sub)) (hne : sub ≠ .nil) :
    t = .directory := by
  obtain ⟨b, mo, l, -, -, h1, -⟩ := h.here _ _ _ hf
  by_cases ht : t = .directory
  · exact ht
  · exact absurd (h1 ht) hne

theorem Spec.TreeAt.dirNode (h : TreeAt d ι x) {a : List Str} {sub : Tree} (hf : find (some x) a = some (.directory, sub)) :
    ∃ up es mo l, d.node (ι a) = some ⟨.dir up es, mo, l⟩ ∧ es.map Prod.fst = sub.names ∧ ∀ v k, es.lookup v = some k → k = ι (a ++ [v]) := by
  obtain ⟨b, mo, l, h1, h2, -, -, -, h3⟩ := h.here _ _ _ hf
  cases b with
  | file s => cases h2
  | link s => cases h2
  | dir up es => exact ⟨up, es, mo, l, h1, (h3 _ _ rfl).1, (h3 _ _ rfl).2⟩

theorem child_ne_nil {s : Tree} {u : Str} {y : Node} (h : s.child u = some y) : s ≠ .nil := by
  rintro rfl; cases h

/-- A step down. -/
theorem Spec.TreeAt.look (h : TreeAt d ι x) {a : List Str} {t : FType} {sub : Tree} (hf : find (some x) a = some (t, sub)) {u : Str} {y : Node}
    (hc : sub.child u = some y) : d.look (ι a) u = .ok (ι (a ++ [u])) ∧ IsName u ∧ u ≠ dot ∧ u ≠ dotdot := by
  have ht := h.dir hf (child_ne_nil hc)
  subst ht
  obtain ⟨up, es, mo, l, h1, h2, h3⟩ := h.dirNode hf
  obtain ⟨-, -, -, -, -, -, -, hnm, -⟩ := h.here _ _ _ hf
  obtain ⟨hn, hd, hdd⟩ := hnm u (child_names hc)
  obtain ⟨k, hk⟩ := lookup_mem (es := es) (v := u) (by rw [h2]; exact child_names hc)
  obtain rfl := h3 u k hk
  obtain ⟨b', mo', l', h4, -⟩ := h.here (a ++ [u]) y.1 y.2 (by rw [find_append _ _ _ hf, hc])
  exact ⟨Vol.look_ok.mpr ⟨up, es, mo, l, h1, .inr ⟨by simp [hn.1, hd], by rw [h4]; rfl, by rw [if_neg hdd]; exact hk⟩⟩, hn, hd, hdd⟩

theorem Spec.TreeAt.noText (h : TreeAt d ι x) {a : List Str} {sub : Tree} (hf : find (some x) a = some (.directory, sub)) : d.text (ι a) = none := by
  obtain ⟨up, es, mo, l, h1, -⟩ := h.dirNode hf
  unfold Vol.text
  rw [h1]

/-- From a directory of the tree down to a directory of the tree. -/
theorem Spec.TreeAt.down (h : TreeAt d ι x) (k : Nat) (us : List Str) : ∀ (a : List Str) {sub : Tree},
    find (some x) (a ++ us) = some (.directory, sub) → d.follow k (ι a) us = .ok (ι (a ++ us)) := by
  induction us with
  | nil => intro a sub _; rw [Vol.follow_nil, List.append_nil]
  | cons u us ih =>
    intro a sub hf
    have hf' : find (some x) ((a ++ [u]) ++ us) = some (.directory, sub) := by simpa using hf
    have hpre : ∀ (vs : List Str) (b : List Str) (y : Node), find (some x) (b ++ vs) = some y → ∃ z, find (some x) b = some z := by
      intro vs
      induction vs with
      | nil => intro b y hy; exact ⟨y, by simpa using hy⟩
      | cons v vs ih2 =>
        intro b y hy
        obtain ⟨z, hz⟩ := ih2 (b ++ [v]) y (by simpa using hy)
        obtain ⟨t, s, h1, -⟩ := find_snoc hz
        exact ⟨_, h1⟩
    obtain ⟨⟨t', s'⟩, hz⟩ := hpre us (a ++ [u]) _ hf'
    obtain ⟨t, sa, h1, h2⟩ := find_snoc hz
    have hdir : t' = .directory := by
      cases us with
      | nil => rw [List.append_nil, hz] at hf'; cases hf'; rfl
      | cons v vs =>
        obtain ⟨⟨t2, s2⟩, hz2⟩ := hpre vs (a ++ [u] ++ [v]) _ (by simpa using hf')
        obtain ⟨t3, s3, h3, h4⟩ := find_snoc hz2
        rw [hz] at h3; cases h3
        exact h.dir hz (child_ne_nil h4)
    subst hdir
    rw [Vol.follow_cons, (h.look h1 h2).1]
    simp only [h.noText hz]
    rw [ih (a ++ [u]) hf']
    simp

end

/-! ## Removal step by step -/

theorem relElements_under {p : Str} (hp : endsSlash p = false) (ws : List Str) (h : ∀ w ∈ ws, IsName w) :
    relElements (ws.foldl addElem p) = relElements p ++ ws := by
  have h0 : relElements p = filenames p := by unfold relElements; simp [hp]
  rcases List.eq_nil_or_concat ws with rfl | ⟨a, u, rfl⟩
  · simp
  · rw [List.concat_eq_append] at h ⊢
    have hu := h u (by simp)
    have ha : ∀ w ∈ a, IsName w := fun w hw => h w (by simp [hw])
    rw [← foldl_snoc a hu, relElements_appendText (startsSlash_name hu.2) hu.1, filenames_under _ _ ha, h0]
    have : relElements u = [u] := by
      unfold relElements
      rw [filenames_noSlash hu.2, if_neg hu.1]
      have : endsSlash u = false := by
        unfold endsSlash
        rw [beq_eq_false_iff_ne]
        intro hl
        exact hu.2 (List.mem_of_getLast? hl)
      simp [this]
    rw [this]
    simp


namespace Spec.Vol

/-- What a status tells of an inode, and where it leads. -/
def shape (d : Vol) (k : Nat) : Option (Body × Mode) := (d.node k).map fun i => (i.body, i.mode)

theorem shape_edit {d d' : Vol} {f : Nat → INode → INode} {g : Nat → Body → Body} (h : Edit d d' f)
    (hb : ∀ k i, ((f k i).body, (f k i).mode) = (g k i.body, i.mode)) (k : Nat) : d'.shape k = (d.shape k).map fun x => (g k x.1, x.2) := by
  unfold shape
  rw [h.node]
  cases d.node k with
  | none => rfl
  | some i => exact congrArg some (hb k i)

theorem shape_leave (d : Vol) (n : Nat) (w : Str) (k : Nat) :
    (d.leave n w).shape k = (d.shape k).map fun x => (if k = n then dropEntry w x.1 else x.1, x.2) := by
  refine shape_edit (g := fun k b => if k = n then dropEntry w b else b) (leave_edit d n w) (fun k i => ?_) k
  simp only [at1]
  split <;> rfl

theorem shape_erase (d : Vol) (n m : Nat) (w : Str) (k : Nat) :
    ((d.leave n w).relink m (· - 1)).shape k = (d.shape k).map fun x => (if k = n then dropEntry w x.1 else x.1, x.2) := by
  refine shape_edit (g := fun k b => if k = n then dropEntry w b else b) ((leave_edit d n w).trans (relink_edit (d.leave n w) m (· - 1))) (fun k i => ?_) k
  simp only [at1]
  split <;> split <;> rfl

theorem cwd_leave (d : Vol) (n : Nat) (w : Str) : (d.leave n w).cwd = d.cwd := (leave_edit d n w).cwd
theorem cwd_erase (d : Vol) (n m : Nat) (w : Str) : ((d.leave n w).relink m (· - 1)).cwd = d.cwd :=
  ((leave_edit d n w).trans (relink_edit (d.leave n w) m (· - 1))).cwd

theorem shape_some {d : Vol} {k : Nat} {b : Body} {mo : Mode} : d.shape k = some (b, mo) ↔ ∃ l, d.node k = some ⟨b, mo, l⟩ := by
  unfold shape
  constructor
  · intro h
    cases hd : d.node k with
    | none => rw [hd] at h; cases h
    | some i => obtain ⟨b', mo', l⟩ := i; rw [hd] at h; cases h; exact ⟨l, rfl⟩
  · rintro ⟨l, h⟩; rw [h]; rfl

theorem leave_fits (d : Vol) (n : Nat) (w : Str) : Fits (d.leave n w) d := by
  refine (leave_edit d n w).fits_back fun k i hk => ?_
  simp only [at1]
  split
  · obtain ⟨b, mo, l⟩ := i
    cases b with
    | file s => exact ⟨s, rfl⟩
    | link t => rfl
    | dir up es =>
      refine ⟨es, rfl, fun v c hv _ => ?_⟩
      by_cases hvw : v = w
      · subst hvw; rw [lookup_filter_self] at hv; cases hv
      · rw [lookup_filter_ne _ hvw] at hv; exact hv
  · exact body_refl ..

/-- Removing something that has no entries. -/
theorem erase_at {d : Vol} {x : Str} {k m : Nat} {v : Str} (h1 : d.place x = .ok (k, v)) (h2 : d.look k v = .ok m) (h3 : special v = false) :
    d.erase x = if d.full m then (.error .ENOTEMPTY, d) else (.ok (), (d.leave k v).relink m (· - 1)) := by
  unfold erase
  rw [h1]
  simp only [h2, h3, Bool.false_eq_true, if_false]

end Spec.Vol

/-- The situation: `p` names the entry `w` of the directory `n`, also when this entry is taken out of the volume `d0`;
nothing else leads to the directories in `S`. -/
structure Spec.Detached (d0 : Vol) (p : Str) (n : Nat) (w : Str) (S : Nat → Prop) : Prop where
  shut : (d0.leave n w).Shut S
  place : (d0.leave n w).place p = .ok (n, w)
  plain : Vol.special w = false
  entry : ∃ m, d0.look n w = .ok m

/-- What is left of the tree, and the volume. -/
def Coupled (d0 : Vol) (n : Nat) (w : Str) (S : Nat → Prop) (ι : List Str → Nat) (d : Vol) : Option Node → Prop
  | none => Vol.Alike S (d0.leave n w) d
  | some x => Vol.Alike S (d0.leave n w) (d.leave n w) ∧ d.look n w = .ok (ι []) ∧ TreeAt d ι x ∧ ∀ k, DirsOf ι x k → S k

section
variable {d0 d : Vol} {p : Str} {n : Nat} {w : Str} {S : Nat → Prop} {ι : List Str → Nat} {x : Node}

theorem Spec.Vol.Alike.refl (d : Vol) : Vol.Alike S d d := ⟨fun _ _ => rfl, rfl⟩

theorem Spec.Detached.out (h : Detached d0 p n w S) : ¬ S n := ((Vol.Alike.refl (d0.leave n w)).place h.shut p).2 n w h.place

theorem Spec.Detached.rel (h : Detached d0 p n w S) :
    ∃ us, relElements p = us ++ [w] ∧ p ≠ [] ∧ (d0.leave n w).follow 40 ((d0.leave n w).start (d0.leave n w).cwd p) us = .ok n := by
  obtain ⟨h1, h2⟩ := Vol.place_ok.mp h.place
  rcases Vol.placeOf_ok.mp h2 with ⟨-, -, h3⟩ | ⟨us, h3, h4⟩
  · exact absurd (.inl h3) (Vol.special_false.mp h.plain).1
  · exact ⟨us, h3, h1, h4⟩

theorem Spec.Detached.noSlash (h : Detached d0 p n w S) : endsSlash p = false := by
  obtain ⟨us, h1, -, -⟩ := h.rel
  have hw : w ≠ [] := fun hw => (Vol.special_false.mp h.plain).1 (.inl hw)
  cases he : endsSlash p with
  | false => rfl
  | true =>
    unfold relElements at h1
    by_cases hf : filenames p = []
    · rw [hf] at h1; simp at h1
    · rw [if_pos ⟨he, hf⟩] at h1
      obtain ⟨-, h3⟩ := List.append_inj' h1 rfl
      exact absurd (List.cons.inj h3).1.symm hw

/-- Without the entry there is nothing at `p`. -/
theorem Spec.Detached.gone (ha : Detached d0 p n w S) : (d0.leave n w).findLink p = .error .ENOENT := by
  unfold Vol.findLink
  rw [ha.place]
  obtain ⟨hw1, hw2⟩ := Vol.special_false.mp ha.plain
  have : ∃ up es mo l, (d0.leave n w).node n = some ⟨.dir up (List.filter (fun e => decide (e.1 ≠ w)) es), mo, l⟩ := by
    obtain ⟨m, hm⟩ := ha.entry
    obtain ⟨up, es, mo, l, hn, -⟩ := Vol.look_ok.mp hm
    refine ⟨up, es, mo, l, ?_⟩
    rw [(Vol.leave_edit d0 n w).here hn]
    simp only [Vol.at1, if_true]
    rfl
  obtain ⟨up, es, mo, l, h1⟩ := this
  unfold Vol.look
  simp only [h1, if_neg hw1, if_neg hw2, Vol.lookup_filter_self]

/-- The directory of `p` is found all the time. -/
theorem Coupled.upTo (ha : Detached d0 p n w S) (hc : Coupled d0 n w S ι d (some x)) :
    ∃ us, relElements p = us ++ [w] ∧ p ≠ [] ∧ d.follow 40 (d.start d.cwd p) us = .ok n := by
  obtain ⟨us, h1, h2, h3⟩ := ha.rel
  obtain ⟨h4, -⟩ := hc
  have := (h4.follow ha.shut 40 _ us (Vol.start_out ha.shut ha.shut.cwd p)).1
  rw [h3] at this
  refine ⟨us, h1, h2, ?_⟩
  have h5 := (Vol.leave_fits d n w).follow _ _ _ _ this
  rw [← h4.start, show (d.leave n w).start (d.leave n w).cwd p = d.start d.cwd p by unfold Vol.start; rw [Vol.cwd_leave]] at h5
  exact h5

theorem foldl_ne_nil {p : Str} (hp : p ≠ []) (ws : List Str) (h : ∀ w ∈ ws, IsName w) : ws.foldl addElem p ≠ [] := by
  intro h0
  have h1 := filenames_under p ws h
  rw [h0] at h1
  have h2 : ws = [] := (List.append_eq_nil_iff.mp h1.symm).2
  subst h2
  exact hp h0

theorem startsSlash_foldl {p : Str} (hp : p ≠ []) (ws : List Str) (h : ∀ w ∈ ws, IsName w) : startsSlash (ws.foldl addElem p) = startsSlash p := by
  induction ws generalizing p with
  | nil => rfl
  | cons u us ih =>
    have hu := h u (by simp)
    rw [List.foldl_cons, ih (p := addElem p u) (foldl_ne_nil hp [u] (by simpa using hu)) (fun w hw => h w (by simp [hw]))]
    cases p with
    | nil => exact absurd rfl hp
    | cons c cs =>
      unfold addElem
      rw [if_neg (by rw [startsSlash_name hu.2]; simp)]
      split <;> simp [startsSlash]

/-- Where a file of the tree is found. -/
theorem Coupled.locate (ha : Detached d0 p n w S) (hc : Coupled d0 n w S ι d (some x)) {ws : List Str} (hws : ∀ v ∈ ws, IsName v) {y : Node}
    (hf : find (some x) ws = some y) :
    ∃ k v, d.place (ws.foldl addElem p) = .ok (k, v) ∧ d.look k v = .ok (ι ws) ∧ Vol.special v = false ∧
      (ws = [] ∧ k = n ∧ v = w ∨ ∃ a s t, ws = a ++ [v] ∧ k = ι a ∧ find (some x) a = some (.directory, s) ∧ s.child v = some t) := by
  obtain ⟨us, h1, h2, h3⟩ := hc.upTo ha
  obtain ⟨-, hl, ht, -⟩ := hc
  have hrel := relElements_under ha.noSlash ws hws
  have hst : d.start d.cwd (ws.foldl addElem p) = d.start d.cwd p := by unfold Vol.start; rw [startsSlash_foldl h2 ws hws]
  have hne := foldl_ne_nil h2 ws hws
  rcases List.eq_nil_or_concat ws with rfl | ⟨a, u, rfl⟩
  · exact ⟨n, w, Vol.place_ok.mpr ⟨hne, Vol.placeOf_ok.mpr (.inr ⟨us, h1, h3⟩)⟩, hl, ha.plain, .inl ⟨rfl, rfl, rfl⟩⟩
  · rw [List.concat_eq_append] at *
    obtain ⟨t, s, h4, h5⟩ := find_snoc hf
    have htd := ht.dir h4 (child_ne_nil h5)
    subst htd
    obtain ⟨h6, h7, h8, h9⟩ := ht.look h4 h5
    refine ⟨ι a, u, Vol.place_ok.mpr ⟨hne, Vol.placeOf_ok.mpr (.inr ⟨us ++ w :: a, ?_, ?_⟩)⟩, h6, ?_, .inr ⟨a, s, y, rfl, rfl, h4, h5⟩⟩
    · rw [hrel, h1]; simp
    · rw [hst]
      obtain ⟨k', h10⟩ := Vol.follow_append d 40 _ us (w :: a) n h3
      rw [h10, Vol.follow_cons, hl]
      obtain ⟨z, hz⟩ : ∃ z, find (some x) [] = some z := ⟨x, rfl⟩
      have hdir : find (some x) [] = some (.directory, x.2) := by
        cases a with
        | nil =>
          simp only [find] at h4 ⊢
          obtain ⟨xt, xs⟩ := x
          cases h4; rfl
        | cons b bs =>
          obtain ⟨xt, xs⟩ := x
          simp only [find] at h4 ⊢
          have : xs ≠ .nil := by rintro rfl; cases bs <;> simp [Tree.child, find] at h4
          rw [ht.dir (a := []) (t := xt) (sub := xs) rfl this]
      simp only [ht.noText hdir]
      have := ht.down k' a [] (sub := s) (by simpa using h4)
      simpa using this
    · rw [Vol.special_false]
      exact ⟨by simp [h7.1, h8], h9⟩

theorem Spec.TreeAt.full (h : TreeAt d ι x) {ws : List Str} {t : FType} {sub : Tree} (hf : find (some x) ws = some (t, sub)) :
    (sub = .nil → d.full (ι ws) = false) ∧ (sub ≠ .nil → d.full (ι ws) = true) := by
  obtain ⟨b, mo, l, h1, h2, h3, -, -, h4⟩ := h.here _ _ _ hf
  unfold Vol.full
  rw [h1]
  cases b with
  | file s => subst h2; exact ⟨fun _ => rfl, fun hn => absurd (h3 (by simp [kindOf])) hn⟩
  | link s => subst h2; exact ⟨fun _ => rfl, fun hn => absurd (h3 (by simp [kindOf])) hn⟩
  | dir up es =>
    obtain ⟨h5, -⟩ := h4 _ _ rfl
    cases es with
    | nil => exact ⟨fun _ => rfl, fun hn => absurd (names_nil h5.symm) hn⟩
    | cons e es =>
      refine ⟨?_, fun _ => rfl⟩
      rintro rfl
      simp [Tree.names] at h5

/-- Taking out the file `p` itself. -/
theorem Coupled.eraseRoot (hc : Coupled d0 n w S ι d (some x)) (m : Nat) :
    Coupled d0 n w S ι ((d.leave n w).relink m (· - 1)) none := by
  obtain ⟨h1, -⟩ := hc
  refine ⟨fun k hk => ?_, ?_⟩
  · have := h1.node k hk
    show ((d.leave n w).relink m (· - 1)).shape k = _
    rw [Vol.shape_erase, ← Vol.shape_leave]
    exact this
  · rw [Vol.cwd_erase, ← Vol.cwd_leave d n w]; exact h1.cwd

theorem map_filter_fst (es : List (Str × Nat)) (v : Str) : (es.filter (·.1 ≠ v)).map Prod.fst = (es.map Prod.fst).filter (· ≠ v) := by
  rw [List.filter_map]; rfl

/-- Taking out a file of the tree. -/
theorem Coupled.eraseIn (ha : Detached d0 p n w S) (hc : Coupled d0 n w S ι d (some x)) {a : List Str} {s : Tree} {v : Str} {t : FType}
    (h1 : find (some x) a = some (.directory, s)) (m : Nat) :
    Coupled d0 n w S ι ((d.leave (ι a) v).relink m (· - 1)) (put (some x) (a ++ [v]) none) := by
  obtain ⟨h2, h3, h4, h5⟩ := hc
  have hSa : S (ι a) := h5 _ ⟨a, s, h1, rfl⟩
  have hna : n ≠ ι a := by rintro rfl; exact ha.out hSa
  obtain ⟨-, -, -, -, -, -, hnd, -, -⟩ := h4.here _ _ _ h1
  rw [put_append h1]
  have hx' : ∃ x', put (some x) a (some (.directory, s.set v none)) = some x' := by
    obtain ⟨xt, xs⟩ := x
    cases a with
    | nil => exact ⟨_, rfl⟩
    | cons => exact ⟨_, rfl⟩
  obtain ⟨x', hx'⟩ := hx'
  have hfa : ∀ {ws t' s'}, find (some x') ws = some (t', s') →
      ∃ s'', find (some x) ws = some (t', s'') ∧ s'.names = (if ws = a then s''.names.erase v else s''.names) ∧ (s'' = .nil → s' = .nil) :=
    fun hf => find_after h1 hnd (by rw [hx']; exact hf)
  have hnode : ∀ k b mo l, d.node k = some ⟨b, mo, l⟩ → ∃ l', ((d.leave (ι a) v).relink m (· - 1)).node k =
      some ⟨if k = ι a then Vol.dropEntry v b else b, mo, l'⟩ := by
    intro k b mo l hk
    refine Vol.shape_some.mp ?_
    rw [Vol.shape_erase, Vol.shape_some.mpr ⟨l, hk⟩]
    rfl
  rw [hx']
  refine ⟨⟨fun k hk => ?_, ?_⟩, ?_, ⟨?_, ?_⟩, ?_⟩
  · have hka : k ≠ ι a := by rintro rfl; exact hk hSa
    have h6 := h2.node k hk
    show (((d.leave (ι a) v).relink m (· - 1)).leave n w).shape k = _
    have h7 : ((d.leave (ι a) v).relink m (· - 1)).shape k = d.shape k := by
      rw [Vol.shape_erase]
      simp only [if_neg hka]
      cases d.shape k <;> rfl
    rw [Vol.shape_leave, h7, ← Vol.shape_leave]
    exact h6
  · rw [Vol.cwd_leave, Vol.cwd_erase, ← Vol.cwd_leave d n w]; exact h2.cwd
  · obtain ⟨up, es, mo, l, h6, h7⟩ := Vol.look_ok.mp h3
    obtain ⟨l', h8⟩ := hnode n _ _ _ h6
    rw [if_neg hna] at h8
    refine Vol.look_ok.mpr ⟨up, es, mo, l', h8, ?_⟩
    rcases h7 with h7 | ⟨h7, h9, h10⟩
    · exact .inl h7
    · refine .inr ⟨h7, ?_, h10⟩
      rw [((Vol.leave_edit d (ι a) v).trans (Vol.relink_edit (d.leave (ι a) v) m (· - 1))).isSome]
      exact h9
  · intro ws t' s' hf
    obtain ⟨s'', h6, h7, h8⟩ := hfa hf
    obtain ⟨b, mo, l, h9, h10, h11, h12, h13, h14⟩ := h4.here _ _ _ h6
    obtain ⟨l', h15⟩ := hnode _ _ _ _ h9
    refine ⟨_, mo, l', h15, ?_, fun ht => h8 (h11 ht), ?_, ?_, ?_⟩
    · rw [← h10]
      split
      · cases b <;> rfl
      · rfl
    · rw [h7]
      split
      · exact h12.erase _
      · exact h12
    · intro u hu
      rw [h7] at hu
      refine h13 u ?_
      split at hu
      · exact List.mem_of_mem_erase hu
      · exact hu
    · intro up es hb
      by_cases hk : ι ws = ι a
      · rw [if_pos hk] at hb
        cases b with
        | file _ => cases hb
        | link _ => cases hb
        | dir up' es' =>
          cases hb
          have : t' = .directory := h10.symm
          subst this
          have hwa : ws = a := h4.once _ _ _ _ h6 h1 hk
          obtain ⟨h16, h17⟩ := h14 _ _ rfl
          rw [if_pos hwa] at h7
          refine ⟨?_, fun u k hu => ?_⟩
          · rw [map_filter_fst, h16, h7, h12.erase_eq_filter]
            apply List.filter_congr
            intro b _
            simp only [bne, ne_eq, decide_not]
            congr 1
            rw [Bool.eq_iff_iff]
            simp
          · by_cases huv : u = v
            · subst huv; rw [Vol.lookup_filter_self] at hu; cases hu
            · rw [Vol.lookup_filter_ne _ huv] at hu; exact h17 _ _ hu
      · rw [if_neg hk] at hb
        obtain ⟨h16, h17⟩ := h14 _ _ hb
        refine ⟨?_, h17⟩
        rw [h7, if_neg (by rintro rfl; exact hk rfl), h16]
  · intro ws vs s1 s2 hf1 hf2 hi
    obtain ⟨s1', g1, -, -⟩ := hfa hf1
    obtain ⟨s2', g2, -, -⟩ := hfa hf2
    exact h4.once _ _ _ _ g1 g2 hi
  · rintro k ⟨ws, s', hf, rfl⟩
    obtain ⟨s1', g1, -, -⟩ := hfa hf
    exact h5 _ ⟨ws, s1', g1, rfl⟩

/-! ## The laws of C30 hold -/

/-- A tree about which the laws say nothing. -/
def trapRoot : Node := (.none, .node [] .none .nil .nil)

theorem find_trap {ws : List Str} (h : ∀ w ∈ ws, IsName w) : find (some trapRoot) ws = if ws = [] then some trapRoot else none := by
  cases ws with
  | nil => rfl
  | cons u us =>
    have hu := (h u (by simp)).1
    simp only [find, trapRoot, Tree.child, if_neg (Ne.symm hu)]
    cases us <;> simp [find]

/-- The volume and the state of the laws belong together, or a call was made that the laws do not know. -/
def Mirrors (d0 : Vol) (n : Nat) (w : Str) (S : Nat → Prop) (ι : List Str → Nat) (u : Os Vol) (s : Os (Site Bool)) : Prop :=
  s.table = u.table ∧ (s.disk = ⟨some trapRoot, false⟩ ∨ s.disk.outside = true ∧ Coupled d0 n w S ι u.disk s.disk.root)

theorem attr_type (k : Nat) (b : Body) (mo : Mode) (l : Nat) : typeOf (Vol.attr k ⟨b, mo, l⟩).mode = kindOf b := by
  rw [← statusOf_type, statusOf_attr]

theorem kindOf_real (b : Body) : RealType (kindOf b) := by cases b <;> simp [kindOf, RealType]

/-- Every answer of the file system is one the laws allow. -/
theorem mirrors_step (ha : Detached d0 p n w S) (u : Os Vol) (s : Os (Site Bool)) (c : Sys) (h : Mirrors d0 n w S ι u s) :
    ∃ s', (removing Bool p 2).step s ⟨c, (answerDir c u).1⟩ s' ∧ Mirrors d0 n w S ι (answerDir c u).2 s' := by
  obtain ⟨hT, hD⟩ := h
  obtain ⟨D, T⟩ := s
  obtain ⟨d, T'⟩ := u
  simp only at hT hD
  subst hT
  cases c
  case opendir q =>
    have ho : (removing Bool p 2).opens D q (d.listing q) := by
      rintro ws sub hws rfl hf hprop
      rcases hD with rfl | ⟨-, hc⟩
      · rw [find_trap hws] at hf
        split at hf
        · cases hf
        · cases hf
      · cases hr : D.root with
        | none => rw [hr] at hf; cases ws <;> simp [find] at hf
        | some x =>
          rw [hr] at hf hc
          obtain ⟨k, v, h1, h2, h3, -⟩ := hc.locate ha hws hf
          obtain ⟨-, -, ht, -⟩ := hc
          have h4 : d.find (ws.foldl addElem p) = .ok (ι ws) :=
            Vol.find_of_findLink (Vol.findLink_ok.mpr ⟨k, v, h1, h2⟩) (ht.noText hf)
          obtain ⟨up, es, mo, l, h5, h6, -⟩ := ht.dirNode hf
          obtain ⟨-, -, -, -, -, -, -, hnm, -⟩ := ht.here _ _ _ hf
          have hno : ∀ e ∈ es.map (fun e => (⟨e.1, d.dtype e.2⟩ : Dirent)), ¬ e.dot ∧ IsName e.name := by
            intro e he
            obtain ⟨a, h7, rfl⟩ := List.mem_map.mp he
            obtain ⟨h8, h9, h10⟩ := hnm a.1 (by rw [← h6]; exact List.mem_map.mpr ⟨a, h7, rfl⟩)
            exact ⟨by simp only [Dirent.dot]; rintro (h | h); exact h9 h; exact h10 h, h8⟩
          refine ⟨⟨dot, .dir⟩ :: ⟨dotdot, .dir⟩ :: es.map fun e => ⟨e.1, d.dtype e.2⟩, ?_, ?_, ?_, ?_⟩
          · unfold Vol.listing
            rw [h4]
            simp only [h5]
          · unfold dotCount
            rw [List.countP_cons, List.countP_cons, List.countP_eq_zero.mpr (by intro e he; simpa using (hno e he).1)]
            split <;> split <;> omega
          · intro e he
            rcases List.mem_cons.mp he with rfl | he
            · simp [IsName]
            · rcases List.mem_cons.mp he with rfl | he
              · simp [IsName]
              · exact (hno e he).2
          · rw [List.filter_cons_of_neg (by simp [Dirent.dot]), List.filter_cons_of_neg (by simp [Dirent.dot]),
              List.filter_eq_self.mpr (by intro e he; simpa using (hno e he).1), List.map_map]
            rw [← h6]
            exact List.Perm.refl _
    show ∃ s', (removing Bool p 2).step ⟨D, T⟩ ⟨.opendir q, (match d.listing q with
        | .error e => ((.error e : Except Errno Nat), (⟨d, T⟩ : Os Vol))
        | .ok l => (.ok (fresh T), ⟨d, (fresh T, l) :: T⟩)).1⟩ s' ∧ Mirrors d0 n w S ι (match d.listing q with
        | .error e => ((.error e : Except Errno Nat), (⟨d, T⟩ : Os Vol))
        | .ok l => (.ok (fresh T), ⟨d, (fresh T, l) :: T⟩)).2 s'
    cases hl : d.listing q with
    | error e => rw [hl] at ho; exact ⟨⟨D, T⟩, ⟨ho, rfl⟩, rfl, hD⟩
    | ok l => rw [hl] at ho; exact ⟨⟨D, (fresh T, l) :: T⟩, ⟨l, ho, fresh_notin T, rfl⟩, rfl, hD⟩
  case readdir q =>
    show ∃ s', (removing Bool p 2).step ⟨D, T⟩ ⟨.readdir q, (readNext q ⟨d, T⟩).1⟩ s' ∧ Mirrors d0 n w S ι (readNext q ⟨d, T⟩).2 s'
    unfold readNext
    simp only [Laws.step]
    cases hl : T.find? (·.1 = q) with
    | none => exact ⟨⟨D, T⟩, trivial, rfl, hD⟩
    | some e =>
      obtain ⟨k, l⟩ := e
      cases l with
      | nil => exact ⟨⟨D, T⟩, ⟨rfl, rfl⟩, rfl, hD⟩
      | cons a l => exact ⟨_, ⟨rfl, rfl⟩, rfl, hD⟩
  case closedir q => exact ⟨⟨D, T.filter (·.1 ≠ q)⟩, fun _ => rfl, rfl, hD⟩
  case lstat q =>
    refine ⟨⟨D, T⟩, ⟨?_, rfl⟩, rfl, hD⟩
    intro ws hws hq
    subst hq
    rcases hD with rfl | ⟨-, hc⟩
    · refine ⟨fun t sub hf hrt => ?_, fun _ h => by cases h⟩
      rw [find_trap hws] at hf
      split at hf
      · cases hf; exact absurd rfl hrt.1
      · cases hf
    · refine ⟨fun t sub hf hrt => ⟨rfl, ?_⟩, fun hw0 hr => ⟨rfl, ?_⟩⟩
      · cases hr : D.root with
        | none => rw [hr] at hf; cases ws <;> simp [find] at hf
        | some x =>
          rw [hr] at hf hc
          obtain ⟨k, v, h1, h2, h3, -⟩ := hc.locate ha hws hf
          obtain ⟨-, -, ht, -⟩ := hc
          obtain ⟨b, mo, l, h5, h6, -⟩ := ht.here _ _ _ hf
          exact ⟨_, attrs_node (Vol.findLink_ok.mpr ⟨k, v, h1, h2⟩) h5, by rw [attr_type, h6]⟩
      · subst hw0
        rw [hr] at hc
        show d.attrs (d.findLink p) = _
        rw [(Vol.Alike.findLink hc ha.shut p).1]
        rw [ha.gone]
        rfl
  case remove q =>
    rcases hD with rfl | ⟨hout, hc⟩
    · refine ⟨⟨⟨some trapRoot, false⟩, T⟩, ⟨?_, rfl⟩, rfl, .inl rfl⟩
      intro ws hws _
      refine ⟨fun t hf => ?_, fun sub _ hf => ?_⟩ <;>
      · rw [find_trap hws] at hf
        split at hf
        · cases hf
        · cases hf
    · by_cases hq : ∃ ws y, (∀ v ∈ ws, IsName v) ∧ q = ws.foldl addElem p ∧ find D.root ws = some y
      · obtain ⟨ws, ⟨t, sub⟩, hws, rfl, hf⟩ := hq
        obtain ⟨root, out⟩ := D
        simp only at hf hc hout
        subst hout
        cases root with
        | none => cases ws <;> simp [find] at hf
        | some x =>
        obtain ⟨k, v, h1, h2, h3, hcase⟩ := hc.locate ha hws hf
        have he := Vol.erase_at h1 h2 h3
        have ht := hc.2.2.1
        obtain ⟨hf1, hf2⟩ := ht.full hf
        by_cases hsub : sub = .nil
        · rw [hf1 hsub] at he
          simp only [Bool.false_eq_true, if_false] at he
          refine ⟨⟨⟨put (some x) ws none, true⟩, T⟩, ⟨?_, rfl⟩, ?_⟩
          · intro ws' hws' hq
            cases under_inj hws hws' hq
            refine ⟨fun t' hf' => ⟨congrArg Prod.fst he, rfl⟩, fun sub' hs' hf' => ?_⟩
            simp only at hf'
            rw [hf] at hf'; cases hf'; exact absurd hsub hs'
          · refine ⟨rfl, .inr ⟨rfl, ?_⟩⟩
            show Coupled d0 n w S ι (d.erase _).2 (put (some x) ws none)
            rw [he]
            rcases hcase with ⟨rfl, rfl, rfl⟩ | ⟨a, s, y, rfl, rfl, h4, h5⟩
            · exact hc.eraseRoot _
            · exact hc.eraseIn ha (t := t) h4 _
        · rw [hf2 hsub] at he
          simp only [if_true] at he
          refine ⟨⟨⟨some x, true⟩, T⟩, ⟨?_, rfl⟩, ?_⟩
          · intro ws' hws' hq
            cases under_inj hws hws' hq
            refine ⟨fun t' hf' => ?_, fun sub' hs' hf' => ⟨congrArg Prod.fst he, rfl⟩⟩
            simp only at hf'
            rw [hf] at hf'; cases hf'; exact absurd rfl hsub
          · refine ⟨rfl, .inr ⟨rfl, ?_⟩⟩
            show Coupled d0 n w S ι (d.erase _).2 (some x)
            rw [he]
            exact hc
      · refine ⟨⟨⟨some trapRoot, false⟩, T⟩, ⟨?_, rfl⟩, rfl, .inl rfl⟩
        intro ws hws hqe
        exact ⟨fun t hf => absurd ⟨ws, _, hws, hqe, hf⟩ hq, fun sub _ hf => absurd ⟨ws, _, hws, hqe, hf⟩ hq⟩
  all_goals exact ⟨⟨⟨some trapRoot, false⟩, T⟩, ⟨trivial, rfl⟩, rfl, .inl rfl⟩

end


/-- The trees volumes hold have proper names. -/
theorem proper_of {s : Tree} (h0 : s.names.Nodup) (h1 : ∀ v ∈ s.names, IsName v ∧ v ≠ dot ∧ v ≠ dotdot)
    (h2 : ∀ u us t sub, find (s.child u) us = some (t, sub) → RealType t ∧ (t ≠ .directory → sub = .nil) ∧ sub.names.Nodup ∧
      ∀ v ∈ sub.names, IsName v ∧ v ≠ dot ∧ v ≠ dotdot) : s.Proper := by
  induction s with
  | nil => trivial
  | node w t sub rest ih1 ih2 =>
    have hc : (Tree.node w t sub rest).child w = some (t, sub) := by simp [Tree.child]
    obtain ⟨g1, g2, g3, g4⟩ := h2 w [] t sub (by rw [hc]; rfl)
    obtain ⟨g5, g6, g7⟩ := h1 w (by simp [Tree.names])
    simp only [Tree.names, List.nodup_cons] at h0
    refine ⟨g5, g6, g7, g1, g2, ih1 g3 g4 (fun u us t' s' hf => h2 w (u :: us) t' s' (by rw [hc]; exact hf)),
      ih2 h0.2 (fun v hv => h1 v (by simp [Tree.names, hv])) (fun u us t' s' hf => h2 u us t' s' ?_)⟩
    have hu : ∃ y, rest.child u = some y := by
      cases hr : rest.child u with
      | none => rw [hr] at hf; cases us <;> simp [find] at hf
      | some y => exact ⟨y, rfl⟩
    obtain ⟨y, hy⟩ := hu
    have hne : w ≠ u := by rintro rfl; exact h0.1 (child_names hy)
    simp only [Tree.child, if_neg hne]
    exact hf

theorem Spec.TreeAt.proper {d : Vol} {ι : List Str → Nat} {x : Node} (h : TreeAt d ι x) :
    RealType x.1 ∧ x.2.Proper ∧ (x.1 ≠ .directory → x.2 = .nil) := by
  have key : ∀ ws t sub, find (some x) ws = some (t, sub) → RealType t ∧ (t ≠ .directory → sub = .nil) ∧ sub.names.Nodup ∧
      ∀ v ∈ sub.names, IsName v ∧ v ≠ dot ∧ v ≠ dotdot := by
    intro ws t sub hf
    obtain ⟨b, mo, l, h1, h2, h3, h4, h5, -⟩ := h.here _ _ _ hf
    exact ⟨h2 ▸ kindOf_real b, h3, h4, h5⟩
  obtain ⟨xt, xs⟩ := x
  obtain ⟨g1, g2, g3, g4⟩ := key [] xt xs rfl
  exact ⟨g1, proper_of g3 g4 (fun u us t sub hf => key (u :: us) t sub hf), g2⟩

/-- C129. On a file system with links: if `p` names the root of a tree, nothing else leads into its directories, and the directory
of `p` is found also without the entry `p`, then `remove_all` succeeds and the result is the number of files in the tree; `p` is not
there any more, and every status is what it is when just the entry `p` is taken out of its directory: the
targets of links in the tree and files with names also outside stay. -/
theorem c129_removes_partial {N : Nat} {p : Path} (hp : Value p) (c : Code) (d : Vol) (n : Nat) (w : Str) (ι : List Str → Nat) (x : Node)
    (ht : TreeAt d ι x) (hι : d.look n w = .ok (ι [])) (hcwd : ¬ DirsOf ι x d.cwd) (hroot : ¬ DirsOf ι x 0)
    (hshut : ∀ k up es mo l, ¬ DirsOf ι x k → d.node k = some ⟨.dir up es, mo, l⟩ →
      ¬ DirsOf ι x up ∧ ∀ v i, (v, i) ∈ es → (k, v) ≠ (n, w) → ¬ DirsOf ι x i)
    (hplace : (d.leave n w).place p.pathname = .ok (n, w)) (hplain : IsName w ∧ w ≠ dot ∧ w ≠ dotdot) (hN : count x + 4 ≤ N) :
    ∃ d', onDisk (removeAll N p (.ref c)) d = (.ok (BitVec.ofNat 64 (count x), .ref none), ⟨d', []⟩) ∧
      onVol (symlinkStatus p (.ref c)) d' = (.ok ({ type := .notFound }, .ref (some .ENOENT)), d') ∧
      ∀ q e, (onVol (status q (.ref e)) d').1 = (onVol (status q (.ref e)) (d.leave n w)).1 ∧
        (onVol (symlinkStatus q (.ref e)) d').1 = (onVol (symlinkStatus q (.ref e)) (d.leave n w)).1 := by
  have ha : Detached d p.pathname n w (DirsOf ι x) := by
    refine ⟨⟨hroot, by rw [Vol.cwd_leave]; exact hcwd, ?_⟩, hplace, ?_, ⟨_, hι⟩⟩
    · intro k up es mo l hk hd
      obtain ⟨l', h1⟩ : ∃ l', d.node k = some ⟨.dir up es, mo, l'⟩ ∧ k ≠ n ∨ ∃ es', d.node k = some ⟨.dir up es', mo, l'⟩ ∧ k = n ∧ es = es'.filter (·.1 ≠ w) := by
        rw [(Vol.leave_edit d n w).node] at hd
        cases hx : d.node k with
        | none => rw [hx] at hd; cases hd
        | some i =>
          obtain ⟨b, mo', l'⟩ := i
          rw [hx] at hd
          simp only [Option.map_some, Vol.at1, Option.some.injEq] at hd
          split at hd
          · rename_i hkn
            cases b with
            | file _ => cases hd
            | link _ => cases hd
            | dir up' es' => cases hd; exact ⟨_, .inr ⟨_, rfl, hkn, rfl⟩⟩
          · rename_i hkn
            cases hd; exact ⟨_, .inl ⟨rfl, hkn⟩⟩
      have hmem : ∀ (es : List (Str × Nat)) v i, es.lookup v = some i → (v, i) ∈ es := by
        intro es
        induction es with
        | nil => intro v i h; cases h
        | cons e es ih =>
          intro v i h
          obtain ⟨a, b⟩ := e
          rw [List.lookup_cons] at h
          split at h
          · rename_i hva
            cases h
            simp only [beq_iff_eq] at hva
            subst hva
            exact List.mem_cons_self
          · exact List.mem_cons_of_mem _ (ih v i h)
      rcases h1 with ⟨h1, h2⟩ | ⟨es', h1, rfl, rfl⟩
      · obtain ⟨h3, h4⟩ := hshut _ _ _ _ _ hk h1
        exact ⟨h3, fun v i hv => h4 v i (hmem _ _ _ hv) (fun h => h2 (Prod.mk.inj h).1)⟩
      · obtain ⟨h3, h4⟩ := hshut _ _ _ _ _ hk h1
        refine ⟨h3, fun v i hv => ?_⟩
        have h5 := List.mem_filter.mp (hmem _ _ _ hv)
        exact h4 v i h5.1 (fun h => by simp [(Prod.mk.inj h).2] at h5)
    · exact Vol.special_false.mpr ⟨by simp [hplain.1.1, hplain.2.1], hplain.2.2⟩
  have hc : Mirrors d n w (DirsOf ι x) ι ⟨d, []⟩ ⟨⟨some x, true⟩, []⟩ := ⟨rfl, .inr ⟨rfl, .refl _, hι, ht, fun _ h => h⟩⟩
  obtain ⟨t, s', h1, h2, h3, h4⟩ := eval_steps (m := kernelDir) (R := Mirrors d n w (DirsOf ι x) ι) (mirrors_step ha) (removeAll N p (.ref c)) hc
  have hne : p.pathname ≠ [] := (Vol.place_ok.mp hplace).1
  obtain ⟨h5, h6, h7, h8⟩ := c30_remove_all hp.shape hne (k := 2) (by rintro y sub h; cases h; exact ht.proper) (by simpa using hN) h1 h2
  rcases h4 with h4 | ⟨-, h4⟩
  · rw [h4] at h7; cases h7
  · rw [h6] at h4
    refine ⟨_, Prod.ext h5 ?_, ?_, fun q e => Vol.Alike.status h4 ha.shut q e⟩
    · show (Prog.eval kernelDir (removeAll N p (.ref c)) (⟨d, []⟩ : Os Vol)).2 = ⟨(Prog.eval kernelDir (removeAll N p (.ref c)) (⟨d, []⟩ : Os Vol)).2.disk, []⟩
      generalize (Prog.eval kernelDir (removeAll N p (.ref c)) (⟨d, []⟩ : Os Vol)).2 = u at h3 h8
      obtain ⟨d', T⟩ := u
      rw [h8] at h3
      simp only at h3
      rw [← h3]
    · exact onVol_lstatus_error (by rw [(Vol.Alike.findLink h4 ha.shut p.pathname).1, ha.gone]; rfl)

/-- C129. If there is nothing at `p`, `remove_all` does nothing and the result is 0. -/
theorem c129_missing {N : Nat} {p : Path} (hp : p.pathname ≠ []) (c : Code) (d : Vol) (h : d.findLink p.pathname = .error .ENOENT) :
    onDisk (removeAll (N + 1) p (.ref c)) d = (.ok (0, .ref none), ⟨d, []⟩) := by
  have hpe : p.isEmpty = false := by simp [Path.isEmpty, hp]
  unfold onDisk removeAll
  simp only [hpe, Bool.false_eq_true, if_false, Prog.bind_eq, clear_ref, doRemoveAll, symlinkStatus_ref]
  have ha : kernelDir.step (.lstat p.pathname) (⟨d, []⟩ : Os Vol) = ((.error .ENOENT : Except Errno Stat), (⟨d, []⟩ : Os Vol)) := by
    show ((d.attrs (d.findLink p.pathname), (⟨d, []⟩ : Os Vol)) : Except Errno Stat × Os Vol) = _
    rw [h]; rfl
  simp only [Prog.call_bind]
  rw [eval_call_of ha]
  rfl

/-- A directory `d` with a directory `s` and a file `t`. -/
def selfVol : Vol := ⟨fun n => match n with
  | 0 => some ⟨.dir 0 [("d".toList, 1)], 0o755, 3⟩
  | 1 => some ⟨.dir 0 [("s".toList, 2), ("t".toList, 3)], 0o755, 3⟩
  | 2 => some ⟨.dir 1 [], 0o755, 2⟩
  | 3 => some ⟨.file 3, 0o644, 1⟩
  | _ => none, 0, 4⟩

/-- C129 fails for a path that leads through the tree itself: `remove_all("d/s/../../d")` removes `d/s`, then does not find its
path any more, takes this as "nothing there" and reports success with 0 files removed; `d` and `d/t` are still there. -/
theorem c129_violated : ∃ (d d' : Vol) (p : Path), Value p ∧
    onVol (status p (.ref none)) d = (.ok (⟨.directory, 0o755⟩, .ref none), d) ∧
    onDisk (removeAll 20 p (.ref none)) d = (.ok (0, .ref none), ⟨d', []⟩) ∧
    onVol (symlinkStatus (mkPath .posix "d/s".toList) (.ref none)) d = (.ok (⟨.directory, 0o755⟩, .ref none), d) ∧
    onVol (symlinkStatus (mkPath .posix "d/s".toList) (.ref none)) d' = (.ok ({ type := .notFound }, .ref (some .ENOENT)), d') ∧
    onVol (symlinkStatus (mkPath .posix "d/t".toList) (.ref none)) d' = (.ok (⟨.regular, 0o644⟩, .ref none), d') :=
  ⟨selfVol, (onDisk (removeAll 20 (mkPath .posix "d/s/../../d".toList) (.ref none)) selfVol).2.disk, mkPath .posix "d/s/../../d".toList,
    .reach (reach_mkPath _), Prod.ext (by rfl) rfl, Prod.ext (by rfl) (by rfl), Prod.ext (by rfl) rfl, Prod.ext (by rfl) rfl, Prod.ext (by rfl) rfl⟩

/-! ## A tree with a link to a directory outside and a file that has another name -/

def linksVol : Vol := ⟨fun n => match n with
  | 0 => some ⟨.dir 0 [("d".toList, 1), ("o".toList, 4), ("f".toList, 5)], 0o755, 3⟩
  | 1 => some ⟨.dir 0 [("s".toList, 2), ("l".toList, 3), ("h".toList, 5)], 0o755, 3⟩
  | 2 => some ⟨.dir 1 [("t".toList, 6)], 0o755, 2⟩
  | 3 => some ⟨.link "../o".toList, 0o777, 1⟩
  | 4 => some ⟨.dir 0 [("x".toList, 7)], 0o755, 2⟩
  | 5 => some ⟨.file 3, 0o644, 2⟩
  | 6 => some ⟨.file 0, 0o644, 1⟩
  | 7 => some ⟨.file 1, 0o644, 1⟩
  | _ => none, 0, 8⟩

def linksTree : Node := (.directory, .node "s".toList .directory (.node "t".toList .regular .nil .nil)
  (.node "l".toList .symlink .nil (.node "h".toList .regular .nil .nil)))

def linksAt (ws : List Str) : Nat :=
  if ws = [] then 1 else if ws = ["s".toList] then 2 else if ws = ["l".toList] then 3 else if ws = ["h".toList] then 5 else 6

/-- What is at the addresses of the tree. -/
theorem linksTree_find {ws : List Str} {t : FType} {sub : Tree} (h : find (some linksTree) ws = some (t, sub)) :
    ws = [] ∧ t = .directory ∧ sub = linksTree.2 ∨ ws = ["s".toList] ∧ t = .directory ∧ sub = .node "t".toList .regular .nil .nil ∨
    ws = ["s".toList, "t".toList] ∧ t = .regular ∧ sub = .nil ∨ ws = ["l".toList] ∧ t = .symlink ∧ sub = .nil ∨
    ws = ["h".toList] ∧ t = .regular ∧ sub = .nil := by
  rcases ws with _ | ⟨a, _ | ⟨b, _ | ⟨e, es⟩⟩⟩ <;> simp only [find, linksTree, Tree.child] at h ⊢ <;> repeat' (split at h)
  all_goals simp_all [find, Tree.child]
  all_goals try grind
  by_cases hb : ['t'] = b
  · rw [if_pos hb] at h
    simp only [find, Tree.child] at h
    cases es <;> simp [find] at h
  · rw [if_neg hb] at h
    simp [find] at h

theorem linksTree_dirs (k : Nat) : DirsOf linksAt linksTree k ↔ k = 1 ∨ k = 2 := by
  constructor
  · rintro ⟨ws, sub, h, rfl⟩
    rcases linksTree_find h with ⟨rfl, -⟩ | ⟨rfl, -⟩ | ⟨-, h, -⟩ | ⟨-, h, -⟩ | ⟨-, h, -⟩
    · exact .inl rfl
    · exact .inr rfl
    all_goals cases h
  · rintro (rfl | rfl)
    · exact ⟨[], _, rfl, rfl⟩
    · exact ⟨["s".toList], _, rfl, rfl⟩

theorem linksTree_at : TreeAt linksVol linksAt linksTree := by
  constructor
  · intro ws t sub h
    rcases linksTree_find h with ⟨rfl, rfl, rfl⟩ | ⟨rfl, rfl, rfl⟩ | ⟨rfl, rfl, rfl⟩ | ⟨rfl, rfl, rfl⟩ | ⟨rfl, rfl, rfl⟩
    all_goals refine ⟨_, _, _, rfl, rfl, by simp, by decide, by simp [linksTree, Tree.names, IsName], ?_⟩
    all_goals intro up es hb
    all_goals cases hb
    all_goals refine ⟨rfl, fun v k hv => ?_⟩
    all_goals simp only [List.lookup_cons, List.lookup_nil] at hv
    all_goals repeat' (split at hv)
    all_goals simp_all [linksAt]
    all_goals grind
  · intro ws vs s1 s2 h1 h2 he
    rcases linksTree_find h1 with ⟨rfl, -⟩ | ⟨rfl, -⟩ | ⟨-, h, -⟩ | ⟨-, h, -⟩ | ⟨-, h, -⟩ <;>
    rcases linksTree_find h2 with ⟨rfl, -⟩ | ⟨rfl, -⟩ | ⟨-, h', -⟩ | ⟨-, h', -⟩ | ⟨-, h', -⟩
    all_goals first | rfl | (cases h; done) | (cases h'; done) | (exact absurd he (by decide))

/-- Five files are removed; what the link points to is still there, and the file with another name. -/
example : ∃ d', onDisk (removeAll 20 (mkPath .posix "d".toList) (.ref none)) linksVol = (.ok (5, .ref none), ⟨d', []⟩) ∧
    (onVol (status (mkPath .posix "o/x".toList) (.ref none)) d').1 = .ok (⟨.regular, 0o644⟩, .ref none) ∧
    (onVol (status (mkPath .posix "f".toList) (.ref none)) d').1 = .ok (⟨.regular, 0o644⟩, .ref none) := by
  have hp : (mkPath .posix "d".toList).pathname = "d".toList := by rfl
  obtain ⟨d', h1, -, h2⟩ := c129_removes_partial (N := 20) (p := mkPath .posix "d".toList) (.reach (reach_mkPath _)) none linksVol 0 "d".toList linksAt linksTree
    linksTree_at rfl (by rw [linksTree_dirs]; decide) (by rw [linksTree_dirs]; decide) (by
      intro k up es mo l hk hd
      simp only [linksTree_dirs] at hk ⊢
      unfold linksVol at hd
      simp only at hd
      split at hd
      all_goals cases hd
      all_goals simp_all
      all_goals grind) (by rw [hp]; rfl) (by simp [IsName]) (by decide)
  exact ⟨d', h1, by rw [(h2 _ _).1]; rfl, by rw [(h2 _ _).1]; rfl⟩

end Asap
