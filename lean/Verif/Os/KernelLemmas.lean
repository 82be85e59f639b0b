import Verif.Os.Kernel

/-!
# The POSIX file system: what changes leave as it was
-/

namespace Asap.Spec
namespace Vol

theorem node_set (d : Vol) (n : Nat) (i : INode) (k : Nat) : (d.set n i).node k = if k = n then some i else d.node k := rfl

theorem look_ok {d : Vol} {n : Nat} {w : Str} {m : Nat} : d.look n w = .ok m ↔
    ∃ up es mo l, d.node n = some ⟨.dir up es, mo, l⟩ ∧
      (((w = [] ∨ w = dot) ∧ m = n) ∨
        (¬ (w = [] ∨ w = dot) ∧ (d.node m).isSome = true ∧ (if w = dotdot then some up else es.lookup w) = some m)) := by
  unfold look
  constructor
  · intro h
    split at h
    · rename_i up es mo l hn
      refine ⟨up, es, mo, l, hn, ?_⟩
      split at h
      · rename_i hw; cases h; exact .inl ⟨hw, rfl⟩
      · rename_i hw
        refine .inr ⟨hw, ?_⟩
        split at h
        · rename_i k hk
          split at h
          · rename_i hs; cases h; exact ⟨hs, hk⟩
          · cases h
        · cases h
    · cases h
  · rintro ⟨up, es, mo, l, hn, h⟩
    rw [hn]
    rcases h with ⟨hw, rfl⟩ | ⟨hw, hs, hk⟩
    · simp only [if_pos hw]
    · simp only [if_neg hw, hk, hs, if_true]

theorem look_missing {d : Vol} {n : Nat} {w : Str} (h : d.look n w = .error .ENOENT) :
    ∃ up es mo l, d.node n = some ⟨.dir up es, mo, l⟩ ∧ ¬ (w = [] ∨ w = dot) ∧
      (w ≠ dotdot → ∀ k, es.lookup w = some k → d.node k = none) := by
  unfold look at h
  split at h
  · rename_i up es mo l hn
    refine ⟨up, es, mo, l, hn, ?_⟩
    split at h
    · cases h
    · rename_i hw
      refine ⟨hw, ?_⟩
      intro hd k hk
      rw [if_neg hd, hk] at h
      simp only at h
      split at h
      · cases h
      · rename_i hs; simpa using hs
  · cases h

theorem look_isSome {d : Vol} {n : Nat} {w : Str} {m : Nat} (h : d.look n w = .ok m) : (d.node m).isSome = true := by
  obtain ⟨up, es, mo, l, hn, h | h⟩ := look_ok.mp h
  · rw [h.2, hn]; rfl
  · exact h.2.1

/-- A body that has at least the entries of another one. -/
def _root_.Asap.Spec.Body.Fits (d : Vol) : Body → Body → Prop
  | .file _, b => ∃ s, b = .file s
  | .link t, b => b = .link t
  | .dir up es, b => ∃ es', b = .dir up es' ∧ ∀ w k, es.lookup w = some k → (d.node k).isSome = true → es'.lookup w = some k

/-- Everything that is there stays there. -/
structure Fits (d d' : Vol) : Prop where
  node : ∀ n i, d.node n = some i → ∃ i', d'.node n = some i' ∧ i.body.Fits d i'.body
  cwd : d'.cwd = d.cwd

theorem body_refl (d : Vol) (b : Body) : b.Fits d b := by
  cases b with
  | file s => exact ⟨s, rfl⟩
  | dir up es => exact ⟨es, rfl, fun _ _ h _ => h⟩
  | link t => rfl

theorem Fits.isSome {d d' : Vol} (h : Fits d d') {n : Nat} (hn : (d.node n).isSome = true) : (d'.node n).isSome = true := by
  cases hi : d.node n with
  | none => simp [hi] at hn
  | some i =>
    obtain ⟨i', h1, _⟩ := h.node n i hi
    simp [h1]

theorem Fits.look {d d' : Vol} (h : Fits d d') {n : Nat} {w : Str} {m : Nat} (hl : d.look n w = .ok m) : d'.look n w = .ok m := by
  obtain ⟨up, es, mo, l, hn, hc⟩ := look_ok.mp hl
  obtain ⟨⟨b', mo', l'⟩, h1, es', hb, h3⟩ := h.node n _ hn
  simp only at hb
  subst hb
  refine look_ok.mpr ⟨up, es', mo', l', h1, ?_⟩
  rcases hc with hc | ⟨hw, hs, hk⟩
  · exact .inl hc
  · refine .inr ⟨hw, h.isSome hs, ?_⟩
    by_cases hd : w = dotdot
    · rw [if_pos hd] at hk ⊢; exact hk
    · rw [if_neg hd] at hk ⊢; exact h3 _ _ hk hs

theorem Fits.text {d d' : Vol} (h : Fits d d') {m : Nat} (hs : (d.node m).isSome = true) : d'.text m = d.text m := by
  cases hi : d.node m with
  | none => simp [hi] at hs
  | some i =>
    obtain ⟨⟨b', mo', l'⟩, h1, h2⟩ := h.node m i hi
    obtain ⟨b, mo, l⟩ := i
    unfold Vol.text
    rw [hi, h1]
    cases b with
    | file s => obtain ⟨s', hb⟩ := h2; simp only at hb; subst hb; rfl
    | dir up es => obtain ⟨es', hb, _⟩ := h2; simp only at hb; subst hb; rfl
    | link t => simp only [Body.Fits] at h2; subst h2; rfl

theorem follow_nil (d : Vol) (k n : Nat) : d.follow k n [] = .ok n := by cases k <;> rfl

theorem follow_cons (d : Vol) (k n : Nat) (w : Str) (ws : List Str) : d.follow k n (w :: ws) =
    match d.look n w with
    | .error e => .error e
    | .ok m =>
      match d.text m with
      | none => d.follow k m ws
      | some t =>
        match k with
        | 0 => .error .ELOOP
        | k + 1 => d.follow k (d.start n t) (relElements t ++ ws) := by
  cases k with
  | zero => rfl
  | succ k => rfl

/-- Induction along the names and links that are followed. -/
theorem follow_ind (d : Vol) {motive : Nat → Nat → List Str → Prop} (case1 : ∀ k n, motive k n [])
    (case2 : ∀ k n w ws e, d.look n w = .error e → motive k n (w :: ws))
    (case3 : ∀ k n w ws m, d.look n w = .ok m → d.text m = none → motive k m ws → motive k n (w :: ws))
    (case4 : ∀ n w ws m t, d.look n w = .ok m → d.text m = some t → motive 0 n (w :: ws))
    (case5 : ∀ n w ws m t k, d.look n w = .ok m → d.text m = some t → motive k (d.start n t) (relElements t ++ ws) →
      motive (k + 1) n (w :: ws)) (k n : Nat) (ws : List Str) : motive k n ws := by
  induction k generalizing n ws with
  | zero =>
    induction ws generalizing n with
    | nil => exact case1 ..
    | cons w ws ih =>
      cases hl : d.look n w with
      | error e => exact case2 _ _ _ _ e hl
      | ok m =>
        cases ht : d.text m with
        | none => exact case3 _ _ _ _ m hl ht (ih m)
        | some t => exact case4 _ _ _ m t hl ht
  | succ k ihk =>
    induction ws generalizing n with
    | nil => exact case1 ..
    | cons w ws ih =>
      cases hl : d.look n w with
      | error e => exact case2 _ _ _ _ e hl
      | ok m =>
        cases ht : d.text m with
        | none => exact case3 _ _ _ _ m hl ht (ih m)
        | some t => exact case5 _ _ _ m t k hl ht (ihk ..)

/-- What was found is still found. -/
theorem Fits.follow {d d' : Vol} (h : Fits d d') (k n : Nat) (ws : List Str) (r : Nat) (hf : d.follow k n ws = .ok r) :
    d'.follow k n ws = .ok r := by
  induction k, n, ws using follow_ind d with
  | case1 => rw [follow_nil] at hf ⊢; exact hf
  | case2 k n w ws e he => rw [follow_cons, he] at hf; cases hf
  | case3 k n w ws m hl ht ih =>
    rw [follow_cons, hl] at hf; simp only [ht] at hf
    rw [follow_cons, h.look hl]
    simp only [h.text (look_isSome hl), ht]
    exact ih hf
  | case4 n w ws m t hl ht => rw [follow_cons, hl] at hf; simp only [ht] at hf; cases hf
  | case5 n w ws m t k hl ht ih =>
    rw [follow_cons, hl] at hf; simp only [ht] at hf
    rw [follow_cons, h.look hl]
    simp only [h.text (look_isSome hl), ht]
    exact ih hf

/-- Following a sequence in two parts. -/
theorem follow_append (d : Vol) (k n : Nat) (ws vs : List Str) (r : Nat) (hf : d.follow k n ws = .ok r) :
    ∃ k', d.follow k n (ws ++ vs) = d.follow k' r vs := by
  induction k, n, ws using follow_ind d with
  | case1 k n => rw [follow_nil] at hf; cases hf; exact ⟨k, rfl⟩
  | case2 k n w ws e he => rw [follow_cons, he] at hf; cases hf
  | case3 k n w ws m hl ht ih =>
    rw [follow_cons, hl] at hf; simp only [ht] at hf
    obtain ⟨k', h⟩ := ih hf
    refine ⟨k', ?_⟩
    rw [List.cons_append, follow_cons, hl]
    simp only [ht]
    exact h
  | case4 n w ws m t hl ht => rw [follow_cons, hl] at hf; simp only [ht] at hf; cases hf
  | case5 n w ws m t k hl ht ih =>
    rw [follow_cons, hl] at hf; simp only [ht] at hf
    obtain ⟨k', h⟩ := ih hf
    refine ⟨k', ?_⟩
    rw [List.cons_append, follow_cons, hl]
    simp only [ht]
    rw [← List.append_assoc]
    exact h

/-! ## Paths -/

theorem Fits.find {d d' : Vol} (h : Fits d d') {p : Str} {m : Nat} (hf : d.find p = .ok m) : d'.find p = .ok m := by
  unfold Vol.find at hf ⊢
  split at hf
  · cases hf
  · rename_i hp
    rw [if_neg hp]
    unfold start at hf ⊢
    rw [h.cwd]
    exact h.follow _ _ _ _ hf

theorem placeOf_ok {d : Vol} {n : Nat} {ws : List Str} {m : Nat} {w : Str} :
    d.placeOf n ws = .ok (m, w) ↔ (ws = [] ∧ m = n ∧ w = []) ∨ (∃ vs, ws = vs ++ [w] ∧ d.follow 40 n vs = .ok m) := by
  rcases List.eq_nil_or_concat ws with rfl | ⟨vs, v, rfl⟩
  · constructor
    · intro h; cases h; exact .inl ⟨rfl, rfl, rfl⟩
    · rintro (⟨-, rfl, rfl⟩ | ⟨vs, h, -⟩)
      · rfl
      · simp at h
  · have hg : (vs.concat v).getLast? = some v := by simp
    have hd : (vs.concat v).dropLast = vs := by simp
    unfold placeOf
    rw [hg, hd]
    simp only
    rw [List.concat_eq_append]
    constructor
    · intro h
      cases hf : d.follow 40 n vs with
      | error e => rw [hf] at h; cases h
      | ok r =>
        rw [hf] at h
        cases h
        exact .inr ⟨vs, rfl, hf⟩
    · rintro (⟨h, -⟩ | ⟨us, h, hf⟩)
      · simp at h
      · obtain ⟨h1, h2⟩ := List.append_inj' h rfl
        cases h2
        rw [h1, hf]

theorem Fits.placeOf {d d' : Vol} (h : Fits d d') {n : Nat} {ws : List Str} {x : Nat × Str} (hf : d.placeOf n ws = .ok x) :
    d'.placeOf n ws = .ok x := by
  obtain ⟨m, w⟩ := x
  rcases placeOf_ok.mp hf with h1 | ⟨vs, h1, h2⟩
  · exact placeOf_ok.mpr (.inl h1)
  · exact placeOf_ok.mpr (.inr ⟨vs, h1, h.follow _ _ _ _ h2⟩)

theorem place_ok {d : Vol} {p : Str} {x : Nat × Str} : d.place p = .ok x ↔ p ≠ [] ∧ d.placeOf (d.start d.cwd p) (relElements p) = .ok x := by
  unfold place
  by_cases hp : p = []
  · simp [hp]
  · simp [hp]

theorem Fits.place {d d' : Vol} (h : Fits d d') {p : Str} {x : Nat × Str} (hf : d.place p = .ok x) : d'.place p = .ok x := by
  obtain ⟨h1, h2⟩ := place_ok.mp hf
  refine place_ok.mpr ⟨h1, ?_⟩
  unfold start at h2 ⊢
  rw [h.cwd]
  exact h.placeOf h2

theorem findLink_ok {d : Vol} {p : Str} {m : Nat} : d.findLink p = .ok m ↔ ∃ n w, d.place p = .ok (n, w) ∧ d.look n w = .ok m := by
  unfold findLink
  constructor
  · intro h
    split at h
    · rename_i n w hp; exact ⟨n, w, hp, h⟩
    · cases h
  · rintro ⟨n, w, h1, h2⟩
    rw [h1]; exact h2

theorem Fits.findLink {d d' : Vol} (h : Fits d d') {p : Str} {m : Nat} (hf : d.findLink p = .ok m) : d'.findLink p = .ok m := by
  obtain ⟨n, w, h1, h2⟩ := findLink_ok.mp hf
  exact findLink_ok.mpr ⟨n, w, h.place h1, h.look h2⟩

/-- What is not a symbolic link is found when links are followed. -/
theorem find_of_findLink {d : Vol} {p : Str} {m : Nat} (hf : d.findLink p = .ok m) (ht : d.text m = none) : d.find p = .ok m := by
  obtain ⟨n, w, h1, h2⟩ := findLink_ok.mp hf
  obtain ⟨hp, h3⟩ := place_ok.mp h1
  unfold find
  rw [if_neg hp]
  rcases placeOf_ok.mp h3 with ⟨h4, rfl, rfl⟩ | ⟨vs, h4, h5⟩
  · obtain ⟨up, es, mo, l, hn, h | h⟩ := look_ok.mp h2
    · rw [h4, follow_nil, h.2]
    · exact absurd (.inl rfl) h.1
  · rw [h4]
    obtain ⟨k, h6⟩ := follow_append d _ _ vs [w] _ h5
    rw [h6, follow_cons, h2]
    simp only [ht]
    exact follow_nil ..

/-- A name after which the path goes on with nothing. -/
theorem find_of_placeOf {d : Vol} {p : Str} {n : Nat} {w : Str} {m : Nat} (hp : p ≠ [])
    (hf : d.placeOf (d.start d.cwd p) (filenames p) = .ok (n, w)) (hl : d.look n w = .ok m) (hd : d.isDir m = true) :
    d.find p = .ok m ∧ d.findLink p = .ok m := by
  have hk : ∃ up es mo l, d.node m = some ⟨.dir up es, mo, l⟩ := by
    unfold isDir at hd
    split at hd
    · rename_i h; exact ⟨_, _, _, _, h⟩
    · cases hd
  have ht : d.text m = none := by
    obtain ⟨up, es, mo, l, h⟩ := hk
    unfold text; rw [h]
  have hfl : d.findLink p = .ok m := by
    rw [findLink_ok]
    by_cases he : endsSlash p = true ∧ filenames p ≠ []
    · refine ⟨m, [], place_ok.mpr ⟨hp, placeOf_ok.mpr (.inr ⟨filenames p, ?_, ?_⟩)⟩, ?_⟩
      · unfold relElements; rw [if_pos he]
      · rcases placeOf_ok.mp hf with ⟨h4, -⟩ | ⟨vs, h4, h5⟩
        · exact absurd h4 he.2
        · rw [h4]
          obtain ⟨k, h6⟩ := follow_append d _ _ vs [w] _ h5
          rw [h6, follow_cons, hl]
          simp only [ht]
          exact follow_nil ..
      · obtain ⟨up, es, mo, l, h⟩ := hk
        exact look_ok.mpr ⟨up, es, mo, l, h, .inl ⟨.inl rfl, rfl⟩⟩
    · refine ⟨n, w, place_ok.mpr ⟨hp, ?_⟩, hl⟩
      unfold relElements; rw [if_neg he, List.append_nil]; exact hf
  exact ⟨find_of_findLink hfl ht, hfl⟩

/-! ## New inodes and entries -/

theorem special_false {w : Str} : special w = false ↔ ¬ (w = [] ∨ w = dot) ∧ w ≠ dotdot := by
  unfold special
  simp only [Bool.or_eq_false_iff, decide_eq_false_iff_not]
  constructor
  · rintro ⟨⟨h1, h2⟩, h3⟩; exact ⟨by rintro (h | h) <;> contradiction, h3⟩
  · rintro ⟨h1, h2⟩; exact ⟨⟨fun h => h1 (.inl h), fun h => h1 (.inr h)⟩, h2⟩

/-- What making an inode does. -/
structure Made (d d' : Vol) (n : Nat) (w : Str) (i : INode) : Prop where
  missing : d.look n w = .error .ENOENT
  name : special w = false
  fits : Fits d d'
  look : d'.look n w = .ok d.next
  node : d'.node d.next = some i
  fresh : d.node d.next = none
  attr : ∀ m i, d.node m = some i → ∃ i', d'.node m = some i' ∧ attr m i' = attr m i

theorem make_ok {d d' : Vol} {pl : Except Errno (Nat × Str)} {i : Nat → INode} (h : d.make pl i = (.ok (), d')) :
    ∃ n w, pl = .ok (n, w) ∧ Made d d' n w (i n) := by
  unfold make at h
  split at h
  · cases h
  · rename_i n w
    refine ⟨n, w, rfl, ?_⟩
    split at h
    · cases h
    · rename_i hl
      split at h
      · cases h
      · rename_i hdd
        split at h
        · cases h
        · rename_i hs
          have hnone : d.node d.next = none := by simpa using hs
          obtain ⟨up, es, mo, l, hn, hw, hes⟩ := look_missing hl
          have hne : n ≠ d.next := by rintro rfl; rw [hn] at hnone; cases hnone
          have hd' : d' = { ((d.set d.next (i n)).set n ⟨.dir up ((w, d.next) :: es), mo, l⟩) with next := d.next + 1 } := by
            have h2 : (d.set d.next (i n)).node n = some ⟨.dir up es, mo, l⟩ := by rw [node_set, if_neg hne]; exact hn
            unfold enter at h
            rw [h2] at h
            exact (Prod.mk.inj h).2.symm
          have hnode : ∀ k, d'.node k = if k = n then some ⟨.dir up ((w, d.next) :: es), mo, l⟩ else if k = d.next then some (i n) else d.node k := by
            intro k; rw [hd']; rfl
          have h1 : d'.node d.next = some (i n) := by rw [hnode, if_neg (Ne.symm hne), if_pos rfl]
          refine ⟨hl, special_false.mpr ⟨hw, hdd⟩, ⟨fun k j hk => ?_, by rw [hd']; rfl⟩, ?_, h1, hnone, fun k j hk => ?_⟩
          · by_cases hkn : k = n
            · subst hkn
              rw [hn] at hk; cases hk
              refine ⟨_, (hnode k).trans (if_pos rfl), _, rfl, fun v c hv hc => ?_⟩
              by_cases hvw : v = w
              · subst hvw
                rw [hes hdd c hv] at hc; cases hc
              · rw [List.lookup_cons]
                rw [show (v == w) = false by simpa using hvw]
                exact hv
            · have : k ≠ d.next := by rintro rfl; rw [hk] at hnone; cases hnone
              exact ⟨j, by rw [hnode, if_neg hkn, if_neg this]; exact hk, body_refl ..⟩
          · refine look_ok.mpr ⟨up, (w, d.next) :: es, mo, l, by rw [hnode, if_pos rfl], .inr ⟨hw, by rw [h1]; rfl, ?_⟩⟩
            rw [if_neg hdd, List.lookup_cons_self]
          · by_cases hkn : k = n
            · subst hkn
              rw [hn] at hk; cases hk
              exact ⟨_, (hnode k).trans (if_pos rfl), rfl⟩
            · have : k ≠ d.next := by rintro rfl; rw [hk] at hnone; cases hnone
              exact ⟨j, by rw [hnode, if_neg hkn, if_neg this]; exact hk, rfl⟩
    · cases h

/-- What is there is seen with the same attributes. -/
theorem attrs_of {d d' : Vol} {x : Except Errno Nat} {st : Stat} (ha : ∀ m i, d.node m = some i → ∃ i', d'.node m = some i' ∧ attr m i' = attr m i)
    (h : d.attrs x = .ok st) : ∃ m, x = .ok m ∧ d'.attrs (.ok m) = .ok st := by
  cases x with
  | error e => cases h
  | ok m =>
    refine ⟨m, rfl, ?_⟩
    unfold attrs at h ⊢
    simp only at h ⊢
    cases hm : d.node m with
    | none => simp [hm] at h
    | some i =>
      obtain ⟨i', h1, h2⟩ := ha m i hm
      simp only [hm] at h
      cases h
      simp only [h1, h2]

/-! ## Edits of inodes -/

/-- The inodes are edited one by one; none is added and none goes. -/
structure Edit (d d' : Vol) (f : Nat → INode → INode) : Prop where
  node : ∀ k, d'.node k = (d.node k).map (f k)
  cwd : d'.cwd = d.cwd

/-- Put an entry into the body of a directory. -/
def putEntry (w : Str) (k : Nat) : Body → Body
  | .dir up es => .dir up ((w, k) :: es)
  | b => b

/-- Take an entry out of the body of a directory. -/
def dropEntry (w : Str) : Body → Body
  | .dir up es => .dir up (es.filter (·.1 ≠ w))
  | b => b

/-- The directory a directory is in. -/
def putUp (n : Nat) : Body → Body
  | .dir _ es => .dir n es
  | b => b

/-- An edit of one inode. -/
def at1 (n : Nat) (f : INode → INode) (k : Nat) (i : INode) : INode := if k = n then f i else i

theorem set_edit (d : Vol) (n : Nat) (i : INode) (f : INode → INode) (h : d.node n = some i) : Edit d (d.set n (f i)) (at1 n f) := by
  refine ⟨fun k => ?_, rfl⟩
  rw [node_set]
  by_cases hk : k = n
  · subst hk; rw [if_pos rfl, h, Option.map_some, at1, if_pos rfl]
  · rw [if_neg hk]
    cases hd : d.node k with
    | none => rfl
    | some j => rw [Option.map_some, at1, if_neg hk]

theorem id_edit (d : Vol) (n : Nat) (f : INode → INode) (h : ∀ i, d.node n = some i → f i = i) : Edit d d (at1 n f) := by
  refine ⟨fun k => ?_, rfl⟩
  cases hd : d.node k with
  | none => rfl
  | some j =>
    rw [Option.map_some, at1]
    split
    · rename_i hk; subst hk; rw [h _ hd]
    · rfl

theorem enter_edit (d : Vol) (n : Nat) (w : Str) (c : Nat) : Edit d (d.enter n w c) (at1 n fun i => ⟨putEntry w c i.body, i.mode, i.nlink⟩) := by
  unfold enter
  split
  · rename_i up es m l h
    exact set_edit d n _ (fun i => ⟨putEntry w c i.body, i.mode, i.nlink⟩) h
  · rename_i h
    refine id_edit _ _ _ fun i hi => ?_
    obtain ⟨b, m, l⟩ := i
    cases b with
    | dir up es => exact absurd hi (h up es m l)
    | file s => rfl
    | link t => rfl

theorem leave_edit (d : Vol) (n : Nat) (w : Str) : Edit d (d.leave n w) (at1 n fun i => ⟨dropEntry w i.body, i.mode, i.nlink⟩) := by
  unfold leave
  split
  · rename_i up es m l h
    exact set_edit d n _ (fun i => ⟨dropEntry w i.body, i.mode, i.nlink⟩) h
  · rename_i h
    refine id_edit _ _ _ fun i hi => ?_
    obtain ⟨b, m, l⟩ := i
    cases b with
    | dir up es => exact absurd hi (h up es m l)
    | file s => rfl
    | link t => rfl

theorem relink_edit (d : Vol) (n : Nat) (g : Nat → Nat) : Edit d (d.relink n g) (at1 n fun i => ⟨i.body, i.mode, g i.nlink⟩) := by
  unfold relink
  split
  · rename_i b m l h
    exact set_edit d n _ (fun i => ⟨i.body, i.mode, g i.nlink⟩) h
  · rename_i h
    exact id_edit _ _ _ fun i hi => by rw [h] at hi; cases hi

theorem moved_edit (d : Vol) (m n : Nat) : Edit d (d.moved m n) (at1 m fun i => ⟨putUp n i.body, i.mode, i.nlink⟩) := by
  unfold moved
  split
  · rename_i up es mo l h
    exact set_edit d m _ (fun i => ⟨putUp n i.body, i.mode, i.nlink⟩) h
  · rename_i h
    refine id_edit _ _ _ fun i hi => ?_
    obtain ⟨b, mo, l⟩ := i
    cases b with
    | dir up es => exact absurd hi (h up es mo l)
    | file s => rfl
    | link t => rfl

theorem Edit.trans {d d' d'' : Vol} {f g : Nat → INode → INode} (h : Edit d d' f) (h' : Edit d' d'' g) :
    Edit d d'' (fun k i => g k (f k i)) := by
  refine ⟨fun k => ?_, h'.cwd.trans h.cwd⟩
  rw [h'.node, h.node, Option.map_map]
  rfl

theorem Edit.isSome {d d' : Vol} {f : Nat → INode → INode} (h : Edit d d' f) (k : Nat) : (d'.node k).isSome = (d.node k).isSome := by
  rw [h.node]; cases d.node k <;> rfl

theorem Edit.here {d d' : Vol} {f : Nat → INode → INode} (h : Edit d d' f) {k : Nat} {i : INode} (hk : d.node k = some i) :
    d'.node k = some (f k i) := by
  rw [h.node, hk]; rfl

/-- An edit that takes nothing away. -/
theorem Edit.fits {d d' : Vol} {f : Nat → INode → INode} (h : Edit d d' f)
    (hf : ∀ k i, d.node k = some i → i.body.Fits d (f k i).body) : Fits d d' :=
  ⟨fun k i hk => ⟨_, h.here hk, hf k i hk⟩, h.cwd⟩

/-- An edit that adds nothing. -/
theorem Edit.fits_back {d d' : Vol} {f : Nat → INode → INode} (h : Edit d d' f)
    (hf : ∀ k i, d.node k = some i → (f k i).body.Fits d' i.body) : Fits d' d := by
  refine ⟨fun k i hk => ?_, h.cwd.symm⟩
  rw [h.node] at hk
  cases hd : d.node k with
  | none => rw [hd] at hk; cases hk
  | some j =>
    rw [hd] at hk
    cases hk
    exact ⟨j, rfl, hf k j hd⟩

theorem hardLink_ok {d d' : Vol} {a b : Str} (h : d.hardLink a b = (.ok (), d')) :
    ∃ m n w i, d.findLink a = .ok m ∧ d.place b = .ok (n, w) ∧ d.look n w = .error .ENOENT ∧ d.node m = some i ∧ d.isDir m = false ∧
      Fits d d' ∧ d'.look n w = .ok m ∧ d'.node m = some ⟨i.body, i.mode, i.nlink + 1⟩ ∧
      (∀ k j, k ≠ m → d.node k = some j → ∃ j', d'.node k = some j' ∧ attr k j' = attr k j) ∧
      ∀ k j, d.node k = some j → ∃ j', d'.node k = some j' ∧ (attr k j').mode = (attr k j).mode := by
  unfold hardLink at h
  split at h
  · cases h
  · cases h
  · rename_i m n w ha hb
    split at h
    · cases h
    · rename_i hl
      split at h
      · cases h
      · rename_i hdir
        split at h
        · cases h
        · rename_i hdd
          obtain ⟨-, rfl⟩ := Prod.mk.inj h
          have he := (relink_edit d m (· + 1)).trans (enter_edit (d.relink m (· + 1)) n w m)
          obtain ⟨up, es, mo, l, hn, hw, hes⟩ := look_missing hl
          obtain ⟨pn, pw, -, hlk⟩ := findLink_ok.mp ha
          have hms := look_isSome hlk
          obtain ⟨i, hi⟩ := Option.isSome_iff_exists.mp hms
          have hdir : d.isDir m = false := by simpa using hdir
          have hnm : n ≠ m := by
            rintro rfl
            unfold isDir at hdir
            rw [hn] at hdir
            cases hdir
          have hfit : Fits d ((d.relink m (· + 1)).enter n w m) := by
            refine he.fits fun k j hk => ?_
            by_cases hkn : k = n
            · subst hkn
              rw [hn] at hk; cases hk
              simp only [at1, if_neg hnm, if_pos]
              refine ⟨_, rfl, fun v c hv hc => ?_⟩
              by_cases hvw : v = w
              · subst hvw
                rw [hes hdd c hv] at hc; cases hc
              · rw [List.lookup_cons, show (v == w) = false by simpa using hvw]
                exact hv
            · simp only [at1, if_neg hkn]
              split
              · exact body_refl ..
              · exact body_refl ..
          refine ⟨m, n, w, i, ha, hb, hl, hi, hdir, hfit, ?_, ?_, fun k j hkm hk => ⟨_, he.here hk, ?_⟩, fun k j hk => ⟨_, he.here hk, ?_⟩⟩
          · refine look_ok.mpr ⟨up, (w, m) :: es, mo, l, ?_, .inr ⟨hw, hfit.isSome hms, ?_⟩⟩
            · rw [he.here hn]
              simp only [at1, if_neg hnm, if_pos]
              rfl
            · rw [if_neg hdd, List.lookup_cons_self]
          · rw [he.here hi]
            simp only [at1, if_pos, if_neg (Ne.symm hnm)]
          · simp only [at1, if_neg hkm]
            split
            · obtain ⟨b, jm, jl⟩ := j
              cases b <;> rfl
            · rfl
          · obtain ⟨b, jm, jl⟩ := j
            simp only [at1]
            cases b <;> (split <;> split <;> rfl)
    · cases h

/-! ## Entries that go -/

theorem lookup_filter_self (es : List (Str × Nat)) (w : Str) : (es.filter (·.1 ≠ w)).lookup w = none := by
  induction es with
  | nil => rfl
  | cons e es ih =>
    rw [List.filter_cons]
    split
    · rename_i h
      obtain ⟨a, b⟩ := e
      rw [List.lookup_cons, show (w == a) = false from beq_eq_false_iff_ne.mpr (Ne.symm (of_decide_eq_true h))]
      exact ih
    · exact ih

theorem lookup_filter_ne (es : List (Str × Nat)) {v w : Str} (h : v ≠ w) : (es.filter (·.1 ≠ w)).lookup v = es.lookup v := by
  induction es with
  | nil => rfl
  | cons e es ih =>
    obtain ⟨a, b⟩ := e
    rw [List.filter_cons]
    split
    · rw [List.lookup_cons, List.lookup_cons, ih]
    · rename_i ha
      have ha : a = w := by simpa using ha
      subst ha
      rw [List.lookup_cons, show (v == a) = false by simpa using h]
      exact ih

/-- Some entries are missing; nothing else is different. -/
structure Less (d d' : Vol) : Prop where
  back : Fits d' d
  look : ∀ n w m, d.look n w = .ok m → d'.look n w = .ok m ∨ d'.look n w = .error .ENOENT
  isSome : ∀ k, (d'.node k).isSome = (d.node k).isSome

theorem Less.follow {d d' : Vol} (h : Less d d') (k n : Nat) (ws : List Str) (r : Nat) (hf : d.follow k n ws = .ok r) :
    d'.follow k n ws = .ok r ∨ d'.follow k n ws = .error .ENOENT := by
  induction k, n, ws using follow_ind d with
  | case1 => rw [follow_nil] at hf ⊢; exact .inl hf
  | case2 k n w ws e he => rw [follow_cons, he] at hf; cases hf
  | case3 k n w ws m hl ht ih =>
    rw [follow_cons, hl] at hf; simp only [ht] at hf
    rw [follow_cons]
    rcases h.look _ _ _ hl with h1 | h1
    · rw [h1]
      have ht' : d'.text m = none := by
        rw [← h.back.text (by rw [h.isSome]; exact look_isSome hl)]; exact ht
      simp only [ht']
      exact ih hf
    · rw [h1]; exact .inr rfl
  | case4 n w ws m t hl ht => rw [follow_cons, hl] at hf; simp only [ht] at hf; cases hf
  | case5 n w ws m t k hl ht ih =>
    rw [follow_cons, hl] at hf; simp only [ht] at hf
    rw [follow_cons]
    rcases h.look _ _ _ hl with h1 | h1
    · rw [h1]
      have ht' : d'.text m = some t := by
        rw [← h.back.text (by rw [h.isSome]; exact look_isSome hl)]; exact ht
      simp only [ht']
      exact ih hf
    · rw [h1]; exact .inr rfl

theorem Less.placeOf {d d' : Vol} (h : Less d d') {n : Nat} {ws : List Str} {x : Nat × Str} (hf : d.placeOf n ws = .ok x) :
    d'.placeOf n ws = .ok x ∨ d'.placeOf n ws = .error .ENOENT := by
  obtain ⟨m, w⟩ := x
  rcases placeOf_ok.mp hf with h1 | ⟨vs, rfl, h2⟩
  · exact .inl (placeOf_ok.mpr (.inl h1))
  · rcases h.follow _ _ _ _ h2 with h3 | h3
    · exact .inl (placeOf_ok.mpr (.inr ⟨vs, rfl, h3⟩))
    · right
      unfold Vol.placeOf
      have hg : (vs ++ [w]).getLast? = some w := by simp
      have hd : (vs ++ [w]).dropLast = vs := by simp
      rw [hg, hd]
      simp only [h3]

theorem Less.place {d d' : Vol} (h : Less d d') {p : Str} {x : Nat × Str} (hf : d.place p = .ok x) :
    d'.place p = .ok x ∨ d'.place p = .error .ENOENT := by
  obtain ⟨h1, h2⟩ := place_ok.mp hf
  unfold Vol.place
  rw [if_neg h1]
  unfold start at h2 ⊢
  rw [← h.back.cwd]
  exact h.placeOf h2

theorem Less.find {d d' : Vol} (h : Less d d') {p : Str} {m : Nat} (hf : d.find p = .ok m) :
    d'.find p = .ok m ∨ d'.find p = .error .ENOENT := by
  unfold Vol.find at hf ⊢
  split at hf
  · cases hf
  · rename_i hp
    rw [if_neg hp]
    unfold start at hf ⊢
    rw [← h.back.cwd]
    exact h.follow _ _ _ _ hf

/-- What taking out an entry does. -/
theorem erase_ok {d d' : Vol} {p : Str} (h : d.erase p = (.ok (), d')) :
    ∃ m n w, d.place p = .ok (n, w) ∧ d.look n w = .ok m ∧ special w = false ∧ d.full m = false ∧ Less d d' ∧
      d'.look n w = .error .ENOENT ∧ (∀ v k, v ≠ w → d.look n v = .ok k → d'.look n v = .ok k) ∧
      (∀ v x k, x ≠ n → d.look x v = .ok k → d'.look x v = .ok k) ∧
      (∀ k j, k ≠ m → d.node k = some j → ∃ j', d'.node k = some j' ∧ attr k j' = attr k j) ∧
      ∀ k j, d.node k = some j → ∃ j', d'.node k = some j' ∧ (attr k j').mode = (attr k j).mode := by
  unfold erase at h
  split at h
  · cases h
  · rename_i n w hp
    split at h
    · cases h
    · rename_i m hl
      split at h
      · cases h
      · rename_i hs
        split at h
        · cases h
        · rename_i hfull
          obtain ⟨-, rfl⟩ := Prod.mk.inj h
          have he := (leave_edit d n w).trans (relink_edit (d.leave n w) m (· - 1))
          have hs : special w = false := by simpa using hs
          obtain ⟨hw, hdd⟩ := special_false.mp hs
          have hbody : ∀ k i, d.node k = some i → ∃ i', ((d.leave n w).relink m (· - 1)).node k = some i' ∧
              i'.body = (if k = n then dropEntry w i.body else i.body) := by
            intro k i hk
            refine ⟨_, he.here hk, ?_⟩
            simp only [at1]
            split <;> split <;> rfl
          have hother : ∀ v x k, (x ≠ n ∨ v ≠ w) → d.look x v = .ok k → ((d.leave n w).relink m (· - 1)).look x v = .ok k := by
            intro v x k hx hlk
            obtain ⟨up, es, mo, l, hn, hc⟩ := look_ok.mp hlk
            obtain ⟨⟨b, mo', l'⟩, h1, h2⟩ := hbody x _ hn
            simp only at h2
            by_cases hxn : x = n
            · subst hxn
              have hv := hx.resolve_left (fun h => h rfl)
              rw [if_pos rfl] at h2
              subst h2
              refine look_ok.mpr ⟨up, _, mo', l', h1, ?_⟩
              rcases hc with hc | ⟨hc, hc2, hc3⟩
              · exact .inl hc
              · refine .inr ⟨hc, by rw [he.isSome]; exact hc2, ?_⟩
                rw [lookup_filter_ne _ hv]; exact hc3
            · rw [if_neg hxn] at h2
              subst h2
              refine look_ok.mpr ⟨up, _, mo', l', h1, ?_⟩
              rcases hc with hc | ⟨hc, hc2, hc3⟩
              · exact .inl hc
              · exact .inr ⟨hc, by rw [he.isSome]; exact hc2, hc3⟩
          have hgone : ((d.leave n w).relink m (· - 1)).look n w = .error .ENOENT := by
            obtain ⟨up, es, mo, l, hn, hc⟩ := look_ok.mp hl
            obtain ⟨⟨b, mo', l'⟩, h1, h2⟩ := hbody n _ hn
            simp only [if_pos] at h2
            subst h2
            unfold look
            rw [h1]
            simp only [dropEntry, if_neg hw, if_neg hdd, lookup_filter_self]
          refine ⟨m, n, w, hp, hl, hs, by simpa using hfull, ⟨?_, ?_, he.isSome⟩, hgone, fun v k hv => hother v n k (.inr hv),
            fun v x k hx => hother v x k (.inl hx), fun k j hkm hk => ⟨_, he.here hk, ?_⟩, fun k j hk => ⟨_, he.here hk, ?_⟩⟩
          · refine he.fits_back fun k i hk => ?_
            obtain ⟨i', h1, h2⟩ := hbody k i hk
            rw [he.here hk] at h1
            cases h1
            rw [h2]
            split
            · obtain ⟨b, mo, l⟩ := i
              cases b with
              | file s => exact ⟨s, rfl⟩
              | link t => rfl
              | dir up es =>
                refine ⟨es, rfl, fun v c hv _ => ?_⟩
                by_cases hvw : v = w
                · subst hvw; rw [lookup_filter_self] at hv; cases hv
                · rw [lookup_filter_ne _ hvw] at hv; exact hv
            · exact body_refl ..
          · intro x v k hlk
            by_cases hx : x ≠ n ∨ v ≠ w
            · exact .inl (hother v x k hx hlk)
            · right
              have hxn : x = n := by
                by_cases h : x = n
                · exact h
                · exact absurd (.inl h) hx
              have hvw : v = w := by
                by_cases h : v = w
                · exact h
                · exact absurd (.inr h) hx
              subst hxn hvw
              exact hgone
          · simp only [at1, if_neg hkm]
            split
            · obtain ⟨b, jm, jl⟩ := j
              cases b <;> rfl
            · rfl
          · obtain ⟨b, jm, jl⟩ := j
            simp only [at1]
            cases b <;> (split <;> split <;> rfl)

/-! ## Moving -/

theorem lookup_filter_none {es : List (Str × Nat)} {v w : Str} (h : es.lookup v = none) : (es.filter (·.1 ≠ w)).lookup v = none := by
  by_cases hv : v = w
  · subst hv; exact lookup_filter_self ..
  · rw [lookup_filter_ne _ hv]; exact h

/-- A directory whose entries satisfy a condition. -/
def HasDir (φ : List (Str × Nat) → Prop) (i : INode) : Prop := ∃ up es, i.body = .dir up es ∧ φ es

theorem HasDir.relink {φ : List (Str × Nat) → Prop} {i : INode} (h : HasDir φ i) (n k : Nat) (g : Nat → Nat) :
    HasDir φ (at1 n (fun i => ⟨i.body, i.mode, g i.nlink⟩) k i) := by
  unfold at1
  split
  · exact h
  · exact h

theorem HasDir.moved {φ : List (Str × Nat) → Prop} {i : INode} (h : HasDir φ i) (n k x : Nat) :
    HasDir φ (at1 n (fun i => ⟨putUp x i.body, i.mode, i.nlink⟩) k i) := by
  obtain ⟨up, es, h1, h2⟩ := h
  unfold at1
  split
  · exact ⟨x, es, by simp only [h1]; rfl, h2⟩
  · exact ⟨up, es, h1, h2⟩

theorem HasDir.leave {φ ψ : List (Str × Nat) → Prop} {i : INode} (h : HasDir φ i) (n k : Nat) (w : Str)
    (h1 : k = n → ∀ es, φ es → ψ (es.filter (·.1 ≠ w))) (h2 : k ≠ n → ∀ es, φ es → ψ es) :
    HasDir ψ (at1 n (fun i => ⟨dropEntry w i.body, i.mode, i.nlink⟩) k i) := by
  obtain ⟨up, es, h3, h4⟩ := h
  unfold at1
  split
  · exact ⟨up, _, by simp only [h3]; rfl, h1 ‹_› es h4⟩
  · exact ⟨up, es, h3, h2 ‹_› es h4⟩

theorem HasDir.enter {φ ψ : List (Str × Nat) → Prop} {i : INode} (h : HasDir φ i) (n k c : Nat) (w : Str)
    (h1 : k = n → ∀ es, φ es → ψ ((w, c) :: es)) (h2 : k ≠ n → ∀ es, φ es → ψ es) :
    HasDir ψ (at1 n (fun i => ⟨putEntry w c i.body, i.mode, i.nlink⟩) k i) := by
  obtain ⟨up, es, h3, h4⟩ := h
  unfold at1
  split
  · exact ⟨up, _, by simp only [h3]; rfl, h1 ‹_› es h4⟩
  · exact ⟨up, es, h3, h2 ‹_› es h4⟩

theorem hasDir (up : Nat) (es : List (Str × Nat)) (mo : Mode) (l : Nat) : HasDir (fun _ => True) ⟨.dir up es, mo, l⟩ :=
  ⟨up, es, rfl, trivial⟩

/-- What moving does, unless both names are those of one inode. -/
theorem move_ok {d d' : Vol} {a b : Str} (h : d.move a b = (.ok (), d')) :
    ∃ m n w n' w' i, d.place a = .ok (n, w) ∧ d.place b = .ok (n', w') ∧ d.look n w = .ok m ∧ d.node m = some i ∧
      special w = false ∧ special w' = false ∧
      ((d.look n' w' = .ok m ∧ d' = d) ∨
        (d.look n' w' ≠ .ok m ∧ d'.look n' w' = .ok m ∧ d'.look n w = .error .ENOENT ∧ d'.cwd = d.cwd ∧
          ∃ i', d'.node m = some i' ∧ (attr m i').mode = (attr m i).mode)) := by
  unfold move at h
  split at h
  · cases h
  · cases h
  · rename_i n w n' w' ha hb
    split at h
    · cases h
    · rename_i m hl
      split at h
      · cases h
      · rename_i hsp
        split at h
        · cases h
        · obtain ⟨hs1, hs2⟩ : special w = false ∧ special w' = false := by
            simpa [Bool.or_eq_false_iff] using hsp
          obtain ⟨i, hi⟩ := Option.isSome_iff_exists.mp (look_isSome hl)
          refine ⟨m, n, w, n', w', i, ha, hb, hl, hi, hs1, hs2, ?_⟩
          obtain ⟨hw, hdd⟩ := special_false.mp hs1
          obtain ⟨hw', hdd'⟩ := special_false.mp hs2
          obtain ⟨up, es, mo, l, hn, -⟩ := look_ok.mp hl
          have hput : ∀ {d' : Vol} {i : INode}, d'.node n' = some i → HasDir (fun es => es.lookup w' = some m) i → (d'.node m).isSome = true →
              d'.look n' w' = .ok m := by
            rintro d' ⟨b, mo, l⟩ h ⟨up, es, hb, he⟩ hm
            simp only at hb
            subst hb
            refine look_ok.mpr ⟨up, _, mo, l, h, .inr ⟨hw', hm, ?_⟩⟩
            rw [if_neg hdd', he]
          have hgone : ∀ {d' : Vol} {i : INode}, d'.node n = some i → HasDir (fun es => es.lookup w = none) i →
              d'.look n w = .error .ENOENT := by
            rintro d' ⟨b, mo, l⟩ h ⟨up, es, hb, he⟩
            simp only at hb
            subst hb
            unfold look
            rw [h]
            simp only [if_neg hw, if_neg hdd, he]
          have hmiss : ∀ {es : List (Str × Nat)}, w ≠ w' → es.lookup w = none → ((w', m) :: es).lookup w = none := by
            intro es hww he
            rw [List.lookup_cons, show (w == w') = false from beq_eq_false_iff_ne.mpr hww]
            exact he
          split at h
          · rename_i m' hl'
            split at h
            · rename_i hmm
              subst hmm
              exact .inl ⟨hl', (Prod.mk.inj h).2.symm⟩
            · rename_i hmm
              split at h
              · cases h
              · split at h
                · cases h
                · split at h
                  · cases h
                  · right
                    obtain ⟨-, rfl⟩ := Prod.mk.inj h
                    have hne : ∀ e, e = m → d.look n' w' ≠ .ok e := by rintro e rfl hx; rw [hl'] at hx; cases hx; exact hmm rfl
                    have hww : n = n' → w ≠ w' := by
                      rintro rfl rfl
                      rw [hl] at hl'; cases hl'; exact hmm rfl
                    obtain ⟨up', es', mo', l', hn', -⟩ := look_ok.mp hl'
                    have he := ((((leave_edit d n w).trans (leave_edit _ n' w')).trans (enter_edit _ n' w' m)).trans
                      (relink_edit _ m' (· - 1))).trans (moved_edit _ m n')
                    refine ⟨hne m rfl, hput (he.here hn') ?_ (by rw [he.isSome, hi]; rfl), hgone (he.here hn) ?_, he.cwd, _, he.here hi, ?_⟩
                    · exact (((((hasDir up' es' mo' l').leave (ψ := fun _ => True) n n' w (fun _ _ _ => trivial) (fun _ _ _ => trivial)).leave
                        (ψ := fun _ => True) n' n' w' (fun _ _ _ => trivial) (fun _ _ _ => trivial)).enter (ψ := fun es => es.lookup w' = some m) n' n' m w'
                        (fun _ _ _ => List.lookup_cons_self) (fun h => absurd rfl h)).relink m' n' (· - 1)).moved m n' n'
                    · exact (((((hasDir up es mo l).leave (ψ := fun es => es.lookup w = none) n n w
                        (fun _ _ _ => lookup_filter_self ..) (fun h => absurd rfl h)).leave
                        (ψ := fun es => es.lookup w = none) n' n w' (fun _ _ h => lookup_filter_none h) (fun _ _ h => h)).enter (ψ := fun es => es.lookup w = none) n' n m w'
                        (fun h _ hx => hmiss (hww h) hx) (fun _ _ h => h)).relink m' n (· - 1)).moved m n n'
                    · obtain ⟨b, jm, jl⟩ := i
                      simp only [at1]
                      cases b <;> (repeat' split) <;> rfl
          · rename_i hl'
            right
            obtain ⟨-, rfl⟩ := Prod.mk.inj h
            have hww : n = n' → w ≠ w' := by
              rintro rfl rfl
              rw [hl] at hl'; cases hl'
            obtain ⟨up', es', mo', l', hn', -⟩ := look_missing hl'
            have he := ((leave_edit d n w).trans (enter_edit _ n' w' m)).trans (moved_edit _ m n')
            refine ⟨by rw [hl']; simp, hput (he.here hn') ?_ (by rw [he.isSome, hi]; rfl), hgone (he.here hn) ?_, he.cwd, _, he.here hi, ?_⟩
            · exact (((hasDir up' es' mo' l').leave (ψ := fun _ => True) n n' w (fun _ _ _ => trivial) (fun _ _ _ => trivial)).enter (ψ := fun es => es.lookup w' = some m) n' n' m w'
                (fun _ _ _ => List.lookup_cons_self) (fun h => absurd rfl h)).moved m n' n'
            · exact (((hasDir up es mo l).leave (ψ := fun es => es.lookup w = none) n n w
                (fun _ _ _ => lookup_filter_self ..) (fun h => absurd rfl h)).enter (ψ := fun es => es.lookup w = none) n' n m w'
                (fun h _ hx => hmiss (hww h) hx) (fun _ _ h => h)).moved m n n'
            · obtain ⟨b, jm, jl⟩ := i
              simp only [at1]
              cases b <;> (repeat' split) <;> rfl
          · cases h

end Vol
end Asap.Spec
