import Verif.Os.KernelDir
import Verif.Props.KernelB
import Verif.Props.RemoveA
import Verif.Props.Kinds

/-!
# C129: `remove_all` on a file system with links
-/

namespace Asap
open Spec

/-! ## What is left was there -/

theorem answer_reads {c : Sys} (h : c.mutates = false) (d : Vol) : (answer c d).2 = d := by
  cases c <;> first | rfl | (simp [Sys.mutates] at h; done) | skip

theorem Spec.Unchanged.trans {a b c : Vol} (h : Unchanged a b) (h' : Unchanged b c) : Unchanged a c :=
  fun q e st => ⟨fun hs => (h' q e st).1 ((h q e st).1 hs), fun hs => (h' q e st).2 ((h q e st).2 hs)⟩

theorem Spec.Unchanged.refl (d : Vol) : Unchanged d d := fun _ _ _ => ⟨id, id⟩

/-- Taking out an entry adds nothing and changes nothing. -/
theorem erase_unchanged (d : Vol) (p : Str) : Unchanged (d.erase p).2 d := by
  generalize h : d.erase p = x
  obtain ⟨r, d'⟩ := x
  cases r with
  | error e =>
    have : d' = d := by
      unfold Vol.erase at h
      split at h
      · cases h; rfl
      · split at h
        · cases h; rfl
        · split at h
          · cases h; rfl
          · split at h
            · cases h; rfl
            · cases h
    subst this
    exact .refl _
  | ok u =>
    obtain ⟨m, n, w, h1, h2, h3, h4, h5, h6, -, -, -, h10⟩ := Vol.erase_ok h
    refine unchanged_of h5.back ?_
    intro k j hk
    cases hd : d.node k with
    | none => have := h5.isSome k; rw [hk, hd] at this; cases this
    | some i =>
      obtain ⟨j', h11, h12⟩ := h10 k i hd
      rw [hk] at h11; cases h11
      exact ⟨i, rfl, h12.symm⟩

theorem answerDir_disk (c : Sys) (s : Os Vol) (hc : c.mutates = false ∨ ∃ p, c = .remove p) : Unchanged (answerDir c s).2.disk s.disk := by
  have hgen : ∀ c : Sys, (c.mutates = false ∨ ∃ p, c = .remove p) → Unchanged (answer c s.disk).2 s.disk := by
    rintro c (h | ⟨p, rfl⟩)
    · rw [answer_reads h]; exact .refl _
    · exact erase_unchanged _ _
  cases c
  case opendir p =>
    show Unchanged (match s.disk.listing p with
      | .error e => ((.error e : Except Errno Nat), s)
      | .ok l => (.ok (fresh s.table), ⟨s.disk, (fresh s.table, l) :: s.table⟩)).2.disk s.disk
    cases s.disk.listing p <;> exact .refl _
  case readdir h =>
    show Unchanged (readNext h s).2.disk s.disk
    unfold readNext
    split <;> exact .refl _
  case closedir h => exact .refl _
  all_goals exact hgen _ hc

theorem calls_unchanged {α : Type} {p : Prog α} (h : Calls (fun c => c.mutates = false ∨ ∃ p, c = .remove p) p) (s : Os Vol) :
    Unchanged (p.eval kernelDir s).2.disk s.disk := by
  unfold Calls at h
  induction h generalizing s with
  | ret a _ => exact .refl _
  | stop x => exact .refl _
  | call c k hc _ ih => exact (ih _ _).trans (answerDir_disk c s hc)

/-- C129. Whatever is on the file system, also with links, loops and directories with several names, and however
`remove_all` ends: everything that is there afterwards was there before and is the same, so a path whose status was
reported has the same status or is not found. -/
theorem c129_effect (n : Nat) (p : Path) (c : Code) (d : Vol) :
    Unchanged (onDisk (removeAll n p (.ref c)) d).2.disk d ∧
    ∀ d', (onDisk (removeAll n p (.ref c)) d).2.disk = d' → ∀ q st, onVol (status q (.ref c)) d = (.ok (st, .ref none), d) →
      onVol (status q (.ref c)) d' = (.ok (st, .ref none), d') ∨
      ∃ e, onVol (status q (.ref c)) d' = (.ok ({ type := typeOfErr e }, .ref (some e)), d') := by
  have h : Unchanged (onDisk (removeAll n p (.ref c)) d).2.disk d :=
    calls_unchanged (calls_removeAll (fun c hc => .inl hc) (fun s => .inr ⟨s, rfl⟩)) ⟨d, []⟩
  refine ⟨h, ?_⟩
  rintro d' rfl q st hq
  generalize (onDisk (removeAll n p (.ref c)) d).2.disk = d' at h ⊢
  cases ha : d'.attrs (d'.find q.pathname) with
  | error e => exact .inr ⟨e, onVol_status_error ha⟩
  | ok s =>
    left
    have h1 := (status_seen (q := q) (c := c)).mpr ⟨s, ha, rfl⟩
    have h2 := (h q c _).1 h1
    rw [hq] at h2
    cases h2
    exact h1

/-! ## Paths that keep out of some directories -/

namespace Spec.Vol

/-- The same apart from the inodes in `S` and the numbers of links. -/
structure Alike (S : Nat → Prop) (d d' : Vol) : Prop where
  node : ∀ k, ¬ S k → (d'.node k).map (fun i => (i.body, i.mode)) = (d.node k).map (fun i => (i.body, i.mode))
  cwd : d'.cwd = d.cwd

/-- Nothing outside `S` leads into `S`. -/
structure Shut (S : Nat → Prop) (d : Vol) : Prop where
  root : ¬ S 0
  cwd : ¬ S d.cwd
  dirs : ∀ k up es mo l, ¬ S k → d.node k = some ⟨.dir up es, mo, l⟩ → ¬ S up ∧ ∀ v c, es.lookup v = some c → ¬ S c

variable {S : Nat → Prop} {d d' : Vol}

theorem Alike.some (h : Alike S d d') {k : Nat} (hk : ¬ S k) {b : Body} {mo : Mode} {l : Nat} (hd : d.node k = some ⟨b, mo, l⟩) :
    ∃ l', d'.node k = some ⟨b, mo, l'⟩ := by
  have := h.node k hk
  rw [hd] at this
  cases h' : d'.node k with
  | none => rw [h'] at this; cases this
  | some i =>
    obtain ⟨b', mo', l'⟩ := i
    rw [h'] at this
    cases this
    exact ⟨l', rfl⟩

theorem Alike.none (h : Alike S d d') {k : Nat} (hk : ¬ S k) (hd : d.node k = none) : d'.node k = none := by
  have := h.node k hk
  rw [hd] at this
  cases h' : d'.node k with
  | none => rfl
  | some i => rw [h'] at this; cases this

theorem Alike.isSome (h : Alike S d d') {k : Nat} (hk : ¬ S k) : (d'.node k).isSome = (d.node k).isSome := by
  cases hd : d.node k with
  | none => rw [h.none hk hd]
  | some i => obtain ⟨l', h'⟩ := h.some hk hd; rw [h']; rfl

theorem Alike.look (h : Alike S d d') (hs : Shut S d) {n : Nat} (hn : ¬ S n) (w : Str) :
    d'.look n w = d.look n w ∧ ∀ m, d.look n w = .ok m → ¬ S m := by
  unfold Vol.look
  cases hd : d.node n with
  | none => rw [h.none hn hd]; exact ⟨rfl, fun m hm => by cases hm⟩
  | some i =>
    obtain ⟨b, mo, l⟩ := i
    obtain ⟨l', h'⟩ := h.some hn hd
    rw [h']
    cases b with
    | file s => exact ⟨rfl, fun m hm => by cases hm⟩
    | link t => exact ⟨rfl, fun m hm => by cases hm⟩
    | dir up es =>
      obtain ⟨h1, h2⟩ := hs.dirs _ _ _ _ _ hn hd
      dsimp only
      by_cases hw : w = [] ∨ w = dot
      · rw [if_pos hw, if_pos hw]
        exact ⟨rfl, fun m hm => by cases hm; exact hn⟩
      · rw [if_neg hw, if_neg hw]
        cases hl : (if w = dotdot then Option.some up else es.lookup w) with
        | none => exact ⟨rfl, fun m hm => by cases hm⟩
        | some k =>
          have hk : ¬ S k := by
            split at hl
            · cases hl; exact h1
            · exact h2 _ _ hl
          dsimp only
          rw [h.isSome hk]
          refine ⟨rfl, fun m hm => ?_⟩
          split at hm
          · cases hm; exact hk
          · cases hm

theorem Alike.text (h : Alike S d d') {m : Nat} (hm : ¬ S m) : d'.text m = d.text m := by
  unfold Vol.text
  cases hd : d.node m with
  | none => rw [h.none hm hd]
  | some i =>
    obtain ⟨b, mo, l⟩ := i
    obtain ⟨l', h'⟩ := h.some hm hd
    rw [h']
    cases b <;> rfl

theorem start_out (hs : Shut S d) {n : Nat} (hn : ¬ S n) (t : Str) : ¬ S (d.start n t) := by
  unfold start
  split
  · exact hs.root
  · exact hn

theorem Alike.follow (h : Alike S d d') (hs : Shut S d) (k n : Nat) (ws : List Str) (hn : ¬ S n) :
    d'.follow k n ws = d.follow k n ws ∧ ∀ m, d.follow k n ws = .ok m → ¬ S m := by
  induction k, n, ws using follow_ind d with
  | case1 k n => rw [follow_nil, follow_nil]; exact ⟨rfl, fun m hm => by cases hm; exact hn⟩
  | case2 k n w ws e he =>
    rw [follow_cons, follow_cons, (h.look hs hn w).1, he]
    exact ⟨rfl, fun m hm => by cases hm⟩
  | case3 k n w ws m hl ht ih =>
    have hm := (h.look hs hn w).2 m hl
    rw [follow_cons, follow_cons, (h.look hs hn w).1, hl]
    simp only [h.text hm, ht]
    exact ih hm
  | case4 n w ws m t hl ht =>
    have hm := (h.look hs hn w).2 m hl
    rw [follow_cons, follow_cons, (h.look hs hn w).1, hl]
    simp only [h.text hm, ht]
    exact ⟨trivial, fun m hm => by cases hm⟩
  | case5 n w ws m t k hl ht ih =>
    have hm := (h.look hs hn w).2 m hl
    rw [follow_cons, follow_cons, (h.look hs hn w).1, hl]
    simp only [h.text hm, ht]
    exact ih (start_out hs hn t)

theorem Alike.start (h : Alike S d d') (p : Str) : d'.start d'.cwd p = d.start d.cwd p := by
  unfold Vol.start; rw [h.cwd]

theorem Alike.find (h : Alike S d d') (hs : Shut S d) (p : Str) :
    d'.find p = d.find p ∧ ∀ m, d.find p = .ok m → ¬ S m := by
  unfold Vol.find
  split
  · exact ⟨rfl, fun m hm => by cases hm⟩
  · rw [h.start]; exact h.follow hs _ _ _ (start_out hs hs.cwd p)

theorem Alike.place (h : Alike S d d') (hs : Shut S d) (p : Str) :
    d'.place p = d.place p ∧ ∀ m w, d.place p = .ok (m, w) → ¬ S m := by
  unfold Vol.place
  split
  · exact ⟨rfl, fun m w hm => by cases hm⟩
  · rw [h.start]
    unfold Vol.placeOf
    have ho := start_out hs hs.cwd p
    cases (relElements p).getLast? with
    | none => exact ⟨rfl, fun m w hm => by cases hm; exact ho⟩
    | some v =>
      obtain ⟨h1, h2⟩ := h.follow hs 40 _ (relElements p).dropLast ho
      dsimp only
      rw [h1]
      refine ⟨rfl, fun m w hm => ?_⟩
      cases hf : d.follow 40 (d.start d.cwd p) (relElements p).dropLast with
      | error e => rw [hf] at hm; cases hm
      | ok r => rw [hf] at hm; cases hm; exact h2 _ hf

theorem Alike.findLink (h : Alike S d d') (hs : Shut S d) (p : Str) :
    d'.findLink p = d.findLink p ∧ ∀ m, d.findLink p = .ok m → ¬ S m := by
  obtain ⟨h1, h2⟩ := h.place hs p
  unfold Vol.findLink
  rw [h1]
  cases hp : d.place p with
  | error e => exact ⟨rfl, fun m hm => by cases hm⟩
  | ok x => exact h.look hs (h2 x.1 x.2 hp) x.2

end Spec.Vol

/-- No status tells the difference. -/
theorem Spec.Vol.Alike.status {S : Nat → Prop} {d d' : Vol} (h : Vol.Alike S d d') (hs : Vol.Shut S d) (q : Path) (c : Code) :
    (onVol (status q (.ref c)) d').1 = (onVol (status q (.ref c)) d).1 ∧
    (onVol (symlinkStatus q (.ref c)) d').1 = (onVol (symlinkStatus q (.ref c)) d).1 := by
  have key : ∀ x : Except Errno Nat, (∀ m, x = .ok m → ¬ S m) →
      (∃ e, d.attrs x = .error e ∧ d'.attrs x = .error e) ∨ ∃ s s', d.attrs x = .ok s ∧ d'.attrs x = .ok s' ∧ statusOf s' = statusOf s := by
    intro x hx
    cases x with
    | error e => exact .inl ⟨e, rfl, rfl⟩
    | ok m =>
      have hm := hx m rfl
      cases hd : d.node m with
      | none => exact .inl ⟨.ENOENT, by unfold Vol.attrs; simp only [hd], by unfold Vol.attrs; simp only [h.none hm hd]⟩
      | some i =>
        obtain ⟨b, mo, l⟩ := i
        obtain ⟨l', h'⟩ := h.some hm hd
        exact .inr ⟨_, _, attrs_node rfl hd, attrs_node rfl h', by rw [statusOf_attr, statusOf_attr]⟩
  obtain ⟨h1, h2⟩ := h.find hs q.pathname
  obtain ⟨h3, h4⟩ := h.findLink hs q.pathname
  constructor
  · rcases key _ h2 with ⟨e, ha, hb⟩ | ⟨s, s', ha, hb, hc⟩
    · rw [onVol_status_error ha, onVol_status_error (by rw [h1]; exact hb)]
    · rw [onVol_status_ok ha, onVol_status_ok (by rw [h1]; exact hb), hc]
  · rcases key _ h4 with ⟨e, ha, hb⟩ | ⟨s, s', ha, hb, hc⟩
    · rw [onVol_lstatus_error ha, onVol_lstatus_error (by rw [h3]; exact hb)]
    · rw [onVol_lstatus_ok ha, onVol_lstatus_ok (by rw [h3]; exact hb), hc]

end Asap
