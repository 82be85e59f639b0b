import Verif.Props.DirD

/-!
# Copies of iterators: C88

The heap of shared objects (`Verif/Dir/Shared.lean`) and the iterators that own their streams (`Verif/Dir/Iter.lean`) are two models
of the same code. For a variable without copies they agree; the copies of a variable follow it.
-/

namespace Asap

/-- `operator*` of variable `i` (`src/fs_dir_iterator.cpp:870-873, 929-933`): the entry of the top stream of its object. `none`:
there is no such variable, or it is the end iterator, or the object has no stream left. -/
def Heap.at (H : Heap) (i : Nat) : Option Entry := do
  let v ← H.vars[i]?
  let k ← v.ref
  let c ← H.cells[k]?
  let s ← c.stack.head?
  some s.entry

namespace Spec

/-- Variable `i` refers to object `k`, and no other variable does. -/
structure Sole (H : Heap) (i k : Nat) (v : Var) (c : Cell) : Prop where
  var : H.vars[i]? = some v
  ref : v.ref = some k
  cell : H.cells[k]? = some c
  sole : ∀ j w, H.vars[j]? = some w → w.ref = some k → j = i

/-- The heap with the iterator `it` in the place of variable `i` and object `k`. -/
def putIter (H : Heap) (i k : Nat) (v : Var) (c : Cell) (it : RecIter) : Heap :=
  match it.impl with
  | some (st, _) => ⟨H.cells.set k { c with stack := st }, H.vars.set i { v with recursion := it.recursion }⟩
  | none => ⟨H.cells.set k { c with stack := [] }, H.vars.set i { v with ref := none, recursion := it.recursion }⟩

end Spec
open Spec

/-! ## The two models -/

theorem bind_congr_only {α β : Type} {S : Sys → Prop} {Q : α → Prop} {p : Prog α} (h : Only S Q p) {f g : α → Prog β}
    (hfg : ∀ a, Q a → f a = g a) : p.bind f = p.bind g := by
  induction h with
  | ret a h => exact hfg a h
  | stop x => rfl
  | call c k _ _ ih =>
    simp only [Prog.call_bind]
    congr 1
    funext r
    exact ih r

theorem closeAll_top (s s' : Stream) (ss : List Stream) (h : s.handle = s'.handle) : closeAll (s :: ss) = closeAll (s' :: ss) := by
  simp only [closeAll, Prog.bind_eq]
  congr 1
  funext _
  unfold Stream.close
  rw [h]
  cases s'.handle <;> rfl

/-- What a variable without copies makes of what is left. -/
def settle (opts : DirOptions) (rec : Bool) (left : After) (ec : EcArg) : Prog (RecIter × EcArg) :=
  if left.2 then (closeAll left.1).bind fun _ => .ret (⟨none, rec⟩, ec) else .ret (⟨some (left.1, opts), rec⟩, ec)

theorem advance_settle (n : Nat) (ss : List Stream) (opts : DirOptions) (rec : Bool) (c : Code) :
    RecIter.advance n ⟨some (ss, opts), rec⟩ (.ref c) =
      (sharedAdvance n ss (.ref c)).bind fun x => settle opts rec x.1 x.2 := by
  unfold RecIter.advance sharedAdvance
  simp only [Prog.bind_eq, Prog.bind_assoc]
  congr 1
  funext ⟨st, m⟩
  cases m with
  | some e =>
    cases st with
    | nil => rfl
    | cons s st =>
      simp only [Handler.reportMsg, clear_ref, Prog.ret_bind, Prog.bind_assoc, settle, if_true]
      rw [closeAll_top s { s with root := s.root.clear .posix } st rfl]
  | none =>
    cases st with
    | nil => rfl
    | cons s st => rfl

theorem try_settle (n : Nat) (ss : List Stream) (opts : DirOptions) (rec : Bool) (c : Code) :
    RecIter.tryRecursion n ⟨some (ss, opts), rec⟩ (.ref c) =
      (sharedTry n ss opts (.ref c)).bind fun x => (settle opts rec x.2.1 x.2.2).bind fun y => .ret ((x.1, y.1), y.2) := by
  unfold RecIter.tryRecursion sharedTry
  cases ss with
  | nil => rfl
  | cons cur ss =>
    simp only [Prog.bind_eq, Prog.bind_assoc]
    congr 1
    funext ⟨skip, e, m⟩
    dsimp only
    congr 1
    funext ⟨pushed, m⟩
    cases pushed with
    | some s => rfl
    | none =>
      cases m with
      | none => rfl
      | some x =>
        dsimp only
        split
        · rfl
        · simp only [Handler.reportMsg, clear_ref, Prog.ret_bind, Prog.bind_assoc, settle, if_true]
          rw [closeAll_top { cur with entry := e } { cur with entry := { e with path := e.path.clear .posix } } ss rfl]

theorem only_any {α : Type} (p : Prog α) : Only (fun _ => True) (fun _ => True) p := by
  induction p with
  | ret a => exact .ret a trivial
  | stop x => exact .stop x
  | call c k ih => exact .call c k trivial ih

theorem try_set (n : Nat) (ss : List Stream) (opts : DirOptions) (c : Code) :
    Only (fun _ => True) (fun x => x.2.2.IsRef ∧ (x.2.1.2 = true → x.2.2.isSet = true)) (sharedTry n ss opts (.ref c)) := by
  unfold sharedTry
  cases ss with
  | nil => exact .stop _
  | cons cur ss =>
    simp only [Prog.bind_eq]
    refine (only_any _).bind fun x _ => (only_any _).bind fun y _ => ?_
    obtain ⟨pushed, m⟩ := y
    cases pushed with
    | some s => exact .ret _ ⟨⟨_, rfl⟩, by simp⟩
    | none =>
      cases m with
      | none => exact .ret _ ⟨⟨_, rfl⟩, by simp⟩
      | some e =>
        dsimp only
        split
        · exact .ret _ ⟨⟨_, rfl⟩, by simp⟩
        · exact .ret _ ⟨⟨_, rfl⟩, fun _ => rfl⟩

theorem incr_settle (n : Nat) (ss : List Stream) (opts : DirOptions) (rec : Bool) (c : Code) :
    RecIter.incr n ⟨some (ss, opts), rec⟩ (.ref c) =
      (sharedIncr n ss opts rec (.ref c)).bind fun x => settle opts x.2.1 x.1 x.2.2 := by
  unfold RecIter.incr sharedIncr
  cases rec with
  | false =>
    simp only [Bool.false_eq_true, if_false, Prog.bind_eq, Prog.ret_bind, clear_ref, Prog.bind_assoc]
    exact advance_settle n ss opts true none
  | true =>
    simp only [if_true, Prog.bind_eq, clear_ref, Prog.bind_assoc, try_settle, Prog.ret_bind]
    refine bind_congr_only (try_set n ss opts none) ?_
    rintro ⟨b, ⟨st, gone⟩, ec⟩ ⟨hr, hset⟩
    dsimp only at hr hset ⊢
    cases gone with
    | true =>
      simp only [settle, if_true, hset rfl, Bool.or_true, Prog.bind_assoc, Prog.ret_bind]
    | false =>
      simp only [settle, Bool.false_eq_true, if_false, Prog.ret_bind]
      split
      · rfl
      · simp only [Prog.bind_assoc, Prog.ret_bind]
        cases ec with
        | null => obtain ⟨_, h⟩ := hr; cases h
        | ref c => exact advance_settle n st opts true c

theorem pop_settle (n : Nat) (ss : List Stream) (opts : DirOptions) (rec : Bool) (c : Code) :
    RecIter.pop n ⟨some (ss, opts), rec⟩ (.ref c) =
      (sharedPop n ss (.ref c)).bind fun x => settle opts rec x.1 x.2 := by
  unfold RecIter.pop sharedPop
  cases ss with
  | nil => rfl
  | cons s ss =>
    simp only [Prog.bind_eq, Prog.bind_assoc]
    congr 1
    funext _
    split
    · rfl
    · exact advance_settle n ss opts rec none

theorem advance_closed (n : Nat) (s : Stream) :
    Only (fun _ => True) (fun x => x.1 = false → x.2.1.handle = none) (s.advance n) := by
  induction n with
  | zero => exact .stop _
  | succ n ih =>
    have hc : ∀ m : Code, Only (fun _ => True) (fun x : Bool × Stream × Code => x.1 = false → x.2.1.handle = none)
        (s.close.bind fun s => .ret (false, s, m)) := by
      intro m
      unfold Stream.close
      split
      · exact .call _ _ trivial fun _ => .ret _ fun _ => rfl
      · rename_i h
        exact .ret _ fun _ => h
    unfold Stream.advance
    split
    · exact .stop _
    · refine .call _ _ trivial fun r => ?_
      rcases r with e | _ | ent
      · exact hc _
      · exact hc _
      · dsimp only
        split
        · exact ih
        · split
          · exact hc _
          · simp only [Prog.bind_eq]
            exact (only_any _).bind fun _ _ => .ret _ (by simp)

theorem dirIncr_settle (n : Nat) (s : Stream) (c : Code) :
    DirIter.incr n (some s) (.ref c) = (sharedDirIncr n s (.ref c)).bind fun x =>
      if x.1.2 then (closeAll x.1.1).bind fun _ => .ret (none, x.2) else .ret (x.1.1.head?, x.2) := by
  unfold DirIter.incr sharedDirIncr
  simp only [Prog.bind_eq, Prog.bind_assoc]
  refine bind_congr_only (advance_closed n s) ?_
  rintro ⟨ok, s', m⟩ h
  dsimp only at h ⊢
  cases ok with
  | true => rfl
  | false =>
    have hh := h rfl
    have hcl : ∀ r : Path, closeAll [{ s' with root := r }] = .ret () := by
      intro r
      simp [closeAll, Stream.close, hh]
    cases m with
    | none => simp only [Bool.false_eq_true, if_false, if_true, Prog.ret_bind, hcl]
    | some e => simp only [Bool.false_eq_true, if_false, if_true, Prog.ret_bind, hcl, Handler.reportMsg, clear_ref]

theorem store_settle {H : Heap} {i k : Nat} {v : Var} {c : Cell} (hs : Sole H i k v c) (left : After) (rec : Bool) (ec : EcArg) :
    H.store i k c v left rec = (settle c.opts rec left ec).bind fun x => .ret (putIter H i k v c x.1) := by
  have hi := (List.getElem?_eq_some_iff.mp hs.var).1
  have hk := (List.getElem?_eq_some_iff.mp hs.cell).1
  have hvars : ∀ x : Var, (H.vars.map fun w => if w.ref = some k then { w with fresh := false } else w).set i x = H.vars.set i x := by
    intro x
    apply List.ext_getElem?
    intro j
    rw [List.getElem?_set, List.getElem?_set]
    by_cases hij : i = j
    · simp [hij]
    · simp only [hij, if_false, List.getElem?_map]
      cases hw : H.vars[j]? with
      | none => rfl
      | some w =>
        have : w.ref ≠ some k := fun h => hij (hs.sole j w hw h).symm
        simp [this]
  unfold Heap.store settle
  simp only [hvars]
  obtain ⟨st, gone⟩ := left
  cases gone with
  | false => rfl
  | true =>
    have hany : ((H.vars.set i { v with recursion := rec }).set i { v with recursion := rec, ref := none }).any
        (fun w => decide (w.ref = some k)) = false := by
      rw [List.any_eq_false]
      intro w hw
      obtain ⟨j, hj⟩ := List.mem_iff_getElem?.mp hw
      rw [List.set_set, List.getElem?_set] at hj
      by_cases hij : i = j
      · simp [hij] at hj
        obtain ⟨_, rfl⟩ := hj
        simp
      · simp only [hij, if_false] at hj
        simp only [decide_eq_true_eq]
        exact fun h => hij (hs.sole j w hj h).symm
    simp only [if_true, Heap.release]
    rw [List.getElem?_set_self hi]
    dsimp only
    rw [hs.ref]
    dsimp only
    rw [hs.ref] at hany
    rw [if_neg (by rw [hany]; simp), List.getElem?_set_self hk]
    simp only [Prog.bind_eq, Prog.bind_assoc, Prog.ret_bind, putIter, List.set_set]

/-! ## C88 -/

/-- C88, variables without copies. `increment` and `pop` of a recursive iterator variable without copies are those of
`Verif/Dir/Iter.lean`: the same calls, the same answers, the same end. -/
theorem c88_sole (n : Nat) {H : Heap} {i k : Nat} {v : Var} {c : Cell} (hs : Sole H i k v c) (hd : c.deep = true) :
    H.incr n i = (RecIter.incr n ⟨some (c.stack, c.opts), v.recursion⟩ (.ref none)).bind (fun x => .ret (putIter H i k v c x.1)) ∧
    H.pop n i = (RecIter.pop n ⟨some (c.stack, c.opts), v.recursion⟩ (.ref none)).bind (fun x => .ret (putIter H i k v c x.1)) := by
  constructor
  · simp only [Heap.incr, Heap.through, hs.var, hs.ref, hs.cell, hd, if_true, Prog.bind_eq, Prog.bind_assoc, Prog.ret_bind, incr_settle]
    congr 1
    funext ⟨left, r, ec⟩
    exact store_settle hs left r ec
  · simp only [Heap.pop, Heap.through, hs.var, hs.ref, hs.cell, hd, if_true, Prog.bind_eq, Prog.bind_assoc, Prog.ret_bind, pop_settle]
    congr 1
    funext ⟨left, ec⟩
    exact store_settle hs left v.recursion ec

/-- C88, variables without copies: `increment` of a `directory_iterator`. -/
theorem c88_sole_dir (n : Nat) {H : Heap} {i k : Nat} {v : Var} {c : Cell} (hs : Sole H i k v c) (hd : c.deep = false) {s : Stream}
    (hc : c.stack = [s]) :
    H.incr n i = (DirIter.incr n (some s) (.ref none)).bind
      (fun x => .ret (putIter H i k v c ⟨x.1.map fun s => ([s], c.opts), v.recursion⟩)) := by
  have hone : Only (fun _ => True) (fun x => ∃ s', x.1.1 = [s']) (sharedDirIncr n s (.ref none)) := by
    unfold sharedDirIncr
    simp only [Prog.bind_eq]
    refine (only_any _).bind fun x _ => ?_
    obtain ⟨ok, s', m⟩ := x
    cases ok with
    | true => exact .ret _ ⟨_, rfl⟩
    | false =>
      cases m with
      | none => exact .ret _ ⟨_, rfl⟩
      | some e => exact .ret _ ⟨_, rfl⟩
  simp only [Heap.incr, Heap.through, hs.var, hs.ref, hs.cell, hd, Bool.false_eq_true, if_false, Prog.bind_eq, Prog.bind_assoc,
    Prog.ret_bind, dirIncr_settle, hc, List.append_nil]
  refine bind_congr_only hone ?_
  rintro ⟨⟨st, gone⟩, ec⟩ ⟨s', rfl⟩
  rw [store_settle hs _ v.recursion ec]
  cases gone with
  | true => simp [settle, Prog.bind_assoc, putIter]
  | false => simp [settle, putIter]

/-- What an operation through variable `i` on object `k` may change: that object, and of the variables what
`i` refers to and its flag. -/
structure Spec.Through (H H' : Heap) (i k : Nat) : Prop where
  cells : ∀ l, l ≠ k → H'.cells[l]? = H.cells[l]?
  vars : ∀ j, j ≠ i → (H'.vars[j]?).map (fun w => (w.ref, w.recursion)) = (H.vars[j]?).map (fun w => (w.ref, w.recursion))
  var : ∃ v, H'.vars[i]? = some v ∧ (v.ref = some k ∨ v.ref = none)

theorem store_through {H : Heap} {i k : Nat} {c : Cell} {v : Var} (hv : H.vars[i]? = some v) (hk : v.ref = some k)
    (left : After) (rec : Bool) : Only (fun _ => True) (fun H' => Through H H' i k) (H.store i k c v left rec) := by
  have hi := (List.getElem?_eq_some_iff.mp hv).1
  have hcells : ∀ (x : Cell) l, l ≠ k → (H.cells.set k x)[l]? = H.cells[l]? := by
    intro x l hl
    rw [List.getElem?_set, if_neg (Ne.symm hl)]
  have hvars : ∀ (x : Var) j, j ≠ i → (((H.vars.map fun w => if w.ref = some k then { w with fresh := false } else w).set i x)[j]?).map
      (fun w => (w.ref, w.recursion)) = (H.vars[j]?).map (fun w => (w.ref, w.recursion)) := by
    intro x j hj
    rw [List.getElem?_set, if_neg (Ne.symm hj), List.getElem?_map, Option.map_map]
    congr 1
    funext w
    dsimp only [Function.comp]
    split <;> rfl
  have hgot : ∀ x : Var, ((H.vars.map fun w => if w.ref = some k then { w with fresh := false } else w).set i x)[i]? = some x := by
    intro x
    rw [List.getElem?_set_self (by simpa using hi)]
  unfold Heap.store
  dsimp only
  split
  · unfold Heap.release
    dsimp only
    rw [hgot]
    dsimp only
    rw [hk]
    dsimp only
    rw [List.set_set]
    split
    · exact .ret _ ⟨hcells _, hvars _, _, hgot _, .inr rfl⟩
    · split
      · simp only [Prog.bind_eq]
        refine (only_any _).bind fun _ _ => .ret _ ⟨?_, hvars _, _, hgot _, .inr rfl⟩
        intro l hl
        dsimp only
        rw [List.set_set]
        exact hcells _ l hl
      · exact .ret _ ⟨hcells _, hvars _, _, hgot _, .inr rfl⟩
  · exact .ret _ ⟨hcells _, hvars _, _, hgot _, .inl hk⟩

theorem through_only {H : Heap} {i k : Nat} {v : Var} (hv : H.vars[i]? = some v) (hk : v.ref = some k)
    (f : Var → Cell → Prog (After × Bool)) : Only (fun _ => True) (fun H' => Through H H' i k) (H.through i f) := by
  unfold Heap.through
  rw [hv]
  dsimp only
  rw [hk]
  dsimp only
  split
  · simp only [Prog.bind_eq]
    exact (only_any _).bind fun x _ => store_through hv hk x.1 x.2
  · exact .stop _

/-- C88, copies. After `increment` or `pop` of a variable `i` with object `k`: every other variable refers to what it
referred to and has the flag it had; other objects are as before; and unless `i` has become the end iterator, all
variables of the object are at the same entry as `i`. -/
theorem c88_copies (n : Nat) {H H' : Heap} {i k : Nat} {v : Var} (hv : H.vars[i]? = some v) (hk : v.ref = some k) {t : List Event}
    (h : Exec (H.incr n i) t (.ok H') ∨ Exec (H.pop n i) t (.ok H')) :
    Through H H' i k ∧
    ((H'.vars[i]?).bind Var.ref ≠ none → ∀ j, (H.vars[j]?).bind Var.ref = some k → H'.at j = H'.at i) := by
  have hth : Through H H' i k := by
    rcases h with h | h
    · exact ((through_only hv hk _).exec h).2 _ rfl
    · exact ((through_only hv hk _).exec h).2 _ rfl
  refine ⟨hth, ?_⟩
  intro hne j hj
  by_cases hij : j = i
  · rw [hij]
  · obtain ⟨v', hv', hr⟩ := hth.var
    have hr' : v'.ref = some k := by
      rcases hr with h | h
      · exact h
      · rw [hv'] at hne; simp [h] at hne
    have h1 := hth.vars j hij
    cases hw : H.vars[j]? with
    | none => rw [hw] at hj; cases hj
    | some w =>
      rw [hw] at h1 hj
      cases hw' : H'.vars[j]? with
      | none => rw [hw'] at h1; cases h1
      | some w' =>
        rw [hw'] at h1
        simp only [Option.map_some, Option.some.injEq, Prod.mk.injEq] at h1
        have h2 : w.ref = some k := hj
        simp only [Heap.at, hw', hv', h1.1, h2, hr', Option.bind_eq_bind, Option.bind_some]

/-- C88, copying. A copy is at the same entry and has the same flag; `disable_recursion_pending` is for one variable only. -/
theorem c88_copy (H : Heap) (i : Nat) (hi : i < H.vars.length) :
    (H.copy i).at H.vars.length = H.at i ∧
    ((H.copy i).vars[H.vars.length]?).map Var.recursion = (H.vars[i]?).map Var.recursion ∧
    (∀ j, j < H.vars.length → (H.copy i).vars[j]? = H.vars[j]?) ∧ (H.copy i).cells = H.cells ∧
    (∀ j, j ≠ i → (H.disable i).vars[j]? = H.vars[j]?) ∧ (H.disable i).cells = H.cells ∧
    ((H.disable i).vars[i]?).map Var.recursion = some false ∧ (H.disable i).at i = H.at i := by
  have hv : H.vars[i]? = some H.vars[i] := List.getElem?_eq_getElem hi
  refine ⟨?_, ?_, ?_, ?_, ?_, ?_, ?_, ?_⟩
  · simp [Heap.at, Heap.copy, hv]
  · simp [Heap.copy, hv]
  · intro j hj; simp [Heap.copy, hv, List.getElem?_append, hj]
  · simp [Heap.copy, hv]
  · intro j hj
    simp only [Heap.disable, hv, List.getElem?_set, if_neg (Ne.symm hj)]
  · simp [Heap.disable, hv]
  · simp [Heap.disable, hi]
  · simp [Heap.at, Heap.disable, hi]

/-- A recursive iterator with a copy, and one without. -/
def Spec.iterCopied : Heap :=
  ⟨[⟨[⟨some 3, mkPath .posix "d".toList, ⟨mkPath .posix "d/a".toList, { Entry.default.cache with type := .regular, cacheType := .basic }⟩⟩], 0, true⟩], [⟨some 0, true, true⟩, ⟨some 0, false, true⟩]⟩

example : (Spec.iterCopied.at 1).map (fun e => e.path.pathname) = some "d/a".toList ∧
    ¬ ∃ v c, Sole Spec.iterCopied 0 0 v c := by
  refine ⟨by decide +kernel, ?_⟩
  rintro ⟨v, c, h⟩
  have := h.sole 1 ⟨some 0, false, true⟩ rfl rfl
  cases this

example : ∃ v c, Sole { Spec.iterCopied with vars := Spec.iterCopied.vars.take 1 } 0 0 v c ∧ c.deep = true :=
  ⟨_, _, ⟨rfl, rfl, rfl, fun j w h _ => by
    cases j with
    | zero => rfl
    | succ j => simp [Spec.iterCopied] at h⟩, rfl⟩

/-- The variable 0 moves on to `d/b`, and so does its copy; the flag of the copy stays. -/
example : ∃ H' : Heap, Exec (Spec.iterCopied.incr 9 0) [⟨.readdir 3, (.ok (some ⟨"b".toList, .reg⟩) : Except Errno (Option Dirent))⟩] (.ok H') ∧
    (H'.at 1).map (fun e => e.path.pathname) = some "d/b".toList ∧ H'.vars.map Var.recursion = [true, false] :=
  ⟨_, feed_exec (by rfl), by decide +kernel, by decide +kernel⟩

end Asap
