import Verif.Props.CopyB
import Verif.Props.OpsB
import Verif.Props.EntryA
import Verif.Ops.Variants

/-!
# C106, C107, C108: the builds with `fcopyfile`, `utime` and `chmod`
-/

namespace Asap
open Spec

/-! ## C106 -/

/-- What the answers mean, as in `Disk.step`. `fcopyfile` copies from the offset of the source to the offset of the destination and moves
both; if it fails, some bytes have been read and some of these have been written: the same number, if `even`. -/
def Spec.appleStep (S D : Str) (even : Bool) (k : Disk) (ev : Event) (k' : Disk) : Prop :=
  match ev with
  | ⟨.port (.fcopyfile inp out _), r⟩ =>
    match k.rfd, k.wfd with
    | some (a, ro), some (w, wo) =>
      if a = inp ∧ w = out then
        match (r : Except Errno Unit) with
        | .ok () => k' = { k with
            dst := k.dst.map (overwrite · wo (k.src.drop ro)), rfd := some (a, k.src.length), wfd := some (w, wo + (k.src.length - ro)) }
        | .error _ => ∃ i j, j ≤ i ∧ i ≤ k.src.length - ro ∧ (even = true → i = j) ∧ k' = { k with
            dst := k.dst.map (overwrite · wo ((k.src.drop ro).take j)), rfd := some (a, ro + i), wfd := some (w, wo + j) }
      else k' = k
    | _, _ => k' = k
  | e => k.step S D e k'

variable {S D : Str} {even : Bool}

/-- The assumption used below. -/
abbrev astep (S D : Str) (even : Bool) (k : Disk) (e : Event) (k' : Disk) : Prop := appleStep S D even k e k' ∧ Full e

/-- `do_copy_file_default` copies the rest. -/
theorem wpA_copyDefault (inp out : Nat) (k0 : Disk) (n : Nat) (k : Disk) (i : Nat) (h : At inp out k0 k i) :
    wp (astep S D even) (fun o k' => o = .ok none → k'.dst = some k0.src) (copyDefault inp out n) k := by
  induction n generalizing k i with
  | zero => intro h; cases h
  | succ n ih =>
    obtain ⟨h1, h2, h3, h4, h5, h6⟩ := h
    simp only [copyDefault]
    intro r k' hs
    rcases r with e | data
    · intro h; cases h
    simp only [astep, appleStep, Disk.step, h3, if_true] at hs
    obtain ⟨⟨ha, hb, hc, rfl⟩, _⟩ := hs
    simp only
    by_cases hd : data = []
    · subst hd
      simp only [List.isEmpty_nil, if_true]
      intro _
      have := hc rfl
      have : k0.src.length ≤ i := by
        rcases this with h | h
        · rw [h1] at h; exact h
        · simp [bufsiz] at h
      simp only [h5]
      rw [List.take_of_length_le this]
    · rw [if_neg (by simpa using hd)]
      intro r k' hs
      rcases r with e | m
      · intro h; cases h
      simp only [astep, appleStep, Disk.step, h4, if_true, Full] at hs
      obtain ⟨⟨_, rfl⟩, rfl⟩ := hs
      have hlen : data.length ≤ k0.src.length - i := by
        have := congrArg List.length ha
        simp [h1] at this
        omega
      refine ih _ (i + data.length) ⟨h1, h2, rfl, rfl, ?_, by omega⟩
      simp only [h5, Option.map_some, List.take_length]
      have hi : (k0.src.take i).length = i := by simp; omega
      have h7 := overwrite_end (k0.src.take i) data
      rw [hi] at h7
      rw [h1] at ha
      rw [h7, ← take_add_drop, ← ha]

/-- `do_copy_file` copies the file. -/
theorem wpA_doCopyFile (n inp out : Nat) (k0 k : Disk) (h : At inp out k0 k 0) :
    wp (astep S D true) (fun o k' => o = .ok none → k'.dst = some k0.src) (doCopyFileApple n inp out) k := by
  unfold doCopyFileApple copyfileData
  simp only [Prog.bind_eq, Prog.call_bind, Prog.ret_bind]
  intro r1 k1 hs1
  simp only [astep, appleStep, Disk.step, Sys.mutates, PortCall.mutates, forall_const] at hs1
  obtain ⟨rfl, _⟩ := hs1
  obtain ⟨h1, h2, h3, h4, h5, h6⟩ := h
  intro r2 k2 hs2
  intro r3 k3 hs3
  simp only [astep, appleStep, Disk.step, Sys.mutates, PortCall.mutates, forall_const] at hs3
  obtain ⟨rfl, _⟩ := hs3
  simp only [astep, appleStep, h3, h4, and_self, if_true] at hs2
  rcases r2 with e | u
  · obtain ⟨⟨i, j, hj, hi, he, rfl⟩, _⟩ := hs2
    obtain rfl := he trivial
    simp only [Except.isOk, Except.toBool, Bool.false_eq_true, if_false]
    refine wpA_copyDefault inp out k0 n _ i ⟨h1, h2, by simp, by simp, ?_, by rw [h1] at hi; omega⟩
    simp [h5, h1, overwrite]
  · obtain ⟨rfl, _⟩ := hs2
    simp only [Except.isOk, Except.toBool, if_true]
    intro _
    simp [h5, h1, overwrite]

/-- Closing a descriptor does not change files. -/
theorem wpA_closing {k0 : Disk} {p : Prog (Bool × EcArg)} {fd : Nat} {k : Disk}
    (h : wp (astep S D even) (Copied k0) p k) : wp (astep S D even) (Copied k0) (p.finally' (closeFd fd)) k := by
  apply wp_finally
  refine wp_mono ?_ h
  intro o k' ho
  refine ⟨fun _ => ?_, fun _ => ho⟩
  intro r k'' hs
  simp only [astep, appleStep, Disk.step] at hs
  obtain ⟨rfl, _⟩ := hs
  exact ho

/-- From the opening of the destination on. -/
theorem wpA_copyInto (data : Nat → Nat → Int → Prog Code) (hd : Handler) (inp : Nat) (f : Stat) (src to : Path) (d : Option Stat) (ec : EcArg)
    (k0 k : Disk) (hdata : ∀ out k1, At inp out k0 k1 0 →
      wp (astep src.pathname to.pathname even) (fun o k' => o = .ok none → k'.dst = some k0.src) (data inp out k0.size) k1) (hf : f.size.toInt = k0.size)
    (h1 : k.src = k0.src) (h2 : k.size = k0.size) (h3 : k.rfd = some (inp, 0))
    (h5 : d = none → k.dst = none) (h6 : ∀ x, d = some x → k.dst ≠ none) :
    wp (astep src.pathname to.pathname even) (Copied k0) (copyIntoWith data hd inp f to d ec) k := by
  unfold copyIntoWith
  intro r k' hs
  rcases r with e | out
  · exact wp_report (by intro _ _ h; cases h) (by intro _ _ h; cases h)
  simp only [astep, appleStep, Disk.step, h3] at hs
  obtain ⟨⟨hfr, _, hs⟩, _⟩ := hs
  rw [if_neg (by simp), if_pos (by simp)] at hs
  obtain ⟨_, rfl⟩ := hs
  apply wpA_closing
  simp only [Prog.bind_eq, refreshStatus_eq, Prog.call_bind]
  intro r k' hs
  rcases r with e | st
  · simp only [Prog.ret_bind, ne_eq, reduceCtorEq, not_false_eq_true, if_true]
    exact wp_report (by intro _ _ h; cases h) (by intro _ _ h; cases h)
  simp only [astep, appleStep, Disk.step] at hs
  obtain ⟨⟨_, rfl⟩, _⟩ := hs
  simp only [Prog.ret_bind, ne_eq, not_true_eq_false, if_false]
  -- the end, from a destination that is empty
  have fin : ∀ k1 : Disk, At inp out k0 k1 0 → wp (astep src.pathname to.pathname even) (Copied k0)
      ((data inp out f.size.toInt).bind fun m =>
        if ¬ m = none then hd.report ec m false else .ret (true, ec)) k1 := by
    intro k1 hk1
    apply wp_bind
    rw [hf]
    refine wp_mono ?_ (hdata out k1 hk1)
    intro o k2 ho
    rcases o with x | c | c
    · intro _ h; cases h
    · simp only [not_true_eq_false, if_false]
      intro _ _
      exact ho rfl
    · simp only [reduceCtorEq, not_false_eq_true, if_true]
      exact wp_report (by intro _ _ h; cases h) (by intro _ _ h; cases h)
  cases d with
  | none =>
    apply fin
    exact ⟨h1, h2, rfl, rfl, by simp [h5 rfl], Nat.zero_le _⟩
  | some x =>
    simp only
    split
    · exact wp_report (by intro _ _ h; cases h) (by intro _ _ h; cases h)
    intro r k' hs
    rcases r with e | u
    · exact wp_report (by intro _ _ h; cases h) (by intro _ _ h; cases h)
    simp only [astep, appleStep, Disk.step] at hs
    obtain ⟨rfl, _⟩ := hs
    intro r k' hs
    rcases r with e | u
    · exact wp_report (by intro _ _ h; cases h) (by intro _ _ h; cases h)
    simp only [astep, appleStep, Disk.step, if_true] at hs
    obtain ⟨rfl, _⟩ := hs
    apply fin
    refine ⟨h1, h2, rfl, rfl, ?_, Nat.zero_le _⟩
    simp

/-- **C106**, the data: if no write is short and `fcopyfile`, when it fails, has written what it has read, then true means that the destination
has exactly the bytes of the source, whether `fcopyfile` did all, some or none of the work. Unlike C26 it does not matter what size the source
is said to have. Missing: what the code ignores (`c106_violated`). -/
theorem c106_copies_partial (n : Nat) (src to : Path) (opts : CopyOptions) (ec ec' : EcArg) (t : List Event)
    (k k' : Disk) (hidle : k.idle) (h : Exec (copyFileApple n src to opts ec) t (.ok (true, ec')))
    (hk : Steps (appleStep src.pathname to.pathname true) k t k') (hfull : ∀ ev ∈ t, Full ev) :
    k'.dst = some k.src := by
  have hk' := steps_and hk hfull
  refine wp_sound (step := astep src.pathname to.pathname true) (Q := Copied k) ?_ h hk' ec' rfl
  have data : ∀ inp out k1, At inp out k k1 0 → wp (astep src.pathname to.pathname true) (fun o k' => o = .ok none → k'.dst = some k.src)
      ((fun inp out (_ : Int) => doCopyFileApple n inp out) inp out k.size) k1 := fun inp out k1 h => wpA_doCopyFile n inp out k k1 h
  unfold copyFileApple copyFileWith
  intro r k1 hs
  rcases r with e | inp
  · exact wp_report (by intro _ _ h; cases h) (by intro _ _ h; cases h)
  simp only [astep, appleStep, Disk.step, hidle.1, hidle.2, and_self, if_true] at hs
  obtain ⟨⟨_, _, rfl⟩, _⟩ := hs
  apply wpA_closing
  simp only [copyOpenedWith, Prog.bind_eq, refreshStatus_eq, Prog.call_bind]
  intro r k1 hs
  rcases r with e | f
  · simp only [Prog.ret_bind, ne_eq, reduceCtorEq, not_false_eq_true, if_true]
    exact wp_report (by intro _ _ h; cases h) (by intro _ _ h; cases h)
  simp only [astep, appleStep, Disk.step] at hs
  obtain ⟨⟨hf, rfl⟩, _⟩ := hs
  have hf := hf trivial
  simp only [Prog.ret_bind, ne_eq, not_true_eq_false, if_false]
  split
  · exact wp_report (by intro _ _ h; cases h) (by intro _ _ h; cases h)
  simp only [getFileStatus_ref, Prog.call_bind]
  intro r k1 hs
  rcases r with e | d
  · simp only [astep, appleStep, Disk.step] at hs
    obtain ⟨⟨hm, rfl⟩, _⟩ := hs
    simp only [Prog.ret_bind, FStatus.known, FStatus.exists', typeOfErr]
    by_cases he : e = .ENOENT ∨ e = .ENOTDIR
    · simp only [he, if_true, bne, Bool.not_and, show (FType.notFound == FType.none) = false from rfl,
        show (FType.notFound == FType.notFound) = true from rfl, Bool.not_true, Bool.not_false, Bool.or_true,
        Bool.false_eq_true, if_false]
      exact wpA_copyInto _ _ inp f src to none _ k _ (data inp) hf rfl rfl rfl (fun _ => hm trivial he) (by intro _ h; cases h)
    · simp only [he, if_false, bne, show (FType.none == FType.none) = true from rfl, Bool.not_true, Bool.not_false, if_true]
      exact wp_report (by intro _ _ h; cases h) (by intro _ _ h; cases h)
  · simp only [astep, appleStep, Disk.step] at hs
    obtain ⟨⟨hm, rfl⟩, _⟩ := hs
    simp only [Prog.ret_bind, Prog.useStat, statusOf_known, statusOf_exists, Bool.not_true, Bool.false_eq_true, if_false]
    repeat' split
    all_goals first
      | exact wp_report (by intro _ _ h; cases h) (by intro _ _ h; cases h)
      | exact wpA_copyInto _ _ inp f src to (some d) _ k _ (data inp) hf rfl rfl rfl (by intro h; cases h) (fun _ _ => hm trivial)
      | (intro _ h; cases h)
      | (apply wp_bind; exact wp_report (by intro _ _ h; cases h) (by intro _ _ h; cases h))


/-- Trace of a copy of `a` to the missing file `b` in which `fcopyfile` answers `r`. -/
def appleTrace (r : Except Errno Unit) (mid : List Event) : List Event :=
  copyTrace 3 ([⟨.port .copyfileAlloc, (some 7 : Option Nat)⟩, ⟨.port (.fcopyfile 3 4 (some 7)), r⟩,
    ⟨.port (.copyfileFree (some 7)), (.ok () : Except Errno Unit)⟩] ++ mid ++ closes)

/-- `fcopyfile` fails after one byte, the rest is copied by `read` and `write`. -/
example : ∃ (t : List Event) (k k' : Disk), k.idle ∧ (∀ ev ∈ t, Full ev) ∧
    Exec (copyFileApple 5 (mkPath .posix "a".toList) (mkPath .posix "b".toList) CopyOptions.none (.ref none)) t (.ok (true, .ref none)) ∧
    Steps (appleStep "a".toList "b".toList true) k t k' ∧ k.src = [1, 2, 3] ∧ k'.dst = some [1, 2, 3] := by
  refine ⟨appleTrace (.error (.other 5)) [⟨.read 3 bufsiz, (.ok [2, 3] : Except Errno Bytes)⟩, ⟨.write 4 [2, 3], (.ok 2 : Except Errno Nat)⟩,
      ⟨.read 3 bufsiz, (.ok [] : Except Errno Bytes)⟩], ⟨[1, 2, 3], none, 3, none, none⟩, ⟨[1, 2, 3], some [1, 2, 3], 3, none, none⟩,
    ⟨rfl, rfl⟩, ?_, feed_exec (by rfl), ?_, rfl, rfl⟩
  · simp [appleTrace, copyTrace, closes, Full]
  · simp only [appleTrace, copyTrace, closes, List.cons_append, List.nil_append]
    iterate 6 (refine .cons (by simp [appleStep, Disk.step, Sys.mutates, PortCall.mutates]; first | done | rfl | exact ⟨rfl, rfl⟩) ?_)
    refine .cons (s' := ⟨[1, 2, 3], some [1], 3, some (3, 1), some (4, 1)⟩) ⟨1, 1, by decide, by decide, fun _ => rfl, rfl⟩ ?_
    repeat (refine .cons (by simp [appleStep, Disk.step, overwrite, bufsiz, Sys.mutates, PortCall.mutates]; first | done | rfl | exact ⟨rfl, rfl⟩) ?_)
    exact .nil _

/-- **C106 is violated**: `fcopyfile` has read two bytes and written one of them when it fails. `do_copy_file_default` goes on from the
offsets it finds, and `copy_file` returns true although a byte is missing. -/
theorem c106_violated : ∃ (t : List Event) (k k' : Disk), k.idle ∧ (∀ ev ∈ t, Full ev) ∧
    Exec (copyFileApple 5 (mkPath .posix "a".toList) (mkPath .posix "b".toList) CopyOptions.none (.ref none)) t (.ok (true, .ref none)) ∧
    Steps (appleStep "a".toList "b".toList false) k t k' ∧ k.src = [1, 2, 3] ∧ k'.dst = some [1, 3] := by
  refine ⟨appleTrace (.error (.other 5)) [⟨.read 3 bufsiz, (.ok [3] : Except Errno Bytes)⟩, ⟨.write 4 [3], (.ok 1 : Except Errno Nat)⟩,
      ⟨.read 3 bufsiz, (.ok [] : Except Errno Bytes)⟩], ⟨[1, 2, 3], none, 3, none, none⟩, ⟨[1, 2, 3], some [1, 3], 3, none, none⟩,
    ⟨rfl, rfl⟩, ?_, feed_exec (by rfl), ?_, rfl, rfl⟩
  · simp [appleTrace, copyTrace, closes, Full]
  · simp only [appleTrace, copyTrace, closes, List.cons_append, List.nil_append]
    iterate 6 (refine .cons (by simp [appleStep, Disk.step, Sys.mutates, PortCall.mutates]; first | done | rfl | exact ⟨rfl, rfl⟩) ?_)
    refine .cons (s' := ⟨[1, 2, 3], some [1], 3, some (3, 2), some (4, 1)⟩) ⟨2, 1, by decide, by decide, (fun h => by cases h), rfl⟩ ?_
    repeat (refine .cons (by simp [appleStep, Disk.step, overwrite, bufsiz, Sys.mutates, PortCall.mutates]; first | done | rfl | exact ⟨rfl, rfl⟩) ?_)
    exact .nil _

/-- What an event of the build with `fcopyfile` is in the build that only has `read` and `write`: a successful `fcopyfile` is finding the
source at its end, a failing one is nothing. -/
def Spec.portView (e : Event) : List Event :=
  match e with
  | ⟨.port (.fcopyfile inp _ _), .ok ()⟩ => [⟨.read inp 8192, (.ok [] : Except Errno Bytes)⟩]
  | ⟨.port _, _⟩ => []
  | e => [e]

/-- Every run of `p` is one of `q`, seen that way. -/
structure SeenAs {α : Type} (p q : Prog α) : Prop where
  run : ∀ t o, Exec p t o → Exec q (t.flatMap portView) o

theorem SeenAs.refl_ret {α : Type} (a : α) : SeenAs (.ret a) (.ret a) := by
  constructor; intro t o h; cases h; exact .ret a

theorem SeenAs.bind {α β : Type} {p q : Prog α} {f g : α → Prog β} (h : SeenAs p q) (h2 : ∀ a, SeenAs (f a) (g a)) :
    SeenAs (p.bind f) (q.bind g) := by
  constructor
  intro t o he
  rcases exec_bind.mp he with ⟨s, h3, rfl⟩ | ⟨a, t1, t2, rfl, h3, h4⟩
  · exact exec_bind.mpr (.inl ⟨s, h.run _ _ h3, rfl⟩)
  · exact exec_bind.mpr (.inr ⟨a, _, _, by rw [List.flatMap_append], h.run _ _ h3, (h2 _).run _ _ h4⟩)

theorem SeenAs.call {α : Type} {c : Sys} {f g : c.Ret → Prog α} (hc : ∀ r, portView ⟨c, r⟩ = [⟨c, r⟩]) (h : ∀ r, SeenAs (f r) (g r)) :
    SeenAs (.call c f) (.call c g) := by
  constructor
  intro t o he
  obtain ⟨r, t', rfl, h2⟩ := exec_call.mp he
  rw [List.flatMap_cons, hc]
  exact exec_call.mpr ⟨r, _, rfl, (h r).run _ _ h2⟩

/-- A program without such calls is seen as itself. -/
theorem SeenAs.self {α : Type} {p : Prog α} (h : Only (fun c => ∀ r, portView ⟨c, r⟩ = [⟨c, r⟩]) (fun _ => True) p) : SeenAs p p := by
  induction h with
  | ret _ _ => exact SeenAs.refl_ret _
  | stop _ => constructor; intro t o h; cases h; exact .stop _
  | call c k hc _ ih => exact SeenAs.call hc ih

theorem SeenAs.closing {α : Type} {p q : Prog α} {fd : Nat} (h : SeenAs p q) : SeenAs (p.finally' (closeFd fd)) (q.finally' (closeFd fd)) := by
  constructor
  intro t o he
  rcases exec_closing.mp he with ⟨hu, t', r, rfl, h2⟩ | ⟨hu, h2⟩
  · refine exec_closing.mpr (.inl ⟨hu, t'.flatMap portView, r, ?_, h.run _ _ h2⟩)
    rw [List.flatMap_append]
    rfl
  · exact exec_closing.mpr (.inr ⟨hu, h.run _ _ h2⟩)

theorem SeenAs.report {α : Type} (h : Handler) (ec : EcArg) (c : Code) (d : α) : SeenAs (h.report ec c d) (h.report ec c d) := by
  unfold Handler.report
  cases ec
  · constructor; intro t o h; cases h; exact .stop _
  · exact SeenAs.refl_ret _

theorem SeenAs.copyDefault (inp out n : Nat) : SeenAs (copyDefault inp out n) (copyDefault inp out n) := by
  induction n with
  | zero => constructor; intro t o h; cases h; exact .stop _
  | succ n ih =>
    refine SeenAs.call (fun _ => rfl) fun r => ?_
    rcases r with e | data
    · exact SeenAs.refl_ret _
    · dsimp only
      split
      · exact SeenAs.refl_ret _
      · refine SeenAs.call (fun _ => rfl) fun r => ?_
        rcases r with e | m
        · exact SeenAs.refl_ret _
        · exact ih

theorem seenAs_data (n inp out : Nat) (size : Int) (hn : 0 < n) : SeenAs (doCopyFileApple n inp out) (doCopyFile false n inp out size) := by
  constructor
  intro t o h
  unfold doCopyFileApple copyfileData at h
  simp only [Prog.bind_eq, Prog.call_bind, Prog.ret_bind] at h
  obtain ⟨r1, t1, rfl, h1⟩ := exec_call.mp h
  obtain ⟨r2, t2, rfl, h2⟩ := exec_call.mp h1
  obtain ⟨r3, t3, rfl, h3⟩ := exec_call.mp h2
  simp only [doCopyFile, Prog.bind_eq, Bool.false_eq_true, if_false, Prog.ret_bind]
  rcases r2 with e | u
  · simp only [Except.isOk, Except.toBool, Bool.false_eq_true, if_false] at h3
    have := (SeenAs.copyDefault inp out n).run _ _ h3
    exact this
  · simp only [Except.isOk, Except.toBool, if_true] at h3
    cases h3
    cases n with
    | zero => omega
    | succ n => exact exec_call.mpr ⟨.ok [], [], rfl, .ret _⟩

theorem seenAs_into {d1 d2 : Nat → Nat → Int → Prog Code} (hd : ∀ i o s, SeenAs (d1 i o s) (d2 i o s)) (h : Handler) (inp : Nat) (fst : Stat)
    (to : Path) (tst : Option Stat) (ec : EcArg) : SeenAs (copyIntoWith d1 h inp fst to tst ec) (copyIntoWith d2 h inp fst to tst ec) := by
  unfold copyIntoWith
  refine SeenAs.call (fun _ => rfl) fun r => ?_
  rcases r with e | out
  · exact SeenAs.report ..
  refine SeenAs.closing ?_
  simp only [Prog.bind_eq, refreshStatus_eq, Prog.call_bind]
  refine SeenAs.call (fun _ => rfl) fun r => ?_
  have fin : SeenAs ((d1 inp out fst.size.toInt).bind fun m => if m ≠ none then h.report ec m false else .ret (true, ec))
      ((d2 inp out fst.size.toInt).bind fun m => if m ≠ none then h.report ec m false else .ret (true, ec)) := by
    refine SeenAs.bind (hd ..) fun m => ?_
    split
    · exact SeenAs.report ..
    · exact SeenAs.refl_ret _
  rcases r with e | st
  · exact SeenAs.report ..
  · simp only [Prog.ret_bind, ne_eq, not_true_eq_false, if_false]
    cases tst with
    | none => exact fin
    | some x =>
      dsimp only
      split
      · exact SeenAs.report ..
      · refine SeenAs.call (fun _ => rfl) fun r => ?_
        rcases r with e | u
        · exact SeenAs.report ..
        · refine SeenAs.call (fun _ => rfl) fun r => ?_
          rcases r with e | u
          · exact SeenAs.report ..
          · exact fin

theorem seenAs_file {d1 d2 : Nat → Nat → Int → Prog Code} (hd : ∀ i o s, SeenAs (d1 i o s) (d2 i o s)) (src to : Path) (opts : CopyOptions)
    (ec : EcArg) : SeenAs (copyFileWith d1 src to opts ec) (copyFileWith d2 src to opts ec) := by
  unfold copyFileWith
  refine SeenAs.call (fun _ => rfl) fun r => ?_
  rcases r with e | inp
  · exact SeenAs.report ..
  refine SeenAs.closing ?_
  simp only [copyOpenedWith, Prog.bind_eq, refreshStatus_eq, Prog.call_bind]
  refine SeenAs.call (fun _ => rfl) fun r => ?_
  rcases r with e | f
  · exact SeenAs.report ..
  simp only [Prog.ret_bind, ne_eq, not_true_eq_false, if_false]
  split
  · exact SeenAs.report ..
  simp only [getFileStatus_ref, Prog.call_bind]
  refine SeenAs.call (fun _ => rfl) fun r => ?_
  rcases r with e | d
  · dsimp only [Prog.ret_bind]
    split
    · exact SeenAs.report ..
    split
    · exact seenAs_into hd ..
    split
    · exact SeenAs.report ..
    · constructor; intro t o h; cases h; exact .stop _
  · simp only [Prog.ret_bind, Prog.useStat]
    repeat' split
    all_goals first
      | exact SeenAs.report ..
      | exact seenAs_into hd ..
      | exact SeenAs.refl_ret _
      | exact SeenAs.bind (SeenAs.report ..) fun _ => SeenAs.refl_ret _

/-- **C106**, the rest: seen as `portView` says, every run of the build with `fcopyfile` is a run of the build without, with the same outcome.
So what C25, C56 and C63 say of the latter, for all answers of the system, holds of this build too. -/
theorem c106_refines (n : Nat) (hn : 0 < n) (src to : Path) (opts : CopyOptions) (ec : EcArg) (t : List Event) (o : Except Stop (Bool × EcArg))
    (h : Exec (copyFileApple n src to opts ec) t o) : Exec (copyFile false n src to opts ec) (t.flatMap portView) o := by
  rw [← copyFileWith_eq]
  exact (seenAs_file (fun i o s => seenAs_data n i o s hn) src to opts ec).run t o h

/-- An existing destination is only touched if it may be replaced. -/
theorem c106_touched (n : Nat) (hn : 0 < n) (src to : Path) (opts : CopyOptions) (c : Code) (t : List Event)
    (o : Except Stop (Bool × EcArg)) (h : Exec (copyFileApple n src to opts (.ref c)) t o)
    (hm : (∃ ev ∈ t, ev.call.mutates = true ∧ ∀ c, ev.call ≠ .port c) ∨ ∃ ec, o = .ok (true, ec)) :
    ∃ f r, (⟨.lstat src.pathname, (.ok f : Except Errno Stat)⟩ : Event) ∈ t ∧ (⟨.stat to.pathname, r⟩ : Event) ∈ t ∧
      typeOf f.mode = .regular ∧
      (r = .error .ENOENT ∨ r = .error .ENOTDIR ∨ ∃ d, r = .ok d ∧ typeOf d.mode = .regular ∧ ¬ OneFile f d ∧
        ¬ skips opts ∧ (updates opts ∧ Newer f d ∨ ¬ updates opts ∧ overwrites opts)) := by
  have back : ∀ e : Event, e ∈ t.flatMap portView → (∀ inp n, e.call ≠ .read inp n) → e ∈ t := by
    intro e he hr
    obtain ⟨e', h1, h2⟩ := List.mem_flatMap.mp he
    unfold portView at h2
    split at h2
    · cases List.mem_singleton.mp h2
      exact absurd rfl (hr _ _)
    · cases h2
    · cases List.mem_singleton.mp h2
      exact h1
  obtain ⟨f, r, h1, h2, h3⟩ := c25_touched false n src to opts c _ o (c106_refines n hn _ _ _ _ _ _ h) (by
    rcases hm with ⟨e, he, h4, h5⟩ | h4
    · refine .inl ⟨e, List.mem_flatMap.mpr ⟨e, he, ?_⟩, h4⟩
      unfold portView
      split
      · exact absurd rfl (h5 _)
      · exact absurd rfl (h5 _)
      · exact List.mem_singleton.mpr rfl
    · exact .inr h4)
  exact ⟨f, r, back _ h1 (fun _ _ h => by cases h), back _ h2 (fun _ _ h => by cases h), h3⟩

/-- The states of `fcopyfile` that are held, after an event; `none` once one is used or freed that is not held. -/
def Spec.useState (s : Option (List (Option Nat))) (ev : Event) : Option (List (Option Nat)) :=
  match s, ev with
  | none, _ => none
  | some l, ⟨.port .copyfileAlloc, r⟩ => some ((r : Option Nat) :: l)
  | some l, ⟨.port (.fcopyfile _ _ st), _⟩ => if st ∈ l then some l else none
  | some l, ⟨.port (.copyfileFree st), _⟩ => if st ∈ l then some (l.erase st) else none
  | some l, _ => some l

abbrev ststep (s : Option (List (Option Nat))) (e : Event) (s' : Option (List (Option Nat))) : Prop := s' = useState s e

/-- A call that is not about states. -/
theorem wpS_call {α : Type} {c : Sys} {k : c.Ret → Prog α} {Q : Except Stop α → Option (List (Option Nat)) → Prop}
    (hc : ∀ r, useState (some []) ⟨c, r⟩ = some []) (h : ∀ r, wp ststep Q (k r) (some [])) : wp ststep Q (.call c k) (some []) := by
  rintro r s rfl
  rw [hc r]
  exact h r

theorem wpS_report {α : Type} {h : Handler} {ec : EcArg} {c : Code} {d : α} :
    wp ststep (fun _ s => s = some []) (h.report ec c d) (some []) := by
  unfold Handler.report
  cases ec <;> exact rfl

theorem wpS_copyDefault (inp out n : Nat) : wp ststep (fun _ s => s = some []) (copyDefault inp out n) (some []) := by
  induction n with
  | zero => rfl
  | succ n ih =>
    refine wpS_call (fun _ => rfl) fun r => ?_
    rcases r with e | data
    · rfl
    · dsimp only
      split
      · rfl
      · refine wpS_call (fun _ => rfl) fun r => ?_
        rcases r with e | m
        · rfl
        · exact ih

theorem wpS_data (n inp out : Nat) : wp ststep (fun _ s => s = some []) (doCopyFileApple n inp out) (some []) := by
  unfold doCopyFileApple copyfileData
  simp only [Prog.bind_eq, Prog.call_bind, Prog.ret_bind]
  rintro r1 s1 rfl r2 s2 rfl r3 s3 rfl
  have h : useState (useState (useState (some []) ⟨.port .copyfileAlloc, r1⟩) ⟨.port (.fcopyfile inp out r1), r2⟩)
      ⟨.port (.copyfileFree r1), r3⟩ = some [] := by
    simp only [useState, List.mem_singleton, if_true, List.erase_cons_head]
  rw [h]
  split
  · rfl
  · exact wpS_copyDefault inp out n

theorem wpS_closing {p : Prog (Bool × EcArg)} {fd : Nat} (h : wp ststep (fun _ s => s = some []) p (some [])) :
    wp ststep (fun _ s => s = some []) (p.finally' (closeFd fd)) (some []) := by
  apply wp_finally
  refine wp_mono ?_ h
  rintro o s rfl
  refine ⟨fun _ => ?_, fun _ => rfl⟩
  rintro r s rfl
  cases o <;> rfl

theorem wpS_into (n : Nat) (h : Handler) (inp : Nat) (fst : Stat) (to : Path) (tst : Option Stat) (ec : EcArg) :
    wp ststep (fun _ s => s = some []) (copyIntoWith (fun i o _ => doCopyFileApple n i o) h inp fst to tst ec) (some []) := by
  unfold copyIntoWith
  refine wpS_call (fun r => by cases r <;> rfl) fun r => ?_
  rcases r with e | out
  · exact wpS_report
  refine wpS_closing ?_
  simp only [Prog.bind_eq, refreshStatus_eq, Prog.call_bind]
  refine wpS_call (fun r => by cases r <;> rfl) fun r => ?_
  have fin : wp ststep (fun _ s => s = some []) ((doCopyFileApple n inp out).bind fun m =>
      if m ≠ none then h.report ec m false else .ret (true, ec)) (some []) := by
    apply wp_bind
    refine wp_mono ?_ (wpS_data n inp out)
    rintro o s rfl
    rcases o with x | m
    · rfl
    · dsimp only
      split
      · exact wpS_report
      · rfl
  rcases r with e | st
  · exact wpS_report
  · simp only [Prog.ret_bind, ne_eq, not_true_eq_false, if_false]
    cases tst with
    | none => exact fin
    | some x =>
      dsimp only
      split
      · exact wpS_report
      · refine wpS_call (fun r => by cases r <;> rfl) fun r => ?_
        rcases r with e | u
        · exact wpS_report
        · refine wpS_call (fun r => by cases r <;> rfl) fun r => ?_
          rcases r with e | u
          · exact wpS_report
          · exact fin

/-- **C106**, the memory: `fcopyfile` is called with a state that was allocated and not freed, and at the end, whatever it is, every state is
freed. -/
theorem c106_state (n : Nat) (src to : Path) (opts : CopyOptions) (ec : EcArg) (t : List Event) (o : Except Stop (Bool × EcArg))
    (s : Option (List (Option Nat))) (h : Exec (copyFileApple n src to opts ec) t o)
    (hs : Steps (fun s e s' => s' = useState s e) (some []) t s) : s = some [] := by
  refine wp_sound (step := ststep) (Q := fun _ s => s = some []) ?_ h hs
  unfold copyFileApple copyFileWith
  refine wpS_call (fun r => by cases r <;> rfl) fun r => ?_
  rcases r with e | inp
  · exact wpS_report
  refine wpS_closing ?_
  simp only [copyOpenedWith, Prog.bind_eq, refreshStatus_eq, Prog.call_bind]
  refine wpS_call (fun r => by cases r <;> rfl) fun r => ?_
  rcases r with e | f
  · exact wpS_report
  simp only [Prog.ret_bind, ne_eq, not_true_eq_false, if_false]
  split
  · exact wpS_report
  simp only [getFileStatus_ref, Prog.call_bind]
  refine wpS_call (fun r => by cases r <;> rfl) fun r => ?_
  rcases r with e | d
  · dsimp only [Prog.ret_bind]
    split
    · exact wpS_report
    split
    · exact wpS_into _ _ _ _ _ _ _
    split
    · exact wpS_report
    · rfl
  · simp only [Prog.ret_bind, Prog.useStat]
    repeat' split
    all_goals first
      | exact wpS_report
      | exact wpS_into _ _ _ _ _ _ _
      | rfl
      | (apply wp_bind; refine wp_mono ?_ wpS_report; rintro (x | a) s rfl <;> rfl)

/-! ## C107 -/

/-- **C107**, partial: with `utime`, a time at least one second before the epoch is rejected with `invalid_argument` and no call. Otherwise the file
is examined, and an error of that is reported and nothing changed. Otherwise there is one `utime` with the access time found, in whole
seconds, and for a time from the epoch on with the second that contains it as modification time; its failure is reported, and after its
success reading the time of a file with that time stamp yields the time set, without the fraction of a second. Missing:
the fraction, and times less than a second before the epoch (`c107_violated`). -/
theorem c107_utime_partial (p : Path) (tm : Int) (htm : InI64 tm) (c : Code) (t : List Event)
    (o : Except Stop (Unit × EcArg)) (h : Exec (setLastWriteTimeUtime p tm (.ref c)) t o) :
    (tm ≤ -1000000000 → t = [] ∧ o = .ok ((), .ref (some .EINVAL))) ∧
    (-1000000000 < tm →
      (∃ e, t = [⟨.stat p.pathname, (.error e : Except Errno Stat)⟩] ∧ o = .ok ((), .ref (some e))) ∨
      ∃ st s, (0 ≤ tm → s * 1000000000 ≤ tm ∧ tm < (s + 1) * 1000000000) ∧
       ((∃ e, t = [⟨.stat p.pathname, (.ok st : Except Errno Stat)⟩, ⟨.port (.utime p.pathname st.atimeSec s), (.error e : Except Errno Unit)⟩] ∧
          o = .ok ((), .ref (some e))) ∨
        (t = [⟨.stat p.pathname, (.ok st : Except Errno Stat)⟩, ⟨.port (.utime p.pathname st.atimeSec s), (.ok () : Except Errno Unit)⟩] ∧
          o = .ok ((), .ref none) ∧
          ∀ (st : Stat) (c' : Code) (o' : Except Stop (Int × EcArg)), st.mtimeSec = s → st.mtimeNsec = 0 → 0 ≤ tm →
            Exec (lastWriteTime p (.ref c')) [⟨.stat p.pathname, (.ok st : Except Errno Stat)⟩] o' →
            o' = .ok (tm - tm % 1000000000, .ref none)))) := by
  simp only [setLastWriteTimeUtime, clear_ref] at h
  have hq : 0 ≤ tm → tm.tdiv 1000000000 = tm / 1000000000 := fun h => Int.tdiv_eq_ediv_of_nonneg h
  have hq' : tm < 0 → tm.tdiv 1000000000 = -((-tm) / 1000000000) := fun h => by
    rw [← Int.tdiv_eq_ediv_of_nonneg (by omega), Int.neg_tdiv, Int.neg_neg]
  have hs : (tm.tdiv 1000000000 < 0) ↔ tm ≤ -1000000000 := by omega
  constructor
  · intro hneg
    rw [if_pos (hs.mpr hneg)] at h
    simpa [Handler.reportMsg] using h
  · intro hpos
    rw [if_neg (by omega)] at h
    simp only [Prog.bind_eq, exec_getFileStatus_bind] at h
    rcases h with ⟨e, t', rfl, h⟩ | ⟨st, t', rfl, h⟩
    · simp only [isSet_some, if_true, Handler.report, exec_ret] at h
      obtain ⟨rfl, rfl⟩ := h
      exact .inl ⟨e, rfl, rfl⟩
    · refine .inr ⟨st, tm.tdiv 1000000000, by omega, ?_⟩
      simp only [isSet_none, Bool.false_eq_true, if_false, Prog.useStat, Prog.ret_bind] at h
      obtain ⟨r, t2, rfl, h2⟩ := exec_call.mp h
      rcases r with e | u
      · simp only [Handler.report, exec_ret] at h2
        obtain ⟨rfl, rfl⟩ := h2
        exact .inl ⟨e, rfl, rfl⟩
      · simp only [exec_ret] at h2
        obtain ⟨rfl, rfl⟩ := h2
        refine .inr ⟨rfl, rfl, ?_⟩
        intro st c' o' h3 h4 h5 hx
        have hr : InI64 (st.mtimeSec * 1000000000 + st.mtimeNsec) := by
          rw [h3, h4]
          unfold InI64 at *
          omega
        rcases exec_lastWriteTime (by
          intro st' hst'
          simp only [List.mem_singleton, Event.mk.injEq, heq_eq_eq, true_and, Except.ok.injEq] at hst'
          subst hst'
          rw [h3]
          unfold InI64 at *
          omega) hx with ⟨e, he, _⟩ | ⟨st', he, ⟨v, hv, ho⟩ | ⟨f, hv, ho⟩⟩
        · simp at he
        · simp only [List.cons.injEq, Event.mk.injEq, heq_eq_eq, true_and, and_true, Except.ok.injEq] at he
          subst he
          rw [timeFromSpec_exact _ _ (by omega) (by omega) hr] at hv
          cases hv
          rw [ho, h3, h4]
          congr 2
          omega
        · simp only [List.cons.injEq, Event.mk.injEq, heq_eq_eq, true_and, and_true, Except.ok.injEq] at he
          subst he
          rw [timeFromSpec_exact _ _ (by omega) (by omega) hr] at hv
          cases hv

/-- It succeeds for a file last read at second 5. -/
example : InI64 1700000000123456789 ∧ Exec (setLastWriteTimeUtime (mkPath .posix "f".toList) 1700000000123456789 (.ref none))
    [⟨.stat "f".toList, (.ok { someFile with atimeSec := 5 } : Except Errno Stat)⟩,
     ⟨.port (.utime "f".toList 5 1700000000), (.ok () : Except Errno Unit)⟩] (.ok ((), .ref none)) :=
  ⟨by unfold InI64; decide, feed_exec (by rfl)⟩

/-- **C107 is violated**: a time half a second before the epoch is not rejected, the file is said to be of the epoch; and setting a time and
reading it back yields another time. -/
theorem c107_violated :
    (∃ tm < 0, Exec (setLastWriteTimeUtime (mkPath .posix "f".toList) tm (.ref none))
      [⟨.stat "f".toList, (.ok someFile : Except Errno Stat)⟩, ⟨.port (.utime "f".toList 0 0), (.ok () : Except Errno Unit)⟩]
      (.ok ((), .ref none))) ∧
    (∃ tm s, 0 < tm ∧ Exec (setLastWriteTimeUtime (mkPath .posix "f".toList) tm (.ref none))
        [⟨.stat "f".toList, (.ok someFile : Except Errno Stat)⟩, ⟨.port (.utime "f".toList 0 s), (.ok () : Except Errno Unit)⟩]
        (.ok ((), .ref none)) ∧
      ∃ tm', tm' ≠ tm ∧ Exec (lastWriteTime (mkPath .posix "f".toList) (.ref none))
        [⟨.stat "f".toList, (.ok { someFile with mtimeSec := s, mtimeNsec := 0 } : Except Errno Stat)⟩] (.ok (tm', .ref none))) :=
  ⟨⟨-500000000, by decide, feed_exec (by rfl)⟩, 1500000000, 1, by decide, feed_exec (by rfl), 1000000000, by decide, feed_exec (by rfl)⟩

/-- With neither call nothing is done and `not_supported` is reported. -/
theorem c107_unsupported (p : Path) (tm : Int) (c : Code) (t : List Event) (o : Except Stop (Unit × EcArg)) :
    Exec (setLastWriteTimeNone p tm (.ref c)) t o ↔ t = [] ∧ o = .ok ((), .ref (some .ENOTSUP)) := by
  simp [setLastWriteTimeNone, Handler.report, exec_ret, clear_ref]

/-! ## C108 -/

/-- **C108**: C33 without `AT_SYMLINK_NOFOLLOW`. Given exactly one of replace, add and remove: if the current mode is needed it is read first, and an
error of that is reported and nothing changed. If it was found to be a symbolic link, `operation_not_supported` is reported and nothing
changed. Otherwise there is exactly one `chmod`, with the mode of `Spec.newMode`; its failure is reported. -/
theorem c108_permissions (p : Path) (prms : Perms) (opts : PermOptions) (rep add rem : Bool)
    (hact : OneAction opts rep add rem) (c : Code) (t : List Event) (o : Except Stop (Unit × EcArg))
    (h : Exec (permissionsPlain p prms opts (.ref c)) t o) :
    let nofollow := opts.getLsbD 3
    let rd (r : Except Errno Stat) : Event := if nofollow then ⟨.lstat p.pathname, r⟩ else ⟨.stat p.pathname, r⟩
    let result (r : Except Errno Unit) : Code := match r with | .ok () => none | .error e => some e
    (nofollow = false ∧ rep = true → ∃ r : Except Errno Unit,
      t = [⟨.port (.chmod p.pathname (prms &&& 0o7777)), r⟩] ∧ o = .ok ((), .ref (result r))) ∧
    (nofollow = true ∨ rep = false →
      (∃ e, t = [rd (.error e)] ∧ o = .ok ((), .ref (some e))) ∨
      (∃ st : Stat, t = [rd (.ok st)] ∧ st.mode &&& 0o170000 = 0o120000 ∧ o = .ok ((), .ref (some .EOPNOTSUPP))) ∨
      (∃ (st : Stat) (r : Except Errno Unit),
        t = [rd (.ok st), ⟨.port (.chmod p.pathname (newMode rep add st.mode prms)), r⟩] ∧ st.mode &&& 0o170000 ≠ 0o120000 ∧
        o = .ok ((), .ref (result r)))) := by
  intro nofollow rd result
  obtain ⟨hr, ha, hm, hone⟩ := hact
  have b0 : ((PermOptions.replace &&& opts) != 0) = rep := by rw [hr]; exact has_bit opts 0 (by omega)
  have b1 : ((PermOptions.add &&& opts) != 0) = add := by rw [ha]; exact has_bit opts 1 (by omega)
  have b2 : ((PermOptions.remove &&& opts) != 0) = rem := by rw [hm]; exact has_bit opts 2 (by omega)
  have b3 : ((PermOptions.nofollow &&& opts) != 0) = nofollow := has_bit opts 3 (by omega)
  have hcount : ¬ (add.toNat + rem.toNat + rep.toNat ≠ 1) := by
    rcases hone with ⟨rfl, rfl, rfl⟩ | ⟨rfl, rfl, rfl⟩ | ⟨rfl, rfl, rfl⟩ <;> decide
  have mask : Perms.mask = 0o7777 := rfl
  have read : ∀ f : FStatus × EcArg → Prog (Unit × EcArg),
      (Exec ((permStatus p (!nofollow)).bind f) t o ↔
      (∃ (e : Errno) (t' : List Event), t = rd (.error e) :: t' ∧
        Exec (f ({ type := typeOfErr e }, .ref (some e))) t' o) ∨
      (∃ (st : Stat) (t' : List Event), t = rd (.ok st) :: t' ∧ Exec (f (statusOf st, .ref none)) t' o)) := by
    intro f
    unfold permStatus
    cases hn : nofollow
    · simpa [rd, hn] using exec_status_bind
    · simpa [rd, hn] using exec_symlinkStatus_bind
  have hcall : ∀ (m : Mode) (l : Bool) (t' : List Event), Exec (chmodPlain p m l (.ref none)) t' o →
      (l = true ∧ t' = [] ∧ o = .ok ((), .ref (some .EOPNOTSUPP))) ∨
      (l = false ∧ ∃ r : Except Errno Unit, t' = [⟨.port (.chmod p.pathname (m &&& 0o7777)), r⟩] ∧ o = .ok ((), .ref (result r))) := by
    intro m l t' h'
    cases l with
    | true =>
      simp only [chmodPlain, if_true, Handler.report, exec_ret] at h'
      exact .inl ⟨rfl, h'⟩
    | false =>
      simp only [chmodPlain, Bool.false_eq_true, if_false, exec_call] at h'
      obtain ⟨r, t2, rfl, h2⟩ := h'
      refine .inr ⟨rfl, r, ?_⟩
      rcases r with e | u
      · simp only [Handler.report, exec_ret] at h2
        obtain ⟨rfl, rfl⟩ := h2
        exact ⟨rfl, rfl⟩
      · simp only [exec_ret] at h2
        obtain ⟨rfl, rfl⟩ := h2
        exact ⟨rfl, rfl⟩
  simp only [permissionsPlain, clear_ref, b0, b1, b2, b3, hcount, if_false, Bool.not_not, Prog.bind_eq] at h
  have h' := h
  constructor
  · rintro ⟨hn, hr'⟩
    have hcond : (nofollow || (add || rem)) = false := by
      rw [hn]
      rcases hone with ⟨_, h1, h2⟩ | ⟨h0, _⟩ | ⟨h0, _⟩
      · rw [h1, h2]; rfl
      · rw [h0] at hr'; cases hr'
      · rw [h0] at hr'; cases hr'
    simp only [hcond, Bool.false_eq_true, if_false] at h'
    rcases hcall _ _ _ h' with ⟨hl, _⟩ | ⟨_, r, rfl, rfl⟩
    · cases hl
    · refine ⟨r, ?_, rfl⟩
      rw [mask, BitVec.and_assoc, BitVec.and_self]
  · intro hneed
    have hcond : (nofollow || (add || rem)) = true := by
      rcases hneed with hn | hn
      · rw [hn]; rfl
      · rcases hone with ⟨h0, _, _⟩ | ⟨_, h1, _⟩ | ⟨_, _, h1⟩
        · rw [h0] at hn; cases hn
        · rw [h1]; simp
        · rw [h1]; simp
    simp only [hcond, if_true] at h'
    rcases (read _).mp h' with ⟨e, t', rfl, h2⟩ | ⟨st, t', rfl, h2⟩
    · left
      simp only [isSet_some, if_true, Handler.report, exec_ret] at h2
      obtain ⟨rfl, rfl⟩ := h2
      exact ⟨e, rfl, rfl⟩
    · right
      simp only [isSet_none, Bool.false_eq_true, if_false, statusOf_perms_ne] at h2
      rcases hcall _ _ _ h2 with ⟨hl, rfl, rfl⟩ | ⟨hl, r, rfl, rfl⟩
      · exact .inl ⟨st, rfl, (statusOf_isSymlink st).mp hl, rfl⟩
      · refine .inr ⟨st, r, ?_, fun hx => ?_, rfl⟩
        · congr 5
          unfold newMode
          rcases hone with ⟨rfl, rfl, rfl⟩ | ⟨rfl, rfl, rfl⟩ | ⟨rfl, rfl, rfl⟩
          · simp only [if_true, Bool.false_eq_true, if_false, mask]
            rw [BitVec.and_assoc, BitVec.and_self]
          · simp only [if_true, Bool.false_eq_true, if_false, statusOf, mask]
            exact or_masked ..
          · simp only [if_true, Bool.false_eq_true, if_false, statusOf, mask]
            exact andNot_masked ..
        · rw [(statusOf_isSymlink st).mpr hx] at hl
          cases hl

/-- Bits are added to the mode of a file, and a link is refused. -/
example : OneAction (PermOptions.add ||| PermOptions.nofollow) false true false ∧
    Exec (permissionsPlain (mkPath .posix "f".toList) 0o022 (PermOptions.add ||| PermOptions.nofollow) (.ref none))
      [⟨.lstat "f".toList, (.ok someFile : Except Errno Stat)⟩, ⟨.port (.chmod "f".toList 0o666), (.ok () : Except Errno Unit)⟩]
      (.ok ((), .ref none)) ∧
    Exec (permissionsPlain (mkPath .posix "l".toList) 0o022 (PermOptions.replace ||| PermOptions.nofollow) (.ref none))
      [⟨.lstat "l".toList, (.ok { someFile with mode := 0o120777 } : Except Errno Stat)⟩] (.ok ((), .ref (some .EOPNOTSUPP))) :=
  ⟨by decide, feed_exec (by rfl), feed_exec (by rfl)⟩

/-- Given none or several of replace, add and remove, the assertion fails before any call. -/
theorem c108_options (p : Path) (prms : Perms) (opts : PermOptions) (hact : ∀ r a m, ¬ OneAction opts r a m) (ec : EcArg)
    (t : List Event) (o : Except Stop (Unit × EcArg)) (h : Exec (permissionsPlain p prms opts ec) t o) :
    t = [] ∧ o = .error (.fault .assertFail) := by
  have h0 : ((PermOptions.replace &&& opts) != 0) = opts.getLsbD 0 := has_bit opts 0 (by omega)
  have h1 : ((PermOptions.add &&& opts) != 0) = opts.getLsbD 1 := has_bit opts 1 (by omega)
  have h2 : ((PermOptions.remove &&& opts) != 0) = opts.getLsbD 2 := has_bit opts 2 (by omega)
  have hno := hact (opts.getLsbD 0) (opts.getLsbD 1) (opts.getLsbD 2)
  simp only [OneAction, true_and] at hno
  simp only [permissionsPlain, h0, h1, h2] at h
  rw [if_pos] at h
  · exact exec_stop.mp h
  · revert hno
    cases opts.getLsbD 0 <;> cases opts.getLsbD 1 <;> cases opts.getLsbD 2 <;> simp

example : ∀ r a m, ¬ OneAction (PermOptions.add ||| PermOptions.remove) r a m := by
  rintro r a m ⟨rfl, rfl, rfl, h⟩
  revert h
  decide

end Asap
