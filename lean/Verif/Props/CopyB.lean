import Verif.Props.CopyA

/-!
# C26, C27, C56: the data, the loops and the descriptors of `copy_file`
-/

namespace Asap
open Spec

/-! ## What the kernel does with the two files -/

/-- The source file, the destination file (`none`: there is none), the size of the source as `stat`
reports it, and the two descriptors with their offsets. -/
structure Spec.Disk where
  src : Bytes
  dst : Option Bytes
  size : Int
  rfd : Option (Nat × Nat)
  wfd : Option (Nat × Nat)

/-- `b` written at offset `off` of `d`; a gap reads as zeros. -/
def Spec.overwrite (d : Bytes) (off : Nat) (b : Bytes) : Bytes :=
  d.take off ++ List.replicate (off - d.length) 0 ++ b ++ d.drop (off + b.length)

/-- What an answer of the kernel means, for a source named `S` and a destination named `D` that no
one else uses. The kernel is free to transfer less than asked for, in any call. Calls that
could do something to the files in a way not described here may have any effect. -/
def Spec.Disk.step (S D : Str) (k : Disk) (ev : Event) (k' : Disk) : Prop :=
  match ev with
  | ⟨.openf p fl _, .ok fd⟩ =>
    (∀ x, k.rfd = some x → x.1 ≠ fd) ∧ (∀ x, k.wfd = some x → x.1 ≠ fd) ∧
    if p = S ∧ fl.write = false then k' = { k with rfd := some (fd, 0) }
    else if p = D ∧ fl.write = true then
      (fl.creat = true ∨ k.dst ≠ none) ∧ k' = { k with dst := some (k.dst.getD []), wfd := some (fd, 0) }
    else k' = k
  | ⟨.close fd, _⟩ => k' = { k with
      rfd := k.rfd.filter (fun x => x.1 != fd), wfd := k.wfd.filter (fun x => x.1 != fd) }
  | ⟨.read fd cap, .ok data⟩ =>
    match k.rfd with
    | some (r, off) =>
      if r = fd then data = (k.src.drop off).take data.length ∧ data.length ≤ cap ∧
        (data = [] → k.src.length ≤ off ∨ cap = 0) ∧ k' = { k with rfd := some (r, off + data.length) }
      else k' = k
    | none => k' = k
  | ⟨.write fd data, .ok n⟩ =>
    n ≤ data.length ∧
    match k.wfd with
    | some (w, off) =>
      if w = fd then k' = { k with dst := k.dst.map (overwrite · off (data.take n)), wfd := some (w, off + n) }
      else k' = k
    | none => k' = k
  | ⟨.sendfile out inp count, .ok n⟩ =>
    match k.rfd, k.wfd with
    | some (r, ro), some (w, wo) =>
      if r = inp ∧ w = out then
        n ≤ count ∧ n ≤ k.src.length - ro ∧ (n = 0 → count = 0 ∨ k.src.length ≤ ro) ∧
        k' = { k with dst := k.dst.map (overwrite · wo ((k.src.drop ro).take n)),
                      rfd := some (r, ro + n), wfd := some (w, wo + n) }
      else k' = k
    | _, _ => k' = k
  | ⟨.ftruncate fd len, .ok ()⟩ =>
    match k.wfd with
    | some (w, _) =>
      if w = fd then k' = { k with dst := k.dst.map (fun d => d.take len ++ List.replicate (len - d.length) 0) }
      else k' = k
    | none => k' = k
  | ⟨.stat p, .ok _⟩ => (p = D → k.dst ≠ none) ∧ k' = k
  | ⟨.stat p, .error e⟩ => (p = D → (e = .ENOENT ∨ e = .ENOTDIR) → k.dst = none) ∧ k' = k
  | ⟨.lstat p, .ok st⟩ => (p = S → st.size.toInt = k.size) ∧ k' = k
  | ⟨.openf _ _ _, .error _⟩ | ⟨.read _ _, .error _⟩ | ⟨.write _ _, .error _⟩ | ⟨.sendfile _ _ _, .error _⟩
  | ⟨.ftruncate _ _, .error _⟩ | ⟨.lstat _, .error _⟩ | ⟨.fchmod _ _, _⟩ => k' = k
  | ⟨c, _⟩ => c.mutates = false → k' = k

/-- The two files before the call: nothing is open. -/
def Spec.Disk.idle (k : Disk) : Prop := k.rfd = none ∧ k.wfd = none

/-- The kernel never writes less than it was given. -/
def Spec.Full : Event → Prop
  | ⟨.write _ data, .ok n⟩ => n = data.length
  | _ => True

theorem overwrite_end (d b : Bytes) : overwrite d d.length b = d ++ b := by
  simp [overwrite]

/-- The copy has progressed to offset `i`. -/
def At (inp out : Nat) (k0 k : Disk) (i : Nat) : Prop :=
  k.src = k0.src ∧ k.size = k0.size ∧ k.rfd = some (inp, i) ∧ k.wfd = some (out, i) ∧
  k.dst = some (k0.src.take i) ∧ i ≤ k0.src.length

variable {S D : Str}

/-- The assumption used below. -/
abbrev kstep (S D : Str) (k : Disk) (e : Event) (k' : Disk) : Prop := k.step S D e k' ∧ Full e

theorem take_add_drop (l : Bytes) (i n : Nat) : l.take i ++ (l.drop i).take n = l.take (i + n) := by
  rw [← List.take_add]

/-- `do_copy_file_default` copies the rest. -/
theorem wp_copyDefault (inp out : Nat) (k0 : Disk) (n : Nat) (k : Disk) (i : Nat) (h : At inp out k0 k i) :
    wp (kstep S D) (fun o k' => o = .ok none → k'.dst = some k0.src) (copyDefault inp out n) k := by
  induction n generalizing k i with
  | zero => intro h; cases h
  | succ n ih =>
    obtain ⟨h1, h2, h3, h4, h5, h6⟩ := h
    simp only [copyDefault]
    intro r k' hs
    rcases r with e | data
    · intro h; cases h
    simp only [kstep, Disk.step, h3, if_true] at hs
    obtain ⟨⟨ha, hb, hc, rfl⟩, _⟩ := hs
    simp only
    by_cases hd : data = []
    · subst hd
      simp only [List.isEmpty_nil, if_true]
      intro _
      have := hc rfl
      have : k0.src.length ≤ i := by
        rcases this with h | h
        · rw [h1] at h; exact h
        · simp [bufsiz] at h
      simp only [h5]
      rw [List.take_of_length_le this]
    · rw [if_neg (by simpa using hd)]
      intro r k' hs
      rcases r with e | m
      · intro h; cases h
      simp only [kstep, Disk.step, h4, if_true, Full] at hs
      obtain ⟨⟨_, rfl⟩, rfl⟩ := hs
      have hlen : data.length ≤ k0.src.length - i := by
        have := congrArg List.length ha
        simp [h1] at this
        omega
      refine ih _ (i + data.length) ⟨h1, h2, rfl, rfl, ?_, by omega⟩
      simp only [h5, Option.map_some, List.take_length]
      have hi : (k0.src.take i).length = i := by simp; omega
      have h7 := overwrite_end (k0.src.take i) data
      rw [hi] at h7
      rw [h1] at ha
      rw [h7, ← take_add_drop, ← ha]

/-- The `sendfile` loop: it copies everything, or stops at some offset. -/
theorem wp_sendLoop (inp out : Nat) (k0 : Disk) (n : Nat) (k : Disk) (i : Nat) (h : At inp out k0 k i) :
    wp (kstep S D) (fun o k' => (o = .ok none → k'.dst = some k0.src) ∧
      (∀ c, o = .ok (some c) → ∃ j, At inp out k0 k' j)) (sendLoop out inp n (k0.src.length - i)) k := by
  induction n generalizing k i with
  | zero => exact ⟨(by intro h; cases h), (by intro c h; cases h)⟩
  | succ n ih =>
    obtain ⟨h1, h2, h3, h4, h5, h6⟩ := h
    simp only [sendLoop]
    intro r k' hs
    rcases r with e | m
    · simp only [kstep, Disk.step] at hs
      obtain ⟨rfl, _⟩ := hs
      exact ⟨(by intro h; cases h), fun c _ => ⟨i, h1, h2, h3, h4, h5, h6⟩⟩
    simp only [kstep, Disk.step, h3, h4, and_self, if_true] at hs
    obtain ⟨⟨ha, hb, hc, rfl⟩, _⟩ := hs
    simp only
    rw [h1] at hb
    have hat : At inp out k0 { k with dst := k.dst.map (overwrite · i ((k.src.drop i).take m)), rfd := some (inp, i + m), wfd := some (out, i + m) } (i + m) := by
      refine ⟨h1, h2, rfl, rfl, ?_, by omega⟩
      simp only [h5, Option.map_some, h1]
      have hi : (k0.src.take i).length = i := by simp; omega
      have h7 := overwrite_end (k0.src.take i) ((k0.src.drop i).take m)
      rw [hi] at h7
      rw [h7, take_add_drop]
    split
    · have := ih _ (i + m) hat
      rw [show (k0.src.length : Int) - i - m = k0.src.length - (i + m : Nat) by omega]
      exact this
    · refine ⟨fun _ => ?_, by intro c h; cases h⟩
      have hl : k0.src.length ≤ i + m := by omega
      have := hat.2.2.2.2.1
      rw [List.take_of_length_le hl] at this
      exact this

/-- `do_copy_file` copies the file whose size is known. -/
theorem wp_doCopyFile (sf : Bool) (n inp out : Nat) (k0 k : Disk) (h : At inp out k0 k 0)
    (hsz : k0.size = k0.src.length) :
    wp (kstep S D) (fun o k' => o = .ok none → k'.dst = some k0.src) (doCopyFile sf n inp out k0.size) k := by
  unfold doCopyFile
  simp only [Prog.bind_eq]
  cases sf with
  | false => exact wp_copyDefault inp out k0 n k 0 h
  | true =>
    simp only [if_true, copySendfile]
    apply wp_bind
    split
    · exact wp_copyDefault inp out k0 n k 0 h
    · simp only [Prog.bind_eq]
      apply wp_bind
      have := wp_sendLoop (S := S) (D := D) inp out k0 n k 0 h
      rw [show (k0.src.length : Int) - (0 : Nat) = k0.size by omega] at this
      refine wp_mono ?_ this
      rintro o k' ⟨h1, h2⟩
      rcases o with x | c | c
      · intro h; cases h
      · intro _; exact h1 rfl
      · obtain ⟨j, hj⟩ := h2 c rfl
        exact wp_copyDefault inp out k0 n k' j hj

theorem wp_report {α σ : Type} {stp : σ → Event → σ → Prop} {Q : Except Stop (α × EcArg) → σ → Prop} {hd : Handler} {ec : EcArg}
    {c : Code} {d : α} {s : σ} (h1 : ∀ ec', Q (.ok (d, ec')) s) (h2 : ∀ x, Q (.error (.thrown x)) s) :
    wp stp Q (hd.report ec c d) s := by
  unfold Handler.report
  cases ec
  · exact h2 _
  · exact h1 _

/-- What C26 is about. -/
abbrev Copied (k0 : Disk) (o : Except Stop (Bool × EcArg)) (k' : Disk) : Prop :=
  ∀ ec, o = .ok (true, ec) → k'.dst = some k0.src

/-- Closing a descriptor does not change files. -/
theorem wp_closing {k0 : Disk} {p : Prog (Bool × EcArg)} {fd : Nat} {k : Disk}
    (h : wp (kstep S D) (Copied k0) p k) : wp (kstep S D) (Copied k0) (p.finally' (closeFd fd)) k := by
  apply wp_finally
  refine wp_mono ?_ h
  intro o k' ho
  refine ⟨fun _ => ?_, fun _ => ho⟩
  intro r k'' hs
  simp only [kstep, Disk.step] at hs
  obtain ⟨rfl, _⟩ := hs
  exact ho

/-- From the opening of the destination on. -/
theorem wp_copyInto (sf : Bool) (n : Nat) (hd : Handler) (inp : Nat) (f : Stat) (src to : Path) (d : Option Stat) (ec : EcArg)
    (k0 k : Disk) (hsz : k0.size = k0.src.length) (hf : f.size.toInt = k0.size)
    (h1 : k.src = k0.src) (h2 : k.size = k0.size) (h3 : k.rfd = some (inp, 0))
    (h5 : d = none → k.dst = none) (h6 : ∀ x, d = some x → k.dst ≠ none) :
    wp (kstep src.pathname to.pathname) (Copied k0) (copyInto sf n hd inp f to d ec) k := by
  unfold copyInto
  intro r k' hs
  rcases r with e | out
  · exact wp_report (by intro _ _ h; cases h) (by intro _ _ h; cases h)
  simp only [kstep, Disk.step, h3] at hs
  obtain ⟨⟨hfr, _, hs⟩, _⟩ := hs
  rw [if_neg (by simp), if_pos (by simp)] at hs
  obtain ⟨_, rfl⟩ := hs
  apply wp_closing
  simp only [Prog.bind_eq, refreshStatus_eq, Prog.call_bind]
  intro r k' hs
  rcases r with e | st
  · simp only [Prog.ret_bind, ne_eq, reduceCtorEq, not_false_eq_true, if_true]
    exact wp_report (by intro _ _ h; cases h) (by intro _ _ h; cases h)
  simp only [kstep, Disk.step] at hs
  obtain ⟨⟨_, rfl⟩, _⟩ := hs
  simp only [Prog.ret_bind, ne_eq, not_true_eq_false, if_false]
  -- the end, from a destination that is empty
  have fin : ∀ k1 : Disk, At inp out k0 k1 0 → wp (kstep src.pathname to.pathname) (Copied k0)
      ((doCopyFile sf n inp out f.size.toInt).bind fun m =>
        if ¬ m = none then hd.report ec m false else .ret (true, ec)) k1 := by
    intro k1 hk1
    apply wp_bind
    rw [hf]
    refine wp_mono ?_ (wp_doCopyFile sf n inp out k0 k1 hk1 hsz)
    intro o k2 ho
    rcases o with x | c | c
    · intro _ h; cases h
    · simp only [not_true_eq_false, if_false]
      intro _ _
      exact ho rfl
    · simp only [reduceCtorEq, not_false_eq_true, if_true]
      exact wp_report (by intro _ _ h; cases h) (by intro _ _ h; cases h)
  cases d with
  | none =>
    apply fin
    exact ⟨h1, h2, rfl, rfl, by simp [h5 rfl], Nat.zero_le _⟩
  | some x =>
    simp only
    split
    · exact wp_report (by intro _ _ h; cases h) (by intro _ _ h; cases h)
    intro r k' hs
    rcases r with e | u
    · exact wp_report (by intro _ _ h; cases h) (by intro _ _ h; cases h)
    simp only [kstep, Disk.step] at hs
    obtain ⟨rfl, _⟩ := hs
    intro r k' hs
    rcases r with e | u
    · exact wp_report (by intro _ _ h; cases h) (by intro _ _ h; cases h)
    simp only [kstep, Disk.step, if_true] at hs
    obtain ⟨rfl, _⟩ := hs
    apply fin
    refine ⟨h1, h2, rfl, rfl, ?_, Nat.zero_le _⟩
    simp

/-- C26 for both overloads, with and without `sendfile`, under the assumptions the code makes: no write is
short, and the size `lstat` reports for the source is its size. Then, however the kernel splits
the transfer, true means that the destination has exactly the bytes of the source.
Missing: short writes and sources whose reported size is wrong (`c26_violated`). -/
theorem c26_copy_file_partial (sf : Bool) (n : Nat) (src to : Path) (opts : CopyOptions) (ec ec' : EcArg) (t : List Event)
    (k k' : Disk) (hidle : k.idle) (hsz : k.size = k.src.length)
    (h : Exec (copyFile sf n src to opts ec) t (.ok (true, ec')))
    (hk : Steps (Disk.step src.pathname to.pathname) k t k') (hfull : ∀ ev ∈ t, Full ev) :
    k'.dst = some k.src := by
  have hk' := steps_and hk hfull
  refine wp_sound (step := kstep src.pathname to.pathname) (Q := Copied k) ?_ h hk' ec' rfl
  unfold copyFile
  intro r k1 hs
  rcases r with e | inp
  · exact wp_report (by intro _ _ h; cases h) (by intro _ _ h; cases h)
  simp only [kstep, Disk.step, hidle.1, hidle.2, and_self, if_true] at hs
  obtain ⟨⟨_, _, rfl⟩, _⟩ := hs
  apply wp_closing
  simp only [copyOpened, Prog.bind_eq, refreshStatus_eq, Prog.call_bind]
  intro r k1 hs
  rcases r with e | f
  · simp only [Prog.ret_bind, ne_eq, reduceCtorEq, not_false_eq_true, if_true]
    exact wp_report (by intro _ _ h; cases h) (by intro _ _ h; cases h)
  simp only [kstep, Disk.step] at hs
  obtain ⟨⟨hf, rfl⟩, _⟩ := hs
  have hf := hf trivial
  simp only [Prog.ret_bind, ne_eq, not_true_eq_false, if_false]
  split
  · exact wp_report (by intro _ _ h; cases h) (by intro _ _ h; cases h)
  simp only [getFileStatus_ref, Prog.call_bind]
  intro r k1 hs
  rcases r with e | d
  · simp only [kstep, Disk.step] at hs
    obtain ⟨⟨hm, rfl⟩, _⟩ := hs
    simp only [Prog.ret_bind, FStatus.known, FStatus.exists', typeOfErr]
    by_cases he : e = .ENOENT ∨ e = .ENOTDIR
    · simp only [he, if_true, bne, Bool.not_and, show (FType.notFound == FType.none) = false from rfl,
        show (FType.notFound == FType.notFound) = true from rfl, Bool.not_true, Bool.not_false, Bool.or_true,
        Bool.false_eq_true, if_false]
      exact wp_copyInto sf n _ inp f src to none _ k _ hsz hf rfl rfl rfl (fun _ => hm trivial he) (by intro _ h; cases h)
    · simp only [he, if_false, bne, show (FType.none == FType.none) = true from rfl, Bool.not_true, Bool.not_false, if_true]
      exact wp_report (by intro _ _ h; cases h) (by intro _ _ h; cases h)
  · simp only [kstep, Disk.step] at hs
    obtain ⟨⟨hm, rfl⟩, _⟩ := hs
    simp only [Prog.ret_bind, Prog.useStat, statusOf_known, statusOf_exists, Bool.not_true, Bool.false_eq_true, if_false]
    repeat' split
    all_goals first
      | exact wp_report (by intro _ _ h; cases h) (by intro _ _ h; cases h)
      | exact wp_copyInto sf n _ inp f src to (some d) _ k _ hsz hf rfl rfl rfl (by intro h; cases h) (fun _ _ => hm trivial)
      | (intro _ h; cases h)
      | (apply wp_bind; exact wp_report (by intro _ _ h; cases h) (by intro _ _ h; cases h))

/-- Trace of a successful copy of `a` to the missing file `b`; the data transfer is left open. -/
def copyTrace (size : BitVec 64) (mid : List Event) : List Event :=
  [⟨.openf "a".toList ⟨false, false, true⟩ 0, (.ok 3 : Except Errno Nat)⟩,
   ⟨.lstat "a".toList, (.ok { Stat.zero with mode := 0o100644, ino := 1, size := size } : Except Errno Stat)⟩,
   ⟨.stat "b".toList, (.error .ENOENT : Except Errno Stat)⟩,
   ⟨.openf "b".toList ⟨true, true, false⟩ 0o100644, (.ok 4 : Except Errno Nat)⟩,
   ⟨.lstat "b".toList, (.ok { Stat.zero with mode := 0o100644, ino := 2 } : Except Errno Stat)⟩] ++ mid

/-- Both files closed. -/
def closes : List Event := [⟨.close 4, (.ok () : Except Errno Unit)⟩, ⟨.close 3, (.ok () : Except Errno Unit)⟩]

/-- C26 is false. (1) The kernel may write less than it was given; `do_copy_file_default` ignores
that, and `copy_file` returns true with bytes missing. (2) Files whose size is reported as 0 although
they have contents (`/proc` on Linux) are copied as empty files by `do_copy_file_sendfile`. -/
theorem c26_violated :
    (∃ (t : List Event) (k k' : Disk), k.idle ∧ k.size = k.src.length ∧
      Exec (copyFile false 5 (mkPath .posix "a".toList) (mkPath .posix "b".toList) CopyOptions.none (.ref none)) t
        (.ok (true, .ref none)) ∧
      Steps (Disk.step "a".toList "b".toList) k t k' ∧ k.src = [1, 2] ∧ k'.dst = some [1]) ∧
    (∃ (t : List Event) (k k' : Disk), k.idle ∧ (∀ ev ∈ t, Full ev) ∧
      Exec (copyFile true 5 (mkPath .posix "a".toList) (mkPath .posix "b".toList) CopyOptions.none (.ref none)) t
        (.ok (true, .ref none)) ∧
      Steps (Disk.step "a".toList "b".toList) k t k' ∧ k.src = [1, 2] ∧ k'.dst = some []) := by
  constructor
  · refine ⟨copyTrace 2 ([⟨.read 3 8192, (.ok [1, 2] : Except Errno Bytes)⟩, ⟨.write 4 [1, 2], (.ok 1 : Except Errno Nat)⟩,
        ⟨.read 3 8192, (.ok [] : Except Errno Bytes)⟩] ++ closes),
      ⟨[1, 2], none, 2, none, none⟩, ⟨[1, 2], some [1], 2, none, none⟩, ⟨rfl, rfl⟩, rfl, ?_, ?_, rfl, rfl⟩
    · exact .call _ _ _ _ _ (.call _ _ _ _ _ (.call _ _ _ _ _ (.call _ _ _ _ _ (.call _ _ _ _ _ (.call _ _ _ _ _
        (.call _ _ _ _ _ (.call _ _ _ _ _ (.call _ _ _ _ _ (.call _ _ _ _ _ (.ret _))))))))))
    · simp only [copyTrace, closes, List.cons_append, List.nil_append]
      repeat (refine .cons (by simp [Disk.step, overwrite]; first | done | rfl | exact ⟨rfl, rfl⟩) ?_)
      exact .nil _
  · refine ⟨copyTrace 0 ([⟨.sendfile 4 3 0, (.ok 0 : Except Errno Nat)⟩] ++ closes),
      ⟨[1, 2], none, 0, none, none⟩, ⟨[1, 2], some [], 0, none, none⟩, ⟨rfl, rfl⟩, ?_, ?_, ?_, rfl, rfl⟩
    · simp [copyTrace, closes, Full]
    · exact .call _ _ _ _ _ (.call _ _ _ _ _ (.call _ _ _ _ _ (.call _ _ _ _ _ (.call _ _ _ _ _ (.call _ _ _ _ _
        (.call _ _ _ _ _ (.call _ _ _ _ _ (.ret _))))))))
    · simp only [copyTrace, closes, List.cons_append, List.nil_append]
      repeat (refine .cons (by simp [Disk.step, overwrite]; first | done | rfl | exact ⟨rfl, rfl⟩) ?_)
      exact .nil _

/-- A case of the partial theorem: two partial `sendfile`s, then an error, then the rest by read and write. -/
example : ∃ (t : List Event) (k k' : Disk), k.idle ∧ k.size = k.src.length ∧ (∀ ev ∈ t, Full ev) ∧
    Exec (copyFile true 5 (mkPath .posix "a".toList) (mkPath .posix "b".toList) CopyOptions.none (.ref none)) t
      (.ok (true, .ref none)) ∧
    Steps (Disk.step "a".toList "b".toList) k t k' ∧ k.src = [1, 2, 3] := by
  refine ⟨copyTrace 3 ([⟨.sendfile 4 3 3, (.ok 1 : Except Errno Nat)⟩, ⟨.sendfile 4 3 2, (.error .EINVAL : Except Errno Nat)⟩,
      ⟨.read 3 8192, (.ok [2] : Except Errno Bytes)⟩, ⟨.write 4 [2], (.ok 1 : Except Errno Nat)⟩,
      ⟨.read 3 8192, (.ok [3] : Except Errno Bytes)⟩, ⟨.write 4 [3], (.ok 1 : Except Errno Nat)⟩,
      ⟨.read 3 8192, (.ok [] : Except Errno Bytes)⟩] ++ closes),
    ⟨[1, 2, 3], none, 3, none, none⟩, ⟨[1, 2, 3], some [1, 2, 3], 3, none, none⟩, ⟨rfl, rfl⟩, rfl, ?_, ?_, ?_, rfl⟩
  · simp [copyTrace, closes, Full]
  · exact .call _ _ _ _ _ (.call _ _ _ _ _ (.call _ _ _ _ _ (.call _ _ _ _ _ (.call _ _ _ _ _ (.call _ _ _ _ _
      (.call _ _ _ _ _ (.call _ _ _ _ _ (.call _ _ _ _ _ (.call _ _ _ _ _ (.call _ _ _ _ _ (.call _ _ _ _ _
      (.call _ _ _ _ _ (.call _ _ _ _ _ (.ret _))))))))))))))
  · simp only [copyTrace, closes, List.cons_append, List.nil_append]
    repeat (refine .cons (by simp [Disk.step, overwrite]; first | done | rfl | exact ⟨rfl, rfl⟩) ?_)
    exact .nil _

/-! ## C27 -/

/-- The loops have read up to offset `i`. -/
def ReadTo (inp out : Nat) (src : Bytes) (k : Disk) (i : Nat) : Prop :=
  k.src = src ∧ k.rfd = some (inp, i) ∧ ∃ w, k.wfd = some (out, w)

theorem wpT_copyDefault (inp out : Nat) (src : Bytes) (n : Nat) (k : Disk) (i : Nat) (h : ReadTo inp out src k i) :
    wp (Disk.step S D) (fun o _ => o = .error .fuel → n ≤ src.length - i) (copyDefault inp out n) k := by
  induction n generalizing k i with
  | zero => intro _; exact Nat.zero_le _
  | succ n ih =>
    obtain ⟨h1, h2, w, h3⟩ := h
    simp only [copyDefault]
    intro r k' hs
    rcases r with e | data
    · intro h; cases h
    simp only [Disk.step, h2, if_true] at hs
    obtain ⟨ha, hb, hc, rfl⟩ := hs
    simp only
    by_cases hd : data = []
    · subst hd
      intro h; cases h
    · rw [if_neg (by simpa using hd)]
      intro r k' hs
      rcases r with e | m
      · intro h; cases h
      simp only [Disk.step, h3, if_true] at hs
      obtain ⟨_, rfl⟩ := hs
      have hlen : data.length ≤ src.length - i := by
        have := congrArg List.length ha
        simp [h1] at this
        omega
      have hpos : 0 < data.length := List.length_pos_iff.mpr hd
      refine wp_mono ?_ (ih _ (i + data.length) ⟨h1, rfl, _, rfl⟩)
      intro o k' hx ho
      have := hx ho
      omega

theorem wpT_sendLoop (inp out : Nat) (src : Bytes) (n : Nat) (c : Int) (k : Disk) (i : Nat) (h : ReadTo inp out src k i)
    (hc : c ≤ (src.length - i : Nat)) :
    wp (Disk.step S D) (fun o k' => (o = .error .fuel → n ≤ src.length - i) ∧
      (∀ c, o = .ok c → ∃ j, ReadTo inp out src k' j)) (sendLoop out inp n c) k := by
  induction n generalizing c k i with
  | zero => exact ⟨fun _ => Nat.zero_le _, by intro _ h; cases h⟩
  | succ n ih =>
    obtain ⟨h1, h2, w, h3⟩ := h
    simp only [sendLoop]
    intro r k' hs
    rcases r with e | m
    · simp only [Disk.step] at hs
      subst hs
      exact ⟨(by intro h; cases h), fun _ _ => ⟨i, h1, h2, w, h3⟩⟩
    simp only [Disk.step, h2, h3, and_self, if_true] at hs
    obtain ⟨ha, hb, hc', rfl⟩ := hs
    rw [h1] at hb hc'
    simp only
    split
    · rename_i hpos
      refine wp_mono ?_ (ih (c - m) _ (i + m) ⟨h1, rfl, _, rfl⟩ (by omega))
      rintro o k' ⟨hx, hy⟩
      refine ⟨fun ho => ?_, hy⟩
      have := hx ho
      rcases Nat.eq_zero_or_pos m with hm | hm
      · rcases hc' hm with h | h <;> omega
      · omega
    · exact ⟨(by intro h; cases h), fun _ _ => ⟨i + m, h1, rfl, _, rfl⟩⟩

/-- What C27 is about. -/
abbrev Ends {α : Type} (n : Nat) (src : Bytes) (o : Except Stop α) (_ : Disk) : Prop :=
  o = .error .fuel → n ≤ src.length

theorem wpT_closing {n : Nat} {src : Bytes} {p : Prog (Bool × EcArg)} {fd : Nat} {k : Disk}
    (h : wp (Disk.step S D) (Ends n src) p k) : wp (Disk.step S D) (Ends n src) (p.finally' (closeFd fd)) k := by
  apply wp_finally
  refine wp_mono ?_ h
  intro o k' ho
  exact ⟨fun _ r k'' hs => ho, fun _ => ho⟩

theorem wpT_doCopyFile (sf : Bool) (n inp out : Nat) (size : Int) (src : Bytes) (k : Disk) (h : ReadTo inp out src k 0)
    (hsz : sf = true → size ≤ src.length) :
    wp (Disk.step S D) (Ends n src) (doCopyFile sf n inp out size) k := by
  have dflt : ∀ k j, ReadTo inp out src k j → wp (Disk.step S D) (Ends n src) (copyDefault inp out n) k := by
    intro k j hj
    refine wp_mono ?_ (wpT_copyDefault inp out src n k j hj)
    intro o k' ho h
    have := ho h
    omega
  unfold doCopyFile
  simp only [Prog.bind_eq]
  cases sf with
  | false => exact dflt k 0 h
  | true =>
    simp only [if_true, copySendfile]
    apply wp_bind
    split
    · exact dflt k 0 h
    · simp only [Prog.bind_eq]
      apply wp_bind
      refine wp_mono ?_ (wpT_sendLoop inp out src n size k 0 h (by have := hsz rfl; simpa using this))
      rintro o k' ⟨h1, h2⟩
      rcases o with x | c | c
      · intro h; simpa using h1 h
      · intro h; cases h
      · obtain ⟨j, hj⟩ := h2 _ rfl
        exact dflt k' j hj

theorem wpT_copyInto (sf : Bool) (n : Nat) (hd : Handler) (inp : Nat) (f : Stat) (to : Path) (d : Option Stat) (ec : EcArg)
    (src : Bytes) (k : Disk) (h1 : k.src = src) (h3 : k.rfd = some (inp, 0))
    (hsz : sf = true → f.size.toInt ≤ src.length) :
    wp (Disk.step S to.pathname) (Ends n src) (copyInto sf n hd inp f to d ec) k := by
  unfold copyInto
  intro r k' hs
  rcases r with e | out
  · exact wp_report (by intro _ h; cases h) (by intro _ h; cases h)
  simp only [Disk.step, h3] at hs
  obtain ⟨hfr, _, hs⟩ := hs
  rw [if_neg (by simp), if_pos (by simp)] at hs
  obtain ⟨_, rfl⟩ := hs
  apply wpT_closing
  simp only [Prog.bind_eq, refreshStatus_eq, Prog.call_bind]
  intro r k' hs
  rcases r with e | st
  · simp only [Prog.ret_bind, ne_eq, reduceCtorEq, not_false_eq_true, if_true]
    exact wp_report (by intro _ h; cases h) (by intro _ h; cases h)
  simp only [Disk.step] at hs
  obtain ⟨_, rfl⟩ := hs
  simp only [Prog.ret_bind, ne_eq, not_true_eq_false, if_false]
  have fin : ∀ k1 : Disk, ReadTo inp out src k1 0 → wp (Disk.step S to.pathname) (Ends n src)
      ((doCopyFile sf n inp out f.size.toInt).bind fun m =>
        if ¬ m = none then hd.report ec m false else .ret (true, ec)) k1 := by
    intro k1 hk1
    apply wp_bind
    refine wp_mono ?_ (wpT_doCopyFile sf n inp out _ src k1 hk1 hsz)
    intro o k2 ho
    rcases o with x | c | c
    · intro h; cases h; exact ho rfl
    · simp only [not_true_eq_false, if_false]
      intro h; cases h
    · simp only [reduceCtorEq, not_false_eq_true, if_true]
      exact wp_report (by intro _ h; cases h) (by intro _ h; cases h)
  cases d with
  | none => exact fin _ ⟨h1, rfl, _, rfl⟩
  | some x =>
    simp only
    split
    · exact wp_report (by intro _ h; cases h) (by intro _ h; cases h)
    intro r k' hs
    rcases r with e | u
    · exact wp_report (by intro _ h; cases h) (by intro _ h; cases h)
    simp only [Disk.step] at hs
    subst hs
    intro r k' hs
    rcases r with e | u
    · exact wp_report (by intro _ h; cases h) (by intro _ h; cases h)
    simp only [Disk.step, if_true] at hs
    subst hs
    exact fin _ ⟨h1, rfl, _, rfl⟩

/-- C27, the part that holds: if the source has at least the size `lstat` reported when it is copied
(with `sendfile`; no condition without), then `copy_file` does not run out of more rounds than the
source has bytes, whatever the kernel answers: it terminates.
Missing: a source that is truncated meanwhile (`c27_violated`). -/
theorem c27_terminates_partial (sf : Bool) (n : Nat) (src to : Path) (opts : CopyOptions) (ec : EcArg) (t : List Event)
    (o : Except Stop (Bool × EcArg)) (k k' : Disk) (hidle : k.idle) (hsz : sf = true → k.size ≤ k.src.length)
    (h : Exec (copyFile sf n src to opts ec) t o)
    (hk : Steps (Disk.step src.pathname to.pathname) k t k') (hn : k.src.length < n) :
    o ≠ .error .fuel := by
  suffices hs : wp (Disk.step src.pathname to.pathname) (Ends n k.src) (copyFile sf n src to opts ec) k by
    intro ho
    have := wp_sound hs h hk ho
    omega
  unfold copyFile
  intro r k1 hs
  rcases r with e | inp
  · exact wp_report (by intro _ h; cases h) (by intro _ h; cases h)
  simp only [Disk.step, hidle.1, hidle.2, and_self, if_true] at hs
  obtain ⟨_, _, rfl⟩ := hs
  apply wpT_closing
  simp only [copyOpened, Prog.bind_eq, refreshStatus_eq, Prog.call_bind]
  intro r k1 hs
  rcases r with e | f
  · simp only [Prog.ret_bind, ne_eq, reduceCtorEq, not_false_eq_true, if_true]
    exact wp_report (by intro _ h; cases h) (by intro _ h; cases h)
  simp only [Disk.step] at hs
  obtain ⟨hf, rfl⟩ := hs
  have hf := hf trivial
  rw [← hf] at hsz
  simp only [Prog.ret_bind, ne_eq, not_true_eq_false, if_false]
  split
  · exact wp_report (by intro _ h; cases h) (by intro _ h; cases h)
  simp only [getFileStatus_ref, Prog.call_bind]
  intro r k1 hs
  rcases r with e | d
  · simp only [Disk.step] at hs
    obtain ⟨hm, rfl⟩ := hs
    simp only [Prog.ret_bind, FStatus.known, FStatus.exists', typeOfErr]
    by_cases he : e = .ENOENT ∨ e = .ENOTDIR
    · simp only [he, if_true, bne, Bool.not_and, show (FType.notFound == FType.none) = false from rfl,
        show (FType.notFound == FType.notFound) = true from rfl, Bool.not_true, Bool.not_false, Bool.or_true,
        Bool.false_eq_true, if_false]
      exact wpT_copyInto sf n _ inp f to none _ _ _ rfl rfl hsz
    · simp only [he, if_false, bne, show (FType.none == FType.none) = true from rfl, Bool.not_true, Bool.not_false, if_true]
      exact wp_report (by intro _ h; cases h) (by intro _ h; cases h)
  · simp only [Disk.step] at hs
    obtain ⟨hm, rfl⟩ := hs
    simp only [Prog.ret_bind, Prog.useStat, statusOf_known, statusOf_exists, Bool.not_true, Bool.false_eq_true, if_false]
    repeat' split
    all_goals first
      | exact wp_report (by intro _ h; cases h) (by intro _ h; cases h)
      | exact wpT_copyInto sf n _ inp f to (some d) _ _ _ rfl rfl hsz
      | (intro h; cases h)
      | (apply wp_bind; exact wp_report (by intro _ h; cases h) (by intro _ h; cases h))

theorem exec_zeros (n : Nat) : Exec (sendLoop 4 3 n 5)
    (List.replicate n ⟨.sendfile 4 3 5, (.ok 0 : Except Errno Nat)⟩) (.error .fuel) := by
  induction n with
  | zero => exact .stop _
  | succ n ih => exact .call _ _ _ _ _ ih

/-- C27 is false: the source is truncated after `lstat` reported 5 bytes; `sendfile` then answers 0 for
ever, and no number of rounds is enough. -/
theorem c27_violated : ∃ k : Disk, k.idle ∧ ∀ n, ∃ (t : List Event) (k' : Disk),
    Exec (copyFile true n (mkPath .posix "a".toList) (mkPath .posix "b".toList) CopyOptions.none (.ref none)) t
      (.error .fuel) ∧
    Steps (Disk.step "a".toList "b".toList) k t k' := by
  refine ⟨⟨[], none, 5, none, none⟩, ⟨rfl, rfl⟩, fun n => ⟨copyTrace 5 (List.replicate n
    ⟨.sendfile 4 3 5, (.ok 0 : Except Errno Nat)⟩), ⟨[], some [], 5, some (3, 0), some (4, 0)⟩, ?_, ?_⟩⟩
  · have h1 : Exec (doCopyFile true n 3 4 5) (List.replicate n ⟨.sendfile 4 3 5, (.ok 0 : Except Errno Nat)⟩) (.error .fuel) := by
      unfold doCopyFile copySendfile
      simp only [if_true, Prog.bind_eq]
      rw [if_neg (by decide)]
      exact exec_bind.mpr (.inl ⟨_, exec_bind.mpr (.inl ⟨_, exec_zeros n, rfl⟩), rfl⟩)
    refine .call _ _ _ _ _ (exec_closing.mpr (.inr ⟨id, ?_⟩))
    refine .call _ _ _ _ _ (.call _ _ _ _ _ (.call _ _ _ _ _ (exec_closing.mpr (.inr ⟨id, ?_⟩))))
    refine .call _ _ _ _ _ ?_
    exact exec_bind.mpr (.inr ⟨_, [], _, rfl, .ret _, exec_bind.mpr (.inl ⟨_, h1, rfl⟩)⟩)
  · simp only [copyTrace, List.cons_append, List.nil_append]
    iterate 5 (refine .cons (by simp [Disk.step]; first | done | rfl | exact ⟨rfl, rfl⟩) ?_)
    induction n with
    | zero => exact .nil _
    | succ n ih => exact .cons (by simp [Disk.step, overwrite]) ih

/-! ## C56 -/

/-- The descriptors that are open, after an event; `none` once a descriptor that is not open has been
used or closed. -/
def Spec.useFd (s : Option (List Nat)) (ev : Event) : Option (List Nat) :=
  match s, ev with
  | none, _ => none
  | some fds, ⟨.openf _ _ _, .ok fd⟩ => some (fd :: fds)
  | some fds, ⟨.close fd, _⟩ => if fd ∈ fds then some (fds.erase fd) else none
  | some fds, ⟨.fchmod fd _, _⟩ | some fds, ⟨.ftruncate fd _, _⟩ | some fds, ⟨.read fd _, _⟩
  | some fds, ⟨.write fd _, _⟩ => if fd ∈ fds then some fds else none
  | some fds, ⟨.sendfile o i _, _⟩ => if o ∈ fds ∧ i ∈ fds then some fds else none
  | some fds, _ => some fds

/-- The kernel never hands out a descriptor that is open. -/
def Spec.freshFd (s : Option (List Nat)) (ev : Event) : Prop :=
  match s, ev with
  | some fds, ⟨.openf _ _ _, .ok fd⟩ => fd ∉ fds
  | _, _ => True

abbrev fstep (s : Option (List Nat)) (e : Event) (s' : Option (List Nat)) : Prop := s' = useFd s e ∧ freshFd s e

/-- Uses of open descriptors leave the table alone. -/
theorem wpF_copyDefault (inp out : Nat) (fds : List Nat) (hi : inp ∈ fds) (ho : out ∈ fds) (n : Nat) :
    wp fstep (fun _ s => s = some fds) (copyDefault inp out n) (some fds) := by
  induction n with
  | zero => rfl
  | succ n ih =>
    rintro r s ⟨rfl, _⟩
    rcases r with e | data
    · simp [useFd, hi, wp]
    simp only [useFd, hi, if_true]
    split
    · rfl
    · rintro r s ⟨rfl, _⟩
      rcases r with e | m
      · simp [useFd, ho, wp]
      · simpa [useFd, ho] using ih

theorem wpF_sendLoop (inp out : Nat) (fds : List Nat) (hi : inp ∈ fds) (ho : out ∈ fds) (n : Nat) (c : Int) :
    wp fstep (fun _ s => s = some fds) (sendLoop out inp n c) (some fds) := by
  induction n generalizing c with
  | zero => rfl
  | succ n ih =>
    rintro r s ⟨rfl, _⟩
    rcases r with e | m
    · simp [useFd, hi, ho, wp]
    simp only [useFd, hi, ho, and_self, if_true]
    split
    · exact ih _
    · rfl

theorem wpF_doCopyFile (sf : Bool) (n inp out : Nat) (size : Int) (fds : List Nat) (hi : inp ∈ fds) (ho : out ∈ fds) :
    wp fstep (fun _ s => s = some fds) (doCopyFile sf n inp out size) (some fds) := by
  unfold doCopyFile
  simp only [Prog.bind_eq]
  cases sf with
  | false => exact wpF_copyDefault inp out fds hi ho n
  | true =>
    simp only [if_true, copySendfile]
    apply wp_bind
    split
    · exact wpF_copyDefault inp out fds hi ho n
    · simp only [Prog.bind_eq]
      apply wp_bind
      refine wp_mono ?_ (wpF_sendLoop inp out fds hi ho n size)
      rintro o s rfl
      rcases o with x | c | c
      · rfl
      · rfl
      · exact wpF_copyDefault inp out fds hi ho n

/-- Descriptors besides `fds` at the end. -/
abbrev Leaves {α : Type} (fds : List Nat) (o : Except Stop α) (s : Option (List Nat)) : Prop :=
  (Unwinds o → s = some fds) ∧ s ≠ none

theorem leaves_refl {α : Type} (fds : List Nat) (o : Except Stop α) : Leaves fds o (some fds) :=
  ⟨fun _ => rfl, by simp⟩

theorem wpF_closing {p : Prog (Bool × EcArg)} {fd : Nat} {fds : List Nat}
    (h : wp fstep (Leaves (fd :: fds)) p (some (fd :: fds))) :
    wp fstep (Leaves fds) (p.finally' (closeFd fd)) (some (fd :: fds)) := by
  apply wp_finally
  refine wp_mono ?_ h
  rintro o s ⟨h1, h2⟩
  refine ⟨fun hu => ?_, fun hu => ⟨fun h => absurd h hu, h2⟩⟩
  rw [h1 hu]
  rintro r s' ⟨rfl, _⟩
  simp only [useFd, List.mem_cons, true_or, if_true, List.erase_cons_head]
  exact leaves_refl ..

theorem wpF_report {α : Type} {hd : Handler} {ec : EcArg} {c : Code} {d : α} {fds : List Nat} :
    wp fstep (Leaves fds) (hd.report ec c d) (some fds) := by
  unfold Handler.report
  cases ec <;> exact leaves_refl ..

theorem wpF_copyInto (sf : Bool) (n : Nat) (hd : Handler) (inp : Nat) (f : Stat) (to : Path) (d : Option Stat) (ec : EcArg)
    (fds : List Nat) (hi : inp ∈ fds) : wp fstep (Leaves fds) (copyInto sf n hd inp f to d ec) (some fds) := by
  unfold copyInto
  rintro r s ⟨rfl, _⟩
  rcases r with e | out
  · exact wpF_report
  apply wpF_closing
  simp only [Prog.bind_eq, refreshStatus_eq, Prog.call_bind]
  rintro r s ⟨rfl, _⟩
  simp only [useFd]
  rcases r with e | st
  · exact wpF_report
  simp only [Prog.ret_bind, ne_eq, not_true_eq_false, if_false]
  have fin : wp fstep (Leaves (out :: fds))
      ((doCopyFile sf n inp out f.size.toInt).bind fun m =>
        if ¬ m = none then hd.report ec m false else .ret (true, ec)) (some (out :: fds)) := by
    apply wp_bind
    refine wp_mono ?_ (wpF_doCopyFile sf n inp out _ (out :: fds) (by simp [hi]) (by simp))
    rintro o s rfl
    rcases o with x | c
    · exact leaves_refl ..
    · simp only
      split
      · exact wpF_report
      · exact leaves_refl ..
  cases d with
  | none => exact fin
  | some x =>
    simp only
    split
    · exact wpF_report
    rintro r s ⟨rfl, _⟩
    rcases r with e | u
    · simp only [useFd, List.mem_cons, true_or, if_true]; exact wpF_report
    simp only [useFd, List.mem_cons, true_or, if_true]
    rintro r s ⟨rfl, _⟩
    rcases r with e | u
    · simp only [useFd, List.mem_cons, true_or, if_true]; exact wpF_report
    simp only [useFd, List.mem_cons, true_or, if_true]
    exact fin

/-- C56: `copy_file` uses and closes only descriptors it opened and has not closed, and when it returns or
throws it has closed them all. -/
theorem c56_descriptors (sf : Bool) (n : Nat) (src to : Path) (opts : CopyOptions) (ec : EcArg) (t : List Event)
    (o : Except Stop (Bool × EcArg)) (s : Option (List Nat)) (h : Exec (copyFile sf n src to opts ec) t o)
    (hs : Steps (fun s e s' => s' = useFd s e ∧ freshFd s e) (some []) t s) :
    s ≠ none ∧ ((∃ v, o = .ok v) ∨ (∃ x, o = .error (.thrown x)) → s = some []) := by
  suffices hw : wp fstep (Leaves []) (copyFile sf n src to opts ec) (some []) by
    obtain ⟨h1, h2⟩ := wp_sound hw h hs
    refine ⟨h2, ?_⟩
    rintro (⟨v, rfl⟩ | ⟨x, rfl⟩) <;> exact h1 trivial
  unfold copyFile
  rintro r s ⟨rfl, _⟩
  rcases r with e | inp
  · exact wpF_report
  apply wpF_closing
  simp only [copyOpened, Prog.bind_eq, refreshStatus_eq, Prog.call_bind]
  rintro r s ⟨rfl, _⟩
  simp only [useFd]
  rcases r with e | f
  · exact wpF_report
  simp only [Prog.ret_bind, ne_eq, not_true_eq_false, if_false]
  split
  · exact wpF_report
  simp only [getFileStatus_ref, Prog.call_bind]
  rintro r s ⟨rfl, _⟩
  simp only [useFd]
  rcases r with e | d
  · simp only [Prog.ret_bind, FStatus.known, FStatus.exists', typeOfErr]
    by_cases he : e = .ENOENT ∨ e = .ENOTDIR
    · simp only [he, if_true, bne, Bool.not_and, show (FType.notFound == FType.none) = false from rfl,
        show (FType.notFound == FType.notFound) = true from rfl, Bool.not_true, Bool.not_false, Bool.or_true,
        Bool.false_eq_true, if_false]
      exact wpF_copyInto _ _ _ _ _ _ _ _ _ (by simp)
    · simp only [he, if_false, bne, show (FType.none == FType.none) = true from rfl, Bool.not_true, Bool.not_false, if_true]
      exact wpF_report
  · simp only [Prog.ret_bind, Prog.useStat, statusOf_known, statusOf_exists, Bool.not_true, Bool.false_eq_true, if_false]
    repeat' split
    all_goals first
      | exact wpF_report
      | exact wpF_copyInto _ _ _ _ _ _ _ _ _ (by simp)
      | exact leaves_refl ..
      | (apply wp_bind
         refine wp_mono ?_ (wpF_report (fds := [inp]))
         rintro o s ⟨h1, h2⟩
         cases o with
         | ok v => exact ⟨fun _ => h1 trivial, h2⟩
         | error x => exact ⟨h1, h2⟩)

/-- A case with both files open when an error occurs. -/
example : ∃ (t : List Event),
    Exec (copyFile false 5 (mkPath .posix "a".toList) (mkPath .posix "b".toList) CopyOptions.none .null) t
      (.error (.thrown ⟨"in copy_file".toList, 2, mkPath .posix "b".toList, mkPath .posix "a".toList, some .ENOSPC⟩)) ∧
    Steps (fun s e s' => s' = useFd s e ∧ freshFd s e) (some []) t (some []) := by
  refine ⟨copyTrace 3 ([⟨.read 3 8192, (.ok [2] : Except Errno Bytes)⟩, ⟨.write 4 [2], (.error .ENOSPC : Except Errno Nat)⟩] ++
    closes), ?_, ?_⟩
  · exact .call _ _ _ _ _ (.call _ _ _ _ _ (.call _ _ _ _ _ (.call _ _ _ _ _ (.call _ _ _ _ _ (.call _ _ _ _ _
      (.call _ _ _ _ _ (.call _ _ _ _ _ (.call _ _ _ _ _ (.stop _)))))))))
  · simp only [copyTrace, closes, List.cons_append, List.nil_append]
    repeat (refine .cons ⟨rfl, by simp [freshFd, useFd]⟩ ?_)
    exact .nil _

end Asap
