import Verif.Props.WinR
import Verif.Path.WinFile
import Verif.Props.OpsB

/-!
# `permissions`, `absolute`, `space` and `temp_directory_path` on Windows: C84, C85, C86, C87
-/

namespace Asap
open Spec

namespace Win

/-- What `status` and `symlink_status` of `p` answer, and why. -/
def Answered (p : Path) (o : Except Stop (FStatus × EcArg)) (t : List Event) : Prop :=
  ∃ st, (∃ e, o = .ok (st, .ref (some e))) ∨
    o = .ok (st, .ref none) ∧ ∃ a : BitVec 32, (⟨.win (.getPerms p.pathname a), (.ok st.perms : Except Errno Mode)⟩ : Event) ∈ t

theorem answered_failure (p : Path) (e : Errno) (t : List Event) : Answered p (.ok (processStatusFailure e (.ref none))) t := by
  unfold processStatusFailure
  split
  · exact ⟨_, .inl ⟨_, rfl⟩⟩
  · split
    · exact ⟨_, .inl ⟨_, rfl⟩⟩
    · split
      · exact ⟨_, .inl ⟨_, rfl⟩⟩
      · exact ⟨_, .inl ⟨_, rfl⟩⟩

/-- A scope with an open file: the events of the scope stay. -/
theorem wp_withFile_tr {α : Type} {Q : Except Stop α → List Event → Prop} {p : Path} {o : WinOpen}
    {fail : Errno → Prog α} {body : Nat → Prog α} {s : List Event}
    (hf : ∀ e s', (∃ r, s' = s ++ r) → wp Tr Q (fail e) s')
    (hb : ∀ h s', (∃ r, s' = s ++ r) → wp Tr (fun o s => Unwinds o ∧ ∀ e, Q o (s ++ [e])) (body h) s') :
    wp Tr Q (withFile p o fail body) s := by
  rintro (e | h) s' rfl
  · exact hf e _ ⟨_, rfl⟩
  · refine wp_finally (wp_mono ?_ (hb h _ ⟨_, rfl⟩))
    rintro o s1 ⟨hu, h1⟩
    refine ⟨fun _ r s2 h2 => ?_, fun h => absurd hu h⟩
    subst h2
    exact h1 _

theorem wp_status_answered (p : Path) (c : Code) (s : List Event) :
    wp Tr (Answered p) (status p (.ref c)) s := by
  unfold status
  rintro (e | a) s' rfl
  · exact answered_failure p e _
  · refine wp_bind (wp_mono (Q := fun o _ => ∃ r, o = .ok r) ?_ ?_)
    · rintro _ s1 ⟨r, rfl⟩
      rcases r with e | b
      · exact answered_failure p e _
      · rintro (e | m) s2 rfl
        · exact answered_failure p e _
        · exact ⟨_, .inr ⟨rfl, b, by simp⟩⟩
    · unfold targetAttrs
      split
      · refine wp_withFile_tr (fun e s' _ => ⟨_, rfl⟩) ?_
        rintro h s' _ (e | b) s2 _
        · exact ⟨trivial, fun _ => ⟨_, rfl⟩⟩
        · exact ⟨trivial, fun _ => ⟨_, rfl⟩⟩
      · exact ⟨_, rfl⟩

theorem wp_symlinkStatus_answered (p : Path) (c : Code) (s : List Event) :
    wp Tr (Answered p) (symlinkStatus p (.ref c)) s := by
  unfold symlinkStatus
  rintro (e | a) s' rfl
  · exact answered_failure p e _
  · rintro (e | m) s2 rfl
    · exact answered_failure p e _
    · dsimp only
      have hin : (⟨.win (.getPerms p.pathname a), (.ok m : Except Errno Mode)⟩ : Event) ∈
          s ++ [⟨.win (.getAttrs p.pathname), (.ok a : Except Errno (BitVec 32))⟩] ++ [⟨.win (.getPerms p.pathname a), (.ok m : Except Errno Mode)⟩] := by simp
      split
      · refine wp_bind (wp_mono (Q := fun o s => (∃ b, (∃ e, o = .ok (b, .ref (some e))) ∨ o = .ok (b, .ref none)) ∧
          (⟨.win (.getPerms p.pathname a), (.ok m : Except Errno Mode)⟩ : Event) ∈ s) ?_ ?_)
        · rintro _ s3 ⟨⟨b, ⟨e, rfl⟩ | rfl⟩, h⟩
          · exact ⟨_, .inl ⟨_, rfl⟩⟩
          · exact ⟨_, .inr ⟨rfl, a, h⟩⟩
        · unfold isReparsePointSymlink
          refine wp_withFile_tr ?_ ?_
          · rintro e s' ⟨r, rfl⟩
            exact ⟨⟨_, .inl ⟨e, rfl⟩⟩, List.mem_append_left _ hin⟩
          · rintro h s' ⟨r, rfl⟩ (e | ws) s2 rfl
            · exact ⟨trivial, fun _ => ⟨⟨_, .inl ⟨e, rfl⟩⟩, List.mem_append_left _ (List.mem_append_left _ (List.mem_append_left _ hin))⟩⟩
            · exact ⟨trivial, fun _ => ⟨⟨_, .inr rfl⟩, List.mem_append_left _ (List.mem_append_left _ (List.mem_append_left _ hin))⟩⟩
      · exact ⟨_, .inr ⟨rfl, a, hin⟩⟩

end Win

/-! ## C84 -/

/-- The mode `permissions` asks for, if the file has the mode `old`. -/
def Spec.winNewMode (replace add : Bool) (old prms : Mode) : Mode :=
  if replace then prms &&& 0o7777 else if add then old ||| (prms &&& 0o7777) else old &&& ~~~ (prms &&& 0o7777)

/-- C84. Given exactly one of the options replace, add and remove: if the current mode is needed (add, remove or nofollow)
the file is examined first, without changing anything; if that fails the error is reported and nothing is changed;
the same if the mode is unknown, but then an assertion fails. Otherwise exactly one request to set the permissions of `p` is
made, with the mode of `winNewMode` for the mode found. Its failure is reported. -/
theorem c84_permissions (p : Path) (prms : Perms) (opts : PermOptions) (rep add rem : Bool)
    (hact : OneAction opts rep add rem) (c : Code) (t : List Event) (o : Except Stop (Unit × EcArg))
    (h : Exec (Win.permissions p prms opts (.ref c)) t o) :
    let nofollow := opts.getLsbD 3
    let result (r : Except Errno Unit) : Code := match r with | .ok () => none | .error e => some e
    (nofollow = false ∧ rep = true → ∃ r : Except Errno Unit,
      t = [⟨.win (.setPerms p.pathname (prms &&& 0o7777)), r⟩] ∧ o = .ok ((), .ref (result r))) ∧
    (nofollow = true ∨ rep = false → ∃ t1 t2, t = t1 ++ t2 ∧ (∀ ev ∈ t1, ev.call.mutates = false) ∧
      ((∃ e, t2 = [] ∧ o = .ok ((), .ref (some e))) ∨
      ∃ (m : Mode) (a : BitVec 32), (⟨.win (.getPerms p.pathname a), (.ok m : Except Errno Mode)⟩ : Event) ∈ t1 ∧
        ((t2 = [] ∧ m = Perms.unknown ∧ o = .error (.fault .assertFail)) ∨
        ∃ r : Except Errno Unit, t2 = [⟨.win (.setPerms p.pathname (winNewMode rep add m prms)), r⟩] ∧
          o = .ok ((), .ref (result r))))) := by
  intro nofollow result
  obtain ⟨hr, ha, hm, hone⟩ := hact
  have b0 : ((PermOptions.replace &&& opts) != 0) = rep := by rw [hr]; exact has_bit opts 0 (by omega)
  have b1 : ((PermOptions.add &&& opts) != 0) = add := by rw [ha]; exact has_bit opts 1 (by omega)
  have b2 : ((PermOptions.remove &&& opts) != 0) = rem := by rw [hm]; exact has_bit opts 2 (by omega)
  have b3 : ((PermOptions.nofollow &&& opts) != 0) = nofollow := has_bit opts 3 (by omega)
  have hcount : ¬ (add.toNat + rem.toNat + rep.toNat ≠ 1) := by
    rcases hone with ⟨rfl, rfl, rfl⟩ | ⟨rfl, rfl, rfl⟩ | ⟨rfl, rfl, rfl⟩ <;> decide
  have mask : Perms.mask = 0o7777 := rfl
  have hcall : ∀ (m : Mode) (t' : List Event), Exec (Win.putPerms p m (.ref none)) t' o →
      ∃ r : Except Errno Unit, t' = [⟨.win (.setPerms p.pathname m), r⟩] ∧ o = .ok ((), .ref (result r)) := by
    intro m t' h'
    obtain ⟨r, t', rfl, h2⟩ := exec_call.mp h'
    rcases r with e | u
    · obtain ⟨rfl, rfl⟩ := exec_ret.mp h2
      exact ⟨.error e, rfl, rfl⟩
    · obtain ⟨rfl, rfl⟩ := exec_ret.mp h2
      exact ⟨.ok (), rfl, rfl⟩
  simp only [Win.permissions, clear_ref, b0, b1, b2, b3, hcount, if_false, Bool.not_not, Prog.bind_eq] at h
  constructor
  · rintro ⟨hn, hr'⟩
    have hcond : (nofollow || (add || rem)) = false := by
      rw [hn]
      rcases hone with ⟨_, h1, h2⟩ | ⟨h0, _⟩ | ⟨h0, _⟩
      · rw [h1, h2]; rfl
      · rw [h0] at hr'; cases hr'
      · rw [h0] at hr'; cases hr'
    simp only [hcond, Bool.false_eq_true, if_false] at h
    exact hcall _ _ h
  · intro hneed
    have hcond : (nofollow || (add || rem)) = true := by
      rcases hneed with hn | hn
      · rw [hn]; rfl
      · rcases hone with ⟨h0, _, _⟩ | ⟨_, h1, _⟩ | ⟨_, _, h1⟩
        · rw [h0] at hn; cases hn
        · rw [h1]; simp
        · rw [h1]; simp
    simp only [hcond, if_true] at h
    have hlook : ∀ t' o', Exec (if (!nofollow) = true then Win.status p (.ref none) else Win.symlinkStatus p (.ref none)) t' o' →
        (∀ ev ∈ t', ev.call.mutates = false) ∧ Win.Answered p o' t' := by
      intro t' o' hx
      cases hnf : nofollow <;> rw [hnf] at hx
      · exact ⟨fun ev hev => ((Win.only_status p _).exec hx).1 ev hev, wp_tr (Win.wp_status_answered p none []) hx⟩
      · exact ⟨fun ev hev => ((Win.only_symlinkStatus p _).exec hx).1 ev hev, wp_tr (Win.wp_symlinkStatus_answered p none []) hx⟩
    rcases exec_bind.mp h with ⟨x, h1, rfl⟩ | ⟨⟨st, ec⟩, t1, t2, rfl, h1, h2⟩
    · obtain ⟨_, st, ⟨e, h⟩ | ⟨h, _⟩⟩ := hlook _ _ h1 <;> cases h
    · obtain ⟨hh, st', hx⟩ := hlook _ _ h1
      refine ⟨t1, t2, rfl, hh, ?_⟩
      rcases hx with ⟨e, he⟩ | ⟨he, a, hin⟩
      · cases he
        left
        obtain ⟨rfl, rfl⟩ := exec_ret.mp h2
        exact ⟨e, rfl, rfl⟩
      · cases he
        right
        refine ⟨_, a, hin, ?_⟩
        dsimp only [EcArg.isSet] at h2
        by_cases hu : st.perms = Perms.unknown
        · left
          simp only [Bool.false_eq_true, if_false, Option.isSome_none, hu, if_true] at h2
          obtain ⟨rfl, rfl⟩ := exec_stop.mp h2
          exact ⟨rfl, hu, rfl⟩
        · right
          simp only [Bool.false_eq_true, if_false, Option.isSome_none, hu] at h2
          obtain ⟨r, rfl, rfl⟩ := hcall _ _ h2
          refine ⟨r, ?_, rfl⟩
          congr 3
          unfold winNewMode
          rw [mask]
          rcases hone with ⟨rfl, rfl, rfl⟩ | ⟨rfl, rfl, rfl⟩ | ⟨rfl, rfl, rfl⟩
          · rfl
          · simp only [Bool.false_eq_true, if_true, if_false]; rw [BitVec.or_comm]
          · rfl

/-- Given none or several of the options replace, add and remove, an assertion fails before any call. -/
theorem c84_options (p : Path) (prms : Perms) (opts : PermOptions) (hact : ∀ r a m, ¬ OneAction opts r a m) (ec : EcArg)
    (t : List Event) (o : Except Stop (Unit × EcArg)) (h : Exec (Win.permissions p prms opts ec) t o) :
    t = [] ∧ o = .error (.fault .assertFail) := by
  have h0 : ((PermOptions.replace &&& opts) != 0) = opts.getLsbD 0 := has_bit opts 0 (by omega)
  have h1 : ((PermOptions.add &&& opts) != 0) = opts.getLsbD 1 := has_bit opts 1 (by omega)
  have h2 : ((PermOptions.remove &&& opts) != 0) = opts.getLsbD 2 := has_bit opts 2 (by omega)
  have hno := hact (opts.getLsbD 0) (opts.getLsbD 1) (opts.getLsbD 2)
  simp only [OneAction, true_and] at hno
  simp only [Win.permissions, h0, h1, h2] at h
  rw [if_pos] at h
  · exact exec_stop.mp h
  · revert hno
    cases opts.getLsbD 0 <;> cases opts.getLsbD 1 <;> cases opts.getLsbD 2 <;> simp

/-- Adding to the mode found. -/
example : ∃ t, Exec (Win.permissions (mkPath .windows "f".toList) 0o022 PermOptions.add (.ref none)) t (.ok ((), .ref none)) ∧
    t = [⟨.win (.getAttrs "f".toList), (.ok 0x20#32 : Except Errno (BitVec 32))⟩,
      ⟨.win (.getPerms "f".toList 0x20#32), (.ok 0o644#32 : Except Errno Mode)⟩,
      ⟨.win (.setPerms "f".toList 0o666#32), (.ok () : Except Errno Unit)⟩] ∧ OneAction PermOptions.add false true false :=
  ⟨_, feed_exec (by decide +kernel), rfl, by decide⟩

/-! ## C85 -/

theorem winHasDir_elements (v : Str) : winHasDir v = true ↔ ['\\'] ∈ winElements v := by
  have hsep : ∀ w : Str, (∀ c ∈ w, winSep c = false) → w ≠ ['\\'] := by
    rintro w h rfl
    have := h '\\' (by simp)
    cases this
  constructor
  · intro h; simp [winElements, h]
  · intro h
    simp only [winElements, List.mem_append] at h
    rcases h with ((h | h) | h) | h
    · split at h
      · cases h
      · rename_i hz
        have h1 := List.mem_singleton.mp h
        have h2 := winRootName_length v
        rw [← h1] at h2
        have := winRootLen_ge hz
        simp at h2
        omega
    · split at h
      · assumption
      · cases h
    · exact absurd rfl (hsep _ (winNames_mem h).2)
    · split at h
      · have := List.mem_singleton.mp h; cases this
      · cases h

/-- C85 (partial: for a path that names no other drive than the working directory's, and a working directory that does not
grow between the two calls that ask for it). A path with a root name that is absolute is returned as it is. Otherwise the working
directory is asked for; if that fails the error is reported; else the result has the elements of the working directory `s`
combined with those of the path as by `operator/`, and if `s` has a root name and a root directory, so does the result. -/
theorem c85_absolute_partial (u : Str) (c : Code) (t : List Event) (o : Except Stop (Path × EcArg))
    (h : Exec (Win.absolute (mkPath .windows u) (.ref c)) t o) :
    ((winUnc u = true ∨ winHasDir u = true) ∧ winRootName u ≠ [] → t = [] ∧ o = .ok (mkPath .windows u, .ref none)) ∧
    (¬ ((winUnc u = true ∨ winHasDir u = true) ∧ winRootName u ≠ []) → ∃ (size : Nat) (r : Except Errno (Option Str)),
      t = [⟨.win .cwdSize, size⟩, ⟨.win (.getCwd size), r⟩] ∧
      match r with
      | .error e => o = .ok (.default, .ref (some e))
      | .ok none => o = .error (.fault .ub)
      | .ok (some s) => ∃ v, o = .ok (mkPath .windows v, .ref none) ∧ winElements v = winAppended s u ∧
          (winRootName s ≠ [] → winHasDir s = true → winRootName u = [] ∨ winRootName u = winRootName s →
            winRootName v = winRootName s ∧ winHasDir v = true ∧ isAbsolute .windows (mkPath .windows v) = .ok true)) := by
  have hz := winRootName_nil u
  simp only [Win.absolute, Win.doAbsolute, clear_ref, win_isAbsolute, win_hasRootName, Prog.ofRes_ok, Prog.ret_bind] at h
  constructor
  · rintro ⟨h1, h2⟩
    rw [if_pos] at h
    · obtain ⟨rfl, rfl⟩ := exec_ret.mp h
      exact ⟨rfl, rfl⟩
    · rw [ne_eq, hz] at h2
      simpa [h2] using h1
  · intro h1
    rw [if_neg] at h
    · obtain ⟨size, t1, rfl, h2⟩ := exec_call.mp h
      obtain ⟨r, t2, rfl, h3⟩ := exec_call.mp h2
      rcases r with e | _ | s
      · obtain ⟨rfl, rfl⟩ := exec_ret.mp h3
        exact ⟨size, .error e, rfl, rfl⟩
      · obtain ⟨rfl, rfl⟩ := exec_stop.mp h3
        exact ⟨size, .ok none, rfl, rfl⟩
      · obtain ⟨v, hv1, hv2⟩ := win_append s u
        simp only [Prog.ret_bind, EcArg.isSet, hv1, Prog.ofRes_ok] at h3
        obtain ⟨rfl, rfl⟩ := exec_ret.mp h3
        refine ⟨size, .ok (some s), rfl, v, rfl, hv2, ?_⟩
        intro hr hd hcomp
        have hrl : winRootLen s ≠ 0 := fun h => hr ((winRootName_nil s).mpr h)
        have hel : ∃ l, winElements v = winRootName s :: ['\\'] :: l := by
          rw [hv2, winAppended, if_neg]
          · rw [if_neg hrl]
            split
            · exact ⟨_, rfl⟩
            · rw [if_pos (.inl hd)]
              exact ⟨_, rfl⟩
          · rintro ⟨h4, h5⟩
            rcases hcomp with h | h
            · exact h4 h
            · exact h5 h
        obtain ⟨l, hl⟩ := hel
        have hvd : winHasDir v = true := by rw [winHasDir_elements, hl]; simp
        have hvr : winRootName v = winRootName s := by
          rw [winElements, hvd] at hl
          by_cases h0 : winRootLen v = 0
          · rw [if_pos h0] at hl
            injection hl with hl _
            have h2 := winRootName_length s
            rw [← hl] at h2
            have := winRootLen_ge hrl
            simp at h2
            omega
          · rw [if_neg h0] at hl
            injection hl
        exact ⟨hvr, hvd, by rw [win_isAbsolute, hvd]; simp⟩
    · rw [ne_eq, hz] at h1
      simpa using h1

/-- C85 is false. (1) A path on another drive without a root directory is returned as it is and is not absolute. (2) If the
working directory is replaced by one with a longer name between the two calls, an uninitialised buffer is read. -/
theorem c85_violated :
    (∃ t, Exec (Win.absolute (mkPath .windows "D:foo".toList) (.ref none)) t (.ok (mkPath .windows "D:foo".toList, .ref none)) ∧
      t = [⟨.win .cwdSize, (6 : Nat)⟩, ⟨.win (.getCwd 6), (.ok (some "C:\\dir".toList) : Except Errno (Option Str))⟩]) ∧
    isAbsolute .windows (mkPath .windows "D:foo".toList) = .ok false ∧
    ∃ t, Exec (Win.absolute (mkPath .windows "foo".toList) (.ref none)) t (.error (.fault .ub)) ∧
      t = [⟨.win .cwdSize, (6 : Nat)⟩, ⟨.win (.getCwd 6), (.ok none : Except Errno (Option Str))⟩] :=
  ⟨⟨_, feed_exec (by decide +kernel), rfl⟩, by decide +kernel, ⟨_, feed_exec (by decide +kernel), rfl⟩⟩

example : winAppended "C:\\dir".toList "\\x".toList = ["C:", "\\", "x"].map String.toList ∧
    winAppended "C:\\dir".toList "C:x".toList = ["C:", "\\", "dir", "x"].map String.toList := by decide +kernel

/-! ## C86 -/

/-- A number of bytes as `space` gives it. -/
def Spec.winCount (x : BitVec 64) : BitVec 64 := if x = 0 then BitVec.allOnes 64 else x

/-- C86 (partial: what is asked about is the directory that contains the path, not the path). The path made absolute is
shortened to what precedes its filename, and one question is asked about that. A failure is reported, with all values
`uintmax_t(-1)`; otherwise the values are those answered, except that 0 becomes `uintmax_t(-1)`. -/
theorem c86_space_partial (u : Str) (ha : (winUnc u = true ∨ winHasDir u = true) ∧ winRootName u ≠ []) (c : Code) (t : List Event)
    (o : Except Stop (SpaceInfo × EcArg)) (h : Exec (Win.space (mkPath .windows u) (.ref c)) t o) :
    ∃ r : Except Errno (BitVec 64 × BitVec 64 × BitVec 64),
      t = [⟨.win (.diskFree (mkPath .windows (winDirText u)).pathname), r⟩] ∧
      match r with
      | .error e => o = .ok (⟨BitVec.allOnes 64, BitVec.allOnes 64, BitVec.allOnes 64⟩, .ref (some e))
      | .ok (avail, total, free) => o = .ok (⟨winCount total, winCount free, winCount avail⟩, .ref none) := by
  have hu : ∀ x, Win.orUnknown x = winCount x := by
    intro x
    unfold Win.orUnknown winCount
    by_cases h : x = 0
    · rw [if_neg (by simp [h]), if_pos h]; rfl
    · rw [if_pos h, if_neg h]
  have hz := winRootName_nil u
  have habs : Win.absolute (mkPath .windows u) .null = .ret (mkPath .windows u, .null) := by
    simp only [Win.absolute, Win.doAbsolute, win_isAbsolute, win_hasRootName, Prog.ofRes_ok, Prog.ret_bind]
    rw [if_pos]
    · rfl
    · have h2 := ha.2
      rw [ne_eq, hz] at h2
      simpa [h2] using ha.1
  simp only [Win.space, habs, Prog.ret_bind, win_removeFilename, Prog.ofRes_ok, clear_ref] at h
  obtain ⟨r, t1, rfl, h2⟩ := exec_call.mp h
  rcases r with e | ⟨a, b, d⟩
  · obtain ⟨rfl, rfl⟩ := exec_ret.mp h2
    exact ⟨.error e, rfl, rfl⟩
  · obtain ⟨rfl, rfl⟩ := exec_ret.mp h2
    exact ⟨.ok (a, b, d), rfl, by simp only [hu]⟩

/-- C86 is false. (1) A full disk has `uintmax_t(-1)` bytes available. (2) For a directory on which another volume is mounted
the values of the volume that contains it are given. (3) If the working directory cannot be found an exception is thrown
although a code was given. -/
theorem c86_violated :
    (∃ t, Exec (Win.space (mkPath .windows "C:\\mnt".toList) (.ref none)) t
        (.ok (⟨1000, 5, BitVec.allOnes 64⟩, .ref none)) ∧
      t = [⟨.win (.diskFree "C:\\".toList), (.ok (0, 1000, 5) : Except Errno (BitVec 64 × BitVec 64 × BitVec 64))⟩]) ∧
    ∃ t e, Exec (Win.space (mkPath .windows "x".toList) (.ref none)) t (.error (.thrown e)) ∧
      t = [⟨.win .cwdSize, (6 : Nat)⟩, ⟨.win (.getCwd 6), (.error (Errno.ofWin 5) : Except Errno (Option Str))⟩] :=
  ⟨⟨_, feed_exec (by decide +kernel), rfl⟩, ⟨_, _, feed_exec (by rfl), rfl⟩⟩

/-! ## C87 -/

/-- C87 (partial: when no text is found and there is no last error, an assertion fails). While nobody changes the disk:
the text that Windows gives is returned, without error, only if it leads to a directory. If Windows gives none, its error is
reported. If the calls fail only where there is nothing, a directory is returned and anything else, or nothing, gives
`not_a_directory`. Nothing is changed. -/
theorem c87_temp_partial (D : WinDisk) (c : Code) (t : List Event) (o : Except Stop (Path × EcArg)) (hs : Handles)
    (h : Exec (Win.tempDirectoryPath (.ref c)) t o) (hl : Steps (WinLaw D) noHandles t hs) :
    ∃ (r : Except (Option Errno) Str) (t' : List Event), t = ⟨.win .tempPath, r⟩ :: t' ∧ (∀ ev ∈ t', ev.call.mutates = false) ∧
      match r with
      | .error none => o = .error (.fault .assertFail)
      | .error (some e) => o = .ok (.default, .ref (some e))
      | .ok s =>
        let p := mkPath .windows s
        let kind := fileKind (D.goal p.pathname)
        (o = .ok (p, .ref none) ∧ kind = .directory ∨ (∃ e, o = .ok (.default, .ref (some e)))) ∧
        ((∀ ev ∈ t, WinWilling ev) → o = if kind = .directory then .ok (p, .ref none) else .ok (.default, .ref (some .ENOTDIR))) := by
  unfold Win.tempDirectoryPath at h
  obtain ⟨r, t1, rfl, h2⟩ := exec_call.mp h
  obtain ⟨hs1, hl1, hl2⟩ := steps_cons.mp hl
  cases (show hs1 = noHandles from hl1)
  refine ⟨r, t1, rfl, ?_⟩
  rcases r with _ | s
  · rename_i e
    cases e with
    | none =>
      obtain ⟨rfl, rfl⟩ := exec_stop.mp h2
      exact ⟨by simp, rfl⟩
    | some e =>
      obtain ⟨rfl, rfl⟩ := exec_ret.mp h2
      exact ⟨by simp, rfl⟩
  · dsimp only at h2 ⊢
    rcases exec_bind.mp h2 with ⟨x, h3, rfl⟩ | ⟨⟨st, ec⟩, t2, t3, rfl, h3, h4⟩
    · obtain ⟨⟨st, ec, hx, _⟩, _⟩ := wp_sound (wp_winStatus D False (mkPath .windows s) none noHandles) h3 (steps_and hl2 fun _ _ h => h.elim)
      cases hx
    · have hmut := ((Win.only_status _ _).exec h3).1
      have ht3 : t3 = [] := by
        revert h4
        split
        · exact fun h => (exec_ret.mp h).1
        · split
          · exact fun h => (exec_ret.mp h).1
          · exact fun h => (exec_ret.mp h).1
      subst ht3
      rw [List.append_nil] at hl2 ⊢
      refine ⟨hmut, ?_⟩
      obtain ⟨⟨st', ec', hx, hc, hw⟩, _⟩ := wp_sound (wp_winStatus D (∀ ev ∈ t2, WinWilling ev) (mkPath .windows s) none noHandles) h3 (Win.steps_lawW hl2)
      cases hx
      have hec : ∀ k, st.type = k → k ≠ .none → k ≠ .directory → o = .ok (.default, .ref (some .ENOTDIR)) := by
        rintro k hk h1 h2
        have hkn : st.known = true := by simpa [FStatus.known, hk] using h1
        have hd : st.isDirectory = false := by simpa [FStatus.isDirectory, hk] using h2
        simp only [hkn, hd, Bool.not_true, Bool.false_eq_true, if_false, Bool.not_false, Bool.or_true, if_true] at h4
        exact (exec_ret.mp h4).2
      have hdir : st.type = .directory → o = .ok (mkPath .windows s, .ref none) := by
        intro hk
        have h1 : st.known = true := by simp [FStatus.known, hk]
        have h2 : st.isDirectory = true := by simp [FStatus.isDirectory, hk]
        have h3 : st.exists' = true := by simp [FStatus.exists', h1, hk]
        simp only [h1, h2, h3, Bool.not_true, Bool.false_eq_true, if_false, Bool.or_false] at h4
        exact (exec_ret.mp h4).2
      constructor
      · by_cases hd : st.type = .directory
        · rcases hc with ⟨_, _, h5⟩ | ⟨e, _, ⟨h5, _⟩ | ⟨h5, _⟩ | ⟨h5, _⟩⟩
          · exact .inl ⟨hdir hd, h5.symm.trans hd⟩
          all_goals (rw [hd] at h5; cases h5)
        · by_cases hn : st.type = .none
          · rcases hc with ⟨_, h6, h5⟩ | ⟨e, rfl, _⟩
            · rw [hn] at h5
              cases hg : D.goal (mkPath .windows s).pathname with
              | none => exact absurd hg h6
              | some x => rw [hg] at h5; cases hx : x.dir <;> simp [fileKind, hx] at h5
            · have hkn : st.known = false := by simp [FStatus.known, hn]
              simp only [hkn, Bool.not_false, if_true] at h4
              exact .inr ⟨e, (exec_ret.mp h4).2⟩
          · exact .inr ⟨_, hec _ rfl hn hd⟩
      · intro hall
        have h5 := hw fun ev hev => hall ev (.tail _ hev)
        split
        · rename_i h6
          exact hdir (h5.trans h6)
        · rename_i h6
          refine hec _ h5 ?_ h6
          cases hg : D.goal (mkPath .windows s).pathname with
          | none => simp [fileKind]
          | some x => cases hx : x.dir <;> simp [fileKind, hx]

/-- C87 is false: without an error of its own, a text that does not fit its buffer fails an assertion. -/
theorem c87_violated : ∃ t, Exec (Win.tempDirectoryPath (.ref none)) t (.error (.fault .assertFail)) ∧
    t = [⟨.win .tempPath, (.error none : Except (Option Errno) Str)⟩] := ⟨_, feed_exec (by decide +kernel), rfl⟩

/-- Looking at the directory named. -/
example : ∃ t, Exec (Win.tempDirectoryPath (.ref none)) t (.ok (mkPath .windows "C:\\tmp\\".toList, .ref none)) ∧
    t = [⟨.win .tempPath, (.ok "C:\\tmp\\".toList : Except (Option Errno) Str)⟩,
      ⟨.win (.getAttrs "C:\\tmp\\".toList), (.ok 0x10#32 : Except Errno (BitVec 32))⟩,
      ⟨.win (.getPerms "C:\\tmp\\".toList 0x10#32), (.ok 0o777#32 : Except Errno Mode)⟩] :=
  ⟨_, feed_exec (by decide +kernel), rfl⟩

end Asap
