import Verif.Props.EntryA
import Verif.Props.RemoveB
import Verif.Props.OpsB
import Verif.Props.WinB
import Verif.Props.WinC
import Verif.Props.WinD

/-!
# C48 for files that do not exist; details of C31, C33, C57, C59 and C60
-/

namespace Asap
open Spec

/-! ## C48 -/

/-- `assign`, `refresh` and the constructors when the file cannot be examined: one call of `stat`; with an `error_code` its
error; without one an exception with it, unless the error says that there is no such file. The entry forgets all it knew. -/
theorem c48_refresh_fails (e : Entry) (ec : EcArg) (er : Errno) (t : List Event) (o : Except Stop (Entry × EcArg))
    (h : Exec (refresh e ec) t o) (hs : ∃ t', t = ⟨.stat e.path.pathname, (.error er : Except Errno Stat)⟩ :: t') :
    t.length = 1 ∧
    (∀ c, ec = .ref c → o = .ok (⟨e.path, .reset⟩, .ref (some er))) ∧
    (ec = .null → er = .ENOENT ∨ er = .ENOTDIR → o = .ok (⟨e.path, .reset⟩, .null)) ∧
    (ec = .null → er ≠ .ENOENT → er ≠ .ENOTDIR → ∃ x, o = .error (.thrown x) ∧ x.code = some er ∧ x.path1 = e.path) := by
  obtain ⟨t', rfl⟩ := hs
  simp only [refresh, updateBasic, Prog.bind_eq, Prog.bind_assoc] at h
  rcases exec_getFileStatus_bind.mp h with ⟨e', t'', heq, hx⟩ | ⟨st, t'', heq, hx⟩
  · simp only [List.cons.injEq, Event.mk.injEq, true_and] at heq
    obtain ⟨h1, rfl⟩ := heq
    have h1 := eq_of_heq h1
    cases h1
    have hemp : (Cache.reset.cacheType = .empty ∧ (EcArg.isSet (.ref (some er)) = true ∨
        (!FStatus.known { type := typeOfErr er }) = true)) := ⟨rfl, .inl rfl⟩
    rw [if_pos hemp] at hx
    cases ec with
    | ref c =>
      have hx : Exec (.ret ((⟨e.path, .reset⟩ : Entry), EcArg.ref (some er))) t' o := hx
      obtain ⟨rfl, rfl⟩ := exec_ret.mp hx
      exact ⟨rfl, fun c hc => rfl, by simp, by simp⟩
    | null =>
      have hx : Exec ((if (some er : Code) ≠ none ∧ ((!true) = true ∨ ((some er : Code) ≠ some .ENOENT ∧ (some er : Code) ≠ some .ENOTDIR)) then
          .stop (.thrown ⟨"in directory_entry::DoRefresh".toList, 1, e.path, .default, some er⟩)
        else Prog.ret ((), EcArg.null)).bind fun r => .ret ((⟨e.path, .reset⟩ : Entry), r.2)) t' o := hx
      by_cases hn : er = .ENOENT ∨ er = .ENOTDIR
      · rw [if_neg (by rcases hn with rfl | rfl <;> simp)] at hx
        obtain ⟨rfl, rfl⟩ := exec_ret.mp hx
        exact ⟨rfl, by simp, fun _ _ => rfl, fun _ h1 h2 => absurd hn (by simp [h1, h2])⟩
      · rw [if_pos (by simp only [not_or] at hn; simp [hn])] at hx
        obtain ⟨rfl, rfl⟩ := exec_stop.mp hx
        exact ⟨rfl, by simp, fun _ h => absurd h hn, fun _ _ _ => ⟨_, rfl, rfl, rfl⟩⟩
  · simp only [List.cons.injEq, Event.mk.injEq, true_and] at heq
    have := eq_of_heq heq.1
    cases this

example : ∃ o, Exec (refresh ⟨mkPath .posix "a".toList, .reset⟩ .null) [⟨.stat "a".toList, (.error .EACCES : Except Errno Stat)⟩] o ∧
    Exec (refresh ⟨mkPath .posix "a".toList, .reset⟩ .null) [⟨.stat "a".toList, (.error .ENOTDIR : Except Errno Stat)⟩]
      (.ok (⟨mkPath .posix "a".toList, .reset⟩, .null)) :=
  ⟨_, feed_exec rfl, feed_exec (by rfl)⟩

/-- `file_size` of an entry made before its file: as the free function, for every type. -/
theorem c48_late_size {m : Machine} {s : m.State} {p : Path} {st lst : Stat} (h : Rests m s p st lst) (c : Code) :
    ∃ v e' x, (Ask.fileSize.entry ⟨p, .reset⟩ (.ref c)).eval m s = (.ok ((v, e'), x), s) ∧
      (Ask.fileSize.free p (.ref c)).eval m s = (.ok (v, x), s) := by
  obtain ⟨e', h1, h2⟩ := eval_updateBasic h (e := ⟨p, .reset⟩) rfl rfl rfl (.inl rfl) true (.ref none)
  have hne := typeOf_ne st.mode
  have hemp : Cache.reset.cacheType = .empty := rfl
  by_cases hr : typeOf st.mode = .regular
  · refine ⟨.num st.size, { e' with cache := { e'.cache with cacheType := .extra } }, .ref none, ?_, ?_⟩
    · simp only [Ask.entry, getSize, Prog.bind_eq, Prog.bind_assoc, hemp, clear_ref]
      rw [eval_bind_ok h1]
      simp [h2.type, hr, FStatus.exists', FStatus.known, FStatus.isRegular, updateExtra, h2.cacheType, h2.symlink, h2.size rfl hr]
    · simp only [Ask.free, Asap.fileSize, Prog.bind_eq, Prog.bind_assoc]
      rw [eval_bind_ok (eval_getFileStatus h.stat none _)]
      simp [FStatus.isRegular, statusOf_type, hr, statusOf_exists, Prog.useStat]
  · refine ⟨.num umaxErr, e', .ref (some (if typeOf st.mode = .directory then .EISDIR else .ENOTSUP)), ?_, ?_⟩
    · simp only [Ask.entry, getSize, Prog.bind_eq, Prog.bind_assoc, hemp, clear_ref]
      rw [eval_bind_ok h1]
      simp [h2.type, hr, FStatus.exists', FStatus.known, FStatus.isRegular, FStatus.isDirectory, hne, Handler.reportMsg]
    · simp only [Ask.free, Asap.fileSize, Prog.bind_eq, Prog.bind_assoc]
      rw [eval_bind_ok (eval_getFileStatus h.stat none _)]
      simp [FStatus.isRegular, FStatus.isDirectory, statusOf_type, hr, statusOf_exists, Handler.report]

/-- The link an entry from an iteration stands for leads nowhere: `exists()` throws, the free function returns false; and
once the type has been asked for, `last_write_time(ec)` yields the least time without an error. -/
theorem c48_violated_dangling {m : Machine} {s : m.State} {e : Entry} (hc : e.cache.cacheType = .basic)
    (hl : e.cache.symlink = true) (hr : e.cache.typeResolved = false) (ht : e.cache.writeTime = timeMin)
    (h : m.step (.stat e.path.pathname) s = (.error .ENOENT, s)) :
    (∃ x, (e.existsE .null).eval m s = (.error (.thrown x), s) ∧ x.code = some .ENOENT) ∧
    (existsP e.path .null).eval m s = (.ok (false, .null), s) ∧
    (∃ e' e'', ((e.existsE (.ref none)).bind fun r => getLastWriteTime r.1.2 (.ref none)).eval m s =
      (.ok ((timeMin, e'), .ref none), s) ∧
      (lastWriteTime e.path (.ref none)).eval m s = (.ok (e'', .ref (some .ENOENT)), s)) := by
  have hst : ∀ ec st0, (getFileStatus e.path st0 ec).eval m s = (.ok (({ type := .notFound }, st0), ec.assign (some .ENOENT)), s) := by
    intro ec st0
    unfold getFileStatus
    rw [eval_call_of h]
    rfl
  have hup : ∀ ec : EcArg, (updateBasic true e ec).eval m s = (.ok ({ e with cache := { e.cache with
      type := .notFound, nonSymlinkPerms := Perms.unknown, typeResolved := true, extraResolved := true, permsResolved := true,
      cacheType := .full } }, ec.clear), s) := by
    intro ec
    unfold updateBasic
    simp only [Prog.bind_eq]
    rw [eval_bind_ok (hst _ _)]
    have hne : ¬ (e.cache.cacheType = .empty ∧ (((EcArg.ref none).assign (some .ENOENT)).isSet = true ∨
      (!FStatus.known { type := .notFound }) = true)) := by rw [hc]; simp
    simp [hc, hl, FStatus.isRegular, FStatus.exists', FStatus.known]
  refine ⟨?_, ?_, ?_⟩
  · refine ⟨⟨"in directory_entry::GetSymLinkFileType".toList, 1, e.path, .default, some .ENOENT⟩, ?_, rfl⟩
    unfold Entry.existsE getFileType
    simp only [Prog.bind_eq, hc, hr, Bool.not_false, and_self, or_true, if_true, Prog.bind_assoc]
    rw [eval_bind_ok (hup _)]
    rfl
  · unfold existsP status
    simp only [Prog.bind_eq, Prog.bind_assoc]
    rw [eval_bind_ok (hst _ _)]
    rfl
  · refine ⟨{ e with cache := { e.cache with type := .notFound, nonSymlinkPerms := Perms.unknown, typeResolved := true, extraResolved := true, permsResolved := true, cacheType := .full } }, timeMin, ?_, ?_⟩
    rotate_left
    · unfold lastWriteTime
      simp only [Prog.bind_eq]
      rw [eval_bind_ok (hst _ _)]
      rfl
    · unfold Entry.existsE getFileType
      simp only [Prog.bind_eq, hc, hr, Bool.not_false, and_self, or_true, if_true, Prog.bind_assoc]
      rw [eval_bind_ok (hup _)]
      simp only [clear_ref, ne_eq, reduceCtorEq, not_false_eq_true, if_true, Prog.ret_bind, getLastWriteTime, ht, Prog.bind_eq,
        FStatus.exists', FStatus.known]
      rfl

/-- Such an entry, and a file system without the file. -/
example : ∃ (m : Machine) (s : m.State) (e : Entry), e.cache.cacheType = .basic ∧ e.cache.symlink = true ∧ e.cache.typeResolved = false ∧
    e.cache.writeTime = timeMin ∧ m.step (.stat e.path.pathname) s = (.error .ENOENT, s) :=
  ⟨{ oneStat someFile someFile with step := fun c s => match c with
      | .stat _ => (.error .ENOENT, s)
      | c => (oneStat someFile someFile).step c s }, (), ⟨mkPath .posix "l".toList, { Cache.reset with cacheType := .basic, symlink := true, type := .symlink }⟩,
    rfl, rfl, rfl, rfl, rfl⟩

/-! ## C31: the empty path -/

/-- `remove_all("")` makes no call and removes nothing. -/
theorem c31_empty {n : Nat} {p : Path} (hp : p.pathname = []) {ec : EcArg} {t : List Event} {o : Except Stop (BitVec 64 × EcArg)}
    (h : Exec (removeAll n p ec) t o) : t = [] ∧ ∃ ec', o = .ok (0, ec') ∧ ec'.code = none := by
  have he : p.isEmpty = true := by simp [Path.isEmpty, hp]
  simp only [removeAll, he, if_true] at h
  obtain ⟨rfl, rfl⟩ := exec_ret.mp h
  exact ⟨rfl, _, rfl, by cases ec <;> rfl⟩

example : (mkPath .posix []).pathname = [] := rfl

/-! ## C33: the options -/

/-- Given none or several of the options replace, add and remove, `permissions` fails its assertion before any call. -/
theorem c33_options (p : Path) (prms : Perms) (opts : PermOptions) (hact : ∀ r a m, ¬ OneAction opts r a m) (ec : EcArg)
    (t : List Event) (o : Except Stop (Unit × EcArg)) (h : Exec (permissions p prms opts ec) t o) :
    t = [] ∧ o = .error (.fault .assertFail) := by
  have h0 : ((PermOptions.replace &&& opts) != 0) = opts.getLsbD 0 := has_bit opts 0 (by omega)
  have h1 : ((PermOptions.add &&& opts) != 0) = opts.getLsbD 1 := has_bit opts 1 (by omega)
  have h2 : ((PermOptions.remove &&& opts) != 0) = opts.getLsbD 2 := has_bit opts 2 (by omega)
  have hno := hact (opts.getLsbD 0) (opts.getLsbD 1) (opts.getLsbD 2)
  simp only [OneAction, true_and] at hno
  simp only [permissions, h0, h1, h2] at h
  rw [if_pos] at h
  · exact exec_stop.mp h
  · revert hno
    cases opts.getLsbD 0 <;> cases opts.getLsbD 1 <;> cases opts.getLsbD 2 <;> simp

example : ∀ r a m, ¬ OneAction (PermOptions.add ||| PermOptions.remove) r a m := by
  rintro r a m ⟨rfl, rfl, rfl, h⟩
  revert h
  decide

/-! ## C59: what is not a class of the mode, and failures -/

/-- For the system and the administrators the table of permissions is read out of bounds whenever an operation is granted. -/
theorem c59_map_bounds (mask : Mask) (t : TrusteeType) (ht : digit t = none) (type : FType)
    (hty : type ≠ .none ∧ type ≠ .unknown ∧ type ≠ .notFound) :
    mapAccessMaskToPerms flagTest mask t type =
      if grants mask 0x120089#32 ∨ grants mask (if type = .directory then 0x120156#32 else 0x120116#32) ∨
        grants mask 0x1200a0#32 then .error .ub else .ok 0 := by
  have hn : ¬ (type = .none ∨ type = .unknown ∨ type = .notFound) := by
    rintro (h | h | h)
    · exact hty.1 h
    · exact hty.2.1 h
    · exact hty.2.2 h
  have er : (if type = .directory then Win.dirRead else Win.fileRead) = 0x120089#32 := by split <;> rfl
  have ew : (if type = .directory then Win.dirWrite else Win.fileWrite) =
      (if type = .directory then 0x120156#32 else 0x120116#32) := by split <;> rfl
  have ex : (if type = .directory then Win.dirExec else Win.fileExec) = 0x1200a0#32 := by split <;> rfl
  have hg : ∀ a b, flagTest a b = grants a b := by
    intro a b; simp only [flagTest, grants]; rw [Bool.eq_iff_iff]; simp
  have hz : ∀ need : Mask, need ≠ 0 → grants 0#32 need = false := by
    intro need h
    simp only [grants, decide_eq_false_iff_not]
    intro h2
    exact h (by rw [← h2]; simp)
  simp only [mapAccessMaskToPerms, if_neg hn, er, ew, ex, hg]
  split
  · rename_i h0
    have h0 : mask = 0#32 := h0
    subst h0
    rw [hz _ (by decide), hz _ (by split <;> decide), hz _ (by decide)]
    rfl
  · generalize grants mask 0x120089#32 = r
    generalize grants mask _ = w
    generalize grants mask 0x1200a0#32 = x
    cases t <;> simp only [digit] at ht <;> first | cases ht | skip
    all_goals cases r <;> cases w <;> cases x <;> rfl

example : digit .system = none ∧ mapAccessMaskToPerms flagTest 0x120089#32 .system .regular = .error .ub ∧
    mapAccessMaskToPerms flagTest 1#32 .admins .regular = .ok 0 := by decide

/-- A failure to read the rights of a class: not-found errors (and those with value 0) are kept quiet and give no permission, a
sharing violation gives `perms::unknown`, and everything else is reported. -/
theorem c59_failure (same : Bool) (attr : Mask) (rights : Sid → Except RightsError Mask) (n : Nat)
    (h : rights .owner = .error (.other n)) (hn : n ≠ 0) :
    getPermissions same attr rights = .ok (if n = 32 then (0xFFFF#32, none)
      else (0, if n ∈ [2, 3, 15, 21, 53, 87, 123, 161] then none else some (.system n))) := by
  have h1 : trusteePermissions .owner Perms.ownerRead (rights .owner) attr = .ok (Perms.none, some (.system n)) := by
    rw [h]
    simp [trusteePermissions, hn]
  unfold getPermissions
  rw [h1]
  have hi : isNotFoundError n = decide (n ∈ [2, 3, 15, 21, 53, 87, 123, 161]) := by
    rw [Bool.eq_iff_iff]
    simp only [isNotFoundError, Bool.or_eq_true, beq_iff_eq, decide_eq_true_eq, List.mem_cons, List.not_mem_nil, or_false]
    omega
  show Except.ok (processPermissionsFailure (.system n)) = _
  simp only [processPermissionsFailure, hi, decide_eq_true_eq]
  by_cases h32 : n = 32
  · subst h32; rfl
  · by_cases hm : n ∈ [2, 3, 15, 21, 53, 87, 123, 161]
    · rw [if_pos hm, if_neg h32, if_pos hm]; rfl
    · rw [if_neg hm, if_neg h32, if_neg h32, if_neg hm]; rfl

example : getPermissions false 0 (fun _ => .error (.other 5)) = .ok (0, some (.system 5)) := by decide

/-! ## C57: `make_preferred` -/

theorem winSep_pref (c : Char) : winSep (if c = '/' then '\\' else c) = winSep c := by
  split
  · rename_i h; subst h; rfl
  · rfl

theorem pref_nonsep {c : Char} (h : winSep c = false) : (if c = '/' then '\\' else c) = c := by
  rw [if_neg]
  rintro rfl
  cases h

theorem takeWhile_pref : ∀ s : Str, ((winPrefer s).takeWhile (!winSep ·)) = s.takeWhile (!winSep ·)
  | [] => rfl
  | c :: s => by
    have := takeWhile_pref s
    simp only [winPrefer, List.map_cons, List.takeWhile_cons, winSep_pref] at this ⊢
    cases h : winSep c
    · simp only [Bool.not_false, if_true, pref_nonsep h, this]
    · rfl

theorem toksGo_pref : ∀ (s cur : Str) (off : Nat), toksGo .windows (winPrefer s) off cur = toksGo .windows s off cur
  | [], _, _ => rfl
  | c :: s, cur, off => by
    simp only [winPrefer, List.map_cons, toksGo, isSep_windows, winSep_pref]
    cases h : winSep c
    · simp only [Bool.false_eq_true, if_false, pref_nonsep h]
      exact toksGo_pref s _ _
    · simp only [if_true]
      have := fun cur => toksGo_pref s cur
      simp only [winPrefer] at this
      simp only [this]

/-- The text starts with two different separators and a name. -/
def Spec.mixedStart (s : Str) : Prop := ∃ c t, (s = '/' :: '\\' :: c :: t ∨ s = '\\' :: '/' :: c :: t) ∧ winSep c = false

theorem winRootLen_pref (s : Str) (h : ¬ mixedStart s) : winRootLen (winPrefer s) = winRootLen s := by
  match s with
  | [] => rfl
  | [a] => rfl
  | [a, b] =>
    simp only [winPrefer, List.map_cons, List.map_nil, winRootLen, winSep_pref]
    cases ha : winSep a
    · by_cases hb : b = ':'
      · subst hb; rfl
      · have : (if b = '/' then '\\' else b) ≠ ':' := by split <;> simp_all
        simp [hb, this]
    · rfl
  | a :: b :: c :: rest =>
    have ht := takeWhile_pref rest
    simp only [winPrefer] at ht
    simp only [winPrefer, List.map_cons, winRootLen, winSep_pref, ht]
    cases ha : winSep a
    · by_cases hb : b = ':'
      · subst hb; rfl
      · have : (if b = '/' then '\\' else b) ≠ ':' := by split <;> simp_all
        simp [hb, this]
    · cases hc : winSep c
      · have hab : ((if b = '/' then '\\' else b) == (if a = '/' then '\\' else a)) = (b == a) := by
          simp only [winSep, Bool.or_eq_true, beq_iff_eq] at ha
          rcases ha with rfl | rfl
          · by_cases hb : b = '/'
            · subst hb; rfl
            · have : b ≠ '\\' := by rintro rfl; exact h ⟨c, rest, .inl rfl, hc⟩
              rw [if_neg hb, if_pos rfl, beq_eq_false_iff_ne.mpr this, beq_eq_false_iff_ne.mpr hb]
          · by_cases hb : b = '/'
            · subst hb; exact absurd ⟨c, rest, .inr rfl, hc⟩ h
            · simp [hb]
        rw [hab]
        simp
      · simp

/-- **C57**, `make_preferred`: every slash of the text becomes a backslash, the elements stay; and unless the text starts with
two different separators and a name, the path is the one parsed from the new text. Missing: those texts (`c57_violated_preferred`). -/
theorem c57_preferred_partial (s : Str) :
    (makePreferred .windows (mkPath .windows s)).pathname = winPrefer (mkPath .windows s).pathname ∧
    (¬ mixedStart s → makePreferred .windows (mkPath .windows s) = mkPath .windows (winPrefer s)) := by
  refine ⟨rfl, fun hm => ?_⟩
  have hl := winRootLen_pref s hm
  have hid : ∀ x, winPrefer (winPrefer x) = winPrefer x := by
    intro x
    simp only [winPrefer, List.map_map]
    congr 1
    funext c
    simp only [Function.comp]
    split <;> rfl
  have htail : winTail (winPrefer s) = winPrefer (winTail s) := by
    rw [winTail, hl]
    simp only [winTail, winPrefer, List.map_drop]
  have hname : winRootName (winPrefer s) = winRootName s := by
    have : (winPrefer s).take (winRootLen s) = winPrefer (s.take (winRootLen s)) := by simp only [winPrefer, List.map_take]
    simp only [winRootName, hl, this, hid]
  have hdir : winHasDir (winPrefer s) = winHasDir s := by
    simp only [winHasDir, htail]
    cases winTail s with
    | nil => rfl
    | cons c t => simp only [winPrefer, List.map_cons, List.head?_cons, Option.any_some, winSep_pref]
  have hends : winEndsSep (winPrefer s) = winEndsSep s := by
    simp only [winEndsSep, winPrefer, List.getLast?_map]
    cases s.getLast? with
    | none => rfl
    | some c => simp only [Option.map_some, Option.any_some, winSep_pref]
  have hcomps : winComps (winPrefer s) = winComps s := by
    have hk : ∀ off x, toks .windows off (winPrefer x) = toks .windows off x := fun off x => toksGo_pref x [] off
    have hlen : (winPrefer s).length = s.length := by simp [winPrefer]
    simp only [winComps, winRootComps, hl, hname, hdir, hends, htail, hk, hlen]
  by_cases hs : s = []
  · subst hs; rfl
  · have hs' : winPrefer s ≠ [] := by simpa [winPrefer] using hs
    rw [mkPath_windows, mkPath_windows, if_neg hs, if_neg hs', hcomps]
    rcases hc : winComps s with _ | ⟨c, _ | ⟨d, cs⟩⟩
    · rfl
    · simp only [trim, makePreferred, preferSlashes_windows]
      congr 1
      have hmem : c ∈ winComps s := by rw [hc]; simp
      simp only [winComps, winRootComps, List.mem_append] at hmem
      rcases hmem with ((h1 | h1) | h1) | h1
      · split at h1
        · simp at h1
        · simp only [List.mem_singleton] at h1
          subst h1
          exact hid _
      · split at h1
        · simp only [List.mem_singleton] at h1
          subst h1
          rfl
        · simp at h1
      · have h2 : c.name ∈ winNames (winTail s) := by
          rw [← toks_winNames _ (winRootLen s)]
          exact List.mem_map_of_mem h1
        have h3 := (winNames_mem h2).2
        simp only [winPrefer]
        conv => rhs; rw [← List.map_id c.name]
        exact List.map_congr_left fun x hx => pref_nonsep (h3 x hx)
      · split at h1
        · simp only [List.mem_singleton] at h1
          subst h1
          rfl
        · simp at h1
    · rfl

/-- **C57** fails: the text of `/\a` after `make_preferred` is that of a network name, its elements are not. -/
theorem c57_violated_preferred : ∃ p : Path, p = makePreferred .windows (mkPath .windows "/\\a".toList) ∧
    p.pathname = "\\\\a".toList ∧ hasRootName p = false ∧ hasRootName (mkPath .windows p.pathname) = true :=
  ⟨_, rfl, rfl, rfl, rfl⟩

example : ¬ mixedStart "C:/a/b".toList ∧ makePreferred .windows (mkPath .windows "C:/a/b".toList) = mkPath .windows "C:\\a\\b".toList := by
  refine ⟨?_, by decide⟩
  rintro ⟨c, t, h | h, -⟩ <;> (have h2 := congrArg List.head? h; rw [List.head?_cons] at h2; revert h2; decide)

/-! ## C60 -/

/-- An answer "not a directory" to the question asked for an element `.`. -/
def Spec.saysNoDir (t : List Event) : Prop := ∃ q, ⟨.winTest .isDirectory q, ((false, none) : Bool × Code)⟩ ∈ t

/-- Nothing so far was found not to be a directory, or the exception is thrown. -/
def DotOk {α : Type} (o : Except Stop α) (t : List Event) : Prop :=
  saysNoDir t → ∃ x, o = .error (.thrown x) ∧ x.code = some .ENOTDIR

theorem wp_ofRes_dot {α β : Type} (r : Res α) (f : α → Prog β) (s : List Event) (hs : ¬ saysNoDir s)
    (h : ∀ a, wp Tr DotOk (f a) s) : wp Tr DotOk ((Prog.ofRes r).bind f) s := by
  match r with
  | .ok a => exact h a
  | .error e => exact fun h => absurd h hs

theorem saysNoDir_snoc {t : List Event} {e : Event} (ht : ¬ saysNoDir t)
    (he : ∀ q, e ≠ ⟨.winTest .isDirectory q, ((false, none) : Bool × Code)⟩) : ¬ saysNoDir (t ++ [e]) := by
  rintro ⟨q, hq⟩
  rcases List.mem_append.mp hq with hq | hq
  · exact ht ⟨q, hq⟩
  · exact he q (List.mem_singleton.mp hq).symm

theorem canonLoop_dot (el : Bool) (h : Handler) (root : Path) : ∀ (n : Nat) (result : Path) (cmpts : List Path)
    (k : Int) (m : Code) (s : List Event), ¬ saysNoDir s →
    wp Tr (fun (o : Except Stop (Path × Code × EcArg)) t => DotOk o t ∧ ∀ r m e, o = .ok (r, m, e) → e = .null)
      (winCanonLoop el h root n result cmpts k m .null) s := by
  intro n
  induction n with
  | zero =>
    intro result cmpts k m s hs
    match cmpts, m with
    | [], m => exact ⟨fun h => absurd h hs, by rintro r m e ⟨⟩; rfl⟩
    | c :: cs, some e => exact ⟨fun h => absurd h hs, by rintro r m e ⟨⟩; rfl⟩
    | c :: cs, none => exact ⟨fun h => absurd h hs, by rintro r m e ⟨⟩⟩
  | succ n ih =>
    intro result cmpts k m s hs
    match cmpts, m with
    | [], m => exact ⟨fun h => absurd h hs, by rintro r m e ⟨⟩; rfl⟩
    | c :: cs, some e => exact ⟨fun h => absurd h hs, by rintro r m e ⟨⟩; rfl⟩
    | c :: cs, none =>
      have hres : ∀ {β : Type} (r : Res β) (f : β → Prog (Path × Code × EcArg)) (s : List Event), ¬ saysNoDir s →
          (∀ a, wp Tr (fun (o : Except Stop (Path × Code × EcArg)) t => DotOk o t ∧ ∀ r m e, o = .ok (r, m, e) → e = .null) (f a) s) →
          wp Tr (fun (o : Except Stop (Path × Code × EcArg)) t => DotOk o t ∧ ∀ r m e, o = .ok (r, m, e) → e = .null)
            ((Prog.ofRes r).bind f) s := by
        intro β r f s hs h
        match r with
        | .ok a => exact h a
        | .error e => exact ⟨fun h => absurd h hs, by rintro r m e ⟨⟩⟩
      rw [winCanonLoop]
      split
      · exact ih _ _ _ _ _ hs
      split
      · rintro bm _ rfl
        dsimp only
        split
        · simp only [Handler.report, Prog.stop_bind, wp]
          exact ⟨fun _ => ⟨_, rfl, error_code _ _ _⟩, by rintro r m e ⟨⟩⟩
        · rename_i hbm
          refine ih _ _ _ _ _ (saysNoDir_snoc hs ?_)
          rintro q ⟨⟩
          exact hbm ⟨rfl, rfl⟩
      split
      · exact hres _ _ _ hs fun a => ih _ _ _ _ _ hs
      refine hres _ _ _ hs fun a => ?_
      rintro bm _ rfl
      have hs1 : ¬ saysNoDir (s ++ [⟨.winTest .isSymlink a.pathname, bm⟩]) := saysNoDir_snoc hs (by rintro q ⟨⟩)
      dsimp only
      split
      rotate_left
      · exact ih _ _ _ _ _ hs1
      rintro (e | l) _ rfl
      · exact ih _ _ _ _ _ (saysNoDir_snoc hs1 (by rintro q ⟨⟩))
      have hs2 : ¬ saysNoDir (s ++ [⟨.winTest .isSymlink a.pathname, bm⟩] ++ [(⟨.winReadlink a.pathname, (.ok l : Except Errno Str)⟩ : Event)]) :=
        saysNoDir_snoc hs1 (by rintro q ⟨⟩)
      dsimp only
      split
      · exact ⟨fun h => absurd h hs2, by rintro r m e ⟨⟩⟩
      split
      · simp only [Handler.report, Prog.stop_bind, wp]
        exact ⟨fun h => absurd h hs2, by rintro r m e ⟨⟩⟩
      refine hres _ _ _ hs2 fun b => ?_
      split
      · exact hres _ _ _ hs2 fun a => ih _ _ _ _ _ hs2
      · exact hres _ _ _ hs2 fun a => ih _ _ _ _ _ hs2

/-- **C60**, the throwing form: an element `.` after something that the file system says is not a directory makes
`canonical` throw `not_a_directory`. So what is returned was reached without passing through a `.` below a file. -/
theorem c60_dot (el : Bool) (n : Nat) (h : Handler) (pa : Path) (t : List Event) (o : Except Stop (Path × EcArg))
    (he : Exec (winCanonical el n h pa .null) t o) (hd : saysNoDir t) :
    ∃ x, o = .error (.thrown x) ∧ x.code = some .ENOTDIR := by
  have h0 : ¬ saysNoDir [] := by rintro ⟨q, hq⟩; cases hq
  refine wp_tr (Q := DotOk) ?_ he hd
  refine wp_ofRes_dot _ _ _ h0 fun rel => ?_
  refine wp_bind (wp_mono ?_ (canonLoop_dot el h _ n _ _ _ _ _ h0))
  rintro (x | ⟨r, m, e⟩) s' ⟨h1, h2⟩
  · intro hs
    obtain ⟨y, hy, hc⟩ := h1 hs
    cases hy
    exact ⟨_, rfl, hc⟩
  · have hs : ¬ saysNoDir s' := by
      intro hs
      obtain ⟨y, hy, hc⟩ := h1 hs
      cases hy
    obtain rfl := h2 r m e rfl
    dsimp only
    split
    · exact fun h => absurd h hs
    · rintro bm _ rfl
      have hs1 : ¬ saysNoDir (s' ++ [⟨.winTest .exists' r.pathname, bm⟩]) := saysNoDir_snoc hs (by rintro q ⟨⟩)
      dsimp only
      split
      · exact fun h => absurd h hs1
      · exact fun h => absurd h hs1

/-- `canonical("C:/f/.")` where `f` is a file. -/
example (h : Handler) : ∃ t, saysNoDir t ∧
    Exec (winCanonical false 9 h (mkPath .windows "C:\\f\\.".toList) .null) t
      (.error (.thrown (h.error ("in ".toList ++ h.fn) (some .ENOTDIR)))) :=
  ⟨[⟨.winTest .isSymlink "C:\\f".toList, (false, none)⟩, ⟨.winTest .isDirectory "C:\\f".toList, (false, none)⟩],
    ⟨"C:\\f".toList, List.mem_cons_of_mem _ (List.mem_cons_self ..)⟩, feed_exec (by rfl)⟩

/-! ## C17 -/

/-- C17, on both platforms: with different root names, or only one path absolute, or a root directory in the base only,
`lexically_relative` is empty and `lexically_proximate` is the path itself. -/
theorem c17_unrelated (pl : Plat) (p base : Path) (pa ba pd bd : Bool) (h1 : isAbsolute pl p = .ok pa)
    (h2 : isAbsolute pl base = .ok ba) (h3 : hasRootDirectory pl p = .ok pd) (h4 : hasRootDirectory pl base = .ok bd)
    (h : Path.eqv (rootName p) (rootName base) = false ∨ pa ≠ ba ∨ (pd = false ∧ bd = true)) :
    lexicallyRelative pl p base = .ok .default ∧ lexicallyProximate pl p base = .ok p := by
  have hr : lexicallyRelative pl p base = .ok .default := by
    unfold lexicallyRelative
    simp only [h1, h2, h3, h4, bind, Except.bind, pure, Except.pure]
    rcases h with h | h | ⟨rfl, rfl⟩
    · simp [h]
    · by_cases hr : Path.eqv (rootName p) (rootName base) = true <;> simp [hr, h]
    · by_cases hr : Path.eqv (rootName p) (rootName base) = true <;> by_cases hab : pa = ba <;> simp [hr, hab]
  refine ⟨hr, ?_⟩
  simp only [lexicallyProximate, hr, bind, Except.bind, pure, Except.pure]
  rfl

/-- The third case on its own. -/
example : Path.eqv (rootName (mkPath .windows "C:".toList)) (rootName (mkPath .windows "//h".toList)) = false ∧
    Path.eqv (rootName (mkPath .windows "//h".toList)) (rootName (mkPath .windows "//h/a".toList)) = true ∧
    isAbsolute .windows (mkPath .windows "//h".toList) = isAbsolute .windows (mkPath .windows "//h/a".toList) ∧
    hasRootDirectory .windows (mkPath .windows "//h".toList) = .ok false ∧
    hasRootDirectory .windows (mkPath .windows "//h/a".toList) = .ok true := by decide +kernel

end Asap
