import Verif.Props.Reach
import Verif.Props.OpsD
import Verif.Props.OpsE
import Verif.Props.RemoveA
import Verif.Path.Normal

/-!
# C28: `create_directories`
-/

namespace Asap
namespace Spec

/-- A name other than `.` and `..`. -/
def Proper (w : Str) : Prop := w ≠ ".".toList ∧ w ≠ "..".toList

instance (w : Str) : Decidable (Proper w) := inferInstanceAs (Decidable (_ ∧ _))

/-- The paths `a/n₁`, `a/n₁/n₂`, ..., the last of them spelled `whole`; without those that end in `.` or `..`. -/
def chain (a : Str) : List Str → Str → List Str
  | [], _ => []
  | [w], whole => if Proper w then [whole] else []
  | w :: ws, whole => (if Proper w then [addElem a w] else []) ++ chain (addElem a w) ws whole

/-- The root directory of a path. -/
def rootText (s : Str) : Str := if startsSlash s then ['/'] else []

/-- The prefixes of a path that end in a proper name, the shortest first. -/
def prefixes (s : Str) : List Str := chain (rootText s) (filenames s) s

/-- The number of slashes a text begins with. -/
def leading (s : Str) : Nat := (s.takeWhile (· == '/')).length

/-- A path does not begin with more slashes than its first name has characters, or has fewer than two names. -/
def FewSlashes (s : Str) : Prop := ∀ v, (filenames s).dropLast.head? = some v → leading s ≤ v.length

instance (s : Str) : Decidable (FewSlashes s) :=
  match h : (filenames s).dropLast.head? with
  | none => .isTrue fun v hv => by rw [h] at hv; cases hv
  | some v => decidable_of_iff (leading s ≤ v.length) ⟨fun h1 v' hv => by rw [h] at hv; cases hv; exact h1, fun h1 => h1 v h⟩

/-- What `stat` says of every path, and the directories made so far. -/
structure Sight where
  view : Str → Except Errno FType
  made : List Str

/-- The file system without other processes. Looking changes nothing; `mkdir` fails without effect or makes a directory where there was nothing,
keeping everything that was there, and what appears is a directory, or the path goes on with `..` (`new/../file` appears when `new` is made). `mkdir` fails with `EEXIST` if `stat` finds a file, and only then:
there are no symbolic links that lead nowhere. Every other call may do anything. -/
def sight (s : Sight) (ev : Event) (s' : Sight) : Prop := match ev with
  | ⟨.stat x, r⟩ => s' = s ∧ match s.view x with
    | .ok t => RealType t → ∃ st, r = .ok st ∧ typeOf st.mode = t
    | .error e => r = .error e
  | ⟨.mkdir x m, .error e⟩ => m = 0o777 → s' = s ∧ (e = .EEXIST ↔ ∃ t, s.view x = .ok t)
  | ⟨.mkdir x m, .ok _⟩ => m = 0o777 → (∃ e, s.view x = .error e) ∧ s'.made = s.made ++ [x] ∧ s'.view x = .ok .directory ∧
    (∀ y t, s.view y = .ok t → s'.view y = .ok t) ∧
    ∀ y t, s'.view y = .ok t → s.view y = .ok t ∨ t = .directory ∨ dotdot ∈ filenames y ∧ RealType t
  | _ => True

end Spec
open Spec

/-! ## The list of prefixes -/

theorem chain_snoc (a : Str) (ns : List Str) (w whole : Str) :
    chain a (ns ++ [w]) whole = chain a ns (ns.foldl addElem a) ++ (if Proper w then [whole] else []) := by
  induction ns generalizing a with
  | nil => rfl
  | cons v vs ih =>
    cases vs with
    | nil => simp [chain]
    | cons u us =>
      have := ih (addElem a v)
      simp only [List.cons_append] at this ⊢
      simp only [chain, this, List.foldl_cons, List.append_assoc]

theorem render_foldl (abs : Bool) (ns : List Str) (h : ∀ w ∈ ns, IsName w) :
    render abs ns false = ns.foldl addElem (if abs then ['/'] else []) := by
  induction hn : ns.length generalizing ns with
  | zero => rw [List.length_eq_zero_iff.mp hn, render_nil]; rfl
  | succ n ih =>
    rcases eq_nil_or_snoc ns with rfl | ⟨ms, w, rfl⟩
    · simp at hn
    · have hm : ∀ v ∈ ms, IsName v := fun v hv => h v (by simp [hv])
      have hw := h w (by simp)
      rw [List.foldl_append, ← ih ms hm (by simpa using hn), List.foldl_cons, List.foldl_nil, addElem_appendText (startsSlash_name hw.2),
        appendText_render hm (by simp), ← render_snoc]

theorem proper_iff (w : Str) : (isDot w || isDotDot w) = true ↔ ¬ Proper w := by
  simp only [isDot, isDotDot, Bool.or_eq_true, beq_iff_eq, Proper]
  show w = ".".toList ∨ w = "..".toList ↔ _
  constructor
  · rintro (h | h) ⟨h1, h2⟩
    · exact h1 h
    · exact h2 h
  · intro h
    by_cases h1 : w = ".".toList
    · exact .inl h1
    · exact .inr (Decidable.byContradiction fun h2 => h ⟨h1, h2⟩)

/-- One round of the first loop. -/
theorem missingOf_step {n : Nat} {q : Path} {acc : List Path} (hq : Loose q) (hf : filePart q.pathname ≠ []) :
    ∃ q', Loose q' ∧ q'.pathname = render (startsSlash q.pathname) (filenames q.pathname).dropLast false ∧
      missingOf false (n + 1) q acc = missingOf false n q' ((if Proper (filePart q.pathname) then [q] else []) ++ acc) := by
  obtain ⟨q', h1, h2, h3, h4⟩ := hq.parentPath false
  have hne : filenames q.pathname ≠ [] := by
    rw [filenames_dir_file, if_neg hf]; simp
  refine ⟨q', h4 rfl, by rw [h3, parentText, if_neg hne], ?_⟩
  have : (filePart q.pathname).isEmpty = false := by simpa using hf
  simp only [missingOf, hq.shape.hasFilename, hq.shape.filename, h1, Prog.bind_eq, Prog.ofRes_ok, Prog.ret_bind, this, Bool.not_false, if_true]
  have hp : (fileOf (filePart q.pathname)).pathname = filePart q.pathname := by
    simp [fileOf, hf]
  rw [hp]
  congr 1
  by_cases h : Proper (filePart q.pathname)
  · rw [if_pos h, if_neg (fun h' => (proper_iff _).mp h' h)]; rfl
  · rw [if_neg h, if_pos ((proper_iff _).mpr h)]; rfl

/-- The first loop, from a path spelled in the plain way. -/
theorem missingOf_plain (abs : Bool) : ∀ (ns : List Str), (∀ w ∈ ns, IsName w) → ∀ (n : Nat) (q : Path) (acc : List Path), Loose q →
    q.pathname = render abs ns false → ns.length < n →
    ∃ l, missingOf false n q acc = .ret (l ++ acc) ∧
      l.map Path.pathname = chain (if abs then ['/'] else []) ns (render abs ns false) := by
  intro ns
  induction hlen : ns.length generalizing ns with
  | zero =>
    intro _ n q acc hq ht hn
    obtain rfl := List.length_eq_zero_iff.mp hlen
    obtain ⟨n, rfl⟩ : ∃ j, n = j + 1 := ⟨n - 1, by omega⟩
    refine ⟨[], ?_, rfl⟩
    simp [missingOf, hq.shape.hasFilename, ht, filePart_render_empty, Prog.ofRes_ok]
  | succ k ih =>
    intro hns n q acc hq ht hn
    obtain ⟨n, rfl⟩ : ∃ j, n = j + 1 := ⟨n - 1, by omega⟩
    rcases eq_nil_or_snoc ns with rfl | ⟨ms, w, rfl⟩
    · simp at hlen
    · have hm : ∀ v ∈ ms, IsName v := fun v hv => hns v (by simp [hv])
      have hw := hns w (by simp)
      have hf : filePart q.pathname = w := by rw [ht, filePart_render_snoc _ _ hw.2]
      obtain ⟨q', h1, h2, h3⟩ := missingOf_step (n := n) (acc := acc) hq (by rw [hf]; exact hw.1)
      rw [h3]
      rw [ht, filenames_render hns, startsSlash_render hns (by simp), List.dropLast_concat] at h2
      obtain ⟨l, h5, h7⟩ := ih ms (by simpa using hlen) hm n q' ((if Proper (filePart q.pathname) then [q] else []) ++ acc) h1 h2 (by omega)
      refine ⟨l ++ (if Proper (filePart q.pathname) then [q] else []), by rw [h5, List.append_assoc], ?_⟩
      rw [chain_snoc, List.map_append, h7, hf, render_foldl abs ms hm]
      congr 1
      split
      · simp [ht]
      · rfl

/-- The first loop. -/
theorem missingOf_prefixes {n : Nat} {q : Path} (hq : Loose q) (hf : filePart q.pathname ≠ []) (hn : (filenames q.pathname).length < n) :
    ∃ l, missingOf false n q [] = .ret l ∧ l.map Path.pathname = prefixes q.pathname := by
  obtain ⟨n, rfl⟩ : ∃ j, n = j + 1 := ⟨n - 1, by omega⟩
  obtain ⟨q', h1, h2, h3⟩ := missingOf_step (n := n) (acc := []) hq hf
  have hs := filenames_dir_file q.pathname
  rw [if_neg hf] at hs
  have hm : ∀ v ∈ (filenames q.pathname).dropLast, IsName v := fun v hv => dropLast_names hv
  obtain ⟨l, h4, h5⟩ := missingOf_plain (startsSlash q.pathname) _ hm n q' ((if Proper (filePart q.pathname) then [q] else []) ++ []) h1 h2 (by
    have : (filenames q.pathname).length ≠ 0 := by rw [hs]; simp
    simp only [List.length_dropLast]; omega)
  refine ⟨l ++ (if Proper (filePart q.pathname) then [q] else []), by rw [h3, h4]; simp, ?_⟩
  have : filenames q.pathname = (filenames q.pathname).dropLast ++ [filePart q.pathname] := by
    conv => lhs; rw [hs]
    rw [hs, List.dropLast_concat]
  rw [prefixes, this, chain_snoc, List.map_append, h5, rootText, render_foldl _ _ hm]
  congr 1
  split <;> rfl

/-! ## The first loop when the copy in `parent_path` is elided -/

theorem leading_drop (s : Str) : leading s + (dropSlashes s).length = s.length := by
  induction s with
  | nil => rfl
  | cons c s ih =>
    by_cases hc : c = '/'
    · subst hc
      simp only [leading, dropSlashes] at ih ⊢
      simp only [List.takeWhile, List.dropWhile, beq_self_eq_true, List.length_cons]
      omega
    · have : (c == '/') = false := by simpa using hc
      simp [leading, dropSlashes, List.takeWhile, List.dropWhile, this]

/-- What an elided `parent_path` yields: the text of the names `ns`, the elements with their old offsets, the first of which is `m`. -/
structure Elided (m : Nat) (abs : Bool) (ns : List Str) (q : Path) : Prop where
  form : ∃ cs : List Comp, q = ⟨render abs ns false, (if abs then [⟨['/'], .rootDir, 0⟩] else []) ++ cs, .multi⟩ ∧
    cs.map Comp.key = ns.map (·, PType.filename) ∧ ∀ c, cs.head? = some c → c.pos = m

theorem Elided.pathname {m : Nat} {abs : Bool} {ns : List Str} {q : Path} (h : Elided m abs ns q) : q.pathname = render abs ns false := by
  obtain ⟨cs, rfl, -, -⟩ := h.form
  rfl

theorem Elided.shape {m : Nat} {abs : Bool} {ns : List Str} {q : Path} (h : Elided m abs ns q) (hn : ∀ w ∈ ns, IsName w) : Shape q := by
  obtain ⟨cs, rfl, hk, -⟩ := h.form
  by_cases ht : render abs ns false = []
  · have h1 : filenames (render abs ns false) = [] := by rw [ht]; rfl
    rw [filenames_render hn] at h1
    subst h1
    have : cs = [] := by simpa using hk
    subst this
    cases abs
    · exact .dflt
    · cases ht
  · refine .multi _ _ ht ?_ ?_
    · rw [filenames_render hn]
      rintro rfl
      cases abs
      · exact absurd rfl ht
      · rfl
    · rw [keysOf_render hn, List.map_append, hk]
      congr 1
      cases abs <;> rfl

theorem keys_mem {cs : List Comp} {ns : List Str} (hk : cs.map Comp.key = ns.map (·, PType.filename)) {c : Comp} (hc : c ∈ cs) :
    c.name ∈ ns ∧ c.type = .filename := by
  have : c.key ∈ ns.map (·, PType.filename) := hk ▸ List.mem_map_of_mem hc
  obtain ⟨w, hw, he⟩ := List.mem_map.mp this
  simp only [Comp.key, Prod.mk.injEq] at he
  exact ⟨he.1 ▸ hw, he.2.symm⟩

theorem Elided.parent {m : Nat} {abs : Bool} {ms : List Str} {w : Str} {q : Path} (h : Elided m abs (ms ++ [w]) q)
    (hn : ∀ v ∈ ms ++ [w], IsName v) :
    (m < (render abs (ms ++ [w]) false).length → ∃ q', parentPath .posix true q = .ok q' ∧ Elided m abs ms q') ∧
    (m = (render abs (ms ++ [w]) false).length → parentPath .posix true q = .ok q) ∧
    ((render abs (ms ++ [w]) false).length < m → parentPath .posix true q = .error .outOfRange) := by
  obtain ⟨cs, rfl, hk, hp⟩ := h.form
  have hne : cs ≠ [] := by rintro rfl; simp at hk
  have hmem : ∀ c ∈ cs, IsName c.name ∧ c.type = .filename := fun c hc => ⟨hn _ (keys_mem hk hc).1, (keys_mem hk hc).2⟩
  have hskip : skipType .rootDir (skipType .rootName ((if abs then [⟨['/'], .rootDir, 0⟩] else []) ++ cs)) = cs := by
    cases abs
    · cases cs with
      | nil => rfl
      | cons c cs =>
        have := (hmem c (by simp)).2
        simp [skipType, this]
    · simp [skipType]
  obtain ⟨c, cs', rfl⟩ : ∃ c cs', cs = c :: cs' := by
    cases cs with
    | nil => exact absurd rfl hne
    | cons c cs' => exact ⟨c, cs', rfl⟩
  have hc := hp c rfl
  have hrel : ∀ r, hasRelativePath .posix ⟨render abs (ms ++ [w]) false, (if abs then [⟨['/'], .rootDir, 0⟩] else []) ++ (c :: cs'), .multi⟩ = r ↔
      (substrFrom (render abs (ms ++ [w]) false) m).bind (fun s => .ok !(mkPath .posix s).isEmpty) = r := by
    intro r
    simp only [hasRelativePath, relativePath, hskip, List.head?_cons, hc, bind, pure, Except.pure]
    cases substrFrom (render abs (ms ++ [w]) false) m <;> rfl
  refine ⟨fun hm => ?_, fun hm => ?_, fun hm => ?_⟩
  · have h1 := (hrel (.ok true)).mpr (by
      simp only [substrFrom, if_pos (Nat.le_of_lt hm), Except.bind]
      congr 1
      simp only [Path.isEmpty, mkPath_pathname, Bool.not_eq_true', List.isEmpty_eq_false_iff]
      have h2 : (render abs (ms ++ [w]) false).drop m ≠ [] := by simp; omega
      unfold stored
      split
      · simp
      · exact h2)
    have hl : (c :: cs').dropLast.map Comp.key = ms.map (·, PType.filename) := by
      rw [List.map_dropLast, hk, List.map_append, List.map_singleton, List.dropLast_concat]
    have hdl : ((if abs then [(⟨['/'], .rootDir, 0⟩ : Comp)] else []) ++ c :: cs').dropLast =
        (if abs then [⟨['/'], .rootDir, 0⟩] else []) ++ (c :: cs').dropLast := List.dropLast_append_of_ne_nil hne
    have hpc : parentComps ((if abs then [⟨['/'], .rootDir, 0⟩] else []) ++ c :: cs') =
        .ok ((if abs then [⟨['/'], .rootDir, 0⟩] else []) ++ (c :: cs').dropLast) := by
      unfold parentComps
      rw [hdl, List.getLast?_append, List.getLast?_eq_some_getLast hne]
      simp only [Option.some_or]
      rw [if_neg (hmem _ (List.getLast_mem hne)).1.1]
    have hnm : (c :: cs').dropLast.map Comp.name = ms := by
      have := congrArg (List.map Prod.fst) hl
      simpa only [List.map_map, Function.comp_def, Comp.key, List.map_id'] using this
    have hmem' : ∀ d ∈ (c :: cs').dropLast, IsName d.name := fun d hd => (hmem d (List.dropLast_subset _ hd)).1
    have hrj : rejoin .posix ((if abs then [⟨['/'], .rootDir, 0⟩] else []) ++ (c :: cs').dropLast) [] = render abs ms false := by
      cases abs
      · simp only [Bool.false_eq_true, if_false, List.nil_append]
        rw [rejoin_names _ _ hmem', hnm]
        simp [render]
      · simp only [if_true, List.cons_append, List.nil_append]
        rw [rejoin_root _ hmem', hnm]
        simp [render]
    refine ⟨⟨render abs ms false, (if abs then [⟨['/'], .rootDir, 0⟩] else []) ++ (c :: cs').dropLast, .multi⟩, ?_, ⟨_, rfl, hl, ?_⟩⟩
    · simp only [parentPath, h1, bind, Except.bind, pure, Except.pure, hpc, hrj, returned]
      rfl
    · intro d hd
      cases cs' with
      | nil => cases hd
      | cons e es => cases hd; exact hc
  · have h1 := (hrel (.ok false)).mpr (by
      simp only [substrFrom, if_pos (Nat.le_of_eq hm), Except.bind]
      congr 1
      rw [hm, List.drop_length, mkPath_nil]
      rfl)
    simp only [parentPath, h1, bind, Except.bind, pure, Except.pure]
    rfl
  · have h1 := (hrel (.error .outOfRange)).mpr (by simp only [substrFrom, if_neg (Nat.not_le.mpr hm)]; rfl)
    simp only [parentPath, h1, bind, Except.bind]

/-- The first elided parent. -/
theorem Loose.elided {q : Path} (hq : Loose q) (hf : filePart q.pathname ≠ []) : ∃ q', Asap.parentPath .posix true q = .ok q' ∧
    Elided (leading q.pathname) (startsSlash q.pathname) (filenames q.pathname).dropLast q' := by
  cases hq with
  | dflt => exact absurd rfl hf
  | empt => exact absurd rfl hf
  | root => exact absurd (by decide) hf
  | file s hs =>
    refine ⟨.default, ?_, ⟨[], ?_, ?_, ?_⟩⟩
    · have := (Loose.file s hs).hasRelativePath
      simp only [filenames_noSlash hs.2, hs.1, if_false] at this
      simp only [Asap.parentPath, this, bind, Except.bind, pure, Except.pure]
      rfl
    · simp [startsSlash_name hs.2, filenames_noSlash hs.2, hs.1, render, join, Path.default]
    · simp [filenames_noSlash hs.2, hs.1]
    · intro c hc; cases hc
  | multi s k h1 h2 =>
    have hn : filenames s ≠ [] := by
      rw [filenames_dir_file, if_neg hf]; simp
    have hr := (Loose.multi s k h1 h2).hasRelativePath
    have hn' : (filenames s).isEmpty = false := by simpa using hn
    simp only [hn', Bool.not_false] at hr
    refine ⟨_, ?_, ⟨(toks .posix 0 s).dropLast, rfl, ?_, ?_⟩⟩
    · simp only [Asap.parentPath, hr, bind, Except.bind, pure, Except.pure, parentComps_rawCompsK k hn, rejoin_parent, returned]
      simp only [Bool.not_true, Bool.false_eq_true, if_false, if_true]
      congr 3
      unfold rootComps
      by_cases hst : s.head? = some '/'
      · rw [if_pos hst, if_pos (startsSlash_iff.mpr hst)]
      · rw [if_neg hst, if_neg (fun h => hst (startsSlash_iff.mp h))]
    · rw [List.map_dropLast, toks_keys, List.map_dropLast]
    · intro c hc
      have hc' : (toks .posix 0 s).head? = some c := by
        cases ht : toks .posix 0 s with
        | nil => rw [ht] at hc; cases hc
        | cons d ds =>
          rw [ht] at hc
          cases ds with
          | nil => cases hc
          | cons e es => exact hc
      obtain ⟨-, h3, h4⟩ := toks_head_pos s 0 c hc'
      have h5 := leading_drop s
      rw [← h4, List.length_drop] at h5
      simp only
      omega

/-- One round of the first loop, from an elided path. -/
theorem missingOf_elided_step {n m : Nat} {abs : Bool} {ms : List Str} {w : Str} {q : Path} {acc : List Path} (h : Elided m abs (ms ++ [w]) q)
    (hn : ∀ v ∈ ms ++ [w], IsName v) : missingOf true (n + 1) q acc =
      (Prog.ofRes (parentPath .posix true q)).bind fun q' => missingOf true n q' ((if Proper w then [q] else []) ++ acc) := by
  have hw := hn w (by simp)
  have hf : filePart q.pathname = w := by rw [h.pathname, filePart_render_snoc _ _ hw.2]
  have : (filePart q.pathname).isEmpty = false := by rw [hf]; simpa using hw.1
  have hs := h.shape hn
  simp only [missingOf, hs.hasFilename, hs.filename, Prog.bind_eq, Prog.ofRes_ok, Prog.ret_bind, this, Bool.not_false, if_true]
  congr 1
  funext q'
  have hp : (fileOf (filePart q.pathname)).pathname = w := by
    simp [fileOf, hf, hw.1]
  rw [hp]
  congr 1
  by_cases h : Proper w
  · rw [if_pos h, if_neg (fun h' => (proper_iff _).mp h' h)]; rfl
  · rw [if_neg h, if_pos ((proper_iff _).mpr h)]; rfl

theorem render_length_le (abs : Bool) (v : Str) (ms : List Str) (w : Str) :
    (render abs [v] false).length ≤ (render abs (v :: ms ++ [w]) false).length := by
  rw [render_snoc]
  simp [render, join]
  cases ms <;> simp [join]
  omega

/-- The first loop, from an elided path. -/
theorem missingOf_elided {m : Nat} (abs : Bool) : ∀ (ns : List Str), (∀ w ∈ ns, IsName w) → ∀ (n : Nat) (q : Path) (acc : List Path), Elided m abs ns q →
    (∀ v, ns.head? = some v → m < (render abs [v] false).length) → ns.length < n →
    ∃ l, missingOf true n q acc = .ret (l ++ acc) ∧
      l.map Path.pathname = chain (if abs then ['/'] else []) ns (render abs ns false) := by
  intro ns
  induction hlen : ns.length generalizing ns with
  | zero =>
    intro hns n q acc hq _ hn
    obtain rfl := List.length_eq_zero_iff.mp hlen
    obtain ⟨n, rfl⟩ : ∃ j, n = j + 1 := ⟨n - 1, by omega⟩
    refine ⟨[], ?_, rfl⟩
    simp [missingOf, (hq.shape hns).hasFilename, hq.pathname, filePart_render_empty, Prog.ofRes_ok]
  | succ k ih =>
    intro hns n q acc hq hm hn
    obtain ⟨n, rfl⟩ : ∃ j, n = j + 1 := ⟨n - 1, by omega⟩
    rcases eq_nil_or_snoc ns with rfl | ⟨ms, w, rfl⟩
    · simp at hlen
    · have hms : ∀ v ∈ ms, IsName v := fun v hv => hns v (by simp [hv])
      have hlt : m < (render abs (ms ++ [w]) false).length := by
        cases ms with
        | nil => exact hm w rfl
        | cons v ms => exact Nat.lt_of_lt_of_le (hm v rfl) (render_length_le abs v ms w)
      obtain ⟨q', h1, h2⟩ := (hq.parent hns).1 hlt
      rw [missingOf_elided_step hq hns, h1, Prog.ofRes_ok, Prog.ret_bind]
      obtain ⟨l, h5, h7⟩ := ih ms (by simpa using hlen) hms n q' ((if Proper w then [q] else []) ++ acc) h2 (fun v hv => hm v (by
        cases ms with
        | nil => cases hv
        | cons u us => exact hv)) (by omega)
      refine ⟨l ++ (if Proper w then [q] else []), by rw [h5, List.append_assoc], ?_⟩
      rw [chain_snoc, List.map_append, h7, render_foldl abs ms hms]
      congr 1
      split
      · simp [hq.pathname]
      · rfl

/-- The first loop when the text of some prefix is not longer than the old offset: it does not come to an end. -/
theorem missingOf_elided_bad {m : Nat} (abs : Bool) (v : Str) (hv : (render abs [v] false).length ≤ m) : ∀ (n : Nat) (ns : List Str) (q : Path) (acc : List Path),
    (∀ w ∈ v :: ns, IsName w) → Elided m abs (v :: ns) q → missingOf true n q acc = .stop .fuel ∨ missingOf true n q acc = .stop (.fault .outOfRange) := by
  intro n
  induction n with
  | zero => intro ns q acc _ _; exact .inl rfl
  | succ n ih =>
    intro ns q acc hns hq
    obtain ⟨ms, w, he⟩ : ∃ ms w, v :: ns = ms ++ [w] := by
      rcases eq_nil_or_snoc (v :: ns) with h | h
      · cases h
      · exact h
    rw [he] at hq hns
    rw [missingOf_elided_step hq hns]
    obtain ⟨h1, h2, h3⟩ := hq.parent hns
    by_cases hlt : m < (render abs (ms ++ [w]) false).length
    · obtain ⟨q', h4, h5⟩ := h1 hlt
      rw [h4, Prog.ofRes_ok, Prog.ret_bind]
      cases ms with
      | nil =>
        cases he
        rw [List.nil_append] at hlt
        omega
      | cons u us =>
        cases he
        exact ih us q' _ (fun x hx => hns x (List.mem_append_left _ hx)) h5
    · by_cases heq : m = (render abs (ms ++ [w]) false).length
      · rw [h2 heq, Prog.ofRes_ok, Prog.ret_bind]
        rw [← he] at hns hq
        exact ih ns q _ hns hq
      · rw [h3 (by omega)]
        exact .inr rfl

/-- One round of the first loop, with elision. -/
theorem missingOf_first {n : Nat} {q : Path} {acc : List Path} (hq : Loose q) (hf : filePart q.pathname ≠ []) : missingOf true (n + 1) q acc =
      (Prog.ofRes (parentPath .posix true q)).bind fun q' => missingOf true n q' ((if Proper (filePart q.pathname) then [q] else []) ++ acc) := by
  have : (filePart q.pathname).isEmpty = false := by simpa using hf
  simp only [missingOf, hq.shape.hasFilename, hq.shape.filename, Prog.bind_eq, Prog.ofRes_ok, Prog.ret_bind, this, Bool.not_false, if_true]
  congr 1
  funext q'
  have hp : (fileOf (filePart q.pathname)).pathname = filePart q.pathname := by
    simp [fileOf, hf]
  rw [hp]
  congr 1
  by_cases h : Proper (filePart q.pathname)
  · rw [if_pos h, if_neg (fun h' => (proper_iff _).mp h' h)]; rfl
  · rw [if_neg h, if_pos ((proper_iff _).mpr h)]; rfl

theorem leading_zero {s : Str} (h : startsSlash s = false) : leading s = 0 := by
  cases s with
  | nil => rfl
  | cons c s =>
    have : (c == '/') = false := by
      rw [Bool.eq_false_iff, ne_eq, beq_iff_eq]
      rintro rfl
      cases h
    simp [leading, List.takeWhile, this]

/-- The first loop, with or without elision. -/
theorem missingOf_all {el : Bool} {n : Nat} {q : Path} (hq : Loose q) (hf : filePart q.pathname ≠ []) (hn : (filenames q.pathname).length < n)
    (hel : el = true → FewSlashes q.pathname) : ∃ l, missingOf el n q [] = .ret l ∧ l.map Path.pathname = prefixes q.pathname := by
  cases el with
  | false => exact missingOf_prefixes hq hf hn
  | true =>
    obtain ⟨n, rfl⟩ : ∃ j, n = j + 1 := ⟨n - 1, by omega⟩
    have hs := filenames_dir_file q.pathname
    rw [if_neg hf] at hs
    have hm : ∀ v ∈ (filenames q.pathname).dropLast, IsName v := fun v hv => dropLast_names hv
    rw [missingOf_first hq hf]
    obtain ⟨q', h1, h2⟩ := hq.elided hf
    rw [h1, Prog.ofRes_ok, Prog.ret_bind]
    obtain ⟨l, h4, h5⟩ := missingOf_elided _ _ hm n q' ((if Proper (filePart q.pathname) then [q] else []) ++ []) h2 (fun v hv => by
        have h6 := hel rfl v hv
        cases hst : startsSlash q.pathname with
        | true => simp [render, join]; omega
        | false =>
          have h7 : leading q.pathname = 0 := leading_zero hst
          have h8 := (hm v (List.mem_of_head? hv)).1
          simp only [render, join, h7]
          simpa [List.length_pos_iff] using h8) (by
      have : (filenames q.pathname).length ≠ 0 := by rw [hs]; simp
      simp only [List.length_dropLast]; omega)
    refine ⟨l ++ (if Proper (filePart q.pathname) then [q] else []), by rw [h4]; simp, ?_⟩
    have : filenames q.pathname = (filenames q.pathname).dropLast ++ [filePart q.pathname] := by
      conv => lhs; rw [hs]
      rw [hs, List.dropLast_concat]
    rw [prefixes, this, chain_snoc, List.map_append, h5, rootText, render_foldl _ _ hm]
    congr 1
    split <;> rfl

/-- The first loop, with elision and too many slashes. -/
theorem missingOf_many {n : Nat} {q : Path} (hq : Loose q) (hf : filePart q.pathname ≠ []) (hb : ¬ FewSlashes q.pathname) :
    missingOf true n q [] = .stop .fuel ∨ missingOf true n q [] = .stop (.fault .outOfRange) := by
  cases n with
  | zero => exact .inl rfl
  | succ n =>
    rw [missingOf_first hq hf]
    obtain ⟨q', h1, h2⟩ := hq.elided hf
    rw [h1, Prog.ofRes_ok, Prog.ret_bind]
    cases hd : (filenames q.pathname).dropLast with
    | nil => exact absurd (fun v hv => by rw [hd] at hv; cases hv) hb
    | cons v ns =>
      have hv : ¬ leading q.pathname ≤ v.length := fun h => hb fun v' hv' => by rw [hd] at hv'; cases hv'; exact h
      rw [hd] at h2
      refine missingOf_elided_bad _ v ?_ n ns q' _ (fun w hw => dropLast_names (hd ▸ hw)) h2
      simp only [render, join]
      split <;> simp <;> omega

/-! ## The second loop -/

theorem isDirectoryP_null (p : Path) : ∃ e : Errno → FsError, isDirectoryP p .null = .call (.stat p.pathname) (fun
    | .ok st => .ret ((statusOf st).isDirectory, .null)
    | .error x => if x = .ENOENT ∨ x = .ENOTDIR then .ret (false, .null) else .stop (.thrown (e x))) := by
  refine ⟨fun x => Handler.error ⟨"file_stat".toList, some p, none⟩ ("in ".toList ++ "file_stat".toList ++ ": ".toList ++
    "failed to determine attributes for the specified path".toList) (some x), ?_⟩
  simp only [isDirectoryP, isTypeP, status, getFileStatus, Prog.bind_eq, Prog.call_bind]
  congr 1
  funext r
  rcases r with x | st
  · by_cases h : x = .ENOENT ∨ x = .ENOTDIR
    · rcases h with rfl | rfl <;> rfl
    · simp only [if_neg h]
      unfold createFileStatus
      cases x <;> first | (exfalso; simp at h; done) | rfl
  · rfl

/-- Nothing that was there is lost, only directories appear (and what is seen beyond them by `..`), and the directories made are in `xs`. -/
structure Keeps (xs : List Str) (s s' : Sight) : Prop where
  old : ∀ y t, s.view y = .ok t → s'.view y = .ok t
  new : ∀ y t, s'.view y = .ok t → s.view y = .ok t ∨ t = .directory ∨ dotdot ∈ filenames y ∧ RealType t
  made : ∃ ms, s'.made = s.made ++ ms ∧ ms.Sublist xs

theorem Keeps.refl (xs : List Str) (s : Sight) : Keeps xs s s := ⟨fun _ _ h => h, fun _ _ h => .inl h, [], by simp, by simp⟩

theorem Keeps.trans {xs ys : List Str} {s s' s'' : Sight} (h1 : Keeps xs s s') (h2 : Keeps ys s' s'') : Keeps (xs ++ ys) s s'' := by
  obtain ⟨ms, h3, h4⟩ := h1.made
  obtain ⟨ns, h5, h6⟩ := h2.made
  refine ⟨fun y t h => h2.old y t (h1.old y t h), fun y t h => ?_, ms ++ ns, by rw [h5, h3, List.append_assoc], h4.append h6⟩
  rcases h2.new y t h with h | h
  · exact h1.new y t h
  · exact .inr h

/-- What the second loop establishes. -/
def Makes (xs : List Str) (b : Bool) (s : Sight) (o : Except Stop (Bool × Code × Bool)) (s' : Sight) : Prop :=
  Keeps xs s s' ∧ ∀ b' empty, o = .ok (b', none, empty) → empty = true ∧ (∀ x ∈ xs, ∃ t, s'.view x = .ok t) ∧
    (b' = true ↔ b = true ∨ s'.made ≠ s.made)

theorem wp_createMissing (l : List Path) : ∀ (b : Bool) (s : Sight), (∀ y t, s.view y = .ok t → RealType t) →
    wp sight (Makes (l.map Path.pathname) b s) (createMissing l b) s := by
  induction l with
  | nil =>
    intro b s _
    refine ⟨.refl _ _, ?_⟩
    rintro b' empty ⟨⟩
    simp
  | cons top rest ih =>
    intro b s hr
    simp only [createMissing, status_ref, Prog.bind_eq, Prog.call_bind]
    rintro r s1 ⟨rfl, hv⟩
    -- what follows when the directory is there
    have hgo : ∀ (b1 : Bool) (s2 : Sight), (Keeps [top.pathname] s1 s2) → (∃ t, s2.view top.pathname = .ok t) →
        (b1 = true ↔ b = true ∨ s2.made ≠ s1.made) →
        wp sight (Makes ((top :: rest).map Path.pathname) b s1) (createMissing rest b1) s2 := by
      intro b1 s2 hk hx hb
      refine wp_mono ?_ (ih b1 s2 ?_)
      · rintro o s3 ⟨h1, h2⟩
        refine ⟨hk.trans h1, fun b' empty ho => ?_⟩
        obtain ⟨h3, h4, h5⟩ := h2 b' empty ho
        refine ⟨h3, ?_, ?_⟩
        · intro x hx'
          rcases List.mem_cons.mp hx' with rfl | hx'
          · obtain ⟨t, ht⟩ := hx; exact ⟨t, h1.old _ _ ht⟩
          · exact h4 x hx'
        · rw [h5, hb]
          obtain ⟨ms, g1, _⟩ := hk.made
          obtain ⟨ns, g2, _⟩ := h1.made
          rw [g2, g1]
          simp
          by_cases hb : b = true <;> simp [hb]
          cases ms <;> simp
      · intro y t hy
        rcases hk.new y t hy with h | rfl | h
        · exact hr y t h
        · exact ⟨by simp, by simp⟩
        · exact h.2
    have hend : ∀ (m : EcArg) (e : Errno) (b1 : Bool) (s2 : Sight), Keeps [top.pathname] s1 s2 → m = .ref (some e) → (∃ e, s2.view top.pathname = .error e) →
        wp sight (Makes ((top :: rest).map Path.pathname) b s1)
          (((isDirectoryP top .null).bind fun x => Prog.ret (if x.1 then EcArg.ref none else m)).bind fun m =>
            if m.isSet then .ret (b1, m.code, rest.isEmpty) else createMissing rest b1) s2 := by
      intro m e b1 s2 hk hm hx
      obtain ⟨x, hp⟩ := isDirectoryP_null top
      rw [hp]
      rintro r s3 ⟨rfl, h⟩
      obtain ⟨e', he'⟩ := hx
      rw [he'] at h
      subst h
      simp only
      have hk' : Keeps ((top :: rest).map Path.pathname) s1 s3 := by
        have := hk.trans (.refl (rest.map Path.pathname) s3); exact this
      split
      · simp only [Prog.ret_bind, hm, Bool.false_eq_true, if_false, isSet_some, if_true]
        refine ⟨hk', ?_⟩
        intro b' empty ho
        cases ho
      · refine ⟨hk', ?_⟩
        intro b' empty ho
        cases ho
    cases hview : s1.view top.pathname with
    | ok t =>
      rw [hview] at hv
      obtain ⟨st, rfl, ht⟩ := hv (hr _ _ hview)
      have : (statusOf st).type ≠ .notFound := by
        rw [statusOf_type, ht]; exact (hr _ _ hview).2.1
      simp only [Prog.ret_bind, this, if_false, isSet_none, Bool.false_eq_true]
      exact hgo b s1 (.refl _ _) ⟨t, hview⟩ (by simp)
    | error e =>
      rw [hview] at hv
      subst hv
      simp only [Prog.ret_bind]
      by_cases he : typeOfErr e = .notFound
      · simp only [he, if_true, createDirectory, clear_ref, Prog.call_bind]
        intro r s2 hs
        rcases r with e' | _
        · obtain ⟨rfl, h2⟩ := hs rfl
          have : e' ≠ .EEXIST := fun h => by
            obtain ⟨t, ht⟩ := h2.mp h
            rw [hview] at ht; cases ht
          simp only [this, if_false, Handler.report, Prog.bind_eq, Prog.ret_bind, isSet_some, if_true]
          exact hend _ e' true s2 (.refl _ _) rfl ⟨e, hview⟩
        · obtain ⟨_, h2, h3, h4, h5⟩ := hs rfl
          simp only [Prog.ret_bind, isSet_none, Bool.false_eq_true, if_false]
          refine hgo true s2 ⟨h4, h5, [top.pathname], h2, List.Sublist.refl _⟩ ⟨_, h3⟩ ?_
          simp [h2]
      · simp only [he, if_false, Prog.ret_bind, isSet_some, if_true]
        exact hend _ e b s1 (.refl _ _) rfl ⟨e, hview⟩

/-- All of them are there: nothing is done. -/
theorem wp_createMissing_again (l : List Path) (b : Bool) (s : Sight) (hr : ∀ y t, s.view y = .ok t → RealType t)
    (hl : ∀ x ∈ l, ∃ t, s.view x.pathname = .ok t) : wp sight (fun o s' => o = .ok (b, none, true) ∧ s' = s) (createMissing l b) s := by
  induction l with
  | nil => exact ⟨rfl, rfl⟩
  | cons top rest ih =>
    simp only [createMissing, status_ref, Prog.bind_eq, Prog.call_bind]
    rintro r s1 ⟨rfl, hv⟩
    obtain ⟨t, hview⟩ := hl top (by simp)
    rw [hview] at hv
    obtain ⟨st, rfl, ht⟩ := hv (hr _ _ hview)
    have : (statusOf st).type ≠ .notFound := by
      rw [statusOf_type, ht]; exact (hr _ _ hview).2.1
    simp only [Prog.ret_bind, this, if_false, isSet_none, Bool.false_eq_true]
    exact ih fun x hx => hl x (by simp [hx])

/-- The calls succeed: `stat` finds a file or nothing, `mkdir` makes the directory. -/
def Spec.Willing (ev : Event) : Prop := match ev with
  | ⟨.stat _, .error e⟩ => Missing e
  | ⟨.mkdir _ _, .error _⟩ => False
  | _ => True

theorem willing_createMissing (l : List Path) (b : Bool) {t : List Event} {o : Except Stop (Bool × Code × Bool)}
    (hx : Exec (createMissing l b) t o) (hw : ∀ ev ∈ t, Willing ev) : ∃ b', o = .ok (b', none, true) := by
  induction l generalizing b t with
  | nil => obtain ⟨rfl, rfl⟩ := exec_ret.mp hx; exact ⟨b, rfl⟩
  | cons top rest ih =>
    simp only [createMissing, status_ref, Prog.bind_eq, Prog.call_bind] at hx
    rcases exec_stat.mp hx with ⟨e, t', rfl, h1⟩ | ⟨st, t', rfl, h1⟩
    · have he : typeOfErr e = .notFound := by
        have : Missing e := hw ⟨.stat top.pathname, (.error e : Except Errno Stat)⟩ (by simp)
        exact if_pos this
      simp only [Prog.ret_bind, he, if_true, createDirectory, clear_ref, Prog.call_bind] at h1
      rcases exec_mkdir.mp h1 with ⟨e', t2, rfl, h2⟩ | ⟨_, t2, rfl, h2⟩
      · exact (hw ⟨.mkdir top.pathname Perms.all, (.error e' : Except Errno Unit)⟩ (by simp)).elim
      · simp only [Prog.ret_bind, isSet_none, Bool.false_eq_true, if_false] at h2
        exact ih _ h2 fun ev h => hw ev (by simp [h])
    · simp only [Prog.ret_bind] at h1
      split at h1
      · rename_i h
        exact absurd h (by rw [statusOf_type, ← typeOfMode_eq]; exact (typeOfMode_ne st.mode).2)
      · simp only [Prog.ret_bind, isSet_none, Bool.false_eq_true, if_false] at h1
        exact ih _ h1 fun ev h => hw ev (by simp [h])

/-! ## C28 -/

theorem createDirectories_eq {el : Bool} {n : Nat} {q : Path} (hq : Loose q) (hf : filePart q.pathname ≠ []) (hn : (filenames q.pathname).length < n)
    (hel : el = true → FewSlashes q.pathname) (c : Code) :
    ∃ l, l.map Path.pathname = prefixes q.pathname ∧ createDirectories el n q (.ref c) =
      if l.isEmpty then .ret (false, .ref none) else (createMissing l false).bind fun x => match x.2.1 with
        | some e => .ret (false, .ref (some e))
        | none => .ret (x.1 && x.2.2, .ref none) := by
  obtain ⟨l, h1, h2⟩ := missingOf_all hq hf hn hel
  refine ⟨l, h2, ?_⟩
  have he : q.isEmpty = false := by
    simp only [Path.isEmpty, List.isEmpty_eq_false_iff]
    intro h
    rw [h] at hf
    exact hf rfl
  simp only [createDirectories, he, clear_ref, Bool.false_eq_true, if_false, h1, Prog.bind_eq, Prog.ret_bind]
  rfl

/-- C28, in part (when the copy in `parent_path` is elided, for paths that begin with few slashes; without other processes and without symbolic links that lead nowhere; for a path that ends
in a name). Existing files stay as they are, and the directories made are prefixes of `p` that end in a name. If no error is reported then afterwards
every such prefix exists, those that were missing and do not contain `..` as directories, and the result tells whether a directory was made. -/
theorem c28_chain_partial {el : Bool} {n : Nat} {q : Path} (hq : Reach q) (hf : filePart q.pathname ≠ []) (hn : (filenames q.pathname).length < n)
    (hel : el = true → FewSlashes q.pathname) {c : Code}
    {t : List Event} {o : Except Stop (Bool × EcArg)} {s s' : Sight} (hr : ∀ y t, s.view y = .ok t → RealType t)
    (hx : Exec (createDirectories el n q (.ref c)) t o) (hs : Steps sight s t s') :
    (∀ y t, s.view y = .ok t → s'.view y = .ok t) ∧ (∃ ms, s'.made = s.made ++ ms ∧ ms.Sublist (prefixes q.pathname)) ∧
    ∀ b, o = .ok (b, .ref none) → (∀ x ∈ prefixes q.pathname, ∃ t, s'.view x = .ok t ∧ (t = .directory ∨ s.view x = .ok t ∨ dotdot ∈ filenames x)) ∧
      (b = true ↔ s'.made ≠ s.made) := by
  obtain ⟨l, h1, h2⟩ := createDirectories_eq hq.loose hf hn hel c
  rw [h2] at hx
  split at hx <;> rename_i hl
  · obtain ⟨rfl, rfl⟩ := exec_ret.mp hx
    cases hs
    have : prefixes q.pathname = [] := by rw [← h1]; simpa using hl
    refine ⟨fun _ _ h => h, ⟨[], by simp, by simp⟩, ?_⟩
    rintro b ⟨⟩
    simp [this]
  · rcases exec_bind.mp hx with ⟨x, h3, rfl⟩ | ⟨⟨b1, m, empty⟩, t1, t2, rfl, h3, h4⟩
    · obtain ⟨hk, -⟩ := wp_sound (wp_createMissing l false s hr) h3 hs
      refine ⟨hk.old, h1 ▸ hk.made, ?_⟩
      intro b ho; cases ho
    · have ht2 : t2 = [] := by
        cases m <;> exact (exec_ret.mp h4).1
      subst ht2
      rw [List.append_nil] at hs
      obtain ⟨hk, hm⟩ := wp_sound (wp_createMissing l false s hr) h3 hs
      refine ⟨hk.old, h1 ▸ hk.made, ?_⟩
      rintro b rfl
      cases m with
      | some e => have := (exec_ret.mp h4).2; cases this
      | none =>
        have := (exec_ret.mp h4).2
        cases this
        obtain ⟨h5, h6, h7⟩ := hm b1 empty rfl
        refine ⟨fun x hx => ?_, by simp only [h5, Bool.and_true, h7]; simp⟩
        obtain ⟨t, ht⟩ := h6 x (h1 ▸ hx)
        refine ⟨t, ht, ?_⟩
        rcases hk.new x t ht with h | h | h
        · exact .inr (.inl h)
        · exact .inl h
        · exact .inr (.inr h.1)

/-- If all the prefixes exist already, as after a first call, the result is `false` and nothing changes. -/
theorem c28_again_partial {el : Bool} {n : Nat} {q : Path} (hq : Reach q) (hf : filePart q.pathname ≠ []) (hn : (filenames q.pathname).length < n)
    (hel : el = true → FewSlashes q.pathname) {c : Code}
    {t : List Event} {o : Except Stop (Bool × EcArg)} {s s' : Sight} (hr : ∀ y t, s.view y = .ok t → RealType t)
    (hall : ∀ x ∈ prefixes q.pathname, ∃ t, s.view x = .ok t)
    (hx : Exec (createDirectories el n q (.ref c)) t o) (hs : Steps sight s t s') : o = .ok (false, .ref none) ∧ s' = s := by
  obtain ⟨l, h1, h2⟩ := createDirectories_eq hq.loose hf hn hel c
  rw [h2] at hx
  split at hx
  · obtain ⟨rfl, rfl⟩ := exec_ret.mp hx
    cases hs
    exact ⟨rfl, rfl⟩
  · have hw := wp_createMissing_again l false s hr fun x hx => hall _ (h1 ▸ List.mem_map_of_mem hx)
    rcases exec_bind.mp hx with ⟨x, h3, rfl⟩ | ⟨⟨b1, m, empty⟩, t1, t2, rfl, h3, h4⟩
    · obtain ⟨i1, i2, i3, i4⟩ := steps_append.mp (show Steps sight s (t ++ []) s' by simpa using hs)
      cases (wp_sound hw h3 i2).1
    · obtain ⟨s1, i2, i3⟩ := steps_append.mp hs
      obtain ⟨h5, h6⟩ := wp_sound hw h3 i2
      cases h5
      obtain ⟨rfl, rfl⟩ := exec_ret.mp h4
      cases i3
      exact ⟨rfl, h6⟩

/-- If `stat` finds a file or nothing and `mkdir` does not fail, no error is reported, whatever else happens. -/
theorem c28_succeeds_partial {el : Bool} {n : Nat} {q : Path} (hq : Reach q) (hf : filePart q.pathname ≠ []) (hn : (filenames q.pathname).length < n)
    (hel : el = true → FewSlashes q.pathname) {c : Code}
    {t : List Event} {o : Except Stop (Bool × EcArg)} (hx : Exec (createDirectories el n q (.ref c)) t o) (hw : ∀ ev ∈ t, Willing ev) :
    ∃ b, o = .ok (b, .ref none) := by
  obtain ⟨l, h1, h2⟩ := createDirectories_eq hq.loose hf hn hel c
  rw [h2] at hx
  split at hx
  · obtain ⟨rfl, rfl⟩ := exec_ret.mp hx
    exact ⟨_, rfl⟩
  · rcases exec_bind.mp hx with ⟨x, h3, rfl⟩ | ⟨⟨b1, m, empty⟩, t1, t2, rfl, h3, h4⟩
    · obtain ⟨b', h⟩ := willing_createMissing l false h3 hw
      cases h
    · obtain ⟨b', h⟩ := willing_createMissing l false h3 fun ev h => hw ev (by simp [h])
      cases h
      exact ⟨_, (exec_ret.mp h4).2⟩

/-- The prefixes of some paths. -/
example : prefixes "a/b/../c".toList = ["a".toList, "a/b".toList, "a/b/../c".toList] ∧ prefixes "//a//./b".toList = ["/a".toList, "//a//./b".toList] ∧
    prefixes "a/..".toList = ["a".toList] := by decide

/-- C28 is false. (1) A trailing slash: nothing is done at all, whatever the state, and `false` is returned without error.
(2) There is a regular file: `false` without error. (3) There is a symbolic link that leads nowhere (or another process makes the directory meanwhile): `true`, but
nothing was created. -/
theorem c28_violated :
    (∀ el q n t o, Reach q → endsSlash q.pathname = true → (Exec (createDirectories el (n + 1) q (.ref none)) t o ↔ t = [] ∧ o = .ok (false, .ref none))) ∧
    (∃ t st, Exec (createDirectories false 9 (mkPath .posix "a".toList) (.ref none)) t (.ok (false, .ref none)) ∧
      t = [⟨.stat "a".toList, .ok st⟩] ∧ typeOf st.mode = .regular) ∧
    (∃ t, Exec (createDirectories false 9 (mkPath .posix "a".toList) (.ref none)) t (.ok (true, .ref none)) ∧
      t = [⟨.stat "a".toList, .error .ENOENT⟩, ⟨.mkdir "a".toList 0o777, .error .EEXIST⟩]) := by
  refine ⟨?_, ⟨_, ⟨1, 2, 0o100644, 1, 7, 0, 0, 0⟩, feed_exec (by rfl), rfl, by decide⟩, ⟨_, feed_exec (by rfl), rfl⟩⟩
  intro el q n t o hq he
  have hf : filePart q.pathname = [] := (filePart_eq_nil_iff _).mpr (.inr he)
  have hne : q.isEmpty = false := by
    simp only [Path.isEmpty, List.isEmpty_eq_false_iff]
    intro h
    rw [h] at he
    cases he
  have : createDirectories el (n + 1) q (.ref none) = .ret (false, .ref none) := by
    simp [createDirectories, hne, clear_ref, missingOf, hq.shape.hasFilename, hf, Prog.ofRes_ok]
  rw [this]
  exact exec_ret

/-- C28 with a compiler that elides the copy in `parent_path`, for a path that begins with more slashes than its first name has characters and has another name:
no call is made, and `create_directories` does not return: the loop over the parents never ends, or leaves with `std::out_of_range`, also with an `error_code`. -/
theorem c28_elided_violated :
    (∀ n q c t o, Reach q → filePart q.pathname ≠ [] → ¬ FewSlashes q.pathname → Exec (createDirectories true n q (.ref c)) t o →
      t = [] ∧ (o = .error .fuel ∨ o = .error (.fault .outOfRange))) ∧
    (∀ n t o, Exec (createDirectories true n (mkPath .posix "//a/b".toList) (.ref none)) t o ↔ t = [] ∧ o = .error .fuel) ∧
    ∀ n t o, Exec (createDirectories true (n + 2) (mkPath .posix "///a/b".toList) (.ref none)) t o ↔ t = [] ∧ o = .error (.fault .outOfRange) := by
  have key : ∀ n (q : Path) c x, q.isEmpty = false → missingOf true n q [] = .stop x → createDirectories true n q (.ref c) = .stop x := by
    intro n q c x he h
    simp only [createDirectories, he, clear_ref, Bool.false_eq_true, if_false, h]
    rfl
  refine ⟨?_, ?_, ?_⟩
  · intro n q c t o hq hf hb hx
    have he : q.isEmpty = false := by
      simp only [Path.isEmpty, List.isEmpty_eq_false_iff]
      intro h
      rw [h] at hf
      exact hf rfl
    rcases missingOf_many (n := n) hq.loose hf hb with h | h
    · rw [key n q c _ he h] at hx
      obtain ⟨h1, h2⟩ := exec_stop.mp hx
      exact ⟨h1, .inl h2⟩
    · rw [key n q c _ he h] at hx
      obtain ⟨h1, h2⟩ := exec_stop.mp hx
      exact ⟨h1, .inr h2⟩
  · intro n t o
    have loop : ∀ n acc, missingOf true n ⟨"/a".toList, [⟨['/'], .rootDir, 0⟩, ⟨['a'], .filename, 2⟩], .multi⟩ acc = .stop .fuel := by
      intro n
      induction n with
      | zero => intro _; rfl
      | succ n ih => intro acc; exact ih (_ :: acc)
    have h : missingOf true n (mkPath .posix "//a/b".toList) [] = .stop .fuel := by
      cases n with
      | zero => rfl
      | succ n => exact loop n _
    rw [key n _ _ _ (by decide) h]
    exact exec_stop
  · intro n t o
    rw [key (n + 2) (mkPath .posix "///a/b".toList) _ (.fault .outOfRange) (by decide) rfl]
    exact exec_stop

/-- With elision, a path of few slashes: the directory `/ab` exists, `/ab/c` is made. -/
example : FewSlashes "//ab/c".toList ∧ ¬ FewSlashes "//a/b".toList ∧ FewSlashes "a//b".toList ∧
    ∃ t, Exec (createDirectories true 9 (mkPath .posix "//ab/c".toList) (.ref none)) t (.ok (true, .ref none)) ∧
      t = [⟨.stat "/ab".toList, .ok ⟨1, 2, 0o040755, 1, 7, 0, 0, 0⟩⟩, ⟨.stat "//ab/c".toList, .error .ENOENT⟩, ⟨.mkdir "//ab/c".toList 0o777, .ok ()⟩] :=
  ⟨by decide, by decide, by decide, _, feed_exec (by rfl), rfl⟩

/-- All prefixes exist. -/
example : ∃ t s', Exec (createDirectories false 9 (mkPath .posix "a/b".toList) (.ref none)) t (.ok (false, .ref none)) ∧
    Steps sight ⟨fun _ => .ok .directory, []⟩ t s' :=
  ⟨[⟨.stat "a".toList, .ok ⟨1, 2, 0o040755, 1, 7, 0, 0, 0⟩⟩, ⟨.stat "a/b".toList, .ok ⟨1, 3, 0o040755, 1, 7, 0, 0, 0⟩⟩], _, feed_exec (by rfl),
    .cons ⟨rfl, fun _ => ⟨_, rfl, by decide⟩⟩ (.cons ⟨rfl, fun _ => ⟨_, rfl, by decide⟩⟩ (.nil _))⟩

/-! ## The assumption can be met -/

theorem sight_total (s : Sight) (c : Sys) (hr : ∀ y t, s.view y = .ok t → RealType t) : ∃ (r : c.Ret) (s' : Sight), sight s ⟨c, r⟩ s' := by
  cases c with
  | stat x =>
    cases h : s.view x with
    | error e => exact ⟨.error e, s, rfl, by rw [h]⟩
    | ok t =>
      obtain ⟨m, hm⟩ := exists_mode (hr _ _ h)
      exact ⟨.ok ⟨1, 1, m, 1, 0, 0, 0, 0⟩, s, rfl, by rw [h]; exact fun _ => ⟨_, rfl, hm⟩⟩
  | mkdir x m =>
    cases h : s.view x with
    | error e => exact ⟨.error .EACCES, s, fun _ => ⟨rfl, by simp [h]⟩⟩
    | ok t => exact ⟨.error .EEXIST, s, fun _ => ⟨rfl, by simp [h]⟩⟩
  | pathconf => exact ⟨(0 : Int), s, trivial⟩
  | getenv x => exact ⟨none, s, trivial⟩
  | winTest q x => exact ⟨(false, none), s, trivial⟩
  | port c => exact ⟨c.fails, s, trivial⟩
  | win c => exact ⟨c.fails, s, trivial⟩
  | _ => exact ⟨.error .ENOENT, s, trivial⟩

/-- `a` exists, `a/b` and `a/b/../c` do not: two directories are made. -/
example : ∃ t s', Exec (createDirectories false 9 (mkPath .posix "a/b/../c".toList) (.ref none)) t (.ok (true, .ref none)) ∧
    Steps sight ⟨fun x => if x = "a".toList then .ok .directory else .error .ENOENT, []⟩ t s' ∧ s'.made = ["a/b".toList, "a/b/../c".toList] := by
  refine ⟨[⟨.stat "a".toList, .ok ⟨1, 2, 0o040755, 1, 7, 0, 0, 0⟩⟩, ⟨.stat "a/b".toList, .error .ENOENT⟩, ⟨.mkdir "a/b".toList 0o777, .ok ()⟩,
    ⟨.stat "a/b/../c".toList, .error .ENOENT⟩, ⟨.mkdir "a/b/../c".toList 0o777, .ok ()⟩],
    ⟨fun x => if x = "a".toList ∨ x = "a/b".toList ∨ x = "a/b/../c".toList then .ok .directory else .error .ENOENT, ["a/b".toList, "a/b/../c".toList]⟩,
    feed_exec (by rfl), ?_, rfl⟩
  refine .cons (s' := ⟨fun x => if x = "a".toList then .ok .directory else .error .ENOENT, []⟩) ⟨rfl, ?_⟩ ?_
  · exact fun _ => ⟨_, rfl, by decide⟩
  refine .cons (s' := ⟨fun x => if x = "a".toList then .ok .directory else .error .ENOENT, []⟩) ⟨rfl, rfl⟩ ?_
  refine .cons (s' := ⟨fun x => if x = "a".toList ∨ x = "a/b".toList then .ok .directory else .error .ENOENT, ["a/b".toList]⟩) ?_ ?_
  · refine fun _ => ⟨⟨_, rfl⟩, rfl, rfl, ?_, ?_⟩
    · intro y t h; dsimp only at h ⊢; split at h
      · rename_i hy; simp [hy, h]
      · cases h
    · intro y t h; dsimp only at h ⊢; split at h
      · cases h; exact .inr (.inl rfl)
      · cases h
  refine .cons (s' := ⟨fun x => if x = "a".toList ∨ x = "a/b".toList then .ok .directory else .error .ENOENT, ["a/b".toList]⟩) ⟨rfl, rfl⟩ ?_
  refine .cons ?_ (.nil _)
  refine fun _ => ⟨⟨_, rfl⟩, rfl, rfl, ?_, ?_⟩
  · intro y t h; dsimp only at h ⊢; split at h
    · rename_i hy; rcases hy with hy | hy <;> simp [hy, h]
    · cases h
  · intro y t h; dsimp only at h ⊢; split at h
    · cases h; exact .inr (.inl rfl)
    · cases h

end Asap
