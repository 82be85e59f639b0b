import Verif.Path.WinExt
import Verif.Path.NormLemmas
import Verif.Path.WinParentRel

/-!
# `lexically_normal` on Windows, simulated by the same stack machine
-/

namespace Asap
open Spec

/-- What follows the root name in the text of a state. -/
def NSt.winRest (st : NSt) : Str :=
  (if st.abs then ['\\'] else []) ++ winJoin st.ns ++ (if st.tr then ['\\'] else [])

/-- The text of a state after a root name. -/
def winText (r : Str) (st : NSt) : Str := r ++ st.winRest

/-- A root name in preferred spelling, or none. -/
def RootOk (r : Str) : Prop := (r = [] ∨ IsRoot r) ∧ winPrefer r = r

/-- States that occur. -/
structure WinWf (r : Str) (st : NSt) : Prop where
  root : RootOk r
  plain : ∀ w ∈ st.ns, PlainName w
  trail : st.tr = true → st.ns ≠ []
  unc : 2 < r.length → st.abs = true ∨ st.ns = []

theorem winRootLen_plain {x : Str} (h : ':' ∉ x) (hd : x.head?.any winSep = false) : winRootLen x = 0 := by
  match x with
  | [] => rfl
  | [_] => rfl
  | [a, b] =>
    simp at h
    simp [winRootLen, Ne.symm h.2]
  | a :: b :: c :: x =>
    simp at h hd
    simp [winRootLen, Ne.symm h.2.1, hd]

theorem winRootLen_dir {x : Str} (hd : x.head?.any winSep = false) : winRootLen ('\\' :: x) = 0 := by
  match x with
  | [] => rfl
  | [b] => simp [winRootLen, winSep]
  | b :: c :: x =>
    simp at hd
    have : b ≠ '\\' := by rintro rfl; simp [winSep] at hd
    have hs : winSep '\\' = true := by decide
    simp [winRootLen, hs, this]

theorem winJoin_noColon : ∀ {ns : List Str}, (∀ n ∈ ns, PlainName n) → ':' ∉ winJoin ns
  | [], _ => by simp [winJoin]
  | [w], h => (h w (by simp)).2.2
  | w :: v :: ns, h => by
    have h1 := (h w (by simp)).2.2
    have h2 := winJoin_noColon (ns := v :: ns) (fun n hn => h n (by simp [hn]))
    simp only [winJoin, List.mem_append, List.mem_cons]
    rintro (h' | h' | h')
    · exact h1 h'
    · cases h'
    · exact h2 h'

theorem winJoin_nil : ∀ {ns : List Str}, (∀ n ∈ ns, PlainName n) → (winJoin ns = [] ↔ ns = [])
  | [], _ => by simp [winJoin]
  | [w], h => by simpa [winJoin] using (h w (by simp)).1
  | w :: v :: ns, h => by simp [winJoin]

theorem winJoin_snoc (ms : List Str) (w : Str) :
    winJoin (ms ++ [w]) = winJoin ms ++ (if ms = [] then [] else ['\\']) ++ w := by
  induction ms with
  | nil => simp [winJoin]
  | cons m ms ih =>
    cases ms with
    | nil => simp [winJoin]
    | cons m' ms =>
      simp only [List.cons_append, winJoin] at ih ⊢
      rw [ih]
      simp

/-- The facts about the text of a state. -/
structure WinTextFacts (r : Str) (st : NSt) : Prop where
  len : winRootLen (winText r st) = r.length
  tail : winTail (winText r st) = st.winRest
  names : winNames (winTail (winText r st)) = st.ns
  dir : winHasDir (winText r st) = st.abs
  root : winRootName (winText r st) = r
  ends : st.ns ≠ [] → winEndsSep (winText r st) = st.tr
  stored : (mkPath .windows (winText r st)).pathname = winText r st

theorem winRest_head {st : NSt} (hp : ∀ w ∈ st.ns, PlainName w) (ht : st.tr = true → st.ns ≠ []) :
    st.winRest.head?.any winSep = st.abs ∧
    (winJoin st.ns ++ (if st.tr then ['\\'] else [])).head?.any winSep = false := by
  have h2 : (winJoin st.ns ++ (if st.tr then ['\\'] else [])).head?.any winSep = false := by
    by_cases hn : st.ns = []
    · have : st.tr = false := by
        cases h : st.tr with
        | false => rfl
        | true => exact absurd hn (ht h)
      simp [hn, this, winJoin]
    · rw [head_any_append, if_neg (fun h => hn ((winJoin_nil hp).mp h))]
      cases h : (winJoin st.ns).head? with
      | none => rfl
      | some c => simpa using winJoin_head hp c h
  refine ⟨?_, h2⟩
  rw [NSt.winRest, List.append_assoc]
  cases st.abs with
  | true => rfl
  | false => exact h2

theorem winRest_names {st : NSt} (hp : ∀ w ∈ st.ns, PlainName w) : winNames st.winRest = st.ns := by
  have h1 : winNames (winJoin st.ns ++ (if st.tr then ['\\'] else [])) = st.ns := by
    cases st.tr with
    | true => rw [if_pos rfl, winNames_sep_end (by decide), winNames_winJoin hp]
    | false => simp [winNames_winJoin hp]
  rw [NSt.winRest, List.append_assoc]
  cases st.abs with
  | true => exact (winNames_sep_cons (by decide) _).trans h1
  | false => exact h1

theorem WinWf.facts {r : Str} {st : NSt} (h : WinWf r st) : WinTextFacts r st := by
  obtain ⟨hh, hj⟩ := winRest_head h.plain h.trail
  have hlen : winRootLen (r ++ st.winRest) = r.length := by
    rcases h.root.1 with hr | hr
    · subst hr
      simp only [List.nil_append, List.length_nil]
      cases ha : st.abs with
      | true => rw [NSt.winRest, ha, List.append_assoc]; exact winRootLen_dir hj
      | false =>
        apply winRootLen_plain
        · rw [NSt.winRest, ha]
          have := winJoin_noColon h.plain
          cases st.tr <;> simp [this]
        · rw [hh, ha]
    · apply hr.len
      by_cases h2 : r.length = 2
      · exact .inl h2
      · right
        intro c hc
        have hge : 2 < r.length := by
          cases hr with
          | drive => exact absurd rfl h2
          | unc => simp
        rcases h.unc hge with ha | hn
        · rw [ha, hc] at hh; simpa using hh
        · have ht : st.tr = false := by
            cases htr : st.tr with
            | false => rfl
            | true => exact absurd hn (h.trail htr)
          cases ha : st.abs with
          | true => rw [ha, hc] at hh; simpa using hh
          | false => rw [NSt.winRest, hn, ht, ha] at hc; simp [winJoin] at hc
  obtain ⟨p1, p2, p3, p4⟩ := parts_facts hlen
  have hnm : winNames (winTail (r ++ st.winRest)) = st.ns := by rw [p1, winRest_names h.plain]
  refine ⟨hlen, p1, hnm, by rw [winText, p3, hh], by rw [winText, p2, h.root.2], ?_, ?_⟩
  · intro hn
    have hj0 : winJoin st.ns ≠ [] := fun h' => hn ((winJoin_nil h.plain).mp h')
    have hne : st.winRest ≠ [] := by rw [NSt.winRest]; simp [hj0]
    rw [winText, p4 hne, NSt.winRest]
    cases st.tr with
    | true => simp [winEndsSep, winSep]
    | false =>
      have : ∀ x : Str, x ++ (if false = true then ['\\'] else []) = x := fun x => by simp
      rw [this, winEndsSep_append hj0, winJoin_ends h.plain]
  · show (mkPath .windows (r ++ st.winRest)).pathname = r ++ st.winRest
    by_cases hn : st.ns = []
    · have ht : st.tr = false := by
        cases htr : st.tr with
        | false => rfl
        | true => exact absurd hn (h.trail htr)
      have hrest : st.winRest = if st.abs then ['\\'] else [] := by rw [NSt.winRest, hn, ht]; simp [winJoin]
      rw [win_pathname, winStoredRoot, winStoredRest, hlen, p3, hh, hnm, hn, p1, p2, h.root.2]
      cases ha : st.abs with
      | true =>
        rw [ha] at hrest
        rw [if_neg (by simp), List.take_left]
        split
        · rename_i hc; rw [hrest]; rfl
        · rfl
      | false =>
        rw [ha] at hrest
        rw [if_pos ⟨rfl, rfl⟩, hrest, if_neg]
        rintro ⟨h1, _, h3⟩
        have : r = [] := by simpa using h1
        subst this
        exact h3 rfl
    · exact win_pathname_named (by rw [hnm]; exact hn)

/-! ### Objects with the elements of a text -/

/-- The elements of a text, the trailing one with any position. -/
def winCompsK (k : Nat) (u : Str) : List Comp :=
  winRootComps u ++ toks .windows (winRootLen u) (winTail u) ++
    (if winEndsSep u = true ∧ winNames (winTail u) ≠ [] then [⟨[], .filename, k⟩] else [])

theorem winCompsK_self (u : Str) : winCompsK u.length u = winComps u := by rw [winComps_eq]; rfl

/-- The intermediate results of `lexically_normal`. -/
inductive WinLoose (u : Str) : Path → Prop where
  | dflt : u = [] → WinLoose u .default
  | parsed : WinLoose u (mkPath .windows u)
  | multi (k : Nat) : u ≠ [] → (winNames (winTail u) = [] ∨ winEndsSep u = true) →
      WinLoose u ⟨u, winCompsK k u, .multi⟩

section
variable {u : Str} {p : Path}

theorem winCompsK_ne (k : Nat) (hu : u ≠ []) : winCompsK k u ≠ [] := by
  intro h
  have h1 := winComps_ne hu
  rw [← winCompsK_self] at h1
  rw [winCompsK, List.append_eq_nil_iff, List.append_eq_nil_iff] at h
  apply h1
  rw [winCompsK, h.1.1, h.1.2, if_neg]
  · rfl
  · intro h2
    rw [toks_win_nil] at h
    exact h2.2 h.1.2

theorem skip_rootNameK (k : Nat) : skipType .rootName (winCompsK k u) =
    (if winHasDir u then [⟨['\\'], .rootDir, winRootLen u⟩] else []) ++
      toks .windows (winRootLen u) (winTail u) ++
      (if winEndsSep u = true ∧ winNames (winTail u) ≠ [] then [⟨[], .filename, k⟩] else []) := by
  rw [winCompsK, winRootComps]
  by_cases hz : winRootLen u = 0
  · rw [if_pos hz]
    cases hd : winHasDir u with
    | true => simp [skipType]
    | false =>
      simp only [List.nil_append]
      cases ht : toks .windows (winRootLen u) (winTail u) with
      | nil =>
        have := (toks_win_nil _ _).mp ht
        simp [this, skipType]
      | cons c cs =>
        have : c.type = .filename := (toks_mem _ _ c (by rw [ht]; simp)).1
        simp [skipType, this]
  · rw [if_neg hz]; simp [skipType]

theorem WinLoose.pathname (h : WinLoose u p) (hs : (mkPath .windows u).pathname = u) : p.pathname = u := by
  cases h with
  | dflt h => rw [h]; rfl
  | parsed => exact hs
  | multi => rfl

theorem WinLoose.hasRootDirectory (h : WinLoose u p) : hasRootDirectory .windows p = .ok (winHasDir u) := by
  cases h with
  | dflt h => subst h; rfl
  | parsed => exact win_hasRootDirectory u
  | multi k hu he =>
    rw [Asap.hasRootDirectory, rootDirectory]
    simp only [skip_rootNameK]
    cases hd : winHasDir u with
    | true => rfl
    | false =>
      simp only [Bool.false_eq_true, if_false, List.nil_append]
      cases ht : toks .windows (winRootLen u) (winTail u) with
      | nil =>
        have := (toks_win_nil _ _).mp ht
        simp only [this]
        rw [if_neg (by simp)]
        rfl
      | cons c cs =>
        have hc : c.type = .filename := (toks_mem _ _ c (by rw [ht]; simp)).1
        simp only [List.cons_append, List.head?_cons, hc]
        rfl

theorem WinLoose.hasFilename (h : WinLoose u p) : hasFilename .windows p =
    .ok (decide (winNames (winTail u) ≠ [] ∧ winEndsSep u = false)) := by
  cases h with
  | dflt h => subst h; rfl
  | parsed => exact win_hasFilename u
  | multi k hu he =>
    have hf : decide (winNames (winTail u) ≠ [] ∧ winEndsSep u = false) = false := by
      rw [decide_eq_false_iff_not]
      rintro ⟨h1, h2⟩
      rcases he with he | he
      · exact h1 he
      · rw [he] at h2; cases h2
    rw [hf, Asap.hasFilename, Asap.filename]
    simp only
    rw [List.getLast?_eq_some_getLast hu]
    simp only
    split
    · rfl
    · rw [List.getLast?_eq_some_getLast (winCompsK_ne k hu)]
      simp only
      generalize hl : (winCompsK k u).getLast (winCompsK_ne k hu) = l
      have hl' : (winCompsK k u).getLast? = some l := by rw [List.getLast?_eq_some_getLast (winCompsK_ne k hu), hl]
      by_cases hn : winNames (winTail u) = []
      · have ht := (toks_win_nil (winTail u) (winRootLen u)).mpr hn
        rw [winCompsK, ht, if_neg (by simp [hn]), List.append_nil, List.append_nil] at hl'
        have := winRootComps_type u l (List.mem_of_getLast? hl')
        rw [if_neg this]; rfl
      · have he' : winEndsSep u = true := he.resolve_left hn
        rw [winCompsK, if_pos ⟨he', hn⟩, List.getLast?_append, List.getLast?_singleton] at hl'
        cases hl'
        rfl

theorem WinLoose.rootPart (h : WinLoose u p) : hasRootName p = decide (winRootLen u ≠ 0) ∧
    (rootName p).pathname = winRootName u := by
  cases h with
  | dflt h => subst h; exact ⟨rfl, rfl⟩
  | parsed => exact ⟨win_hasRootName u, win_rootName u⟩
  | multi k hu he =>
    rw [hasRootName, rootName]
    simp only
    by_cases hz : winRootLen u = 0
    · have hh : ∀ c, (winCompsK k u).head? = some c → c.type ≠ .rootName := by
        intro c hc
        have hm : c ∈ winCompsK k u := List.mem_of_head? hc
        rw [winCompsK, winRootComps, if_pos hz] at hm
        simp only [List.nil_append, List.mem_append] at hm
        rcases hm with (hm | hm) | hm
        · split at hm <;> simp at hm; rw [hm]; simp
        · rw [(toks_mem _ _ c hm).1]; simp
        · split at hm <;> simp at hm; rw [hm]; simp
      rw [List.head?_eq_some_head (winCompsK_ne k hu)] at hh ⊢
      have := hh _ rfl
      simp only [this, if_false, hz]
      refine ⟨by simpa using this, ?_⟩
      rw [if_neg (by simp), (winRootName_nil u).mpr hz]; rfl
    · rw [winCompsK, winRootComps, if_neg hz]
      simp only [List.cons_append, List.nil_append, List.head?_cons]
      refine ⟨by simp [hz], ?_⟩
      rw [if_neg (by simp)]; rfl

theorem WinLoose.isAbsolute (h : WinLoose u p) : isAbsolute .windows p = .ok (winUnc u || winHasDir u) := by
  rw [← win_isAbsolute u, Asap.isAbsolute, Asap.isAbsolute]
  simp only [h.hasRootDirectory, win_hasRootDirectory, h.rootPart.1, win_hasRootName, h.rootPart.2, win_rootName]

theorem WinLoose.hasRelativePath (h : WinLoose u p) : hasRelativePath .windows p = .ok (decide (winNames (winTail u) ≠ [])) := by
  cases h with
  | dflt h => subst h; rfl
  | parsed => exact win_hasRelative u
  | multi k hu he =>
    have hskip : skipType .rootDir (skipType .rootName (winCompsK k u)) = toks .windows (winRootLen u) (winTail u) ++
        (if winEndsSep u = true ∧ winNames (winTail u) ≠ [] then [⟨[], .filename, k⟩] else []) := by
      rw [skip_rootNameK]
      cases hd : winHasDir u with
      | true => simp [skipType]
      | false =>
        simp only [Bool.false_eq_true, if_false, List.nil_append]
        cases ht : toks .windows (winRootLen u) (winTail u) with
        | nil =>
          have := (toks_win_nil _ _).mp ht
          simp [this, skipType]
        | cons c cs =>
          have : c.type = .filename := (toks_mem _ _ c (by rw [ht]; simp)).1
          simp [skipType, this]
    by_cases hn : winNames (winTail u) = []
    · have ht := (toks_win_nil (winTail u) (winRootLen u)).mpr hn
      rw [Asap.hasRelativePath, relativePath]
      simp only [hskip, ht, hn]
      rw [if_neg (by simp)]
      rfl
    · have ht : toks .windows (winRootLen u) (winTail u) ≠ [] := mt (toks_win_nil _ _).mp hn
      have hmulti : ∀ c, winComps u ≠ [c] := by
        intro c hc
        have := congrArg List.length hc
        rw [winComps_eq, winTrail, if_pos ⟨he.resolve_left hn, hn⟩] at this
        have h0 : (toks .windows (winRootLen u) (winTail u)).length ≠ 0 := by simpa using ht
        simp at this
        omega
      have h2 := win_hasRelative u
      rw [win_multi hmulti hu] at h2
      rw [← h2, Asap.hasRelativePath, Asap.hasRelativePath, relativePath, relativePath]
      simp only [hskip, skip_rootDir]
      obtain ⟨c, cs, hc⟩ := List.exists_cons_of_ne_nil ht
      rw [hc]
      rfl

theorem mkPath_plain {n : Str} (h : n = [] ∨ PlainName n) : mkPath .windows n = ⟨n, [], .filename⟩ := by
  rcases h with rfl | h
  · rfl
  · exact mkPath_winName ⟨h.1, h.2.1⟩ h.rootLen

theorem WinLoose.append (h : WinLoose u p) {n : Str} (hn : n = [] ∨ PlainName n) (hs : (mkPath .windows u).pathname = u) :
    append .windows p ⟨n, [], .filename⟩ = .ok (mkPath .windows
      (u ++ (if winFile u ≠ [] ∨ (winHasDir u = false ∧ winUnc u = true) then ['\\'] else []) ++ n)) := by
  have hfile : decide (winNames (winTail u) ≠ [] ∧ winEndsSep u = false) = decide (winFile u ≠ []) := by
    rw [decide_eq_decide, ne_eq (winFile u), winFile_eq_nil]
    cases winEndsSep u <;> simp
  rw [Asap.append, appendWith]
  have e1 : Asap.isAbsolute .windows (⟨n, [], .filename⟩ : Path) = .ok false := by
    rw [← mkPath_plain hn, win_isAbsolute]
    rcases hn with rfl | hn
    · rfl
    · rw [hn.facts.2.2.2.2.2, hn.facts.2.1]; rfl
  have e2 : Asap.hasRootDirectory .windows (⟨n, [], .filename⟩ : Path) = .ok false := rfl
  have e3 : hasRootName (⟨n, [], .filename⟩ : Path) = false := rfl
  simp only [e1, e2, e3, bind, Except.bind, Bool.false_and, Bool.or_self]
  rw [if_neg (by simp)]
  simp only [h.hasFilename, hfile, h.hasRootDirectory, h.isAbsolute, h.pathname hs]
  have e4 : appendRhs (⟨n, [], .filename⟩ : Path) = n := rfl
  rw [e4]
  by_cases hf : winFile u = []
  · simp only [hf, ne_eq, not_true, decide_false, Bool.false_eq_true, if_false, false_or]
    cases hd : winHasDir u with
    | true => simp [appendFinish, pure, Except.pure]
    | false =>
      cases hu : winUnc u <;> simp [appendFinish, pure, Except.pure, prefSep]
  · simp [hf, appendFinish, pure, Except.pure, prefSep]

end

/-! ### Simulation -/

/-- The state describes the intermediate result. -/
structure WinSim (r : Str) (ret : Path) (st : NSt) : Prop where
  wf : WinWf r st
  abs : 2 < r.length → st.abs = true
  loose : WinLoose (winText r st) ret

section
variable {r : Str} {ret : Path} {st : NSt}

theorem WinSim.file (h : WinSim r ret st) : winFile (winText r st) = if st.tr then [] else st.ns.getLastD [] := by
  have hf := h.wf.facts
  by_cases hn : st.ns = []
  · rw [winFile_nil (winText r st) (by rw [hf.names]; exact hn), hn]; simp
  · rw [winFile, hf.ends hn, hf.names]

theorem winText_snoc (r : Str) (abs : Bool) (ms : List Str) (w : Str) :
    winText r ⟨abs, ms ++ [w], false⟩ = winText r ⟨abs, ms, !ms.isEmpty⟩ ++ w := by
  simp only [winText, NSt.winRest, winJoin_snoc]
  cases ms <;> simp

theorem winText_trail (r : Str) (abs : Bool) (ns : List Str) :
    winText r ⟨abs, ns, true⟩ = winText r ⟨abs, ns, false⟩ ++ ['\\'] := by
  simp [winText, NSt.winRest]

/-- The text before something is appended. -/
theorem WinSim.sep (h : WinSim r ret st) : winText r st ++
    (if winFile (winText r st) ≠ [] ∨ (winHasDir (winText r st) = false ∧ winUnc (winText r st) = true) then ['\\'] else []) =
    winText r ⟨st.abs, st.ns, !st.ns.isEmpty⟩ := by
  have hf := h.wf.facts
  have hnot : ¬ (winHasDir (winText r st) = false ∧ winUnc (winText r st) = true) := by
    rintro ⟨h1, h2⟩
    rw [winUnc, hf.len] at h2
    rw [hf.dir, h.abs (by simpa using h2)] at h1
    cases h1
  obtain ⟨abs, ns, tr⟩ := st
  rw [h.file]
  by_cases hn : ns = []
  · subst hn
    have : tr = false := by
      cases htr : tr with
      | false => rfl
      | true => exact absurd rfl (h.wf.trail htr)
    subst this
    rw [if_neg]
    · simp
    · rintro (h' | h')
      · exact h' rfl
      · exact hnot h'
  · cases tr with
    | true =>
      rw [if_neg]
      · have : (!ns.isEmpty) = true := by simpa using hn
        simp [this]
      · rintro (h' | h')
        · exact h' rfl
        · exact hnot h'
    | false =>
      rw [if_pos]
      · have : (!ns.isEmpty) = true := by simpa using hn
        rw [this, winText_trail]
      · left
        simp only [Bool.false_eq_true, if_false]
        rw [List.getLastD_eq_getLast?, List.getLast?_eq_some_getLast hn]
        exact (h.wf.plain _ (List.getLast_mem hn)).1

theorem WinSim.appendName (h : WinSim r ret st) {w : Str} (hw : PlainName w) :
    ∃ q, append .windows ret ⟨w, [], .filename⟩ = .ok q ∧ WinSim r q ⟨st.abs, st.ns ++ [w], false⟩ := by
  refine ⟨_, h.loose.append (.inr hw) h.wf.facts.stored, ⟨⟨h.wf.root, ?_, by simp, fun h2 => .inl (h.abs h2)⟩, h.abs, ?_⟩⟩
  · intro v hv
    rcases List.mem_append.mp hv with hv | hv
    · exact h.wf.plain v hv
    · rw [List.mem_singleton.mp hv]; exact hw
  · rw [h.sep, ← winText_snoc]; exact .parsed

theorem WinSim.appendEmpty (h : WinSim r ret st) :
    ∃ q, append .windows ret ⟨[], [], .filename⟩ = .ok q ∧ WinSim r q ⟨st.abs, st.ns, !st.ns.isEmpty⟩ := by
  refine ⟨_, h.loose.append (.inl rfl) h.wf.facts.stored,
    ⟨⟨h.wf.root, h.wf.plain, by simp, fun h2 => .inl (h.abs h2)⟩, h.abs, ?_⟩⟩
  rw [h.sep, List.append_nil]; exact .parsed

theorem WinSim.removeFilename (h : WinSim r ret st) {ms : List Str} {w : Str} (hns : st.ns = ms ++ [w])
    (htr : st.tr = false) :
    ∃ q, removeFilename .windows ret = .ok q ∧ WinSim r q ⟨st.abs, ms, !ms.isEmpty⟩ := by
  have hf := h.wf.facts
  have hw : PlainName w := h.wf.plain w (by simp [hns])
  have hfile : winFile (winText r st) = w := by rw [h.file, htr, hns]; simp [List.getLastD_eq_getLast?]
  have hret : ret = mkPath .windows (winText r st) := by
    cases h.loose with
    | dflt h' =>
      rw [h'] at hfile
      exact absurd hfile.symm hw.1
    | parsed => rfl
    | multi k hu he =>
      rw [← winFile_eq_nil, hfile] at he
      exact absurd he hw.1
  have htext : winText r st = winText r ⟨st.abs, ms, !ms.isEmpty⟩ ++ w := by
    rw [← winText_snoc, ← hns, ← htr]
  refine ⟨_, by rw [hret, win_removeFilename], ⟨⟨h.wf.root, ?_, by simp, fun h2 => .inl (h.abs h2)⟩, h.abs, ?_⟩⟩
  · exact fun v hv => h.wf.plain v (by simp [hns, hv])
  · have : winDirText (winText r st) = winText r ⟨st.abs, ms, !ms.isEmpty⟩ := by
      rw [winDirText, hfile, htext]; simp
    rw [this]; exact .parsed

/-- The elements of `…w\`. -/
theorem WinWf.comps {abs tr : Bool} {ms : List Str} {w : Str} (h : WinWf r ⟨abs, ms ++ [w], tr⟩) (k : Nat) :
    winCompsK k (winText r ⟨abs, ms ++ [w], tr⟩) =
      (winRootComps (winText r ⟨abs, ms, !ms.isEmpty⟩) ++ toks .windows r.length (NSt.winRest ⟨abs, ms, !ms.isEmpty⟩)) ++
        [⟨w, .filename, (winText r ⟨abs, ms, !ms.isEmpty⟩).length⟩] ++ (if tr then [⟨[], .filename, k⟩] else []) ∧
    WinWf r ⟨abs, ms, !ms.isEmpty⟩ := by
  have hw : PlainName w := h.plain w (by simp)
  have hwf : WinWf r ⟨abs, ms, !ms.isEmpty⟩ :=
    ⟨h.root, fun v hv => h.plain v (by simp [hv]), by simp, fun h2 => .inl ((h.unc h2).resolve_right (by simp))⟩
  refine ⟨?_, hwf⟩
  have f1 := h.facts
  have f2 := hwf.facts
  have hroot : winRootComps (winText r ⟨abs, ms ++ [w], tr⟩) = winRootComps (winText r ⟨abs, ms, !ms.isEmpty⟩) := by
    rw [winRootComps, winRootComps, f1.len, f2.len, f1.root, f2.root, f1.dir, f2.dir]
  have hends : winEndsSep (winText r ⟨abs, ms ++ [w], tr⟩) = tr := f1.ends (by simp)
  have hrest : NSt.winRest ⟨abs, ms ++ [w], false⟩ = NSt.winRest ⟨abs, ms, !ms.isEmpty⟩ ++ w := by
    have := winText_snoc [] abs ms w
    simpa [winText] using this
  have hb : NSt.winRest ⟨abs, ms, !ms.isEmpty⟩ = [] ∨ winEndsSep (NSt.winRest ⟨abs, ms, !ms.isEmpty⟩) = true := by
    cases ms with
    | nil => cases abs <;> simp [NSt.winRest, winJoin, winEndsSep, winSep]
    | cons m ms => right; simp [NSt.winRest, winEndsSep, winSep]
  have htoks : toks .windows r.length (NSt.winRest ⟨abs, ms ++ [w], false⟩) =
      toks .windows r.length (NSt.winRest ⟨abs, ms, !ms.isEmpty⟩) ++ [⟨w, .filename, (winText r ⟨abs, ms, !ms.isEmpty⟩).length⟩] := by
    rw [hrest, toks_end hw.2.1 hw.1 hb, winText, List.length_append]
  have htoks' : toks .windows r.length (NSt.winRest ⟨abs, ms ++ [w], tr⟩) =
      toks .windows r.length (NSt.winRest ⟨abs, ms, !ms.isEmpty⟩) ++ [⟨w, .filename, (winText r ⟨abs, ms, !ms.isEmpty⟩).length⟩] := by
    cases tr with
    | false => exact htoks
    | true =>
      have : NSt.winRest ⟨abs, ms ++ [w], true⟩ = NSt.winRest ⟨abs, ms ++ [w], false⟩ ++ '\\' :: [] := by simp [NSt.winRest]
      rw [this, toks_append_sep (by decide), toks_nil, List.append_nil, htoks]
  rw [winCompsK, hroot, f1.len, f1.tail, htoks', hends, ← f1.tail, f1.names]
  cases tr <;> simp

theorem winText_nil (h : WinWf r st) : winText r st = [] ↔ r = [] ∧ st.abs = false ∧ st.ns = [] := by
  constructor
  · intro h'
    have hf := h.facts
    have h1 := hf.len
    have h2 := hf.dir
    have h3 := hf.names
    rw [h'] at h1 h2 h3
    exact ⟨by simpa [winRootLen] using h1.symm, h2.symm, h3.symm⟩
  · rintro ⟨rfl, h2, h3⟩
    have : st.tr = false := by
      cases htr : st.tr with
      | false => rfl
      | true => exact absurd h3 (h.trail htr)
    simp [winText, NSt.winRest, h2, h3, this, winJoin]

/-- `..` after `w\`. -/
theorem WinSim.dotDotSlash (h : WinSim r ret st) {ms : List Str} {w : Str} (hns : st.ns = ms ++ [w])
    (htr : st.tr = true) :
    ∃ q, normalDotDotSlash .windows ret ⟨['.', '.'], [], .filename⟩ = .ok q ∧
      WinSim r q (if w = ['.', '.'] then ⟨st.abs, st.ns ++ [['.', '.']], false⟩
        else ⟨st.abs, ms, !ms.isEmpty⟩) := by
  obtain ⟨abs, ns, tr⟩ := st
  simp only at hns htr
  subst hns htr
  have hw : PlainName w := h.wf.plain w (by simp)
  have hf := h.wf.facts
  obtain ⟨k, hret⟩ : ∃ k, ret = ⟨winText r ⟨abs, ms ++ [w], true⟩, winCompsK k (winText r ⟨abs, ms ++ [w], true⟩), .multi⟩ := by
    have hne : winText r ⟨abs, ms ++ [w], true⟩ ≠ [] := by rw [ne_eq, winText_nil h.wf]; simp
    cases h.loose with
    | dflt h' => exact absurd h' hne
    | parsed =>
      refine ⟨(winText r ⟨abs, ms ++ [w], true⟩).length, ?_⟩
      rw [winCompsK_self, win_multi _ hne]
      intro c hc
      rw [← winCompsK_self, (h.wf.comps _).1] at hc
      have := congrArg List.length hc
      simp only [if_true, List.length_append, List.length_singleton] at this
      omega
    | multi k _ _ => exact ⟨k, rfl⟩
  obtain ⟨hcomps, hwf⟩ := h.wf.comps k
  have f2 := hwf.facts
  have hdd0 : PlainName ['.', '.'] := ⟨by simp, by decide, by decide⟩
  have happ := h.appendName hdd0
  subst hret
  unfold normalDotDotSlash
  rw [if_neg (by simp)]
  have hrev : (winCompsK k (winText r ⟨abs, ms ++ [w], true⟩)).reverse = ⟨[], .filename, k⟩ ::
      ⟨w, .filename, (winText r ⟨abs, ms, !ms.isEmpty⟩).length⟩ ::
      (winRootComps (winText r ⟨abs, ms, !ms.isEmpty⟩) ++ toks .windows r.length (NSt.winRest ⟨abs, ms, !ms.isEmpty⟩)).reverse := by
    rw [hcomps]; simp
  simp only [hrev]
  have hhf : hasFilename .windows (Comp.toPath ⟨w, .filename, (winText r ⟨abs, ms, !ms.isEmpty⟩).length⟩) = .ok true := by
    have : Comp.toPath ⟨w, .filename, (winText r ⟨abs, ms, !ms.isEmpty⟩).length⟩ = mkPath .windows w :=
      (mkPath_plain (.inr hw)).symm
    rw [this, win_hasFilename, hw.facts.1, hw.facts.2.2.1, hw.facts.2.2.2.1]
    rfl
  rw [hhf]
  by_cases hdd : w = ['.', '.']
  · subst hdd
    simp only [isDotDot, BEq.rfl, bind, Except.bind]
    rw [if_neg (by simp), if_pos trivial]
    exact happ
  · have hdd' : isDotDot w = false := by simp [isDotDot, hdd]
    simp only [bind, Except.bind, hdd', Bool.not_false, Bool.and_self, if_true, hdd, if_false]
    have he : eraseFrom (winText r ⟨abs, ms ++ [w], true⟩) (winText r ⟨abs, ms, !ms.isEmpty⟩).length =
        .ok (winText r ⟨abs, ms, !ms.isEmpty⟩) := by
      apply eraseFrom_append (b := w ++ ['\\'])
      rw [winText_trail, winText_snoc]; simp
    have htoks : toks .windows r.length (NSt.winRest ⟨abs, ms, !ms.isEmpty⟩) = [] ↔ ms = [] := by
      rw [toks_win_nil, ← f2.tail, f2.names]
    cases hbefore : (winRootComps (winText r ⟨abs, ms, !ms.isEmpty⟩) ++
        toks .windows r.length (NSt.winRest ⟨abs, ms, !ms.isEmpty⟩)).reverse with
    | nil =>
      rw [List.reverse_eq_nil_iff, List.append_eq_nil_iff, htoks, winRootComps, List.append_eq_nil_iff, f2.len, f2.dir] at hbefore
      obtain ⟨⟨h1, h2⟩, h3⟩ := hbefore
      have hr : r = [] := by
        by_cases hz : r.length = 0
        · simpa using hz
        · rw [if_neg hz] at h1; cases h1
      have ha : abs = false := by cases abs <;> simp_all
      refine ⟨_, rfl, ⟨hwf, h.abs, ?_⟩⟩
      have : winText r ⟨abs, ms, !ms.isEmpty⟩ = [] := (winText_nil hwf).mpr ⟨hr, ha, h3⟩
      rw [this]; exact .parsed
    | cons pr rest =>
      simp only [he]
      have hne : winText r ⟨abs, ms, !ms.isEmpty⟩ ≠ [] := by
        intro h'
        obtain ⟨h1, h2, h3⟩ := (winText_nil hwf).mp h'
        rw [htoks.mpr h3, winRootComps, f2.len, f2.dir] at hbefore
        simp only at h2
        simp [h1, h2] at hbefore
      by_cases hms : ms = []
      · have hpr : pr.type ≠ .filename := by
          apply winRootComps_type (winText r ⟨abs, ms, !ms.isEmpty⟩)
          rw [htoks.mpr hms, List.append_nil] at hbefore
          rw [← List.mem_reverse, hbefore]; simp
        rw [if_neg hpr]
        refine ⟨_, rfl, ⟨hwf, h.abs, ?_⟩⟩
        rw [← hbefore, List.reverse_reverse, htoks.mpr hms, List.append_nil]
        have := WinLoose.multi (u := winText r ⟨abs, ms, !ms.isEmpty⟩) k hne (.inl (by rw [f2.names]; exact hms))
        rw [winCompsK, f2.len, f2.tail, htoks.mpr hms, if_neg, List.append_nil, List.append_nil] at this
        · exact this
        · rw [← f2.tail, f2.names]; simp [hms]
      · have hpr : pr.type = .filename := by
          have hl : (toks .windows r.length (NSt.winRest ⟨abs, ms, !ms.isEmpty⟩)).getLast? = some pr := by
            have h1 : (winRootComps (winText r ⟨abs, ms, !ms.isEmpty⟩) ++
                toks .windows r.length (NSt.winRest ⟨abs, ms, !ms.isEmpty⟩)).getLast? = some pr := by
              rw [List.getLast?_eq_head?_reverse, hbefore]; rfl
            rw [List.getLast?_append, List.getLast?_eq_some_getLast (mt htoks.mp hms)] at h1
            rw [List.getLast?_eq_some_getLast (mt htoks.mp hms)]
            exact h1
          exact (toks_mem _ _ pr (List.mem_of_getLast? hl)).1
        rw [if_pos hpr]
        refine ⟨_, rfl, ⟨hwf, h.abs, ?_⟩⟩
        have hem : (!ms.isEmpty) = true := by simpa using hms
        have hends : winEndsSep (winText r ⟨abs, ms, !ms.isEmpty⟩) = true := by
          rw [f2.ends hms]; exact hem
        rw [← hbefore, List.reverse_reverse]
        have := WinLoose.multi (u := winText r ⟨abs, ms, !ms.isEmpty⟩) k hne (.inr hends)
        rw [winCompsK, f2.len, if_pos ⟨hends, by rw [f2.names]; exact hms⟩, f2.tail] at this
        exact this

/-- One loop iteration with a name or the trailing element. -/
theorem WinSim.step (h : WinSim r ret st) {n : Str} (hn : n = [] ∨ PlainName n) :
    ∃ q, normalStep .windows ret ⟨n, [], .filename⟩ = .ok q ∧ WinSim r q (st.step n) := by
  have hf := h.wf.facts
  unfold normalStep
  rw [if_neg (by simp)]
  rcases hn with rfl | hn
  · rw [if_neg (by simp [isDotDot]), if_neg (by simp [isDot])]
    simpa [NSt.step] using h.appendEmpty
  · have hnr : n ≠ ['/'] := by rintro rfl; exact absurd (hn.2.1 '/' (by simp)) (by decide)
    by_cases hdd : n = ['.', '.']
    · subst hdd
      simp only [isDotDot, BEq.rfl, if_true, h.loose.hasFilename, hf.names]
      rcases eq_nil_or_snoc st.ns with hns | ⟨ms, w, hns⟩
      · have htr : st.tr = false := by
          cases htr : st.tr
          · rfl
          · exact absurd hns (h.wf.trail htr)
        simp only [hns, bind, Except.bind]
        rw [if_neg (by simp)]
        simp only [h.loose.hasRelativePath, hf.names, hns, h.loose.hasRootDirectory, hf.dir]
        cases habs : st.abs with
        | true =>
          refine ⟨ret, rfl, ?_⟩
          have e : st.step ['.', '.'] = st := by
            cases st
            simp only at hns habs htr
            subst hns habs htr
            rfl
          rw [e]; exact h
        | false =>
          have := h.appendName hn
          have e : st.step ['.', '.'] = ⟨st.abs, st.ns ++ [['.', '.']], false⟩ := by
            simp [NSt.step, hns, habs]
          rw [e]
          simpa using this
      · have hne : st.ns ≠ [] := by rw [hns]; simp
        have hw : PlainName w := h.wf.plain w (by simp [hns])
        rw [hf.ends hne]
        cases htr : st.tr with
        | false =>
          simp only [bind, Except.bind]
          rw [if_pos (by simp [hne])]
          have hret : ret = mkPath .windows (winText r st) := by
            cases h.loose with
            | dflt h' => exact absurd ((winText_nil h.wf).mp h').2.2 hne
            | parsed => rfl
            | multi k hu he =>
              rw [hf.names, hf.ends hne, htr] at he
              rcases he with he | he
              · exact absurd he hne
              · cases he
          obtain ⟨f, g1, g2⟩ := win_filename (winText r st)
          rw [← hret] at g1
          have hfile : f.pathname = w := by rw [g2, h.file, htr, hns]; simp [List.getLastD_eq_getLast?]
          simp only [g1, hfile]
          by_cases hwd : w = ['.', '.']
          · subst hwd
            simp only [BEq.rfl]
            rw [if_neg (by simp)]
            have := h.appendName hn
            have e : st.step ['.', '.'] = ⟨st.abs, st.ns ++ [['.', '.']], false⟩ := by
              simp [NSt.step, hns]
            rw [e]; exact this
          · rw [if_pos (by simp [hwd])]
            have := h.removeFilename hns htr
            have e : st.step ['.', '.'] = ⟨st.abs, ms, !ms.isEmpty⟩ := by
              simp [NSt.step, hns, hwd]
            rw [e]; exact this
        | true =>
          simp only [bind, Except.bind]
          rw [if_neg (by simp)]
          simp only [h.loose.hasRelativePath, hf.names]
          have hd : decide (st.ns ≠ []) = true := by simpa using hne
          rw [hd]
          have := h.dotDotSlash hns htr
          have e : st.step ['.', '.'] = (if w = ['.', '.'] then ⟨st.abs, st.ns ++ [['.', '.']], false⟩
              else ⟨st.abs, ms, !ms.isEmpty⟩) := by
            simp [NSt.step, hns]
          rw [e]
          simpa using this
    · have hdd' : isDotDot n = false := by simp [isDotDot, hdd]
      simp only [hdd']
      by_cases hd : n = ['.']
      · subst hd
        simp only [isDot, BEq.rfl, if_true]
        rw [if_neg (by simp)]
        have := h.appendEmpty
        rw [append_default_right, mkPath_plain (.inl rfl)]
        simpa [NSt.step] using this
      · have hd' : isDot n = false := by simp [isDot, hd]
        simp only [hd']
        rw [if_neg (by simp), if_neg (by simp)]
        have := h.appendName hn
        have e : st.step n = ⟨st.abs, st.ns ++ [n], false⟩ := by
          simp [NSt.step, hnr, hn.1, hd, hdd]
        rw [e]; exact this

theorem WinSim.fold : ∀ (ks : List Str) {ret : Path} {st : NSt}, WinSim r ret st →
    (∀ n ∈ ks, n = [] ∨ PlainName n) →
    ∃ q, (ks.map fun n => (⟨n, [], .filename⟩ : Path)).foldlM (normalStep .windows) ret = .ok q ∧
      WinSim r q (ks.foldl NSt.step st)
  | [], ret, st, h, _ => ⟨ret, rfl, h⟩
  | k :: ks, ret, st, h, hk => by
    obtain ⟨q, h1, h2⟩ := h.step (hk k (by simp))
    obtain ⟨q', h3, h4⟩ := WinSim.fold ks h2 (fun x hx => hk x (by simp [hx]))
    refine ⟨q', ?_, h4⟩
    rw [List.map_cons, List.foldlM_cons, h1]
    exact h3

end

/-- Elements of an intermediate result. -/
theorem WinLoose.elems {u : Str} {p : Path} (h : WinLoose u p) : p.elems = (mkPath .windows u).elems := by
  cases h with
  | dflt h => subst h; rfl
  | parsed => rfl
  | multi k hu he =>
    rw [win_elems hu, ← winCompsK_self]
    simp only [Path.elems, winCompsK, List.map_append]
    congr 1
    split <;> rfl

/-- The elements after the root, with an empty one for a trailing separator. -/
def Spec.winRel (s : Str) : List Str :=
  winNames (winTail s) ++ (if winEndsSep s ∧ winNames (winTail s) ≠ [] then [[]] else [])

theorem rootOk (s : Str) : RootOk (winRootName s) := by
  refine ⟨?_, winPrefer_idem _⟩
  by_cases hz : winRootLen s = 0
  · exact .inl ((winRootName_nil s).mpr hz)
  · exact .inr (isRoot_take hz).1.prefer

theorem winRootName_root {r : Str} (h : RootOk r) : winRootName r = r ∧ winRootLen r = r.length ∧ winTail r = [] := by
  have := (WinWf.facts (r := r) (st := ⟨false, [], false⟩) ⟨h, by simp, by simp, fun _ => .inr rfl⟩)
  have e : winText r ⟨false, [], false⟩ = r := by simp [winText, NSt.winRest, winJoin]
  have h1 := this.root
  have h2 := this.len
  have h3 := this.tail
  rw [e] at h1 h2 h3
  exact ⟨h1, h2, by rw [h3]; rfl⟩

/-- The loop over the elements. -/
theorem win_normal_fold {s : Str} (hs : s ≠ []) (hp : ∀ n ∈ winNames (winTail s), PlainName n) :
    ∃ q, (mkPath .windows s).elems.foldlM (normalStep .windows) .default = .ok q ∧
      WinWf (winRootName s) (run (winHasDir s) (winRel s)) ∧
      WinLoose (winText (winRootName s) (run (winHasDir s) (winRel s))) q := by
  have hr := rootOk s
  obtain ⟨r1, r2, r3⟩ := winRootName_root hr
  have hrel : ∀ n ∈ winRel s, n = [] ∨ PlainName n := by
    intro n hn
    rw [winRel, List.mem_append] at hn
    rcases hn with hn | hn
    · exact .inr (hp n hn)
    · split at hn <;> simp at hn; exact .inl hn
  have hl : (winRootName s).length = winRootLen s := winRootName_length s
  -- the root elements
  have hstart : ∃ q0, ((winRootComps s).map Comp.toPath).foldlM (normalStep .windows) .default = .ok q0 ∧
      WinLoose (winText (winRootName s) ⟨winHasDir s, [], false⟩) q0 := by
    have hsep : mkPath .windows (preferSlashes .windows ['\\']) = mkPath .windows ['\\'] := rfl
    by_cases hz : winRootLen s = 0
    · have hn : winRootName s = [] := (winRootName_nil s).mpr hz
      rw [winRootComps, if_pos hz, hn]
      cases hd : winHasDir s with
      | false => exact ⟨.default, rfl, .dflt rfl⟩
      | true =>
        refine ⟨mkPath .windows ['\\'], ?_, .parsed⟩
        show List.foldlM (normalStep .windows) .default [⟨['\\'], [], .rootDir⟩] = _
        decide
    · have hstep : normalStep .windows .default ⟨winRootName s, [], .rootName⟩ = .ok (mkPath .windows (winRootName s)) := by
        rw [normalStep, if_pos ⟨rfl, .inl rfl⟩, preferSlashes_windows, hr.2, append_default_left, win_append_cases, if_pos]
        right
        rw [r1, r2, hl]
        exact ⟨hz, winRootName_ne hz⟩
      rw [winRootComps, if_neg hz]
      cases hd : winHasDir s with
      | false =>
        refine ⟨mkPath .windows (winRootName s), ?_, ?_⟩
        · simp only [Bool.false_eq_true, if_false, List.append_nil, List.map_cons, List.map_nil, List.foldlM_cons,
            List.foldlM_nil]
          show (normalStep .windows .default ⟨winRootName s, [], .rootName⟩ >>= _) = _
          rw [hstep]; rfl
        · have : winText (winRootName s) ⟨false, [], false⟩ = winRootName s := by simp [winText, NSt.winRest, winJoin]
          rw [this]; exact .parsed
      | true =>
        refine ⟨mkPath .windows (winRootName s ++ ['\\']), ?_, ?_⟩
        · simp only [if_true, List.cons_append, List.nil_append, List.map_cons, List.map_nil, List.foldlM_cons,
            List.foldlM_nil]
          show (normalStep .windows .default ⟨winRootName s, [], .rootName⟩ >>= _) = _
          rw [hstep]
          show (normalStep .windows (mkPath .windows (winRootName s)) ⟨['\\'], [], .rootDir⟩ >>= _) = _
          rw [normalStep, if_pos ⟨rfl, .inr rfl⟩, hsep, win_append_cases, if_neg]
          · rw [winAppendText, if_pos (by decide), r1]; rfl
          · rw [r2, hl]
            rintro (⟨_, h⟩ | ⟨h, _⟩)
            · exact hz h
            · exact h (by decide)
        · have : winText (winRootName s) ⟨true, [], false⟩ = winRootName s ++ ['\\'] := by simp [winText, NSt.winRest, winJoin]
          rw [this]; exact .parsed
  obtain ⟨q0, h0, hl0⟩ := hstart
  have helems : (mkPath .windows s).elems = (winRootComps s).map Comp.toPath ++
      (winRel s).map fun n => (⟨n, [], .filename⟩ : Path) := by
    rw [win_elems hs, winComps_eq, List.append_assoc, List.map_append]
    congr 1
    rw [winRel, List.map_append, List.map_append]
    congr 1
    · rw [← toks_winNames (winTail s) (winRootLen s), List.map_map]
      apply List.map_congr_left
      intro c hc
      have := (toks_mem _ _ c hc).1
      simp [Comp.toPath, this]
    · rw [winTrail]; split <;> rfl
  have hwf0 : WinWf (winRootName s) ⟨winHasDir s, [], false⟩ := ⟨hr, by simp, by simp, fun _ => .inr rfl⟩
  rw [helems, List.foldlM_append, h0]
  by_cases hu : 2 < (winRootName s).length → winHasDir s = true
  · obtain ⟨q, h1, h2⟩ := WinSim.fold (winRel s) ⟨hwf0, hu, hl0⟩ hrel
    exact ⟨q, h1, h2.wf, h2.loose⟩
  · have hu2 : 2 < winRootLen s ∧ winHasDir s = false := by
      rw [hl] at hu
      by_cases h2 : 2 < winRootLen s
      · exact ⟨h2, by cases hd : winHasDir s with
          | false => rfl
          | true => exact absurd (fun _ => hd) hu⟩
      · exact absurd (fun h => absurd h h2) hu
    have ht : winTail s = [] := by
      rcases (isRoot_take (s := s) (by omega)).2 with h | h
      · omega
      · cases hx : winTail s with
        | nil => rfl
        | cons c x =>
          have := h c (by rw [hx]; rfl)
          have hd := hu2.2
          rw [winHasDir, hx] at hd
          simp [this] at hd
    have hnil : winRel s = [] := by rw [winRel, ht, winNames_nil]; simp
    rw [hnil]
    exact ⟨q0, rfl, hwf0, hl0⟩

/-- The end of `lexically_normal`. -/
theorem WinLoose.finish {r : Str} {st : NSt} {ret : Path} (hw : WinWf r st) (h : WinLoose (winText r st) ret) :
    (normalFinish .windows ret).pathname = (if winText r st.finish = [] then ['.'] else winText r st.finish) ∧
    (normalFinish .windows ret).elems =
      (mkPath .windows (if winText r st.finish = [] then ['.'] else winText r st.finish)).elems := by
  have hf := hw.facts
  have same : ∀ (_ : normalFinish .windows ret = ret) (_ : st.finish = st) (_ : winText r st ≠ []),
      (normalFinish .windows ret).pathname = (if winText r st.finish = [] then ['.'] else winText r st.finish) ∧
      (normalFinish .windows ret).elems =
        (mkPath .windows (if winText r st.finish = [] then ['.'] else winText r st.finish)).elems := by
    intro h1 h2 h3
    rw [h1, h2, if_neg h3]
    exact ⟨h.pathname hf.stored, h.elems⟩
  rcases eq_nil_or_snoc st.ns with hns | ⟨ms, w, hns⟩
  · have hfin : st.finish = st := by simp [NSt.finish, hns]
    have hn : winNames (winTail (winText r st)) = [] := by rw [hf.names]; exact hns
    have hnf : normalFinish .windows ret = if ret.isEmpty then mkPath .windows ['.'] else ret := by
      unfold normalFinish
      split
      · rename_i a b l hc
        have ha : a.name ≠ [] := by
          have hm : a ∈ winComps (winText r st) := by
            have hne : winText r st ≠ [] := by
              intro h'
              rw [h'] at h
              cases h with
              | dflt => simp [Path.default] at hc
              | parsed => simp [mkPath_windows] at hc
              | multi k hu => exact hu rfl
            cases h with
            | dflt h' => exact absurd h' hne
            | parsed =>
              rw [mkPath_windows, if_neg hne, trim] at hc
              split at hc
              · simp at hc
              · rw [← List.mem_reverse, hc]; simp
            | multi k hu he =>
              have : winCompsK k (winText r st) = winComps (winText r st) := by
                rw [← winCompsK_self, winCompsK, winCompsK, if_neg (by simp [hn]), if_neg (by simp [hn])]
              rw [this] at hc
              rw [← List.mem_reverse, hc]; simp
          rw [winComps_eq, (toks_win_nil _ _).mpr hn, winTrail, if_neg (by simp [hn]), List.append_nil, List.append_nil,
            winRootComps, List.mem_append] at hm
          rcases hm with hm | hm
          · split at hm
            · cases hm
            · rename_i hz
              rw [List.mem_singleton.mp hm]
              exact winRootName_ne hz
          · split at hm
            · rw [List.mem_singleton.mp hm]; simp
            · cases hm
        have hemp : ret.isEmpty = false := by
          rw [Path.isEmpty, h.pathname hf.stored, List.isEmpty_eq_false_iff]
          intro h'
          rw [h'] at h
          cases h with
          | dflt => simp [Path.default] at hc
          | parsed => simp [mkPath_windows] at hc
          | multi k hu => exact hu rfl
        rw [if_neg (fun h' => ha h'.1), hemp]
        rfl
      · rfl
    by_cases he : winText r st = []
    · have : ret.isEmpty = true := by rw [Path.isEmpty, h.pathname hf.stored, he]; rfl
      rw [hnf, this, hfin, if_pos he, if_pos rfl]
      exact ⟨by decide, rfl⟩
    · apply same _ hfin he
      have : ret.isEmpty = false := by rw [Path.isEmpty, h.pathname hf.stored, List.isEmpty_eq_false_iff]; exact he
      rw [hnf, this]; rfl
  · obtain ⟨abs, ns, tr⟩ := st
    simp only at hns
    subst hns
    have hwn : PlainName w := hw.plain w (by simp)
    have hne : winText r ⟨abs, ms ++ [w], tr⟩ ≠ [] := by rw [ne_eq, winText_nil hw]; simp
    cases tr with
    | false =>
      apply same _ _ hne
      · have hret : ret = mkPath .windows (winText r ⟨abs, ms ++ [w], false⟩) := by
          cases h with
          | dflt h' => exact absurd h' hne
          | parsed => rfl
          | multi k hu he =>
            rw [hf.names, hf.ends (by simp)] at he
            simp at he
        have hcomps := (hw.comps (winText r ⟨abs, ms ++ [w], false⟩).length).1
        rw [winCompsK_self] at hcomps
        unfold normalFinish
        split
        · rename_i a b l hc
          rw [if_neg]
          rintro ⟨ha, _⟩
          rw [hret, mkPath_windows, if_neg hne, trim] at hc
          split at hc
          · simp at hc
          · rename_i hx
            rw [hcomps] at hc
            simp at hc
            rw [← hc.1] at ha
            exact hwn.1 ha
        · have : ret.isEmpty = false := by rw [Path.isEmpty, h.pathname hf.stored, List.isEmpty_eq_false_iff]; exact hne
          rw [this]; rfl
      · unfold NSt.finish
        split <;> rfl
    | true =>
      obtain ⟨k, hret⟩ : ∃ k, ret = ⟨winText r ⟨abs, ms ++ [w], true⟩, winCompsK k (winText r ⟨abs, ms ++ [w], true⟩), .multi⟩ := by
        cases h with
        | dflt h' => exact absurd h' hne
        | parsed =>
          refine ⟨(winText r ⟨abs, ms ++ [w], true⟩).length, ?_⟩
          rw [winCompsK_self, win_multi _ hne]
          intro c hc
          rw [← winCompsK_self, (hw.comps _).1] at hc
          have := congrArg List.length hc
          simp only [if_true, List.length_append, List.length_singleton] at this
          omega
        | multi k _ _ => exact ⟨k, rfl⟩
      obtain ⟨hcomps, hwf⟩ := hw.comps k
      have hrev : ret.comps.reverse = ⟨[], .filename, k⟩ ::
          ⟨w, .filename, (winText r ⟨abs, ms, !ms.isEmpty⟩).length⟩ ::
          (winRootComps (winText r ⟨abs, ms, !ms.isEmpty⟩) ++ toks .windows r.length (NSt.winRest ⟨abs, ms, !ms.isEmpty⟩)).reverse := by
        rw [hret]; simp only; rw [hcomps]; simp
      by_cases hdd : w = ['.', '.']
      · have hdd' : isDotDot w = true := by simp [isDotDot, hdd]
        have hfin : NSt.finish ⟨abs, ms ++ [w], true⟩ = ⟨abs, ms ++ [w], false⟩ := by simp [NSt.finish, hdd]
        have hw' : WinWf r ⟨abs, ms ++ [w], false⟩ := ⟨hw.root, hw.plain, by simp, hw.unc⟩
        have hne' : winText r ⟨abs, ms ++ [w], false⟩ ≠ [] := by rw [ne_eq, winText_nil hw']; simp
        unfold normalFinish
        rw [hrev]
        simp only
        rw [if_pos ⟨trivial, hdd'⟩, hfin, if_neg hne']
        refine ⟨?_, ?_⟩
        · rw [hret]; simp only; rw [winText_trail]; simp
        · rw [win_elems hne', ← winCompsK_self, (hw'.comps _).1, hret]
          simp [Path.elems]
      · have hdd' : isDotDot w = false := by simp [isDotDot, hdd]
        apply same _ (by simp [NSt.finish, hdd]) hne
        unfold normalFinish
        rw [hrev]
        simp only
        rw [if_neg (by simp [hdd'])]

/-- Text of the normal form. -/
def winNormalText (s : Str) : Str :=
  if s = [] then [] else
    if winText (winRootName s) (run (winHasDir s) (winRel s)).finish = [] then ['.']
    else winText (winRootName s) (run (winHasDir s) (winRel s)).finish

theorem winWf_finish {r : Str} {st : NSt} (h : WinWf r st) : WinWf r st.finish := by
  unfold NSt.finish
  split
  · exact ⟨h.root, h.plain, by simp, h.unc⟩
  · exact h

/-- `lexically_normal` on Windows. -/
theorem win_normal (s : Str) (el : Bool) (hp : ∀ n ∈ winNames (winTail s), PlainName n) :
    ∃ q, lexicallyNormal .windows el (mkPath .windows s) = .ok q ∧ q.pathname = winNormalText s ∧
      q.elems = (mkPath .windows (winNormalText s)).elems ∧
      (mkPath .windows (winNormalText s)).pathname = winNormalText s := by
  have hstored : (mkPath .windows (winNormalText s)).pathname = winNormalText s := by
    unfold winNormalText
    split
    · rfl
    · rename_i hs
      split
      · decide
      · obtain ⟨q, _, h2, _⟩ := win_normal_fold hs hp
        exact (winWf_finish h2).facts.stored
  have hemp : (mkPath .windows s).isEmpty = decide (s = []) := by
    rw [Path.isEmpty]
    have := (winGood_mkPath s).empty
    by_cases hs : s = []
    · subst hs; rfl
    · have h1 : (mkPath .windows s).names ≠ [] := by
        rw [Path.names, win_elems hs]
        simp [winComps_ne hs]
      rw [decide_eq_false hs, List.isEmpty_eq_false_iff]
      exact fun h => h1 (this.mp h)
  rw [lexicallyNormal, hemp]
  by_cases hs : s = []
  · rw [if_pos (by simpa using hs)]
    have ht : winNormalText s = [] := by rw [winNormalText, if_pos hs]
    rw [ht]
    cases el
    · exact ⟨_, rfl, rfl, rfl, rfl⟩
    · exact ⟨_, rfl, rfl, rfl, rfl⟩
  · rw [if_neg (by simpa using hs)]
    obtain ⟨ret, h1, h2, h3⟩ := win_normal_fold hs hp
    rw [h1]
    obtain ⟨h4, h5⟩ := h3.finish h2
    have ht : winNormalText s = if winText (winRootName s) (run (winHasDir s) (winRel s)).finish = [] then ['.']
      else winText (winRootName s) (run (winHasDir s) (winRel s)).finish := by rw [winNormalText, if_neg hs]
    rw [← ht] at h4 h5
    refine ⟨_, rfl, ?_, ?_, hstored⟩
    · cases el with
      | true => exact h4
      | false =>
        show (mkPath .windows (normalFinish .windows ret).pathname).pathname = _
        rw [h4, hstored]
    · cases el with
      | true => exact h5
      | false =>
        show (mkPath .windows (normalFinish .windows ret).pathname).elems = _
        rw [h4]

theorem winJoin_intercalate : ∀ ns : List Str, winJoin ns = List.intercalate ['\\'] ns
  | [] => rfl
  | [w] => by simp [winJoin, List.intercalate]
  | w :: v :: ns => by
    have := winJoin_intercalate (v :: ns)
    simp only [winJoin, this]
    simp [List.intercalate, List.intersperse]

theorem winRel_wf (s : Str) : RelWf (winRel s) := by
  refine ⟨winNames (winTail s), decide (winEndsSep s = true ∧ winNames (winTail s) ≠ []),
    fun w h => (winName_mem h).isName, ?_⟩
  simp [winRel]

theorem winElements_rel (s : Str) : winElements s =
    (if winRootLen s = 0 then [] else [winRootName s]) ++ (if winHasDir s then [['\\']] else []) ++ winRel s := by
  simp [winElements, winRel]

theorem winRest_rel {st : NSt} (ht : st.tr = true → st.ns ≠ []) :
    st.winRest = (if st.abs then ['\\'] else []) ++ List.intercalate ['\\'] st.rel := by
  rw [NSt.winRest, NSt.rel, ← winJoin_intercalate, List.append_assoc]
  cases h : st.tr with
  | false => simp
  | true =>
    rw [if_pos rfl, if_pos rfl, winJoin_snoc, if_neg (ht h)]
    simp

theorem WinWf.winRel {r : Str} {st : NSt} (h : WinWf r st) : Spec.winRel (winText r st) = st.rel := by
  rw [Spec.winRel, h.facts.names, NSt.rel]
  by_cases hn : st.ns = []
  · have : st.tr = false := by
      cases h' : st.tr with
      | false => rfl
      | true => exact absurd hn (h.trail h')
    simp [hn, this]
  · rw [h.facts.ends hn]
    cases st.tr <;> simp [hn]

end Asap
