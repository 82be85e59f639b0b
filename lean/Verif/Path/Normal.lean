import Verif.Path.Generic

/-!
# `lexically_normal` simulated by a stack machine (POSIX)
-/

namespace Asap
open Spec

/-- State of the stack machine: absolute?, filenames so far, trailing slash? -/
structure NSt where
  abs : Bool
  ns : List Str
  tr : Bool
  deriving DecidableEq, Repr

/-- Text of a state. -/
def NSt.text (st : NSt) : Str := render st.abs st.ns st.tr

/-- Well-formed state. -/
structure NSt.Wf (st : NSt) : Prop where
  names : ∀ w ∈ st.ns, IsName w
  trail : st.tr = true → st.ns ≠ []

/-- Effect of one element. -/
def NSt.step (st : NSt) (e : Str) : NSt :=
  if e = ['/'] then ⟨true, [], false⟩
  else if e = [] ∨ e = ['.'] then ⟨st.abs, st.ns, !st.ns.isEmpty⟩
  else if e = ['.', '.'] then
    match st.ns.getLast? with
    | none => if st.abs then ⟨true, [], false⟩ else ⟨false, [e], false⟩
    | some l => if l = ['.', '.'] then ⟨st.abs, st.ns ++ [e], false⟩
      else ⟨st.abs, st.ns.dropLast, !st.ns.dropLast.isEmpty⟩
  else ⟨st.abs, st.ns ++ [e], false⟩

/-! ### Renderings -/

theorem render_nil (abs : Bool) : render abs [] false = if abs then ['/'] else [] := by
  cases abs <;> rfl

/-- Everything before the last filename. -/
theorem render_snoc (abs : Bool) (ms : List Str) (w : Str) :
    render abs (ms ++ [w]) false = render abs ms (!ms.isEmpty) ++ w := by
  cases ms with
  | nil => cases abs <;> simp [render, join]
  | cons m ms =>
    rw [render, join_concat _ (by simp)]
    cases abs <;> simp [render]

theorem render_nil_or_slash {abs : Bool} {ms : List Str} :
    render abs ms (!ms.isEmpty) = [] ∨ ∃ a, render abs ms (!ms.isEmpty) = a ++ ['/'] := by
  cases ms with
  | nil => cases abs
           · left; rfl
           · right; exact ⟨[], rfl⟩
  | cons m ms => right; exact ⟨_, rfl⟩

theorem filePart_render_snoc (abs : Bool) (ms : List Str) {w : Str} (hw : '/' ∉ w) :
    filePart (render abs (ms ++ [w]) false) = w := by
  rw [render_snoc]
  rcases render_nil_or_slash (abs := abs) (ms := ms) with h | ⟨a, h⟩
  · rw [h]; exact filePart_noSlash hw
  · rw [h, List.append_assoc]; exact filePart_slash a hw

theorem dirPart_render_snoc (abs : Bool) (ms : List Str) {w : Str} (hw : '/' ∉ w) :
    dirPart (render abs (ms ++ [w]) false) = render abs ms (!ms.isEmpty) := by
  rw [render_snoc]
  rcases render_nil_or_slash (abs := abs) (ms := ms) with h | ⟨a, h⟩
  · rw [h]; exact dirPart_noSlash hw
  · rw [h, List.append_assoc]; exact dirPart_slash a hw

theorem filePart_render_trail (abs : Bool) (ns : List Str) : filePart (render abs ns true) = [] := by
  rw [filePart_eq_nil_iff]
  right
  simp [render, endsSlash]

theorem filePart_render_empty (abs : Bool) : filePart (render abs [] false) = [] := by
  cases abs <;> decide

theorem stored_render {abs tr : Bool} {ns : List Str} (h : ∀ w ∈ ns, IsName w)
    (htr : tr = true → ns ≠ []) : stored (render abs ns tr) = render abs ns tr := by
  apply stored_eq_self
  rw [filenames_render h]
  rintro rfl
  have : tr = false := by
    cases tr
    · rfl
    · exact absurd rfl (htr rfl)
  subst this
  cases abs
  · left; rfl
  · right; rfl

theorem eq_nil_or_snoc {α : Type} (l : List α) : l = [] ∨ ∃ ms w, l = ms ++ [w] := by
  by_cases h : l = []
  · exact Or.inl h
  · exact Or.inr ⟨l.dropLast, l.getLast h, (List.dropLast_concat_getLast h).symm⟩

theorem appendText_render {abs tr : Bool} {ns : List Str} (h : ∀ w ∈ ns, IsName w)
    (htr : tr = true → ns ≠ []) (t : Str) :
    appendText (render abs ns tr) t = render abs ns (!ns.isEmpty) ++ t := by
  cases tr with
  | true =>
    have hne : (!ns.isEmpty) = true := by simpa using htr rfl
    rw [hne]
    simp [appendText, filePart_render_trail]
  | false =>
    rcases eq_nil_or_snoc ns with rfl | ⟨ms, w, rfl⟩
    · simp [appendText, filePart_render_empty]
    · have hw := h w (by simp)
      rw [appendText, filePart_render_snoc abs ms hw.2]
      simp [hw.1, render]

theorem startsSlash_of_name {w : Str} (h : '/' ∉ w) : startsSlash w = false := startsSlash_name h

section
variable {ret : Path} {st : NSt}

/-- The machine state describes the intermediate result. -/
structure Sim (ret : Path) (st : NSt) : Prop where
  loose : Loose ret
  safe : Safe ret
  text : ret.pathname = st.text
  wf : st.Wf

theorem Sim.appendName (h : Sim ret st) {e : Path} (he : Shape e) {w : Str}
    (hw : IsName w) (hp : e.pathname = w) :
    ∃ r, append .posix ret e = .ok r ∧ Sim r ⟨st.abs, st.ns ++ [w], false⟩ := by
  rw [h.loose.shape.append he, hp, startsSlash_name hw.2, h.text, NSt.text,
    appendText_render h.wf.names h.wf.trail, ← render_snoc]
  have hwf : NSt.Wf ⟨st.abs, st.ns ++ [w], false⟩ := by
    refine ⟨?_, by simp⟩
    intro v hv
    simp at hv
    rcases hv with hv | rfl
    · exact h.wf.names v hv
    · exact hw
  refine ⟨_, rfl, mkPath_loose _, mkPath_safe _, ?_, hwf⟩
  show (mkPath .posix _).pathname = _
  rw [mkPath_pathname, stored_render hwf.names (by simp)]
  rfl

theorem Sim.appendEmpty (h : Sim ret st) {e : Path} (he : Shape e) (hp : e.pathname = []) :
    ∃ r, append .posix ret e = .ok r ∧ Sim r ⟨st.abs, st.ns, !st.ns.isEmpty⟩ := by
  rw [h.loose.shape.append he, hp, startsSlash_nil, h.text, NSt.text,
    appendText_render h.wf.names h.wf.trail, List.append_nil]
  have hwf : NSt.Wf ⟨st.abs, st.ns, !st.ns.isEmpty⟩ := ⟨h.wf.names, by simp⟩
  refine ⟨_, rfl, mkPath_loose _, mkPath_safe _, ?_, hwf⟩
  show (mkPath .posix _).pathname = _
  rw [mkPath_pathname, stored_render hwf.names (by simp)]
  rfl

theorem Sim.removeFilename (h : Sim ret st) {ms : List Str} {w : Str} (hns : st.ns = ms ++ [w])
    (htr : st.tr = false) :
    ∃ r, removeFilename .posix ret = .ok r ∧ Sim r ⟨st.abs, ms, !ms.isEmpty⟩ := by
  obtain ⟨r, h1, h2, h3, h4⟩ := h.loose.removeFilename h.safe
  have hw : IsName w := h.wf.names w (by simp [hns])
  have hms : ∀ v ∈ ms, IsName v := fun v hv => h.wf.names v (by simp [hns, hv])
  have hwf : NSt.Wf ⟨st.abs, ms, !ms.isEmpty⟩ := ⟨hms, by simp⟩
  refine ⟨r, h1, h2, h3, ?_, hwf⟩
  rw [h4, h.text, NSt.text, hns, htr, dirPart_render_snoc _ _ hw.2, stored_render hms (by simp)]
  rfl

theorem toks_render_snoc (abs : Bool) {ms : List Str} {w : Str} (hw : IsName w) :
    toks .posix 0 (render abs (ms ++ [w]) true) =
      toks .posix 0 (render abs ms (!ms.isEmpty)) ++
        [⟨w, .filename, (render abs ms (!ms.isEmpty)).length⟩] := by
  have e1 : render abs (ms ++ [w]) true = render abs (ms ++ [w]) false ++ '/' :: [] := by
    simp [render]
  rw [e1, toks_append_sep (isSep_slash .posix), toks_nil, List.append_nil,
    toks_dir_file _ (by rw [filePart_render_snoc abs ms hw.2]; exact hw.1),
    filePart_render_snoc abs ms hw.2, dirPart_render_snoc abs ms hw.2]

theorem rootComps_render {abs tr : Bool} {ns : List Str} (h : ∀ w ∈ ns, IsName w)
    (htr : tr = true → ns ≠ []) :
    rootComps (render abs ns tr) = if abs then [⟨['/'], .rootDir, 0⟩] else [] := by
  have := startsSlash_render (abs := abs) h htr
  cases abs with
  | true => rw [startsSlash_iff] at this; simp [rootComps, this]
  | false => 
    have : (render false ns tr).head? ≠ some '/' := by
      intro h'; rw [startsSlash_iff.mpr h'] at this; cases this
    simp [rootComps, this]

/-- `..` after `w/`. -/
theorem Sim.dotDotSlash (h : Sim ret st) {ms : List Str} {w : Str} (hns : st.ns = ms ++ [w])
    (htr : st.tr = true) {e : Path} (he : Shape e) (hp : e.pathname = ['.', '.']) :
    ∃ r, normalDotDotSlash .posix ret e = .ok r ∧
      Sim r (if w = ['.', '.'] then ⟨st.abs, st.ns ++ [['.', '.']], false⟩
        else ⟨st.abs, ms, !ms.isEmpty⟩) := by
  have hw : IsName w := h.wf.names w (by simp [hns])
  have hms : ∀ v ∈ ms, IsName v := fun v hv => h.wf.names v (by simp [hns, hv])
  have htext : ret.pathname = render st.abs (ms ++ [w]) true := by rw [h.text, NSt.text, hns, htr]
  have hall : ∀ v ∈ ms ++ [w], IsName v := by rw [← hns]; exact h.wf.names
  obtain ⟨k, hret⟩ : ∃ k, ret = ⟨render st.abs (ms ++ [w]) true,
      rawCompsK k (render st.abs (ms ++ [w]) true), .multi⟩ := by
    have hsl : '/' ∈ render st.abs (ms ++ [w]) true := by simp [render]
    have hfn := filenames_render (abs := st.abs) (tr := true) hall
    cases h.loose with
    | dflt => simp only at htext; rw [← htext] at hsl; simp at hsl
    | empt => simp only at htext; rw [← htext] at hsl; simp at hsl
    | file s hs => simp only at htext; rw [← htext] at hsl; exact absurd hsl hs.2
    | root =>
      simp only at htext; rw [← htext] at hfn
      have : filenames ['/'] = [] := by decide
      rw [this] at hfn; simp at hfn
    | multi s k h1 h2 => simp only at htext; subst htext; exact ⟨k, rfl⟩
  have hcomps : rawCompsK k (render st.abs (ms ++ [w]) true) =
      ((rootComps (render st.abs ms (!ms.isEmpty)) ++ toks .posix 0 (render st.abs ms (!ms.isEmpty))) ++
        [⟨w, .filename, (render st.abs ms (!ms.isEmpty)).length⟩]) ++ [⟨[], .filename, k⟩] := by
    have hl : (render st.abs (ms ++ [w]) true).getLast? = some '/' := by simp [render]
    rw [rawCompsK, toks_render_snoc _ hw, rootComps_render hall (by simp),
      rootComps_render hms (by simp)]
    simp [hl]
  subst hret
  unfold normalDotDotSlash
  rw [if_neg (by simp)]
  rw [hcomps]
  simp only [List.reverse_append, List.reverse_cons, List.reverse_nil, List.nil_append,
    List.cons_append]
  have hhf : hasFilename .posix (Comp.toPath ⟨w, .filename, (render st.abs ms (!ms.isEmpty)).length⟩)
      = .ok true := by
    have := (Shape.file w hw).hasFilename
    simp only [filePart_noSlash hw.2] at this
    rw [Comp.toPath, this]
    simp [hw.1]
  rw [hhf]
  by_cases hdd : w = ['.', '.']
  · subst hdd
    simp only [isDotDot, BEq.rfl, bind, Except.bind]
    rw [if_neg (by simp), if_pos trivial]
    have := h.appendName he (w := ['.', '.']) (by constructor <;> decide) hp
    rw [hcomps] at this
    simpa using this
  · have hdd' : isDotDot w = false := by simp [isDotDot, hdd]
    simp only [bind, Except.bind, hdd', Bool.not_false, Bool.and_self, if_true, hdd, if_false]
    by_cases hms0 : ms = []
    · subst hms0
      cases ha : st.abs with
      | false =>
        have e3 : rootComps (render false [] (!([] : List Str).isEmpty)) = [] := by decide
        have e4 : toks .posix 0 (render false [] (!([] : List Str).isEmpty)) = [] := by decide
        rw [e3, e4]
        refine ⟨_, rfl, mkPath_loose _, mkPath_safe _, ?_, ⟨by simp, by simp⟩⟩
        simp [Path.clear, mkPath_nil, NSt.text, render, join]
      | true =>
        refine ⟨⟨['/'], rawCompsK 0 ['/'], .multi⟩, ?_, .multi _ 0 (by simp) (fun _ => rfl), ?_, rfl,
          ⟨by simp, by simp⟩⟩
        · have e2 : eraseFrom (render true [w] true) (render true [] (!([] : List Str).isEmpty)).length
              = .ok ['/'] := by
            exact eraseFrom_append (a := ['/']) (b := w ++ ['/'])
              (s := render true [w] true) (by simp [render, join])
          have e3 : rootComps (render true [] (!([] : List Str).isEmpty)) = [⟨['/'], .rootDir, 0⟩] := by decide
          have e4 : toks .posix 0 (render true [] (!([] : List Str).isEmpty)) = [] := by decide
          rw [e3, e4]
          simp only [List.reverse_nil, List.nil_append, List.reverse_cons]
          rw [e2]
          rfl
        · rintro ⟨_, hn⟩; exact hn.2 (by simp)
    · have ht : toks .posix 0 (render st.abs ms (!ms.isEmpty)) ≠ [] := by
        rw [ne_eq, toks_nil_iff_filenames, filenames_render hms]; exact hms0
      rcases eq_nil_or_snoc (toks .posix 0 (render st.abs ms (!ms.isEmpty))) with h0 | ⟨ts, t, h0⟩
      · exact absurd h0 ht
      · have htt : t.type = .filename := (toks_mem _ _ t (by rw [h0]; simp)).1
        have e2 : eraseFrom (render st.abs (ms ++ [w]) true) (render st.abs ms (!ms.isEmpty)).length
            = .ok (render st.abs ms (!ms.isEmpty)) := by
          apply eraseFrom_append (b := w ++ ['/'])
          have : render st.abs (ms ++ [w]) true = render st.abs (ms ++ [w]) false ++ ['/'] := by simp [render]
          rw [this, render_snoc]; simp
        rw [h0]
        simp only [List.reverse_append, List.reverse_cons, List.reverse_nil, List.nil_append,
          List.cons_append, e2, htt, if_true]
        have hl : (render st.abs ms (!ms.isEmpty)).getLast? = some '/' := by
          simp [render, hms0]
        have hraw : (rootComps (render st.abs ms (!ms.isEmpty)) ++ (ts ++ [t])) ++ [⟨[], .filename, k⟩] =
            rawCompsK k (render st.abs ms (!ms.isEmpty)) := by
          rw [← h0, rawCompsK]; simp [hl, ht]
        refine ⟨_, rfl, ?_, ?_, rfl, ⟨hms, by simp⟩⟩
        · simp only [List.reverse_reverse]
          rw [hraw]
          refine .multi _ k ?_ ?_
          · intro h'; rw [h'] at hl; simp at hl
          · rw [filenames_render hms]; intro h'; exact absurd h' hms0
        · rintro ⟨_, hn⟩
          exact hn.2 (List.mem_of_getLast? hl)

/-- One loop iteration. -/
theorem Sim.step (h : Sim ret st) {n : Str} {t : PType}
    (hk : (n = [] ∧ t = .filename) ∨ (IsName n ∧ t = .filename) ∨
      (n = ['/'] ∧ t = .rootDir ∧ st.ns = [] ∧ st.abs = false)) :
    ∃ r, normalStep .posix ret ⟨n, [], t⟩ = .ok r ∧ Sim r (st.step n) := by
  unfold normalStep
  rw [if_neg (by simp)]
  rcases hk with ⟨rfl, rfl⟩ | ⟨hn, rfl⟩ | ⟨rfl, rfl, hns, habs⟩
  · rw [if_neg (by simp [isDotDot]), if_neg (by simp [isDot])]
    simpa [NSt.step] using h.appendEmpty .empt rfl
  · have hsh : Shape ⟨n, [], .filename⟩ := .file n hn
    have hnr : n ≠ ['/'] := by rintro rfl; exact hn.2 (by simp)
    by_cases hdd : n = ['.', '.']
    · subst hdd
      simp only [isDotDot, BEq.rfl, if_true, h.loose.shape.hasFilename]
      rcases eq_nil_or_snoc st.ns with hns | ⟨ms, w, hns⟩
      · have htr : st.tr = false := by
          cases htr : st.tr
          · rfl
          · exact absurd hns (h.wf.trail htr)
        have hfp : filePart ret.pathname = [] := by
          rw [h.text, NSt.text, hns, htr]; exact filePart_render_empty _
        simp only [hfp, bind, Except.bind]
        rw [if_neg (by simp)]
        have hfn : filenames ret.pathname = [] := by
          rw [h.text, NSt.text, filenames_render h.wf.names, hns]
        simp only [h.loose.hasRelativePath, hfn]
        have hst : startsSlash ret.pathname = st.abs := by
          rw [h.text, NSt.text, startsSlash_render h.wf.names h.wf.trail]
        simp only [h.loose.shape.hasRootDirectory, hst]
        cases habs : st.abs with
        | true =>
          refine ⟨ret, rfl, ?_⟩
          have e : st.step ['.', '.'] = st := by
            cases st
            simp only at hns habs htr
            subst hns habs htr
            rfl
          rw [e]; exact h
        | false =>
          have := h.appendName hsh hn rfl
          have e : st.step ['.', '.'] = ⟨st.abs, st.ns ++ [['.', '.']], false⟩ := by
            simp [NSt.step, hns, habs]
          rw [e]
          simpa using this
      · have hw : IsName w := h.wf.names w (by simp [hns])
        cases htr : st.tr with
        | false =>
          have hfp : filePart ret.pathname = w := by
            rw [h.text, NSt.text, hns, htr]; exact filePart_render_snoc _ _ hw.2
          simp only [hfp, bind, Except.bind]
          rw [if_pos (by simp [hw.1])]
          simp only [h.loose.shape.filename, hfp, fileOf_pathname]
          by_cases hwd : w = ['.', '.']
          · subst hwd
            simp only [BEq.rfl]
            rw [if_neg (by simp)]
            have := h.appendName hsh hn rfl
            have e : st.step ['.', '.'] = ⟨st.abs, st.ns ++ [['.', '.']], false⟩ := by
              simp [NSt.step, hns]
            rw [e]; exact this
          · rw [if_pos (by simp [hwd])]
            have := h.removeFilename hns htr
            have e : st.step ['.', '.'] = ⟨st.abs, ms, !ms.isEmpty⟩ := by
              simp [NSt.step, hns, hwd]
            rw [e]; exact this
        | true =>
          have hfp : filePart ret.pathname = [] := by
            rw [h.text, NSt.text, htr]; exact filePart_render_trail _ _
          simp only [hfp, bind, Except.bind]
          rw [if_neg (by simp)]
          have hfn : filenames ret.pathname = ms ++ [w] := by
            rw [h.text, NSt.text, filenames_render h.wf.names, hns]
          simp only [h.loose.hasRelativePath, hfn]
          have := h.dotDotSlash hns htr hsh rfl
          have e : st.step ['.', '.'] = (if w = ['.', '.'] then ⟨st.abs, st.ns ++ [['.', '.']], false⟩
              else ⟨st.abs, ms, !ms.isEmpty⟩) := by
            simp [NSt.step, hns]
          rw [e]
          simpa using this
    · have hdd' : isDotDot n = false := by simp [isDotDot, hdd]
      simp only [hdd']
      by_cases hd : n = ['.']
      · subst hd
        simp only [isDot, BEq.rfl, if_true]
        rw [if_neg (by simp)]
        have := h.appendEmpty (e := .default) .dflt rfl
        simpa [NSt.step] using this
      · have hd' : isDot n = false := by simp [isDot, hd]
        simp only [hd']
        rw [if_neg (by simp), if_neg (by simp)]
        have := h.appendName hsh hn rfl
        have e : st.step n = ⟨st.abs, st.ns ++ [n], false⟩ := by
          simp [NSt.step, hnr, hn.1, hd, hdd]
        rw [e]; exact this
  · rw [if_neg (by simp [isDotDot]), if_neg (by simp [isDot])]
    rw [h.loose.shape.append .root]
    refine ⟨⟨['/'], [], .rootDir⟩, rfl, .root, by simp [Safe], rfl, ⟨by simp [NSt.step], by simp [NSt.step]⟩⟩

theorem Sim.fold : ∀ (ks : List (Str × PType)) {ret : Path} {st : NSt}, Sim ret st →
    (∀ k ∈ ks, (k.1 = [] ∧ k.2 = .filename) ∨ (IsName k.1 ∧ k.2 = .filename)) →
    ∃ r, (ks.map fun k => (⟨k.1, [], k.2⟩ : Path)).foldlM (normalStep .posix) ret = .ok r ∧
      Sim r ((ks.map Prod.fst).foldl NSt.step st)
  | [], ret, st, h, _ => ⟨ret, rfl, h⟩
  | k :: ks, ret, st, h, hk => by
    obtain ⟨r, h1, h2⟩ := h.step (n := k.1) (t := k.2) (by
      rcases hk k (by simp) with h | h
      · exact Or.inl h
      · exact Or.inr (Or.inl h))
    obtain ⟨r', h3, h4⟩ := Sim.fold ks h2 (fun x hx => hk x (by simp [hx]))
    refine ⟨r', ?_, h4⟩
    rw [List.map_cons, List.foldlM_cons, h1]
    exact h3

end

/-- Initial machine state. -/
def NSt.init : NSt := ⟨false, [], false⟩

theorem Sim.init : Sim .default NSt.init :=
  ⟨.dflt, by simp [Safe, IsName, Path.default], rfl, ⟨by simp [NSt.init], by simp [NSt.init]⟩⟩

theorem elems_keys {p : Path} (h : Shape p) :
    p.elems = (keysOf p.pathname).map fun k => (⟨k.1, [], k.2⟩ : Path) := by
  cases h with
  | dflt => rfl
  | empt => rfl
  | file s hs => simp [Path.elems, Path.isEmpty, hs.1, keysOf_name hs]
  | root => rfl
  | multi s cs h1 h2 h3 =>
    rw [← h3]
    simp only [Path.elems, List.map_map]
    rfl

theorem fold_elems {p : Path} (h : Shape p) :
    ∃ r, p.elems.foldlM (normalStep .posix) .default = .ok r ∧
      Sim r ((elements p.pathname).foldl NSt.step NSt.init) := by
  rw [elems_keys h, ← keysOf_names]
  have hrel : ∀ k ∈ ((filenames p.pathname).map (·, PType.filename) ++
      (if endsSlash p.pathname = true ∧ filenames p.pathname ≠ [] then [([], PType.filename)] else [])),
      (k.1 = [] ∧ k.2 = .filename) ∨ (IsName k.1 ∧ k.2 = .filename) := by
    intro k hk
    rw [List.mem_append] at hk
    rcases hk with hk | hk
    · right
      simp at hk
      obtain ⟨w, hw, rfl⟩ := hk
      exact ⟨filenames_mem hw, rfl⟩
    · left
      split at hk <;> simp at hk
      subst hk
      exact ⟨rfl, rfl⟩
  unfold keysOf
  by_cases hst : startsSlash p.pathname = true
  · obtain ⟨r, h1, h2⟩ := Sim.init.step (n := ['/']) (t := .rootDir)
      (Or.inr (Or.inr ⟨rfl, rfl, rfl, rfl⟩))
    obtain ⟨r', h3, h4⟩ := Sim.fold _ h2 hrel
    refine ⟨r', ?_, ?_⟩
    · simp only [hst, if_true, List.cons_append, List.nil_append, List.map_cons, List.foldlM_cons, h1]
      exact h3
    · simpa [hst] using h4
  · obtain ⟨r', h3, h4⟩ := Sim.fold _ Sim.init hrel
    refine ⟨r', ?_, ?_⟩
    · simpa [hst] using h3
    · simpa [hst] using h4

/-- Final adjustment: no trailing slash after `..`. -/
def NSt.finish (st : NSt) : NSt :=
  if st.ns.getLast? = some ['.', '.'] then ⟨st.abs, st.ns, false⟩ else st

/-- Text of the normal form. -/
def normalText (s : Str) : Str :=
  if s = [] then []
  else
    let t := ((elements s).foldl NSt.step NSt.init).finish.text
    if t = [] then ['.'] else t

theorem Loose.comps_reverse_trail {ret : Path} (h : Loose ret) (he : endsSlash ret.pathname = true)
    (hn : filenames ret.pathname ≠ []) :
    ∃ k, ret = ⟨ret.pathname, rawCompsK k ret.pathname, .multi⟩ := by
  cases h with
  | dflt => exact absurd rfl hn
  | empt => exact absurd rfl hn
  | file s hs => rw [endsSlash_name hs.2] at he; cases he
  | root => exact absurd (by decide) hn
  | multi s k _ _ => exact ⟨k, rfl⟩

theorem dropLast_render_trail (abs : Bool) (ns : List Str) :
    (render abs ns true).dropLast = render abs ns false := by
  simp [render]

/-- The end of `lexically_normal`. -/
theorem Sim.finish {ret : Path} {st : NSt} (h : Sim ret st) :
    Loose (normalFinish .posix ret) ∧
    (normalFinish .posix ret).pathname =
      (if st.finish.text = [] then ['.'] else st.finish.text) := by
  have hnil : st.text = [] ↔ st.ns = [] ∧ st.abs = false := by
    constructor
    · intro ht
      have h1 := filenames_render (abs := st.abs) (tr := st.tr) h.wf.names
      have h2 := startsSlash_render (abs := st.abs) h.wf.names h.wf.trail
      unfold NSt.text at ht
      rw [ht] at h1 h2
      exact ⟨h1.symm, h2.symm⟩
    · rintro ⟨h1, h2⟩
      have : st.tr = false := by
        cases htr : st.tr
        · rfl
        · exact absurd h1 (h.wf.trail htr)
      simp [NSt.text, h1, h2, this, render, join]
  rcases eq_nil_or_snoc st.ns with hns | ⟨ms, w, hns⟩
  · -- no filename
    have hfin : st.finish = st := by simp [NSt.finish, hns]
    rw [hfin]
    have hfn : filenames ret.pathname = [] := by
      rw [h.text, NSt.text, filenames_render h.wf.names, hns]
    have hshort : ∀ a b l, ret.comps.reverse ≠ a :: b :: l := by
      intro a b l hc
      have hlen := congrArg List.length hc
      simp at hlen
      cases h.loose with
      | dflt => simp at hlen
      | empt => simp at hlen
      | file s hs => simp at hlen
      | root => simp at hlen
      | multi s k h1 h2 =>
        simp only at hfn hlen
        have := h2 hfn
        subst this
        have : (rawCompsK k ['/']).length = 1 := by
          rw [← List.length_map (f := Comp.key), rawCompsK_keys]; decide
        omega
    have hnf : normalFinish .posix ret = if ret.isEmpty then mkPath .posix ['.'] else ret := by
      unfold normalFinish
      split
      · rename_i a b l hc; exact absurd hc (hshort a b l)
      · rfl
    rw [hnf]
    by_cases he : ret.pathname = []
    · rw [if_pos (by simp [Path.isEmpty, he])]
      rw [h.text] at he
      rw [if_pos he]
      exact ⟨mkPath_loose _, by decide⟩
    · rw [if_neg (by simpa [Path.isEmpty] using he)]
      rw [h.text] at he
      rw [if_neg he]
      exact ⟨h.loose, h.text⟩
  · have hw : IsName w := h.wf.names w (by simp [hns])
    have hms : ∀ v ∈ ms, IsName v := fun v hv => h.wf.names v (by simp [hns, hv])
    have hall : ∀ v ∈ ms ++ [w], IsName v := by rw [← hns]; exact h.wf.names
    have hfin_ne : st.finish.text ≠ [] := by
      intro h'
      have hf : st.finish.ns = ms ++ [w] := by unfold NSt.finish; split <;> simp [hns]
      have := filenames_render (abs := st.finish.abs) (tr := st.finish.tr) (ns := st.finish.ns)
        (by rw [hf]; exact hall)
      unfold NSt.text at h'
      rw [h', hf] at this
      simp [filenames_nil] at this
    rw [if_neg hfin_ne]
    have hfn : filenames ret.pathname = ms ++ [w] := by
      rw [h.text, NSt.text, filenames_render h.wf.names, hns]
    have hne : ret.isEmpty = false := by
      rw [Bool.eq_false_iff]
      intro h'
      simp [Path.isEmpty] at h'
      rw [h'] at hfn
      simp [filenames_nil] at hfn
    cases htr : st.tr with
    | false =>
      have hfp : filePart ret.pathname = w := by
        rw [h.text, NSt.text, hns, htr]; exact filePart_render_snoc _ _ hw.2
      have hnf : normalFinish .posix ret = ret := by
        unfold normalFinish
        split
        · rename_i a b l hc
          rw [if_neg]
          rintro ⟨ha, _⟩
          have hl : ret.comps.getLast? = some a := by
            rw [List.getLast?_eq_head?_reverse, hc]; rfl
          have hmulti : ret.type = .multi := by
            cases h.loose with
            | dflt => rfl
            | empt => simp at hc
            | file => simp at hc
            | root => simp at hc
            | multi => rfl
          have := h.loose.shape.comps_names hmulti
          have h2 := congrArg List.getLast? this
          rw [List.getLast?_map, hl, ← keysOf_names, List.getLast?_map,
            keysOf_getLast (by simpa [Path.isEmpty] using hne), hfp] at h2
          simp [hw.1] at h2
          exact hw.1 (h2.symm.trans ha)
        · simp [hne]
      rw [hnf]
      refine ⟨h.loose, ?_⟩
      rw [h.text]
      have : st.finish = st := by
        unfold NSt.finish
        split
        · cases st; simp at htr; simp [htr]
        · rfl
      rw [this]
    | true =>
      have htext : ret.pathname = render st.abs (ms ++ [w]) true := by rw [h.text, NSt.text, hns, htr]
      have hes : endsSlash ret.pathname = true := by rw [htext]; simp [render, endsSlash]
      obtain ⟨k, hret⟩ := h.loose.comps_reverse_trail hes (by rw [hfn]; simp)
      have hcomps : rawCompsK k ret.pathname =
          ((rootComps (render st.abs ms (!ms.isEmpty)) ++ toks .posix 0 (render st.abs ms (!ms.isEmpty))) ++
            [⟨w, .filename, (render st.abs ms (!ms.isEmpty)).length⟩]) ++ [⟨[], .filename, k⟩] := by
        have hl : (render st.abs (ms ++ [w]) true).getLast? = some '/' := by simp [render]
        rw [htext, rawCompsK, toks_render_snoc _ hw, rootComps_render hall (by simp),
          rootComps_render hms (by simp)]
        simp [hl]
      have hrev : ret.comps.reverse = ⟨[], .filename, k⟩ ::
          ⟨w, .filename, (render st.abs ms (!ms.isEmpty)).length⟩ ::
          (rootComps (render st.abs ms (!ms.isEmpty)) ++
            toks .posix 0 (render st.abs ms (!ms.isEmpty))).reverse := by
        rw [hret, hcomps]; simp
      unfold normalFinish
      rw [hrev]
      simp only
      by_cases hdd : w = ['.', '.']
      · have hdd' : isDotDot w = true := by simp [isDotDot, hdd]
        rw [if_pos ⟨trivial, hdd'⟩]
        have hfin : st.finish.text = render st.abs (ms ++ [w]) false := by
          simp [NSt.finish, NSt.text, hns, hdd]
        rw [hfin]
        have ht2 : ret.type = .multi := by rw [hret]
        have hraw : rawCompsK k (render st.abs (ms ++ [w]) false) =
            (rootComps (render st.abs ms (!ms.isEmpty)) ++ toks .posix 0 (render st.abs ms (!ms.isEmpty))) ++
            [⟨w, .filename, (render st.abs ms (!ms.isEmpty)).length⟩] := by
          rw [rawCompsK_file k (by rw [filePart_render_snoc _ _ hw.2]; exact hw.1),
            filePart_render_snoc _ _ hw.2, dirPart_render_snoc _ _ hw.2,
            rootComps_render hall (by simp), rootComps_render hms (by simp)]
        refine ⟨?_, by simp [htext, dropLast_render_trail]⟩
        rw [htext, dropLast_render_trail, ht2]
        simp only [List.reverse_cons, List.reverse_reverse]
        rw [← hraw]
        refine .multi _ k ?_ ?_
        · intro h'
          have := filenames_render (abs := st.abs) (tr := false) hall
          rw [h'] at this; simp [filenames_nil] at this
        · rw [filenames_render hall]; simp
      · have hdd' : isDotDot w = false := by simp [isDotDot, hdd]
        rw [if_neg (by simp [hdd'])]
        have hfin : st.finish = st := by simp [NSt.finish, hns, hdd]
        rw [hfin]
        exact ⟨h.loose, h.text⟩

/-- `lexically_normal`: always defined, with the text of the normal form. -/
theorem Shape.lexicallyNormal {p : Path} (h : Shape p) (elide : Bool) :
    ∃ q, lexicallyNormal .posix elide p = .ok q ∧ Loose q ∧ q.pathname = normalText p.pathname := by
  unfold Asap.lexicallyNormal
  by_cases he : p.pathname = []
  · rw [if_pos (by simp [Path.isEmpty, he])]
    cases elide
    · exact ⟨mkPath .posix [], rfl, mkPath_loose _, by simp [normalText, he, mkPath_nil]⟩
    · exact ⟨.default, rfl, .dflt, by simp [normalText, he, Path.default]⟩
  · rw [if_neg (by simpa [Path.isEmpty] using he)]
    obtain ⟨r, h1, h2⟩ := fold_elems h
    obtain ⟨h3, h4⟩ := h2.finish
    simp only [h1, bind, Except.bind]
    have h5 : (normalFinish .posix r).pathname = normalText p.pathname := by
      rw [h4]; simp [normalText, he]
    cases elide
    · refine ⟨_, rfl, mkPath_loose _, ?_⟩
      show (mkPath .posix _).pathname = _
      rw [mkPath_pathname, h3.shape.stored, h5]
    · exact ⟨_, rfl, h3, h5⟩

end Asap
