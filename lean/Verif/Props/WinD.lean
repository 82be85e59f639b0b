import Verif.Win.Canonical
import Verif.Path.WinParent
import Verif.Props.WinC
import Verif.Os.Ghost
import Verif.Os.Eval

/-!
# C60: `canonical` on Windows
-/

namespace Asap
open Spec

namespace Spec

/-- The text of a link that was read. -/
def linkText : Event → Option Str
  | ⟨.winReadlink _, r⟩ => match (r : Except Errno Str) with
    | .ok s => some s
    | .error _ => none
  | _ => none

/-- The texts of the links read. -/
def linkTexts (t : List Event) : List Str := t.filterMap linkText

/-- Elements there can be in these texts. -/
def linkWeight (t : List Event) : Nat := ((linkTexts t).map fun l => l.length + 3).sum

/-- Not relative to the current directory of a drive, and no colon in a name. -/
def winSimple (s : Str) : Prop :=
  (winRootLen s = 0 ∨ winHasDir s = true ∨ winUnc s = true) ∧ ∀ w ∈ winNames (winTail s), ':' ∉ w

/-- Absolute, and no colon in a name. -/
def winRooted (s : Str) : Prop :=
  (winHasDir s = true ∨ winUnc s = true) ∧ ∀ w ∈ winNames (winTail s), ':' ∉ w

end Spec

/-! ## Links in traces -/

theorem linkTexts_append (s t : List Event) : linkTexts (s ++ t) = linkTexts s ++ linkTexts t := by
  simp [linkTexts]

theorem linkTexts_test (s : List Event) (q : WinTest) (p : Str) (r : Bool × Code) :
    linkTexts (s ++ [⟨.winTest q p, r⟩]) = linkTexts s := by simp [linkTexts, linkText]

theorem linkTexts_err (s : List Event) (p : Str) (e : Errno) :
    linkTexts (s ++ [⟨.winReadlink p, (.error e : Except Errno Str)⟩]) = linkTexts s := by simp [linkTexts, linkText]

theorem linkTexts_ok (s : List Event) (p l : Str) :
    linkTexts (s ++ [⟨.winReadlink p, (.ok l : Except Errno Str)⟩]) = linkTexts s ++ [l] := by simp [linkTexts, linkText]

theorem linkWeight_eq {s t : List Event} (h : linkTexts s = linkTexts t) : linkWeight s = linkWeight t := by
  simp [linkWeight, h]

theorem linkWeight_ok (s : List Event) (p l : Str) :
    linkWeight (s ++ [⟨.winReadlink p, (.ok l : Except Errno Str)⟩]) = linkWeight s + (l.length + 3) := by
  simp [linkWeight, linkTexts_ok]

/-! ## The number of elements -/

theorem winNames_length (s : Str) : (winNames s).length ≤ s.length := by
  induction s using win_induction with
  | h0 w hw => rw [winNames_noSep hw]; split <;> rename_i h <;> simp [h]; exact List.length_pos_iff.mpr h
  | h1 w d b hw hd ih =>
    rw [winNames_seg b hw hd]
    split <;> simp only [List.length_append, List.length_cons, List.length_nil] <;> omega

theorem winElements_length (s : Str) : (winElements s).length ≤ s.length + 3 := by
  have h1 := winNames_length (winTail s)
  have h2 : (winTail s).length ≤ s.length := by simp [winTail]
  rw [winElements]
  simp only [List.length_append]
  split <;> split <;> split <;> simp <;> omega

theorem elems_length (s : Str) : (mkPath .windows s).elems.length ≤ s.length + 3 := by
  have := winElements_length s
  rw [← win_names] at this
  simpa [Path.names] using this

theorem winRelative_length (s : Str) : (winRelative s).length ≤ s.length := by
  have h1 : (winTail s).length ≤ s.length := by simp [winTail]
  have h2 := (List.dropWhile_suffix (l := winTail s) winSep).length_le
  exact Nat.le_trans h2 h1

theorem rel_length {s : Str} {q : Path} (h : relativePath .windows (mkPath .windows s) = .ok q) :
    q.elems.length ≤ s.length + 3 := by
  obtain ⟨q', h1, h2⟩ := win_relativePath s
  rw [h1] at h
  cases h
  rcases h2 with rfl | ⟨rfl, _⟩
  · have := elems_length (winRelative s)
    have := winRelative_length s
    omega
  · simp [Path.elems, Path.default]

/-! ## Bounds -/

theorem error_code (h : Handler) (w : Str) (c : Code) : (h.error w c).code = c := by
  unfold Handler.error
  split <;> rfl

/-- Outcome of the loop within the bounds. -/
structure Bounded (n : Nat) (len : Nat) (ec : EcArg) (s : List Event) (o : Except Stop (Path × Code × EcArg))
    (s' : List Event) : Prop where
  fine : (linkTexts s').length < 40 → (∀ f, o ≠ .error (.fault f)) ∧
    (o = .error .fuel → n + linkWeight s < len + linkWeight s') ∧ ∀ r m e, o = .ok (r, m, e) → Made r
  throws : ec = .null → (linkTexts s').length ≤ 40 ∧
    ((linkTexts s').length = 40 → ∃ x, o = .error (.thrown x) ∧ x.code = some .ELOOP) ∧
    ∀ r m e, o = .ok (r, m, e) → e = .null

theorem Bounded.of {n n' len len' : Nat} {ec : EcArg} {s1 s : List Event} {o : Except Stop (Path × Code × EcArg)}
    {s' : List Event} (h : Bounded n' len' ec s1 o s')
    (hw : n + linkWeight s + len' ≤ n' + linkWeight s1 + len) : Bounded n len ec s o s' := by
  refine ⟨fun h' => ⟨(h.fine h').1, fun hf => ?_, (h.fine h').2.2⟩, h.throws⟩
  have := (h.fine h').2.1 hf
  omega

theorem Bounded.ret {n len : Nat} {ec : EcArg} {s s' : List Event} {r : Path} {m : Code} (hr : Made r)
    (hlt : (linkTexts s').length < 40) : Bounded n len ec s (.ok (r, m, ec)) s' := by
  refine ⟨fun _ => ⟨by simp, by simp, ?_⟩, fun he => ⟨by omega, by omega, ?_⟩⟩
  · rintro r m e ⟨⟩; exact hr
  · rintro r m e ⟨⟩; exact he

theorem Bounded.stop {n len : Nat} {ec : EcArg} {s s' : List Event} {x : FsError}
    (hlt : (linkTexts s').length < 40) : Bounded n len ec s (.error (.thrown x)) s' := by
  refine ⟨fun _ => ⟨by simp, by simp, ?_⟩, fun he => ⟨by omega, by omega, ?_⟩⟩ <;> rintro r m e ⟨⟩

theorem canonLoop_bounded (h : Handler) {root : Path} (hroot : Made root) : ∀ (n : Nat) (result : Path) (cmpts : List Path)
    (k : Int) (m : Code) (ec : EcArg) (s : List Event), Made result → k = 40 - ((linkTexts s).length : Int) →
    (linkTexts s).length < 40 →
    wp Tr (Bounded n cmpts.length ec s) (winCanonLoop false h root n result cmpts k m ec) s := by
  intro n
  induction n with
  | zero =>
    intro result cmpts k m ec s hr hk hlt
    match cmpts, m with
    | [], m => simp only [winCanonLoop, wp]; exact .ret hr hlt
    | c :: cs, some e => simp only [winCanonLoop, wp]; exact .ret hr hlt
    | c :: cs, none =>
      simp only [winCanonLoop, wp]
      refine ⟨fun _ => ⟨by simp, fun _ => by simp, ?_⟩, fun he => ⟨by omega, by omega, ?_⟩⟩ <;> rintro r m e ⟨⟩
  | succ n ih =>
    intro result cmpts k m ec s hr hk hlt
    match cmpts, m with
    | [], m => simp only [winCanonLoop, wp]; exact .ret hr hlt
    | c :: cs, some e => simp only [winCanonLoop, wp]; exact .ret hr hlt
    | c :: cs, none =>
      rw [winCanonLoop]
      have hlen : (c :: cs).length = cs.length + 1 := rfl
      split
      · exact wp_mono (fun o s' hb => hb.of (by omega)) (ih result cs k none ec s hr hk hlt)
      split
      · -- "."
        rintro bm _ rfl
        have hlt1 : linkTexts (s ++ [⟨.winTest .isDirectory result.pathname, bm⟩]) = linkTexts s := linkTexts_test _ _ _ _
        have hw := linkWeight_eq hlt1
        dsimp only
        split
        · match ec with
          | .null =>
            simp only [Handler.report, Prog.stop_bind, wp]
            exact .stop (by rw [hlt1]; exact hlt)
          | .ref c0 =>
            simp only [Handler.report, Prog.ret_bind]
            refine wp_mono (fun o s' hb => ?_) (ih result cs k bm.2 (.ref (some .ENOTDIR)) _ hr (by rw [hlt1]; exact hk) (by rw [hlt1]; exact hlt))
            have hb' := hb.of (n := n + 1) (s := s) (len := (c :: cs).length) (by omega)
            exact ⟨hb'.fine, by simp⟩
        · exact wp_mono (fun o s' hb => hb.of (by omega)) (ih result cs k bm.2 ec _ hr (by rw [hlt1]; exact hk) (by rw [hlt1]; exact hlt))
      split
      · obtain ⟨r, h1, h2⟩ := made_parent hr
        rw [h1, Prog.ofRes_ok, Prog.ret_bind]
        refine wp_mono (fun o s' hb => hb.of (by omega)) (ih _ cs k none ec s ?_ hk hlt)
        split
        · exact hroot
        · exact h2
      -- a name
      obtain ⟨r, h1, hr'⟩ := made_append hr (.inr ⟨_, rfl⟩ : Made (c.moved .windows))
      rw [h1, Prog.ofRes_ok, Prog.ret_bind]
      rintro bm _ rfl
      have hlt1 : linkTexts (s ++ [⟨.winTest .isSymlink r.pathname, bm⟩]) = linkTexts s := linkTexts_test _ _ _ _
      have hw := linkWeight_eq hlt1
      generalize s ++ [(⟨.winTest .isSymlink r.pathname, bm⟩ : Event)] = s1 at hlt1 hw
      dsimp only
      split
      rotate_left
      · exact wp_mono (fun o s' hb => hb.of (by omega)) (ih r cs k bm.2 ec _ hr' (by rw [hlt1]; exact hk) (by rw [hlt1]; exact hlt))
      rintro (e | l) _ rfl
      · have hlt2 := linkTexts_err s1 r.pathname e
        have hw2 := linkWeight_eq hlt2
        exact wp_mono (fun o s' hb => hb.of (by omega)) (ih r cs k (some e) ec _ hr' (by rw [hlt2, hlt1]; exact hk)
          (by rw [hlt2, hlt1]; exact hlt))
      have hlt2 := linkTexts_ok s1 r.pathname l
      have hw2 := linkWeight_ok s1 r.pathname l
      generalize s1 ++ [(⟨.winReadlink r.pathname, (.ok l : Except Errno Str)⟩ : Event)] = s2 at hlt2 hw2
      have hl2 : (linkTexts s2).length = (linkTexts s).length + 1 := by rw [hlt2, hlt1]; simp
      dsimp only
      rw [if_neg (by omega)]
      split
      · -- the fortieth
        have h40 : (linkTexts s2).length = 40 := by omega
        match ec with
        | .null =>
          simp only [Handler.report, Prog.stop_bind, wp]
          refine ⟨fun h' => by omega, fun _ => ⟨by omega, fun _ => ⟨_, rfl, error_code _ _ _⟩, ?_⟩⟩
          rintro r m e ⟨⟩
        | .ref c0 =>
          simp only [Handler.report, Prog.ret_bind]
          refine wp_tr_any _ _ fun o t => ⟨fun h' => ?_, by simp⟩
          rw [linkTexts_append, List.length_append] at h'
          omega
      · obtain ⟨b, hb⟩ : ∃ b, isAbsolute .windows (mkPath .windows l) = .ok b := ⟨_, win_isAbsolute l⟩
        rw [hb, Prog.ofRes_ok, Prog.ret_bind]
        split
        · obtain ⟨rel, hrel, _⟩ := win_relativePath l
          have := rel_length hrel
          rw [hrel, Prog.ofRes_ok, Prog.ret_bind]
          refine wp_mono (fun o s' hb => hb.of ?_) (ih _ (rel.elems ++ cs) (k - 1) none ec s2 (made_rootPath l) (by omega) (by omega))
          rw [List.length_append]
          omega
        · obtain ⟨par, h1, h2⟩ := made_parent hr'
          have := elems_length l
          rw [h1, Prog.ofRes_ok, Prog.ret_bind]
          refine wp_mono (fun o s' hb => hb.of ?_) (ih _ ((mkPath .windows l).elems ++ cs) (k - 1) none ec s2 h2 (by omega) (by omega))
          rw [List.length_append]
          omega

theorem report_bounded (h : Handler) (s : Str) (n : Nat) (ec e : EcArg) (hn : ec = .null → e = .null) (c : Code) (t : List Event)
    (hl : ec = .null → (linkTexts t).length < 40) :
    wp Tr (fun (o : Except Stop (Path × EcArg)) t =>
      ((linkTexts t).length < 40 → (∀ f, o ≠ .error (.fault f)) ∧ (s.length + 3 + linkWeight t ≤ n → o ≠ .error .fuel)) ∧
      (ec = .null → (linkTexts t).length ≤ 40 ∧
        ((linkTexts t).length = 40 → ∃ x, o = .error (.thrown x) ∧ x.code = some .ELOOP)))
      (h.report e c Path.default) t := by
  cases e with
  | null =>
    simp only [Handler.report, wp]
    refine ⟨fun _ => ⟨by simp, by simp⟩, fun h => ?_⟩
    have := hl h
    exact ⟨by omega, by omega⟩
  | ref c' =>
    simp only [Handler.report, wp]
    exact ⟨fun _ => ⟨by simp, by simp⟩, fun h => by cases hn h⟩

theorem canonical_bounded (n : Nat) (h : Handler) (s : Str) (ec : EcArg) :
    wp Tr (fun (o : Except Stop (Path × EcArg)) t =>
      ((linkTexts t).length < 40 → (∀ f, o ≠ .error (.fault f)) ∧ (s.length + 3 + linkWeight t ≤ n → o ≠ .error .fuel)) ∧
      (ec = .null → (linkTexts t).length ≤ 40 ∧
        ((linkTexts t).length = 40 → ∃ x, o = .error (.thrown x) ∧ x.code = some .ELOOP)))
      (winCanonical false n h (mkPath .windows s) ec) [] := by
  obtain ⟨rel, hrel, _⟩ := win_relativePath s
  have hlen := rel_length hrel
  rw [winCanonical, hrel, Prog.ofRes_ok, Prog.ret_bind]
  refine wp_bind (wp_mono ?_ (canonLoop_bounded h (made_rootPath s) n _ rel.elems 40 none ec [] (made_rootPath s) (by simp [linkTexts])
    (by simp [linkTexts])))
  rintro (x | ⟨r, m, e⟩) s' ⟨hf, ht⟩
  · refine ⟨fun hl => ?_, fun he => ?_⟩
    · obtain ⟨f1, f2, _⟩ := hf hl
      refine ⟨?_, ?_⟩
      · rintro f ⟨⟩; exact f1 f rfl
      · rintro hn ⟨⟩
        have := f2 rfl
        simp [linkWeight, linkTexts] at this hn
        omega
    · obtain ⟨t1, t2, _⟩ := ht he
      refine ⟨t1, fun h40 => ?_⟩
      obtain ⟨x, hx, hc⟩ := t2 h40
      cases hx
      exact ⟨_, rfl, hc⟩
  · have hl : ec = .null → (linkTexts s').length < 40 := by
      intro he
      obtain ⟨t1, t2, t3⟩ := ht he
      rcases Nat.lt_or_ge (linkTexts s').length 40 with hl | hl
      · exact hl
      · obtain ⟨x, hx, _⟩ := t2 (by omega)
        cases hx
    have hn : ec = .null → e = .null := fun he => (ht he).2.2 r m e rfl
    dsimp only
    split
    · exact report_bounded h s n ec e hn _ _ hl
    · rintro bm _ rfl
      have h1 := linkTexts_test s' .exists' r.pathname bm
      rw [← h1] at hl
      dsimp only
      split
      · exact report_bounded h s n ec e hn _ _ hl
      · simp only [wp]
        refine ⟨fun _ => ⟨by simp, by simp⟩, fun he => ?_⟩
        have := hl he
        exact ⟨by omega, by omega⟩

/-- **C60**, the throwing form: whatever the file system answers, at most 40 links are read; when 40 are read
`too_many_symbolic_link_levels` is thrown; no undefined operation is performed; and the loop takes no more rounds
than there are elements in the path and in the texts of the links read. -/
theorem c60_throwing (n : Nat) (h : Handler) (s : Str) (t : List Event) (o : Except Stop (Path × EcArg))
    (he : Exec (winCanonical false n h (mkPath .windows s) .null) t o) :
    (linkTexts t).length ≤ 40 ∧
    ((linkTexts t).length = 40 → ∃ x, o = .error (.thrown x) ∧ x.code = some .ELOOP) ∧
    (∀ f, o ≠ .error (.fault f)) ∧
    (s.length + 3 + linkWeight t ≤ n → o ≠ .error .fuel) := by
  obtain ⟨h1, h2⟩ := wp_tr (canonical_bounded n h s .null) he
  obtain ⟨h3, h4⟩ := h2 rfl
  refine ⟨h3, h4, ?_⟩
  rcases Nat.lt_or_ge (linkTexts t).length 40 with hl | hl
  · exact h1 hl
  · obtain ⟨x, rfl, _⟩ := h4 (by omega)
    exact ⟨by simp, by simp⟩

/-- **C60**, the throwing form terminates: if no link text is longer than `L` characters, a number of rounds known in
advance suffices. -/
theorem c60_terminates (L : Nat) (h : Handler) (s : Str) (t : List Event) (o : Except Stop (Path × EcArg))
    (he : Exec (winCanonical false (s.length + 3 + 40 * (L + 3)) h (mkPath .windows s) .null) t o)
    (hL : ∀ l ∈ linkTexts t, l.length ≤ L) : (∃ r, o = .ok r) ∨ ∃ x, o = .error (.thrown x) := by
  obtain ⟨h1, h2, h3, h4⟩ := c60_throwing _ h s t o he
  have hw : linkWeight t ≤ (linkTexts t).length * (L + 3) := by
    unfold linkWeight
    generalize linkTexts t = ls at hL
    induction ls with
    | nil => simp
    | cons l ls ih =>
      have := ih fun x hx => hL x (by simp [hx])
      have := hL l (by simp)
      simp only [List.map_cons, List.sum_cons, List.length_cons, Nat.add_mul]
      omega
  have : (linkTexts t).length * (L + 3) ≤ 40 * (L + 3) := Nat.mul_le_mul_right _ h1
  match o, h3, h4 (by omega) with
  | .ok r, _, _ => exact .inl ⟨r, rfl⟩
  | .error (.thrown x), _, _ => exact .inr ⟨x, rfl⟩
  | .error (.fault f), h3, _ => exact absurd rfl (h3 f)
  | .error .fuel, _, h4 => exact absurd rfl h4

/-- **C60**, the error code form, partial: the same as long as fewer than 40 links are read. With more it neither stops
at 40 nor needs to terminate (`c60_violated`). -/
theorem c60_error_code_partial (n : Nat) (h : Handler) (s : Str) (c : Code) (t : List Event)
    (o : Except Stop (Path × EcArg)) (he : Exec (winCanonical false n h (mkPath .windows s) (.ref c)) t o)
    (hl : (linkTexts t).length < 40) :
    (∀ f, o ≠ .error (.fault f)) ∧ (s.length + 3 + linkWeight t ≤ n → o ≠ .error .fuel) :=
  (wp_tr (canonical_bounded n h s (.ref c)) he).1 hl

/-! ## The result -/

theorem win_pathname_named {u : Str} (h : winNames (winTail u) ≠ []) : (mkPath .windows u).pathname = u := by
  rw [win_pathname, winStoredRoot, if_neg (by simp [h]), (winStoredRest_facts u).2.2 h]
  exact List.take_append_drop _ _

/-- Parsing the stored text again. -/
theorem win_stored_facts (s : Str) : winRootName (mkPath .windows s).pathname = winRootName s ∧
    winRootLen (mkPath .windows s).pathname = winRootLen s ∧ winHasDir (mkPath .windows s).pathname = winHasDir s ∧
    winNames (winTail (mkPath .windows s).pathname) = winNames (winTail s) := by
  obtain ⟨r1, r2, r3⟩ := winStoredRoot_facts s
  obtain ⟨q1, q2, _⟩ := winStoredRest_facts s
  have hlen : winRootLen (winStoredRoot s ++ winStoredRest s) = (winStoredRoot s).length := by
    by_cases hz : winRootLen s = 0
    · have h0 : winStoredRoot s = [] := by rw [← List.length_eq_zero_iff, r2, hz]
      rw [h0, List.nil_append, List.length_nil, winStoredRest]
      split
      · rfl
      · rw [winTail_of_zero hz]; exact hz
    · apply (r3 hz).len
      rw [winStoredRest, if_neg (by simp [hz])]
      rcases (isRoot_take hz).2 with h | h
      · left; rw [r2, h]
      · exact .inr h
  obtain ⟨p1, p2, p3, _⟩ := parts_facts hlen
  rw [win_pathname]
  exact ⟨p2.trans r1, hlen.trans r2, p3.trans q2, by rw [p1, q1]⟩

theorem winElements_stored (s : Str) : winElements (mkPath .windows s).pathname = winElements s := by
  by_cases hn : winNames (winTail s) = []
  rotate_left
  · rw [win_pathname_named hn]
  obtain ⟨h1, h2, h3, h4⟩ := win_stored_facts s
  rw [winElements, winElements, h1, h2, h3, h4, hn]
  simp

/-- **C57**: an object and its move-constructed copy (which parses the stored text again) have the same elements. -/
theorem c57_reparse (s : Str) : ((mkPath .windows s).moved .windows).names = (mkPath .windows s).names := by
  rw [Path.moved, win_names, win_names, winElements_stored]

example : (mkPath .windows "//h".toList).pathname = "\\\\h".toList := by decide

theorem mem_winNames {c : Char} {x : Str} (hc : c ∈ x) (h : winSep c = false) : ∃ w ∈ winNames x, c ∈ w := by
  induction x using win_induction with
  | h0 w hw =>
    have : w ≠ [] := by rintro rfl; cases hc
    exact ⟨w, by rw [winNames_noSep hw, if_neg this]; simp, hc⟩
  | h1 w d b hw hd ih =>
    rw [winNames_seg b hw hd]
    rcases List.mem_append.mp hc with hc | hc
    · have : w ≠ [] := by rintro rfl; cases hc
      exact ⟨w, by rw [if_neg this]; simp, hc⟩
    · rcases List.mem_cons.mp hc with rfl | hc
      · rw [hd] at h; cases h
      · obtain ⟨v, h1, h2⟩ := ih hc
        exact ⟨v, by simp [h1], h2⟩

theorem plain_of_names {x : Str} (h : ∀ w ∈ winNames x, ':' ∉ w) : ∀ w ∈ winNames x, PlainName w := fun w hw => by
  have := winNames_mem hw
  exact ⟨this.1, this.2, h w hw⟩

theorem winRelative_zero {s : Str} (h : ∀ w ∈ winNames (winTail s), ':' ∉ w) : winRootLen (winRelative s) = 0 := by
  have hnm : winNames (winRelative s) = winNames (winTail s) := winNames_dropWhile _
  have hst := winRelative_start s
  rw [← hnm] at h
  generalize winRelative s = x at h hst
  have hcol : ':' ∉ x := by
    intro hc
    obtain ⟨w, h1, h2⟩ := mem_winNames hc (by rfl)
    exact h w h1 h2
  match x with
  | [] => rfl
  | [_] => rfl
  | [a, b] =>
    have : b ≠ ':' := by rintro rfl; exact hcol (by simp)
    simp [winRootLen, this]
  | a :: b :: c :: r =>
    have : b ≠ ':' := by rintro rfl; exact hcol (by simp)
    have h4 := hst a rfl
    simp [winRootLen, this, h4]

/-- The elements put into the queue. -/
theorem rel_plain {s : Str} (h : ∀ w ∈ winNames (winTail s), ':' ∉ w) {q : Path}
    (hq : relativePath .windows (mkPath .windows s) = .ok q) : ∀ f ∈ q.elems, f.pathname = [] ∨ PlainName f.pathname := by
  obtain ⟨q', h1, h2⟩ := win_relativePath s
  rw [h1] at hq
  cases hq
  intro f hf
  rcases h2 with rfl | ⟨rfl, _⟩
  · have hm : f.pathname ∈ (mkPath .windows (winRelative s)).names := List.mem_map_of_mem hf
    rw [win_names, winElements_relative (winRelative_zero h)] at hm
    rcases List.mem_append.mp hm with hm | hm
    · exact .inr (plain_of_names h _ hm)
    · split at hm
      · simp at hm; exact .inl hm
      · cases hm
  · simp [Path.elems, Path.default] at hf

theorem link_plain {s : Str} (h : ∀ w ∈ winNames (winTail s), ':' ∉ w) (hz : winRootLen s = 0) (hd : winHasDir s = false) :
    ∀ f ∈ (mkPath .windows s).elems, f.pathname = [] ∨ PlainName f.pathname := by
  intro f hf
  have hm : f.pathname ∈ (mkPath .windows s).names := List.mem_map_of_mem hf
  rw [win_names, winElements, if_pos hz, hd] at hm
  simp only [Bool.false_eq_true, if_false, List.nil_append] at hm
  rcases List.mem_append.mp hm with hm | hm
  · exact .inr (plain_of_names h _ hm)
  · split at hm
    · simp at hm; exact .inl hm
    · cases hm

/-- The elements of the root. -/
def rootPre (u : Str) : List Str := (if winRootLen u = 0 then [] else [winRootName u]) ++ [['\\']]

/-- What the loop knows about `result`. -/
structure Known (t : List Event) (u : Str) : Prop where
  rooted : winHasDir u = true ∨ winUnc u = true ∧ winNames (winTail u) = []
  plain : ∀ w ∈ winNames (winTail u), PlainName w ∧ w ≠ ['.'] ∧ w ≠ ['.', '.']
  ends : winEndsSep u = true → winNames (winTail u) = []
  seen : ∀ i, i < (winNames (winTail u)).length → ∃ x,
    (⟨.winTest .isSymlink x, (false, none)⟩ : Event) ∈ t ∧ winElements x = rootPre u ++ (winNames (winTail u)).take (i + 1)

theorem Known.mono {t t' : List Event} {u : Str} (h : Known t u) (ht : ∀ e ∈ t, e ∈ t') : Known t' u :=
  ⟨h.rooted, h.plain, h.ends, fun i hi => by
    obtain ⟨x, h1, h2⟩ := h.seen i hi
    exact ⟨x, ht _ h1, h2⟩⟩

theorem Known.snoc {t : List Event} {u : Str} (h : Known t u) (e : Event) : Known (t ++ [e]) u :=
  h.mono fun x hx => by simp [hx]

theorem winRootPath_facts (s : Str) : winRootName (winRootPath s) = winRootName s ∧ winHasDir (winRootPath s) = winHasDir s ∧
    winNames (winTail (winRootPath s)) = [] ∧ winRootLen (winRootPath s) = winRootLen s := by
  have hlen : winRootLen (winRootPath s) = (winRootName s).length := by
    rw [winRootPath]
    by_cases hz : winRootLen s = 0
    · rw [(winRootName_nil s).mpr hz]
      split <;> rfl
    · apply (isRoot_take hz).1.prefer.len
      right
      intro c hc
      split at hc
      · simp at hc; subst hc; rfl
      · cases hc
  have hl2 := hlen
  rw [winRootName_length] at hl2
  unfold winRootPath at hlen ⊢
  obtain ⟨p1, p2, p3, _⟩ := parts_facts hlen
  refine ⟨p2.trans (winPrefer_idem _), ?_, ?_, hl2⟩
  · rw [p3]
    cases winHasDir s <;> rfl
  · rw [p1]
    split <;> rfl

theorem known_root {s : Str} (t : List Event) (h : winHasDir s = true ∨ winUnc s = true) :
    ∃ u, rootPath .windows (mkPath .windows s) = mkPath .windows u ∧ Known t u := by
  obtain ⟨f1, f2, f3, f4⟩ := winRootPath_facts s
  refine ⟨winRootPath s, ?_, ?_⟩
  · rcases win_rootPath s with hr | ⟨_, hr⟩
    · exact hr
    · rw [hr] at f2 f4
      rcases h with h | h
      · rw [h] at f2; cases f2
      · rw [winUnc, ← f4] at h; cases h
  · refine ⟨?_, by simp [f3], fun _ => f3, by simp [f3]⟩
    rcases h with h | h
    · exact .inl (f2.trans h)
    · refine .inr ⟨?_, f3⟩
      rw [winUnc, f4]
      exact h

theorem rootPre_eq {u v : Str} (h : winRootName u = winRootName v) : rootPre u = rootPre v := by
  have h1 := winRootName_length u
  have h2 := winRootName_length v
  rw [rootPre, rootPre, h, ← h1, ← h2, h]

/-- The parent. -/
theorem Known.parent {t : List Event} {u : Str} (h : Known t u) :
    ∃ v, parentPath .windows false (mkPath .windows u) = .ok (mkPath .windows v) ∧ Known t v := by
  by_cases hn : winNames (winTail u) = []
  · exact ⟨u, win_parent_root false hn, h⟩
  · have hd : winHasDir u = true := by
      rcases h.rooted with h | ⟨_, h⟩
      · exact h
      · exact absurd h hn
    obtain ⟨v, h1, h2, h3, h4, h5⟩ := win_parent hd hn (fun w hw => (h.plain w hw).1)
    refine ⟨v, h1, .inl h3, ?_, h5, ?_⟩
    · rw [h4]; exact fun w hw => h.plain w (List.dropLast_subset _ hw)
    · rw [h4, rootPre_eq h2]
      intro i hi
      rw [List.length_dropLast] at hi
      obtain ⟨x, h6, h7⟩ := h.seen i (by omega)
      refine ⟨x, h6, h7.trans ?_⟩
      rw [List.dropLast_eq_take, List.take_take, Nat.min_eq_left (by omega)]

/-- Appending a name that is found not to be a link. -/
theorem Known.name {t : List Event} {u w : Str} (h : Known t u) (hw : PlainName w) (h1 : w ≠ ['.']) (h2 : w ≠ ['.', '.'])
    (hs : (⟨.winTest .isSymlink (mkPath .windows (winAppendText u w)).pathname, (false, none)⟩ : Event) ∈ t) :
    Known t (winAppendText u w) := by
  obtain ⟨_, a1, a2, a3, a4, a5⟩ := win_append_plain u hw
  have hd : winHasDir (winAppendText u w) = true := by
    rw [a3, decide_eq_true_eq]
    rcases h.rooted with h | h
    · exact .inl h
    · exact .inr h.1
  refine ⟨.inl hd, ?_, by simp [a5], ?_⟩
  · rw [a4]
    intro x hx
    rcases List.mem_append.mp hx with hx | hx
    · exact h.plain x hx
    · simp at hx; subst hx; exact ⟨hw, h1, h2⟩
  · intro i hi
    rw [a4, List.length_append] at hi
    simp only [List.length_singleton] at hi
    by_cases hlt : i < (winNames (winTail u)).length
    · obtain ⟨x, q1, q2⟩ := h.seen i hlt
      refine ⟨x, q1, q2.trans ?_⟩
      rw [a4, rootPre_eq a1, List.take_append_of_le_length (by omega)]
    · have hi' : i = (winNames (winTail u)).length := by omega
      refine ⟨_, hs, ?_⟩
      rw [winElements_stored, winElements, hd, a5, List.take_of_length_le (by rw [a4]; simp; omega)]
      simp [rootPre]

/-- After the append `..` goes back whatever was found. -/
theorem parent_of_name {t : List Event} {u w : Str} (h : Known t u) (hw : PlainName w) :
    ∃ v, parentPath .windows false (mkPath .windows (winAppendText u w)) = .ok (mkPath .windows v) ∧ Known t v := by
  obtain ⟨_, a1, a2, a3, a4, a5⟩ := win_append_plain u hw
  have hd : winHasDir (winAppendText u w) = true := by
    rw [a3, decide_eq_true_eq]
    rcases h.rooted with h | h
    · exact .inl h
    · exact .inr h.1
  have hp : ∀ x ∈ winNames (winTail (winAppendText u w)), PlainName x := by
    rw [a4]
    intro x hx
    rcases List.mem_append.mp hx with hx | hx
    · exact (h.plain x hx).1
    · simp at hx; subst hx; exact hw
  obtain ⟨v, h1, h2, h3, h4, h5⟩ := win_parent hd (by rw [a4]; simp) hp
  rw [a4, List.dropLast_concat] at h4
  refine ⟨v, h1, .inl h3, ?_, h5, ?_⟩
  · rw [h4]; exact h.plain
  · rw [h4, rootPre_eq (h2.trans a1)]; exact h.seen

/-- Outcome of the loop. -/
def Resolved (o : Except Stop (Path × Code × EcArg)) (s' : List Event) : Prop :=
  (linkTexts s').length < 40 → (∀ l ∈ linkTexts s', winSimple l) → ∀ r e, o = .ok (r, none, e) →
    ∃ u, r = mkPath .windows u ∧ Known s' u

theorem canonLoop_resolved (h : Handler) {root : Path} (hroot : ∀ t, ∃ u, root = mkPath .windows u ∧ Known t u) :
    ∀ (n : Nat) (result : Path) (cmpts : List Path) (k : Int) (m : Code) (ec : EcArg) (s : List Event),
    (m = none → ∃ u, result = mkPath .windows u ∧ Known s u) →
    (∀ f ∈ cmpts, f.pathname = [] ∨ PlainName f.pathname) → k = 40 - ((linkTexts s).length : Int) →
    (linkTexts s).length < 40 →
    wp Tr Resolved (winCanonLoop false h root n result cmpts k m ec) s := by
  intro n
  induction n with
  | zero =>
    intro result cmpts k m ec s hr hc hk hlt
    match cmpts, m with
    | [], m => simp only [winCanonLoop, wp]; rintro _ _ r e ⟨⟩; exact hr rfl
    | c :: cs, some e => simp only [winCanonLoop, wp]; rintro _ _ r e ⟨⟩
    | c :: cs, none => simp only [winCanonLoop, wp]; rintro _ _ r e ⟨⟩
  | succ n ih =>
    intro result cmpts k m ec s hr hc hk hlt
    match cmpts, m with
    | [], m => simp only [winCanonLoop, wp]; rintro _ _ r e ⟨⟩; exact hr rfl
    | c :: cs, some e => simp only [winCanonLoop, wp]; rintro _ _ r e ⟨⟩
    | c :: cs, none =>
      rw [winCanonLoop]
      obtain ⟨u, rfl, hu⟩ := hr rfl
      have hcs : ∀ f ∈ cs, f.pathname = [] ∨ PlainName f.pathname := fun f hf => hc f (by simp [hf])
      have hpn : (c.moved .windows).pathname = c.pathname := by
        rcases hc c (by simp) with h0 | h0
        · rw [Path.moved, h0]; rfl
        · exact win_pathname_rel fun x hx => h0.2.1 x (List.mem_of_head? hx)
      split
      · exact ih _ cs k none ec s (fun _ => ⟨u, rfl, hu⟩) hcs hk hlt
      rename_i hne
      split
      · rintro bm _ rfl
        have hlt1 : linkTexts (s ++ [⟨.winTest .isDirectory (mkPath .windows u).pathname, bm⟩]) = linkTexts s := linkTexts_test _ _ _ _
        dsimp only
        split
        · match ec with
          | .null => simp only [Handler.report, Prog.stop_bind, wp]; rintro _ _ r e ⟨⟩
          | .ref c0 =>
            simp only [Handler.report, Prog.ret_bind]
            exact ih _ cs k bm.2 _ _ (fun _ => ⟨u, rfl, hu.snoc _⟩) hcs (by rw [hlt1]; exact hk) (by rw [hlt1]; exact hlt)
        · exact ih _ cs k bm.2 _ _ (fun _ => ⟨u, rfl, hu.snoc _⟩) hcs (by rw [hlt1]; exact hk) (by rw [hlt1]; exact hlt)
      rename_i hdot
      split
      · obtain ⟨v, h1, h2⟩ := hu.parent
        rw [h1, Prog.ofRes_ok, Prog.ret_bind]
        refine ih _ cs k none ec s ?_ hcs hk hlt
        intro _
        split
        · exact hroot s
        · exact ⟨v, rfl, h2⟩
      rename_i hddot
      -- a name
      have hw : PlainName c.pathname := by
        rcases hc c (by simp) with h0 | h0
        · exfalso; apply hne; rw [Path.isEmpty, hpn, h0]; rfl
        · exact h0
      rw [hpn] at hdot hddot
      have hd1 : c.pathname ≠ ['.'] := by intro h0; rw [h0] at hdot; exact hdot rfl
      have hd2 : c.pathname ≠ ['.', '.'] := by intro h0; rw [h0] at hddot; exact hddot rfl
      have ha := (win_append_plain u hw).1
      rw [show c.moved .windows = mkPath .windows c.pathname from rfl, ha, Prog.ofRes_ok, Prog.ret_bind]
      rintro ⟨b, m⟩ _ rfl
      have hlt1 := linkTexts_test s .isSymlink (mkPath .windows (winAppendText u c.pathname)).pathname (b, m)
      dsimp only
      split
      rotate_left
      · rename_i hb
        refine ih _ cs k m ec _ ?_ hcs (by rw [hlt1]; exact hk) (by rw [hlt1]; exact hlt)
        rintro rfl
        rw [Bool.not_eq_true] at hb
        subst hb
        exact ⟨_, rfl, (hu.snoc _).name hw hd1 hd2 (by simp)⟩
      have hu1 := hu.snoc (⟨.winTest .isSymlink (mkPath .windows (winAppendText u c.pathname)).pathname, (b, m)⟩ : Event)
      generalize s ++ [(⟨.winTest .isSymlink (mkPath .windows (winAppendText u c.pathname)).pathname, (b, m)⟩ : Event)] = s1 at hlt1 hu1
      rintro (e | l) _ rfl
      · have hlt2 := linkTexts_err s1 (mkPath .windows (winAppendText u c.pathname)).pathname e
        exact ih _ cs k (some e) ec _ (fun h => by cases h) hcs (by rw [hlt2, hlt1]; exact hk) (by rw [hlt2, hlt1]; exact hlt)
      have hlt2 := linkTexts_ok s1 (mkPath .windows (winAppendText u c.pathname)).pathname l
      have hu2 := hu1.snoc (⟨.winReadlink (mkPath .windows (winAppendText u c.pathname)).pathname, (.ok l : Except Errno Str)⟩ : Event)
      generalize s1 ++ [(⟨.winReadlink (mkPath .windows (winAppendText u c.pathname)).pathname, (.ok l : Except Errno Str)⟩ : Event)] = s2 at hlt2 hu2
      have hl2 : (linkTexts s2).length = (linkTexts s).length + 1 := by rw [hlt2, hlt1]; simp
      dsimp only
      rw [if_neg (by omega)]
      split
      · have h40 : (linkTexts s2).length = 40 := by omega
        refine wp_tr_any _ _ fun o t h' => ?_
        rw [linkTexts_append, List.length_append] at h'
        omega
      by_cases hsim : winSimple l
      rotate_left
      · refine wp_tr_any _ _ fun o t _ h' => ?_
        exact absurd (h' l (by rw [linkTexts_append, hlt2]; simp)) hsim
      obtain ⟨hs1, hs2⟩ := hsim
      rw [win_isAbsolute, Prog.ofRes_ok, Prog.ret_bind]
      split
      · rename_i habs
        obtain ⟨rel, hrel, _⟩ := win_relativePath l
        rw [hrel, Prog.ofRes_ok, Prog.ret_bind]
        refine ih _ _ (k - 1) none ec s2 (fun _ => known_root s2 ?_) ?_ (by omega) (by omega)
        · rw [Bool.or_eq_true] at habs; exact habs.symm
        · intro f hf
          rcases List.mem_append.mp hf with hf | hf
          · exact rel_plain hs2 hrel f hf
          · exact hcs f hf
      · rename_i habs
        rw [Bool.or_eq_true, not_or, Bool.not_eq_true, Bool.not_eq_true] at habs
        obtain ⟨v, h1, h2⟩ := parent_of_name hu2 hw
        rw [h1, Prog.ofRes_ok, Prog.ret_bind]
        refine ih _ _ (k - 1) none ec s2 (fun _ => ⟨v, rfl, h2⟩) ?_ (by omega) (by omega)
        intro f hf
        rcases List.mem_append.mp hf with hf | hf
        · refine link_plain hs2 ?_ habs.2 f hf
          rcases hs1 with h | h | h
          · exact h
          · rw [habs.2] at h; cases h
          · rw [habs.1] at h; cases h
        · exact hcs f hf

/-- **C60**, partial: what is returned is a root followed by names other than `.` and `..`; each initial part was
asked for and is not a link, and the whole exists. Missing: paths and links with a colon in a name, and links
relative to the current directory of a drive; in the error code form, 40 links or more (see `c60_violated`). -/
theorem c60_result_partial (n : Nat) (h : Handler) (s : Str) (ec e : EcArg) (t : List Event) (r : Path)
    (hs : winRooted s) (hl : ec = .null ∨ (linkTexts t).length < 40) (hlinks : ∀ l ∈ linkTexts t, winSimple l)
    (he : Exec (winCanonical false n h (mkPath .windows s) ec) t (.ok (r, e))) :
    (r = .default ∧ e = .ref (some .ENOENT)) ∨
    ∃ root ns, r.names = root ++ ns ∧ root = (rootPath .windows r).names ∧ root ≠ [] ∧
      (∀ w ∈ ns, w ≠ [] ∧ w ≠ ['.'] ∧ w ≠ ['.', '.']) ∧
      (∀ i, i < ns.length → ∃ x, (⟨.winTest .isSymlink x, (false, none)⟩ : Event) ∈ t ∧
        winElements x = root ++ ns.take (i + 1)) ∧
      ∃ x m, (⟨.winTest .exists' x, (true, m)⟩ : Event) ∈ t ∧ winElements x = r.names := by
  have hl' : (linkTexts t).length < 40 := by
    rcases hl with rfl | hl
    · obtain ⟨h1, h2, _⟩ := c60_throwing n h s t _ he
      rcases Nat.lt_or_ge (linkTexts t).length 40 with h3 | h3
      · exact h3
      · obtain ⟨x, hx, _⟩ := h2 (by omega)
        cases hx
    · exact hl
  have key : wp Tr (fun (o : Except Stop (Path × EcArg)) t => (linkTexts t).length < 40 → (∀ l ∈ linkTexts t, winSimple l) →
      ∀ r e, o = .ok (r, e) → (r = .default ∧ e = .ref (some .ENOENT)) ∨ ∃ u, r = (mkPath .windows u).moved .windows ∧ Known t u ∧
        ∃ m, (⟨.winTest .exists' (mkPath .windows u).pathname, (true, m)⟩ : Event) ∈ t)
      (winCanonical false n h (mkPath .windows s) ec) [] := by
    have hrep : ∀ (e : EcArg) (t : List Event), wp Tr (fun (o : Except Stop (Path × EcArg)) t => (linkTexts t).length < 40 →
        (∀ l ∈ linkTexts t, winSimple l) → ∀ r e, o = .ok (r, e) → (r = .default ∧ e = .ref (some .ENOENT)) ∨
        ∃ u, r = (mkPath .windows u).moved .windows ∧ Known t u ∧
        ∃ m, (⟨.winTest .exists' (mkPath .windows u).pathname, (true, m)⟩ : Event) ∈ t)
        (h.report e (some .ENOENT) Path.default) t := by
      intro e t
      cases e with
      | null => simp only [Handler.report, wp]; rintro _ _ r e ⟨⟩
      | ref c => simp only [Handler.report, wp]; rintro _ _ r e ⟨⟩; exact .inl ⟨rfl, rfl⟩
    obtain ⟨rel, hrel, _⟩ := win_relativePath s
    rw [winCanonical, hrel, Prog.ofRes_ok, Prog.ret_bind]
    refine wp_bind (wp_mono ?_ (canonLoop_resolved h (fun t => known_root t hs.1) n _ rel.elems 40 none ec []
      (fun _ => known_root [] hs.1) (rel_plain hs.2 hrel) (by simp [linkTexts]) (by simp [linkTexts])))
    rintro (x | ⟨r, m, e⟩) s' hres
    · rintro _ _ r e ⟨⟩
    dsimp only
    split
    · exact hrep e s'
    rename_i hm
    have hm : m = none := Classical.byContradiction hm
    subst hm
    rintro ⟨b, m⟩ _ rfl
    dsimp only
    split
    · exact hrep _ _
    rename_i hb
    have hb : b = true := by simpa using hb
    subst hb
    have h1 := linkTexts_test s' .exists' r.pathname (true, m)
    simp only [wp]
    rw [h1]
    rintro q1 q2 r' e' ⟨⟩
    obtain ⟨u, rfl, hu⟩ := hres q1 q2 r e rfl
    refine .inr ⟨u, by simp [returned], hu.snoc _, m, by simp⟩
  rcases wp_tr key he hl' hlinks r e rfl with h1 | ⟨u, rfl, hu, m, hm⟩
  · exact .inl h1
  · right
    have hst := winElements_stored u
    have hnames : ((mkPath .windows u).moved .windows).names = winElements u := by
      rw [Path.moved, win_names, hst]
    -- the root of the result
    have hroot : (rootPath .windows ((mkPath .windows u).moved .windows)).names =
        (if winRootLen u = 0 then [] else [winRootName u]) ++ (if winHasDir u then [['\\']] else []) := by
      obtain ⟨f1, _, f3, _⟩ := win_stored_facts u
      rw [Path.moved, (c57_decompose _).2.2.2.1, f1, f3]
      have h0 := winRootName_nil u
      congr 1
      · rw [winOne]
        by_cases hz : winRootLen u = 0
        · rw [if_pos hz, if_pos (h0.mpr hz)]
        · rw [if_neg hz, if_neg (fun h => hz (h0.mp h))]
      · cases winHasDir u <;> rfl
    refine ⟨_, winNames (winTail u), ?_, hroot.symm, ?_, ?_, ?_, ?_⟩
    · rw [hnames, winElements]
      have : ¬ (winEndsSep u = true ∧ winNames (winTail u) ≠ []) := fun h => h.2 (hu.ends h.1)
      rw [if_neg this, List.append_nil]
    · rcases hu.rooted with h | ⟨h, _⟩
      · simp [h]
      · have : winRootLen u ≠ 0 := by intro h0; rw [winUnc, h0] at h; cases h
        simp [this]
    · exact fun w hw => ⟨(hu.plain w hw).1.1, (hu.plain w hw).2⟩
    · intro i hi
      obtain ⟨x, h1, h2⟩ := hu.seen i hi
      refine ⟨x, h1, h2.trans ?_⟩
      have hd : winHasDir u = true := by
        rcases hu.rooted with h | ⟨_, h⟩
        · exact h
        · rw [h] at hi; cases hi
      rw [hd]; rfl
    · exact ⟨_, m, hm, hst.trans hnames.symm⟩

/-- `C:\\l\\.` where `l` is a link to `d\\x`. -/
def sampleTrace : List Event :=
  [⟨.winTest .isSymlink "C:\\l".toList, (true, none)⟩, ⟨.winReadlink "C:\\l".toList, (.ok "d\\x".toList : Except Errno Str)⟩,
   ⟨.winTest .isSymlink "C:\\d".toList, (false, none)⟩, ⟨.winTest .isSymlink "C:\\d\\x".toList, (false, none)⟩,
   ⟨.winTest .isDirectory "C:\\d\\x".toList, (true, none)⟩, ⟨.winTest .exists' "C:\\d\\x".toList, (true, none)⟩]

/-- The hypotheses of `c60_result_partial` can be met. -/
example : winRooted "C:\\l\\.".toList ∧ (linkTexts sampleTrace).length < 40 ∧ (∀ l ∈ linkTexts sampleTrace, winSimple l) ∧
    ∃ r e, Exec (winCanonical false 100 ⟨[], none, none⟩ (mkPath .windows "C:\\l\\.".toList) .null) sampleTrace (.ok (r, e)) ∧
      r.names = ["C:".toList, "\\".toList, "d".toList, "x".toList] := by
  refine ⟨⟨by decide, by decide⟩, by decide, ?_, mkPath .windows "C:\\d\\x".toList, .null, ?_, by decide⟩
  · intro l hl
    have : "d\\x".toList = l := by simpa [linkTexts, linkText, sampleTrace] using hl
    subst this
    exact ⟨by decide, by decide⟩
  · exact feed_exec (by rfl)

/-! ## Endless expansion -/

namespace Spec

/-- A file system with one link, `C:\\a`, whose text is `a\\..\\a`. -/
def winLoop : Event → Prop
  | ⟨.winTest .isSymlink p, r⟩ => (r : Bool × Code) = (decide (p = "C:\\a".toList), none)
  | ⟨.winReadlink p, r⟩ => (r : Except Errno Str) = if p = "C:\\a".toList then .ok "a\\..\\a".toList else .error .EINVAL
  | _ => True

end Spec

/-- `n` times `..` and `a`. -/
def upDown : Nat → List Path
  | 0 => []
  | n + 1 => mkPath .windows "..".toList :: mkPath .windows "a".toList :: upDown n

/-- Outcomes of the expansion. -/
def Endless {α : Type} (ec : EcArg) (o : Except Stop α) : Prop :=
  o = .error .fuel ∨ o = .error (.fault .ub) ∨ (ec = .null ∧ ∃ x, o = .error (.thrown x) ∧ x.code = some .ELOOP)

theorem canonLoop_endless (el : Bool) (h : Handler) (root : Path) : ∀ (n j : Nat) (k : Int) (ec : EcArg),
    (k > 0 → (j : Int) = 40 - k) →
    wp (Each winLoop) (fun o _ => Endless ec o) (winCanonLoop el h root n (mkPath .windows "C:\\".toList)
      (mkPath .windows "a".toList :: upDown j) k none ec) () := by
  intro n
  induction n using Nat.strongRecOn with
  | ind n ih =>
    intro j k ec hk
    cases n with
    | zero => simp only [winCanonLoop, wp]; exact .inl rfl
    | succ n =>
      rw [winCanonLoop]
      rw [if_neg (by decide), if_neg (by decide), if_neg (by decide)]
      rw [show append .windows (mkPath .windows "C:\\".toList) ((mkPath .windows "a".toList).moved .windows) =
        .ok (mkPath .windows "C:\\a".toList) by decide +kernel, Prog.ofRes_ok, Prog.ret_bind,
        show (mkPath .windows "C:\\a".toList).pathname = "C:\\a".toList by decide +kernel]
      intro bm _ hbm
      have hbm : bm = (true, none) := hbm
      subst hbm
      dsimp only
      rw [if_pos rfl]
      intro l _ hl
      have hl : l = (.ok "a\\..\\a".toList : Except Errno Str) := hl
      subst hl
      dsimp only
      split
      · simp only [wp]; exact .inr (.inl rfl)
      rename_i hmin
      have hpar : parentPath .windows el (mkPath .windows "C:\\a".toList) = .ok (mkPath .windows "C:\\".toList) := by
        cases el <;> decide +kernel
      split
      · rename_i hk0
        have hj : j = 39 := by omega
        subst hj
        match ec with
        | .null =>
          simp only [Handler.report, Prog.stop_bind, wp]
          exact .inr (.inr ⟨rfl, _, rfl, error_code _ _ _⟩)
        | .ref c0 =>
          simp only [Handler.report, Prog.ret_bind]
          rw [show upDown 39 = mkPath .windows "..".toList :: mkPath .windows "a".toList :: upDown 38 from rfl]
          cases n with
          | zero => simp only [winCanonLoop, wp]; exact .inl rfl
          | succ n =>
            rw [winCanonLoop]
            rw [if_neg (by decide), if_neg (by decide), if_pos (by decide), hpar, Prog.ofRes_ok, Prog.ret_bind,
              if_neg (by decide)]
            refine wp_mono (fun o _ ho => ?_) (ih n (by omega) 38 (k - 1) (.ref (some .ELOOP)) (by omega))
            rcases ho with ho | ho | ⟨ho, _⟩
            · exact .inl ho
            · exact .inr (.inl ho)
            · cases ho
      · rw [show isAbsolute .windows (mkPath .windows "a\\..\\a".toList) = .ok false by decide +kernel, Prog.ofRes_ok, Prog.ret_bind,
          if_neg (by simp), hpar, Prog.ofRes_ok, Prog.ret_bind,
          show (mkPath .windows "a\\..\\a".toList).elems = [mkPath .windows "a".toList, mkPath .windows "..".toList,
            mkPath .windows "a".toList] by decide +kernel]
        exact ih n (by omega) (j + 1) (k - 1) ec (by omega)

theorem canonical_endless (el : Bool) (n : Nat) (h : Handler) (ec : EcArg) (t : List Event)
    (o : Except Stop (Path × EcArg)) (he : Exec (winCanonical el n h (mkPath .windows "C:\\a".toList) ec) t o)
    (hw : ∀ e ∈ t, winLoop e) : Endless ec o := by
  have key : wp (Each winLoop) (fun o _ => Endless ec o) (winCanonical el n h (mkPath .windows "C:\\a".toList) ec) () := by
    rw [winCanonical, show relativePath .windows (mkPath .windows "C:\\a".toList) = .ok (mkPath .windows "a".toList) by decide +kernel,
      Prog.ofRes_ok, Prog.ret_bind, show rootPath .windows (mkPath .windows "C:\\a".toList) = mkPath .windows "C:\\".toList by decide +kernel,
      show (mkPath .windows "a".toList).elems = [mkPath .windows "a".toList] by decide +kernel]
    refine wp_bind (wp_mono ?_ (canonLoop_endless el h (mkPath .windows "C:\\".toList) n 0 40 ec (by simp)))
    rintro o _ (rfl | rfl | ⟨rfl, x, rfl, hx⟩)
    · exact .inl rfl
    · exact .inr (.inl rfl)
    · exact .inr (.inr ⟨rfl, x, rfl, hx⟩)
  exact wp_sound key he (steps_each hw)

/-- **C60**, the throwing form reports the cycle. -/
theorem c60_cycle_reported (h : Handler) (t : List Event) (o : Except Stop (Path × EcArg))
    (he : Exec (winCanonical false (4 + 3 + 40 * (6 + 3)) h (mkPath .windows "C:\\a".toList) .null) t o)
    (hw : ∀ e ∈ t, winLoop e) : ∃ x, o = .error (.thrown x) ∧ x.code = some .ELOOP := by
  rcases canonical_endless false _ h .null t o he hw with rfl | rfl | ⟨_, h1⟩
  · have hL : ∀ l ∈ linkTexts t, l.length ≤ 6 := by
      intro l hl
      obtain ⟨e, he, hel⟩ := List.mem_filterMap.mp hl
      have hwe := hw e he
      match e, hel, hwe with
      | ⟨.winReadlink p, r⟩, hel, hwe =>
        have hwe : (r : Except Errno Str) = if p = "C:\\a".toList then .ok "a\\..\\a".toList else .error .EINVAL := hwe
        by_cases hp : p = "C:\\a".toList
        · rw [if_pos hp] at hwe
          subst hwe
          cases hel
          decide
        · rw [if_neg hp] at hwe
          subst hwe
          cases hel
    rcases c60_terminates 6 h _ t _ he hL with ⟨r, hr⟩ | ⟨x, hx⟩
    · cases hr
    · cases hx
  · exact absurd rfl ((c60_throwing _ h _ t _ he).2.2.1 _)
  · exact h1

/-- **C60 is violated** by the error code form: with the link `C:\\a` whose text is `a\\..\\a`, `canonical("C:\\a", ec)`
neither returns nor throws: however many rounds it is given, they do not suffice, or the counter of links
overflows (undefined). Reporting the fortieth link does not end the loop. -/
theorem c60_violated (el : Bool) (n : Nat) (h : Handler) (c : Code) (t : List Event) (o : Except Stop (Path × EcArg))
    (he : Exec (winCanonical el n h (mkPath .windows "C:\\a".toList) (.ref c)) t o) (hw : ∀ e ∈ t, winLoop e) :
    o = .error .fuel ∨ o = .error (.fault .ub) := by
  rcases canonical_endless el n h _ t o he hw with h1 | h1 | ⟨h1, _⟩
  · exact .inl h1
  · exact .inr h1
  · cases h1

/-- That file system answers every call: such executions exist, for the throwing and for the error code form. -/
theorem winLoop_total {α : Type} (p : Prog α) : ∃ t o, Exec p t o ∧ ∀ e ∈ t, winLoop e := by
  have h : ∀ (s : Unit) (c : Sys), ∃ (r : c.Ret) (s' : Unit), Each winLoop s ⟨c, r⟩ s' := by
    intro _ c
    cases c
    case winTest q x =>
      cases q
      case isSymlink => exact ⟨(decide (x = "C:\\a".toList), none), (), rfl⟩
      all_goals exact ⟨(true, none), (), trivial⟩
    case winReadlink x => exact ⟨if x = "C:\\a".toList then .ok "a\\..\\a".toList else .error .EINVAL, (), rfl⟩
    case win c => exact ⟨c.fails, (), trivial⟩
    case port c => exact ⟨c.fails, (), trivial⟩
    all_goals first
      | exact ⟨.error .EINVAL, (), trivial⟩
      | exact ⟨(), (), trivial⟩
      | exact ⟨none, (), trivial⟩
      | exact ⟨0, (), trivial⟩
      | exact ⟨default, (), trivial⟩
  obtain ⟨t, o, _, h1, h2⟩ := exec_exists h p ()
  refine ⟨t, o, h1, ?_⟩
  clear h1 h
  generalize hu : () = u at h2
  induction h2 with
  | nil => simp
  | cons a _ ih =>
    intro e he
    rcases List.mem_cons.mp he with rfl | he
    · exact a
    · exact ih rfl e he

example : ∃ t o, Exec (winCanonical false 1000 ⟨[], none, none⟩ (mkPath .windows "C:\\a".toList) (.ref none)) t o ∧
    ∀ e ∈ t, winLoop e := winLoop_total _

end Asap
