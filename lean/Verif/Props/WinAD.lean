import Verif.Props.WinD

/-!
# C104: the file that `canonical` on Windows leads to
-/

namespace Asap
namespace Spec

/-- A place in a file system: a root name and names below the root directory. -/
structure WinPlace where
  root : Str
  names : List Str
  deriving DecidableEq

/-- The place a text with a root names. -/
def winPlaceOf (s : Str) : WinPlace := ⟨winRootName s, winNames (winTail s)⟩

/-- One name below. -/
def WinPlace.below (x : WinPlace) (n : Str) : WinPlace := ⟨x.root, x.names ++ [n]⟩

/-- Where the text of a link begins: at its own root; at that of the link, if it only has a root directory; or where the link is. -/
def linkStart (x : WinPlace) (l : Str) : WinPlace :=
  if winRootLen l ≠ 0 then ⟨winRootName l, []⟩ else if winHasDir l then ⟨x.root, []⟩ else x

/-- Pathname resolution in a file system with the links `L`: the names lead from one place to another on the way over `k` links. -/
inductive Leads (L : WinPlace → Option Str) : Nat → WinPlace → List Str → WinPlace → Prop where
  | here (x : WinPlace) : Leads L 0 x [] x
  | dot {k : Nat} {x y : WinPlace} {ns : List Str} : Leads L k x ns y → Leads L k x (['.'] :: ns) y
  | up {k : Nat} {x y : WinPlace} {ns : List Str} : Leads L k ⟨x.root, x.names.dropLast⟩ ns y → Leads L k x (['.', '.'] :: ns) y
  | name {k : Nat} {x y : WinPlace} {n : Str} {ns : List Str} : n ≠ ['.'] → n ≠ ['.', '.'] → L (x.below n) = none →
      Leads L k (x.below n) ns y → Leads L k x (n :: ns) y
  | link {k : Nat} {x y : WinPlace} {n l : Str} {ns : List Str} : n ≠ ['.'] → n ≠ ['.', '.'] → L (x.below n) = some l →
      Leads L k (linkStart x l) (winNames (winTail l) ++ ns) y → Leads L (k + 1) x (n :: ns) y

/-- The answers of `is_symlink` and `read_symlink` in a file system with the links `L`; both may fail. -/
def LinksAre (L : WinPlace → Option Str) (e : Event) : Prop :=
  match e with
  | ⟨.winTest .isSymlink p, r⟩ => (r : Bool × Code).2 = none → r.1 = (L (winPlaceOf p)).isSome
  | ⟨.winReadlink p, r⟩ => ∀ l, (r : Except Errno Str) = .ok l → L (winPlaceOf p) = some l
  | _ => True

/-- A link with a root directory has a root name; one with a root name is not relative to a directory of the drive; no colon in a name. -/
def winLink (l : Str) : Prop :=
  ((winRootLen l = 0 ∧ winHasDir l = false) ∨ winRootLen l ≠ 0 ∧ (winHasDir l = true ∨ winUnc l = true)) ∧
    ∀ w ∈ winNames (winTail l), ':' ∉ w

end Spec
open Spec

/-- There is at most one place that is led to. -/
theorem leads_unique {L : WinPlace → Option Str} {k j : Nat} {x y z : WinPlace} {ns : List Str} (h1 : Leads L k x ns y)
    (h2 : Leads L j x ns z) : z = y ∧ j = k := by
  induction h1 generalizing j with
  | here x => cases h2; exact ⟨rfl, rfl⟩
  | dot h ih =>
    cases h2 with
    | dot h => exact ih h
    | name h => exact absurd rfl h
    | link h => exact absurd rfl h
  | up h ih =>
    cases h2 with
    | up h => exact ih h
    | name _ h => exact absurd rfl h
    | link _ h => exact absurd rfl h
  | name n1 n2 hL h ih =>
    cases h2 with
    | dot h => exact absurd rfl n1
    | up h => exact absurd rfl n2
    | name _ _ _ h => exact ih h
    | link _ _ hL' h => rw [hL] at hL'; cases hL'
  | link n1 n2 hL h ih =>
    cases h2 with
    | dot h => exact absurd rfl n1
    | up h => exact absurd rfl n2
    | name _ _ hL' h => rw [hL] at hL'; cases hL'
    | link _ _ hL' h =>
      rw [hL] at hL'
      cases hL'
      obtain ⟨h1, h2⟩ := ih h
      exact ⟨h1, by rw [h2]⟩

/-- A place without links on the way. -/
def Spec.Straight (L : WinPlace → Option Str) (x : WinPlace) : Prop :=
  (∀ n ∈ x.names, n ≠ ['.'] ∧ n ≠ ['.', '.']) ∧ ∀ i, i < x.names.length → L ⟨x.root, x.names.take (i + 1)⟩ = none

theorem straight_up {L : WinPlace → Option Str} {x : WinPlace} (h : Straight L x) : Straight L ⟨x.root, x.names.dropLast⟩ := by
  refine ⟨fun n hn => h.1 n (List.dropLast_subset _ hn), fun i hi => ?_⟩
  dsimp only at hi ⊢
  rw [List.length_dropLast] at hi
  rw [List.dropLast_eq_take, List.take_take, Nat.min_eq_left (by omega)]
  exact h.2 i (by omega)

theorem straight_below {L : WinPlace → Option Str} {x : WinPlace} {n : Str} (h : Straight L x) (h1 : n ≠ ['.']) (h2 : n ≠ ['.', '.'])
    (h3 : L (x.below n) = none) : Straight L (x.below n) := by
  refine ⟨fun m hm => ?_, fun i hi => ?_⟩
  · rcases List.mem_append.mp hm with hm | hm
    · exact h.1 m hm
    · cases List.mem_singleton.mp hm; exact ⟨h1, h2⟩
  · dsimp only [WinPlace.below] at hi ⊢
    rw [List.length_append, List.length_singleton] at hi
    by_cases hlt : i < x.names.length
    · rw [List.take_append_of_le_length (by omega)]
      exact h.2 i hlt
    · rw [List.take_of_length_le (by simp; omega)]
      exact h3

/-- What is led to from a place without links on the way is one. -/
theorem leads_straight {L : WinPlace → Option Str} {k : Nat} {x y : WinPlace} {ns : List Str} (h : Leads L k x ns y)
    (hx : Straight L x) : Straight L y := by
  induction h with
  | here x => exact hx
  | dot h ih => exact ih hx
  | up h ih => exact ih (straight_up hx)
  | name n1 n2 hL h ih => exact ih (straight_below hx n1 n2 hL)
  | link n1 n2 hL h ih =>
    apply ih
    unfold linkStart
    split
    · exact ⟨by simp, by simp⟩
    · split
      · exact ⟨by simp, by simp⟩
      · exact hx

/-- A place without links on the way is led to by its own names. -/
theorem straight_leads {L : WinPlace → Option Str} {x : WinPlace} (h : Straight L x) : Leads L 0 ⟨x.root, []⟩ x.names x := by
  have key : ∀ (ns pre : List Str), x.names = pre ++ ns → Leads L 0 ⟨x.root, pre⟩ ns x := by
    intro ns
    induction ns with
    | nil =>
      intro pre hp
      rw [List.append_nil] at hp
      obtain ⟨r, ms⟩ := x
      cases hp
      exact .here _
    | cons n ns ih =>
      intro pre hp
      have hm := h.1 n (by rw [hp]; simp)
      refine .name hm.1 hm.2 ?_ (ih (pre ++ [n]) (by rw [hp]; simp))
      have := h.2 pre.length (by rw [hp]; simp)
      rw [hp] at this
      have ht : (pre ++ n :: ns).take (pre.length + 1) = pre ++ [n] := by
        rw [List.take_append]
        simp
        exact List.take_of_length_le (by omega)
      rw [ht] at this
      exact this
  exact key x.names [] rfl

/-! ## The loop -/

theorem placeOf_stored (u : Str) : winPlaceOf (mkPath .windows u).pathname = winPlaceOf u := by
  obtain ⟨h1, _, _, h4⟩ := win_stored_facts u
  rw [winPlaceOf, winPlaceOf, h1, h4]

theorem placeOf_append {u w : Str} (hw : PlainName w) : winPlaceOf (winAppendText u w) = (winPlaceOf u).below w := by
  obtain ⟨_, a1, _, _, a4, _⟩ := win_append_plain u hw
  rw [winPlaceOf, a1, a4]
  rfl

theorem placeOf_rootPath (s : Str) : winPlaceOf (winRootPath s) = ⟨winRootName s, []⟩ := by
  obtain ⟨f1, _, f3, _⟩ := winRootPath_facts s
  rw [winPlaceOf, f1, f3]

theorem known_nonempty {t : List Event} {u : Str} (h : Known t u) : (mkPath .windows u).isEmpty = false := by
  have hp : (mkPath .windows u).pathname ≠ [] := by
    intro h0
    obtain ⟨_, h2, h3, _⟩ := win_stored_facts u
    rw [h0] at h2 h3
    rcases h.rooted with hd | ⟨hu, _⟩
    · rw [← h3] at hd; cases hd
    · rw [winUnc, ← h2] at hu; cases hu
  rw [Path.isEmpty]
  cases hq : (mkPath .windows u).pathname with
  | nil => exact absurd hq hp
  | cons => rfl

/-- Names that are not empty. -/
def queueNames (cs : List Path) : List Str := (cs.map Path.pathname).filter (· ≠ [])

theorem queueNames_append (a b : List Path) : queueNames (a ++ b) = queueNames a ++ queueNames b := by
  simp [queueNames]

theorem winNames_filter (x : Str) : (winNames x).filter (fun w => decide (w ≠ [])) = winNames x :=
  List.filter_eq_self.mpr fun w hw => by simpa using (winNames_mem hw).1

theorem queueNames_rel {s : Str} (h : ∀ w ∈ winNames (winTail s), ':' ∉ w) {q : Path}
    (hq : relativePath .windows (mkPath .windows s) = .ok q) : queueNames q.elems = winNames (winTail s) := by
  obtain ⟨q', h1, h2⟩ := win_relativePath s
  rw [h1] at hq
  cases hq
  rcases h2 with rfl | ⟨rfl, h2⟩
  · show ((mkPath .windows (winRelative s)).names).filter _ = _
    rw [win_names, winElements_relative (winRelative_zero h), List.filter_append, winNames_filter]
    split <;> simp
  · have hnm : winNames (winRelative s) = winNames (winTail s) := winNames_dropWhile _
    rw [← hnm, h2]
    rfl

theorem queueNames_link {s : Str} (hz : winRootLen s = 0) (hd : winHasDir s = false) :
    queueNames (mkPath .windows s).elems = winNames (winTail s) := by
  show ((mkPath .windows s).names).filter _ = _
  rw [win_names, winElements, if_pos hz, hd]
  simp only [Bool.false_eq_true, if_false, List.nil_append]
  rw [List.filter_append, winNames_filter]
  split <;> simp

/-- The parent, with its place. -/
theorem known_parent_place {t : List Event} {u : Str} (h : Known t u) :
    ∃ v, parentPath .windows false (mkPath .windows u) = .ok (mkPath .windows v) ∧ Known t v ∧
      winPlaceOf v = ⟨(winPlaceOf u).root, (winPlaceOf u).names.dropLast⟩ := by
  by_cases hn : winNames (winTail u) = []
  · refine ⟨u, win_parent_root false hn, h, ?_⟩
    rw [winPlaceOf, hn]
    rfl
  · have hd : winHasDir u = true := by
      rcases h.rooted with h | ⟨_, h⟩
      · exact h
      · exact absurd h hn
    obtain ⟨v, h1, h2, h3, h4, h5⟩ := win_parent hd hn (fun w hw => (h.plain w hw).1)
    obtain ⟨v', h1', hk⟩ := h.parent
    rw [h1] at h1'
    have hk' : Known t v := by
      refine ⟨.inl h3, ?_, h5, ?_⟩
      · rw [h4]; exact fun w hw => h.plain w (List.dropLast_subset _ hw)
      · rw [h4, rootPre_eq h2]
        intro i hi
        rw [List.length_dropLast] at hi
        obtain ⟨x, h6, h7⟩ := h.seen i (by omega)
        refine ⟨x, h6, h7.trans ?_⟩
        rw [List.dropLast_eq_take, List.take_take, Nat.min_eq_left (by omega)]
    refine ⟨v, h1, hk', ?_⟩
    rw [winPlaceOf, winPlaceOf, h2, h4]

theorem known_parent_of_name {t : List Event} {u w : Str} (h : Known t u) (hw : PlainName w) :
    ∃ v, parentPath .windows false (mkPath .windows (winAppendText u w)) = .ok (mkPath .windows v) ∧ Known t v ∧
      winPlaceOf v = winPlaceOf u := by
  obtain ⟨_, a1, a2, a3, a4, a5⟩ := win_append_plain u hw
  have hd : winHasDir (winAppendText u w) = true := by
    rw [a3, decide_eq_true_eq]
    rcases h.rooted with h | h
    · exact .inl h
    · exact .inr h.1
  have hp : ∀ x ∈ winNames (winTail (winAppendText u w)), PlainName x := by
    rw [a4]
    intro x hx
    rcases List.mem_append.mp hx with hx | hx
    · exact (h.plain x hx).1
    · simp at hx; subst hx; exact hw
  obtain ⟨v, h1, h2, h3, h4, h5⟩ := win_parent hd (by rw [a4]; simp) hp
  rw [a4, List.dropLast_concat] at h4
  refine ⟨v, h1, ⟨.inl h3, ?_, h5, ?_⟩, ?_⟩
  · rw [h4]; exact h.plain
  · rw [h4, rootPre_eq (h2.trans a1)]; exact h.seen
  · rw [winPlaceOf, winPlaceOf, h4, h2, a1]

/-- What is left to do leads where all of it does. -/
structure OnWay (L : WinPlace → Option Str) (x0 : WinPlace) (ns0 : List Str) (u : Str) (cs : List Path) (used : Nat) : Prop where
  way : ∀ k y, Leads L k (winPlaceOf u) (queueNames cs) y → Leads L (used + k) x0 ns0 y

/-- Outcome of the loop. -/
def Arrived (L : WinPlace → Option Str) (x0 : WinPlace) (ns0 : List Str) (o : Except Stop (Path × Code × EcArg)) (s' : List Event) : Prop :=
  (linkTexts s').length < 40 → (∀ l ∈ linkTexts s', winLink l) → (∀ e ∈ s', LinksAre L e) → ∀ r e, o = .ok (r, none, e) →
    ∃ u, r = mkPath .windows u ∧ Known s' u ∧ Leads L (linkTexts s').length x0 ns0 (winPlaceOf u)

theorem canonLoop_arrived (L : WinPlace → Option Str) (x0 : WinPlace) (ns0 : List Str) (h : Handler) (root : Path) :
    ∀ (n : Nat) (result : Path) (cmpts : List Path) (k : Int) (m : Code) (ec : EcArg) (s : List Event),
    (m = none → (∀ e ∈ s, LinksAre L e) → ∃ u, result = mkPath .windows u ∧ Known s u ∧ OnWay L x0 ns0 u cmpts (linkTexts s).length) →
    (∀ f ∈ cmpts, f.pathname = [] ∨ PlainName f.pathname) → k = 40 - ((linkTexts s).length : Int) →
    (linkTexts s).length < 40 →
    wp Tr (Arrived L x0 ns0) (winCanonLoop false h root n result cmpts k m ec) s := by
  have fin : ∀ {result : Path} {m : Code} {ec : EcArg} {s : List Event},
      (m = none → (∀ e ∈ s, LinksAre L e) → ∃ u, result = mkPath .windows u ∧ Known s u ∧ OnWay L x0 ns0 u [] (linkTexts s).length) →
      Arrived L x0 ns0 (.ok (result, m, ec)) s := by
    rintro result m ec s hr _ _ hL r e ⟨⟩
    obtain ⟨u, h1, h2, h3⟩ := hr rfl hL
    exact ⟨u, h1, h2, h3.way 0 _ (.here _)⟩
  intro n
  induction n with
  | zero =>
    intro result cmpts k m ec s hr hc hk hlt
    match cmpts, m with
    | [], m => simp only [winCanonLoop, wp]; exact fin hr
    | c :: cs, some e => simp only [winCanonLoop, wp]; rintro _ _ _ r e ⟨⟩
    | c :: cs, none => simp only [winCanonLoop, wp]; rintro _ _ _ r e ⟨⟩
  | succ n ih =>
    intro result cmpts k m ec s hr hc hk hlt
    match cmpts, m with
    | [], m => simp only [winCanonLoop, wp]; exact fin hr
    | c :: cs, some e => simp only [winCanonLoop, wp]; rintro _ _ _ r e ⟨⟩
    | c :: cs, none =>
      by_cases hall : ∀ e ∈ s, LinksAre L e
      rotate_left
      · refine wp_tr_any _ _ fun o t _ _ h' => ?_
        exact absurd (fun e he => h' e (List.mem_append_left _ he)) hall
      rw [winCanonLoop]
      obtain ⟨u, rfl, hu, hway⟩ := hr rfl hall
      have hcs : ∀ f ∈ cs, f.pathname = [] ∨ PlainName f.pathname := fun f hf => hc f (by simp [hf])
      have hpn : (c.moved .windows).pathname = c.pathname := by
        rcases hc c (by simp) with h0 | h0
        · rw [Path.moved, h0]; rfl
        · exact win_pathname_rel fun x hx => h0.2.1 x (List.mem_of_head? hx)
      split
      · rename_i he
        have h0 : c.pathname = [] := by
          rw [Path.isEmpty, hpn] at he
          exact List.isEmpty_iff.mp he
        refine ih _ cs k none ec s (fun _ _ => ⟨u, rfl, hu, ⟨fun j y hy => hway.way j y ?_⟩⟩) hcs hk hlt
        rw [queueNames, List.map_cons, h0, List.filter_cons_of_neg (by simp)]
        exact hy
      rename_i hne
      have hq : queueNames (c :: cs) = c.pathname :: queueNames cs := by
        rw [queueNames, List.map_cons, List.filter_cons_of_pos]
        · rfl
        · rw [decide_eq_true_eq]
          intro h0
          apply hne
          rw [Path.isEmpty, hpn, h0]
          rfl
      rw [hpn]
      split
      · rename_i hdot
        have hdot : c.pathname = ['.'] := by simpa [isDot] using hdot
        have hw : ∀ j y, Leads L j (winPlaceOf u) (queueNames cs) y → Leads L ((linkTexts s).length + j) x0 ns0 y := by
          intro j y hy
          refine hway.way j y ?_
          rw [hq, hdot]
          exact .dot hy
        rintro bm _ rfl
        have hlt1 : linkTexts (s ++ [⟨.winTest .isDirectory (mkPath .windows u).pathname, bm⟩]) = linkTexts s := linkTexts_test _ _ _ _
        have next : ∀ ec', wp Tr (Arrived L x0 ns0) (winCanonLoop false h root n (mkPath .windows u) cs k bm.2 ec')
            (s ++ [⟨.winTest .isDirectory (mkPath .windows u).pathname, bm⟩]) := fun ec' =>
          ih _ cs k bm.2 _ _ (fun _ _ => ⟨u, rfl, hu.snoc _, ⟨by rw [hlt1]; exact hw⟩⟩) hcs (by rw [hlt1]; exact hk)
            (by rw [hlt1]; exact hlt)
        dsimp only
        split
        · match ec with
          | .null => simp only [Handler.report, Prog.stop_bind, wp]; rintro _ _ _ r e ⟨⟩
          | .ref c0 =>
            simp only [Handler.report, Prog.ret_bind]
            exact next _
        · exact next _
      rename_i hdot
      split
      · rename_i hddot
        have hddot : c.pathname = ['.', '.'] := by simpa [isDotDot] using hddot
        obtain ⟨v, h1, h2, h3⟩ := known_parent_place hu
        rw [h1, Prog.ofRes_ok, Prog.ret_bind, known_nonempty h2, if_neg Bool.false_ne_true]
        refine ih _ cs k none ec s (fun _ _ => ⟨v, rfl, h2, ⟨fun j y hy => hway.way j y ?_⟩⟩) hcs hk hlt
        rw [hq, hddot]
        rw [h3] at hy
        exact .up hy
      rename_i hddot
      -- a name
      have hw : PlainName c.pathname := by
        rcases hc c (by simp) with h0 | h0
        · exfalso; apply hne; rw [Path.isEmpty, hpn, h0]; rfl
        · exact h0
      have hd1 : c.pathname ≠ ['.'] := by intro h0; rw [h0] at hdot; exact hdot rfl
      have hd2 : c.pathname ≠ ['.', '.'] := by intro h0; rw [h0] at hddot; exact hddot rfl
      have ha := (win_append_plain u hw).1
      have hplace : winPlaceOf (mkPath .windows (winAppendText u c.pathname)).pathname = (winPlaceOf u).below c.pathname := by
        rw [placeOf_stored, placeOf_append hw]
      rw [show c.moved .windows = mkPath .windows c.pathname from rfl, ha, Prog.ofRes_ok, Prog.ret_bind]
      rintro ⟨b, m⟩ _ rfl
      have hlt1 := linkTexts_test s .isSymlink (mkPath .windows (winAppendText u c.pathname)).pathname (b, m)
      dsimp only
      split
      rotate_left
      · rename_i hb
        refine ih _ cs k m ec _ ?_ hcs (by rw [hlt1]; exact hk) (by rw [hlt1]; exact hlt)
        rintro rfl hall'
        rw [Bool.not_eq_true] at hb
        subst hb
        have hno : L ((winPlaceOf u).below c.pathname) = none := by
          have := hall' _ (List.mem_append_right _ (List.mem_singleton.mpr rfl))
          have := this rfl
          rw [hplace] at this
          exact Option.isSome_eq_false_iff.mp this.symm |> Option.isNone_iff_eq_none.mp
        refine ⟨_, rfl, (hu.snoc _).name hw hd1 hd2 (by simp), ⟨fun j y hy => ?_⟩⟩
        rw [hlt1]
        refine hway.way j y ?_
        rw [hq]
        rw [placeOf_append hw] at hy
        exact .name hd1 hd2 hno hy
      have hu1 := hu.snoc (⟨.winTest .isSymlink (mkPath .windows (winAppendText u c.pathname)).pathname, (b, m)⟩ : Event)
      generalize s ++ [(⟨.winTest .isSymlink (mkPath .windows (winAppendText u c.pathname)).pathname, (b, m)⟩ : Event)] = s1 at hlt1 hu1
      rintro (e | l) _ rfl
      · have hlt2 := linkTexts_err s1 (mkPath .windows (winAppendText u c.pathname)).pathname e
        exact ih _ cs k (some e) ec _ (fun h => by cases h) hcs (by rw [hlt2, hlt1]; exact hk) (by rw [hlt2, hlt1]; exact hlt)
      have hlt2 := linkTexts_ok s1 (mkPath .windows (winAppendText u c.pathname)).pathname l
      have hu2 := hu1.snoc (⟨.winReadlink (mkPath .windows (winAppendText u c.pathname)).pathname, (.ok l : Except Errno Str)⟩ : Event)
      have hlast : (∀ e ∈ s1 ++ [(⟨.winReadlink (mkPath .windows (winAppendText u c.pathname)).pathname, (.ok l : Except Errno Str)⟩ : Event)],
          LinksAre L e) → L ((winPlaceOf u).below c.pathname) = some l := by
        intro hall'
        have := hall' _ (List.mem_append_right _ (List.mem_singleton.mpr rfl)) l rfl
        rw [hplace] at this
        exact this
      generalize s1 ++ [(⟨.winReadlink (mkPath .windows (winAppendText u c.pathname)).pathname, (.ok l : Except Errno Str)⟩ : Event)] = s2 at hlt2 hu2 hlast
      have hl2 : (linkTexts s2).length = (linkTexts s).length + 1 := by rw [hlt2, hlt1]; simp
      dsimp only
      rw [if_neg (by omega)]
      split
      · have h40 : (linkTexts s2).length = 40 := by omega
        refine wp_tr_any _ _ fun o t h' => ?_
        rw [linkTexts_append, List.length_append] at h'
        omega
      by_cases hsim : winLink l
      rotate_left
      · refine wp_tr_any _ _ fun o t _ h' => ?_
        exact absurd (h' l (by rw [linkTexts_append, hlt2]; simp)) hsim
      obtain ⟨hs1, hs2⟩ := hsim
      rw [win_isAbsolute, Prog.ofRes_ok, Prog.ret_bind]
      split
      · rename_i habs
        obtain ⟨rel, hrel, _⟩ := win_relativePath l
        rw [hrel, Prog.ofRes_ok, Prog.ret_bind]
        have hroot : winRootLen l ≠ 0 := by
          rcases hs1 with h1 | h1
          · rw [h1.2, Bool.or_false, winUnc, h1.1] at habs
            cases habs
          · exact h1.1
        refine ih _ _ (k - 1) none ec s2 (fun _ hall' => ?_) ?_ (by omega) (by omega)
        · rw [Bool.or_eq_true] at habs
          obtain ⟨v, hv1, hv2⟩ := known_root (s := l) s2 habs.symm
          have hv : rootPath .windows (mkPath .windows l) = mkPath .windows (winRootPath l) := by
            rcases win_rootPath l with hr | ⟨_, hr⟩
            · exact hr
            · obtain ⟨_, _, _, f4⟩ := winRootPath_facts l
              rw [hr] at f4
              exact absurd f4.symm hroot
          have hk2 : Known s2 (winRootPath l) := by
            obtain ⟨f1, f2, f3, f4⟩ := winRootPath_facts l
            refine ⟨?_, by simp [f3], fun _ => f3, by simp [f3]⟩
            rcases habs with h | h
            · refine .inr ⟨?_, f3⟩
              rw [winUnc, f4]
              exact h
            · exact .inl (f2.trans h)
          refine ⟨_, hv, hk2, ⟨fun j y hy => ?_⟩⟩
          rw [queueNames_append, queueNames_rel hs2 hrel, placeOf_rootPath] at hy
          rw [hl2, show (linkTexts s).length + 1 + j = (linkTexts s).length + (j + 1) by omega]
          refine hway.way (j + 1) y ?_
          rw [hq]
          refine .link hd1 hd2 (hlast hall') ?_
          rw [linkStart, if_pos hroot]
          exact hy
        · intro f hf
          rcases List.mem_append.mp hf with hf | hf
          · exact rel_plain hs2 hrel f hf
          · exact hcs f hf
      · rename_i habs
        rw [Bool.or_eq_true, not_or, Bool.not_eq_true, Bool.not_eq_true] at habs
        have hz : winRootLen l = 0 := by
          rcases hs1 with h1 | h1
          · exact h1.1
          · rcases h1.2 with h | h
            · rw [habs.2] at h; cases h
            · rw [habs.1] at h; cases h
        obtain ⟨v, h1, h2, h3⟩ := known_parent_of_name hu2 hw
        rw [h1, Prog.ofRes_ok, Prog.ret_bind]
        refine ih _ _ (k - 1) none ec s2 (fun _ hall' => ⟨v, rfl, h2, ⟨fun j y hy => ?_⟩⟩) ?_ (by omega) (by omega)
        · rw [queueNames_append, queueNames_link hz habs.2, h3] at hy
          rw [hl2, show (linkTexts s).length + 1 + j = (linkTexts s).length + (j + 1) by omega]
          refine hway.way (j + 1) y ?_
          rw [hq]
          refine .link hd1 hd2 (hlast hall') ?_
          rw [linkStart, if_neg (by simp [hz]), habs.2, if_neg Bool.false_ne_true]
          exact hy
        · intro f hf
          rcases List.mem_append.mp hf with hf | hf
          · exact link_plain hs2 hz habs.2 f hf
          · exact hcs f hf

/-- **C104**, partial: what `canonical` returns for an absolute path is the place to which the names of the path lead, with as many
links on the way as were read. Missing: names with a colon; links with a root directory but no root name, for which it is false
(`c104_violated`), or relative to the directory of a drive; in the error code form, 40 links or more (`c60_violated`). -/
theorem c104_leads_partial (L : WinPlace → Option Str) (n : Nat) (h : Handler) (s : Str) (ec e : EcArg) (t : List Event) (r : Path)
    (hs : winRooted s) (hl : ec = .null ∨ (linkTexts t).length < 40) (hlinks : ∀ l ∈ linkTexts t, winLink l)
    (hL : ∀ ev ∈ t, LinksAre L ev) (he : Exec (winCanonical false n h (mkPath .windows s) ec) t (.ok (r, e))) :
    (r = .default ∧ e = .ref (some .ENOENT)) ∨
      Leads L (linkTexts t).length ⟨winRootName s, []⟩ (winNames (winTail s)) (winPlaceOf r.pathname) := by
  have hl' : (linkTexts t).length < 40 := by
    rcases hl with rfl | hl
    · obtain ⟨h1, h2, _⟩ := c60_throwing n h s t _ he
      rcases Nat.lt_or_ge (linkTexts t).length 40 with h3 | h3
      · exact h3
      · obtain ⟨x, hx, _⟩ := h2 (by omega)
        cases hx
    · exact hl
  have key : wp Tr (fun (o : Except Stop (Path × EcArg)) t => (linkTexts t).length < 40 → (∀ l ∈ linkTexts t, winLink l) →
      (∀ e ∈ t, LinksAre L e) → ∀ r e, o = .ok (r, e) → (r = .default ∧ e = .ref (some .ENOENT)) ∨
        Leads L (linkTexts t).length ⟨winRootName s, []⟩ (winNames (winTail s)) (winPlaceOf r.pathname))
      (winCanonical false n h (mkPath .windows s) ec) [] := by
    have hrep : ∀ (e : EcArg) (t : List Event), wp Tr (fun (o : Except Stop (Path × EcArg)) t => (linkTexts t).length < 40 →
        (∀ l ∈ linkTexts t, winLink l) → (∀ e ∈ t, LinksAre L e) → ∀ r e, o = .ok (r, e) → (r = .default ∧ e = .ref (some .ENOENT)) ∨
        Leads L (linkTexts t).length ⟨winRootName s, []⟩ (winNames (winTail s)) (winPlaceOf r.pathname))
        (h.report e (some .ENOENT) Path.default) t := by
      intro e t
      cases e with
      | null => simp only [Handler.report, wp]; rintro _ _ _ r e ⟨⟩
      | ref c => simp only [Handler.report, wp]; rintro _ _ _ r e ⟨⟩; exact .inl ⟨rfl, rfl⟩
    obtain ⟨rel, hrel, _⟩ := win_relativePath s
    rw [winCanonical, hrel, Prog.ofRes_ok, Prog.ret_bind]
    refine wp_bind (wp_mono ?_ (canonLoop_arrived L ⟨winRootName s, []⟩ (winNames (winTail s)) h (rootPath .windows (mkPath .windows s))
      n _ rel.elems 40 none ec [] (fun _ _ => ?_) (rel_plain hs.2 hrel) (by simp [linkTexts]) (by simp [linkTexts])))
    · rintro (x | ⟨r, m, e⟩) s' hres
      · rintro _ _ _ r e ⟨⟩
      dsimp only
      split
      · exact hrep e s'
      rename_i hm
      have hm : m = none := Classical.byContradiction hm
      subst hm
      rintro ⟨b, m⟩ _ rfl
      dsimp only
      split
      · exact hrep _ _
      have h1 := linkTexts_test s' .exists' r.pathname (b, m)
      simp only [wp]
      rw [h1]
      rintro q1 q2 q3 r' e' ⟨⟩
      obtain ⟨u, rfl, hu, hw⟩ := hres q1 q2 (fun e he => q3 e (List.mem_append_left _ he)) r e rfl
      right
      have : (returned .windows false (mkPath .windows u)).pathname = (mkPath .windows (mkPath .windows u).pathname).pathname := rfl
      rw [this, placeOf_stored, placeOf_stored]
      exact hw
    · obtain ⟨u, h1, h2⟩ := known_root (s := s) [] hs.1
      have hpl : winPlaceOf u = ⟨winRootName s, []⟩ := by
        have h3 := congrArg (fun p => winPlaceOf p.pathname) h1
        rw [placeOf_stored] at h3
        rw [← h3]
        rcases win_rootPath s with hr | ⟨hr, hr'⟩
        · rw [hr, placeOf_stored, placeOf_rootPath]
        · obtain ⟨f1, f2, f3, f4⟩ := winRootPath_facts s
          rw [hr'] at f2 f4
          rcases hs.1 with h | h
          · rw [h] at f2; cases f2
          · rw [winUnc, ← f4] at h; cases h
      refine ⟨u, h1, h2, ⟨fun j y hy => ?_⟩⟩
      rw [hpl, queueNames_rel hs.2 hrel] at hy
      simpa [linkTexts] using hy
  exact wp_tr key he hl' hlinks hL r e rfl

/-- **C104**: the result has no links on the way, so it leads to itself. -/
theorem c104_straight_partial (L : WinPlace → Option Str) (n : Nat) (h : Handler) (s : Str) (ec e : EcArg) (t : List Event) (r : Path)
    (hs : winRooted s) (hl : ec = .null ∨ (linkTexts t).length < 40) (hlinks : ∀ l ∈ linkTexts t, winLink l)
    (hL : ∀ ev ∈ t, LinksAre L ev) (he : Exec (winCanonical false n h (mkPath .windows s) ec) t (.ok (r, e))) :
    (r = .default ∧ e = .ref (some .ENOENT)) ∨
      Straight L (winPlaceOf r.pathname) ∧
        Leads L 0 ⟨winRootName r.pathname, []⟩ (winNames (winTail r.pathname)) (winPlaceOf r.pathname) := by
  rcases c104_leads_partial L n h s ec e t r hs hl hlinks hL he with h1 | h1
  · exact .inl h1
  · have h2 := leads_straight h1 ⟨by simp, by simp⟩
    exact .inr ⟨h2, straight_leads h2⟩

namespace Spec

/-- Nothing fails, and all that is asked about exists. -/
def LinksToldBy (L : WinPlace → Option Str) (e : Event) : Prop :=
  match e with
  | ⟨.winTest .isSymlink p, r⟩ => (r : Bool × Code) = ((L (winPlaceOf p)).isSome, none)
  | ⟨.winTest _ _, r⟩ => (r : Bool × Code) = (true, none)
  | ⟨.winReadlink p, r⟩ => ∀ l, L (winPlaceOf p) = some l → (r : Except Errno Str) = .ok l
  | _ => True

end Spec

/-- The trace, with an assumption on each event. -/
def TrOf (P : Event → Prop) (s : List Event) (e : Event) (s' : List Event) : Prop := s' = s ++ [e] ∧ P e

/-- The first name. -/
theorem leads_cons {L : WinPlace → Option Str} {j : Nat} {x y : WinPlace} {n : Str} {ns : List Str} (h : Leads L j x (n :: ns) y)
    (h1 : n ≠ ['.']) (h2 : n ≠ ['.', '.']) : (L (x.below n) = none ∧ Leads L j (x.below n) ns y) ∨
      ∃ l j', L (x.below n) = some l ∧ j = j' + 1 ∧ Leads L j' (linkStart x l) (winNames (winTail l) ++ ns) y := by
  cases h with
  | dot h => exact absurd rfl h1
  | up h => exact absurd rfl h2
  | name _ _ h3 h4 => exact .inl ⟨h3, h4⟩
  | link _ _ h3 h4 => exact .inr ⟨_, _, h3, rfl, h4⟩

theorem canonLoop_complete (L : WinPlace → Option Str) (hL : ∀ x l, L x = some l → winLink l) (y : WinPlace) (h : Handler) (root : Path) :
    ∀ (n : Nat) (u : Str) (cmpts : List Path) (k : Int) (ec : EcArg) (j : Nat) (s : List Event),
    Known s u → Leads L j (winPlaceOf u) (queueNames cmpts) y → (j : Int) < k → k = 40 - ((linkTexts s).length : Int) →
    (∀ f ∈ cmpts, f.pathname = [] ∨ PlainName f.pathname) →
    wp (TrOf (LinksToldBy L)) (fun o s' => (linkTexts s').length < 40 ∧
        (o = .error .fuel ∨ ∃ v, winPlaceOf v = y ∧ o = .ok (mkPath .windows v, none, ec)))
      (winCanonLoop false h root n (mkPath .windows u) cmpts k none ec) s := by
  intro n
  induction n with
  | zero =>
    intro u cmpts k ec j s hu hy hj hk hc
    match cmpts with
    | [] => simp only [winCanonLoop, wp]; cases hy; exact ⟨by omega, .inr ⟨u, rfl, rfl⟩⟩
    | c :: cs => simp only [winCanonLoop, wp]; exact ⟨by omega, .inl trivial⟩
  | succ n ih =>
    intro u cmpts k ec j s hu hy hj hk hc
    match cmpts with
    | [] => simp only [winCanonLoop, wp]; cases hy; exact ⟨by omega, .inr ⟨u, rfl, rfl⟩⟩
    | c :: cs =>
      rw [winCanonLoop]
      have hcs : ∀ f ∈ cs, f.pathname = [] ∨ PlainName f.pathname := fun f hf => hc f (by simp [hf])
      have hpn : (c.moved .windows).pathname = c.pathname := by
        rcases hc c (by simp) with h0 | h0
        · rw [Path.moved, h0]; rfl
        · exact win_pathname_rel fun x hx => h0.2.1 x (List.mem_of_head? hx)
      split
      · rename_i he
        have h0 : c.pathname = [] := by
          rw [Path.isEmpty, hpn] at he
          exact List.isEmpty_iff.mp he
        refine ih u cs k ec j s hu ?_ hj hk hcs
        rw [queueNames, List.map_cons, h0, List.filter_cons_of_neg (by simp)] at hy
        exact hy
      rename_i hne
      have hq : queueNames (c :: cs) = c.pathname :: queueNames cs := by
        rw [queueNames, List.map_cons, List.filter_cons_of_pos]
        · rfl
        · rw [decide_eq_true_eq]
          intro h0
          apply hne
          rw [Path.isEmpty, hpn, h0]
          rfl
      rw [hq] at hy
      rw [hpn]
      split
      · rename_i hdot
        have hdot : c.pathname = ['.'] := by simpa [isDot] using hdot
        rw [hdot] at hy
        have hy' : Leads L j (winPlaceOf u) (queueNames cs) y := by
          cases hy with
          | dot h => exact h
          | name h => exact absurd rfl h
          | link h => exact absurd rfl h
        rintro bm _ ⟨rfl, hb⟩
        have hb : bm = (true, none) := hb
        subst hb
        exact ih u cs k ec j _ (hu.snoc _) hy' hj (by rw [linkTexts_test]; exact hk) hcs
      rename_i hdot
      split
      · rename_i hddot
        have hddot : c.pathname = ['.', '.'] := by simpa [isDotDot] using hddot
        rw [hddot] at hy
        have hy' : Leads L j ⟨(winPlaceOf u).root, (winPlaceOf u).names.dropLast⟩ (queueNames cs) y := by
          cases hy with
          | up h => exact h
          | name _ h => exact absurd rfl h
          | link _ h => exact absurd rfl h
        obtain ⟨v, h1, h2, h3⟩ := known_parent_place hu
        rw [h1, Prog.ofRes_ok, Prog.ret_bind, known_nonempty h2, if_neg Bool.false_ne_true]
        rw [← h3] at hy'
        exact ih v cs k ec j s h2 hy' hj hk hcs
      rename_i hddot
      have hw : PlainName c.pathname := by
        rcases hc c (by simp) with h0 | h0
        · exfalso; apply hne; rw [Path.isEmpty, hpn, h0]; rfl
        · exact h0
      have hd1 : c.pathname ≠ ['.'] := by intro h0; rw [h0] at hdot; exact hdot rfl
      have hd2 : c.pathname ≠ ['.', '.'] := by intro h0; rw [h0] at hddot; exact hddot rfl
      have ha := (win_append_plain u hw).1
      have hplace : winPlaceOf (mkPath .windows (winAppendText u c.pathname)).pathname = (winPlaceOf u).below c.pathname := by
        rw [placeOf_stored, placeOf_append hw]
      rw [show c.moved .windows = mkPath .windows c.pathname from rfl, ha, Prog.ofRes_ok, Prog.ret_bind]
      rintro ⟨b, m⟩ _ ⟨rfl, hb⟩
      have hb : (b, m) = ((L (winPlaceOf (mkPath .windows (winAppendText u c.pathname)).pathname)).isSome, none) := hb
      rw [hplace] at hb
      cases hb
      cases hLc : L ((winPlaceOf u).below c.pathname) with
      | none =>
        rw [Option.isSome_none]
        dsimp only
        rw [if_neg Bool.false_ne_true]
        have hy' : Leads L j ((winPlaceOf u).below c.pathname) (queueNames cs) y := by
          rcases leads_cons hy hd1 hd2 with ⟨_, h⟩ | ⟨l, j', h, _⟩
          · exact h
          · rw [hLc] at h; cases h
        rw [← placeOf_append hw] at hy'
        refine ih _ cs k ec j _ ((hu.snoc _).name hw hd1 hd2 ?_) hy' hj (by rw [linkTexts_test]; exact hk) hcs
        simp
      | some l =>
        rw [Option.isSome_some]
        dsimp only
        rw [if_pos rfl]
        have hlt1 := linkTexts_test s .isSymlink (mkPath .windows (winAppendText u c.pathname)).pathname (true, none)
        have hu1 := hu.snoc (⟨.winTest .isSymlink (mkPath .windows (winAppendText u c.pathname)).pathname, ((true, none) : Bool × Code)⟩ : Event)
        generalize s ++ [(⟨.winTest .isSymlink (mkPath .windows (winAppendText u c.pathname)).pathname, ((true, none) : Bool × Code)⟩ : Event)] = s1 at hu1 hlt1
        rintro r _ ⟨rfl, hr⟩
        have hr : ∀ l, L (winPlaceOf (mkPath .windows (winAppendText u c.pathname)).pathname) = some l → r = .ok l := hr
        rw [hplace] at hr
        cases hr l hLc
        have hlt2 := linkTexts_ok s1 (mkPath .windows (winAppendText u c.pathname)).pathname l
        have hu2 := hu1.snoc (⟨.winReadlink (mkPath .windows (winAppendText u c.pathname)).pathname, (.ok l : Except Errno Str)⟩ : Event)
        generalize s1 ++ [(⟨.winReadlink (mkPath .windows (winAppendText u c.pathname)).pathname, (.ok l : Except Errno Str)⟩ : Event)] = s2 at hu2 hlt2
        have hl2 : (linkTexts s2).length = (linkTexts s).length + 1 := by rw [hlt2, hlt1]; simp
        obtain ⟨j', rfl, hy'⟩ : ∃ j', j = j' + 1 ∧ Leads L j' (linkStart (winPlaceOf u) l) (winNames (winTail l) ++ queueNames cs) y := by
          rcases leads_cons hy hd1 hd2 with ⟨h, _⟩ | ⟨l, j', h, h', h''⟩
          · rw [hLc] at h; cases h
          · rw [hLc] at h; cases h; exact ⟨_, h', h''⟩
        obtain ⟨hs1, hs2⟩ := hL _ _ hLc
        dsimp only
        rw [if_neg (by omega), if_neg (by omega), win_isAbsolute, Prog.ofRes_ok, Prog.ret_bind]
        split
        · rename_i habs
          obtain ⟨rel, hrel, _⟩ := win_relativePath l
          rw [hrel, Prog.ofRes_ok, Prog.ret_bind]
          have hroot : winRootLen l ≠ 0 := by
            rcases hs1 with h1 | h1
            · rw [h1.2, Bool.or_false, winUnc, h1.1] at habs
              cases habs
            · exact h1.1
          have hv : rootPath .windows (mkPath .windows l) = mkPath .windows (winRootPath l) := by
            rcases win_rootPath l with hr | ⟨_, hr⟩
            · exact hr
            · obtain ⟨_, _, _, f4⟩ := winRootPath_facts l
              rw [hr] at f4
              exact absurd f4.symm hroot
          have hk2 : Known s2 (winRootPath l) := by
            obtain ⟨f1, f2, f3, f4⟩ := winRootPath_facts l
            refine ⟨?_, by simp [f3], fun _ => f3, by simp [f3]⟩
            rw [Bool.or_eq_true] at habs
            rcases habs with h | h
            · refine .inr ⟨?_, f3⟩
              rw [winUnc, f4]
              exact h
            · exact .inl (f2.trans h)
          rw [hv]
          refine ih _ _ (k - 1) ec j' s2 hk2 ?_ (by omega) (by omega) ?_
          · rw [queueNames_append, queueNames_rel hs2 hrel, placeOf_rootPath]
            rw [linkStart, if_pos hroot] at hy'
            exact hy'
          · intro f hf
            rcases List.mem_append.mp hf with hf | hf
            · exact rel_plain hs2 hrel f hf
            · exact hcs f hf
        · rename_i habs
          rw [Bool.or_eq_true, not_or, Bool.not_eq_true, Bool.not_eq_true] at habs
          have hz : winRootLen l = 0 := by
            rcases hs1 with h1 | h1
            · exact h1.1
            · rcases h1.2 with h | h
              · rw [habs.2] at h; cases h
              · rw [habs.1] at h; cases h
          obtain ⟨v, h1, h2, h3⟩ := known_parent_of_name hu2 hw
          rw [h1, Prog.ofRes_ok, Prog.ret_bind]
          refine ih _ _ (k - 1) ec j' s2 h2 ?_ (by omega) (by omega) ?_
          · rw [queueNames_append, queueNames_link hz habs.2, h3]
            rw [linkStart, if_neg (by simp [hz]), habs.2, if_neg Bool.false_ne_true] at hy'
            exact hy'
          · intro f hf
            rcases List.mem_append.mp hf with hf | hf
            · exact link_plain hs2 hz habs.2 f hf
            · exact hcs f hf

theorem root_place {s : Str} (t : List Event) (hs : winHasDir s = true ∨ winUnc s = true) :
    ∃ u, rootPath .windows (mkPath .windows s) = mkPath .windows u ∧ Known t u ∧ winPlaceOf u = ⟨winRootName s, []⟩ := by
  obtain ⟨u, h1, h2⟩ := known_root (s := s) t hs
  refine ⟨u, h1, h2, ?_⟩
  have h3 := congrArg (fun p => winPlaceOf p.pathname) h1
  rw [placeOf_stored u] at h3
  rw [← h3]
  rcases win_rootPath s with hr | ⟨hr, hr'⟩
  · rw [hr, placeOf_stored, placeOf_rootPath]
  · obtain ⟨f1, f2, f3, f4⟩ := winRootPath_facts s
    rw [hr'] at f2 f4
    rcases hs with h | h
    · rw [h] at f2; cases f2
    · rw [winUnc, ← f4] at h; cases h

/-- **C104**, partial: if the names lead somewhere over fewer than 40 links, all answers are right and nothing fails, that place is
returned, by both forms. Missing: as in `c104_leads_partial`. -/
theorem c104_found_partial (L : WinPlace → Option Str) (hL : ∀ x l, L x = some l → winLink l) (n : Nat) (h : Handler) (s : Str) (ec : EcArg)
    (t : List Event) (o : Except Stop (Path × EcArg)) (k : Nat) (y : WinPlace) (hs : winRooted s)
    (hy : Leads L k ⟨winRootName s, []⟩ (winNames (winTail s)) y) (hk : k < 40) (ht : ∀ ev ∈ t, LinksToldBy L ev)
    (hn : s.length + 3 + linkWeight t ≤ n)
    (he : Exec (winCanonical false n h (mkPath .windows s) ec) t o) : ∃ r, o = .ok (r, ec) ∧ winPlaceOf r.pathname = y := by
  have key : wp (TrOf (LinksToldBy L)) (fun (o : Except Stop (Path × EcArg)) s' => (linkTexts s').length < 40 ∧
      (o = .error .fuel ∨ ∃ r, o = .ok (r, ec) ∧ winPlaceOf r.pathname = y)) (winCanonical false n h (mkPath .windows s) ec) [] := by
    obtain ⟨rel, hrel, _⟩ := win_relativePath s
    obtain ⟨u, h1, h2, h3⟩ := root_place (s := s) [] hs.1
    rw [winCanonical, hrel, Prog.ofRes_ok, Prog.ret_bind, h1]
    refine wp_bind (wp_mono ?_ (canonLoop_complete L hL y h (mkPath .windows u) n u rel.elems 40 ec k [] h2 ?_ (by omega) (by simp [linkTexts])
      (rel_plain hs.2 hrel)))
    · rintro o s' ⟨hlt, rfl | ⟨v, hv, rfl⟩⟩
      · exact ⟨hlt, .inl rfl⟩
      · dsimp only
        rw [if_neg (by simp)]
        rintro bm _ ⟨rfl, hb⟩
        have hb : bm = (true, none) := hb
        subst hb
        refine ⟨by rw [linkTexts_test]; exact hlt, .inr ⟨_, rfl, ?_⟩⟩
        have : (returned .windows false (mkPath .windows v)).pathname = (mkPath .windows (mkPath .windows v).pathname).pathname := rfl
        rw [this, placeOf_stored, placeOf_stored]
        exact hv
    · rw [h3, queueNames_rel hs.2 hrel]
      exact hy
  have hst : Steps (TrOf (LinksToldBy L)) [] t ([] ++ t) := steps_and (steps_tr [] t) ht
  obtain ⟨hlt, h0⟩ := wp_sound key he hst
  rw [List.nil_append] at hlt
  have hfuel : o ≠ .error .fuel := ((wp_tr (canonical_bounded n h s ec) he).1 hlt).2 hn
  rcases h0 with h0 | h0
  · exact absurd h0 hfuel
  · exact h0

/-- **C104**, partial: of two absolute paths that lead to the same place, the results, if there are any, name the same place. Missing:
as in `c104_leads_partial`. -/
theorem c104_same_partial (L : WinPlace → Option Str) (n n' : Nat) (h h' : Handler) (s s' : Str) (ec ec' e e' : EcArg) (t t' : List Event)
    (r r' : Path) (k k' : Nat) (y : WinPlace) (hs : winRooted s) (hs' : winRooted s')
    (hy : Leads L k ⟨winRootName s, []⟩ (winNames (winTail s)) y) (hy' : Leads L k' ⟨winRootName s', []⟩ (winNames (winTail s')) y)
    (hl : (linkTexts t).length < 40 ∧ ∀ l ∈ linkTexts t, winLink l) (hl' : (linkTexts t').length < 40 ∧ ∀ l ∈ linkTexts t', winLink l)
    (ht : ∀ ev ∈ t, LinksAre L ev) (ht' : ∀ ev ∈ t', LinksAre L ev) (hr : e ≠ .ref (some .ENOENT)) (hr' : e' ≠ .ref (some .ENOENT))
    (he : Exec (winCanonical false n h (mkPath .windows s) ec) t (.ok (r, e)))
    (he' : Exec (winCanonical false n' h' (mkPath .windows s') ec') t' (.ok (r', e'))) :
    winPlaceOf r.pathname = y ∧ winPlaceOf r'.pathname = y := by
  rcases c104_leads_partial L n h s ec e t r hs (.inr hl.1) hl.2 ht he with h1 | h1
  · exact absurd h1.2 hr
  rcases c104_leads_partial L n' h' s' ec' e' t' r' hs' (.inr hl'.1) hl'.2 ht' he' with h2 | h2
  · exact absurd h2.2 hr'
  exact ⟨(leads_unique hy h1).1, (leads_unique hy' h2).1⟩

/-! ## Cases -/

namespace Spec

/-- The links `C:\l`, to `d\x`, and `D:\k`, to `\x`. -/
def sampleLinks (x : WinPlace) : Option Str :=
  if x = ⟨"C:".toList, ["l".toList]⟩ then some "d\\x".toList
  else if x = ⟨"D:".toList, ["k".toList]⟩ then some "\\x".toList else none

/-- What is asked for `C:\l\..\.`. -/
def upTrace : List Event :=
  [⟨.winTest .isSymlink "C:\\l".toList, (true, none)⟩, ⟨.winReadlink "C:\\l".toList, (.ok "d\\x".toList : Except Errno Str)⟩,
   ⟨.winTest .isSymlink "C:\\d".toList, (false, none)⟩, ⟨.winTest .isSymlink "C:\\d\\x".toList, (false, none)⟩,
   ⟨.winTest .isDirectory "C:\\d".toList, (true, none)⟩, ⟨.winTest .exists' "C:\\d".toList, (true, none)⟩]

end Spec

/-- `C:\l\..\.` leads to `C:\d`, and that is what `canonical` returns. -/
example : winRooted "C:\\l\\..\\.".toList ∧
    Leads sampleLinks 1 ⟨"C:".toList, []⟩ (winNames (winTail "C:\\l\\..\\.".toList)) ⟨"C:".toList, ["d".toList]⟩ ∧
    (∀ ev ∈ upTrace, LinksAre sampleLinks ev ∧ LinksToldBy sampleLinks ev) ∧ (∀ l ∈ linkTexts upTrace, winLink l) ∧
    ∃ r, Exec (winCanonical false 30 ⟨[], none, none⟩ (mkPath .windows "C:\\l\\..\\.".toList) .null) upTrace (.ok (r, .null)) ∧
      winPlaceOf r.pathname = ⟨"C:".toList, ["d".toList]⟩ := by
  refine ⟨⟨by decide, by decide⟩, ?_, ?_, ?_, ⟨_, feed_exec (by rfl), by decide⟩⟩
  · refine .link (l := "d\\x".toList) (by decide) (by decide) (by decide) ?_
    refine .name (by decide) (by decide) (by decide) (.name (by decide) (by decide) (by decide) (.up (.dot (.here _))))
  · unfold upTrace
    simp only [List.forall_mem_cons, LinksAre, LinksToldBy]
    refine ⟨⟨fun _ => by decide, by decide⟩, ⟨fun l hl => by cases hl; decide, fun l hl => ?_⟩, ⟨fun _ => by decide, by decide⟩,
      ⟨fun _ => by decide, by decide⟩, ⟨trivial, trivial⟩, ⟨trivial, trivial⟩, by simp⟩
    have : sampleLinks (winPlaceOf "C:\\l".toList) = some "d\\x".toList := by decide
    rw [this] at hl
    cases hl
    rfl
  · intro l hl
    have : linkTexts upTrace = ["d\\x".toList] := rfl
    rw [this] at hl
    cases List.mem_singleton.mp hl
    exact ⟨.inl ⟨by decide, by decide⟩, by decide⟩

/-- **C104 is violated**: the link `D:\k` to `\x` leads to `D:\x`; `canonical` returns `\x`, which is on the current drive. -/
theorem c104_violated : ∃ t r,
    Exec (winCanonical false 30 ⟨[], none, none⟩ (mkPath .windows "D:\\k".toList) .null) t (.ok (r, .null)) ∧
    (∀ ev ∈ t, LinksAre sampleLinks ev) ∧ winRooted "D:\\k".toList ∧ r.pathname = "\\x".toList ∧
    Leads sampleLinks 1 ⟨"D:".toList, []⟩ (winNames (winTail "D:\\k".toList)) ⟨"D:".toList, ["x".toList]⟩ ∧
    winPlaceOf r.pathname ≠ ⟨"D:".toList, ["x".toList]⟩ := by
  refine ⟨[⟨.winTest .isSymlink "D:\\k".toList, (true, none)⟩, ⟨.winReadlink "D:\\k".toList, (.ok "\\x".toList : Except Errno Str)⟩,
      ⟨.winTest .isSymlink "\\x".toList, (false, none)⟩, ⟨.winTest .exists' "\\x".toList, (true, none)⟩], _, feed_exec (by rfl), ?_,
    ⟨by decide, by decide⟩, by decide, ?_, by decide⟩
  · simp only [List.forall_mem_cons, LinksAre]
    exact ⟨fun _ => by decide, fun l hl => by cases hl; decide, fun _ => by decide, trivial, by simp⟩
  · exact .link (l := "\\x".toList) (by decide) (by decide) (by decide) (.name (by decide) (by decide) (by decide) (.here _))

end Asap
