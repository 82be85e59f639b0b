import Verif.Props.WinAD
import Verif.Props.WinAC
import Verif.Props.WinG
import Verif.Props.WinS
import Verif.Path.WinExt
import Verif.Win.Whole

/-!
# C105: `canonical` on Windows with all its calls
-/

namespace Asap
namespace Spec

/-- The path a library function is asked about by `canonical`. -/
def askedAbout (e : Event) : Option Str :=
  match e with
  | ⟨.winTest _ p, _⟩ => some p
  | ⟨.winReadlink p, _⟩ => some p
  | _ => none

/-- A library function called by `canonical` reports an error. -/
def TestFails (e : Event) : Prop :=
  match e with
  | ⟨.winTest _ _, r⟩ => (r : Bool × Code).2 ≠ none
  | ⟨.winReadlink _, r⟩ => ∃ x, (r : Except Errno Str) = .error x
  | _ => False

/-- The answers of `is_symlink` and `read_symlink` in a file system with the links `L`; both may fail, and `read_symlink` may answer
anything if there is no link. -/
def LinkTruth (L : WinPlace → Option Str) (e : Event) : Prop :=
  match e with
  | ⟨.winTest .isSymlink p, r⟩ => ((r : Bool × Code).1 = true → r.2 = none ∧ (L (winPlaceOf p)).isSome) ∧
      (r.1 = false → r.2 = none → L (winPlaceOf p) = none)
  | ⟨.winReadlink p, r⟩ => ∀ l l', (r : Except Errno Str) = .ok l → L (winPlaceOf p) = some l' → l = l'
  | _ => True

/-- Some name `.` was found at something that is not a directory. -/
def DotAtFile (t : List Event) : Prop := ∃ p, (⟨.winTest .isDirectory p, ((false, none) : Bool × Code)⟩ : Event) ∈ t

end Spec
open Spec

/-- All paths asked about are absolute, and links are read only where there are links. -/
def Orderly (L : WinPlace → Option Str) (t : List Event) : Prop :=
  ∀ e ∈ t, (∀ p, askedAbout e = some p → winRooted p) ∧ (∀ p r, e = ⟨.winReadlink p, r⟩ → L (winPlaceOf p) ≠ none)

theorem orderly_snoc {L : WinPlace → Option Str} {t : List Event} {e : Event} (h : Orderly L t)
    (h1 : ∀ p, askedAbout e = some p → winRooted p) (h2 : ∀ p r, e = ⟨.winReadlink p, r⟩ → L (winPlaceOf p) ≠ none) :
    Orderly L (t ++ [e]) := by
  intro x hx
  rcases List.mem_append.mp hx with hx | hx
  · exact h x hx
  · cases List.mem_singleton.mp hx
    exact ⟨h1, h2⟩

theorem orderly_test {L : WinPlace → Option Str} {t : List Event} {q : WinTest} {p : Str} {r : Bool × Code} (h : Orderly L t)
    (h1 : winRooted p) : Orderly L (t ++ [⟨.winTest q p, r⟩]) :=
  orderly_snoc h (fun _ hp => by cases hp; exact h1) (fun _ _ he => by cases he)

theorem orderly_read {L : WinPlace → Option Str} {t : List Event} {p : Str} {r : Except Errno Str} (h : Orderly L t)
    (h1 : winRooted p) (h2 : L (winPlaceOf p) ≠ none) : Orderly L (t ++ [⟨.winReadlink p, r⟩]) :=
  orderly_snoc h (fun _ hp => by cases hp; exact h1) (fun _ _ he => by cases he; exact h2)

theorem known_winRooted {t : List Event} {u : Str} (h : Known t u) : winRooted (mkPath .windows u).pathname := by
  obtain ⟨_, h2, h3, h4⟩ := win_stored_facts u
  refine ⟨?_, fun w hw => ?_⟩
  · rcases h.rooted with h | h
    · exact .inl (h3.trans h)
    · refine .inr ?_
      rw [winUnc, h2]
      exact h.1
  · rw [h4] at hw
    exact (h.plain w hw).1.2.2

theorem append_winRooted {t : List Event} {u w : Str} (h : Known t u) (hw : PlainName w) :
    winRooted (mkPath .windows (winAppendText u w)).pathname := by
  obtain ⟨_, a1, a2, a3, a4, a5⟩ := win_append_plain u hw
  obtain ⟨_, h2, h3, h4⟩ := win_stored_facts (winAppendText u w)
  refine ⟨.inl ?_, fun x hx => ?_⟩
  · rw [h3, a3, decide_eq_true_eq]
    rcases h.rooted with h | h
    · exact .inl h
    · exact .inr h.1
  · rw [h4, a4] at hx
    rcases List.mem_append.mp hx with hx | hx
    · exact (h.plain x hx).1.2.2
    · cases List.mem_singleton.mp hx; exact hw.2.2

theorem canonLoop_failed (h : Handler) (root : Path) (n : Nat) (result : Path) (cmpts : List Path) (k : Int) (e : Errno) (ec : EcArg) :
    winCanonLoop false h root n result cmpts k (some e) ec = .ret (result, some e, ec) := by
  cases cmpts <;> cases n <;> rfl

/-- Outcome of the loop on the way to `y`. -/
def LoopEnd (L : WinPlace → Option Str) (y : WinPlace) (ec : EcArg) (o : Except Stop (Path × Code × EcArg)) (s' : List Event) : Prop :=
  Orderly L s' ∧ (linkTexts s').length < 40 ∧ (o = .error .fuel ∨
    (∃ x, o = .error (.thrown x) ∧ ec = .null ∧ x.code = some .ENOTDIR ∧ DotAtFile s') ∨
    (∃ r e e', o = .ok (r, some e, e') ∧ (e' = ec ∨ e' = .ref (some .ENOTDIR) ∧ DotAtFile s' ∧ ec ≠ .null) ∧ ∃ ev ∈ s', TestFails ev) ∨
    ∃ v e', o = .ok (mkPath .windows v, none, e') ∧ Known s' v ∧ winPlaceOf v = y ∧ (e' = ec ∨ e' = .ref (some .ENOTDIR) ∧ DotAtFile s' ∧ ec ≠ .null))

theorem LoopEnd.later {L : WinPlace → Option Str} {y : WinPlace} {ec : EcArg} {c : Code} {o : Except Stop (Path × Code × EcArg)}
    {s' : List Event} (hec : ec = .ref c) (hd : DotAtFile s') (h : LoopEnd L y (.ref (some .ENOTDIR)) o s') : LoopEnd L y ec o s' := by
  obtain ⟨h1, h2, h3⟩ := h
  refine ⟨h1, h2, ?_⟩
  rcases h3 with h3 | ⟨x, h3, h4, _⟩ | ⟨r, e, e', h3, h4, h5⟩ | ⟨v, e', h3, h4, h5, h6⟩
  · exact .inl h3
  · cases h4
  · refine .inr (.inr (.inl ⟨r, e, e', h3, .inr ⟨?_, hd, by rw [hec]; simp⟩, h5⟩))
    rcases h4 with h4 | h4
    · exact h4
    · exact h4.1
  · refine .inr (.inr (.inr ⟨v, e', h3, h4, h5, .inr ⟨?_, hd, by rw [hec]; simp⟩⟩))
    rcases h6 with h6 | h6
    · exact h6
    · exact h6.1

/-- Events about absolute paths are right. -/
def RootedTruth (L : WinPlace → Option Str) (e : Event) : Prop := (∀ p, askedAbout e = some p → winRooted p) → LinkTruth L e

/-- An event that has been is not forgotten. -/
theorem wp_grow {α : Type} {P : Event → Prop} {Q Q' : Except Stop α → List Event → Prop} {p : Prog α} {s : List Event} (hd : DotAtFile s)
    (hQ : ∀ o s', DotAtFile s' → Q o s' → Q' o s') (h : wp (TrOf P) Q p s) : wp (TrOf P) Q' p s := by
  induction p generalizing s with
  | ret a => exact hQ _ _ hd h
  | stop x => exact hQ _ _ hd h
  | call c k ih =>
    rintro r _ ⟨rfl, hr⟩
    refine ih r ?_ (h r _ ⟨rfl, hr⟩)
    obtain ⟨q, hq⟩ := hd
    exact ⟨q, List.mem_append_left _ hq⟩

theorem canonLoop_run (L : WinPlace → Option Str) (hL : ∀ x l, L x = some l → winLink l) (y : WinPlace) (h : Handler) (root : Path) :
    ∀ (n : Nat) (u : Str) (cmpts : List Path) (k : Int) (ec : EcArg) (j : Nat) (s : List Event),
    Known s u → Leads L j (winPlaceOf u) (queueNames cmpts) y → (j : Int) < k → k = 40 - ((linkTexts s).length : Int) →
    (∀ f ∈ cmpts, f.pathname = [] ∨ PlainName f.pathname) → Orderly L s →
    wp (TrOf (RootedTruth L)) (LoopEnd L y ec)
      (winCanonLoop false h root n (mkPath .windows u) cmpts k none ec) s := by
  intro n
  induction n with
  | zero =>
    intro u cmpts k ec j s hu hy hj hk hc hor
    match cmpts with
    | [] => simp only [winCanonLoop, wp]; cases hy; exact ⟨hor, by omega, .inr (.inr (.inr ⟨u, ec, rfl, hu, rfl, .inl rfl⟩))⟩
    | c :: cs => simp only [winCanonLoop, wp]; exact ⟨hor, by omega, .inl rfl⟩
  | succ n ih =>
    intro u cmpts k ec j s hu hy hj hk hc hor
    match cmpts with
    | [] => simp only [winCanonLoop, wp]; cases hy; exact ⟨hor, by omega, .inr (.inr (.inr ⟨u, ec, rfl, hu, rfl, .inl rfl⟩))⟩
    | c :: cs =>
      rw [winCanonLoop]
      have hcs : ∀ f ∈ cs, f.pathname = [] ∨ PlainName f.pathname := fun f hf => hc f (by simp [hf])
      have hpn : (c.moved .windows).pathname = c.pathname := by
        rcases hc c (by simp) with h0 | h0
        · rw [Path.moved, h0]; rfl
        · exact win_pathname_rel fun x hx => h0.2.1 x (List.mem_of_head? hx)
      split
      · rename_i he
        have h0 : c.pathname = [] := by
          rw [Path.isEmpty, hpn] at he
          exact List.isEmpty_iff.mp he
        refine ih u cs k ec j s hu ?_ hj hk hcs hor
        rw [queueNames, List.map_cons, h0, List.filter_cons_of_neg (by simp)] at hy
        exact hy
      rename_i hne
      have hq : queueNames (c :: cs) = c.pathname :: queueNames cs := by
        rw [queueNames, List.map_cons, List.filter_cons_of_pos]
        · rfl
        · rw [decide_eq_true_eq]
          intro h0
          apply hne
          rw [Path.isEmpty, hpn, h0]
          rfl
      rw [hq] at hy
      rw [hpn]
      split
      · rename_i hdot
        have hdot : c.pathname = ['.'] := by simpa [isDot] using hdot
        rw [hdot] at hy
        have hy' : Leads L j (winPlaceOf u) (queueNames cs) y := by
          cases hy with
          | dot h => exact h
          | name h => exact absurd rfl h
          | link h => exact absurd rfl h
        rintro ⟨b, m⟩ _ ⟨rfl, -⟩
        have hor1 : Orderly L (s ++ [⟨.winTest .isDirectory (mkPath .windows u).pathname, ((b, m) : Bool × Code)⟩]) :=
          orderly_test hor (known_winRooted hu)
        dsimp only
        cases m with
        | some e =>
          rw [if_neg (by simp), canonLoop_failed]
          exact ⟨hor1, by rw [linkTexts_test]; omega, .inr (.inr (.inl ⟨_, e, ec, rfl, .inl rfl, _,
            List.mem_append_right _ (List.mem_singleton.mpr rfl), by simp [TestFails]⟩))⟩
        | none =>
          have next : ∀ ec', wp (TrOf (RootedTruth L)) (LoopEnd L y ec') (winCanonLoop false h root n (mkPath .windows u) cs k none ec')
              (s ++ [⟨.winTest .isDirectory (mkPath .windows u).pathname, ((b, none) : Bool × Code)⟩]) := fun ec' =>
            ih u cs k ec' j _ (hu.snoc _) hy' hj (by rw [linkTexts_test]; exact hk) hcs hor1
          cases b with
          | true =>
            rw [if_neg (by simp)]
            exact next ec
          | false =>
            rw [if_pos (by simp)]
            have hdf : DotAtFile (s ++ [⟨.winTest .isDirectory (mkPath .windows u).pathname, ((false, none) : Bool × Code)⟩]) :=
              ⟨_, List.mem_append_right _ (List.mem_singleton.mpr rfl)⟩
            match ec with
            | .null =>
              simp only [Handler.report, Prog.stop_bind, wp]
              exact ⟨hor1, by rw [linkTexts_test]; omega, .inr (.inl ⟨_, rfl, rfl, error_code _ _ _, hdf⟩)⟩
            | .ref c0 =>
              simp only [Handler.report, Prog.ret_bind]
              refine wp_grow hdf (fun o s' hd' ho => LoopEnd.later rfl hd' ho) (next _)
      rename_i hdot
      split
      · rename_i hddot
        have hddot : c.pathname = ['.', '.'] := by simpa [isDotDot] using hddot
        rw [hddot] at hy
        have hy' : Leads L j ⟨(winPlaceOf u).root, (winPlaceOf u).names.dropLast⟩ (queueNames cs) y := by
          cases hy with
          | up h => exact h
          | name _ h => exact absurd rfl h
          | link _ h => exact absurd rfl h
        obtain ⟨v, h1, h2, h3⟩ := known_parent_place hu
        rw [h1, Prog.ofRes_ok, Prog.ret_bind, known_nonempty h2, if_neg Bool.false_ne_true]
        rw [← h3] at hy'
        exact ih v cs k ec j s h2 hy' hj hk hcs hor
      rename_i hddot
      have hw : PlainName c.pathname := by
        rcases hc c (by simp) with h0 | h0
        · exfalso; apply hne; rw [Path.isEmpty, hpn, h0]; rfl
        · exact h0
      have hd1 : c.pathname ≠ ['.'] := by intro h0; rw [h0] at hdot; exact hdot rfl
      have hd2 : c.pathname ≠ ['.', '.'] := by intro h0; rw [h0] at hddot; exact hddot rfl
      have ha := (win_append_plain u hw).1
      have hplace : winPlaceOf (mkPath .windows (winAppendText u c.pathname)).pathname = (winPlaceOf u).below c.pathname := by
        rw [placeOf_stored, placeOf_append hw]
      rw [show c.moved .windows = mkPath .windows c.pathname from rfl, ha, Prog.ofRes_ok, Prog.ret_bind]
      have hroot := append_winRooted hu hw
      rintro ⟨b, m⟩ _ ⟨rfl, hb⟩
      have hb : (b = true → m = none ∧ (L (winPlaceOf (mkPath .windows (winAppendText u c.pathname)).pathname)).isSome) ∧
          (b = false → m = none → L (winPlaceOf (mkPath .windows (winAppendText u c.pathname)).pathname) = none) :=
        hb fun p hp => by cases hp; exact hroot
      rw [hplace] at hb
      have hor1 : Orderly L (s ++ [⟨.winTest .isSymlink (mkPath .windows (winAppendText u c.pathname)).pathname, ((b, m) : Bool × Code)⟩]) :=
        orderly_test hor hroot
      cases b with
      | false =>
        dsimp only
        rw [if_neg Bool.false_ne_true]
        cases m with
        | some e =>
          rw [canonLoop_failed]
          exact ⟨hor1, by rw [linkTexts_test]; omega, .inr (.inr (.inl ⟨_, e, ec, rfl, .inl rfl, _,
            List.mem_append_right _ (List.mem_singleton.mpr rfl), by simp [TestFails]⟩))⟩
        | none =>
          have hLc := hb.2 rfl rfl
          have hy' : Leads L j ((winPlaceOf u).below c.pathname) (queueNames cs) y := by
            rcases leads_cons hy hd1 hd2 with ⟨_, h⟩ | ⟨l, j', h, _⟩
            · exact h
            · rw [hLc] at h; cases h
          rw [← placeOf_append hw] at hy'
          refine ih _ cs k ec j _ ((hu.snoc _).name hw hd1 hd2 ?_) hy' hj (by rw [linkTexts_test]; exact hk) hcs hor1
          simp
      | true =>
        obtain ⟨rfl, hsome⟩ := hb.1 rfl
        obtain ⟨l, hLc⟩ := Option.isSome_iff_exists.mp hsome
        dsimp only
        rw [if_pos rfl]
        have hlt1 := linkTexts_test s .isSymlink (mkPath .windows (winAppendText u c.pathname)).pathname (true, none)
        have hu1 := hu.snoc (⟨.winTest .isSymlink (mkPath .windows (winAppendText u c.pathname)).pathname, ((true, none) : Bool × Code)⟩ : Event)
        generalize s ++ [(⟨.winTest .isSymlink (mkPath .windows (winAppendText u c.pathname)).pathname, ((true, none) : Bool × Code)⟩ : Event)] = s1 at hu1 hlt1 hor1
        rintro r _ ⟨rfl, hr⟩
        have hr : ∀ a l', r = .ok a → L (winPlaceOf (mkPath .windows (winAppendText u c.pathname)).pathname) = some l' → a = l' :=
          hr fun p hp => by cases hp; exact hroot
        have hor2 : Orderly L (s1 ++ [⟨.winReadlink (mkPath .windows (winAppendText u c.pathname)).pathname, r⟩]) :=
          orderly_read hor1 hroot (by rw [hplace, hLc]; simp)
        rw [hplace] at hr
        cases r with
        | error e =>
          have hlt2 := linkTexts_err s1 (mkPath .windows (winAppendText u c.pathname)).pathname e
          dsimp only
          rw [canonLoop_failed]
          exact ⟨hor2, by rw [hlt2, hlt1]; omega, .inr (.inr (.inl ⟨_, e, ec, rfl, .inl rfl, _,
            List.mem_append_right _ (List.mem_singleton.mpr rfl), ⟨e, rfl⟩⟩))⟩
        | ok a =>
        cases hr a l rfl hLc
        have hlt2 := linkTexts_ok s1 (mkPath .windows (winAppendText u c.pathname)).pathname l
        have hu2 := hu1.snoc (⟨.winReadlink (mkPath .windows (winAppendText u c.pathname)).pathname, (.ok l : Except Errno Str)⟩ : Event)
        generalize s1 ++ [(⟨.winReadlink (mkPath .windows (winAppendText u c.pathname)).pathname, (.ok l : Except Errno Str)⟩ : Event)] = s2 at hu2 hlt2 hor2
        have hl2 : (linkTexts s2).length = (linkTexts s).length + 1 := by rw [hlt2, hlt1]; simp
        obtain ⟨j', rfl, hy'⟩ : ∃ j', j = j' + 1 ∧ Leads L j' (linkStart (winPlaceOf u) l) (winNames (winTail l) ++ queueNames cs) y := by
          rcases leads_cons hy hd1 hd2 with ⟨h, _⟩ | ⟨l, j', h, h', h''⟩
          · rw [hLc] at h; cases h
          · rw [hLc] at h; cases h; exact ⟨_, h', h''⟩
        obtain ⟨hs1, hs2⟩ := hL _ _ hLc
        dsimp only
        rw [if_neg (by omega), if_neg (by omega), win_isAbsolute, Prog.ofRes_ok, Prog.ret_bind]
        split
        · rename_i habs
          obtain ⟨rel, hrel, _⟩ := win_relativePath l
          rw [hrel, Prog.ofRes_ok, Prog.ret_bind]
          have hroot' : winRootLen l ≠ 0 := by
            rcases hs1 with h1 | h1
            · rw [h1.2, Bool.or_false, winUnc, h1.1] at habs
              cases habs
            · exact h1.1
          have hv : rootPath .windows (mkPath .windows l) = mkPath .windows (winRootPath l) := by
            rcases win_rootPath l with hr | ⟨_, hr⟩
            · exact hr
            · obtain ⟨_, _, _, f4⟩ := winRootPath_facts l
              rw [hr] at f4
              exact absurd f4.symm hroot'
          have hk2 : Known s2 (winRootPath l) := by
            obtain ⟨f1, f2, f3, f4⟩ := winRootPath_facts l
            refine ⟨?_, by simp [f3], fun _ => f3, by simp [f3]⟩
            rw [Bool.or_eq_true] at habs
            rcases habs with h | h
            · refine .inr ⟨?_, f3⟩
              rw [winUnc, f4]
              exact h
            · exact .inl (f2.trans h)
          rw [hv]
          refine ih _ _ (k - 1) ec j' s2 hk2 ?_ (by omega) (by omega) ?_ hor2
          · rw [queueNames_append, queueNames_rel hs2 hrel, placeOf_rootPath]
            rw [linkStart, if_pos hroot'] at hy'
            exact hy'
          · intro f hf
            rcases List.mem_append.mp hf with hf | hf
            · exact rel_plain hs2 hrel f hf
            · exact hcs f hf
        · rename_i habs
          rw [Bool.or_eq_true, not_or, Bool.not_eq_true, Bool.not_eq_true] at habs
          have hz : winRootLen l = 0 := by
            rcases hs1 with h1 | h1
            · exact h1.1
            · rcases h1.2 with h | h
              · rw [habs.2] at h; cases h
              · rw [habs.1] at h; cases h
          obtain ⟨v, h1, h2, h3⟩ := known_parent_of_name hu2 hw
          rw [h1, Prog.ofRes_ok, Prog.ret_bind]
          refine ih _ _ (k - 1) ec j' s2 h2 ?_ (by omega) (by omega) ?_ hor2
          · rw [queueNames_append, queueNames_link hz habs.2, h3]
            rw [linkStart, if_neg (by simp [hz]), habs.2, if_neg Bool.false_ne_true] at hy'
            exact hy'
          · intro f hf
            rcases List.mem_append.mp hf with hf | hf
            · exact link_plain hs2 hz habs.2 f hf
            · exact hcs f hf

namespace Spec

/-- Outcome of `canonical` on the way to `y`: a path that names it, maybe with `ENOTDIR`; or an error, because something is missing,
or because of a name `.` at a file. -/
def CanonEnd (y : WinPlace) (ec : EcArg) (there : Str → Prop) (missing dot : Prop) (o : Except Stop (Path × EcArg)) : Prop :=
  (∃ r e, o = .ok (r, e) ∧ winPlaceOf r.pathname = y ∧ there r.pathname ∧ (e = ec ∨ e = .ref (some .ENOTDIR) ∧ dot)) ∨
    (∃ c, ec = .ref c ∧ o = .ok (.default, .ref (some .ENOENT)) ∧ missing) ∨
    (ec = .null ∧ ∃ x, o = .error (.thrown x) ∧ (x.code = some .ENOENT ∧ missing ∨ x.code = some .ENOTDIR ∧ dot))

/-- A library function reports an error, or `exists` is false. -/
def MissingIn (t : List Event) : Prop := ∃ ev ∈ t, TestFails ev ∨ ∃ p r, ev = ⟨.winTest .exists' p, r⟩ ∧ (r : Bool × Code).1 = false

/-- `exists` is true. -/
def SeenIn (t : List Event) (p : Str) : Prop := ∃ c : Code, (⟨.winTest .exists' p, ((true, c) : Bool × Code)⟩ : Event) ∈ t

end Spec

theorem canonical_run (L : WinPlace → Option Str) (hL : ∀ x l, L x = some l → winLink l) (n : Nat) (h : Handler) (s : Str) (ec : EcArg)
    (k : Nat) (y : WinPlace) (hs : winRooted s) (hy : Leads L k ⟨winRootName s, []⟩ (winNames (winTail s)) y) (hk : k < 40) :
    wp (TrOf (RootedTruth L)) (fun (o : Except Stop (Path × EcArg)) t => Orderly L t ∧ (linkTexts t).length < 40 ∧
      (o = .error .fuel ∨ CanonEnd y ec (SeenIn t) (MissingIn t) (DotAtFile t) o))
      (winCanonical false n h (mkPath .windows s) ec) [] := by
  obtain ⟨rel, hrel, _⟩ := win_relativePath s
  obtain ⟨u, h1, h2, h3⟩ := root_place (s := s) [] hs.1
  rw [winCanonical, hrel, Prog.ofRes_ok, Prog.ret_bind, h1]
  have hrep : ∀ (e' : EcArg) (t : List Event), Orderly L t → (linkTexts t).length < 40 → MissingIn t →
      (e' = ec ∨ e' = .ref (some .ENOTDIR) ∧ DotAtFile t ∧ ec ≠ .null) →
      wp (TrOf (RootedTruth L)) (fun (o : Except Stop (Path × EcArg)) t => Orderly L t ∧ (linkTexts t).length < 40 ∧
        (o = .error .fuel ∨ CanonEnd y ec (SeenIn t) (MissingIn t) (DotAtFile t) o)) (h.report e' (some .ENOENT) Path.default) t := by
    intro e' t ho hlt hm he
    match e', he with
    | .null, he =>
      rcases he with rfl | he
      · exact ⟨ho, hlt, .inr (.inr (.inr ⟨rfl, _, rfl, .inl ⟨error_code _ _ _, hm⟩⟩))⟩
      · cases he.1
    | .ref c, he =>
      refine ⟨ho, hlt, .inr (.inr (.inl ?_))⟩
      rcases he with rfl | he
      · exact ⟨c, rfl, rfl, hm⟩
      · cases ec with
        | null => exact absurd rfl he.2.2
        | ref c0 => exact ⟨c0, rfl, rfl, hm⟩
  refine wp_bind (wp_mono ?_ (canonLoop_run L hL y h (mkPath .windows u) n u rel.elems 40 ec k [] h2 ?_ (by omega) (by simp [linkTexts])
    (rel_plain hs.2 hrel) (by intro e he; cases he)))
  · rintro o t ⟨ho, hlt, h0⟩
    rcases h0 with rfl | ⟨x, rfl, hec, hx, hd⟩ | ⟨r, e, e', rfl, he, ev, hev, hf⟩ | ⟨v, e', rfl, hv, hy', he⟩
    · exact ⟨ho, hlt, .inl rfl⟩
    · exact ⟨ho, hlt, .inr (.inr (.inr ⟨hec, x, rfl, .inr ⟨hx, hd⟩⟩))⟩
    · dsimp only
      rw [if_pos (by simp)]
      refine hrep e' t ho hlt ⟨ev, hev, .inl hf⟩ he
    · dsimp only
      rw [if_neg (by simp)]
      rintro ⟨b, m⟩ _ ⟨rfl, -⟩
      have ho' := orderly_test (q := .exists') (r := (b, m)) ho (known_winRooted hv)
      have hlt' : (linkTexts (t ++ [⟨.winTest .exists' (mkPath .windows v).pathname, ((b, m) : Bool × Code)⟩])).length < 40 := by
        rw [linkTexts_test]; exact hlt
      cases b with
      | false =>
        refine hrep e' _ ho' hlt' ⟨_, List.mem_append_right _ (List.mem_singleton.mpr rfl), .inr ⟨_, _, rfl, rfl⟩⟩ ?_
        rcases he with he | ⟨he, ⟨q, hq⟩, hn⟩
        · exact .inl he
        · exact .inr ⟨he, ⟨q, List.mem_append_left _ hq⟩, hn⟩
      | true =>
        refine ⟨ho', hlt', .inr (.inl ⟨_, e', rfl, ?_, ?_, ?_⟩)⟩
        · have : (returned .windows false (mkPath .windows v)).pathname = (mkPath .windows (mkPath .windows v).pathname).pathname := rfl
          rw [this, placeOf_stored, placeOf_stored]
          exact hy'
        · have : (returned .windows false (mkPath .windows v)).pathname = (mkPath .windows (mkPath .windows v).pathname).pathname := rfl
          rw [this, win_reparse]
          exact ⟨m, List.mem_append_right _ (List.mem_singleton.mpr rfl)⟩
        · rcases he with he | ⟨he, ⟨q, hq⟩, _⟩
          · exact .inl he
          · exact .inr ⟨he, q, List.mem_append_left _ hq⟩
  · rw [h3, queueNames_rel hs.2 hrel]
    exact hy

/-! ## The library functions -/

namespace Spec

/-- A symbolic link or a mount point. -/
def IsLink (g : Option WinObj) : Prop := ∃ x, g = some x ∧ (x.tag = some 0xA000000C#32 ∨ x.tag = some 0xA0000003#32)

/-- One of the calls that look at files fails. -/
def CallFails (e : Event) : Prop :=
  match e with
  | ⟨.win (.getAttrs _), .error _⟩ | ⟨.win (.createFile _ _), .error _⟩ | ⟨.win (.attrTag _), .error _⟩
  | ⟨.win (.reparse _), .error _⟩ | ⟨.win (.getPerms _ _), .error _⟩ => True
  | _ => False

/-- `WinLaw`, and the data of a symbolic link hold its text. -/
def ReadLaw (D : WinDisk) (T : WinObj → Str) (hs : Handles) (e : Event) (hs' : Handles) : Prop :=
  WinLaw D hs e hs' ∧ match e with
    | ⟨.win (.reparse h), .ok ws⟩ => ∀ x, hs h = some x → x.tag = some 0xA000000C#32 → ∃ text, LinkBuffer 10 ws text ∧ wideText text = T x
    | _ => True

end Spec
namespace Win

theorem isLink_kind (g : Option WinObj) : linkKind g = .symlink ↔ IsLink g := by
  rcases g with _ | x
  · simp [linkKind, IsLink]
  · cases ht : x.tag with
    | none => cases hd : x.dir <;> simp [linkKind, IsLink, ht, hd]
    | some tag => simp only [linkKind, IsLink, ht, Option.some.injEq, exists_eq_left']; split <;> simp_all

theorem wp_fine_file {α : Type} {Q : Except Stop α → Prop} {p : Path} {o : WinOpen} {fail : Errno → Prog α} {body : Nat → Prog α}
    (hb : ∀ h, wp (Each fun e => ¬ CallFails e) (fun o _ => Q o) (body h) ()) :
    wp (Each fun e => ¬ CallFails e) (fun o _ => Q o) (withFile p o fail body) () := by
  rintro (e | h) ⟨⟩ h1
  · exact absurd trivial h1
  · refine wp_finally (wp_mono ?_ (hb h))
    intro o s ho
    exact ⟨fun _ _ _ _ => ho, fun _ => ho⟩

theorem wp_fine_status (p : Path) (c : Code) :
    wp (Each fun e => ¬ CallFails e) (fun o _ => ∃ st, o = .ok (st, .ref none) ∧ st.exists' = true) (Win.status p (.ref c)) () := by
  rintro (e | a) ⟨⟩ h1
  · exact absurd trivial h1
  refine wp_bind (wp_mono (Q := fun (o : Except Stop (Except Errno Mask)) _ => ∃ b, o = .ok (.ok b)) ?_ ?_)
  · rintro o ⟨⟩ ⟨b, rfl⟩
    rintro (e | prms) ⟨⟩ h1
    · exact absurd trivial h1
    · refine ⟨_, rfl, ?_⟩
      cases has b FILE_ATTRIBUTE_DIRECTORY <;> rfl
  · unfold targetAttrs
    split
    · refine wp_fine_file fun h => ?_
      rintro (e | b) ⟨⟩ h1
      · exact absurd trivial h1
      · exact ⟨b, rfl⟩
    · exact ⟨a, rfl⟩

theorem wp_fine_symlinkStatus (p : Path) (c : Code) :
    wp (Each fun e => ¬ CallFails e) (fun o _ => ∃ st, o = .ok (st, .ref none)) (Win.symlinkStatus p (.ref c)) () := by
  rintro (e | a) ⟨⟩ h1
  · exact absurd trivial h1
  rintro (e | prms) ⟨⟩ h1
  · exact absurd trivial h1
  dsimp only
  split
  · refine wp_bind (wp_mono (Q := fun (o : Except Stop (Bool × EcArg)) _ => ∃ b, o = .ok (b, .ref none)) ?_ ?_)
    · rintro o ⟨⟩ ⟨b, rfl⟩
      exact ⟨_, rfl⟩
    · refine wp_fine_file fun h => ?_
      rintro (e | ws) ⟨⟩ h1
      · exact absurd trivial h1
      · exact ⟨_, rfl⟩
  · exact ⟨_, rfl⟩

end Win

/-- What an answer of a library function says of the disk; `nf`: no call fails, `w`: calls fail only where there is nothing. -/
def TestTruth (D : WinDisk) (T : WinObj → Str) (nf w : Prop) (e : Event) : Prop :=
  match e with
  | ⟨.winTest .isSymlink p, r⟩ => ((r : Bool × Code).1 = true → r.2 = none ∧ IsLink (D.look p)) ∧
      (r.1 = false → r.2 = none → ¬ IsLink (D.look p)) ∧ (nf → r.2 = none)
  | ⟨.winTest .isDirectory p, r⟩ => ((r : Bool × Code).1 = false → r.2 = none → ∃ x, D.goal p = some x ∧ x.dir = false) ∧ (nf → r.2 = none)
  | ⟨.winTest .exists' p, r⟩ => (w → (r : Bool × Code).1 = true → D.goal p ≠ none) ∧ (nf → r.1 = true ∧ r.2 = none)
  | ⟨.winReadlink p, r⟩ => (∀ l x, (r : Except Errno Str) = .ok l → D.look p = some x → x.tag = some 0xA000000C#32 →
      l = (mkPath .windows (T x)).pathname) ∧ (nf → ∃ l, r = .ok l)
  | _ => True

theorem readLaw_win {D : WinDisk} {T : WinObj → Str} {hs hs' : Handles} {t : List Event} (h : Steps (ReadLaw D T) hs t hs') :
    Steps (WinLaw D) hs t hs' := by
  induction h with
  | nil s => exact .nil s
  | cons h1 _ ih => exact .cons h1.1 ih

theorem test_truth {D : WinDisk} {T : WinObj → Str} {q : WinTest} {p : Str} {t : List Event} {o : Except Stop (Bool × EcArg)}
    {hs hs' : Handles} {nf w : Prop} (h : Exec (Win.testProg q ⟨p, [], .filename⟩) t o) (hl : Steps (ReadLaw D T) hs t hs')
    (hnf : nf → ∀ e ∈ t, ¬ CallFails e) (hw : w → ∀ e ∈ t, WinWilling e) :
    hs' = hs ∧ ∃ b c, o = .ok (b, .ref c) ∧ TestTruth D T nf w ⟨.winTest q p, (b, c)⟩ := by
  have hl : Steps (Win.LawW D w) hs t hs' := steps_and (readLaw_win hl) fun e he hw' => hw hw' e he
  cases q with
  | isSymlink =>
    have k1 := wp_sound (Q := fun o s => s = hs ∧ ∃ b c, o = .ok (b, .ref c) ∧ (b = true → c = none ∧ IsLink (D.look p)) ∧
        (b = false → c = none → ¬ IsLink (D.look p))) (by
      refine wp_bind (wp_mono ?_ (wp_winSymlinkStatus D w ⟨p, [], .filename⟩ none hs))
      rintro o s ⟨rfl, ⟨st, ec, rfl, hc, hw⟩ | ⟨hw, h1, st, e, rfl, h2⟩⟩
      · refine ⟨rfl, ?_⟩
        rcases hc with ⟨rfl, h1, h2⟩ | ⟨e, rfl, hc⟩
        · refine ⟨_, _, rfl, fun hb => ⟨rfl, ?_⟩, fun hb _ => ?_⟩
          · rw [← Win.isLink_kind, ← h2]; simpa [FStatus.isSymlink] using hb
          · rw [← Win.isLink_kind, ← h2]; simpa [FStatus.isSymlink] using hb
        · refine ⟨_, _, rfl, fun hb => ?_, fun _ hb => by cases hb⟩
          rcases hc with hc | hc | hc <;> simp [FStatus.isSymlink, hc.1] at hb
      · exact ⟨rfl, _, _, rfl, fun hb => by simp [FStatus.isSymlink, h2] at hb, fun _ hb => by cases hb⟩) h hl
    obtain ⟨hh, b, c, rfl, h1, h2⟩ := k1
    refine ⟨hh, b, c, rfl, h1, h2, fun hn => ?_⟩
    have := wp_sound (Q := fun o _ => ∃ b, o = .ok (b, .ref none)) (by
      refine wp_bind (wp_mono ?_ (Win.wp_fine_symlinkStatus ⟨p, [], .filename⟩ none))
      rintro o s ⟨st, rfl⟩
      exact ⟨_, rfl⟩) h (steps_each (hnf hn))
    obtain ⟨b', h3⟩ := this
    cases h3
    rfl
  | isDirectory =>
    have k1 := wp_sound (Q := fun o s => s = hs ∧ ∃ b c, o = .ok (b, .ref c) ∧
        (b = false → c = none → ∃ x, D.goal p = some x ∧ x.dir = false)) (by
      refine wp_bind (wp_mono ?_ (wp_winStatus D w ⟨p, [], .filename⟩ none hs))
      rintro o s ⟨⟨st, ec, rfl, hc, hw⟩, rfl⟩
      refine ⟨rfl, ?_⟩
      rcases hc with ⟨rfl, h1, h2⟩ | ⟨e, rfl, hc⟩
      · refine ⟨_, _, rfl, fun hb _ => ?_⟩
        dsimp only at h1 h2
        cases hg : D.goal p with
        | none => exact absurd hg h1
        | some x =>
          refine ⟨x, rfl, ?_⟩
          rw [hg, fileKind] at h2
          cases hd : x.dir with
          | false => rfl
          | true => rw [hd, if_pos rfl] at h2; simp [FStatus.isDirectory, h2] at hb
      · exact ⟨_, _, rfl, fun _ hb => by cases hb⟩) h hl
    obtain ⟨hh, b, c, rfl, h1⟩ := k1
    refine ⟨hh, b, c, rfl, h1, fun hn => ?_⟩
    have := wp_sound (Q := fun o _ => ∃ b, o = .ok (b, .ref none)) (by
      refine wp_bind (wp_mono ?_ (Win.wp_fine_status ⟨p, [], .filename⟩ none))
      rintro o s ⟨st, rfl, _⟩
      exact ⟨_, rfl⟩) h (steps_each (hnf hn))
    obtain ⟨b', h3⟩ := this
    cases h3
    rfl
  | exists' =>
    have k1 := wp_sound (Q := fun o s => s = hs ∧ ∃ b c, o = .ok (b, .ref c) ∧ (w → b = true → D.goal p ≠ none)) (by
      refine wp_bind (wp_mono ?_ (wp_winStatus D w ⟨p, [], .filename⟩ none hs))
      rintro o s ⟨⟨st, ec, rfl, hc, hw⟩, rfl⟩
      have key : w → st.exists' = true → D.goal p ≠ none := by
        intro h hb hg
        have := hw h
        dsimp only at this
        rw [hg] at this
        simp [FStatus.exists', this, fileKind, FStatus.known] at hb
      have hcode : ∃ c, ec = .ref c := by
        rcases hc with ⟨rfl, _⟩ | ⟨e, rfl, _⟩ <;> exact ⟨_, rfl⟩
      obtain ⟨c, rfl⟩ := hcode
      refine ⟨rfl, _, if st.known then none else c, ?_, key⟩
      dsimp only
      split <;> rfl) h hl
    obtain ⟨hh, b, c, rfl, h1⟩ := k1
    refine ⟨hh, b, c, rfl, h1, fun hn => ?_⟩
    have := wp_sound (Q := fun o _ => o = .ok (true, .ref none)) (by
      refine wp_bind (wp_mono ?_ (Win.wp_fine_status ⟨p, [], .filename⟩ none))
      rintro o s ⟨st, rfl, h2⟩
      show Except.ok (st.exists', if st.known then _ else _) = _
      rw [h2]
      split <;> rfl) h (steps_each (hnf hn))
    cases this
    exact ⟨rfl, rfl⟩

/-- `read_symlink` answers, or it reads something that is no symbolic link. -/
theorem read_truth {D : WinDisk} {T : WinObj → Str} {p : Str} {t : List Event} {o : Except Stop (Path × EcArg)}
    {hs hs' : Handles} {nf w : Prop} (h : Exec (Win.readSymlink ⟨p, [], .filename⟩ (.ref none)) t o) (hl : Steps (ReadLaw D T) hs t hs')
    (hnf : nf → ∀ e ∈ t, ¬ CallFails e) :
    (hs' = hs ∧ ∃ x, o = .ok x ∧ TestTruth D T nf w ⟨.winReadlink p, Win.linkSeen x⟩) ∨
      ∀ x, D.look p = some x → x.tag ≠ some 0xA000000C#32 := by
  rcases exec_readSymlink h with ⟨e, rfl, rfl⟩ | ⟨fd, ⟨e, rc, rfl, rfl⟩ | ⟨ws, rc, rfl, r, hr, rfl⟩ | ⟨ws, x, rfl, hr, rfl⟩⟩
  · refine .inl ?_
    obtain ⟨s1, h1, hl⟩ := steps_cons.mp hl
    cases steps_nil.mp hl
    refine ⟨h1.1.1, _, rfl, And.intro (fun l x h => ?_) (fun hn => ?_)⟩
    · cases h
    · exact absurd trivial (hnf hn _ (List.mem_singleton.mpr rfl))
  · refine .inl ?_
    obtain ⟨s1, h1, hl⟩ := steps_cons.mp hl
    obtain ⟨s2, h2, hl⟩ := steps_cons.mp hl
    obtain ⟨s3, h3, hl⟩ := steps_cons.mp hl
    cases steps_nil.mp hl
    obtain ⟨⟨hn, x, hx, rfl⟩, -⟩ := h1
    obtain ⟨⟨rfl, -⟩, -⟩ := h2
    refine ⟨?_, _, rfl, And.intro (fun l x h => ?_) (fun hn => ?_)⟩
    · rw [h3.1]
      funext k
      by_cases hk : k = fd <;> simp [hk, hn]
    · cases h
    · exact absurd trivial (hnf hn _ (List.mem_cons_of_mem _ (List.mem_cons_self ..)))
  · by_cases hsym : ∃ x, D.look p = some x ∧ x.tag = some 0xA000000C#32
    rotate_left
    · exact .inr fun x hx ht => hsym ⟨x, hx, ht⟩
    refine .inl ?_
    obtain ⟨s1, h1, hl⟩ := steps_cons.mp hl
    obtain ⟨s2, h2, hl⟩ := steps_cons.mp hl
    obtain ⟨s3, h3, hl⟩ := steps_cons.mp hl
    cases steps_nil.mp hl
    obtain ⟨⟨hn, x, hx, rfl⟩, -⟩ := h1
    obtain ⟨⟨rfl, -⟩, h2⟩ := h2
    have hx : D.look p = some x := hx
    have h2 := h2 x (by simp)
    refine ⟨?_, _, rfl, fun l y hl hy ht => ?_, fun _ => ⟨_, rfl⟩⟩
    · rw [h3.1]
      funext k
      by_cases hk : k = fd <;> simp [hk, hn]
    · rw [hx] at hy
      cases hy
      obtain ⟨text, ht1, ht2⟩ := h2 ht
      rw [printName_link ht1, ht2] at hr
      cases hr
      cases hl
      rfl
  · refine .inr fun y hy ht => ?_
    obtain ⟨s1, h1, hl⟩ := steps_cons.mp hl
    obtain ⟨s2, h2, hl⟩ := steps_cons.mp hl
    obtain ⟨⟨hn, z, hz, rfl⟩, -⟩ := h1
    have hz : D.look p = some z := hz
    rw [hy] at hz
    cases hz
    obtain ⟨text, ht1, _⟩ := h2.2 y (by simp) ht
    rw [printName_link ht1] at hr
    cases hr

theorem testTruth_total (D : WinDisk) (T : WinObj → Str) {nf w : Prop} (hx : ¬ (nf ∧ w)) (c : Sys) : ∃ r, TestTruth D T nf w ⟨c, r⟩ := by
  have triv : ∀ r : c.Ret, (∀ q p, c ≠ .winTest q p) → (∀ p, c ≠ .winReadlink p) → TestTruth D T nf w ⟨c, r⟩ := by
    intro r h1 h2
    cases c with
    | winTest q p => exact absurd rfl (h1 q p)
    | winReadlink p => exact absurd rfl (h2 p)
    | _ => trivial
  have any : ∃ r : c.Ret, True := by
    obtain ⟨r, _, _⟩ := winLaw_total sampleDisk noHandles c
    exact ⟨r, trivial⟩
  by_cases h1 : ∃ q p, c = .winTest q p
  · obtain ⟨q, p, rfl⟩ := h1
    cases q with
    | isSymlink =>
      by_cases hl : IsLink (D.look p)
      · exact ⟨(true, none), fun _ => ⟨rfl, hl⟩, fun h => (by cases h), fun _ => rfl⟩
      · exact ⟨(false, none), fun h => (by cases h), fun _ _ => hl, fun _ => rfl⟩
    | isDirectory => exact ⟨(true, none), fun h => (by cases h), fun _ => rfl⟩
    | exists' =>
      by_cases hn : nf
      · exact ⟨(true, none), fun h => absurd ⟨hn, h⟩ hx, fun _ => ⟨rfl, rfl⟩⟩
      · exact ⟨(false, none), fun _ h => (by cases h), fun h => absurd h hn⟩
  · by_cases h2 : ∃ p, c = .winReadlink p
    · obtain ⟨p, rfl⟩ := h2
      cases hp : D.look p with
      | none => exact ⟨(.ok [] : Except Errno Str), fun l x _ h => (by rw [hp] at h; cases h), fun _ => ⟨_, rfl⟩⟩
      | some x =>
        refine ⟨(.ok (mkPath .windows (T x)).pathname : Except Errno Str), fun l y h h' _ => ?_, fun _ => ⟨_, rfl⟩⟩
        rw [hp] at h'
        cases h'
        cases h
        rfl
    · obtain ⟨r, _⟩ := any
      exact ⟨r, triv r (fun q p h => h1 ⟨q, p, h⟩) (fun p h => h2 ⟨p, h⟩)⟩

namespace Win

theorem unfoldTests_other {α : Type} {c : Sys} {k : c.Ret → Prog α} (h1 : ∀ q p, c ≠ .winTest q p) (h2 : ∀ p, c ≠ .winReadlink p) :
    unfoldTests (.call c k) = .call c fun r => unfoldTests (k r) := by
  cases c with
  | winTest q p => exact absurd rfl (h1 q p)
  | winReadlink p => exact absurd rfl (h2 p)
  | _ => rfl

end Win

/-- A run with all calls is one with single calls that tell the truth, or such a one reads as a link what is none. -/
theorem replay_tests {D : WinDisk} {T : WinObj → Str} {nf w : Prop} (hx : ¬ (nf ∧ w)) {α : Type} (p : Prog α) (t : List Event)
    (o : Except Stop α) (hs hs' : Handles) (h : Exec (Win.unfoldTests p) t o) (hl : Steps (ReadLaw D T) hs t hs')
    (hnf : nf → ∀ e ∈ t, ¬ CallFails e) (hw : w → ∀ e ∈ t, WinWilling e) :
    (∃ t', Exec p t' o ∧ ∀ e ∈ t', TestTruth D T nf w e) ∨
      ∃ t' o' q, ∃ r : Except Errno Str, Exec p t' o' ∧ (∀ e ∈ t', TestTruth D T nf w e) ∧ (⟨.winReadlink q, r⟩ : Event) ∈ t' ∧
        ∀ x, D.look q = some x → x.tag ≠ some 0xA000000C#32 := by
  induction p generalizing t hs with
  | ret a => cases h; exact .inl ⟨[], .ret a, by simp⟩
  | stop x => cases h; exact .inl ⟨[], .stop x, by simp⟩
  | call c k ih =>
    have extend : ∀ (r : c.Ret), TestTruth D T nf w ⟨c, r⟩ → ((∃ t', Exec (k r) t' o ∧ ∀ e ∈ t', TestTruth D T nf w e) ∨
        ∃ t' o' q, ∃ r' : Except Errno Str, Exec (k r) t' o' ∧ (∀ e ∈ t', TestTruth D T nf w e) ∧ (⟨.winReadlink q, r'⟩ : Event) ∈ t' ∧
          ∀ x, D.look q = some x → x.tag ≠ some 0xA000000C#32) →
        ((∃ t', Exec (.call c k) t' o ∧ ∀ e ∈ t', TestTruth D T nf w e) ∨
        ∃ t' o' q, ∃ r : Except Errno Str, Exec (.call c k) t' o' ∧ (∀ e ∈ t', TestTruth D T nf w e) ∧ (⟨.winReadlink q, r⟩ : Event) ∈ t' ∧
          ∀ x, D.look q = some x → x.tag ≠ some 0xA000000C#32) := by
      intro r hr h
      rcases h with ⟨t', h1, h2⟩ | ⟨t', o', q, r', h1, h2, h3, h4⟩
      · exact .inl ⟨⟨c, r⟩ :: t', .call _ _ _ _ _ h1, fun e he => by
          rcases List.mem_cons.mp he with rfl | he
          · exact hr
          · exact h2 e he⟩
      · exact .inr ⟨⟨c, r⟩ :: t', o', q, r', .call _ _ _ _ _ h1, fun e he => by
          rcases List.mem_cons.mp he with rfl | he
          · exact hr
          · exact h2 e he, List.mem_cons_of_mem _ h3, h4⟩
    by_cases hc : ∃ q p, c = .winTest q p
    · obtain ⟨q, p, rfl⟩ := hc
      have h : Exec ((Win.testProg q ⟨p, [], .filename⟩).bind fun x => Win.unfoldTests (k (x.1, x.2.code))) t o := h
      rcases exec_bind.mp h with ⟨x, h1, rfl⟩ | ⟨x, u, v, rfl, h1, h2⟩
      · obtain ⟨_, b, c, h3, _⟩ := test_truth (T := T) h1 hl hnf hw
        cases h3
      · obtain ⟨s1, hl1, hl2⟩ := steps_append.mp hl
        obtain ⟨rfl, b, c, h3, h4⟩ := test_truth (T := T) h1 hl1 (fun hn e he => hnf hn e (List.mem_append_left _ he))
          (fun hn e he => hw hn e (List.mem_append_left _ he))
        cases h3
        exact extend (b, c) h4 (ih (b, c) v s1 h2 hl2 (fun hn e he => hnf hn e (List.mem_append_right _ he))
          (fun hn e he => hw hn e (List.mem_append_right _ he)))
    by_cases hc' : ∃ p, c = .winReadlink p
    · obtain ⟨p, rfl⟩ := hc'
      have stuck : (∀ x, D.look p = some x → x.tag ≠ some 0xA000000C#32) → ∃ t' o' q, ∃ r : Except Errno Str,
          Exec (.call (.winReadlink p) k) t' o' ∧ (∀ e ∈ t', TestTruth D T nf w e) ∧ (⟨.winReadlink q, r⟩ : Event) ∈ t' ∧
          ∀ x, D.look q = some x → x.tag ≠ some 0xA000000C#32 := by
        intro hno
        obtain ⟨t', o', ⟨⟩, h1, h2⟩ := exec_exists (step := Each (TestTruth D T nf w))
          (fun _ c => by obtain ⟨r, hr⟩ := testTruth_total D T hx c; exact ⟨r, (), hr⟩) (.call (.winReadlink p) k) ()
        obtain ⟨r, u, rfl, h3⟩ := exec_call.mp h1
        refine ⟨_, o', p, r, h1, ?_, List.mem_cons_self .., hno⟩
        clear h1 h3
        revert h2
        generalize (⟨.winReadlink p, r⟩ : Event) :: u = z
        intro h2
        induction z with
        | nil => simp
        | cons e z ihz =>
          obtain ⟨_, h4, h5⟩ := steps_cons.mp h2
          intro e' he'
          rcases List.mem_cons.mp he' with rfl | he'
          · exact h4
          · exact ihz h5 e' he'
      have h : Exec ((Win.readSymlink ⟨p, [], .filename⟩ (.ref none)).bind fun x => Win.unfoldTests (k (Win.linkSeen x))) t o := h
      rcases exec_bind.mp h with ⟨x, h1, rfl⟩ | ⟨x, u, v, rfl, h1, h2⟩
      · rcases read_truth (T := T) (w := w) h1 hl hnf with ⟨_, y, h3, _⟩ | h3
        · cases h3
        · exact .inr (stuck h3)
      · obtain ⟨s1, hl1, hl2⟩ := steps_append.mp hl
        rcases read_truth (T := T) (w := w) h1 hl1 (fun hn e he => hnf hn e (List.mem_append_left _ he)) with ⟨rfl, y, h3, h4⟩ | h3
        · cases h3
          exact extend _ h4 (ih _ v s1 h2 hl2 (fun hn e he => hnf hn e (List.mem_append_right _ he))
            (fun hn e he => hw hn e (List.mem_append_right _ he)))
        · exact .inr (stuck h3)
    have h1 : ∀ q p, c ≠ .winTest q p := fun q p h => hc ⟨q, p, h⟩
    have h2 : ∀ p, c ≠ .winReadlink p := fun p h => hc' ⟨p, h⟩
    rw [Win.unfoldTests_other h1 h2] at h
    obtain ⟨r, u, rfl, hu⟩ := exec_call.mp h
    obtain ⟨s1, hl1, hl2⟩ := steps_cons.mp hl
    refine extend r ?_ (ih r u s1 hu hl2 (fun hn e he => hnf hn e (List.mem_cons_of_mem _ he))
      (fun hn e he => hw hn e (List.mem_cons_of_mem _ he)))
    cases c with
    | winTest q p => exact absurd rfl (h1 q p)
    | winReadlink p => exact absurd rfl (h2 p)
    | _ => trivial

/-! ## C105 -/

namespace Spec

/-- The links of a disk: what the path of a place denotes is a symbolic link with the text `l` just if `L` says so. No mount points; links
as in C104. -/
structure DiskLinks (D : WinDisk) (T : WinObj → Str) (L : WinPlace → Option Str) : Prop where
  link : ∀ s x, winRooted s → D.look s = some x → x.tag = some 0xA000000C#32 → L (winPlaceOf s) = some (T x)
  other : ∀ s, winRooted s → (∀ x, D.look s = some x → x.tag ≠ some 0xA000000C#32) → L (winPlaceOf s) = none
  noMount : ∀ s x, winRooted s → D.look s = some x → x.tag ≠ some 0xA0000003#32
  fine : ∀ x l, L x = some l → winLink l

end Spec

/-- Texts as stored. -/
def storedLinks (L : WinPlace → Option Str) (x : WinPlace) : Option Str := (L x).map fun l => (mkPath .windows l).pathname

theorem leads_stored {L : WinPlace → Option Str} {k : Nat} {x y : WinPlace} {ns : List Str} (h : Leads L k x ns y) :
    Leads (storedLinks L) k x ns y := by
  induction h with
  | here x => exact .here x
  | dot _ ih => exact .dot ih
  | up _ ih => exact .up ih
  | name h1 h2 h3 _ ih => exact .name h1 h2 (by rw [storedLinks, h3]; rfl) ih
  | @link k x y n l ns h1 h2 h3 _ ih =>
    refine .link h1 h2 (by rw [storedLinks, h3]; rfl) ?_
    obtain ⟨f1, f2, f3, f4⟩ := win_stored_facts l
    rw [f4, linkStart, f1, f2, f3]
    exact ih

theorem stored_winLink {l : Str} (h : winLink l) : winLink (mkPath .windows l).pathname := by
  obtain ⟨f1, f2, f3, f4⟩ := win_stored_facts l
  unfold winLink winUnc at *
  rw [f2, f3, f4]
  exact h

theorem stored_length (l : Str) : (mkPath .windows l).pathname.length ≤ l.length := by
  rw [win_pathname, List.length_append, (winStoredRoot_facts l).2.1]
  have h1 := winRootLen_le l
  unfold winStoredRest
  split
  · rename_i h
    have := List.length_pos_iff.mpr h.2.2
    rw [h.1, List.length_singleton]
    omega
  · simp [winTail]; omega

theorem truth_rooted {D : WinDisk} {T : WinObj → Str} {L : WinPlace → Option Str} (hD : DiskLinks D T L) {nf w : Prop} {e : Event}
    (h : TestTruth D T nf w e) : RootedTruth (storedLinks L) e := by
  have sym : ∀ s x, winRooted s → D.look s = some x → x.tag = some 0xA000000C#32 →
      storedLinks L (winPlaceOf s) = some (mkPath .windows (T x)).pathname := by
    intro s x h1 h2 h3
    rw [storedLinks, hD.link s x h1 h2 h3]
    rfl
  intro hr
  obtain ⟨c, r⟩ := e
  cases c with
  | winTest q p =>
    cases q with
    | isSymlink =>
      have hp : winRooted p := hr p rfl
      obtain ⟨h1, h2, _⟩ := h
      refine And.intro (fun hb => ?_) (fun hb hc => ?_)
      · obtain ⟨hc, x, hx, ht⟩ := h1 hb
        refine ⟨hc, ?_⟩
        rcases ht with ht | ht
        · rw [sym p x hp hx ht]; rfl
        · exact absurd ht (hD.noMount p x hp hx)
      · have := hD.other p hp fun x hx ht => h2 hb hc ⟨x, hx, .inl ht⟩
        rw [storedLinks, this]
        rfl
    | _ => trivial
  | winReadlink p =>
    have hp : winRooted p := hr p rfl
    intro l l' hl hl'
    obtain ⟨h1, _⟩ := h
    by_cases hs : ∃ x, D.look p = some x ∧ x.tag = some 0xA000000C#32
    · obtain ⟨x, hx, ht⟩ := hs
      rw [sym p x hp hx ht] at hl'
      cases hl'
      exact h1 l x hl hx ht
    · have := hD.other p hp fun x hx ht => hs ⟨x, hx, ht⟩
      rw [storedLinks, this] at hl'
      cases hl'
  | _ => trivial

/-- Both kinds of answers: with no failing call, or with a willing system. -/
theorem canonical_truth {D : WinDisk} {T : WinObj → Str} {L : WinPlace → Option Str} (hD : DiskLinks D T L) {nf w : Prop}
    (hx : ¬ (nf ∧ w)) (M n : Nat) (hM : ∀ x l, L x = some l → l.length ≤ M) (h : Handler) (s : Str) (ec : EcArg) (t : List Event)
    (o : Except Stop (Path × EcArg)) (hs hs' : Handles) (k : Nat) (y : WinPlace) (hr : winRooted s)
    (hy : Leads L k ⟨winRootName s, []⟩ (winNames (winTail s)) y) (hk : k < 40) (hn : s.length + 3 + 40 * (M + 3) ≤ n)
    (he : Exec (Win.unfoldTests (winCanonical false n h (mkPath .windows s) ec)) t o) (hl : Steps (ReadLaw D T) hs t hs')
    (hnf : nf → ∀ e ∈ t, ¬ CallFails e) (hw : w → ∀ e ∈ t, WinWilling e) :
    CanonEnd y ec (fun p => winRooted p ∧ (w → D.goal p ≠ none)) (¬ nf) (∃ p x, winRooted p ∧ D.goal p = some x ∧ x.dir = false) o := by
  have run : ∀ t' o', Exec (winCanonical false n h (mkPath .windows s) ec) t' o' → (∀ e ∈ t', TestTruth D T nf w e) →
      Orderly (storedLinks L) t' ∧ (linkTexts t').length < 40 ∧
      (o' = .error .fuel ∨ CanonEnd y ec (SeenIn t') (MissingIn t') (DotAtFile t') o') := by
    intro t' o' h1 h2
    have hst : Steps (TrOf (RootedTruth (storedLinks L))) [] t' ([] ++ t') :=
      steps_and (steps_tr [] t') fun e he => truth_rooted hD (h2 e he)
    have := wp_sound (canonical_run (storedLinks L) ?_ n h s ec k y hr (leads_stored hy) hk) h1 hst
    · exact this
    · intro x l hl
      obtain ⟨l0, h3, rfl⟩ := Option.map_eq_some_iff.mp hl
      exact stored_winLink (hD.fine x l0 h3)
  rcases replay_tests hx _ t o hs hs' he hl hnf hw with ⟨t', h1, h2⟩ | ⟨t', o', q, r, h1, h2, h3, h4⟩
  · obtain ⟨h3, h4, h5⟩ := run t' o h1 h2
    have hfuel : o ≠ .error .fuel := by
      refine ((wp_tr (canonical_bounded n h s ec) h1).1 h4).2 ?_
      have hlen : ∀ l ∈ linkTexts t', l.length ≤ M := by
        intro l hl
        obtain ⟨ev, h6, h7⟩ := List.mem_filterMap.mp hl
        obtain ⟨c, r⟩ := ev
        cases c with
        | winReadlink p =>
          cases r with
          | error e => cases h7
          | ok l' =>
            cases h7
            have h8 := (h3 _ h6).2 p _ rfl
            obtain ⟨l1, h9⟩ := Option.ne_none_iff_exists'.mp h8
            obtain ⟨l2, h10, rfl⟩ := Option.map_eq_some_iff.mp h9
            have h11 : l = _ := truth_rooted hD (h2 _ h6) (h3 _ h6).1 l _ rfl h9
            rw [h11]
            exact Nat.le_trans (stored_length l2) (hM _ _ h10)
        | _ => cases h7
      have hw : linkWeight t' ≤ (linkTexts t').length * (M + 3) := by
        unfold linkWeight
        generalize linkTexts t' = ls at hlen
        induction ls with
        | nil => simp
        | cons l ls ih =>
          have := ih fun x hx => hlen x (by simp [hx])
          have := hlen l (by simp)
          simp only [List.map_cons, List.sum_cons, List.length_cons, Nat.add_mul]
          omega
      have : (linkTexts t').length * (M + 3) ≤ 40 * (M + 3) := Nat.mul_le_mul_right _ (by omega)
      omega
    have hdot : DotAtFile t' → ∃ p x, winRooted p ∧ D.goal p = some x ∧ x.dir = false := by
      rintro ⟨p, hp⟩
      obtain ⟨x, hx1, hx2⟩ := (h2 _ hp).1 rfl rfl
      exact ⟨p, x, (h3 _ hp).1 p rfl, hx1, hx2⟩
    have hmiss : MissingIn t' → ¬ nf := by
      rintro ⟨ev, hev, hf⟩ hn
      have h6 := h2 ev hev
      rcases hf with hf | ⟨p, r, rfl, hb⟩
      · obtain ⟨c, r⟩ := ev
        cases c with
        | winTest q p =>
          cases q with
          | isSymlink => exact hf (h6.2.2 hn)
          | isDirectory => exact hf (h6.2 hn)
          | exists' => exact hf (h6.2 hn).2
        | winReadlink p =>
          obtain ⟨x, hx⟩ := hf
          obtain ⟨l, hl⟩ := h6.2 hn
          rw [hx] at hl
          cases hl
        | _ => exact hf
      · have := (h6.2 hn).1
        rw [hb] at this
        cases this
    rcases h5 with h5 | ⟨r, e, rfl, h6, ⟨c, h7⟩, h8⟩ | ⟨c, hc, h6, h7⟩ | ⟨hc, x, h6, h7⟩
    · exact absurd h5 hfuel
    · refine .inl ⟨r, e, rfl, h6, ⟨(h3 _ h7).1 _ rfl, fun hw => (h2 _ h7).1 hw rfl⟩, ?_⟩
      rcases h8 with h8 | h8
      · exact .inl h8
      · exact .inr ⟨h8.1, hdot h8.2⟩
    · exact .inr (.inl ⟨c, hc, h6, hmiss h7⟩)
    · refine .inr (.inr ⟨hc, x, h6, ?_⟩)
      rcases h7 with h7 | h7
      · exact .inl ⟨h7.1, hmiss h7.2⟩
      · exact .inr ⟨h7.1, hdot h7.2⟩
  · exfalso
    have h5 := (run t' o' h1 h2).1 _ h3
    apply h5.2 q r rfl
    rw [storedLinks, hD.other q (h5.1 q rfl) h4]
    rfl

/-- **C105**, partial: with all calls spelled out, `canonical` of an absolute path on a disk that nobody changes returns a path that names
the place its names lead to over fewer than 40 links and is absolute; otherwise it reports `ENOENT` because a call failed, or `ENOTDIR` because of a name
`.` at a file (the error code form reports that and goes on). What is returned exists, if calls fail only where there is nothing. Missing:
as in `c104_leads_partial`; mount points (C69). -/
theorem c105_resolves_partial (D : WinDisk) (T : WinObj → Str) (L : WinPlace → Option Str) (hD : DiskLinks D T L) (M n : Nat)
    (hM : ∀ x l, L x = some l → l.length ≤ M) (h : Handler) (s : Str) (ec : EcArg) (t : List Event) (o : Except Stop (Path × EcArg))
    (hs hs' : Handles) (k : Nat) (y : WinPlace) (hr : winRooted s) (hy : Leads L k ⟨winRootName s, []⟩ (winNames (winTail s)) y)
    (hk : k < 40) (hn : s.length + 3 + 40 * (M + 3) ≤ n)
    (he : Exec (Win.unfoldTests (winCanonical false n h (mkPath .windows s) ec)) t o) (hl : Steps (ReadLaw D T) hs t hs') :
    CanonEnd y ec winRooted (∃ e ∈ t, CallFails e) (∃ p x, winRooted p ∧ D.goal p = some x ∧ x.dir = false) o ∧
      ((∀ e ∈ t, WinWilling e) → CanonEnd y ec (fun p => winRooted p ∧ D.goal p ≠ none) True (∃ p x, winRooted p ∧ D.goal p = some x ∧ x.dir = false) o) := by
  have h1 := canonical_truth (nf := ∀ e ∈ t, ¬ CallFails e) (w := False) hD (fun h => h.2) M n hM h s ec t o hs hs' k y hr hy hk hn he hl id
    (fun h => h.elim)
  have h2 := canonical_truth (nf := False) (w := ∀ e ∈ t, WinWilling e) hD (fun h => h.1) M n hM h s ec t o hs hs' k y hr hy hk hn he hl
    (fun h => h.elim) id
  have hmiss : (¬ ∀ e ∈ t, ¬ CallFails e) → ∃ e ∈ t, CallFails e := by
    intro h
    apply Classical.byContradiction
    intro h'
    exact h fun e he hf => h' ⟨e, he, hf⟩
  constructor
  · rcases h1 with ⟨r, e, h3, h4, h6, h5⟩ | ⟨c, h3, h4, h5⟩ | ⟨h3, x, h4, h5⟩
    · exact .inl ⟨r, e, h3, h4, h6.1, h5⟩
    · exact .inr (.inl ⟨c, h3, h4, hmiss h5⟩)
    · refine .inr (.inr ⟨h3, x, h4, ?_⟩)
      rcases h5 with h5 | h5
      · exact .inl ⟨h5.1, hmiss h5.2⟩
      · exact .inr h5
  · intro hw
    rcases h2 with ⟨r, e, h3, h4, h6, h5⟩ | ⟨c, h3, h4, h5⟩ | ⟨h3, x, h4, h5⟩
    · exact .inl ⟨r, e, h3, h4, ⟨h6.1, h6.2 hw⟩, h5⟩
    · exact .inr (.inl ⟨c, h3, h4, trivial⟩)
    · refine .inr (.inr ⟨h3, x, h4, ?_⟩)
      rcases h5 with h5 | h5
      · exact .inl ⟨h5.1, trivial⟩
      · exact .inr h5

/-- **C105**: `canonical` is `absolute` followed by the resolution of what it returns. -/
theorem c105_absolute (n : Nat) (p : Path) (ec : EcArg) (t : List Event) (o : Except Stop (Path × EcArg))
    (he : Exec (Win.canonical false n p ec) t o) :
    (∃ x, o = .error x ∧ Exec (Win.absolute p ec) t (.error x)) ∨
      ∃ t0 t1 pa cwd e1, t = t0 ++ t1 ∧ Exec (Win.absolute p ec) t0 (.ok (pa, e1)) ∧
        Exec (Win.unfoldTests (winCanonical false n ⟨"canonical".toList, some p, some cwd⟩ pa e1)) t1 o := by
  have hd : Win.doAbsolute p ec.clear = Win.doAbsolute p ec := by cases ec <;> rfl
  unfold Win.canonical at he
  rw [hd] at he
  rcases exec_bind.mp he with ⟨x, h1, rfl⟩ | ⟨x, u, v, rfl, h1, h2⟩
  · exact .inl ⟨x, rfl, exec_bind.mpr (.inl ⟨x, h1, rfl⟩)⟩
  · exact .inr ⟨u, v, x.1.1, x.1.2, x.2, rfl, exec_bind.mpr (.inr ⟨x, u, [], by simp, h1, .ret _⟩), h2⟩

/-- **C105**, partial: the same for `canonical` itself, for a path with a root name. For others the current directory comes in as C85 has
it (`c105_absolute`). -/
theorem c105_canonical_partial (D : WinDisk) (T : WinObj → Str) (L : WinPlace → Option Str) (hD : DiskLinks D T L) (M n : Nat)
    (hM : ∀ x l, L x = some l → l.length ≤ M) (s : Str) (c : Code) (t : List Event) (o : Except Stop (Path × EcArg))
    (hs' : Handles) (k : Nat) (y : WinPlace) (hr : winRooted s) (hr' : winRootName s ≠ [])
    (hy : Leads L k ⟨winRootName s, []⟩ (winNames (winTail s)) y) (hk : k < 40) (hn : s.length + 3 + 40 * (M + 3) ≤ n)
    (he : Exec (Win.canonical false n (mkPath .windows s) (.ref c)) t o) (hl : Steps (ReadLaw D T) noHandles t hs') :
    (∃ r e, o = .ok (r, e) ∧ winPlaceOf r.pathname = y ∧ winRooted r.pathname ∧ ((∀ e ∈ t, WinWilling e) → D.goal r.pathname ≠ none) ∧
        (e = .ref none ∨ e = .ref (some .ENOTDIR) ∧ ∃ p x, winRooted p ∧ D.goal p = some x ∧ x.dir = false)) ∨
      o = .ok (.default, .ref (some .ENOENT)) ∧ ∃ e ∈ t, CallFails e := by
  rcases c105_absolute n _ _ t o he with ⟨x, rfl, h1⟩ | ⟨t0, t1, pa, cwd, e1, rfl, h1, h2⟩
  · have := ((c85_absolute_partial s c t _ h1).1 ⟨hr.1.symm, hr'⟩).2
    cases this
  obtain ⟨rfl, h3⟩ := (c85_absolute_partial s c t0 _ h1).1 ⟨hr.1.symm, hr'⟩
  cases h3
  rw [List.nil_append] at hl ⊢
  obtain ⟨h4, h5⟩ := c105_resolves_partial D T L hD M n hM _ s _ t1 o noHandles hs' k y hr hy hk hn h2 hl
  rcases h4 with ⟨r, e, rfl, h6, h6', h7⟩ | ⟨c', _, h6, h7⟩ | ⟨h6, _⟩
  · refine .inl ⟨r, e, rfl, h6, h6', fun hw => ?_, h7⟩
    rcases h5 hw with ⟨r', e', h8, _, ⟨_, h9⟩, _⟩ | ⟨c', _, h8, _⟩ | ⟨h8, _⟩
    · cases h8; exact h9
    · cases h8
      rcases h7 with h7 | h7
      · cases h7
      · cases h7.1
    · cases h8
  · exact .inr ⟨h6, h7⟩
  · cases h6

/-! ## Cases -/

namespace Spec

/-- Objects of a disk with the link `C:\\l` to the file `C:\\d\\x`. -/
def linkObj (x : WinPlace) : Option WinObj :=
  if x = ⟨"C:".toList, ["l".toList]⟩ then some ⟨false, some 0xA000000C#32, 7, 1, 0, 0, 1⟩
  else if x = ⟨"C:".toList, ["d".toList]⟩ then some ⟨true, none, 7, 2, 0, 0, 1⟩
  else if x = ⟨"C:".toList, ["d".toList, "x".toList]⟩ then some ⟨false, none, 7, 3, 5, 0, 1⟩ else none

/-- What they lead to. -/
def linkGoal (x : WinPlace) : Option WinObj :=
  if x = ⟨"C:".toList, ["l".toList]⟩ then some ⟨false, none, 7, 3, 5, 0, 1⟩ else linkObj x

/-- The disk. -/
def linkDisk : WinDisk where
  look s := linkObj (winPlaceOf s)
  goal s := linkGoal (winPlaceOf s)
  missing s h := by
    unfold linkGoal
    split
    · rename_i h'
      rw [linkObj, if_pos h'] at h
      cases h
    · exact h
  plain s x h ht := by
    unfold linkGoal
    split
    · rename_i h'
      rw [linkObj, if_pos h'] at h
      cases h
      cases ht
    · exact h
  unique p q x y hx hy _ hi := by
    have key : ∀ z w, linkGoal z = some w → w = ⟨true, none, 7, 2, 0, 0, 1⟩ ∨ w = ⟨false, none, 7, 3, 5, 0, 1⟩ := by
      intro z w h
      unfold linkGoal at h
      split at h
      · cases h; exact .inr rfl
      · rename_i h1
        rw [linkObj, if_neg h1] at h
        split at h
        · cases h; exact .inl rfl
        · split at h
          · cases h; exact .inr rfl
          · cases h
    rcases key _ _ hx with rfl | rfl <;> rcases key _ _ hy with rfl | rfl <;> first | rfl | exact absurd hi (by decide)

/-- Its link. -/
def linkOnly (x : WinPlace) : Option Str := if x = ⟨"C:".toList, ["l".toList]⟩ then some "d\\x".toList else none

/-- The data of the link. -/
def linkBytes : List (BitVec 16) := [0x000C, 0xA000, 18, 0, 0, 6, 0, 6, 0, 0] ++ "d\\x".toList.map (fun ch => BitVec.ofNat 16 ch.toNat)

/-- What is asked for `C:\\l`. -/
def wholeTrace : List Event :=
  [⟨.win (.getAttrs "C:\\l".toList), (.ok 0x400#32 : Except Errno (BitVec 32))⟩,
    ⟨.win (.getPerms "C:\\l".toList 0x400#32), (.ok 0x1ff#32 : Except Errno Mode)⟩,
    ⟨.win (.createFile "C:\\l".toList Win.openReparse), (.ok 4 : Except Errno Nat)⟩,
    ⟨.win (.reparse 4), (.ok linkBytes : Except Errno (List (BitVec 16)))⟩,
    ⟨.win (.closeHandle 4), (.ok () : Except Errno Unit)⟩,
    ⟨.win (.createFile "C:\\l".toList Win.openReparse), (.ok 4 : Except Errno Nat)⟩,
    ⟨.win (.reparse 4), (.ok linkBytes : Except Errno (List (BitVec 16)))⟩,
    ⟨.win (.closeHandle 4), (.ok () : Except Errno Unit)⟩,
    ⟨.win (.getAttrs "C:\\d".toList), (.ok 0x10#32 : Except Errno (BitVec 32))⟩,
    ⟨.win (.getPerms "C:\\d".toList 0x10#32), (.ok 0x1ff#32 : Except Errno Mode)⟩,
    ⟨.win (.getAttrs "C:\\d\\x".toList), (.ok 0x80#32 : Except Errno (BitVec 32))⟩,
    ⟨.win (.getPerms "C:\\d\\x".toList 0x80#32), (.ok 0x1ff#32 : Except Errno Mode)⟩,
    ⟨.win (.getAttrs "C:\\d\\x".toList), (.ok 0x80#32 : Except Errno (BitVec 32))⟩,
    ⟨.win (.getPerms "C:\\d\\x".toList 0x80#32), (.ok 0x1ff#32 : Except Errno Mode)⟩]

end Spec

theorem linkDisk_links : DiskLinks linkDisk (fun _ => "d\\x".toList) linkOnly := by
  have look : ∀ s, linkDisk.look s = linkObj (winPlaceOf s) := fun _ => rfl
  refine ⟨fun s x _ h ht => ?_, fun s _ h => ?_, fun s x _ h => ?_, fun x l h => ?_⟩
  · rw [look, linkObj] at h
    split at h
    · rename_i h1; rw [linkOnly, if_pos h1]
    · split at h
      · cases h; cases ht
      · split at h
        · cases h; cases ht
        · cases h
  · rw [linkOnly, if_neg]
    intro h1
    refine h ⟨false, some 0xA000000C#32, 7, 1, 0, 0, 1⟩ ?_ rfl
    rw [look, linkObj, if_pos h1]
  · rw [look, linkObj] at h
    split at h
    · cases h; decide
    · split at h
      · cases h; decide
      · split at h
        · cases h; decide
        · cases h
  · unfold linkOnly at h
    split at h
    · cases h; exact ⟨.inl ⟨by decide, by decide⟩, by decide⟩
    · cases h

/-- `canonical` of `C:\\l`. -/
example : (∃ hs', Steps (ReadLaw linkDisk fun _ => "d\\x".toList) noHandles wholeTrace hs') ∧ (∀ e ∈ wholeTrace, ¬ CallFails e ∧ WinWilling e) ∧
    (∀ x l, linkOnly x = some l → l.length ≤ 3) ∧ winRooted "C:\\l".toList ∧ winRootName "C:\\l".toList ≠ [] ∧
    Leads linkOnly 1 ⟨winRootName "C:\\l".toList, []⟩ (winNames (winTail "C:\\l".toList)) ⟨"C:".toList, ["d".toList, "x".toList]⟩ ∧
    "C:\\l".toList.length + 3 + 40 * (3 + 3) ≤ 247 ∧
    ∃ r, Exec (Win.canonical false 247 (mkPath .windows "C:\\l".toList) (.ref none)) wholeTrace (.ok (r, .ref none)) ∧
      r.pathname = "C:\\d\\x".toList := by
  have buf : LinkBuffer 10 linkBytes ("d\\x".toList.map fun ch => BitVec.ofNat 16 ch.toNat) :=
    ⟨[0x000C, 0xA000, 18, 0, 0, 6, 0, 6, 0, 0], [], [], rfl, by decide, by decide, by decide, by decide⟩
  have text : wideText ("d\\x".toList.map fun ch => BitVec.ofNat 16 ch.toNat) = "d\\x".toList := by decide
  have cons {hs1 hs2 : Handles} {e : Event} {t : List Event} (h : ReadLaw linkDisk (fun _ => "d\\x".toList) hs1 e hs2)
      (rest : ∃ hs', Steps (ReadLaw linkDisk fun _ => "d\\x".toList) hs2 t hs') :
      ∃ hs', Steps (ReadLaw linkDisk fun _ => "d\\x".toList) hs1 (e :: t) hs' :=
    rest.elim fun hs' st => ⟨hs', .cons h st⟩
  refine ⟨?_, ?_, ?_, ⟨by decide, by decide⟩, by decide, ?_, by decide, ⟨_, feed_exec (by rfl), by decide⟩⟩
  · refine cons ⟨⟨rfl, ⟨false, some 0xA000000C#32, 7, 1, 0, 0, 1⟩, by decide, by decide, by decide⟩, trivial⟩ ?_
    refine cons ⟨⟨rfl, trivial⟩, trivial⟩ ?_
    refine cons ⟨⟨rfl, ⟨false, some 0xA000000C#32, 7, 1, 0, 0, 1⟩, by decide, rfl⟩, trivial⟩ ?_
    refine cons ⟨⟨rfl, ⟨false, some 0xA000000C#32, 7, 1, 0, 0, 1⟩, rfl, by decide⟩, fun _ _ _ => ⟨_, buf, text⟩⟩ ?_
    refine cons ⟨rfl, trivial⟩ ?_
    refine cons ⟨⟨rfl, ⟨false, some 0xA000000C#32, 7, 1, 0, 0, 1⟩, by decide, rfl⟩, trivial⟩ ?_
    refine cons ⟨⟨rfl, ⟨false, some 0xA000000C#32, 7, 1, 0, 0, 1⟩, rfl, by decide⟩, fun _ _ _ => ⟨_, buf, text⟩⟩ ?_
    refine cons ⟨rfl, trivial⟩ ?_
    refine cons ⟨⟨rfl, ⟨true, none, 7, 2, 0, 0, 1⟩, by decide, by decide, by decide⟩, trivial⟩ ?_
    refine cons ⟨⟨rfl, trivial⟩, trivial⟩ ?_
    refine cons ⟨⟨rfl, ⟨false, none, 7, 3, 5, 0, 1⟩, by decide, by decide, by decide⟩, trivial⟩ ?_
    refine cons ⟨⟨rfl, trivial⟩, trivial⟩ ?_
    refine cons ⟨⟨rfl, ⟨false, none, 7, 3, 5, 0, 1⟩, by decide, by decide, by decide⟩, trivial⟩ ?_
    exact cons ⟨⟨rfl, trivial⟩, trivial⟩ ⟨_, .nil _⟩
  · simp [wholeTrace, CallFails, WinWilling]
  · intro x l h
    unfold linkOnly at h
    split at h <;> cases h
    decide
  · exact .link (l := "d\\x".toList) (by decide) (by decide) (by decide)
      (.name (by decide) (by decide) (by decide) (.name (by decide) (by decide) (by decide) (.here _)))

/-- **C105 is violated**: the error of asking for the current directory is not the one reported; `canonical` goes on with an empty path. -/
theorem c105_violated : ∃ t,
    Exec (Win.canonical false 10 (mkPath .windows "x".toList) (.ref none)) t (.ok (.default, .ref (some .ENOENT))) ∧
    t = [⟨.win .cwdSize, (4 : Nat)⟩, ⟨.win (.getCwd 4), (.error .EACCES : Except Errno (Option Str))⟩,
      ⟨.win (.getAttrs []), (.error (.other 3) : Except Errno (BitVec 32))⟩] :=
  ⟨_, feed_exec (by rfl), rfl⟩

end Asap
