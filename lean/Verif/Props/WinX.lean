import Verif.Props.WinQ
import Verif.Props.WinI
import Verif.Props.WinF
import Verif.Props.CopyC
import Verif.Path.WinExt
import Verif.Path.WinNormal

/-!
# C97: the decisions of `copy` on Windows
-/

namespace Asap
namespace Spec

/-- What the source is, for the options: a link is only seen if an option concerns links. -/
def winSource (D : WinDisk) (src : Path) (opts : CopyOptions) : FType :=
  if linkwise opts then linkKind (D.look src.pathname) else fileKind (D.goal src.pathname)

/-- What the destination is. -/
def winDest (D : WinDisk) (to : Path) (opts : CopyOptions) : FType :=
  if linkwiseTo opts then linkKind (D.look to.pathname) else fileKind (D.goal to.pathname)

/-- What `copy` is to do with these files, if it is to do anything but to report that there is no source, or that source or
destination lead nowhere. -/
def winPlan (D : WinDisk) (src to : Path) (opts : CopyOptions) : Option Action :=
  let f := winSource D src opts
  let d := winDest D to opts
  if f = .notFound then none
  else if special f ∨ (d ≠ .notFound ∧ special d) ∨ (f = .directory ∧ d = .regular) then some (.fail .ENOSYS)
  else if d = .notFound then some (act opts f none)
  else if D.goal src.pathname = none ∨ D.goal to.pathname = none then none
  else if D.goal src.pathname = D.goal to.pathname then some (.fail .ENOSYS)
  else some (act opts f (some d))

/-- Success, or an error. -/
abbrev ends' (c : Code) : Except Stop (Unit × EcArg) := .ok ((), .ref c)

/-- The copy of the entries of the directory `src`, being listed by the search `d`, into `to`, from the entry `ent` on. `seen`
tells whether an entry was copied already. `one a b` is the copy of a single entry. Note `last` and `dotEnd`. -/
inductive WinCopies (one : Path → Path → List Event → Except Stop (Unit × EcArg) → Prop) (src to : Path) (d : Nat) :
    Bool → FindData → List Event → Except Stop (Unit × EcArg) → Prop
  /-- `.` and `..` are passed over -/
  | dot {seen ent ent' t o} : dotName ent.name → WinCopies one src to d seen ent' t o →
      WinCopies one src to d seen ent (gotNext d ent' :: t) o
  /-- the end of a directory without other entries: the error is the one left after the search has been closed -/
  | empty {ent} (e c last) : dotName ent.name →
      WinCopies one src to d false ent [lastNext d e, closedFind d c, ⟨.win .lastError, last⟩] (ends' (last.bind (openCode .none)))
  /-- the end of another directory: an error is lost -/
  | dotEnd {ent} (e c) : dotName ent.name → WinCopies one src to d true ent [lastNext d e, closedFind d c] succeeds
  /-- an entry is copied, then the others -/
  | next {seen ent ent' a b t1 t2 o} : ¬ dotName ent.name →
      append .windows src (mkPath .windows ent.name) = .ok a → append .windows to (mkPath .windows ent.name) = .ok b →
      one a b t1 succeeds → WinCopies one src to d true ent' t2 o →
      WinCopies one src to d seen ent (t1 ++ gotNext d ent' :: t2) o
  /-- the last entry is copied: an error in looking for others is lost -/
  | last {seen ent a b t1} (e c) : ¬ dotName ent.name →
      append .windows src (mkPath .windows ent.name) = .ok a → append .windows to (mkPath .windows ent.name) = .ok b →
      one a b t1 succeeds → WinCopies one src to d seen ent (t1 ++ [lastNext d e, closedFind d c]) succeeds
  /-- an entry fails -/
  | failed {seen ent a b t1} (e c) : ¬ dotName ent.name →
      append .windows src (mkPath .windows ent.name) = .ok a → append .windows to (mkPath .windows ent.name) = .ok b →
      one a b t1 (fails e) → WinCopies one src to d seen ent (t1 ++ [closedFind d c]) (fails e)
  /-- the copy of an entry is stopped -/
  | stopped {seen ent a b t1} (x) : ¬ dotName ent.name →
      append .windows src (mkPath .windows ent.name) = .ok a → append .windows to (mkPath .windows ent.name) = .ok b →
      one a b t1 (.error x) → WinCopies one src to d seen ent t1 (.error x)
  /-- the bound of the model is reached: before an entry, or after its copy -/
  | out {seen ent} : WinCopies one src to d seen ent [] (.error .fuel)
  | outAfter {seen ent a b t1} : ¬ dotName ent.name →
      append .windows src (mkPath .windows ent.name) = .ok a → append .windows to (mkPath .windows ent.name) = .ok b →
      one a b t1 succeeds → WinCopies one src to d seen ent t1 (.error .fuel)

/-- The calls and the outcome that carry out an action on Windows. -/
def WinDoes (c : SysClock) (n : Nat) (src to : Path) (opts : CopyOptions) (a : Action) (t : List Event) (o : Except Stop (Unit × EcArg)) : Prop :=
  match a with
  | .fail e => t = [] ∧ o = fails e
  | .nothing => t = [] ∧ o = succeeds
  | .relink => Exec (Win.copySymlink src to (.ref none)) t o
  | .symlink => (∃ e, t = [⟨.win (.createSymlink to.pathname src.pathname false), (.error e : Except Errno Unit)⟩] ∧ o = fails e) ∨
      (t = [⟨.win (.createSymlink to.pathname src.pathname false), (.ok () : Except Errno Unit)⟩] ∧ o = succeeds)
  | .hardLink => (∃ e, t = [⟨.win (.createHardLink to.pathname src.pathname), (.error e : Except Errno Unit)⟩] ∧ o = fails e) ∨
      (t = [⟨.win (.createHardLink to.pathname src.pathname), (.ok () : Except Errno Unit)⟩] ∧ o = succeeds)
  | .file into => ∃ dst r, (if into then ∃ f, filename .windows src = .ok f ∧ append .windows to f = .ok dst else dst = to) ∧
      Exec (Win.copyFile c src dst opts (.ref none)) t r ∧ o = r.map fun v => ((), v.2)
  | .tree make => ∃ t1 t2, t = t1 ++ t2 ∧
      let made (r : Except Errno Unit) : Event := ⟨.win (.createDirectoryEx src.pathname to.pathname), r⟩
      let first (x : Except Errno (Nat × FindData)) : Event := ⟨.win (.findFirst (searchText src.pathname)), x⟩
      (make = true ∧ t2 = [] ∧ ∃ e, e.winValue ≠ 183 ∧ t1 = [made (.error e)] ∧ o = fails e) ∨
      ((if make then t1 = [made (.ok ())] ∨ ∃ e, e.winValue = 183 ∧ t1 = [made (.error e)] else t1 = []) ∧
        ((∃ e, t2 = [first (.error e)] ∧ (o = ends' (openCode .none e) ∨ (n = 0 ∧ o = .error .fuel))) ∨
         (∃ d ent t3, t2 = first (.ok (d, ent)) :: t3 ∧
           WinCopies (fun a b t o => Exec (Win.copy c n a b opts (.ref none)) t o) src to d false ent t3 o)))

end Spec
open Spec
namespace Win

/-! ## Paths of entries -/

theorem win_filename_named {s : Str} (h : winFile s ≠ []) :
    filename .windows (mkPath .windows s) = .ok ⟨winFile s, [], .filename⟩ := by
  have hs : s ≠ [] := by rintro rfl; exact h rfl
  obtain ⟨init, hc, hi⟩ := winComps_dir_file h
  cases init with
  | nil =>
    rw [win_single hc hs]
    unfold filename
    rcases List.eq_nil_or_concat (winFile s) with h0 | ⟨y, c, h0⟩
    · exact absurd h0 h
    · simp [h0]
  | cons a l =>
    rw [win_multi (by rw [hc]; simp) hs, hc]
    unfold filename
    have hlast : s.getLast? = (winFile s).getLast? := by
      have := winDirText_append (s := s)
      rw [← this, List.getLast?_append]
      rw [this]
      cases hg : (winFile s).getLast? with
      | none => exact absurd (List.getLast?_eq_none_iff.mp hg) h
      | some c => rfl
    cases hg : (winFile s).getLast? with
    | none => exact absurd (List.getLast?_eq_none_iff.mp hg) h
    | some c =>
      have hsep := winFile_noSep s c (List.mem_of_getLast? hg)
      have hcn : c ≠ '\\' := by rintro rfl; exact absurd hsep (by decide)
      have hl : (a :: l ++ [⟨winFile s, .filename, (winDirText s).length⟩] : List Comp).getLast? =
          some ⟨winFile s, .filename, (winDirText s).length⟩ := List.getLast?_concat
      rw [List.cons_append] at hl
      simp [hlast, hg, prefSep, hcn, Comp.toPath, hl]

/-- `src / w` and `to / (src / w).filename()`. -/
theorem entry_paths (r s : Str) {w : Str} (hw : PlainName w) :
    ∃ a b, append .windows (mkPath .windows r) (mkPath .windows w) = .ok a ∧
      filename .windows a = .ok (mkPath .windows w) ∧ append .windows (mkPath .windows s) (mkPath .windows w) = .ok b := by
  obtain ⟨h1, -, -, -, h5, h6⟩ := win_append_plain r hw
  have hf : winFile (winAppendText r w) = w := by
    unfold winFile
    rw [h5, h6]
    simp
  refine ⟨_, _, h1, ?_, (win_append_plain s hw).1⟩
  rw [win_filename_named (by rw [hf]; exact hw.1), hf, mkPath_plain (.inr hw)]

/-- A filename can always be appended. -/
theorem append_file (s w : Str) : ∃ q, append .windows (mkPath .windows s) ⟨w, [], .filename⟩ = .ok q := by
  have key : ∀ (p : Path) (w : Str), append .windows p ⟨w, [], .filename⟩ = (do
      let addSep ← do
        let hf ← hasFilename .windows p
        if hf then pure true
        else do
          let rd ← hasRootDirectory .windows p
          if rd then pure false else isAbsolute .windows p
      return appendFinish .windows false p.pathname addSep w) := fun p w => rfl
  obtain ⟨u, hu, _⟩ := win_append s []
  rw [mkPath_plain (.inl rfl), key] at hu
  rw [key]
  generalize hasFilename .windows (mkPath .windows s) = x at hu ⊢
  generalize hasRootDirectory .windows (mkPath .windows s) = y at hu ⊢
  generalize isAbsolute .windows (mkPath .windows s) = z at hu ⊢
  rcases x with _ | _ | _
  · cases hu
  · rcases y with _ | _ | _
    · cases hu
    · rcases z with _ | z
      · cases hu
      · exact ⟨_, rfl⟩
    · exact ⟨_, rfl⟩
  · exact ⟨_, rfl⟩

/-! ## The loop -/

theorem exec_destroy {d : Nat} {s : Stream} (hs : s.handle = some d) {t : List Event} {o : Except Stop Unit}
    (h : Exec (destroy (some s)) t o) : ∃ c, t = [closedFind d c] ∧ o = .ok () := by
  unfold destroy at h
  rcases exec_bind.mp h with ⟨x, h1, rfl⟩ | ⟨v, t1, t2, rfl, h1, h2⟩
  · obtain ⟨c, _, h3⟩ := exec_close hs h1
    cases h3
  · obtain ⟨c, rfl, _⟩ := exec_close hs h1
    obtain ⟨rfl, rfl⟩ := exec_ret.mp h2
    exact ⟨c, by simp, rfl⟩

theorem nil_or_last {α : Type} (l : List α) : l = [] ∨ ∃ a x, l = a ++ [x] := by
  rcases List.eq_nil_or_concat l with h | ⟨a, x, h⟩
  · exact .inl h
  · exact .inr ⟨a, x, by simpa using h⟩

theorem copies_dots' {one : Path → Path → List Event → Except Stop (Unit × EcArg) → Prop} {src to : Path} {d : Nat}
    {seen : Bool} {o : Except Stop (Unit × EcArg)} {x : FindData} {t : List Event} :
    ∀ {rest : List FindData} {ent : FindData}, (∀ e ∈ (ent :: rest).dropLast, dotName e.name) → (ent :: rest).getLast? = some x →
      WinCopies one src to d seen x t o → WinCopies one src to d seen ent (rest.map (gotNext d) ++ t) o
  | [], ent, _, hl, h => by cases hl; exact h
  | e :: rest, ent, hd, hl, h => by
    rw [List.dropLast_cons_cons] at hd
    exact .dot (hd ent (by simp)) (copies_dots' (fun x hx => hd x (by simp [hx])) (by simpa using hl) h)

theorem copyLoop_win {h : Handler} {rec : Path → Path → EcArg → Prog (Unit × EcArg)} {r s' : Str}
    (hr : ∀ a b, NoThrow (fun _ => True) (rec a b (.ref none))) (hc : ∀ a b, Calmly (rec a b (.ref none))) {d : Nat} :
    ∀ (n : Nat) {s : Stream} {ent : FindData} {t : List Event} {o : Except Stop (Unit × EcArg)} (seen : Bool), Placed d r ent.name s →
      PlainName ent.name → ¬ dotName ent.name → (∀ ev ∈ t, winNamed ev) →
      Exec (copyLoop h rec (mkPath .windows s') n (some s) none (.ref none)) t o →
      WinCopies (fun a b t o => Exec (rec a b (.ref none)) t o) (mkPath .windows r) (mkPath .windows s') d seen ent t o := by
  intro n
  induction n with
  | zero =>
    intro s ent t o seen _ _ _ _ hx
    obtain ⟨rfl, rfl⟩ := exec_stop.mp hx
    exact .out
  | succ n ih =>
    intro s ent t o seen hs hn hdot hreal hx
    obtain ⟨a, b, ha, hf, hb⟩ := entry_paths r s' hn
    have hpath : s.entry.path = a := by
      have := hs.path.1
      rw [ha] at this
      cases this
      rfl
    have hop : OpenOn d r s := ⟨hs.handle, hs.root⟩
    simp only [copyLoop, ne_eq, not_true_eq_false, if_false, hpath, hf, hb, Prog.ofRes_ok, Prog.ret_bind] at hx
    rcases exec_bind.mp hx with ⟨x, h1, rfl⟩ | ⟨⟨⟨⟩, ec⟩, t1, t2, rfl, h1, h2⟩
    · exact .stopped x hdot ha hb (exec_onThrow_of (hr _ _) h1)
    · have h1 := exec_onThrow_of (hr _ _) h1
      rcases hc _ _ _ _ h1 with h3 | ⟨e, h3⟩ | ⟨x, h3, -⟩
      · cases h3
        simp only [isSet_none, Bool.false_eq_true, if_false] at h2
        unfold DirIter.incr at h2
        simp only [Prog.bind_assoc] at h2
        have hreal2 : ∀ ev ∈ t2, winNamed ev := fun ev he => hreal ev (by simp [he])
        have hdots : ∀ {dots : List FindData} {x : FindData} {t : List Event} {o : Except Stop (Unit × EcArg)},
            (∀ e ∈ dots, dotName e.name) → WinCopies (fun a b t o => Exec (rec a b (.ref none)) t o) (mkPath .windows r)
              (mkPath .windows s') d true x t o →
            WinCopies (fun a b t o => Exec (rec a b (.ref none)) t o) (mkPath .windows r) (mkPath .windows s') d seen ent
              (t1 ++ ((dots ++ [x]).map (gotNext d) ++ t)) o := by
          intro dots x t o hd hw
          cases dots with
          | nil => exact .next hdot ha hb h1 hw
          | cons e dots =>
            refine .next hdot ha hb h1 (copies_dots' (rest := dots ++ [x]) (ent := e) (x := x) ?_ (by rw [← List.cons_append]; exact List.getLast?_concat) hw)
            rw [← List.cons_append, List.dropLast_concat]
            exact hd
        rcases exec_bind.mp h2 with ⟨x, h4, rfl⟩ | ⟨v, t3, t4, rfl, h4, h5⟩
        · obtain ⟨dots, hd, ⟨hl, rfl, h6⟩ | ⟨e, c, s1, rfl, h6⟩ | ⟨ent', s1, _, _, h6, _⟩⟩ := exec_advance hop h4
          · cases h6
            rcases nil_or_last dots with rfl | ⟨dots, x, rfl⟩
            · simpa using WinCopies.outAfter hdot ha hb h1
            · have := hdots (dots := dots) (fun e he => hd e (List.mem_append_left _ he)) (WinCopies.out (one := fun a b t o => Exec (rec a b (.ref none)) t o)
                (src := mkPath .windows r) (to := mkPath .windows s') (d := d) (seen := true) (ent := x))
              simpa using this
          · cases h6
          · cases h6
        · obtain ⟨dots, hd, ⟨_, _, h6⟩ | ⟨e, c, s1, rfl, h6⟩ | ⟨ent', s1, hne, rfl, h6, hp⟩⟩ := exec_advance hop h4
          · cases h6
          · cases h6
            cases n with
            | zero => simp only [Stream.advance, exec_stop] at h4; cases h4.2
            | succ n =>
              have h7 : t4 = [] ∧ o = succeeds := by
                cases hc : endCode e with
                | none =>
                  rw [hc] at h5
                  simpa [Prog.ret_bind, copyLoop, EcArg.code] using h5
                | some e' =>
                  rw [hc] at h5
                  simpa [Handler.reportMsg, Prog.ret_bind, copyLoop, EcArg.code, EcArg.assign] using h5
              obtain ⟨rfl, rfl⟩ := h7
              rcases nil_or_last dots with rfl | ⟨dots, x, rfl⟩
              · simpa using WinCopies.last e c hdot ha hb h1
              · have := hdots (dots := dots) (fun e he => hd e (List.mem_append_left _ he)) (WinCopies.dotEnd (one := fun a b t o => Exec (rec a b (.ref none)) t o)
                  (src := mkPath .windows r) (to := mkPath .windows s') (d := d) (ent := x) e c (hd x (by simp)))
                simpa using this
          · cases h6
            have hn' : PlainName ent'.name := (hreal2 (gotNext d ent') (by simp)).resolve_left hne
            have := hdots hd (ih true hp hn' hne (fun ev he => hreal2 ev (by simp [he])) h5)
            simpa using this
      · cases h3
        simp only [isSet_some, if_true] at h2
        rcases exec_bind.mp h2 with ⟨x, h4, rfl⟩ | ⟨⟨⟩, t3, t4, rfl, h4, h5⟩
        · obtain ⟨r, -, h⟩ := exec_destroy hs.handle h4
          cases h
        · obtain ⟨c, rfl, h⟩ := exec_destroy hs.handle h4
          obtain ⟨rfl, rfl⟩ := exec_ret.mp h5
          exact .failed e c hdot ha hb h1
      · cases h3

theorem copyDir_win {c : SysClock} {n : Nat} {hd : Handler} {r s : Str} {opts : CopyOptions} {ts : FStatus}
    {t : List Event} {o : Except Stop (Unit × EcArg)} (hreal : ∀ ev ∈ t, winNamed ev)
    (hx : Exec (copyDir (fun a b ec => copy c n a b opts ec) n hd (mkPath .windows r) (mkPath .windows s) ts (.ref none)) t o) :
    WinDoes c n (mkPath .windows r) (mkPath .windows s) opts (.tree (!ts.exists')) t o := by
  have rest : ∀ {t}, (∀ ev ∈ t, winNamed ev) → Exec ((DirIter.new n (mkPath .windows r) .none (.ref none)).bind fun v =>
        if v.2.isSet then .ret ((), v.2) else copyLoop hd (fun a b ec => copy c n a b opts ec) (mkPath .windows s) n v.1 none v.2) t o →
      let first (x : Except Errno (Nat × FindData)) : Event := ⟨.win (.findFirst (searchText (mkPath .windows r).pathname)), x⟩
      ((∃ e, t = [first (.error e)] ∧ (o = ends' (openCode .none e) ∨ (n = 0 ∧ o = .error .fuel))) ∨
         (∃ d ent t3, t = first (.ok (d, ent)) :: t3 ∧
           WinCopies (fun a b t o => Exec (Win.copy c n a b opts (.ref none)) t o) (mkPath .windows r) (mkPath .windows s) d false ent t3 o)) := by
    intro t hreal hx first
    simp only [DirIter.new, Prog.bind_assoc, clear_ref] at hx
    have hbad : ∀ {s' : Stream} {m : Code} {t : List Event}, s'.good = false →
        Exec (Prog.bind (if (!s'.good) = true then
          (match m with
          | some e => (Handler.report ⟨"directory_iterator::directory_iterator(...)".toList, some (mkPath .windows r), none⟩
              ((EcArg.ref none).assign m) (some e) ()).bind fun y => .ret ((none : DirIter), y.2)
          | none => .ret (none, (EcArg.ref none).assign m))
          else .ret (some s', (EcArg.ref none).assign m)) fun v =>
            if v.2.isSet then .ret ((), v.2) else copyLoop hd (fun a b ec => copy c n a b opts ec) (mkPath .windows s) n v.1 none v.2) t o →
        t = [] ∧ (o = ends' m ∨ (n = 0 ∧ o = .error .fuel)) := by
      intro s' m t hg h
      rw [hg] at h
      cases m with
      | none =>
        cases n with
        | zero =>
          have h' : Exec (.stop .fuel) t o := h
          obtain ⟨rfl, rfl⟩ := exec_stop.mp h'
          exact ⟨rfl, .inr ⟨rfl, rfl⟩⟩
        | succ n =>
          have h' : Exec (.ret ((), .ref none)) t o := h
          obtain ⟨rfl, rfl⟩ := exec_ret.mp h'
          exact ⟨rfl, .inl rfl⟩
      | some e =>
        have h' : Exec (.ret ((), .ref (some e))) t o := h
        obtain ⟨rfl, rfl⟩ := exec_ret.mp h'
        exact ⟨rfl, .inl rfl⟩
    rcases exec_bind.mp hx with ⟨x, h1, rfl⟩ | ⟨v, t1, t2, rfl, h1, h2⟩
    · rcases exec_streamNew h1 with ⟨e, s, _, _, h2⟩ | ⟨d, ent, rest, hr, ⟨h2, _, h3⟩ | ⟨_, _, _, _, _, _, _, h2⟩ | ⟨_, _, _, _, _, _, h2⟩⟩
      · cases h2
      · cases h2
        refine .inr ⟨d, ent, _, h3, ?_⟩
        rcases hl : (ent :: rest).getLast? with _ | x
        · simp at hl
        · simpa using copies_dots' hr hl WinCopies.out
      · cases h2
      · cases h2
    · rcases exec_streamNew h1 with ⟨e, s', rfl, hg, h3⟩ | ⟨d, ent, rest, hr, ⟨h3, _⟩ | ⟨e, cl, last, s', hdt, rfl, hg, h3⟩ | ⟨x, s', hxl, hne, rfl, hp, h3⟩⟩
      · cases h3
        obtain ⟨rfl, h4⟩ := hbad hg h2
        exact .inl ⟨e, rfl, h4⟩
      · cases h3
      · cases h3
        obtain ⟨rfl, h4⟩ := hbad hg h2
        rcases h4 with rfl | ⟨rfl, rfl⟩
        · refine .inr ⟨d, ent, rest.map (gotNext d) ++ [lastNext d e, closedFind d cl, ⟨.win .lastError, last⟩], by simp [first], ?_⟩
          rcases hl : (ent :: rest).getLast? with _ | x
          · simp at hl
          · exact copies_dots' hr hl (.empty e cl last (hdt x (List.mem_of_getLast? hl)))
        · exfalso
          unfold Stream.new at h1
          obtain ⟨a, t', heq, h'⟩ := exec_call.mp h1
          rcases a with e | ⟨d', ent'⟩
          · simp at heq
          · cases h' 
      · cases h3
        have hg : s'.good = true := by simp [Stream.good, hp.handle]
        have h4 : Exec (copyLoop hd (fun a b ec => copy c n a b opts ec) (mkPath .windows s) n (some s') none (.ref none)) t2 o := by
          rw [hg] at h2
          exact h2
        refine .inr ⟨d, ent, rest.map (gotNext d) ++ t2, by simp [first], copies_dots' hr hxl ?_⟩
        have hn' : PlainName x.name := by
          have hmem : x ∈ ent :: rest := List.mem_of_getLast? hxl
          rcases List.mem_cons.mp hmem with rfl | hm
          · exact (hreal (first (.ok (d, x))) (by simp [first])).resolve_left hne
          · exact (hreal (gotNext d x) (by simp; exact .inr (.inl ⟨x, hm, rfl⟩))).resolve_left hne
        exact copyLoop_win (fun a b => (rel_copy c n a b opts none).noThrow) (fun a b => (rel_copy c n a b opts none).calmly) n
          false hp hn' hne (fun ev he => hreal ev (by simp [he])) h4
  simp only [copyDir] at hx
  unfold WinDoes
  cases hex : ts.exists'
  · simp only [hex, Bool.not_false, if_true, Prog.bind_assoc, createDirectoryLike, clear_ref] at hx
    obtain ⟨a, t', rfl, h'⟩ := exec_call.mp hx
    clear hx
    rcases a with e | ⟨⟩
    · by_cases he : e.winValue = 183
      · dsimp only at h'
        rw [if_neg (by simp [ERROR_ALREADY_EXISTS, he])] at h'
        simp only [Prog.ret_bind, isSet_none, Bool.false_eq_true, if_false] at h'
        refine ⟨[_], t', rfl, .inr ⟨.inr ⟨e, he, rfl⟩, rest (fun ev h => hreal ev (by simp [h])) h'⟩⟩
      · dsimp only at h'
        rw [if_pos (by simpa [ERROR_ALREADY_EXISTS] using he)] at h'
        have h'' : Exec (.ret ((), .ref (some e))) t' o := h'
        obtain ⟨rfl, rfl⟩ := exec_ret.mp h''
        exact ⟨[_], [], rfl, .inl ⟨rfl, rfl, e, he, rfl, rfl⟩⟩
    · simp only [Prog.ret_bind, isSet_none, Bool.false_eq_true, if_false] at h'
      exact ⟨[_], t', rfl, .inr ⟨.inl rfl, rest (fun ev h => hreal ev (by simp [h])) h'⟩⟩
  · simp only [hex, Bool.not_true, Bool.false_eq_true, if_false, Prog.ret_bind, isSet_none] at hx
    exact ⟨[], t, rfl, .inr ⟨rfl, rest hreal hx⟩⟩

theorem copyDispatch_win {c : SysClock} {n : Nat} {hd : Handler} {r s : Str} {opts : CopyOptions} {f d : FStatus}
    {t : List Event} {o : Except Stop (Unit × EcArg)} (hreal : ∀ ev ∈ t, winNamed ev)
    (hf : f.type = .symlink ∨ f.type = .regular ∨ f.type = .directory)
    (hx : Exec (copyDispatch c (fun a b ec => copy c n a b opts ec) n hd (mkPath .windows r) (mkPath .windows s) opts f d (.ref none)) t o) :
    WinDoes c n (mkPath .windows r) (mkPath .windows s) opts (act opts f.type (if d.exists' then some d.type else none)) t o := by
  unfold copyDispatch at hx
  simp only [has_makeLinks, has_skipLinks, has_directoriesOnly, has_makeHardLinks] at hx
  unfold act
  rcases hf with hf | hf | hf
  · simp only [FStatus.isSymlink, hf, beq_self_eq_true, if_true] at hx ⊢
    split at hx <;> rename_i h1
    · rw [if_pos h1]
      exact exec_ret.mp hx
    · rw [if_neg h1]
      cases hex : d.exists'
      · simp only [hex, Bool.not_false, if_true] at hx
        simp only [Bool.false_eq_true, if_false, if_true]
        exact hx
      · simp only [hex, Bool.not_true, Bool.false_eq_true, if_false] at hx
        simp only [if_true, reduceCtorEq, if_false]
        exact exec_ret.mp hx
  · simp only [FStatus.isSymlink, FStatus.isRegular, hf, beq_self_eq_true, if_true] at hx ⊢
    rw [if_neg (by decide)] at hx
    split at hx <;> rename_i h1
    · rw [if_pos h1]
      exact exec_ret.mp hx
    · rw [if_neg h1]
      split at hx <;> rename_i h2
      · rw [if_pos h2]
        obtain ⟨a, t', rfl, h'⟩ := exec_call.mp hx
        rcases a with e | ⟨⟩
        · have h3 : Exec (.ret ((), .ref (some e))) t' o := h'
          obtain ⟨rfl, rfl⟩ := exec_ret.mp h3; exact .inl ⟨e, rfl, rfl⟩
        · have h3 : Exec (.ret ((), .ref none)) t' o := h'
          obtain ⟨rfl, rfl⟩ := exec_ret.mp h3; exact .inr ⟨rfl, rfl⟩
      · rw [if_neg h2]
        split at hx <;> rename_i h3
        · rw [if_pos h3]
          obtain ⟨a, t', rfl, h'⟩ := exec_call.mp hx
          rcases a with e | ⟨⟩
          · have h3 : Exec (.ret ((), .ref (some e))) t' o := h'
            obtain ⟨rfl, rfl⟩ := exec_ret.mp h3; exact .inl ⟨e, rfl, rfl⟩
          · have h3 : Exec (.ret ((), .ref none)) t' o := h'
            obtain ⟨rfl, rfl⟩ := exec_ret.mp h3; exact .inr ⟨rfl, rfl⟩
        · rw [if_neg h3]
          have hfin : ∀ dst, Exec ((copyFile c (mkPath .windows r) dst opts (.ref none)).bind fun v => .ret ((), v.2)) t o →
              ∃ q, Exec (copyFile c (mkPath .windows r) dst opts (.ref none)) t q ∧ o = q.map fun v => ((), v.2) := by
            intro dst h
            rcases exec_bind.mp h with ⟨x, h1, rfl⟩ | ⟨v, t1, t2, rfl, h1, h2⟩
            · exact ⟨_, h1, rfl⟩
            · obtain ⟨rfl, rfl⟩ := exec_ret.mp h2
              rw [List.append_nil]
              exact ⟨_, h1, rfl⟩
          split at hx <;> rename_i h4
          · have h5 : d.type = .directory := by simpa [FStatus.isDirectory] using h4
            have hex : d.exists' = true := by simp [FStatus.exists', FStatus.known, h5]
            obtain ⟨q, dst, hq, hdst⟩ : ∃ q dst, filename .windows (mkPath .windows r) = .ok q ∧
                append .windows (mkPath .windows s) q = .ok dst := by
              by_cases hne : winFile r = []
              · obtain ⟨q, hq, hp⟩ := win_filename (s := r)
                rw [hne] at hp
                have hq' : q = .default ∨ q = mkPath .windows [] := by
                  rw [mkPath_plain (.inl rfl)]
                  unfold filename at hq
                  split at hq
                  · cases hq; exact .inl rfl
                  · rename_i hlast
                    split at hq
                    · cases hq
                      rw [hp] at hlast
                      cases hlast
                    · split at hq
                      · cases hq; exact .inl rfl
                      · split at hq
                        · cases hq
                        · cases hq
                          split at hp
                          · rename_i hl
                            rw [if_pos hl]
                            right
                            simp only [Comp.toPath] at hp ⊢
                            rw [hp, hl]
                          · rename_i hl
                            rw [if_neg hl]
                            exact .inl rfl
                    · cases hq; exact .inl rfl
                obtain ⟨u, hu, _⟩ := win_append s []
                rcases hq' with rfl | rfl
                · exact ⟨_, _, hq, by rw [append_default_right]; exact hu⟩
                · exact ⟨_, _, hq, hu⟩
              · obtain ⟨dst, hdst⟩ := append_file s (winFile r)
                exact ⟨_, dst, win_filename_named hne, hdst⟩
            simp only [hq, hdst, Prog.ofRes_ok, Prog.ret_bind] at hx
            simp only [hex, if_true, h5, decide_true]
            obtain ⟨v, hv⟩ := hfin _ hx
            exact ⟨dst, v, by rw [if_pos rfl]; exact ⟨q, hq, hdst⟩, hv⟩
          · have h5 : (decide ((if d.exists' = true then some d.type else none) = some .directory)) = false := by
              rw [decide_eq_false_iff_not]
              intro h
              split at h
              · simp only [Option.some.injEq] at h; exact h4 (by simp [FStatus.isDirectory, h])
              · cases h
            rw [h5]
            obtain ⟨v, hv⟩ := hfin _ hx
            exact ⟨_, v, by rw [if_neg (by simp)], hv⟩
  · simp only [FStatus.isSymlink, FStatus.isRegular, FStatus.isDirectory, hf, beq_self_eq_true, Bool.true_and, Bool.or_eq_true, has_recursive, has_makeLinks] at hx ⊢
    rw [if_neg (by decide), if_neg (by decide)] at hx
    split at hx <;> rename_i h1
    · rw [if_pos h1]
      exact exec_ret.mp hx
    · rw [if_neg h1]
      have h0 : (opts == CopyOptions.none) = true ↔ opts = 0 := by simp [CopyOptions.none]
      split at hx <;> rename_i h2
      · rw [if_pos (by rwa [h0] at h2)]
        have := copyDir_win hreal hx
        have h3 : (decide ((if d.exists' = true then some d.type else none) = none)) = !d.exists' := by
          cases d.exists' <;> simp
        rw [h3]
        exact this
      · rw [if_neg (by rwa [h0] at h2)]
        exact exec_ret.mp hx

/-- What a look at something of this kind says. -/
def Looked (kind : FType) (w : Prop) (o : Except Stop (FStatus × EcArg)) : Prop :=
  ∃ st m, o = .ok (st, .ref m) ∧ ((m = none ∧ st.type = kind ∧ kind ≠ .notFound) ∨
    ∃ e, m = some e ∧ ((st.type = .notFound ∧ kind = .notFound) ∨
      (¬ w ∧ (st.type = .none ∨ st.type = .unknown ∨ st.type = .reparse))))

theorem kinds (x : Option WinObj) : (linkKind x = .notFound ↔ x = none) ∧ (fileKind x = .notFound ↔ x = none) ∧
    linkKind x ≠ .none ∧ fileKind x ≠ .none ∧ linkKind x ≠ .unknown ∧ fileKind x ≠ .unknown := by
  cases x with
  | none => simp [linkKind, fileKind]
  | some x =>
    obtain ⟨d, tag, _, _, _, _, _⟩ := x
    cases tag <;> cases d <;> simp [linkKind, fileKind] <;> split <;> simp

theorem looked_of_says {there : Prop} {kind : FType} {w : Prop} {o : Except Stop (FStatus × EcArg)} (h : Says there kind w o)
    (hk : kind = .notFound ↔ ¬ there) (h1 : kind ≠ .none) (h2 : kind ≠ .unknown) : Looked kind w o := by
  obtain ⟨st, ec, rfl, ⟨rfl, hth, ht⟩ | ⟨e, rfl, ⟨ht, hn⟩ | ⟨ht, he⟩ | ⟨ht, he⟩⟩, hw⟩ := h
  · exact ⟨st, none, rfl, .inl ⟨rfl, ht, fun h => hk.mp h hth⟩⟩
  · exact ⟨st, _, rfl, .inr ⟨e, rfl, .inl ⟨ht, hk.mpr hn⟩⟩⟩
  · exact ⟨st, _, rfl, .inr ⟨e, rfl, .inr ⟨fun h => h2 (by rw [← hw h, ht]), .inr (.inl ht)⟩⟩⟩
  · exact ⟨st, _, rfl, .inr ⟨e, rfl, .inr ⟨fun h => h1 (by rw [← hw h, ht]), .inl ht⟩⟩⟩

/-- The look at a path, as a link or not. -/
theorem wp_winLook (D : WinDisk) (w : Prop) (b : Bool) (p : Path) (c : Code) (hs : Handles) :
    wp (LawW D w) (fun o hs' => hs' = hs ∧
        Looked (if b then linkKind (D.look p.pathname) else fileKind (D.goal p.pathname)) w o)
      (if b then symlinkStatus p (.ref c) else status p (.ref c)) hs := by
  cases b
  · refine wp_mono ?_ (wp_winStatus D w p c hs)
    rintro o s ⟨h, rfl⟩
    obtain ⟨-, k1, -, k2, -, k3⟩ := kinds (D.goal p.pathname)
    exact ⟨rfl, looked_of_says h (by simp [k1]) k2 k3⟩
  · refine wp_mono ?_ (wp_winSymlinkStatus D w p c hs)
    obtain ⟨k1, -, k2, -, k3, -⟩ := kinds (D.look p.pathname)
    rintro o s ⟨rfl, h | ⟨hw, hl, st, e, rfl, ht⟩⟩
    · exact ⟨rfl, looked_of_says h (by simp [k1]) k2 k3⟩
    · exact ⟨rfl, st, _, rfl, .inr ⟨e, rfl, .inr ⟨hw, .inr (.inr ht)⟩⟩⟩

theorem only_look (b : Bool) (p : Path) (ec : EcArg) :
    Only Harmless (fun _ => True) (if b then symlinkStatus p ec else status p ec) := by
  cases b
  · exact only_status ..
  · exact only_symlinkStatus ..

theorem win_rejects (f d : FStatus) (hf : f.type ≠ .notFound) (hf' : f.type ≠ .none) (hd : d.type ≠ .none) :
    (!f.exists' || f.isOther || d.isOther || (f.isDirectory && d.isRegular)) = true ↔
      special f.type ∨ (d.type ≠ .notFound ∧ special d.type) ∨ (f.type = .directory ∧ d.type = .regular) := by
  obtain ⟨ft, _⟩ := f
  obtain ⟨dt, _⟩ := d
  revert hf hf' hd
  cases ft <;> cases dt <;>
    simp [FStatus.exists', FStatus.known, FStatus.isOther, FStatus.isDirectory, FStatus.isRegular, FStatus.isSymlink, special]

end Win

/-- **C97.** `copy` first looks at source and destination, modifying nothing (`t1`). Whatever the files are (`D`) while it
looks, one of these holds. It reports an error and does nothing else; then, unless some call failed on a file that is there, there is
nothing to plan. Or it carries out the plan for these files (`t2`). -/
theorem c97_copy {c : SysClock} {n : Nat} {r s : Str} {opts : CopyOptions} {ec : Code}
    {t : List Event} {o : Except Stop (Unit × EcArg)} (hreal : ∀ ev ∈ t, winNamed ev)
    (hx : Exec (Win.copy c (n + 1) (mkPath .windows r) (mkPath .windows s) opts (.ref ec)) t o) :
    ∃ t1 t2, t = t1 ++ t2 ∧ Quiet t1 ∧ ∀ (D : WinDisk) (hs : Handles), Steps (WinLaw D) noHandles t1 hs →
      (t2 = [] ∧ (∃ e, o = fails e) ∧ ((∀ e ∈ t1, WinWilling e) → winPlan D (mkPath .windows r) (mkPath .windows s) opts = none)) ∨
      ∃ a, winPlan D (mkPath .windows r) (mkPath .windows s) opts = some a ∧
        WinDoes c n (mkPath .windows r) (mkPath .windows s) opts a t2 o := by
  have hl1 : (linkwiseTo opts || opts.has .copySymlinks) = linkwise opts := by
    rw [Bool.eq_iff_iff]; simp [linkwise, linkwiseTo, has_copyLinks, or_assoc]
  have hl2 : (opts.has .createSymlinks || opts.has .skipSymlinks) = linkwiseTo opts := by
    rw [Bool.eq_iff_iff]; simp [linkwiseTo, has_makeLinks, has_skipLinks]
  simp only [Win.copy, clear_ref, hl1, hl2] at hx
  have hq : ∀ {b p ec t o}, Exec (if b = true then Win.symlinkStatus p ec else Win.status p ec) t o → Quiet t :=
    fun h => ((Win.only_look _ _ _).exec h).1
  rcases exec_bind.mp hx with ⟨x, h1, rfl⟩ | ⟨⟨f, fec⟩, ta, tb, rfl, h1, h2⟩
  · refine ⟨t, [], by simp, hq h1, fun D hs hst => ?_⟩
    obtain ⟨_, st, m, h, _⟩ := wp_sound (Win.wp_winLook D _ _ _ _ noHandles) h1 (Win.steps_lawW hst)
    cases h
  have F : ∀ {D : WinDisk} {w : Prop} {hs : Handles}, Steps (Win.LawW D w) noHandles ta hs → hs = noHandles ∧
      Win.Looked (winSource D (mkPath .windows r) opts) w (.ok (f, fec)) :=
    fun hst => wp_sound (Win.wp_winLook _ _ _ _ _ noHandles) h1 hst
  have hnone : ∀ {D : WinDisk}, winSource D (mkPath .windows r) opts = .notFound →
      winPlan D (mkPath .windows r) (mkPath .windows s) opts = none := by
    intro D h
    unfold winPlan
    simp only [h, if_true]
  dsimp only at h2
  by_cases hset : fec.isSet = true
  · rw [if_pos hset] at h2
    refine ⟨ta, tb, rfl, hq h1, fun D hs hst => .inl ?_⟩
    obtain ⟨_, st, m, h3, ⟨rfl, _⟩ | ⟨e, rfl, h4⟩⟩ := F (Win.steps_lawW hst)
    · cases h3
      cases hset
    · cases h3
      have h5 : Exec (.ret ((), .ref (some e))) tb o := h2
      obtain ⟨rfl, rfl⟩ := exec_ret.mp h5
      refine ⟨rfl, ⟨e, rfl⟩, fun hw => ?_⟩
      rcases h4 with ⟨_, h4⟩ | ⟨h4, _⟩
      · exact hnone h4
      · exact absurd hw h4
  rw [if_neg hset] at h2
  have F' : ∀ {D : WinDisk} {w : Prop} {hs : Handles}, Steps (Win.LawW D w) noHandles ta hs → hs = noHandles ∧
      f.type = winSource D (mkPath .windows r) opts ∧ f.type ≠ .notFound ∧ f.type ≠ .none := by
    intro D w hs hst
    obtain ⟨h0, st, m, h3, ⟨rfl, h4, h5⟩ | ⟨e, rfl, h4⟩⟩ := F hst
    · cases h3
      refine ⟨h0, h4, by rw [h4]; exact h5, ?_⟩
      rw [h4, winSource]
      split
      · exact (Win.kinds _).2.2.1
      · exact (Win.kinds _).2.2.2.1
    · cases h3
      exact absurd rfl hset
  rcases exec_bind.mp h2 with ⟨x, h3, rfl⟩ | ⟨⟨d, dec⟩, tc, td, rfl, h3, h4⟩
  · refine ⟨ta ++ tb, [], by simp, fun ev he => (List.mem_append.mp he).elim (hq h1 ev) (hq h3 ev), fun D hs hst => ?_⟩
    obtain ⟨hs', h5, h6⟩ := steps_append.mp (Win.steps_lawW hst)
    obtain ⟨rfl, _⟩ := F' h5
    obtain ⟨_, st, m, h, _⟩ := wp_sound (Win.wp_winLook D _ _ _ _ noHandles) h3 h6
    cases h
  have hq2 : Quiet (ta ++ tc) := fun ev he => (List.mem_append.mp he).elim (hq h1 ev) (hq h3 ev)
  have G : ∀ {D : WinDisk} {w : Prop} {hs : Handles}, Steps (Win.LawW D w) noHandles (ta ++ tc) hs → hs = noHandles ∧
      f.type = winSource D (mkPath .windows r) opts ∧ f.type ≠ .notFound ∧ f.type ≠ .none ∧
      Win.Looked (winDest D (mkPath .windows s) opts) w (.ok (d, dec)) := by
    intro D w hs hst
    obtain ⟨hs', h5, h6⟩ := steps_append.mp hst
    obtain ⟨rfl, h7, h8, h9⟩ := F' h5
    obtain ⟨rfl, h10⟩ := wp_sound (Win.wp_winLook _ _ _ _ _ noHandles) h3 h6
    exact ⟨rfl, h7, h8, h9, h10⟩
  dsimp only at h4
  have hassoc : ta ++ (tc ++ td) = ta ++ tc ++ td := by simp
  by_cases hk : d.known = false
  · rw [if_pos (by simp [hk])] at h4
    have hkt : d.type = .none := by simpa [FStatus.known] using hk
    refine ⟨ta ++ tc, td, hassoc, hq2, fun D hs hst => .inl ?_⟩
    obtain ⟨_, h7, h8, h9, st, m, h5, ⟨rfl, h6, _⟩ | ⟨e, rfl, h6⟩⟩ := G (Win.steps_lawW hst)
    · cases h5
      exfalso
      rw [hkt, winDest] at h6
      split at h6
      · exact (Win.kinds _).2.2.1 h6.symm
      · exact (Win.kinds _).2.2.2.1 h6.symm
    · cases h5
      have h5 : Exec (.ret ((), .ref (some e))) td o := h4
      obtain ⟨rfl, rfl⟩ := exec_ret.mp h5
      refine ⟨rfl, ⟨e, rfl⟩, fun hw => ?_⟩
      rcases h6 with ⟨h6, _⟩ | ⟨h6, _⟩
      · rw [hkt] at h6; cases h6
      · exact absurd hw h6
  have hkt : d.type ≠ .none := by simpa [FStatus.known] using hk
  rw [if_neg (by simp [hk])] at h4
  -- the destination, unless it could not be examined
  have G' : ∀ {D : WinDisk} {w : Prop} {hs : Handles}, Steps (Win.LawW D w) noHandles (ta ++ tc) hs → hs = noHandles ∧
      f.type = winSource D (mkPath .windows r) opts ∧ f.type ≠ .notFound ∧ f.type ≠ .none ∧
      (d.type = winDest D (mkPath .windows s) opts ∨ (¬ w ∧ (d.type = .unknown ∨ d.type = .reparse))) := by
    intro D w hs hst
    obtain ⟨h0, h7, h8, h9, st, m, h5, ⟨rfl, h6, _⟩ | ⟨e, rfl, ⟨h6, h6'⟩ | ⟨hw, h6⟩⟩⟩ := G hst
    · cases h5; exact ⟨h0, h7, h8, h9, .inl h6⟩
    · cases h5; exact ⟨h0, h7, h8, h9, .inl (h6.trans h6'.symm)⟩
    · cases h5; exact ⟨h0, h7, h8, h9, .inr ⟨hw, h6.resolve_left hkt⟩⟩
  by_cases hrej : (!f.exists' || f.isOther || d.isOther || (f.isDirectory && d.isRegular)) = true
  · rw [if_pos hrej] at h4
    have h5 : Exec (.ret ((), .ref (some .ENOSYS))) td o := h4
    obtain ⟨rfl, rfl⟩ := exec_ret.mp h5
    refine ⟨ta ++ tc, [], by simp, hq2, fun D hs hst => ?_⟩
    obtain ⟨_, h7, h8, h9, h10 | ⟨hw, _⟩⟩ := G' (Win.steps_lawW hst)
    · have hr := (Win.win_rejects f d h8 h9 hkt).mp hrej
      rw [h7, h10] at hr
      rw [h7] at h8
      refine .inr ⟨.fail .ENOSYS, ?_, rfl, rfl⟩
      unfold winPlan
      simp only [if_neg h8, if_pos hr]
    · exact .inl ⟨rfl, ⟨_, rfl⟩, fun h => absurd h hw⟩
  rw [if_neg hrej] at h4
  -- the destination is known, and the types fit
  have K : ∀ {D : WinDisk} {w : Prop} {hs : Handles}, Steps (Win.LawW D w) noHandles (ta ++ tc) hs → hs = noHandles ∧
      f.type = winSource D (mkPath .windows r) opts ∧ d.type = winDest D (mkPath .windows s) opts ∧ f.type ≠ .notFound ∧
      f.type ≠ .none ∧ (f.type = .symlink ∨ f.type = .regular ∨ f.type = .directory) ∧
      winPlan D (mkPath .windows r) (mkPath .windows s) opts =
        if d.type = .notFound then some (act opts f.type none)
        else if D.goal (mkPath .windows r).pathname = none ∨ D.goal (mkPath .windows s).pathname = none then none
        else if D.goal (mkPath .windows r).pathname = D.goal (mkPath .windows s).pathname then some (.fail .ENOSYS)
        else some (act opts f.type (some d.type)) := by
    intro D w hs hst
    obtain ⟨h0, h7, h8, h9, h10⟩ := G' hst
    have hnr := fun h => hrej ((Win.win_rejects f d h8 h9 hkt).mpr h)
    have h11 : d.type = winDest D (mkPath .windows s) opts := by
      rcases h10 with h10 | ⟨_, h10 | h10⟩
      · exact h10
      · exact absurd (.inr (.inl (by rw [h10]; simp [special]))) hnr
      · exact absurd (.inr (.inl (by rw [h10]; simp [special]))) hnr
    refine ⟨h0, h7, h11, h8, h9, ?_, ?_⟩
    · have : ¬ special f.type := fun h => hnr (.inl h)
      unfold special at this
      grind
    · unfold winPlan
      rw [← h7, ← h11]
      simp only [if_neg h8, if_neg hnr]
  have hfex : ∀ {D : WinDisk} {w : Prop} {hs : Handles}, Steps (Win.LawW D w) noHandles (ta ++ tc) hs → f.exists' = true := by
    intro D w hs hst
    obtain ⟨_, _, _, h8, h9, _⟩ := K hst
    simp [FStatus.exists', FStatus.known, h8, h9]
  have hrealT : ∀ {t'}, t' <:+ td → ∀ ev ∈ t', winNamed ev := by
    intro t' h ev he
    exact hreal ev (by simp [h.subset he])
  by_cases hboth : (f.exists' && d.exists') = true
  · rw [if_pos hboth] at h4
    have hdne : d.type ≠ .notFound := by
      intro h
      simp [FStatus.exists', h] at hboth
    have hdex : d.exists' = true := by simp [FStatus.exists', FStatus.known, hkt, hdne]
    rcases exec_bind.mp h4 with ⟨x, h5, rfl⟩ | ⟨⟨b, bec⟩, te, tf, rfl, h5, h6⟩
    · refine ⟨ta ++ tc ++ td, [], by simp, fun ev he => (List.mem_append.mp he).elim (hq2 ev) (((Win.only_equivalent _ _ _).exec h5).1 ev),
        fun D hs hst => ?_⟩
      obtain ⟨hs', h7, h8⟩ := steps_append.mp (Win.steps_lawW hst)
      obtain ⟨rfl, _⟩ := K h7
      obtain ⟨_, h9, _⟩ := wp_sound (wp_winEquivalent D _ _ _ _ noHandles) h5 h8
      rcases h9 with ⟨_, _, _, _, _, h9, _⟩ | ⟨_, h9⟩ <;> cases h9
    · refine ⟨ta ++ tc ++ te, tf, by simp, fun ev he => (List.mem_append.mp he).elim (hq2 ev) (((Win.only_equivalent _ _ _).exec h5).1 ev),
        fun D hs hst => ?_⟩
      obtain ⟨hs', h7, h8⟩ := steps_append.mp (Win.steps_lawW hst)
      obtain ⟨rfl, k1, k2, k3, k4, k5, k6⟩ := K h7
      obtain ⟨_, h9, h10⟩ := wp_sound (wp_winEquivalent D _ _ _ _ noHandles) h5 h8
      rw [if_neg hdne] at k6
      rcases h9 with ⟨x, y, hx', hy', v, h9, h11⟩ | ⟨e, h9⟩
      · cases h9
        rw [if_neg (by simp [hx', hy'])] at k6
        dsimp only at h6
        rw [if_neg (by simp)] at h6
        right
        by_cases hb : b = true
        · rw [if_pos hb] at h6
          have h12 : Exec (.ret ((), .ref (some .ENOSYS))) tf o := h6
          obtain ⟨rfl, rfl⟩ := exec_ret.mp h12
          rw [if_pos (by rw [hx', hy', h11.mp hb])] at k6
          exact ⟨_, k6, rfl, rfl⟩
        · rw [if_neg hb] at h6
          rw [if_neg (by rw [hx', hy']; intro h; exact hb (h11.mpr (Option.some.inj h)))] at k6
          refine ⟨_, k6, ?_⟩
          have := Win.copyDispatch_win (hrealT (List.suffix_append _ _)) k5 h6
          rwa [hdex, if_pos rfl] at this
      · cases h9
        have h12 : Exec (.ret ((), .ref (some e))) tf o := h6
        obtain ⟨rfl, rfl⟩ := exec_ret.mp h12
        refine .inl ⟨rfl, ⟨e, rfl⟩, fun hw => ?_⟩
        rw [k6, if_pos]
        apply Classical.byContradiction
        intro hno
        obtain ⟨v, hv⟩ := h10 hw (fun h => hno (.inl h)) (fun h => hno (.inr h))
        cases hv
  · rw [if_neg hboth] at h4
    refine ⟨ta ++ tc, td, hassoc, hq2, fun D hs hst => .inr ?_⟩
    have hfx := hfex (Win.steps_lawW hst)
    obtain ⟨_, k1, k2, k3, k4, k5, k6⟩ := K (Win.steps_lawW hst)
    have hdex : d.exists' = false := by simpa [hfx] using hboth
    have hdn : d.type = .notFound := by simpa [FStatus.exists', FStatus.known, hkt] using hdex
    rw [if_pos hdn] at k6
    refine ⟨_, k6, ?_⟩
    have h5 : Exec (Win.copyDispatch c (fun a b ec => Win.copy c n a b opts ec) n ⟨"copy".toList, some (mkPath .windows r), some (mkPath .windows s)⟩
        (mkPath .windows r) (mkPath .windows s) opts f d (.ref none)) td o := h4
    have := Win.copyDispatch_win (hrealT (List.suffix_refl _)) k5 h5
    rwa [hdex, if_neg (by simp)] at this

/-- Nothing is modified unless something is to be copied. -/
theorem c97_quiet {c : SysClock} {n : Nat} {r s : Str} {opts : CopyOptions} {ec : Code}
    {t : List Event} {o : Except Stop (Unit × EcArg)} (hreal : ∀ ev ∈ t, winNamed ev)
    (hx : Exec (Win.copy c (n + 1) (mkPath .windows r) (mkPath .windows s) opts (.ref ec)) t o) {D : WinDisk} {hs : Handles}
    (hst : Steps (WinLaw D) noHandles t hs)
    (hplan : ∀ a, winPlan D (mkPath .windows r) (mkPath .windows s) opts = some a → a = .nothing ∨ ∃ e, a = .fail e) : Quiet t := by
  obtain ⟨t1, t2, rfl, hq, h⟩ := c97_copy hreal hx
  obtain ⟨hs', h1, h2⟩ := steps_append.mp hst
  have : t2 = [] := by
    rcases h D hs' h1 with ⟨h, _⟩ | ⟨a, ha, h⟩
    · exact h
    · rcases hplan a ha with rfl | ⟨e, rfl⟩
      · exact h.1
      · exact h.1
  rw [this, List.append_nil]
  exact hq

/-- Plans for the sample: a file onto a directory goes into it; a directory is copied unless linked or not asked for; a
file onto its other name, or anything from or to another kind of reparse point, is refused; a link is followed, or copied
when asked for; nothing is to be done with a link to be skipped. -/
example :
    let plan (a b : String) := winPlan sampleDisk (mkPath .windows a.toList) (mkPath .windows b.toList)
    plan "f" "d" 0 = some (.file true) ∧ plan "f" "n" 0 = some (.file false) ∧ plan "d" "n" 8 = some (.tree true) ∧
    plan "d" "n" 128 = some (.fail .EISDIR) ∧ plan "d" "n" 1 = some .nothing ∧ plan "d" "f" 8 = some (.fail .ENOSYS) ∧
    plan "f" "g" 0 = some (.fail .ENOSYS) ∧ plan "r" "n" 16 = some (.fail .ENOSYS) ∧ plan "f" "r" 128 = some (.fail .ENOSYS) ∧
    plan "k" "n" 0 = some (.file false) ∧ plan "k" "n" 16 = some .relink ∧ plan "k" "n" 32 = some .nothing ∧
    plan "k" "d" 16 = some (.fail .EEXIST) ∧ plan "f" "n" 128 = some .symlink ∧ plan "f" "n" 256 = some .hardLink ∧
    plan "n" "d" 0 = none ∧ plan "f" "x" 128 = none := by decide +kernel

/-- The look at the directory `d` and at `n`, where nothing is, on the sample disk. -/
def copyLook : List Event :=
  [⟨.win (.getAttrs "d".toList), (.ok 0x10#32 : Except Errno (BitVec 32))⟩,
    ⟨.win (.getPerms "d".toList 0x10#32), (.ok 0x1ff#32 : Except Errno Mode)⟩,
    ⟨.win (.getAttrs "n".toList), (.error (.ofWin 2) : Except Errno (BitVec 32))⟩]

/-- The copy of `d`, where a file `a` is found (only directories are copied), then the disk fails. -/
def copyLost : List Event :=
  [⟨.win (.createDirectoryEx "d".toList "n".toList), (.ok () : Except Errno Unit)⟩,
    ⟨.win (.findFirst "d\\*".toList), (.ok (7, ⟨".".toList, 16#32, 0#32⟩) : Except Errno (Nat × FindData))⟩,
    gotNext 7 ⟨"a".toList, 0#32, 0#32⟩,
    ⟨.win (.getAttrs "d\\a".toList), (.ok 0x20#32 : Except Errno (BitVec 32))⟩,
    ⟨.win (.getPerms "d\\a".toList 0x20#32), (.ok 0x1ff#32 : Except Errno Mode)⟩,
    ⟨.win (.getAttrs "n\\a".toList), (.error (.ofWin 2) : Except Errno (BitVec 32))⟩,
    lastNext 7 (.ofWin 23), closedFind 7 (.ok ())]

/-- The copy of the directory `d`. -/
example (c : SysClock) : Exec (Win.copy c 6 (mkPath .windows "d".toList) (mkPath .windows "n".toList) 72 (.ref none))
      (copyLook ++ copyLost) succeeds ∧ (∀ ev ∈ copyLook ++ copyLost, winNamed ev) ∧
    (∃ hs, Steps (WinLaw sampleDisk) noHandles copyLook hs) ∧ ∀ e ∈ copyLook, WinWilling e := by
  refine ⟨feed_exec (by rfl), ?_, ⟨_, .cons ⟨rfl, _, rfl, by decide, by decide⟩ (.cons ⟨rfl, trivial⟩
    (.cons ⟨rfl, fun _ => rfl⟩ (.nil _)))⟩, ?_⟩
  · simp only [copyLook, copyLost, List.cons_append, List.nil_append, List.forall_mem_cons, winNamed, gotNext, lastNext, closedFind]
    simp only [and_true, true_and]
    exact ⟨.inl (.inl rfl), .inr ⟨by decide, by decide, by decide⟩, by simp⟩
  · simp [copyLook, WinWilling, Absent, Errno.winValue]
    decide

/-! ## C98 -/

namespace Spec

/-- The start of a search. -/
def searching (ev : Event) : Prop :=
  match ev with
  | ⟨.win (.findFirst _), _⟩ => True
  | _ => False

end Spec

/-- **C98**, proved for the beginning of a listing: where the search by which `copy` lists a directory is refused, the
error is reported (as `permission_denied` if access was refused), unless it says that there are no files. Missing: the
rest of the listing (`c98_violated`, `c98_violated_empty`). -/
theorem c98_first_partial {c : SysClock} {n : Nat} {r s : Str} {opts : CopyOptions} {ec : Code} {t : List Event}
    {o : Except Stop (Unit × EcArg)} (hreal : ∀ ev ∈ t, winNamed ev)
    (hx : Exec (Win.copy c (n + 2) (mkPath .windows r) (mkPath .windows s) opts (.ref ec)) t o) :
    ∃ t1 t2, t = t1 ++ t2 ∧ Quiet t1 ∧ ∀ (D : WinDisk) (hs : Handles) (make : Bool) (e : Errno) (q : Str) (pre post : List Event),
      Steps (WinLaw D) noHandles t1 hs → winPlan D (mkPath .windows r) (mkPath .windows s) opts = some (.tree make) →
      t2 = pre ++ ⟨.win (.findFirst q), (.error e : Except Errno (Nat × FindData))⟩ :: post → (∀ ev ∈ pre, ¬ searching ev) →
      q = searchText (mkPath .windows r).pathname ∧ post = [] ∧
        ((e.winValue = 5 ∧ o = fails .EACCES) ∨ (e.winValue = 18 ∧ o = succeeds) ∨ (e.winValue ≠ 5 ∧ e.winValue ≠ 18 ∧ o = fails e)) := by
  obtain ⟨t1, t2, rfl, hq, h⟩ := c97_copy hreal hx
  refine ⟨t1, t2, rfl, hq, fun D hs make e q pre post hst hp ht hpre => ?_⟩
  rcases h D hs hst with ⟨rfl, -, -⟩ | ⟨a, ha, hd⟩
  · simp at ht
  rw [hp] at ha
  cases ha
  clear h hst hx hreal hq
  have key : q = searchText (mkPath .windows r).pathname ∧ post = [] ∧ o = ends' (openCode .none e) := by
    obtain ⟨t3, t4, rfl, ⟨_, rfl, e', _, rfl, _⟩ | ⟨h1, h2⟩⟩ := hd
    · exfalso
      cases pre <;> simp at ht
    · have fin : ∀ {x t5}, t3 ++ ⟨.win (.findFirst (searchText (mkPath .windows r).pathname)), x⟩ :: t5 =
          pre ++ ⟨.win (.findFirst q), (.error e : Except Errno (Nat × FindData))⟩ :: post →
          x = .error e ∧ q = searchText (mkPath .windows r).pathname ∧ t5 = post := by
        intro x t5 h
        have h3 : t3 = [] ∨ ∃ r', t3 = [⟨.win (.createDirectoryEx (mkPath .windows r).pathname (mkPath .windows s).pathname), r'⟩] := by
          split at h1
          · rcases h1 with rfl | ⟨e', _, rfl⟩
            · exact .inr ⟨_, rfl⟩
            · exact .inr ⟨_, rfl⟩
          · exact .inl h1
        cases pre with
        | nil =>
          rcases h3 with rfl | ⟨r', rfl⟩ <;> simp at h
          obtain ⟨⟨h, h'⟩, rfl⟩ := h
          exact ⟨by simpa using h', h.symm, rfl⟩
        | cons a pre =>
          rcases h3 with rfl | ⟨r', rfl⟩ <;> simp at h
          · exact absurd (h.1 ▸ trivial) (hpre a (by simp))
          · cases pre with
            | nil =>
              simp at h
              obtain ⟨-, ⟨h, h'⟩, rfl⟩ := h
              exact ⟨by simpa using h', h.symm, rfl⟩
            | cons b pre =>
              simp at h
              exact absurd (h.2.1 ▸ trivial) (hpre b (by simp))
      rcases h2 with ⟨e', rfl, h4⟩ | ⟨d, ent, t5, rfl, h4⟩
      · obtain ⟨h5, h6, h7⟩ := fin ht
        cases h5
        rcases h4 with rfl | ⟨h4, _⟩
        · exact ⟨h6, h7.symm, rfl⟩
        · cases h4
      · cases (fin ht).1
  refine ⟨key.1, key.2.1, ?_⟩
  rw [key.2.2]
  unfold openCode endCode
  by_cases h5 : e.winValue = 5
  · exact .inl ⟨h5, by rw [if_pos h5]; rfl⟩
  · by_cases h6 : e.winValue = 18
    · exact .inr (.inl ⟨h6, by rw [if_neg h5, if_pos h6]⟩)
    · exact .inr (.inr ⟨h5, h6, by rw [if_neg h5, if_neg h6]⟩)

/-- **C98** is false: the file `a` of `d` is dealt with, then the disk cannot be read (error 23); the other files of `d` are
not copied, and `copy` reports success. -/
theorem c98_violated (c : SysClock) : Exec (Win.copy c 6 (mkPath .windows "d".toList) (mkPath .windows "n".toList) 72 (.ref none))
      (copyLook ++ copyLost) succeeds ∧ (∃ hs, Steps (WinLaw sampleDisk) noHandles copyLook hs) ∧
    winPlan sampleDisk (mkPath .windows "d".toList) (mkPath .windows "n".toList) 72 = some (.tree true) ∧
    lastNext 7 (.ofWin 23) ∈ copyLost :=
  ⟨feed_exec (by rfl), ⟨_, .cons ⟨rfl, _, rfl, by decide, by decide⟩ (.cons ⟨rfl, trivial⟩
    (.cons ⟨rfl, fun _ => rfl⟩ (.nil _)))⟩, by decide +kernel, by simp [copyLost]⟩

/-- **C98** is false in another way: the directory has no files, and its end is reached; what is reported is not that, but the
error left when the search was closed, whatever it is. -/
theorem c98_violated_empty (c : SysClock) :
    ∃ t, Exec (Win.copy c 6 (mkPath .windows "d".toList) (mkPath .windows "n".toList) 72 (.ref none)) (copyLook ++ t) (fails (.ofWin 6)) ∧
      lastNext 7 (.ofWin 18) ∈ t ∧ ⟨.win .lastError, some (.ofWin 6)⟩ ∈ t :=
  ⟨[⟨.win (.createDirectoryEx "d".toList "n".toList), (.ok () : Except Errno Unit)⟩,
    ⟨.win (.findFirst "d\\*".toList), (.ok (7, ⟨".".toList, 16#32, 0#32⟩) : Except Errno (Nat × FindData))⟩,
    gotNext 7 ⟨"..".toList, 16#32, 0#32⟩, lastNext 7 (.ofWin 18), closedFind 7 (.ok ()), ⟨.win .lastError, some (.ofWin 6)⟩],
    feed_exec (by rfl), by simp, by simp⟩

end Asap
