import Verif.Props.WinQ
import Verif.Props.WinI
import Verif.Path.WinParentRel

/-!
# `create_directories` on Windows: C83
-/

namespace Asap
namespace Spec

/-- The elements of the root name and the root directory, if there are any. -/
def winRootElems (s : Str) : List Str :=
  (if winRootName s = [] then [] else [winRootName s]) ++ (if winHasDir s then [['\\']] else [])

/-- The prefixes of names under a root that end in a name other than `.` and `..`, the shortest first. -/
def winPrefixes (root : List Str) (ns : List Str) : List (List Str) :=
  (((List.range ns.length).map fun k => ns.take (k + 1)).filter fun m => ∀ w ∈ m.getLast?, ¬ dotName w).map (root ++ ·)

/-- A disk on which texts with the same elements lead to the same, the open handles, and the directories made so far. -/
structure WinSight where
  disk : WinDisk
  coherent : ∀ p q, winElements p = winElements q → disk.goal p = disk.goal q
  handles : Handles
  made : List (List Str)

/-- What is at a path, as a type. -/
def WinSight.kind (s : WinSight) (p : Str) : FType := fileKind (s.disk.goal p)

/-- Windows without other processes. Calls that look obey `WinLaw`. `CreateDirectoryW` fails without effect or makes a
directory where there was nothing, keeping everything that was there, and what appears are directories. It fails with
`ERROR_ALREADY_EXISTS` (183) if the path leads to something, and only then: there are no links that lead nowhere. Every other
call may do anything. -/
structure winSight (s : WinSight) (ev : Event) (s' : WinSight) : Prop where
  looks : ev.call.mutates = false → s'.disk = s.disk ∧ s'.made = s.made ∧ WinLaw s.disk s.handles ev s'.handles
  fails : ∀ x e, ev = ⟨.win (.createDirectory x), (.error e : Except Errno Unit)⟩ →
    s' = s ∧ (e.winValue = 183 ↔ s.kind x ≠ .notFound)
  makes : ∀ x, ev = ⟨.win (.createDirectory x), (.ok () : Except Errno Unit)⟩ →
    s.kind x = .notFound ∧ s'.kind x = .directory ∧ s'.handles = s.handles ∧ s'.made = s.made ++ [winElements x] ∧
    (∀ y, s.kind y ≠ .notFound → s'.kind y = s.kind y) ∧
    ∀ y, s'.kind y ≠ .notFound → s'.kind y = s.kind y ∨ s'.kind y = .directory

/-- Calls that look fail only where there is nothing, and directories are made. -/
def WinMakes (ev : Event) : Prop := WinWilling ev ∧ ∀ x e, ev ≠ ⟨.win (.createDirectory x), (.error e : Except Errno Unit)⟩

end Spec
open Spec

/-! ## The prefixes -/

theorem winPrefixes_snoc (root ns : List Str) (w : Str) :
    winPrefixes root (ns ++ [w]) = winPrefixes root ns ++ (if dotName w then [] else [root ++ (ns ++ [w])]) := by
  unfold winPrefixes
  rw [List.length_append, List.length_singleton, List.range_succ, List.map_append, List.filter_append, List.map_append]
  congr 1
  · congr 2
    apply List.map_congr_left
    intro k hk
    rw [List.take_append_of_le_length (by have := List.mem_range.mp hk; omega)]
  · rw [List.map_singleton, List.take_of_length_le (by simp)]
    by_cases h : dotName w <;> simp [h]

namespace Win

theorem elements_rooted {v : Str} (hn : winNames (winTail v) ≠ []) (he : winEndsSep v = false) :
    winElements (mkPath .windows v).pathname = winRootElems v ++ winNames (winTail v) := by
  rw [win_pathname_named hn, winElements, winRootElems, he]
  by_cases h : winRootLen v = 0
  · rw [if_pos h, if_pos ((winRootName_nil v).mpr h)]; simp
  · rw [if_neg h, if_neg (fun h' => h ((winRootName_nil v).mp h'))]; simp

/-- The first loop. -/
theorem win_missingOf {n : Nat} : ∀ {v : Str} {acc : List Path}, (∀ w ∈ winNames (winTail v), PlainName w) → (winEndsSep v = true → winNames (winTail v) = []) →
    (winNames (winTail v)).length < n →
    ∃ l, missingOf false n (mkPath .windows v) acc = .ret (l ++ acc) ∧
      l.map (fun q => winElements q.pathname) = winPrefixes (winRootElems v) (winNames (winTail v)) := by
  induction n with
  | zero => intro v acc _ _ h; omega
  | succ n ih =>
    intro v acc hp he hl
    unfold missingOf
    rw [win_hasFilename, Prog.ofRes_ok, Prog.ret_bind]
    by_cases hn : winNames (winTail v) = []
    · rw [if_neg (by simp [hn])]
      refine ⟨[], rfl, ?_⟩
      rw [hn]; rfl
    · have he' : winEndsSep v = false := by
        cases h : winEndsSep v with
        | false => rfl
        | true => exact absurd (he h) hn
      rw [if_pos (by simp [hn, he'])]
      obtain ⟨f, hf1, hf2⟩ := win_filename v
      obtain ⟨u, hu1, hu2, hu3, hu4, hu5⟩ := win_parent_any hn hp
      rw [hf1, Prog.ofRes_ok, Prog.ret_bind]
      obtain ⟨l, hl1, hl2⟩ := ih (v := u) (acc := if isDot (winFile v) || isDotDot (winFile v) then acc else mkPath .windows v :: acc)
        (by rw [hu4]; exact fun w hw => hp w (List.dropLast_subset _ hw)) hu5 (by
          rw [hu4, List.length_dropLast]
          have : (winNames (winTail v)).length ≠ 0 := by simpa using hn
          omega)
      have hre : winRootElems u = winRootElems v := by rw [winRootElems, hu2, hu3, winRootElems]
      have hlast : (winNames (winTail v)).dropLast ++ [winFile v] = winNames (winTail v) := by
        rw [winFile, he']
        rcases List.eq_nil_or_concat (winNames (winTail v)) with h | ⟨a, b, h⟩
        · exact absurd h hn
        · rw [h]; simp
      have hdot : (isDot (winFile v) || isDotDot (winFile v)) = true ↔ dotName (winFile v) := by
        simp only [isDot, isDotDot, Bool.or_eq_true, beq_iff_eq, dotName]
      have hgo : (Prog.ofRes (parentPath .windows false (mkPath .windows v))).bind (fun parent =>
          missingOf false n parent (if isDot f.pathname || isDotDot f.pathname then acc else mkPath .windows v :: acc)) =
          .ret (l ++ (if isDot (winFile v) || isDotDot (winFile v) then acc else mkPath .windows v :: acc)) := by
        rcases hu1 with h | ⟨h, rfl⟩
        · rw [h, Prog.ofRes_ok, Prog.ret_bind, hf2, hl1]
        · rw [h, Prog.ofRes_ok, Prog.ret_bind, hf2, ← hl1]
          cases n with
          | zero => rfl
          | succ n => rfl
      rw [hgo]
      by_cases hdn : dotName (winFile v)
      · refine ⟨l, by rw [if_pos (hdot.mpr hdn)], ?_⟩
        rw [hl2, hre, hu4]
        conv => rhs; rw [← hlast, winPrefixes_snoc, if_pos hdn, List.append_nil]
      · refine ⟨l ++ [mkPath .windows v], by rw [if_neg (fun h => hdn (hdot.mp h))]; simp, ?_⟩
        rw [List.map_append, hl2, hre, hu4]
        conv => rhs; rw [← hlast, winPrefixes_snoc, if_neg hdn]
        rw [hlast, List.map_singleton, elements_rooted hn he']

/-! ## Looking while directories are made -/

/-- The law, and willingness if required. -/
def SightW (w : Prop) (s : WinSight) (ev : Event) (s' : WinSight) : Prop := winSight s ev s' ∧ (w → WinMakes ev)

theorem wp_lift {α : Type} {w : Prop} {p : Prog α} (ho : Only Harmless (fun _ => True) p) {Q : Except Stop α → Handles → Prop}
    {s : WinSight} (h : wp (LawW s.disk w) Q p s.handles) :
    wp (SightW w) (fun o s' => s'.disk = s.disk ∧ s'.made = s.made ∧ Q o s'.handles) p s := by
  induction ho generalizing s with
  | ret a _ => exact ⟨rfl, rfl, h⟩
  | stop x => exact ⟨rfl, rfl, h⟩
  | call c k hc _ ih =>
    intro r s' ⟨hs, hw⟩
    obtain ⟨h1, h2, h3⟩ := hs.looks hc
    have := ih r (s := s') (by rw [h1]; exact h r _ ⟨h3, fun h => (hw h).1⟩)
    rw [h1, h2] at this
    exact this

theorem status_null (p : Path) : status p .null = (status p (.ref none)).bind fun x => .ret (x.1, .null) := by
  have hf : ∀ e, processStatusFailure e .null = ((processStatusFailure e (.ref none)).1, .null) := by
    intro e
    unfold processStatusFailure
    split
    · rfl
    · split
      · rfl
      · split <;> rfl
  unfold status
  simp only [Prog.call_bind]
  congr 1
  funext r
  rcases r with e | a
  · exact congrArg Prog.ret (hf e)
  · dsimp only
    rw [Prog.bind_assoc]
    congr 1
    funext x
    rcases x with e | a'
    · exact congrArg Prog.ret (hf e)
    · simp only [Prog.call_bind]
      congr 1
      funext r
      rcases r with e | m
      · exact congrArg Prog.ret (hf e)
      · rfl

/-- Nothing that was there is lost, only directories appear, and they are in `xs`. -/
structure WinKeeps (xs : List (List Str)) (s s' : WinSight) : Prop where
  old : ∀ y, s.kind y ≠ .notFound → s'.kind y = s.kind y
  new : ∀ y, s'.kind y ≠ .notFound → s'.kind y = s.kind y ∨ s'.kind y = .directory
  made : ∃ ms, s'.made = s.made ++ ms ∧ ms.Sublist xs

theorem WinKeeps.same {xs : List (List Str)} {s s' : WinSight} (h1 : s'.disk = s.disk) (h2 : s'.made = s.made) : WinKeeps xs s s' := by
  have : ∀ y, s'.kind y = s.kind y := fun y => by rw [WinSight.kind, h1, WinSight.kind]
  exact ⟨fun y _ => this y, fun y _ => .inl (this y), [], by simp [h2], by simp⟩

theorem WinKeeps.trans {xs ys : List (List Str)} {s s' s'' : WinSight} (h1 : WinKeeps xs s s') (h2 : WinKeeps ys s' s'') :
    WinKeeps (xs ++ ys) s s'' := by
  obtain ⟨ms, h3, h4⟩ := h1.made
  obtain ⟨ns, h5, h6⟩ := h2.made
  refine ⟨fun y h => ?_, fun y h => ?_, ms ++ ns, by rw [h5, h3, List.append_assoc], h4.append h6⟩
  · rw [h2.old y (by rw [h1.old y h]; exact h), h1.old y h]
  · rcases h2.new y h with h' | h'
    · rcases h1.new y (h' ▸ h) with h'' | h''
      · exact .inl (h'.trans h'')
      · exact .inr (h'.trans h'')
    · exact .inr h'

/-- One round of the second loop. -/
def TopR (w : Prop) (x : Str) (b : Bool) (s : WinSight) (o : Except Stop (Bool × Code)) (s' : WinSight) : Prop :=
  WinKeeps [winElements x] s s' ∧ (w → ∃ b', o = .ok (b', none)) ∧
    (s.kind x ≠ .notFound → w → o = .ok (b, none)) ∧ (s.kind x ≠ .notFound → s'.made = s.made) ∧
    ∀ b', o = .ok (b', none) → s'.kind x ≠ .notFound ∧ (b' = true ↔ b = true ∨ s'.made ≠ s.made)

theorem wp_createTop {w : Prop} {top : Path} {b : Bool} {s : WinSight} :
    wp (SightW w) (TopR w top.pathname b s) (createTop top b) s := by
  have hkind : s.kind top.pathname ≠ .notFound ↔ s.disk.goal top.pathname ≠ none := by
    rw [WinSight.kind]
    cases h : s.disk.goal top.pathname with
    | none => simp [fileKind]
    | some o => cases hd : o.dir <;> simp [fileKind, hd]
  -- the second look
  have look : ∀ (b1 : Bool) (m : EcArg) (s1 : WinSight), WinKeeps [winElements top.pathname] s s1 →
      (s.kind top.pathname ≠ .notFound → s1.made = s.made) → ¬ w → m.code ≠ none →
      (s1.kind top.pathname ≠ .notFound → (b1 = true ↔ b = true ∨ s1.made ≠ s.made)) →
      wp (SightW w) (TopR w top.pathname b s) ((isDirectoryP top .null).bind fun d => .ret (b1, if d.1 then none else m.code)) s1 := by
    intro b1 m s1 hk hmade hw hm hb
    unfold isDirectoryP
    rw [status_null, Prog.bind_assoc, Prog.bind_assoc]
    refine wp_bind (wp_mono ?_ (wp_lift (only_status _ _) (wp_winStatus s1.disk w top none s1.handles)))
    rintro o s2 ⟨h1, h2, ⟨st, ec, rfl, hc, -⟩, h3⟩
    dsimp only [Prog.ret_bind, wp]
    refine ⟨?_, fun h => absurd h hw, fun _ h => absurd h hw, fun h => by rw [h2]; exact hmade h, ?_⟩
    · simpa using hk.trans (.same (xs := []) h1 h2)
    · intro b' ho
      have hk2 : s2.kind top.pathname = s1.kind top.pathname := by rw [WinSight.kind, h1, WinSight.kind]
      by_cases hdir : st.isDirectory = true
      · have hst : st.type = .directory := by simpa [FStatus.isDirectory] using hdir
        rw [if_pos hdir] at ho
        cases ho
        have : s1.kind top.pathname ≠ .notFound := by
          rcases hc with ⟨-, -, h⟩ | ⟨e, -, ⟨h, -⟩ | ⟨h, -⟩ | ⟨h, -⟩⟩
          · rw [WinSight.kind, ← h, hst]; simp
          · rw [hst] at h; cases h
          · rw [hst] at h; cases h
          · rw [hst] at h; cases h
        rw [hk2, h2]
        exact ⟨this, hb this⟩
      · rw [if_neg hdir] at ho
        injection ho with ho
        injection ho with _ ho
        exact absurd ho hm
  unfold createTop
  refine wp_bind (wp_mono ?_ (wp_lift (only_status _ _) (wp_winStatus s.disk w top none s.handles)))
  rintro o s1 ⟨h1, h2, ⟨st, ec, rfl, hc, hw⟩, -⟩
  have hsame : WinKeeps [winElements top.pathname] s s1 := .same h1 h2
  have hk1 : s1.kind top.pathname = s.kind top.pathname := by rw [WinSight.kind, h1, WinSight.kind]
  dsimp only
  rcases hc with ⟨rfl, hthere, hst⟩ | ⟨e, rfl, hc⟩
  · -- something is there
    have hst' : st.type ≠ .notFound := by rw [hst]; exact hkind.mpr hthere
    rw [if_neg hst']
    simp only [Prog.ret_bind, EcArg.isSet, EcArg.code]
    refine ⟨hsame, fun _ => ⟨b, rfl⟩, fun _ _ => rfl, fun _ => h2, ?_⟩
    rintro b' ⟨⟩
    rw [hk1, h2]
    exact ⟨hkind.mpr hthere, by simp⟩
  · by_cases hnf : st.type = .notFound
    · rw [if_pos hnf]
      have hnot : s.kind top.pathname = .notFound := by
        rcases hc with ⟨-, h⟩ | ⟨h, -⟩ | ⟨h, -⟩
        · exact Classical.byContradiction fun h' => h (hkind.mp h')
        · rw [hnf] at h; cases h
        · rw [hnf] at h; cases h
      unfold createDirectory
      simp only [Prog.call_bind, clear_ref]
      rintro (e' | _) s2 ⟨hs2, hw2⟩
      · obtain ⟨rfl, h183⟩ := hs2.fails _ _ rfl
        have hne : e'.winValue ≠ ERROR_ALREADY_EXISTS := fun h => by
          have := h183.mp h
          rw [hk1] at this
          exact this hnot
        have hnw : ¬ w := fun h => (hw2 h).2 _ _ rfl
        simp only [ne_eq, hne, not_false_eq_true, if_true, Handler.report, Prog.ret_bind, EcArg.isSet, Option.isSome_some]
        exact look true _ s2 hsame (fun h => absurd hnot h) hnw (by simp [EcArg.code]) (by rw [hk1]; exact fun h => absurd hnot h)
      · obtain ⟨g1, g2, g3, g4, g5, g6⟩ := hs2.makes _ rfl
        simp only [Prog.ret_bind, EcArg.isSet, EcArg.code]
        have hk : WinKeeps [winElements top.pathname] s1 s2 := ⟨g5, g6, [winElements top.pathname], g4, List.Sublist.refl _⟩
        refine ⟨?_, fun _ => ⟨true, rfl⟩, fun h => absurd hnot h, fun h => absurd hnot h, ?_⟩
        · have := (WinKeeps.same (xs := []) h1 h2).trans hk
          simpa using this
        · rintro b' ⟨⟩
          rw [g2, g4, h2]
          simp
    · rw [if_neg hnf]
      simp only [Prog.ret_bind, EcArg.isSet, Option.isSome_some, if_true]
      have hnw : ¬ w := fun h => by
        have := hw h
        rcases hc with ⟨h', -⟩ | ⟨h', -⟩ | ⟨h', -⟩
        · exact hnf h'
        · rw [h'] at this
          revert this
          cases s.disk.goal top.pathname with
          | none => simp [fileKind]
          | some o => cases hd : o.dir <;> simp [fileKind, hd]
        · rw [h'] at this
          revert this
          cases s.disk.goal top.pathname with
          | none => simp [fileKind]
          | some o => cases hd : o.dir <;> simp [fileKind, hd]
      exact look b _ s1 hsame (fun _ => h2) hnw (by simp [EcArg.code]) (fun _ => by simp [h2])

/-- What the second loop establishes. -/
def MissR (w : Prop) (l : List Path) (b : Bool) (s : WinSight) (o : Except Stop (Bool × Code × Bool)) (s' : WinSight) : Prop :=
  WinKeeps (l.map fun q => winElements q.pathname) s s' ∧ (w → ∃ b', o = .ok (b', none, true)) ∧
    ((∀ q ∈ l, s.kind q.pathname ≠ .notFound) → s'.made = s.made ∧ (w → o = .ok (b, none, true))) ∧
    ∀ b' empty, o = .ok (b', none, empty) → empty = true ∧ (∀ q ∈ l, s'.kind q.pathname ≠ .notFound) ∧
      (b' = true ↔ b = true ∨ s'.made ≠ s.made)

theorem wp_createMissing {w : Prop} (l : List Path) : ∀ (b : Bool) (s : WinSight),
    wp (SightW w) (MissR w l b s) (createMissing l b) s := by
  induction l with
  | nil =>
    intro b s
    refine ⟨.same rfl rfl, fun _ => ⟨b, rfl⟩, fun _ => ⟨rfl, fun _ => rfl⟩, ?_⟩
    rintro b' empty ⟨⟩
    simp
  | cons top rest ih =>
    intro b s
    unfold createMissing
    refine wp_bind (wp_mono ?_ wp_createTop)
    rintro o s1 ⟨h1, h2, h3, h4, h5⟩
    rcases o with x | ⟨b1, m⟩
    · refine ⟨?_, fun h => ?_, fun h => ⟨h4 (h top (by simp)), fun hw => ?_⟩, by simp⟩
      · have := h1.trans (.same (xs := rest.map fun q => winElements q.pathname) (s := s1) rfl rfl)
        exact this
      · obtain ⟨_, h⟩ := h2 h; cases h
      · have := h3 (h top (by simp)) hw; cases this
    · dsimp only
      cases m with
      | some e =>
        rw [if_pos (by simp)]
        refine ⟨?_, fun h => ?_, fun h => ⟨h4 (h top (by simp)), fun hw => ?_⟩, by simp⟩
        · exact h1.trans (.same (xs := rest.map fun q => winElements q.pathname) (s := s1) rfl rfl)
        · obtain ⟨_, h⟩ := h2 h; cases h
        · have := h3 (h top (by simp)) hw; cases this
      | none =>
        rw [if_neg (by simp)]
        obtain ⟨g1, g2⟩ := h5 b1 rfl
        refine wp_mono ?_ (ih b1 s1)
        rintro o s2 ⟨k1, k2, k3, k4⟩
        refine ⟨h1.trans k1, k2, fun hall => ?_, fun b' empty ho => ?_⟩
        · have hall' : ∀ q ∈ rest, s1.kind q.pathname ≠ .notFound := by
            intro q hq
            have := hall q (by simp [hq])
            rw [h1.old _ this]; exact this
          obtain ⟨j1, j2⟩ := k3 hall'
          refine ⟨j1.trans (h4 (hall top (by simp))), fun hw => ?_⟩
          have := h3 (hall top (by simp)) hw
          cases this
          exact j2 hw
        · obtain ⟨j1, j2, j3⟩ := k4 b' empty ho
          refine ⟨j1, ?_, ?_⟩
          · intro q hq
            rcases List.mem_cons.mp hq with rfl | hq
            · rw [k1.old _ g1]; exact g1
            · exact j2 q hq
          · rw [j3, g2]
            obtain ⟨ms, a1, _⟩ := h1.made
            obtain ⟨ns, a2, _⟩ := k1.made
            rw [a2, a1]
            by_cases hb : b = true <;> simp [hb]
            cases ms <;> simp

end Win
open Win

/-- What `create_directories` establishes. -/
def Spec.WinChain (w : Prop) (u : Str) (s : WinSight) (o : Except Stop (Bool × EcArg)) (s' : WinSight) : Prop :=
  let xs := winPrefixes (winRootElems u) (winNames (winTail u))
  (∀ y, s.kind y ≠ .notFound → s'.kind y = s.kind y) ∧
  (∀ y, s'.kind y ≠ .notFound → s'.kind y = s.kind y ∨ s'.kind y = .directory) ∧
  (∃ ms, s'.made = s.made ++ ms ∧ ms.Sublist xs) ∧
  (∀ b, o = .ok (b, .ref none) →
    (∀ x, winElements x ∈ xs → s'.kind x ≠ .notFound) ∧ (b = true ↔ s'.made ≠ s.made)) ∧
  ((∀ x, winElements x ∈ xs → s.kind x ≠ .notFound) → s'.made = s.made ∧ (w → o = .ok (false, .ref none))) ∧
  (w → ∃ b, o = .ok (b, .ref none))

theorem Win.win_nonempty {u : Str} (hu : u ≠ []) : (mkPath .windows u).isEmpty = false := by
  cases h : (mkPath .windows u).pathname with
  | cons a b => simp [Path.isEmpty, h]
  | nil =>
    obtain ⟨-, f1, f2, f3⟩ := win_stored_facts u
    rw [h] at f1 f2 f3
    have h0 : winRootLen u = 0 := f1.symm
    have h1 : winTail u = [] := head_of_names_nil f3.symm f2.symm
    rw [winTail_of_zero h0] at h1
    exact absurd h1 hu

theorem Win.wp_createDirectories {w : Prop} {u : Str} (hu : u ≠ []) (hp : ∀ n ∈ winNames (winTail u), PlainName n)
    (he : winEndsSep u = false) {n : Nat} (hn : (winNames (winTail u)).length < n) {c : Code} {s : WinSight} :
    wp (Win.SightW w) (WinChain w u s) (Win.createDirectories false n (mkPath .windows u) (.ref c)) s := by
  have hne := Win.win_nonempty hu
  obtain ⟨l, h1, h2⟩ := win_missingOf (n := n) (v := u) (acc := []) hp (by rw [he]; simp) hn
  unfold Win.createDirectories
  simp only [clear_ref, hne, Bool.false_eq_true, if_false, h1, List.append_nil, Prog.ret_bind]
  have hl : ∀ x, winElements x ∈ winPrefixes (winRootElems u) (winNames (winTail u)) →
      ∃ q ∈ l, winElements q.pathname = winElements x := by
    intro x hx
    rw [← h2] at hx
    obtain ⟨q, hq, hqx⟩ := List.mem_map.mp hx
    exact ⟨q, hq, hqx⟩
  have hl' : ∀ q ∈ l, winElements q.pathname ∈ winPrefixes (winRootElems u) (winNames (winTail u)) := by
    intro q hq
    rw [← h2]
    exact List.mem_map_of_mem hq
  have hcoh : ∀ (s : WinSight) (x y : Str), winElements x = winElements y → s.kind x = s.kind y := by
    intro s x y h
    rw [WinSight.kind, WinSight.kind, s.coherent x y h]
  split <;> rename_i hemp
  · have : l = [] := by simpa using hemp
    subst this
    refine ⟨fun _ _ => rfl, fun _ _ => .inl rfl, ⟨[], by simp, by simp⟩, ?_, fun _ => ⟨rfl, fun _ => rfl⟩, fun _ => ⟨false, rfl⟩⟩
    rintro b ⟨⟩
    refine ⟨fun x hx => ?_, by simp⟩
    obtain ⟨q, hq, _⟩ := hl x hx
    cases hq
  · refine wp_bind (wp_mono ?_ (Win.wp_createMissing l false s))
    rintro o s' ⟨k1, k2, k3, k4⟩
    have base := k1.made
    rw [h2] at base
    rcases o with x | ⟨b, m, empty⟩
    · refine ⟨k1.old, k1.new, base, by simp, fun h => ?_, fun h => ?_⟩
      · obtain ⟨j1, j2⟩ := k3 fun q hq => h _ (hl' q hq)
        exact ⟨j1, fun hw => by cases j2 hw⟩
      · obtain ⟨_, h⟩ := k2 h; cases h
    · dsimp only
      cases m with
      | some e =>
        refine ⟨k1.old, k1.new, base, ?_, fun h => ?_, fun h => ?_⟩
        · intro b hb; cases hb
        · obtain ⟨j1, j2⟩ := k3 fun q hq => h _ (hl' q hq)
          exact ⟨j1, fun hw => by cases j2 hw⟩
        · obtain ⟨_, h⟩ := k2 h; cases h
      | none =>
        obtain ⟨g1, g2, g3⟩ := k4 b empty rfl
        subst g1
        refine ⟨k1.old, k1.new, base, ?_, fun h => ?_, fun h => ⟨_, rfl⟩⟩
        · rintro b' ⟨⟩
          refine ⟨fun x hx => ?_, by simpa using g3⟩
          obtain ⟨q, hq, hqx⟩ := hl x hx
          rw [← hcoh _ _ _ hqx]
          exact g2 q hq
        · obtain ⟨j1, j2⟩ := k3 fun q hq => h _ (hl' q hq)
          refine ⟨j1, fun hw => ?_⟩
          cases j2 hw
          rfl

/-- C83 (partial: the path does not end with a separator, its names are plain, no other process interferes, no link leads
nowhere, and `parent_path()` is not elided). Everything there stays as it was, only directories appear, and only at prefixes of the
path, from the shortest to the longest. If no error is reported, every prefix exists, and the result is `true` exactly if
a directory was made. If every prefix exists already, nothing is made. -/
theorem c83_chain_partial {n : Nat} {u : Str} (hu : u ≠ []) (hp : ∀ w ∈ winNames (winTail u), PlainName w) (he : winEndsSep u = false)
    (hn : (winNames (winTail u)).length < n) {c : Code} {t : List Event} {o : Except Stop (Bool × EcArg)} {s s' : WinSight}
    (hx : Exec (Win.createDirectories false n (mkPath .windows u) (.ref c)) t o) (hs : Steps winSight s t s') :
    (∀ y, s.kind y ≠ .notFound → s'.kind y = s.kind y) ∧
    (∀ y, s'.kind y ≠ .notFound → s'.kind y = s.kind y ∨ s'.kind y = .directory) ∧
    (∃ ms, s'.made = s.made ++ ms ∧ ms.Sublist (winPrefixes (winRootElems u) (winNames (winTail u)))) ∧
    (∀ b, o = .ok (b, .ref none) →
      (∀ x, winElements x ∈ winPrefixes (winRootElems u) (winNames (winTail u)) → s'.kind x ≠ .notFound) ∧
      (b = true ↔ s'.made ≠ s.made)) ∧
    ((∀ x, winElements x ∈ winPrefixes (winRootElems u) (winNames (winTail u)) → s.kind x ≠ .notFound) → s'.made = s.made) := by
  obtain ⟨h1, h2, h3, h4, h5, -⟩ := wp_sound (Win.wp_createDirectories (w := False) hu hp he hn) hx
    (steps_and hs fun _ _ h => h.elim)
  exact ⟨h1, h2, h3, h4, fun h => (h5 h).1⟩

/-- C83 (partial, as `c83_chain_partial`). If the calls that look fail only where there is nothing and directories are made,
no error is reported; and if every prefix existed already, the result is `false`. -/
theorem c83_succeeds_partial {n : Nat} {u : Str} (hu : u ≠ []) (hp : ∀ w ∈ winNames (winTail u), PlainName w) (he : winEndsSep u = false)
    (hn : (winNames (winTail u)).length < n) {c : Code} {t : List Event} {o : Except Stop (Bool × EcArg)} {s s' : WinSight}
    (hx : Exec (Win.createDirectories false n (mkPath .windows u) (.ref c)) t o) (hs : Steps winSight s t s')
    (hw : ∀ ev ∈ t, WinMakes ev) :
    (∃ b, o = .ok (b, .ref none)) ∧
    ((∀ x, winElements x ∈ winPrefixes (winRootElems u) (winNames (winTail u)) → s.kind x ≠ .notFound) → o = .ok (false, .ref none)) := by
  obtain ⟨h1, h2, h3, h4, h5, h6⟩ := wp_sound (Win.wp_createDirectories (w := True) hu hp he hn) hx
    (steps_and hs fun e h _ => hw e h)
  exact ⟨h6 trivial, fun h => (h5 h).2 trivial⟩

/-- The prefixes of some paths. -/
example : let xs := fun s => winPrefixes (winRootElems s) (winNames (winTail s))
    xs "C:/a/../b".toList = [["C:", "\\", "a"].map String.toList, ["C:", "\\", "a", "..", "b"].map String.toList] ∧
    xs "a\\b".toList = [["a"].map String.toList, ["a", "b"].map String.toList] ∧
    xs "//host/a".toList = [["\\\\host", "\\", "a"].map String.toList] := by decide +kernel

/-- C83 is false. (1) A separator at the end: nothing is done at all, whatever the state, and `false` is returned without
error. (2) There is a regular file: `false` without error. (3) `CreateDirectoryW` fails with `ERROR_ALREADY_EXISTS` (a link that leads
nowhere, or another process makes the directory meanwhile): `true`, but nothing was created. -/
theorem c83_violated :
    (∀ u n t o, u ≠ [] → winEndsSep u = true →
      (Exec (Win.createDirectories false (n + 1) (mkPath .windows u) (.ref none)) t o ↔ t = [] ∧ o = .ok (false, .ref none))) ∧
    Exec (Win.createDirectories false 9 (mkPath .windows "a".toList) (.ref none))
      [⟨.win (.getAttrs "a".toList), (.ok 0x20#32 : Except Errno (BitVec 32))⟩,
        ⟨.win (.getPerms "a".toList 0x20#32), (.ok 0o666#32 : Except Errno Mode)⟩] (.ok (false, .ref none)) ∧
    Exec (Win.createDirectories false 9 (mkPath .windows "a".toList) (.ref none))
      [⟨.win (.getAttrs "a".toList), (.error (Errno.ofWin 2) : Except Errno (BitVec 32))⟩,
        ⟨.win (.createDirectory "a".toList), (.error (Errno.ofWin 183) : Except Errno Unit)⟩] (.ok (true, .ref none)) := by
  refine ⟨?_, feed_exec (by decide +kernel), feed_exec (by decide +kernel)⟩
  intro u n t o hu he
  have : Win.createDirectories false (n + 1) (mkPath .windows u) (.ref none) = .ret (false, .ref none) := by
    simp [Win.createDirectories, Win.win_nonempty hu, clear_ref, Win.missingOf, win_hasFilename, he, Prog.ofRes_ok]
  rw [this]
  exact exec_ret

/-- A disk with the given directories. -/
def Spec.dirsOnly (l : List (List Str)) : WinDisk where
  look p := if winElements p ∈ l then some ⟨true, none, 7, 1, 0, 0, 1⟩ else none
  goal p := if winElements p ∈ l then some ⟨true, none, 7, 1, 0, 0, 1⟩ else none
  missing _ h := h
  plain _ _ h _ := h
  unique p q x y hx hy _ _ := by
    split at hx <;> split at hy <;> cases hx <;> cases hy
    rfl

def Spec.dirsSight (l ms : List (List Str)) : WinSight where
  disk := dirsOnly l
  coherent p q h := by simp only [dirsOnly, h]
  handles := noHandles
  made := ms

theorem dirsSight_kind (l ms : List (List Str)) (p : Str) :
    (dirsSight l ms).kind p = if winElements p ∈ l then .directory else .notFound := by
  simp only [WinSight.kind, dirsSight, dirsOnly]
  split <;> rfl

/-- `C:\\a` exists and `C:\\a\\b` does not: one directory is made. -/
example : ∃ t s', Exec (Win.createDirectories false 9 (mkPath .windows "C:/a/b".toList) (.ref none)) t (.ok (true, .ref none)) ∧
    Steps winSight (dirsSight [["C:", "\\", "a"].map String.toList] []) t s' ∧
    s'.made = [["C:", "\\", "a", "b"].map String.toList] ∧ ∀ ev ∈ t, WinMakes ev := by
  have look : ∀ (s : WinSight) (ev : Event), ev.call.mutates = false → WinLaw s.disk s.handles ev s.handles → winSight s ev s := by
    intro s ev h1 h2
    refine ⟨fun _ => ⟨rfl, rfl, h2⟩, ?_, ?_⟩
    · rintro x e rfl; cases h1
    · rintro x rfl; cases h1
  refine ⟨[⟨.win (.getAttrs "C:\\a".toList), (.ok 0x10#32 : Except Errno (BitVec 32))⟩,
      ⟨.win (.getPerms "C:\\a".toList 0x10#32), (.ok 0o777#32 : Except Errno Mode)⟩,
      ⟨.win (.getAttrs "C:/a/b".toList), (.error (Errno.ofWin 2) : Except Errno (BitVec 32))⟩,
      ⟨.win (.createDirectory "C:/a/b".toList), (.ok () : Except Errno Unit)⟩],
    dirsSight [["C:", "\\", "a"].map String.toList, ["C:", "\\", "a", "b"].map String.toList] [["C:", "\\", "a", "b"].map String.toList],
    feed_exec (by decide +kernel), ?_, rfl, ?_⟩
  · refine .cons (look _ _ rfl ⟨rfl, ⟨true, none, 7, 1, 0, 0, 1⟩, by decide +kernel, by decide, by decide⟩) ?_
    refine .cons (look _ _ rfl ⟨rfl, trivial⟩) ?_
    refine .cons (look _ _ rfl ⟨rfl, fun _ => by decide +kernel⟩) ?_
    refine .cons ⟨by simp [Sys.mutates, WinCall.mutates], ?_, ?_⟩ (.nil _)
    · rintro x e h
      have := congrArg (fun ev : Event => match ev with | ⟨.win (.createDirectory _), .error _⟩ => true | _ => false) h
      cases this
    · rintro x h
      injection h with h _
      injection h with h
      injection h with h
      subst h
      have hx : winElements "C:/a/b".toList = ["C:", "\\", "a", "b"].map String.toList := by decide +kernel
      refine ⟨by rw [dirsSight_kind]; decide +kernel, by rw [dirsSight_kind]; decide +kernel, rfl, by rw [hx]; rfl, ?_, ?_⟩
      · intro y
        rw [dirsSight_kind, dirsSight_kind]
        by_cases h : winElements y ∈ [["C:", "\\", "a"].map String.toList]
        · intro _
          rw [if_pos h, if_pos (List.mem_cons.mpr (.inl (List.mem_singleton.mp h)))]
        · intro h'
          rw [if_neg h] at h'
          exact absurd rfl h'
      · intro y
        rw [dirsSight_kind]
        intro h'
        right
        split at h' <;> rename_i h
        · rw [if_pos h]
        · exact absurd rfl h'
  · intro ev hev
    simp only [List.mem_cons, List.not_mem_nil, or_false] at hev
    refine ⟨?_, ?_⟩
    · rcases hev with rfl | rfl | rfl | rfl
      · trivial
      · trivial
      · show Absent _; decide
      · trivial
    · rintro x e rfl
      rcases hev with h | h | h | h
      · cases h
      · cases h
      · cases h
      · have := congrArg (fun ev : Event => match ev with | ⟨.win (.createDirectory _), .error _⟩ => true | _ => false) h
        cases this

end Asap
