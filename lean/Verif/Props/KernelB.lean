import Verif.Props.KernelA
import Verif.Props.CreateA

/-!
# `create_directories` on a file system with links (C128)
-/

namespace Asap
open Spec

namespace Spec.Vol

/-- Everything that is there stays there with its attributes. -/
structure Grows (d d' : Vol) : Prop where
  fits : Fits d d'
  attr : ∀ m i, d.node m = some i → ∃ i', d'.node m = some i' ∧ attr m i' = attr m i

theorem Grows.refl (d : Vol) : Grows d d := ⟨⟨fun _ i h => ⟨i, h, body_refl ..⟩, rfl⟩, fun _ i h => ⟨i, h, rfl⟩⟩

theorem Body.Fits.trans {d d' : Vol} (h : Vol.Fits d d') {a b c : Body} (h1 : a.Fits d b) (h2 : b.Fits d' c) : a.Fits d c := by
  cases a with
  | file s => obtain ⟨s', rfl⟩ := h1; exact h2
  | link t => cases h1; exact h2
  | dir up es =>
    obtain ⟨es', rfl, h3⟩ := h1
    obtain ⟨es'', rfl, h4⟩ := h2
    exact ⟨es'', rfl, fun w k hk hs => h4 w k (h3 w k hk hs) (h.isSome hs)⟩

theorem Grows.trans {d d' d'' : Vol} (h : Grows d d') (h' : Grows d' d'') : Grows d d'' := by
  refine ⟨⟨fun m i hm => ?_, h'.fits.cwd.trans h.fits.cwd⟩, fun m i hm => ?_⟩
  · obtain ⟨i', h1, h2⟩ := h.fits.node m i hm
    obtain ⟨i'', h3, h4⟩ := h'.fits.node m i' h1
    exact ⟨i'', h3, Body.Fits.trans h.fits h2 h4⟩
  · obtain ⟨i', h1, h2⟩ := h.attr m i hm
    obtain ⟨i'', h3, h4⟩ := h'.attr m i' h1
    exact ⟨i'', h3, h4.trans h2⟩

theorem Made.grows {d d' : Vol} {n : Nat} {w : Str} {i : INode} (h : d.Made d' n w i) : Grows d d' := ⟨h.fits, h.attr⟩

theorem Grows.unchanged {d d' : Vol} (h : Grows d d') : Unchanged d d' :=
  unchanged_of h.fits fun k j hk => by
    obtain ⟨j', h1, h2⟩ := h.attr k j hk
    exact ⟨j', h1, by rw [h2]⟩

end Spec.Vol

theorem onVol_bind_error {α β : Type} {p : Prog α} {f : α → Prog β} {d d' : Vol} {x : Stop} (h : onVol p d = (.error x, d')) :
    onVol (p.bind f) d = (.error x, d') := eval_bind_error (m := kernel) h

/-- Making a directory. -/
theorem answer_mkdir_ok {s : Str} {d d' : Vol} (h : answer (.mkdir s Perms.all) d = (.ok (), d')) :
    ∃ n w, s ≠ [] ∧ d.placeOf (d.start d.cwd s) (filenames s) = .ok (n, w) ∧ d.Made d' n w ⟨.dir n [], Perms.all, 2⟩ := by
  have h : d.make (if s = [] then .error .ENOENT else d.placeOf (d.start d.cwd s) (filenames s)) (fun up => ⟨.dir up [], Perms.all, 2⟩) = _ := h
  obtain ⟨n, w, h1, h2⟩ := Vol.make_ok h
  split at h1
  · cases h1
  · exact ⟨n, w, ‹_›, h1, h2⟩

theorem make_error {d d' : Vol} {pl : Except Errno (Nat × Str)} {i : Nat → INode} {e : Errno} (h : d.make pl i = (.error e, d')) :
    d' = d ∧ (e = .EEXIST → pl = .error .EEXIST ∨ ∃ n w m, pl = .ok (n, w) ∧ d.look n w = .ok m) := by
  unfold Vol.make at h
  split at h
  · rename_i e'
    cases h
    exact ⟨rfl, fun he => .inl (by rw [he])⟩
  · rename_i n w
    split at h
    · rename_i m hm
      cases h
      exact ⟨rfl, fun _ => .inr ⟨n, w, m, rfl, hm⟩⟩
    · split at h
      · cases h; exact ⟨rfl, by simp⟩
      · split at h
        · cases h; exact ⟨rfl, by simp⟩
        · cases h
    · rename_i e' hl h1
      cases h
      refine ⟨rfl, fun he => ?_⟩
      subst he
      exfalso
      unfold Vol.look at h1
      split at h1
      · split at h1
        · cases h1
        · split at h1
          · split at h1 <;> cases h1
          · cases h1
      · cases h1

theorem look_error {d : Vol} {n : Nat} {w : Str} {e : Errno} (h : d.look n w = .error e) : e = .ENOENT ∨ e = .ENOTDIR := by
  unfold Vol.look at h
  split at h
  · split at h
    · cases h
    · split at h
      · split at h <;> cases h
        exact .inl rfl
      · cases h; exact .inl rfl
  · cases h; exact .inr rfl

theorem follow_error {d : Vol} (k n : Nat) (ws : List Str) {e : Errno} (h : d.follow k n ws = .error e) : e = .ENOENT ∨ e = .ENOTDIR ∨ e = .ELOOP := by
  induction k, n, ws using Vol.follow_ind d with
  | case1 => rw [Vol.follow_nil] at h; cases h
  | case2 k n w ws e' he =>
    rw [Vol.follow_cons, he] at h
    cases h
    rcases look_error he with h | h
    · exact .inl h
    · exact .inr (.inl h)
  | case3 k n w ws m hl ht ih =>
    rw [Vol.follow_cons, hl] at h; simp only [ht] at h
    exact ih h
  | case4 n w ws m t hl ht => rw [Vol.follow_cons, hl] at h; simp only [ht] at h; cases h; exact .inr (.inr rfl)
  | case5 n w ws m t k hl ht ih =>
    rw [Vol.follow_cons, hl] at h; simp only [ht] at h
    exact ih h

theorem placeOf_error {d : Vol} {n : Nat} {ws : List Str} {e : Errno} (h : d.placeOf n ws = .error e) : e = .ENOENT ∨ e = .ENOTDIR ∨ e = .ELOOP := by
  unfold Vol.placeOf at h
  split at h
  · cases h
  · split at h
    · cases h
    · rename_i hf
      cases h
      exact follow_error _ _ _ hf

/-- A directory that is not made. -/
theorem answer_mkdir_error {s : Str} {d d' : Vol} {e : Errno} (h : answer (.mkdir s Perms.all) d = (.error e, d')) :
    d' = d ∧ (e = .EEXIST → ∃ n w m, s ≠ [] ∧ d.placeOf (d.start d.cwd s) (filenames s) = .ok (n, w) ∧ d.look n w = .ok m) := by
  have h : d.make (if s = [] then .error .ENOENT else d.placeOf (d.start d.cwd s) (filenames s)) (fun up => ⟨.dir up [], Perms.all, 2⟩) = _ := h
  obtain ⟨h1, h2⟩ := make_error h
  refine ⟨h1, fun he => ?_⟩
  split at h2
  · rcases h2 he with h3 | ⟨_, _, _, h3, _⟩ <;> cases h3
  · rcases h2 he with h3 | ⟨n, w, m, h3, h4⟩
    · rcases placeOf_error h3 with h | h | h <;> cases h
    · exact ⟨n, w, m, ‹_›, h3, h4⟩

theorem attr_found (m : Nat) (i : INode) : (statusOf (Vol.attr m i)).type ≠ .notFound := by
  rw [statusOf_attr]
  cases i.body <;> simp [kindOf]

/-- One round of the second loop. -/
theorem onVol_missing {top : Path} {rest : List Path} {b : Bool} {d d' : Vol} {o : Except Stop (Bool × Code × Bool)}
    (h : onVol (createMissing (top :: rest) b) d = (o, d')) :
    (∃ st, d.attrs (d.find top.pathname) = .ok st ∧ onVol (createMissing rest b) d = (o, d')) ∨
    (∃ e, d.attrs (d.find top.pathname) = .error e ∧
      ((∃ d1, answer (.mkdir top.pathname Perms.all) d = (.ok (), d1) ∧ onVol (createMissing rest true) d1 = (o, d')) ∨
       (answer (.mkdir top.pathname Perms.all) d = (.error .EEXIST, d) ∧ onVol (createMissing rest true) d = (o, d')) ∨
       (d' = d ∧ (∀ b' e', o ≠ .ok (b', none, e')) ∧ (typeOfErr e = .notFound → ∃ x, answer (.mkdir top.pathname Perms.all) d = (.error x, d))))) := by
  simp only [createMissing, status_ref, Prog.bind_eq, Prog.call_bind, onVol_call] at h
  have ha : answer (.stat top.pathname) d = (d.attrs (d.find top.pathname), d) := rfl
  simp only [ha] at h
  cases hs : d.attrs (d.find top.pathname) with
  | ok st =>
    refine .inl ⟨st, rfl, ?_⟩
    obtain ⟨m, i, -, -, rfl⟩ := attrs_seen hs
    simp only [hs, Prog.ret_bind, attr_found, if_false, isSet_none, Bool.false_eq_true] at h
    exact h
  | error e =>
    refine .inr ⟨e, rfl, ?_⟩
    simp only [hs, Prog.ret_bind] at h
    have hend : ∀ (b1 : Bool) (e1 : Errno), onVol (((isDirectoryP top .null).bind fun x => Prog.ret (if x.1 then EcArg.ref none else .ref (some e1))).bind fun m =>
            if m.isSet then .ret (b1, m.code, rest.isEmpty) else createMissing rest b1) d = (o, d') → d' = d ∧ ∀ b' e', o ≠ .ok (b', none, e') := by
      intro b1 e1 h
      obtain ⟨x, hp⟩ := isDirectoryP_null top
      rw [hp] at h
      simp only [Prog.call_bind, onVol_call, ha, hs] at h
      split at h
      · simp only [Prog.ret_bind, Bool.false_eq_true, if_false, isSet_some, if_true, onVol_ret] at h
        cases h
        exact ⟨rfl, fun _ _ h => by cases h⟩
      · cases h
        exact ⟨rfl, fun _ _ h => by cases h⟩
    by_cases he : typeOfErr e = .notFound
    · simp only [he, if_true, createDirectory, clear_ref, Prog.call_bind, onVol_call] at h
      generalize hm : answer (.mkdir top.pathname Perms.all) d = a at h
      obtain ⟨r, d1⟩ := a
      cases r with
      | ok u =>
        simp only [Prog.ret_bind, isSet_none, Bool.false_eq_true, if_false] at h
        exact .inl ⟨d1, rfl, h⟩
      | error e' =>
        obtain ⟨rfl, -⟩ := answer_mkdir_error hm
        simp only at h
        by_cases he' : e' = .EEXIST
        · subst he'
          simp only [if_true, Prog.ret_bind, isSet_none, Bool.false_eq_true, if_false] at h
          exact .inr (.inl ⟨rfl, h⟩)
        · simp only [he', if_false, Handler.report, Prog.bind_eq, Prog.ret_bind, isSet_some, if_true] at h
          obtain ⟨h1, h2⟩ := hend _ _ h
          exact .inr (.inr ⟨h1, h2, fun _ => ⟨e', rfl⟩⟩)
    · simp only [he, if_false, Prog.ret_bind, isSet_some, if_true] at h
      obtain ⟨h1, h2⟩ := hend _ _ h
      exact .inr (.inr ⟨h1, h2, fun h => absurd h he⟩)

/-- A path that is found, or a symbolic link that leads nowhere. -/
def Spec.There (d : Vol) (q : Path) : Prop := ∃ st, onVol (status q (.ref none)) d = (.ok (st, .ref none), d)
/-- A symbolic link. -/
def Spec.LinkAt (d : Vol) (q : Path) : Prop := ∃ prms, onVol (symlinkStatus q (.ref none)) d = (.ok (⟨.symlink, prms⟩, .ref none), d)

theorem there_iff {d : Vol} {q : Path} : There d q ↔ ∃ s, d.attrs (d.find q.pathname) = .ok s := by
  unfold There
  simp only [status_seen]
  constructor
  · rintro ⟨_, s, h, _⟩; exact ⟨s, h⟩
  · rintro ⟨s, h⟩; exact ⟨_, s, h, rfl⟩

theorem There.of_unchanged {d d' : Vol} {q : Path} (hu : Unchanged d d') (h : There d q) : There d' q := by
  obtain ⟨st, h⟩ := h
  exact ⟨st, (hu q none st).1 h⟩

theorem LinkAt.of_unchanged {d d' : Vol} {q : Path} (hu : Unchanged d d') (h : LinkAt d q) : LinkAt d' q := by
  obtain ⟨st, h⟩ := h
  exact ⟨st, (hu q none _).2 h⟩

theorem there_made {d d' : Vol} {q : Path} (h : answer (.mkdir q.pathname Perms.all) d = (.ok (), d')) : There d' q := by
  obtain ⟨n, w, hp, hpl, hm⟩ := answer_mkdir_ok h
  obtain ⟨h1, h2⟩ := Vol.find_of_placeOf hp (hm.fits.placeOf (by rw [← Vol.start_cwd hm.fits.cwd]; exact hpl)) hm.look
    (by unfold Vol.isDir; rw [hm.node])
  exact ⟨_, eval_stat_at h1 hm.node⟩

theorem link_of_exists {d : Vol} {q : Path} {e : Errno} (hq : endsSlash q.pathname = false)
    (hs : d.attrs (d.find q.pathname) = .error e) (h : answer (.mkdir q.pathname Perms.all) d = (.error .EEXIST, d)) : LinkAt d q := by
  obtain ⟨n, w, m, hp, h1, h2⟩ := (answer_mkdir_error h).2 rfl
  have hl : d.findLink q.pathname = .ok m := by
    refine Vol.findLink_ok.mpr ⟨n, w, Vol.place_ok.mpr ⟨hp, ?_⟩, h2⟩
    unfold relElements
    rw [if_neg (by simp [hq]), List.append_nil]
    exact h1
  have hsome := Vol.look_isSome h2
  cases hi : d.node m with
  | none => simp [hi] at hsome
  | some i =>
    have hk : kindOf i.body = .symlink := by
      by_cases hc : (kindOf i.body == .symlink) = true
      · simpa using hc
      · have := Vol.find_of_findLink hl (text_none hi (by simpa using hc))
        rw [attrs_node this hi] at hs
        cases hs
    have := eval_lstat_at (c := none) hl hi
    rw [hk] at this
    exact ⟨_, this⟩

/-- What the second loop does. -/
theorem onVol_createMissing (l : List Path) (hl : ∀ x ∈ l, endsSlash x.pathname = false) : ∀ (b : Bool) (d d' : Vol) (o : Except Stop (Bool × Code × Bool)),
    onVol (createMissing l b) d = (o, d') → Vol.Grows d d' ∧ ∀ b' e, o = .ok (b', none, e) → e = true ∧
      (∀ x ∈ l, There d' x ∨ b' = true ∧ LinkAt d' x) ∧ (b = true → b' = true) ∧ (b' = false → d' = d ∧ ∀ x ∈ l, There d x) ∧
      (b = false → b' = true → ∃ x ∈ l, ¬ There d x) := by
  induction l with
  | nil =>
    intro b d d' o h
    cases h
    exact ⟨.refl _, fun b' e ho => by cases ho; simp⟩
  | cons top rest ih =>
    have ih := ih fun x hx => hl x (by simp [hx])
    intro b d d' o h
    rcases onVol_missing h with ⟨st, h1, h2⟩ | ⟨e, h1, ⟨d1, h2, h3⟩ | ⟨h2, h3⟩ | ⟨rfl, h3, -⟩⟩
    · obtain ⟨hg, h3⟩ := ih b d d' o h2
      refine ⟨hg, fun b' e ho => ?_⟩
      obtain ⟨h4, h5, h6, h7, h8⟩ := h3 b' e ho
      have ht : There d top := there_iff.mpr ⟨st, h1⟩
      refine ⟨h4, fun x hx => ?_, h6, fun hb => ⟨(h7 hb).1, fun x hx => ?_⟩, fun hb hb' => ?_⟩
      · rcases List.mem_cons.mp hx with rfl | hx
        · exact .inl (There.of_unchanged hg.unchanged ht)
        · exact h5 x hx
      · rcases List.mem_cons.mp hx with rfl | hx
        · exact ht
        · exact (h7 hb).2 x hx
      · obtain ⟨x, hx, h⟩ := h8 hb hb'
        exact ⟨x, by simp [hx], h⟩
    · obtain ⟨n, w, -, -, hm⟩ := answer_mkdir_ok h2
      obtain ⟨hg, h4⟩ := ih true d1 d' o h3
      refine ⟨hm.grows.trans hg, fun b' e ho => ?_⟩
      obtain ⟨h5, h6, h7, -, -⟩ := h4 b' e ho
      have hb' := h7 rfl
      refine ⟨h5, fun x hx => ?_, fun _ => hb', fun hb => (by rw [hb'] at hb; cases hb), fun _ _ => ⟨top, by simp, fun h => ?_⟩⟩
      · rcases List.mem_cons.mp hx with rfl | hx
        · exact .inl (There.of_unchanged hg.unchanged (there_made h2))
        · exact h6 x hx
      · obtain ⟨s, h⟩ := there_iff.mp h
        rw [h1] at h; cases h
    · obtain ⟨hg, h4⟩ := ih true d d' o h3
      refine ⟨hg, fun b' e ho => ?_⟩
      obtain ⟨h5, h6, h7, -, -⟩ := h4 b' e ho
      have hb' := h7 rfl
      refine ⟨h5, fun x hx => ?_, fun _ => hb', fun hb => (by rw [hb'] at hb; cases hb), fun _ _ => ⟨top, by simp, fun h => ?_⟩⟩
      · rcases List.mem_cons.mp hx with rfl | hx
        · exact .inr ⟨hb', LinkAt.of_unchanged hg.unchanged (link_of_exists (hl x (by simp)) h1 h2)⟩
        · exact h6 x hx
      · obtain ⟨s, h⟩ := there_iff.mp h
        rw [h1] at h; cases h
    · exact ⟨.refl _, fun b' e ho => absurd ho (h3 b' e)⟩

theorem onVol_createMissing_again (l : List Path) (b : Bool) (d : Vol) (h : ∀ x ∈ l, There d x) :
    onVol (createMissing l b) d = (.ok (b, none, true), d) := by
  induction l with
  | nil => rfl
  | cons top rest ih =>
    generalize hr : onVol (createMissing (top :: rest) b) d = r
    obtain ⟨o, d'⟩ := r
    rcases onVol_missing hr with ⟨st, h1, h2⟩ | ⟨e, h1, -⟩
    · rw [← h2]
      exact ih fun x hx => h x (by simp [hx])
    · obtain ⟨s, h2⟩ := there_iff.mp (h top (by simp))
      rw [h1] at h2; cases h2

/-! ## The prefixes -/

theorem chain_mem (abs : Bool) (whole : Str) : ∀ (vs us : List Str), (∀ w ∈ us ++ vs, IsName w) →
    ∀ x ∈ chain (render abs us false) vs whole, x = whole ∨ ∃ ws, ws ≠ [] ∧ (∀ w ∈ ws, IsName w) ∧ x = render abs ws false := by
  intro vs
  induction vs with
  | nil => intro us _ x hx; cases hx
  | cons v vs ih =>
    intro us hn x hx
    have hne : render abs (us ++ [v]) false = addElem (render abs us false) v := by
      rw [render_foldl abs (us ++ [v]) (fun w hw => hn w (by simp at hw ⊢; rcases hw with h | h <;> simp [h])),
        render_foldl abs us (fun w hw => hn w (by simp [hw])), List.foldl_append]
      rfl
    cases vs with
    | nil =>
      simp only [chain] at hx
      split at hx
      · simp at hx; exact .inl hx
      · cases hx
    | cons u vs =>
      simp only [chain] at hx
      rcases List.mem_append.mp hx with hx | hx
      · split at hx
        · simp at hx
          exact .inr ⟨us ++ [v], by simp, fun w hw => hn w (by simp at hw ⊢; rcases hw with h | h <;> simp [h]), by rw [hx, hne]⟩
        · cases hx
      · exact ih (us ++ [v]) (by simpa using hn) x (by rw [hne]; exact hx)

theorem rootText_render (s : Str) : rootText s = render (startsSlash s) [] false := by
  unfold rootText
  cases startsSlash s <;> rfl

theorem prefixes_end {s : Str} (hf : filePart s ≠ []) : ∀ x ∈ prefixes s, endsSlash x = false := by
  intro x hx
  unfold prefixes at hx
  rw [rootText_render] at hx
  rcases chain_mem _ s (filenames s) [] (fun w hw => filenames_mem (by simpa using hw)) x hx with rfl | ⟨ws, h1, h2, rfl⟩
  · by_cases h : endsSlash x = true
    · exact absurd ((filePart_eq_nil_iff x).mpr (.inr h)) hf
    · simpa using h
  · exact endsSlash_render h2 h1

/-! ## C128 -/

/-- **C128**, what `create_directories` does, whatever comes of it: what could be seen is seen unchanged. If it reports no error then the
path and its prefixes are found (if one is not, it is a symbolic link that leads nowhere, and the result is true); it is false only if nothing was changed and all were found before, and true only if
one was not found; if they are found, a second call gives false and does nothing. -/
theorem c128_effect_partial {el : Bool} {n : Nat} {p : Path} (hp : Reach p) (hf : filePart p.pathname ≠ []) (hn : (filenames p.pathname).length < n)
    (hel : el = true → FewSlashes p.pathname) (c : Code) (d d' : Vol) (o : Except Stop (Bool × EcArg))
    (h : onVol (createDirectories el n p (.ref c)) d = (o, d')) :
    Unchanged d d' ∧ ∀ b, o = .ok (b, .ref none) →
      (∀ q : Path, q.pathname ∈ prefixes p.pathname → There d' q ∨ b = true ∧ LinkAt d' q) ∧
      (b = false → d' = d ∧ ∀ q : Path, q.pathname ∈ prefixes p.pathname → There d q) ∧
      (b = true → ∃ q : Path, q.pathname ∈ prefixes p.pathname ∧ ¬ There d q) ∧
      ((∀ q : Path, q.pathname ∈ prefixes p.pathname → There d' q) →
        onVol (createDirectories el n p (.ref c)) d' = (.ok (false, .ref none), d')) := by
  obtain ⟨l, h1, h2⟩ := createDirectories_eq hp.loose hf hn hel c
  have hend : ∀ x ∈ l, endsSlash x.pathname = false := fun x hx => prefixes_end hf _ (h1 ▸ List.mem_map_of_mem hx)
  have hin : ∀ {P : Path → Prop} {Q : Path → Prop}, (∀ x ∈ l, P x) → (∀ x q : Path, x.pathname = q.pathname → P x → Q q) →
      ∀ q : Path, q.pathname ∈ prefixes p.pathname → Q q := by
    intro P Q hP hPQ q hq
    rw [← h1] at hq
    obtain ⟨x, hx, hxq⟩ := List.mem_map.mp hq
    exact hPQ x q hxq (hP x hx)
  have there_eq : ∀ {v : Vol} {x q : Path}, x.pathname = q.pathname → There v x → There v q := fun he h => by
    rw [there_iff] at h ⊢; rw [← he]; exact h
  have link_eq : ∀ {v : Vol} {x q : Path}, x.pathname = q.pathname → LinkAt v x → LinkAt v q := fun he h => by
    obtain ⟨prms, h⟩ := h
    exact ⟨prms, symlinkStatus_seen.mpr (by rw [← he]; exact symlinkStatus_seen.mp h)⟩
  have again : ∀ v, (∀ x ∈ l, There v x) → onVol (createDirectories el n p (.ref c)) v = (.ok (false, .ref none), v) := by
    intro v hv
    rw [h2]
    split
    · rfl
    · rw [onVol_bind (onVol_createMissing_again l false v hv)]
      rfl
  have hagain : (∀ q : Path, q.pathname ∈ prefixes p.pathname → There d' q) →
        onVol (createDirectories el n p (.ref c)) d' = (.ok (false, .ref none), d') := fun hq =>
    again d' fun x hx => hq x (h1 ▸ List.mem_map_of_mem hx)
  rw [h2] at h
  split at h
  · rename_i he
    have hnil : l = [] := by simpa using he
    subst hnil
    cases h
    refine ⟨(Vol.Grows.refl _).unchanged, ?_⟩
    rintro b ⟨⟩
    rw [← h1]
    refine ⟨by simp, by simp, by simp, fun _ => again d (by simp)⟩
  · generalize hr : onVol (createMissing l false) d = r at h
    obtain ⟨o1, d1⟩ := r
    obtain ⟨hg, h3⟩ := onVol_createMissing l hend false d d1 o1 hr
    cases o1 with
    | error x =>
      rw [onVol_bind_error hr] at h
      cases h
      exact ⟨hg.unchanged, fun b hb => by cases hb⟩
    | ok a =>
      obtain ⟨b1, m, e⟩ := a
      rw [onVol_bind hr] at h
      cases m with
      | some x =>
        cases h
        exact ⟨hg.unchanged, fun b hb => by cases hb⟩
      | none =>
        cases h
        refine ⟨hg.unchanged, fun b hb => ?_⟩
        obtain ⟨h4, h5, -, h6, h7⟩ := h3 b1 e rfl
        cases hb
        subst h4
        simp only [Bool.and_true]
        refine ⟨hin h5 fun x q he hx => ?_, fun hb => ⟨(h6 hb).1, hin (h6 hb).2 fun x q he hx => there_eq he hx⟩, fun hb => ?_, hagain⟩
        · rcases hx with hx | ⟨hb, hx⟩
          · exact .inl (there_eq he hx)
          · exact .inr ⟨hb, link_eq he hx⟩
        · obtain ⟨x, hx, hnx⟩ := h7 rfl hb
          exact ⟨x, h1 ▸ List.mem_map_of_mem hx, hnx⟩

/-! ## When it succeeds -/

theorem isDir_iff {d : Vol} {n : Nat} : d.isDir n = true ↔ ∃ up es mo l, d.node n = some ⟨.dir up es, mo, l⟩ := by
  unfold Vol.isDir
  constructor
  · intro h
    split at h
    · rename_i h1; exact ⟨_, _, _, _, h1⟩
    · cases h
  · rintro ⟨up, es, mo, l, h⟩
    rw [h]

theorem Spec.Vol.Fits.isDir {d d' : Vol} (h : Vol.Fits d d') {n : Nat} (hn : d.isDir n = true) : d'.isDir n = true := by
  obtain ⟨up, es, mo, l, h1⟩ := isDir_iff.mp hn
  obtain ⟨⟨b, mo', l'⟩, h2, es', hb, -⟩ := h.node n _ h1
  simp only at hb
  subst hb
  exact isDir_iff.mpr ⟨_, _, _, _, h2⟩

theorem isDir_text {d : Vol} {n : Nat} (h : d.isDir n = true) : d.text n = none := by
  obtain ⟨up, es, mo, l, h1⟩ := isDir_iff.mp h
  unfold Vol.text
  rw [h1]

theorem Spec.Vol.Fits.absent {d d' : Vol} (h : Vol.Fits d d') {n : Nat} (hn : d'.node n = none) : d.node n = none := by
  cases hd : d.node n with
  | none => rfl
  | some i =>
    obtain ⟨i', h1, -⟩ := h.node n i hd
    rw [hn] at h1; cases h1

/-- A directory that has just been made, and the entries there are then. -/
theorem make_dir {d : Vol} {n : Nat} {w : Str} {mo : Mode} (hl : d.look n w = .error .ENOENT) (hw : w ≠ dotdot) (hroom : ∀ k, d.next ≤ k → d.node k = none) :
    ∃ d', d.make (.ok (n, w)) (fun up => ⟨.dir up [], mo, 2⟩) = (.ok (), d') ∧ d.Made d' n w ⟨.dir n [], mo, 2⟩ ∧
      (∀ k, d'.next ≤ k → d'.node k = none) ∧
      ∀ n' w' k, Vol.special w' = false → d'.look n' w' = .ok k → d.look n' w' = .ok k ∨ k = d.next := by
  have hnone : d.node d.next = none := hroom _ (Nat.le_refl _)
  obtain ⟨up, es, mo', l, hn, hw', hes⟩ := Vol.look_missing hl
  have hne : n ≠ d.next := by rintro rfl; rw [hn] at hnone; cases hnone
  have hmk : d.make (.ok (n, w)) (fun up => ⟨.dir up [], mo, 2⟩) =
      (.ok (), { (d.set d.next ⟨.dir n [], mo, 2⟩).enter n w d.next with next := d.next + 1 }) := by
    unfold Vol.make
    simp only [hl, if_neg hw, hnone, Option.isSome_none, Bool.false_eq_true, if_false]
  obtain ⟨n0, w0, h1, hm⟩ := Vol.make_ok hmk
  cases h1
  have hnode : ∀ k, (((d.set d.next ⟨.dir n [], mo, 2⟩).enter n w d.next).node k) =
      if k = n then some ⟨.dir up ((w, d.next) :: es), mo', l⟩ else if k = d.next then some ⟨.dir n [], mo, 2⟩ else d.node k := by
    intro k
    have h2 : (d.set d.next ⟨.dir n [], mo, 2⟩).node n = some ⟨.dir up es, mo', l⟩ := by rw [Vol.node_set, if_neg hne]; exact hn
    unfold Vol.enter
    rw [h2]
    rfl
  refine ⟨_, hmk, hm, ?_, ?_⟩
  · intro k hk
    have hk : d.next + 1 ≤ k := hk
    have hkn : k ≠ n := by rintro rfl; rw [hroom k (by omega)] at hn; cases hn
    show ((d.set d.next ⟨.dir n [], mo, 2⟩).enter n w d.next).node k = none
    rw [hnode, if_neg hkn, if_neg (by omega)]
    exact hroom k (by omega)
  · intro n' w' k hs hk
    obtain ⟨hs1, hs2⟩ := Vol.special_false.mp hs
    obtain ⟨up', es', mo1, l1, h3, h4⟩ := Vol.look_ok.mp hk
    have h3 : ((d.set d.next ⟨.dir n [], mo, 2⟩).enter n w d.next).node n' = _ := h3
    rcases h4 with h4 | ⟨-, h4, h5⟩
    · exact absurd h4.1 hs1
    have h4 : (((d.set d.next ⟨.dir n [], mo, 2⟩).enter n w d.next).node k).isSome = true := h4
    rw [if_neg hs2] at h5
    by_cases hkx : k = d.next
    · exact .inr hkx
    refine .inl ?_
    have hks : (d.node k).isSome = true := by
      rw [hnode] at h4
      by_cases hkn : k = n
      · rw [hkn, hn]; rfl
      · rw [if_neg hkn, if_neg hkx] at h4; exact h4
    rw [hnode] at h3
    by_cases hn' : n' = n
    · subst hn'
      rw [if_pos rfl] at h3
      cases h3
      by_cases hww : w' = w
      · subst hww
        rw [List.lookup_cons_self] at h5
        cases h5
        exact absurd rfl hkx
      · rw [List.lookup_cons, show (w' == w) = false by simpa using hww] at h5
        exact Vol.look_ok.mpr ⟨_, _, _, _, hn, .inr ⟨hs1, hks, by rw [if_neg hs2]; exact h5⟩⟩
    · rw [if_neg hn'] at h3
      by_cases hnx : n' = d.next
      · rw [if_pos hnx] at h3
        cases h3
        cases h5
      · rw [if_neg hnx] at h3
        exact Vol.look_ok.mpr ⟨_, _, _, _, h3, .inr ⟨hs1, hks, by rw [if_neg hs2]; exact h5⟩⟩

theorem find_text {d : Vol} {s : Str} (hs : s ≠ []) (he : endsSlash s = false) : d.find s = d.follow 40 (d.start d.cwd s) (filenames s) := by
  unfold Vol.find relElements
  rw [if_neg hs, if_neg (by simp [he]), List.append_nil]

theorem place_text {d : Vol} {s : Str} (hs : s ≠ []) (he : endsSlash s = false) : d.place s = d.placeOf (d.start d.cwd s) (filenames s) := by
  unfold Vol.place relElements
  rw [if_neg hs, if_neg (by simp [he]), List.append_nil]

/-- What has happened to a file system in which directories have been made. -/
structure Spec.Vol.Since (d e : Vol) : Prop where
  grows : Vol.Grows d e
  room : ∀ k, e.next ≤ k → e.node k = none
  new : ∀ n w k, Vol.special w = false → e.look n w = .ok k → d.look n w = .ok k ∨ d.node k = none ∧ e.isDir k = true

theorem special_proper {w : Str} (h : IsName w) (hp : Proper w) : Vol.special w = false :=
  Vol.special_false.mpr ⟨by rintro (h1 | h1); exact h.1 h1; exact hp.1 h1, hp.2⟩

theorem look_dir_error {d : Vol} {n : Nat} {w : Str} {e : Errno} (hd : d.isDir n = true) (h : d.look n w = .error e) : e = .ENOENT := by
  obtain ⟨up, es, mo, l, h1⟩ := isDir_iff.mp hd
  unfold Vol.look at h
  rw [h1] at h
  simp only at h
  split at h
  · cases h
  · split at h
    · split at h <;> cases h
      rfl
    · cases h; rfl

/-- A directory or nothing, not even a symbolic link. -/
def Spec.DirOrNone (d : Vol) (q : Path) : Prop :=
  (∃ prms, onVol (status q (.ref none)) d = (.ok (⟨.directory, prms⟩, .ref none), d)) ∨
  onVol (symlinkStatus q (.ref none)) d = (.ok ({ type := .notFound }, .ref (some .ENOENT)), d)

theorem dir_seen {d : Vol} {q : Path} {prms : Perms} (h : onVol (status q (.ref none)) d = (.ok (⟨.directory, prms⟩, .ref none), d)) :
    ∃ m, d.find q.pathname = .ok m ∧ d.isDir m = true := by
  obtain ⟨s, h1, h2⟩ := status_seen.mp h
  obtain ⟨m, i, h3, h4, rfl⟩ := attrs_seen h1
  refine ⟨m, h3, isDir_iff.mpr ?_⟩
  rw [statusOf_attr] at h2
  obtain ⟨b, mo, l⟩ := i
  cases b with
  | dir up es => exact ⟨up, es, mo, l, h4⟩
  | file s => cases h2
  | link t => cases h2

theorem dir_status {d : Vol} {q : Path} {m : Nat} (h : d.find q.pathname = .ok m) (hd : d.isDir m = true) :
    ∃ prms, onVol (status q (.ref none)) d = (.ok (⟨.directory, prms⟩, .ref none), d) := by
  obtain ⟨up, es, mo, l, h1⟩ := isDir_iff.mp hd
  exact ⟨_, eval_stat_at h h1⟩

theorem missing_seen {d : Vol} {q : Path} (h : onVol (symlinkStatus q (.ref none)) d = (.ok ({ type := .notFound }, .ref (some .ENOENT)), d)) :
    ∀ m, d.findLink q.pathname ≠ .ok m := by
  intro m hm
  cases ha : d.attrs (d.findLink q.pathname) with
  | ok st =>
    rw [onVol_lstatus_ok ha] at h
    simp at h
  | error e =>
    obtain ⟨n, w, h1, h2⟩ := Vol.findLink_ok.mp hm
    have := Vol.look_isSome h2
    rw [hm] at ha
    unfold Vol.attrs at ha
    simp only at ha
    split at ha
    · cases ha
    · rename_i hn; rw [hn] at this; cases this

/-- What remains to be made is made. -/
theorem createMissing_succeeds {d : Vol} (abs : Bool) (whole : Str) (hw0 : whole ≠ []) (hwe : endsSlash whole = false) (hws : startsSlash whole = abs) :
    ∀ (vs us : List Str) (l : List Path) (b : Bool) (e : Vol) (m : Nat), filenames whole = us ++ vs → (∀ w ∈ vs, Proper w) →
      l.map Path.pathname = chain (render abs us false) vs whole → (∀ x ∈ l, DirOrNone d x) → d.Since e →
      e.follow 40 (if abs then 0 else d.cwd) us = .ok m → e.isDir m = true → (d.follow 40 (if abs then 0 else d.cwd) us = .ok m ∨ d.node m = none) →
      ∃ b' e', onVol (createMissing l b) e = (.ok (b', none, true), e') ∧ d.Since e' ∧
        (∀ x ∈ l, ∃ prms, onVol (status x (.ref none)) e' = (.ok (⟨.directory, prms⟩, .ref none), e')) := by
  intro vs
  induction vs with
  | nil =>
    intro us l b e m _ _ hl _ hsince _ _ _
    have hnil : l = [] := by simpa [chain] using hl
    subst hnil
    exact ⟨b, e, rfl, hsince, by simp⟩
  | cons v vs ih =>
    intro us l b e m hfn hprop hl hfree hsince hfol hdir hpar
    have hnames : ∀ w ∈ us ++ v :: vs, IsName w := fun w hw => filenames_mem (hfn ▸ hw)
    have hv : IsName v := hnames v (by simp)
    have hpv : Proper v := hprop v (by simp)
    -- the next prefix
    have hne : render abs (us ++ [v]) false = addElem (render abs us false) v := by
      rw [render_foldl abs (us ++ [v]) (fun w hw => hnames w (by simp at hw ⊢; rcases hw with h | h <;> simp [h])),
        render_foldl abs us (fun w hw => hnames w (by simp [hw])), List.foldl_append]
      rfl
    have hnv : ∀ w ∈ us ++ [v], IsName w := fun w hw => hnames w (by simp at hw ⊢; rcases hw with h | h <;> simp [h])
    obtain ⟨top, rest, rfl, ht, hr⟩ : ∃ top rest, l = top :: rest ∧ (top.pathname ≠ [] ∧ endsSlash top.pathname = false ∧ startsSlash top.pathname = abs ∧
        filenames top.pathname = us ++ [v]) ∧ rest.map Path.pathname = chain (render abs (us ++ [v]) false) vs whole := by
      cases vs with
      | nil =>
        simp only [chain, if_pos hpv] at hl
        cases l with
        | nil => simp at hl
        | cons top rest =>
          simp only [List.map_cons, List.cons.injEq] at hl
          refine ⟨top, rest, rfl, ?_, by simpa [chain] using hl.2⟩
          rw [hl.1]
          exact ⟨hw0, hwe, hws, by simpa using hfn⟩
      | cons u vs =>
        simp only [chain, if_pos hpv] at hl
        cases l with
        | nil => simp at hl
        | cons top rest =>
          simp only [List.map_cons, List.cons_append, List.nil_append, List.cons.injEq] at hl
          refine ⟨top, rest, rfl, ?_, by rw [hne]; exact hl.2⟩
          rw [hl.1, ← hne]
          refine ⟨?_, endsSlash_render hnv (by simp), startsSlash_render hnv (by simp), filenames_render hnv⟩
          intro h
          have := congrArg filenames h
          rw [filenames_render hnv] at this
          have h0 : filenames [] = [] := by decide
          rw [h0] at this
          simp at this
    obtain ⟨ht0, hte, hts, htf⟩ := ht
    have hstart : ∀ x : Vol, x.cwd = d.cwd → x.start x.cwd top.pathname = if abs then 0 else d.cwd := by
      intro x hx; unfold Vol.start; rw [hts, hx]
    have hfind : ∀ x : Vol, x.cwd = d.cwd → x.find top.pathname = x.follow 40 (if abs then 0 else d.cwd) (us ++ [v]) := by
      intro x hx; rw [find_text ht0 hte, hstart x hx, htf]
    have hplace : ∀ x : Vol, x.cwd = d.cwd → x.place top.pathname = x.placeOf (if abs then 0 else d.cwd) (us ++ [v]) := by
      intro x hx; rw [place_text ht0 hte, hstart x hx, htf]
    have hecwd : e.cwd = d.cwd := hsince.grows.fits.cwd
    -- what follows when the directory is there
    have go : ∀ (b1 : Bool) (e1 : Vol) (k : Nat), d.Since e1 → e1.find top.pathname = .ok k → e1.isDir k = true →
        (d.find top.pathname = .ok k ∨ d.node k = none) → onVol (createMissing (top :: rest) b) e = onVol (createMissing rest b1) e1 →
        ∃ b' e', onVol (createMissing (top :: rest) b) e = (.ok (b', none, true), e') ∧ d.Since e' ∧
          (∀ x ∈ top :: rest, ∃ prms, onVol (status x (.ref none)) e' = (.ok (⟨.directory, prms⟩, .ref none), e')) := by
      intro b1 e1 k hs1 hf1 hd1 hp1 heq
      have hcwd1 : e1.cwd = d.cwd := hs1.grows.fits.cwd
      rw [hfind e1 hcwd1] at hf1
      rw [hfind d rfl] at hp1
      obtain ⟨b', e', h1, h2, h3⟩ := ih (us ++ [v]) rest b1 e1 k (by simpa using hfn) (fun w hw => hprop w (by simp [hw])) hr
        (fun x hx => hfree x (by simp [hx])) hs1 hf1 hd1 hp1
      refine ⟨b', e', by rw [heq]; exact h1, h2, fun x hx => ?_⟩
      rcases List.mem_cons.mp hx with rfl | hx
      · have hun : Unchanged e1 e' := by
          by_cases hrest : ∀ x ∈ rest, endsSlash x.pathname = false
          · exact (onVol_createMissing rest hrest b1 e1 e' _ h1).1.unchanged
          · exfalso
            apply hrest
            intro x hx
            have hxm : x.pathname ∈ chain (render abs (us ++ [v]) false) vs whole := hr ▸ List.mem_map_of_mem hx
            rcases chain_mem abs whole vs (us ++ [v]) (by simpa using hnames) _ hxm with h | ⟨ws, h4, h5, h6⟩
            · rw [h]; exact hwe
            · rw [h6]; exact endsSlash_render h5 h4
        obtain ⟨prms, h4⟩ := dir_status (q := x) (by rw [hfind e1 hcwd1]; exact hf1) hd1
        exact ⟨prms, (hun x none _).1 h4⟩
      · exact h3 x hx
    have found : ∀ k, e.find top.pathname = .ok k → e.isDir k = true → onVol (createMissing (top :: rest) b) e = onVol (createMissing rest b) e := by
      intro k hk hd
      obtain ⟨up, es, mo, l', hn⟩ := isDir_iff.mp hd
      generalize hg : onVol (createMissing (top :: rest) b) e = r
      obtain ⟨o, e'⟩ := r
      rcases onVol_missing hg with ⟨st, h1, h2⟩ | ⟨er, h1, -⟩
      · exact h2.symm
      · rw [attrs_node hk hn] at h1; cases h1
    rcases hfree top (by simp) with ⟨prms, hA⟩ | hB
    · obtain ⟨k, h1, h2⟩ := dir_seen hA
      have h3 := hsince.grows.fits.find h1
      have h4 := hsince.grows.fits.isDir h2
      exact go b e k hsince h3 h4 (.inl h1) (found k h3 h4)
    · have hno := missing_seen hB
      have hplaceE : e.placeOf (if abs then 0 else d.cwd) (us ++ [v]) = .ok (m, v) := Vol.placeOf_ok.mpr (.inr ⟨us, rfl, hfol⟩)
      have hsp := special_proper hv hpv
      cases hlk : e.look m v with
      | ok k =>
        rcases hsince.new m v k hsp hlk with h1 | ⟨h1, h2⟩
        · exfalso
          rcases hpar with hpar | hpar
          · refine hno k (Vol.findLink_ok.mpr ⟨m, v, ?_, h1⟩)
            rw [hplace d rfl]
            exact Vol.placeOf_ok.mpr (.inr ⟨us, rfl, hpar⟩)
          · obtain ⟨up, es, mo, l', h2, -⟩ := Vol.look_ok.mp h1
            rw [hpar] at h2; cases h2
        · have h3 : e.find top.pathname = .ok k := by
            refine Vol.find_of_findLink (Vol.findLink_ok.mpr ⟨m, v, ?_, hlk⟩) (isDir_text h2)
            rw [hplace e hecwd]; exact hplaceE
          exact go b e k hsince h3 h2 (.inr h1) (found k h3 h2)
      | error er =>
        have her := look_dir_error hdir hlk
        subst her
        obtain ⟨e1, hmk, hmade, hroom, hnew⟩ := make_dir (mo := Perms.all) hlk (Vol.special_false.mp hsp).2 hsince.room
        have hans : answer (.mkdir top.pathname Perms.all) e = (.ok (), e1) := by
          show e.make (if top.pathname = [] then .error .ENOENT else e.placeOf (e.start e.cwd top.pathname) (filenames top.pathname)) _ = _
          rw [if_neg ht0, hstart e hecwd, htf, hplaceE]
          exact hmk
        have hnext : d.node e.next = none := hsince.grows.fits.absent hmade.fresh
        have hd1 : e1.isDir e.next = true := isDir_iff.mpr ⟨_, _, _, _, hmade.node⟩
        have hs1 : d.Since e1 := by
          refine ⟨hsince.grows.trans hmade.grows, hroom, fun n w k hs hk => ?_⟩
          rcases hnew n w k hs hk with h | rfl
          · rcases hsince.new n w k hs h with h | ⟨h, h'⟩
            · exact .inl h
            · exact .inr ⟨h, hmade.fits.isDir h'⟩
          · exact .inr ⟨hnext, hd1⟩
        have hf1 : e1.find top.pathname = .ok e.next := by
          refine Vol.find_of_findLink (Vol.findLink_ok.mpr ⟨m, v, ?_, hmade.look⟩) (isDir_text hd1)
          rw [hplace e1 hs1.grows.fits.cwd]
          exact hmade.fits.placeOf hplaceE
        refine go true e1 e.next hs1 hf1 hd1 (.inr hnext) ?_
        have hmiss : e.attrs (e.find top.pathname) = .error .ENOENT := by
          rw [hfind e hecwd]
          obtain ⟨k', h6⟩ := Vol.follow_append e 40 _ us [v] m hfol
          rw [h6, Vol.follow_cons, hlk]
          rfl
        generalize hg : onVol (createMissing (top :: rest) b) e = r
        obtain ⟨o, e'⟩ := r
        rcases onVol_missing hg with ⟨st, h1, h2⟩ | ⟨er, h1, ⟨d1, h2, h3⟩ | ⟨h2, h3⟩ | ⟨-, -, h2⟩⟩
        · rw [hmiss] at h1; cases h1
        · rw [hans] at h2; cases h2; exact h3.symm
        · rw [hans] at h2; cases h2
        · rw [hmiss] at h1
          cases h1
          obtain ⟨x, h2⟩ := h2 rfl
          rw [hans] at h2; cases h2

theorem filenames_ne_nil {s : Str} (hf : filePart s ≠ []) : filenames s ≠ [] := by
  intro h
  rw [filenames_dir_file, if_neg hf] at h
  simp at h

/-- **C128**, when `create_directories` succeeds: if the path consists of names, each prefix is a directory or nothing (not even a symbolic link), and
there is room, then no error is reported and the path and its prefixes are directories. -/
theorem c128_succeeds {el : Bool} {n : Nat} {p : Path} (hp : Reach p) (hf : filePart p.pathname ≠ []) (hn : (filenames p.pathname).length < n)
    (hel : el = true → FewSlashes p.pathname) (c : Code) (d : Vol) (hprop : ∀ w ∈ filenames p.pathname, Proper w)
    (hroom : ∀ k, d.next ≤ k → d.node k = none) (hfree : ∀ q : Path, q.pathname ∈ prefixes p.pathname → DirOrNone d q) :
    ∃ b d', onVol (createDirectories el n p (.ref c)) d = (.ok (b, .ref none), d') ∧
      ∀ q : Path, q.pathname ∈ prefixes p.pathname → ∃ prms, onVol (status q (.ref none)) d' = (.ok (⟨.directory, prms⟩, .ref none), d') := by
  obtain ⟨l, h1, h2⟩ := createDirectories_eq hp.loose hf hn hel c
  have h0 : p.pathname ≠ [] := by intro h; rw [h] at hf; exact hf rfl
  have he : endsSlash p.pathname = false := by
    by_cases h : endsSlash p.pathname = true
    · exact absurd ((filePart_eq_nil_iff _).mpr (.inr h)) hf
    · simpa using h
  have hfl : ∀ x ∈ l, DirOrNone d x := fun x hx => hfree x (h1 ▸ List.mem_map_of_mem hx)
  obtain ⟨v, vs, hvs⟩ : ∃ v vs, filenames p.pathname = v :: vs := by
    cases h : filenames p.pathname with
    | cons v vs => exact ⟨v, vs, rfl⟩
    | nil => exact absurd h (filenames_ne_nil hf)
  -- the first prefix
  have htop : ∃ x ∈ l, x.pathname ≠ [] ∧ endsSlash x.pathname = false ∧ startsSlash x.pathname = startsSlash p.pathname ∧ filenames x.pathname = [v] := by
    have hv : Proper v := hprop v (by rw [hvs]; simp)
    have hnv : ∀ w ∈ [v], IsName w := fun w hw => filenames_mem (s := p.pathname) (by rw [hvs]; simp at hw; simp [hw])
    have h3 : ∃ y ∈ prefixes p.pathname, y = (if vs = [] then p.pathname else render (startsSlash p.pathname) [v] false) := by
      unfold prefixes
      rw [hvs]
      cases vs with
      | nil => exact ⟨_, by simp [chain, hv], rfl⟩
      | cons u vs =>
        refine ⟨_, ?_, rfl⟩
        rw [if_neg (by simp), render_foldl _ _ hnv]
        simp only [chain, if_pos hv, List.foldl_cons, List.foldl_nil, rootText]
        simp
    obtain ⟨y, hy, hye⟩ := h3
    rw [← h1] at hy
    obtain ⟨x, hx, rfl⟩ := List.mem_map.mp hy
    refine ⟨x, hx, ?_⟩
    rw [hye]
    split
    · rename_i hnil
      subst hnil
      exact ⟨h0, he, rfl, hvs⟩
    · refine ⟨?_, endsSlash_render hnv (by simp), startsSlash_render hnv (by simp), filenames_render hnv⟩
      intro h
      have := congrArg filenames h
      rw [filenames_render hnv, show filenames [] = [] by decide] at this
      cases this
  have hstart : d.isDir (if startsSlash p.pathname then 0 else d.cwd) = true := by
    obtain ⟨x, hx, hx0, hxe, hxs, hxf⟩ := htop
    have hs : d.start d.cwd x.pathname = if startsSlash p.pathname then 0 else d.cwd := by unfold Vol.start; rw [hxs]
    have hlook : (∃ k, d.look (if startsSlash p.pathname then 0 else d.cwd) v = .ok k) ∨
        d.look (if startsSlash p.pathname then 0 else d.cwd) v = .error .ENOENT := by
      rcases hfl x hx with ⟨prms, h3⟩ | h3
      · obtain ⟨m, h4, -⟩ := dir_seen h3
        rw [find_text hx0 hxe, hs, hxf, Vol.follow_cons] at h4
        cases h5 : d.look (if startsSlash p.pathname then 0 else d.cwd) v with
        | ok k => exact .inl ⟨k, rfl⟩
        | error e => rw [h5] at h4; cases h4
      · have h4 : d.findLink x.pathname = d.look (if startsSlash p.pathname then 0 else d.cwd) v := by
          unfold Vol.findLink
          rw [place_text hx0 hxe, hs, hxf, show d.placeOf (if startsSlash p.pathname then 0 else d.cwd) [v] =
            .ok (if startsSlash p.pathname then 0 else d.cwd, v) from Vol.placeOf_ok.mpr (.inr ⟨[], rfl, Vol.follow_nil ..⟩)]
        cases h5 : d.look (if startsSlash p.pathname then 0 else d.cwd) v with
        | ok k => exact .inl ⟨k, rfl⟩
        | error e =>
          rw [h5] at h4
          have h6 : d.attrs (d.findLink x.pathname) = .error e := by rw [h4]; rfl
          rw [onVol_lstatus_error h6] at h3
          simp at h3
          rw [h3.2]; exact .inr rfl
    rcases hlook with ⟨k, h3⟩ | h3
    · obtain ⟨up, es, mo, l', h4, -⟩ := Vol.look_ok.mp h3
      exact isDir_iff.mpr ⟨_, _, _, _, h4⟩
    · obtain ⟨up, es, mo, l', h4, -⟩ := Vol.look_missing h3
      exact isDir_iff.mpr ⟨_, _, _, _, h4⟩
  obtain ⟨b, d', h3, -, h4⟩ := createMissing_succeeds (d := d) (startsSlash p.pathname) p.pathname h0 he rfl (filenames p.pathname) [] l false d
    (if startsSlash p.pathname then 0 else d.cwd) rfl hprop (by rw [h1, ← rootText_render]; rfl) hfl
    ⟨.refl d, hroom, fun _ _ _ _ h => .inl h⟩ (Vol.follow_nil ..) hstart (.inl (Vol.follow_nil ..))
  have hall : ∀ q : Path, q.pathname ∈ prefixes p.pathname → ∃ prms, onVol (status q (.ref none)) d' = (.ok (⟨.directory, prms⟩, .ref none), d') := by
    intro q hq
    rw [← h1] at hq
    obtain ⟨x, hx, hxq⟩ := List.mem_map.mp hq
    obtain ⟨prms, h5⟩ := h4 x hx
    exact ⟨prms, status_seen.mpr (by rw [← hxq]; exact status_seen.mp h5)⟩
  refine ⟨b && true, d', ?_, hall⟩
  rw [h2, if_neg]
  · rw [onVol_bind h3]
    rfl
  · obtain ⟨x, hx, -⟩ := htop
    intro h
    rw [List.isEmpty_iff.mp h] at hx
    cases hx

/-! ## A file system: the working directory holds the file `f`, the directory `k` and the link `l` to the missing `m` -/

def treeVol : Vol := ⟨fun n => match n with
  | 0 => some ⟨.dir 0 [("f".toList, 1), ("k".toList, 2), ("l".toList, 3)], 0o755, 2⟩
  | 1 => some ⟨.file 3, 0o644, 1⟩
  | 2 => some ⟨.dir 0 [], 0o755, 2⟩
  | 3 => some ⟨.link "m".toList, 0o777, 1⟩
  | _ => none, 0, 4⟩

/-- What is not an argument of the theorems: (1) `a/../f` is reported as created although it is the file `f` (only `a` was made); (2) `l` as created although it is
a link that leads nowhere and nothing was made; (3) `f` without an error although it is a file. -/
theorem c128_violated :
    (∃ d', onVol (createDirectories false 9 (mkPath .posix "a/../f".toList) (.ref none)) treeVol = (.ok (true, .ref none), d') ∧
      onVol (status (mkPath .posix "a/../f".toList) (.ref none)) d' = (.ok (⟨.regular, 0o644⟩, .ref none), d')) ∧
    onVol (createDirectories false 9 (mkPath .posix "l".toList) (.ref none)) treeVol = (.ok (true, .ref none), treeVol) ∧
    onVol (status (mkPath .posix "l".toList) (.ref none)) treeVol = (.ok ({ type := .notFound }, .ref (some .ENOENT)), treeVol) ∧
    onVol (createDirectories false 9 (mkPath .posix "f".toList) (.ref none)) treeVol = (.ok (false, .ref none), treeVol) :=
  ⟨⟨_, rfl, rfl⟩, rfl, rfl, rfl⟩

/-- The hypotheses of `c128_succeeds` for `k/a/b`; two directories are made. -/
example : (∀ w ∈ filenames "k/a/b".toList, Proper w) ∧ (∀ k, treeVol.next ≤ k → treeVol.node k = none) ∧
    (∀ q : Path, q.pathname ∈ prefixes "k/a/b".toList → DirOrNone treeVol q) ∧
    ∃ d', onVol (createDirectories false 9 (mkPath .posix "k/a/b".toList) (.ref none)) treeVol = (.ok (true, .ref none), d') ∧ d'.next = 6 := by
  refine ⟨by decide, ?_, ?_, _, rfl, rfl⟩
  · intro k hk
    have hk : 4 ≤ k := hk
    match k, hk with
    | k + 4, _ => rfl
  · intro q hq
    rw [show prefixes "k/a/b".toList = ["k".toList, "k/a".toList, "k/a/b".toList] by decide] at hq
    simp only [List.mem_cons, List.not_mem_nil, or_false] at hq
    rcases hq with h | h | h
    · refine .inl ⟨0o755, ?_⟩
      rw [status_ref, h]; rfl
    · refine .inr ?_
      rw [onVol_lstatus_error (e := .ENOENT) (by rw [h]; rfl)]; rfl
    · refine .inr ?_
      rw [onVol_lstatus_error (e := .ENOENT) (by rw [h]; rfl)]; rfl

end Asap
