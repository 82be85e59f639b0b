import Verif.Props.KernelE
import Verif.Props.DirB
import Verif.Props.Kinds

/-!
# C131: listing a tree on a file system with links
-/

namespace Asap
namespace Spec

/-- `symlink_status` finds something. -/
def Vol.Found (d : Vol) (q : Path) : Prop := ∃ st, onVol (symlinkStatus q (.ref none)) d = (.ok (st, .ref none), d)

/-- `symlink_status` finds a directory. -/
def Vol.FoundDir (d : Vol) (q : Path) : Prop := ∃ perms, onVol (symlinkStatus q (.ref none)) d = (.ok (⟨.directory, perms⟩, .ref none), d)

/-- What is below `p`, and how many directories are between: `p / name` if it is there, and `q / name` for the directories `q` below
`p`. -/
inductive Vol.Below (d : Vol) (p : Path) : Nat → Path → Prop
  | child {w : Str} {q : Path} : IsPlain w → append .posix p (mkPath .posix w) = .ok q → d.Found q → Below d p 0 q
  | deeper {k : Nat} {w : Str} {q r : Path} : Below d p k q → d.FoundDir q → IsPlain w → append .posix q (mkPath .posix w) = .ok r →
      d.Found r → Below d p (k + 1) r

/-- In no directory a symbolic link comes before a directory. -/
def Vol.LinksLast (d : Vol) : Prop := ∀ n up es mo l, d.node n = some ⟨.dir up es, mo, l⟩ →
  es.Pairwise fun a b => ¬ (d.dtype a.2 = .lnk ∧ d.dtype b.2 = .dir)

namespace Vol

/-! ## Addresses -/

/-- From inode `n` along names to inode `m`, without following links. -/
def Leads (d : Vol) : Nat → List Str → Nat → Prop
  | n, [], m => m = n
  | n, w :: ws, m => ∃ up es mo l k, d.node n = some ⟨.dir up es, mo, l⟩ ∧ (w, k) ∈ es ∧ Leads d k ws m

theorem Leads.names {d : Vol} (hd : d.Tidy) {ws : List Str} : ∀ {n m : Nat}, d.Leads n ws m → ∀ w ∈ ws, IsPlain w := by
  induction ws with
  | nil => intro n m _ w hw; cases hw
  | cons v ws ih =>
    rintro n m ⟨up, es, mo, l, k, hn, hk, h⟩ w hw
    rcases List.mem_cons.mp hw with rfl | hw
    · obtain ⟨h1, h2, h3, -⟩ := (hd n _ hn).2 _ _ hk
      exact ⟨h1, h2, h3⟩
    · exact ih h w hw

theorem leads_snoc {d : Vol} {ws : List Str} {w : Str} {m : Nat} : ∀ {n : Nat}, d.Leads n (ws ++ [w]) m ↔
    ∃ j up es mo l, d.Leads n ws j ∧ d.node j = some ⟨.dir up es, mo, l⟩ ∧ (w, m) ∈ es := by
  induction ws with
  | nil =>
    intro n
    constructor
    · rintro ⟨up, es, mo, l, k, hn, hk, h⟩
      have h : m = k := h
      subst h
      exact ⟨n, up, es, mo, l, rfl, hn, hk⟩
    · rintro ⟨j, up, es, mo, l, h, hn, hk⟩
      have h : j = n := h
      subst h
      exact ⟨up, es, mo, l, m, hn, hk, rfl⟩
  | cons v ws ih =>
    intro n
    constructor
    · rintro ⟨up, es, mo, l, k, hn, hk, h⟩
      obtain ⟨j, up', es', mo', l', h1, h2, h3⟩ := ih.mp h
      exact ⟨j, up', es', mo', l', ⟨up, es, mo, l, k, hn, hk, h1⟩, h2, h3⟩
    · rintro ⟨j, up', es', mo', l', ⟨up, es, mo, l, k, hn, hk, h1⟩, h2, h3⟩
      exact ⟨up, es, mo, l, k, hn, hk, ih.mpr ⟨j, up', es', mo', l', h1, h2, h3⟩⟩

theorem lookup_of_nodup {es : List (Str × Nat)} (hn : (es.map Prod.fst).Nodup) {w : Str} {k : Nat} (h : (w, k) ∈ es) : es.lookup w = some k := by
  induction es with
  | nil => cases h
  | cons e es ih =>
    obtain ⟨a, b⟩ := e
    simp only [List.map_cons, List.nodup_cons] at hn
    rw [List.lookup_cons]
    rcases List.mem_cons.mp h with h | h'
    · cases h; simp
    · have : (w == a) = false := by
        rw [beq_eq_false_iff_ne]
        rintro rfl
        exact hn.1 (List.mem_map.mpr ⟨(w, k), h', rfl⟩)
      rw [this]
      exact ih hn.2 h'

theorem look_entry {d : Vol} (hd : d.Tidy) {n up : Nat} {es : List (Str × Nat)} {mo : Mode} {l : Nat} (hn : d.node n = some ⟨.dir up es, mo, l⟩)
    {w : Str} (hw : IsPlain w) {k : Nat} : d.look n w = .ok k ↔ (w, k) ∈ es := by
  have hw' : ¬ (w = [] ∨ w = dot) := by rintro (h | h); exact hw.1.1 h; exact hw.2.1 h
  constructor
  · intro h
    obtain ⟨up', es', mo', l', hn', h⟩ := look_ok.mp h
    rw [hn] at hn'
    cases hn'
    rcases h with ⟨h, -⟩ | ⟨-, -, h⟩
    · exact absurd h hw'
    · rw [if_neg hw.2.2] at h
      exact lookup_some_mem h
  · intro h
    obtain ⟨h1, h2⟩ := hd n _ hn
    exact look_ok.mpr ⟨up, es, mo, l, hn, .inr ⟨hw', (h2 _ _ h).2.2.2, by rw [if_neg hw.2.2]; exact lookup_of_nodup h1 h⟩⟩

theorem foldl_snoc_text {p : Str} {ws : List Str} {w : Str} (hw : IsName w) : (ws ++ [w]).foldl addElem p = appendText (ws.foldl addElem p) w := by
  rw [List.foldl_append, List.foldl_cons, List.foldl_nil, addElem_appendText (startsSlash_name hw.2)]

theorem snoc_ind {α : Type} {motive : List α → Prop} (nil : motive []) (snoc : ∀ ws w, motive ws → motive (ws ++ [w])) (ws : List α) : motive ws := by
  rw [← ws.reverse_reverse]
  induction ws.reverse with
  | nil => exact nil
  | cons w ws ih => rw [List.reverse_cons]; exact snoc _ _ ih

/-- Addresses lead where the paths lead. -/
theorem Leads.find {d : Vol} (hd : d.Tidy) {p : Str} {n : Nat} (hp : d.find p = .ok n) {ws : List Str} {m : Nat} (h : d.Leads n ws m) :
    (ws ≠ [] → d.findLink (ws.foldl addElem p) = .ok m) ∧ (d.dtype m = .dir → d.find (ws.foldl addElem p) = .ok m) := by
  induction ws using snoc_ind generalizing m with
  | nil =>
    have h : m = n := h
    subst h
    exact ⟨fun h => absurd rfl h, fun _ => hp⟩
  | snoc ws w ih =>
    have hw : IsPlain w := h.names hd w (by simp)
    obtain ⟨j, up, es, mo, l, h1, h2, h3⟩ := leads_snoc.mp h
    have h4 : d.dtype j = .dir := by unfold dtype; rw [h2]
    have h5 := (ih h1).2 h4
    have h6 : d.findLink ((ws ++ [w]).foldl addElem p) = .ok m := by
      rw [foldl_snoc_text hw.1, findLink_entry h5 hw.1]
      exact (look_entry hd h2 hw).mpr h3
    refine ⟨fun _ => h6, fun h7 => find_of_findLink h6 ?_⟩
    unfold dtype at h7
    unfold text
    split at h7 <;> simp_all

end Vol
end Spec
open Spec

theorem found_iff {d : Vol} {q : Path} : d.Found q ↔ ∃ m, d.findLink q.pathname = .ok m := by
  constructor
  · rintro ⟨st, h⟩
    obtain ⟨s, h3, -⟩ := symlinkStatus_seen.mp h
    obtain ⟨k, -, h4, -⟩ := attrs_seen h3
    exact ⟨k, h4⟩
  · rintro ⟨k, hk⟩
    obtain ⟨n, w, -, h⟩ := Vol.findLink_ok.mp hk
    obtain ⟨i, hi⟩ := Option.isSome_iff_exists.mp (Vol.look_isSome h)
    exact ⟨_, eval_lstat_at hk hi⟩

theorem foundDir_iff {d : Vol} {q : Path} : d.FoundDir q ↔ ∃ m, d.findLink q.pathname = .ok m ∧ d.dtype m = .dir := by
  constructor
  · rintro ⟨st, h⟩
    obtain ⟨s, h3, h5⟩ := symlinkStatus_seen.mp h
    obtain ⟨k, ⟨b, mo, l⟩, h4, h6, rfl⟩ := attrs_seen h3
    refine ⟨k, h4, ?_⟩
    rw [statusOf_attr] at h5
    unfold Vol.dtype
    rw [h6]
    cases b <;> first | rfl | cases h5
  · rintro ⟨k, hk, h⟩
    unfold Vol.dtype at h
    split at h
    · cases h
    · rename_i up es mo l hn
      exact ⟨_, eval_lstat_at hk hn⟩
    · cases h
    · cases h

theorem dtype_dir {d : Vol} {k : Nat} (h : d.dtype k = .dir) : ∃ up es mo l, d.node k = some ⟨.dir up es, mo, l⟩ := by
  unfold Vol.dtype at h
  split at h
  · cases h
  · rename_i up es mo l hn; exact ⟨_, _, _, _, hn⟩
  · cases h
  · cases h

theorem under_pathname {p : Str} {ws : List Str} {w : Str} (hw : IsName w) :
    (mkPath .posix ((ws ++ [w]).foldl addElem p)).pathname = (ws ++ [w]).foldl addElem p := by
  rw [Vol.foldl_snoc_text hw]
  exact appendText_pathname hw

/-- What is below in terms of inodes. -/
theorem below_iff {d : Vol} (hd : d.Tidy) {p : Path} (hp : Shape p) {n : Nat} (hf : d.find p.pathname = .ok n) (hn : d.dtype n = .dir)
    {k : Nat} {q : Path} : d.Below p k q ↔ ∃ ws m, ws.length = k + 1 ∧ d.Leads n ws m ∧ q = mkPath .posix (ws.foldl addElem p.pathname) := by
  constructor
  · intro h
    induction h with
    | @child w q hw hq hF =>
      rw [append_name hp, entryPath_eq hw.1] at hq
      cases hq
      obtain ⟨m, hm⟩ := found_iff.mp hF
      rw [appendText_pathname hw.1, Vol.findLink_entry hf hw.1] at hm
      obtain ⟨up, es, mo, l, hn'⟩ := dtype_dir hn
      refine ⟨[w], m, rfl, ⟨up, es, mo, l, m, hn', (Vol.look_entry hd hn' hw).mp hm, rfl⟩, ?_⟩
      rw [List.foldl_cons, List.foldl_nil, addElem_appendText (startsSlash_name hw.1.2)]
    | @deeper k w q r _ hD hw hq hF ih =>
      obtain ⟨ws, m, h1, h2, rfl⟩ := ih
      rw [append_name (mkPath_shape _), entryPath_eq hw.1] at hq
      cases hq
      have hlast : ∃ a v, ws = a ++ [v] := by
        rcases List.eq_nil_or_concat ws with rfl | ⟨a, v, rfl⟩
        · simp at h1
        · exact ⟨a, v, by simp⟩
      obtain ⟨a, v, rfl⟩ := hlast
      have hv : IsPlain v := h2.names hd v (by simp)
      have hpn := under_pathname (p := p.pathname) (ws := a) hv.1
      obtain ⟨m', h3, h4⟩ := foundDir_iff.mp hD
      rw [hpn] at h3
      obtain ⟨h5, h6⟩ := h2.find hd hf
      rw [h5 (by simp)] at h3
      cases h3
      obtain ⟨m', h7⟩ := found_iff.mp hF
      rw [appendText_pathname hw.1, hpn, Vol.findLink_entry (h6 h4) hw.1] at h7
      obtain ⟨up, es, mo, l, hn'⟩ := dtype_dir h4
      refine ⟨(a ++ [v]) ++ [w], m', by simp at h1 ⊢; omega, Vol.leads_snoc.mpr ⟨m, up, es, mo, l, h2, hn', (Vol.look_entry hd hn' hw).mp h7⟩, ?_⟩
      rw [Vol.foldl_snoc_text hw.1, hpn]
  · rintro ⟨ws, m, h1, h2, rfl⟩
    induction k generalizing ws m with
    | zero =>
      obtain ⟨w, rfl⟩ : ∃ w, ws = [w] := by
        rcases ws with _ | ⟨w, _ | ⟨v, ws⟩⟩
        · simp at h1
        · exact ⟨w, rfl⟩
        · simp at h1
      have hw : IsPlain w := h2.names hd w (by simp)
      refine .child hw (by rw [append_name hp, entryPath_eq hw.1, List.foldl_cons, List.foldl_nil, addElem_appendText (startsSlash_name hw.1.2)]) ?_
      refine found_iff.mpr ⟨m, ?_⟩
      have := under_pathname (p := p.pathname) (ws := []) hw.1
      rw [List.nil_append] at this
      rw [this]
      exact (h2.find hd hf).1 (by simp)
    | succ k ih =>
      have hlast : ∃ a v w, ws = (a ++ [v]) ++ [w] := by
        rcases List.eq_nil_or_concat ws with rfl | ⟨a, w, rfl⟩
        · simp at h1
        · rcases List.eq_nil_or_concat a with rfl | ⟨a, v, rfl⟩
          · simp at h1
          · exact ⟨a, v, w, by simp⟩
      obtain ⟨a, v, w, rfl⟩ := hlast
      have hw : IsPlain w := h2.names hd w (by simp)
      have hv : IsPlain v := h2.names hd v (by simp)
      have hpn := under_pathname (p := p.pathname) (ws := a) hv.1
      obtain ⟨j, up, es, mo, l, h3, h4, h5⟩ := Vol.leads_snoc.mp h2
      refine .deeper (ih (a ++ [v]) j (by simp at h1 ⊢; omega) h3) ?_ hw ?_ ?_
      · refine foundDir_iff.mpr ⟨j, ?_, by unfold Vol.dtype; rw [h4]⟩
        rw [hpn]
        exact (h3.find hd hf).1 (by simp)
      · rw [append_name (mkPath_shape _), entryPath_eq hw.1, hpn, Vol.foldl_snoc_text hw.1]
      · refine found_iff.mpr ⟨m, ?_⟩
        rw [under_pathname hw.1]
        exact (h2.find hd hf).1 (by simp)

/-! ## The tree as it is read -/

/-- A listing with the directories below. -/
def ofEnts (d : Vol) (sub : Nat → Dir) : List (Str × Nat) → Dir
  | [] => .done none
  | (w, k) :: es => .entry ⟨w, d.dtype k⟩ (sub k) (ofEnts d sub es)

/-- The directory at an inode, down to depth `h`. -/
def dirOf (d : Vol) : Nat → Nat → Dir
  | 0, _ => .denied .ELOOP
  | h + 1, n => match d.node n with
    | some ⟨.dir _ es, _, _⟩ => .entry ⟨dot, .dir⟩ (.done none) (.entry ⟨dotdot, .dir⟩ (.done none) (ofEnts d (dirOf d h) es))
    | some _ => .denied .ENOTDIR
    | none => .denied .ENOENT

/-- The entries of a listing. -/
def flat : Dir → List Dirent
  | .denied _ | .done _ => []
  | .entry e _ rest => e :: flat rest

/-- The listing ends without an error. -/
def EndsWell : Dir → Prop
  | .denied _ => False
  | .done l => l = none
  | .entry _ _ rest => EndsWell rest

theorem flat_ofEnts (d : Vol) (sub : Nat → Dir) (es : List (Str × Nat)) : flat (ofEnts d sub es) = es.map fun e => ⟨e.1, d.dtype e.2⟩ := by
  induction es with
  | nil => rfl
  | cons e es ih => obtain ⟨w, k⟩ := e; simp only [ofEnts, flat, ih, List.map_cons]

theorem endsWell_ofEnts (d : Vol) (sub : Nat → Dir) (es : List (Str × Nat)) : EndsWell (ofEnts d sub es) := by
  induction es with
  | nil => rfl
  | cons e es ih => exact ih

/-- What `opendir` shows of the tree. -/
def viewOf (d : Vol) (H : Nat) (x : Str) : Dir :=
  match d.find x with
  | .ok n => dirOf d (H + 1) n
  | .error e => .denied e

theorem view_listing (d : Vol) (H : Nat) (x : Str) : match d.listing x with
    | .error e => viewOf d H x = .denied e
    | .ok l => EndsWell (viewOf d H x) ∧ flat (viewOf d H x) = l := by
  unfold Vol.listing viewOf
  cases d.find x with
  | error e => rfl
  | ok n =>
    dsimp only
    unfold dirOf
    cases d.node n with
    | none => rfl
    | some i =>
      obtain ⟨b, mo, l⟩ := i
      cases b with
      | file s => rfl
      | link t => rfl
      | dir up es => exact ⟨endsWell_ofEnts _ _ _, by simp only [flat, flat_ofEnts]⟩

/-! ## The file system answers as the tree says -/

/-- What the open streams will show. -/
def rests (σ : Table) : List (Nat × List Dirent) := σ.map fun x => (x.1, flat x.2)

/-- Open streams show the rest of the listings. -/
def Tracks (d : Vol) (u : Os Vol) (σ : Table) : Prop :=
  u.disk = d ∧ u.table = rests σ ∧ ∀ x ∈ σ, EndsWell x.2

theorem find_rests (σ : Table) (q : Nat) : (rests σ).find? (·.1 = q) = (σ.find? (·.1 = q)).map fun x => (x.1, flat x.2) := by
  induction σ with
  | nil => rfl
  | cons x σ ih =>
    unfold rests at ih ⊢
    simp only [List.map_cons, List.find?_cons]
    cases decide (x.1 = q) with
    | true => rfl
    | false => exact ih

theorem tracks_step {d : Vol} {H : Nat} (u : Os Vol) (σ : Table) (c : Sys) (hc : c.mutates = false) (h : Tracks d u σ) :
    ∃ σ', Reads (viewOf d H) σ ⟨c, (answerDir c u).1⟩ σ' ∧ Tracks d (answerDir c u).2 σ' := by
  obtain ⟨d', T⟩ := u
  obtain ⟨h1, h2, h3⟩ := h
  simp only at h1 h2
  subst h1 h2
  cases c
  case opendir q =>
    have hv := view_listing d' H q
    show ∃ σ', Reads (viewOf d' H) σ ⟨.opendir q, (match d'.listing q with
        | .error e => ((.error e : Except Errno Nat), (⟨d', rests σ⟩ : Os Vol))
        | .ok l => (.ok (fresh (rests σ)), ⟨d', (fresh (rests σ), l) :: rests σ⟩)).1⟩ σ' ∧
      Tracks d' (match d'.listing q with
        | .error e => ((.error e : Except Errno Nat), (⟨d', rests σ⟩ : Os Vol))
        | .ok l => (.ok (fresh (rests σ)), ⟨d', (fresh (rests σ), l) :: rests σ⟩)).2 σ'
    cases hl : d'.listing q with
    | error e =>
      rw [hl] at hv
      exact ⟨σ, ⟨hv, rfl⟩, rfl, rfl, h3⟩
    | ok l =>
      rw [hl] at hv
      obtain ⟨hv1, hv2⟩ := hv
      refine ⟨(fresh (rests σ), viewOf d' H q) :: σ, ⟨fun e he => by rw [he] at hv1; exact hv1, ?_, rfl⟩, rfl, ?_, ?_⟩
      · have := fresh_notin (rests σ)
        unfold rests at this ⊢
        rwa [List.map_map] at this
      · simp only [rests, List.map_cons, hv2]
      · intro x hx
        rcases List.mem_cons.mp hx with rfl | hx
        · exact hv1
        · exact h3 x hx
  case readdir q =>
    show ∃ σ', Reads (viewOf d' H) σ ⟨.readdir q, (readNext q ⟨d', rests σ⟩).1⟩ σ' ∧
      Tracks d' (readNext q ⟨d', rests σ⟩).2 σ'
    unfold readNext
    simp only [Reads, find_rests]
    cases hl : σ.find? (·.1 = q) with
    | none => exact ⟨σ, trivial, rfl, rfl, h3⟩
    | some x =>
      obtain ⟨k, L⟩ := x
      have hL := h3 _ (List.mem_of_find?_eq_some hl)
      cases L with
      | denied e => exact absurd hL id
      | done l =>
        have hL : l = none := hL
        subst hL
        exact ⟨σ, ⟨rfl, rfl⟩, rfl, rfl, h3⟩
      | entry e sub rest =>
        refine ⟨_, ⟨rfl, rfl⟩, rfl, ?_, ?_⟩
        · show (rests σ).map _ = rests _
          unfold rests
          rw [List.map_map, List.map_map]
          apply List.map_congr_left
          intro x _
          simp only [Function.comp]
          split <;> rfl
        · intro x hx
          obtain ⟨y, hy, rfl⟩ := List.mem_map.mp hx
          split
          · exact hL
          · exact h3 y hy
  case closedir q =>
    refine ⟨σ.filter (·.1 ≠ q), fun _ => rfl, rfl, ?_, fun x hx => h3 x (List.mem_filter.mp hx).1⟩
    show (rests σ).filter (·.1 ≠ q) = rests _
    unfold rests
    rw [List.filter_map]
    rfl
  all_goals first
    | (exact ⟨σ, trivial, answer_reads hc d', rfl, h3⟩)
    | (simp [Sys.mutates] at hc; done)

/-- A program that changes nothing, on a system whose every such answer the laws allow. -/
theorem eval_steps_of {α σ : Type} {m : Machine} {step : σ → Event → σ → Prop} {R : m.State → σ → Prop} {S : Sys → Prop} {Q : α → Prop}
    (hR : ∀ u s (c : Sys), S c → R u s → ∃ s', step s ⟨c, (m.step c u).1⟩ s' ∧ R (m.step c u).2 s')
    {p : Prog α} (hp : Only S Q p) {u : m.State} {s : σ} (h : R u s) :
    ∃ t s', Exec p t (p.eval m u).1 ∧ Steps step s t s' ∧ R (p.eval m u).2 s' := by
  induction hp generalizing u s with
  | ret a => exact ⟨[], s, .ret a, .nil s, h⟩
  | stop x => exact ⟨[], s, .stop x, .nil s, h⟩
  | call c k hc _ ih =>
    obtain ⟨s1, h1, h2⟩ := hR u s c hc h
    obtain ⟨t, s', h3, h4, h5⟩ := ih _ h2
    exact ⟨_, s', .call c k _ t _ h3, .cons h1 h4, h5⟩

theorem calls_look {S : Sys → Prop} (it : RecIter) : Calls S (Spec.look it) := by
  unfold Spec.look RecIter.deref RecIter.depth
  calls

theorem calls_drive {S : Sys → Prop} (hS : Eyes S) (n : Nat) (acts : List Act) : ∀ it, Calls S (drive n acts it) := by
  induction acts with
  | nil => intro it; exact .ret _
  | cons a acts ih =>
    intro it
    unfold drive
    split
    · exact .ret _
    · cases a with
      | disable => exact ih _
      | incr => exact (calls_recIncr hS).bind fun _ => (calls_look _).bind fun _ => (ih _).bind fun _ => .ret _
      | pop => exact (calls_recPop hS).bind fun _ => (calls_look _).bind fun _ => (ih _).bind fun _ => .ret _

theorem calls_session {S : Sys → Prop} (hS : Eyes S) (n : Nat) (p : Path) (opts : DirOptions) (acts : List Act) : Calls S (session n p opts acts) :=
  (calls_recNew hS).bind fun _ => (calls_look _).bind fun _ => (calls_drive hS n acts _).bind fun _ => .ret _

/-! ## The listing of the tree -/

/-- Addresses below a list of entries. With `stop` no directory after a link is entered; `linked` says that there was one. -/
def addrsIn (d : Vol) (stop : Bool) (sub : Nat → List (List Str)) : Bool → List (Str × Nat) → List (List Str)
  | _, [] => []
  | linked, (w, k) :: es => [w] :: ((if linked = false ∧ d.dtype k = .dir then (sub k).map (w :: ·) else []) ++
      addrsIn d stop sub (linked || stop && d.dtype k == .lnk) es)

/-- Addresses below a directory, down to depth `h`. -/
def addrs (d : Vol) (stop : Bool) : Nat → Nat → List (List Str)
  | 0, _ => []
  | h + 1, n => match d.node n with
    | some ⟨.dir _ es, _, _⟩ => addrsIn d stop (addrs d stop h) false es
    | _ => []

theorem addrsIn_sublist (d : Vol) {sub sub' : Nat → List (List Str)} (hs : ∀ k, (sub k).Sublist (sub' k)) (es : List (Str × Nat)) :
    ∀ linked, (addrsIn d true sub linked es).Sublist (addrsIn d false sub' false es) := by
  induction es with
  | nil => intro linked; exact .slnil
  | cons e es ih =>
    intro linked
    obtain ⟨w, k⟩ := e
    unfold addrsIn
    refine List.Sublist.cons_cons _ (List.Sublist.append ?_ (ih _))
    by_cases hk : d.dtype k = .dir
    · cases linked with
      | false => simp only [hk, and_self, if_true]; exact (hs k).map _
      | true => simp
    · simp [hk]

theorem addrs_sublist (d : Vol) (h : Nat) : ∀ n, (addrs d true h n).Sublist (addrs d false h n) := by
  induction h with
  | zero => intro n; exact .slnil
  | succ h ih =>
    intro n
    unfold addrs
    split
    · exact addrsIn_sublist d ih _ _
    · exact .slnil

theorem addrsIn_linked (d : Vol) {sub : Nat → List (List Str)} {es : List (Str × Nat)} (h : ∀ e ∈ es, d.dtype e.2 ≠ .dir) (stop stop' linked linked' : Bool) :
    addrsIn d stop sub linked es = addrsIn d stop' sub linked' es := by
  induction es generalizing linked linked' with
  | nil => rfl
  | cons e es ih =>
    obtain ⟨w, k⟩ := e
    unfold addrsIn
    have hk : d.dtype k ≠ .dir := h (w, k) (by simp)
    rw [if_neg (fun h => hk h.2), if_neg (fun h => hk h.2), ih (fun e he => h e (by simp [he]))]

theorem addrsIn_last (d : Vol) {sub sub' : Nat → List (List Str)} (hs : ∀ k, sub k = sub' k) {es : List (Str × Nat)}
    (h : es.Pairwise fun a b => ¬ (d.dtype a.2 = .lnk ∧ d.dtype b.2 = .dir)) : addrsIn d true sub false es = addrsIn d false sub' false es := by
  have : sub = sub' := funext hs
  subst this
  induction es with
  | nil => rfl
  | cons e es ih =>
    obtain ⟨w, k⟩ := e
    obtain ⟨h1, h2⟩ := List.pairwise_cons.mp h
    unfold addrsIn
    by_cases hk : d.dtype k = .lnk
    · rw [addrsIn_linked d (fun e he hd => h1 e he ⟨hk, hd⟩) true false _ false]
      simp
    · have : (d.dtype k == .lnk) = false := by simpa using hk
      simp only [this, Bool.and_false, Bool.or_false, ih h2]

theorem addrs_last {d : Vol} (hl : d.LinksLast) (h : Nat) : ∀ n, addrs d true h n = addrs d false h n := by
  induction h with
  | zero => intro n; rfl
  | succ h ih =>
    intro n
    unfold addrs
    cases hn : d.node n with
    | none => rfl
    | some i =>
      obtain ⟨b, mo, l⟩ := i
      cases b with
      | file s => rfl
      | link t => rfl
      | dir up es => exact addrsIn_last d ih (hl n _ _ _ _ hn)

theorem mem_addrsIn (d : Vol) {sub : Nat → List (List Str)} {es : List (Str × Nat)} {ws : List Str} : ws ∈ addrsIn d false sub false es ↔
    ∃ w k us, (w, k) ∈ es ∧ ws = w :: us ∧ (us = [] ∨ d.dtype k = .dir ∧ us ∈ sub k) := by
  induction es with
  | nil => simp [addrsIn]
  | cons e es ih =>
    obtain ⟨v, j⟩ := e
    unfold addrsIn
    simp only [Bool.false_and, Bool.or_false, List.mem_cons, List.mem_append, ih]
    constructor
    · rintro (rfl | h | ⟨w, k, us, h1, h2, h3⟩)
      · exact ⟨v, j, [], .inl rfl, rfl, .inl rfl⟩
      · split at h
        · rename_i hd
          obtain ⟨us, h1, rfl⟩ := List.mem_map.mp h
          exact ⟨v, j, us, .inl rfl, rfl, .inr ⟨hd.2, h1⟩⟩
        · cases h
      · exact ⟨w, k, us, .inr h1, h2, h3⟩
    · rintro ⟨w, k, us, h1 | h1, rfl, h3⟩
      · cases h1
        rcases h3 with rfl | ⟨h3, h4⟩
        · exact .inl rfl
        · refine .inr (.inl ?_)
          rw [if_pos ⟨trivial, h3⟩]
          exact List.mem_map.mpr ⟨us, h4, rfl⟩
      · exact .inr (.inr ⟨w, k, us, h1, rfl, h3⟩)

theorem mem_addrs (d : Vol) (h : Nat) : ∀ n ws, ws ∈ addrs d false h n ↔ ws ≠ [] ∧ ws.length ≤ h ∧ ∃ m, d.Leads n ws m := by
  induction h with
  | zero =>
    intro n ws
    constructor
    · intro h; cases h
    · rintro ⟨h1, h2, -⟩
      exact absurd (List.length_eq_zero_iff.mp (by omega)) h1
  | succ h ih =>
    intro n ws
    unfold addrs
    cases hn : d.node n with
    | none =>
      refine ⟨fun h => by simp at h, ?_⟩
      rintro ⟨h1, -, m, h3⟩
      cases ws with
      | nil => exact absurd rfl h1
      | cons w ws => obtain ⟨up, es, mo, l, k, hn', -⟩ := h3; rw [hn] at hn'; cases hn'
    | some i =>
      obtain ⟨b, mo, l⟩ := i
      have hno : (∀ up es, b ≠ .dir up es) → ¬ (ws ≠ [] ∧ ws.length ≤ h + 1 ∧ ∃ m, d.Leads n ws m) := by
        rintro hb ⟨h1, -, m, h3⟩
        cases ws with
        | nil => exact h1 rfl
        | cons w ws => obtain ⟨up, es, mo, l, k, hn', -⟩ := h3; rw [hn] at hn'; cases hn'; exact hb _ _ rfl
      cases b with
      | file s => exact ⟨fun h => by simp at h, fun h => absurd h (hno (by simp))⟩
      | link t => exact ⟨fun h => by simp at h, fun h => absurd h (hno (by simp))⟩
      | dir up es =>
        dsimp only
        rw [mem_addrsIn]
        constructor
        · rintro ⟨w, k, us, h1, rfl, h2⟩
          refine ⟨by simp, ?_⟩
          rcases h2 with rfl | ⟨h2, h3⟩
          · exact ⟨by simp, k, up, es, mo, l, k, hn, h1, rfl⟩
          · obtain ⟨-, h4, m, h5⟩ := (ih k us).mp h3
            exact ⟨by simp only [List.length_cons]; omega, m, up, es, mo, l, k, hn, h1, h5⟩
        · rintro ⟨h1, h2, m, h3⟩
          cases ws with
          | nil => exact absurd rfl h1
          | cons w us =>
            obtain ⟨up', es', mo', l', k, hn', h4, h5⟩ := h3
            rw [hn] at hn'
            cases hn'
            refine ⟨w, k, us, h4, rfl, ?_⟩
            by_cases hus : us = []
            · exact .inl hus
            · refine .inr ⟨?_, (ih k us).mpr ⟨hus, by simp only [List.length_cons] at h2; omega, m, h5⟩⟩
              cases us with
              | nil => exact absurd rfl hus
              | cons u us =>
                obtain ⟨up, es, mo, l, -, hk, -⟩ := h5
                unfold Vol.dtype; rw [hk]

theorem addrsIn_nodup (d : Vol) {sub : Nat → List (List Str)} (hs : ∀ k, (sub k).Nodup ∧ [] ∉ sub k) {es : List (Str × Nat)}
    (hn : (es.map Prod.fst).Nodup) : (addrsIn d false sub false es).Nodup := by
  induction es with
  | nil => exact List.nodup_nil
  | cons e es ih =>
    obtain ⟨w, k⟩ := e
    simp only [List.map_cons, List.nodup_cons] at hn
    unfold addrsIn
    simp only [Bool.false_and, Bool.or_false]
    have hrest : ∀ us, (w :: us) ∉ addrsIn d false sub false es := by
      intro us h
      obtain ⟨v, j, us', h1, h2, -⟩ := (mem_addrsIn d).mp h
      simp only [List.cons.injEq] at h2
      exact hn.1 (List.mem_map.mpr ⟨(v, j), h1, h2.1.symm⟩)
    rw [List.nodup_cons]
    refine ⟨?_, List.nodup_append.mpr ⟨?_, ih hn.2, ?_⟩⟩
    · simp only [List.mem_append, not_or]
      refine ⟨?_, hrest []⟩
      split
      · simp only [List.mem_map, List.cons.injEq, true_and, exists_eq_right]
        exact (hs k).2
      · simp
    · split
      · exact List.pairwise_map.mpr ((hs k).1.imp fun hne h => hne (by simpa using h))
      · exact List.nodup_nil
    · intro a ha b hb hab
      subst hab
      split at ha
      · obtain ⟨us, -, rfl⟩ := List.mem_map.mp ha
        exact hrest us hb
      · cases ha

theorem addrs_nodup {d : Vol} (hd : d.Tidy) (h : Nat) : ∀ n, (addrs d false h n).Nodup := by
  induction h with
  | zero => intro n; exact List.nodup_nil
  | succ h ih =>
    intro n
    unfold addrs
    cases hn : d.node n with
    | none => exact List.nodup_nil
    | some i =>
      obtain ⟨b, mo, l⟩ := i
      cases b with
      | file s => exact List.nodup_nil
      | link t => exact List.nodup_nil
      | dir up es =>
        exact addrsIn_nodup d (fun k => ⟨ih k, fun h' => ((mem_addrs d h k []).mp h').1 rfl⟩) (hd n _ hn).1

/-- The item for an address. -/
def itemAt (k : Nat) (root : Str) (ws : List Str) : Item := ⟨k + ws.length - 1, .ok (ws.foldl addElem root)⟩

theorem itemAt_cons (k : Nat) (root w : Str) (us : List Str) : itemAt (k + 1) (addElem root w) us = itemAt k root (w :: us) := by
  unfold itemAt
  rw [List.foldl_cons, List.length_cons]
  congr 1
  omega

theorem plain_not_dot {w : Str} {t : DType} (h : IsPlain w) : ¬ (⟨w, t⟩ : Dirent).dot := by
  simp only [Dirent.dot]
  rintro (h' | h')
  · exact h.2.1 h'
  · exact h.2.2 h'

theorem walked_in {d : Vol} {sk : Bool} {sub : Nat → Dir} {sub' : Nat → List (List Str)} (k : Nat) (root : Str) {es : List (Str × Nat)}
    (hes : ∀ w j, (w, j) ∈ es → IsPlain w ∧ (d.node j).isSome = true)
    (hs : ∀ w j, (w, j) ∈ es → d.dtype j = .dir → asWalked sk false (k + 1) (addElem root w) (sub j) = (sub' j).map (itemAt (k + 1) (addElem root w))) :
    ∀ linked, asWalked sk linked k root (ofEnts d sub es) = (addrsIn d true sub' linked es).map (itemAt k root) := by
  induction es with
  | nil => intro linked; rfl
  | cons e es ih =>
    intro linked
    obtain ⟨w, j⟩ := e
    obtain ⟨hw, hj⟩ := hes w j (by simp)
    have ih := ih (fun w j h => hes w j (by simp [h])) (fun w j h => hs w j (by simp [h]))
    have hu : d.dtype j ≠ .unknown := by
      unfold Vol.dtype
      obtain ⟨⟨b, mo, l⟩, hi⟩ := Option.isSome_iff_exists.mp hj
      rw [hi]
      cases b <;> simp
    unfold ofEnts addrsIn
    simp only [asWalked]
    rw [if_neg (plain_not_dot hw), List.map_cons, List.map_append, ih]
    have hhead : itemAt k root [w] = ⟨k, .ok (addElem root w)⟩ := rfl
    rw [hhead]
    congr 1
    congr 1
    · cases linked with
      | true => simp
      | false =>
        by_cases hl : d.dtype j = .lnk
        · simp [hl]
        · by_cases hk : d.dtype j = .dir
          · simp only [hk, Bool.false_eq_true, false_or, and_self, if_true, reduceCtorEq, if_false]
            rw [hs w j (by simp) hk, List.map_map]
            apply List.map_congr_left
            intro us _
            exact itemAt_cons k root w us
          · simp [hl, hk, hu]

theorem walked_at {d : Vol} (hd : d.Tidy) {sk : Bool} (h : Nat) : ∀ (n k : Nat) (root : Str), d.dtype n = .dir →
    (∀ ws m, d.Leads n ws m → ws.length < h) → asWalked sk false k root (dirOf d h n) = (addrs d true h n).map (itemAt k root) := by
  induction h with
  | zero => intro n k root _ hlt; exact absurd (hlt [] n rfl) (by simp)
  | succ h ih =>
    intro n k root hn hlt
    obtain ⟨up, es, mo, l, hn'⟩ := dtype_dir hn
    unfold dirOf addrs
    simp only [hn', asWalked]
    rw [if_pos (by simp [Dirent.dot]), if_pos (by simp [Dirent.dot])]
    refine walked_in k root (fun w j hj => ?_) (fun w j hj hdir => ih j _ _ hdir fun ws m hl => ?_) false
    · obtain ⟨h1, h2, h3, h4⟩ := (hd n _ hn').2 w j hj
      exact ⟨⟨h1, h2, h3⟩, h4⟩
    · have := hlt (w :: ws) m ⟨up, es, mo, l, j, hn', hj, hl⟩
      simp only [List.length_cons] at this
      omega

/-! ## The tree is shown -/

theorem ofEnts_congr (d : Vol) {sub sub' : Nat → Dir} {es : List (Str × Nat)} (h : ∀ w k, (w, k) ∈ es → sub k = sub' k) : ofEnts d sub es = ofEnts d sub' es := by
  induction es with
  | nil => rfl
  | cons e es ih =>
    obtain ⟨w, k⟩ := e
    unfold ofEnts
    rw [h w k (by simp), ih fun w k hk => h w k (by simp [hk])]

theorem dirOf_stable (d : Vol) (h : Nat) : ∀ (H n : Nat), (∀ ws m, d.Leads n ws m → ws.length < h) → h ≤ H → dirOf d H n = dirOf d h n := by
  induction h with
  | zero => intro H n hlt _; exact absurd (hlt [] n rfl) (by simp)
  | succ h ih =>
    intro H n hlt hH
    obtain ⟨H, rfl⟩ : ∃ j, H = j + 1 := ⟨H - 1, by omega⟩
    unfold dirOf
    cases hn : d.node n with
    | none => rfl
    | some i =>
      obtain ⟨b, mo, l⟩ := i
      cases b with
      | file s => rfl
      | link t => rfl
      | dir up es =>
        dsimp only
        rw [ofEnts_congr d fun w k hk => ih H k (fun ws m hl => ?_) (by omega)]
        have := hlt (w :: ws) m ⟨up, es, mo, l, k, hn, hk, hl⟩
        simp only [List.length_cons] at this
        omega

theorem shows_in {d : Vol} {view : Str → Dir} {root : Str} {sub : Nat → Dir} {es : List (Str × Nat)}
    (h : ∀ w k, (w, k) ∈ es → d.dtype k = .dir → view (addElem root w) = sub k ∧ Shows view (addElem root w) (sub k)) :
    Shows view root (ofEnts d sub es) := by
  induction es with
  | nil => trivial
  | cons e es ih =>
    obtain ⟨w, k⟩ := e
    exact ⟨ih fun w k hk => h w k (by simp [hk]), fun _ hk => h w k (by simp) hk⟩

theorem shows_at {d : Vol} (hd : d.Tidy) {H : Nat} (h : Nat) (hH : h ≤ H + 1) : ∀ (n : Nat) (root : Str), d.find root = .ok n →
    (∀ ws m, d.Leads n ws m → ws.length < h) → Shows (viewOf d H) root (dirOf d h n) := by
  induction h with
  | zero => intro n root _ hlt; exact absurd (hlt [] n rfl) (by simp)
  | succ h ih =>
    intro n root hf hlt
    unfold dirOf
    cases hn : d.node n with
    | none => trivial
    | some i =>
      obtain ⟨b, mo, l⟩ := i
      cases b with
      | file s => trivial
      | link t => trivial
      | dir up es =>
        refine ⟨⟨shows_in fun w k hk hdir => ?_, fun h => absurd (by simp [Dirent.dot]) h⟩, fun h => absurd (by simp [Dirent.dot]) h⟩
        have hlead : d.Leads n [w] k := ⟨up, es, mo, l, k, hn, hk, rfl⟩
        have hfk : d.find (addElem root w) = .ok k := (hlead.find hd hf).2 hdir
        have hltk : ∀ ws m, d.Leads k ws m → ws.length < h := fun ws m hl => by
          have := hlt (w :: ws) m ⟨up, es, mo, l, k, hn, hk, hl⟩
          simp only [List.length_cons] at this
          omega
        refine ⟨?_, ih (by omega) k _ hfk hltk⟩
        unfold viewOf
        rw [hfk]
        exact dirOf_stable d h (H + 1) k hltk (by omega)

theorem regular_in {d : Vol} {N : Nat} {sub : Nat → Dir} {es : List (Str × Nat)}
    (h : ∀ w k, (w, k) ∈ es → IsPlain w ∧ (d.dtype k = .dir → Regular N (sub k) ∧ dots (sub k) < N)) :
    Regular N (ofEnts d sub es) ∧ dots (ofEnts d sub es) = 0 ∧ ∀ e, ofEnts d sub es ≠ .denied e := by
  induction es with
  | nil => exact ⟨by simp [ofEnts, Regular], rfl, by simp [ofEnts]⟩
  | cons e es ih =>
    obtain ⟨w, k⟩ := e
    obtain ⟨h1, h2, h3⟩ := ih fun w k hk => h w k (by simp [hk])
    obtain ⟨hw, hs⟩ := h w k (by simp)
    refine ⟨⟨hw.1, fun _ => hs, h1, h3⟩, ?_, by simp [ofEnts]⟩
    simp only [ofEnts, dots, if_neg (plain_not_dot hw), h2]

theorem regular_at {d : Vol} (hd : d.Tidy) {N : Nat} (hN : 3 ≤ N) (h : Nat) : ∀ n, Regular N (dirOf d h n) ∧ dots (dirOf d h n) < N := by
  induction h with
  | zero => intro n; exact ⟨trivial, by simp only [dirOf, dots]; omega⟩
  | succ h ih =>
    intro n
    unfold dirOf
    cases hn : d.node n with
    | none => exact ⟨trivial, by simp only [dots]; omega⟩
    | some i =>
      obtain ⟨b, mo, l⟩ := i
      cases b with
      | file s => exact ⟨trivial, by simp only [dots]; omega⟩
      | link t => exact ⟨trivial, by simp only [dots]; omega⟩
      | dir up es =>
        obtain ⟨h1, h2, h3⟩ := regular_in (d := d) (N := N) (sub := dirOf d h) (es := es) fun w k hk => by
          obtain ⟨a, b, c, -⟩ := (hd n _ hn).2 w k hk
          exact ⟨⟨a, b, c⟩, fun _ => ih k⟩
        refine ⟨⟨by simp [IsName], fun h => absurd (by simp [Dirent.dot]) h, ⟨by simp [IsName], fun h => absurd (by simp [Dirent.dot]) h, h1, h3⟩, by simp⟩, ?_⟩
        simp only [dots, h2]
        split <;> split <;> omega

theorem observed_ok (k : Nat) (root : Str) (l : List (List Str)) :
    observed (l.map (itemAt k root)) = l.map (fun ws => (some (ws.foldl addElem root, ((k + ws.length - 1 : Nat) : Int)), none)) ++ [(none, none)] := by
  induction l with
  | nil => rfl
  | cons ws l ih =>
    rw [List.map_cons]
    show observed (⟨k + ws.length - 1, .ok (ws.foldl addElem root)⟩ :: l.map (itemAt k root)) = _
    rw [observed, ih]
    rfl

/-! ## C131 -/

/-- **C131.** Iterating over a tree with a `recursive_directory_iterator` on a file system with links: the iteration ends without
an error, nothing is changed and all directory streams are closed; no path is given twice, and every path given is one that can be
reached from `p` by going from directories (not links) to what `symlink_status` finds in them, with `depth()` the number of directories
between. If in no directory a symbolic link comes before a directory, all that can be reached is given. Missing: the directories
that come after a link are not entered (`c131_violated`). -/
theorem c131_walk_partial (p : Path) (hp : Value p) (d : Vol) (hd : d.Tidy) (opts : DirOptions) (hf : opts.has .followSymlink = false) (perms : Mode)
    (hs : onVol (status p (.ref none)) d = (.ok (⟨.directory, perms⟩, .ref none), d))
    (hh : ∃ h, ∀ k q, d.Below p k q → k < h) :
    ∃ qs : List (Path × Nat), (∀ n k, 3 ≤ n → qs.length ≤ k →
        onDisk (session n p opts (List.replicate k .incr)) d = (.ok (qs.map (fun x => (some (x.1.pathname, (x.2 : Int)), none)) ++ [(none, none)]), ⟨d, []⟩)) ∧
      (qs.map Prod.fst).Nodup ∧
      (∀ q k, (q, k) ∈ qs → d.Below p k q) ∧
      (d.LinksLast → ∀ q k, d.Below p k q → (q, k) ∈ qs) := by
  obtain ⟨s, h1, h2⟩ := status_seen.mp hs
  obtain ⟨m, ⟨b, mo, nl⟩, hfm, hm, rfl⟩ := attrs_seen h1
  rw [statusOf_attr] at h2
  have hdir : d.dtype m = .dir := by
    unfold Vol.dtype
    rw [hm]
    cases b <;> first | rfl | cases h2
  obtain ⟨H, hH⟩ := hh
  have hsh := hp.shape
  have hlen : ∀ ws j, d.Leads m ws j → ws.length < H + 1 := by
    intro ws j hl
    cases hn : ws.length with
    | zero => omega
    | succ k => have := hH k _ ((below_iff hd hsh hfm hdir).mpr ⟨ws, j, hn, hl, rfl⟩); omega
  have hmem : ∀ ws, ws ∈ addrs d false (H + 1) m ↔ ws ≠ [] ∧ ∃ j, d.Leads m ws j := by
    intro ws
    rw [mem_addrs]
    exact ⟨fun ⟨a, _, c⟩ => ⟨a, c⟩, fun ⟨a, j, c⟩ => ⟨a, by have := hlen ws j c; omega, j, c⟩⟩
  have hto : ∀ ws ∈ addrs d false (H + 1) m, (mkPath .posix (ws.foldl addElem p.pathname)).pathname = ws.foldl addElem p.pathname := by
    intro ws hws
    obtain ⟨h3, j, h4⟩ := (hmem ws).mp hws
    rcases List.eq_nil_or_concat ws with rfl | ⟨a, v, rfl⟩
    · exact absurd rfl h3
    · rw [List.concat_eq_append] at h4 ⊢
      exact under_pathname (h4.names hd v (by simp)).1
  have hsub := addrs_sublist d (H + 1) m
  refine ⟨(addrs d true (H + 1) m).map fun ws => (mkPath .posix (ws.foldl addElem p.pathname), ws.length - 1), ?_, ?_, ?_, ?_⟩
  · intro n k hn hk
    rw [List.length_map] at hk
    obtain ⟨t, σ, he, hst, htr⟩ := eval_steps_of (m := kernelDir) (step := Reads (viewOf d H)) (R := Tracks d) (S := fun c => c.mutates = false)
      (fun u s c hc h => tracks_step u s c hc h) (calls_session (fun _ h => h) n p opts (List.replicate k .incr)) (u := (⟨d, []⟩ : Os Vol)) (s := [])
      ⟨rfl, rfl, by simp⟩
    have hv : viewOf d H p.pathname = dirOf d (H + 1) m := by unfold viewOf; rw [hfm]
    have hreg := regular_at hd hn (H + 1) m
    have hw := walked_at (sk := opts.has .skipDenied) hd (H + 1) m 0 p.pathname hdir hlen
    obtain ⟨h5, h6⟩ := c46_session hp hf hv (shows_at hd (H + 1) (Nat.le_refl _) m _ hfm hlen) hreg.1 hreg.2 he hst
    rw [hw, land_incr k _ (by rw [List.length_map]; exact hk), observed_ok] at h5 h6
    have h7 := h6 (by simp)
    subst h7
    obtain ⟨h8, h9, -⟩ := htr
    refine Prod.ext ?_ ?_
    · show ((session n p opts (List.replicate k .incr)).eval kernelDir ⟨d, []⟩).1 = _
      rw [h5, List.map_map]
      congr 2
      apply List.map_congr_left
      intro ws hws
      simp only [Function.comp, hto ws (hsub.subset hws), Nat.zero_add]
    · show ((session n p opts (List.replicate k .incr)).eval kernelDir ⟨d, []⟩).2 = _
      generalize ((session n p opts (List.replicate k .incr)).eval kernelDir ⟨d, []⟩).2 = z at h8 h9
      obtain ⟨z1, z2⟩ := z
      simp only at h8 h9
      rw [h8, h9]
      rfl
  · rw [List.map_map]
    refine List.pairwise_map.mpr (List.Pairwise.imp_of_mem ?_ ((addrs_nodup hd (H + 1) m).sublist hsub))
    intro a b ha hb hne heq
    have heq : mkPath .posix (a.foldl addElem p.pathname) = mkPath .posix (b.foldl addElem p.pathname) := heq
    have h3 := congrArg Path.pathname heq
    rw [hto a (hsub.subset ha), hto b (hsub.subset hb)] at h3
    have h4 := congrArg filenames h3
    obtain ⟨-, j, hj⟩ := (hmem a).mp (hsub.subset ha)
    obtain ⟨-, j', hj'⟩ := (hmem b).mp (hsub.subset hb)
    rw [filenames_under _ _ fun w hw => (hj.names hd w hw).1, filenames_under _ _ fun w hw => (hj'.names hd w hw).1] at h4
    exact hne (List.append_cancel_left h4)
  · intro q k hq
    obtain ⟨ws, hws, heq⟩ := List.mem_map.mp hq
    cases heq
    obtain ⟨h3, j, h4⟩ := (hmem ws).mp (hsub.subset hws)
    exact (below_iff hd hsh hfm hdir).mpr ⟨ws, j, by have := List.length_pos_iff.mpr h3; omega, h4, rfl⟩
  · intro hl q k hq
    obtain ⟨ws, j, h3, h4, rfl⟩ := (below_iff hd hsh hfm hdir).mp hq
    refine List.mem_map.mpr ⟨ws, ?_, by rw [h3]; rfl⟩
    rw [addrs_last hl]
    exact (hmem ws).mpr ⟨by rintro rfl; simp at h3, j, h4⟩

theorem leads_leaf {d : Vol} {n : Nat} (h : d.dtype n ≠ .dir) {ws : List Str} {m : Nat} (hl : d.Leads n ws m) : ws.length ≤ 0 := by
  cases ws with
  | nil => simp
  | cons w ws =>
    obtain ⟨up, es, mo, l, k, hn, -⟩ := hl
    exact absurd (by unfold Vol.dtype; rw [hn]) h

theorem leads_dir {d : Vol} {n b up : Nat} {es : List (Str × Nat)} {mo : Mode} {l : Nat} (hn : d.node n = some ⟨.dir up es, mo, l⟩)
    (h : ∀ w k, (w, k) ∈ es → ∀ {ws : List Str} {m : Nat}, d.Leads k ws m → ws.length ≤ b) {ws : List Str} {m : Nat} (hl : d.Leads n ws m) :
    ws.length ≤ b + 1 := by
  cases ws with
  | nil => simp
  | cons w ws =>
    obtain ⟨up', es', mo', l', k, hn', hk, hl⟩ := hl
    rw [hn] at hn'
    cases hn'
    have := h w k hk hl
    simp only [List.length_cons]
    omega

/-- `d` of `linksVol` with its link `l`: the hypotheses hold, links come last, and the iteration gives the tree. -/
example : Value (mkPath .posix "d".toList) ∧ linksVol.Tidy ∧
    onVol (status (mkPath .posix "d".toList) (.ref none)) linksVol = (.ok (⟨.directory, 0o755⟩, .ref none), linksVol) ∧
    (∃ h, ∀ k q, linksVol.Below (mkPath .posix "d".toList) k q → k < h) ∧
    linksVol.LinksLast ∧
    onDisk (session 3 (mkPath .posix "d".toList) .none (List.replicate 4 .incr)) linksVol =
      (.ok [(some ("d/s".toList, 0), none), (some ("d/s/t".toList, 1), none), (some ("d/l".toList, 0), none), (some ("d/h".toList, 0), none), (none, none)],
        ⟨linksVol, []⟩) := by
  refine ⟨.reach (reach_mkPath _), linksVol_tidy, Prod.ext (by rfl) rfl, ⟨2, ?_⟩, ?_, Prod.ext (by rfl) (by rfl)⟩
  · intro k q hq
    obtain ⟨ws, j, h1, h2, -⟩ := (below_iff (n := 1) linksVol_tidy (Value.reach (reach_mkPath _)).shape (by rfl) (by rfl)).mp hq
    have h3 : ws.length ≤ 1 + 1 := by
      refine leads_dir (d := linksVol) (n := 1) rfl (fun w k hk => ?_) h2
      simp only [List.mem_cons, Prod.mk.injEq, List.not_mem_nil, or_false] at hk
      rcases hk with ⟨rfl, rfl⟩ | ⟨rfl, rfl⟩ | ⟨rfl, rfl⟩
      · refine leads_dir (d := linksVol) (n := 2) rfl (fun w k hk => ?_)
        simp only [List.mem_cons, Prod.mk.injEq, List.not_mem_nil, or_false] at hk
        obtain ⟨rfl, rfl⟩ := hk
        exact leads_leaf (by decide)
      · intro ws m h; have := leads_leaf (by decide) h; omega
      · intro ws m h; have := leads_leaf (by decide) h; omega
    omega
  · intro n up es mo l h
    rcases n with _ | _ | _ | _ | _ | _ | _ | _ | n <;> simp only [linksVol] at h <;> cases h <;> decide

/-- A directory with a link `l` and, after it, a directory `s` with a file `t`. -/
def linkFirst : Vol := ⟨fun n => match n with
  | 0 => some ⟨.dir 0 [("d".toList, 1)], 0o755, 3⟩
  | 1 => some ⟨.dir 0 [("l".toList, 2), ("s".toList, 3)], 0o755, 3⟩
  | 2 => some ⟨.link "s".toList, 0o777, 1⟩
  | 3 => some ⟨.dir 1 [("t".toList, 4)], 0o755, 2⟩
  | 4 => some ⟨.file 3, 0o644, 1⟩
  | _ => none, 0, 5⟩

theorem linkFirst_tidy : linkFirst.Tidy := by
  intro n i h
  rcases n with _ | _ | _ | _ | _ | n <;> simp only [linkFirst] at h <;> cases h
  all_goals first
    | trivial
    | (refine ⟨by decide, ?_⟩
       intro v k hv
       simp only [List.mem_cons, Prod.mk.injEq, List.not_mem_nil, or_false] at hv
       first
       | (rcases hv with ⟨rfl, rfl⟩ | ⟨rfl, rfl⟩ <;> exact ⟨by simp [IsName], by decide, by decide, rfl⟩)
       | (obtain ⟨rfl, rfl⟩ := hv; exact ⟨by simp [IsName], by decide, by decide, rfl⟩))

/-- **C131 does not hold in full**: `d/s` is a directory with a file `d/s/t`, but the iteration over `d` ends after `d/l` and `d/s` without
an error, because `d/l`, a symbolic link, has been seen before. -/
theorem c131_violated : linkFirst.Tidy ∧
    onVol (status (mkPath .posix "d".toList) (.ref none)) linkFirst = (.ok (⟨.directory, 0o755⟩, .ref none), linkFirst) ∧
    linkFirst.Below (mkPath .posix "d".toList) 1 (mkPath .posix "d/s/t".toList) ∧
    onDisk (session 3 (mkPath .posix "d".toList) .none (List.replicate 3 .incr)) linkFirst =
      (.ok [(some ("d/l".toList, 0), none), (some ("d/s".toList, 0), none), (none, none)], ⟨linkFirst, []⟩) := by
  refine ⟨linkFirst_tidy, Prod.ext (by rfl) rfl, ?_, Prod.ext (by rfl) (by rfl)⟩
  refine .deeper (w := "t".toList) (q := mkPath .posix "d/s".toList) (.child (w := "s".toList) ?_ (by rfl) ⟨⟨.directory, 0o755⟩, ?_⟩) ⟨0o755, ?_⟩ ?_ (by rfl)
    ⟨⟨.regular, 0o644⟩, ?_⟩
  · exact ⟨by simp [IsName], by decide, by decide⟩
  · exact Prod.ext (by rfl) rfl
  · exact Prod.ext (by rfl) rfl
  · exact ⟨by simp [IsName], by decide, by decide⟩
  · exact Prod.ext (by rfl) rfl

end Asap
