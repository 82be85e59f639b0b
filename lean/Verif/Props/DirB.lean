import Verif.Props.DirA
import Verif.Os.Ghost

/-!
# C43, C45, C46: recursive iteration over an unchanging tree

The specification knows nothing of streams and stacks: the tree is listed in depth-first order, and an
iterator is a position in that list.
-/

namespace Asap
namespace Spec

/-- A directory as the operating system shows it: its entries in reading order, each with the directory
below it (if it is one), then the end of the listing or an error of `readdir`. `denied` is a directory
that `opendir` refuses. -/
inductive Dir where
  | denied (e : Errno)
  | done (last : Option Errno)
  | entry (ent : Dirent) (sub rest : Dir)

/-- A step of the walk: an entry or an error met, with its depth. -/
structure Item where
  depth : Nat
  what : Except Errno Str

/-- The depth-first listing. `skip` is `skip_permission_denied`. Links are not entered. -/
def preorder (skip : Bool) (k : Nat) (root : Str) : Dir → List Item
  | .denied e => if skip ∧ e = .EACCES then [] else [⟨k, .error e⟩]
  | .done none => []
  | .done (some e) => [⟨k, .error e⟩]
  | .entry ent sub rest =>
    if ent.dot then preorder skip k root rest
    else ⟨k, .ok (addElem root ent.name)⟩ ::
      ((if ent.dtype = .dir then preorder skip (k + 1) (addElem root ent.name) sub else []) ++
        preorder skip k root rest)

/-- The directory at `root` and everything below it is what `view` shows for its name. -/
def Shows (view : Str → Dir) (root : Str) : Dir → Prop
  | .denied _ | .done _ => True
  | .entry ent sub rest => Shows view root rest ∧
    (¬ ent.dot → ent.dtype = .dir → view (addElem root ent.name) = sub ∧ Shows view (addElem root ent.name) sub)

/-- The same listing as this library walks it. It differs from `preorder` in two ways: once a symbolic link has
been read (`linked`), no further directory of the same listing is entered; and an entry whose type the
operating system does not tell (`DT_UNKNOWN`) is an error when it is to be entered. -/
def asWalked (skip linked : Bool) (k : Nat) (root : Str) : Dir → List Item
  | .denied e => if skip ∧ e = .EACCES then [] else [⟨k, .error e⟩]
  | .done none => []
  | .done (some e) => [⟨k, .error e⟩]
  | .entry ent sub rest =>
    if ent.dot then asWalked skip linked k root rest
    else ⟨k, .ok (addElem root ent.name)⟩ ::
      ((if linked ∨ ent.dtype = .lnk then []
        else if ent.dtype = .dir then asWalked skip false (k + 1) (addElem root ent.name) sub
        else if ent.dtype = .unknown then [⟨k + 1, .error .ENOENT⟩]
        else []) ++
        asWalked skip (linked || ent.dtype = .lnk) k root rest)

/-- No directories among the entries, and their types are known. -/
def NoDirs : Dir → Prop
  | .denied _ | .done _ => True
  | .entry ent _ rest => (ent.dot ∨ ent.dtype ≠ .dir) ∧ NoDirs rest

/-- Types are known, and no symbolic link is read before a directory of the same listing. -/
def Plain : Dir → Prop
  | .denied _ | .done _ => True
  | .entry ent sub rest => (¬ ent.dot → ent.dtype ≠ .unknown) ∧ (¬ ent.dot → ent.dtype = .lnk → NoDirs rest) ∧
    (¬ ent.dot → ent.dtype = .dir → Plain sub) ∧ Plain rest

/-- The number of entries `.` and `..`. -/
def dots : Dir → Nat
  | .denied _ | .done _ => 0
  | .entry ent _ rest => (if ent.dot then 1 else 0) + dots rest

/-- What is assumed of any tree: names are names, `opendir` alone reports `EACCES`, and `.` and `..` do not
appear `n` times in a listing. -/
def Regular (n : Nat) : Dir → Prop
  | .denied _ => True
  | .done last => last ≠ some .EACCES
  | .entry ent sub rest => IsName ent.name ∧
    (¬ ent.dot → ent.dtype = .dir → Regular n sub ∧ dots sub < n) ∧ Regular n rest ∧ (∀ e, rest ≠ .denied e)

/-- Open directory handles with what is still to be read. -/
abbrev Table := List (Nat × Dir)

/-- How the operating system answers while the tree does not change. Reading or closing a handle that is
not open, and all other calls, may do anything. -/
def Reads (view : Str → Dir) (σ : Table) (ev : Event) (σ' : Table) : Prop :=
  match ev with
  | ⟨.opendir p, .error e⟩ => view p = .denied e ∧ σ' = σ
  | ⟨.opendir p, .ok d⟩ => (∀ e, view p ≠ .denied e) ∧ d ∉ σ.map Prod.fst ∧ σ' = (d, view p) :: σ
  | ⟨.readdir d, r⟩ => match σ.find? (·.1 = d) with
    | some (_, .done none) => r = .ok none ∧ σ' = σ
    | some (_, .done (some e)) => r = .error e ∧ σ' = σ
    | some (_, .entry ent _ rest) => r = .ok (some ent) ∧
      σ' = σ.map fun x => if x.1 = d then (d, rest) else x
    | _ => True
  | ⟨.closedir d, _⟩ => d ∈ σ.map Prod.fst → σ' = σ.filter (·.1 ≠ d)
  | _ => True

/-- What a client does with an iterator. -/
inductive Act where
  | incr | pop | disable

/-- What a client sees after an action: the current path and `depth()` (nothing at the end), and the
`error_code`. -/
abbrev Obs := Option (Str × Int) × Code

/-- Look at the iterator: `it->path()` and `it.depth()`. -/
def look (it : RecIter) : Prog (Option (Str × Int)) :=
  match it.impl with
  | none => .ret none
  | some _ => do
    let e ← it.deref
    let k ← it.depth
    .ret (some (e.path.pathname, k))

/-- A client performing `acts` until the iterator is at the end, noting what it sees. -/
def drive (n : Nat) : List Act → RecIter → Prog (List Obs)
  | [], _ => .ret []
  | a :: acts, it => match it.impl with
    | none => .ret []
    | some _ => match a with
      | .disable => drive n acts it.disable
      | .incr => do
        let (it, ec) ← it.incr n (.ref none)
        let v ← look it
        let l ← drive n acts it
        .ret ((v, ec.code) :: l)
      | .pop => do
        let (it, ec) ← it.pop n (.ref none)
        let v ← look it
        let l ← drive n acts it
        .ret ((v, ec.code) :: l)

/-- The client from the constructor on. -/
def session (n : Nat) (p : Path) (opts : DirOptions) (acts : List Act) : Prog (List Obs) := do
  let (it, ec) ← RecIter.new n p opts (.ref none)
  let v ← look it
  let l ← drive n acts it
  .ret ((v, ec.code) :: l)

mutual
/-- What the client sees from a position in the listing on; the flag says whether recursion into the current
entry is pending. `increment` goes to the next item, or past the entry's subtree if recursion is not
pending, and makes recursion pending; `pop` goes to the next item of smaller depth. -/
def follow : List Act → List Item → Bool → List Obs
  | [], _, _ => []
  | _ :: _, [], _ => []
  | .disable :: acts, items, _ => follow acts items false
  | .incr :: acts, x :: xs, pending =>
    land acts (if pending then xs else xs.dropWhile fun y => x.depth < y.depth) true
  | .pop :: acts, x :: xs, pending => land acts (xs.dropWhile fun y => x.depth ≤ y.depth) pending
termination_by acts => (acts.length, 0)

/-- Arriving at a position: an entry, an error (the iterator is then at the end), or the end. -/
def land (acts : List Act) : List Item → Bool → List Obs
  | [], _ => [(none, none)]
  | ⟨_, .error e⟩ :: _, _ => [(none, some e)]
  | ⟨k, .ok p⟩ :: xs, pending => (some (p, (k : Int)), none) :: follow acts (⟨k, .ok p⟩ :: xs) pending
termination_by (acts.length, 1)
end

end Spec
open Spec

/-- The listing after leading `.` and `..`. -/
def skipDots : Dir → Dir
  | .denied e => .denied e
  | .done l => .done l
  | .entry ent sub rest => if ent.dot then skipDots rest else .entry ent sub rest

theorem asWalked_skipDots (sk lk : Bool) (k : Nat) (root : Str) (L : Dir) :
    asWalked sk lk k root (skipDots L) = asWalked sk lk k root L := by
  induction L with
  | denied e => rfl
  | done l => rfl
  | entry ent sub rest _ ih =>
    unfold skipDots
    split
    · rename_i h; rw [ih]; simp only [asWalked]; rw [if_pos h]
    · rfl

theorem skipDots_entry {L : Dir} {ent sub rest} (h : skipDots L = .entry ent sub rest) : ¬ ent.dot := by
  induction L with
  | denied e => cases h
  | done l => cases h
  | entry ent' sub' rest' _ ih =>
    unfold skipDots at h
    split at h
    · exact ih h
    · cases h; assumption

theorem regular_skipDots {n : Nat} {L : Dir} (h : Regular n L) : Regular n (skipDots L) := by
  induction L with
  | denied e => exact h
  | done l => exact h
  | entry ent sub rest _ ih =>
    unfold skipDots
    split
    · exact ih h.2.2.1
    · exact h

theorem shows_skipDots {view : Str → Dir} {root : Str} {L : Dir} (h : Shows view root L) :
    Shows view root (skipDots L) := by
  induction L with
  | denied e => exact h
  | done l => exact h
  | entry ent sub rest _ ih =>
    unfold skipDots
    split
    · exact ih h.1
    · exact h

theorem dots_skipDots (L : Dir) : dots (skipDots L) ≤ dots L := by
  induction L with
  | denied e => exact Nat.le_refl _
  | done l => exact Nat.le_refl _
  | entry ent sub rest _ ih =>
    unfold skipDots
    split
    · simp only [dots]; omega
    · exact Nat.le_refl _

theorem not_denied_skipDots {n : Nat} {L : Dir} (h : Regular n L) (hd : ∀ e, L ≠ .denied e) (e : Errno) :
    skipDots L ≠ .denied e := by
  induction L with
  | denied e' => exact absurd rfl (hd e')
  | done l => intro h; cases h
  | entry ent sub rest _ ih =>
    unfold skipDots
    split
    · exact ih h.2.2.1 h.2.2.2
    · intro h; cases h

section
variable {view : Str → Dir} {α : Type}

theorem find_head (d : Nat) (L : Dir) (σ : Table) : ((d, L) :: σ).find? (·.1 = d) = some (d, L) := by
  simp [List.find?]

theorem filter_keys {σ : Table} {d : Nat} (h : d ∉ σ.map Prod.fst) : σ.filter (·.1 ≠ d) = σ := by
  rw [List.filter_eq_self]
  intro x hx
  simp only [ne_eq, decide_not, Bool.not_eq_true', decide_eq_false_iff_not]
  rintro rfl
  exact h (List.mem_map.mpr ⟨x, hx, rfl⟩)

theorem map_keys {σ : Table} {d : Nat} {L : Dir} (h : d ∉ σ.map Prod.fst) :
    σ.map (fun x => if x.1 = d then (d, L) else x) = σ := by
  conv => rhs; rw [← List.map_id σ]
  apply List.map_congr_left
  intro x hx
  rw [if_neg]; rfl
  rintro rfl
  exact h (List.mem_map.mpr ⟨x, hx, rfl⟩)

/-- Closing the handle opened last. -/
theorem wp_closeTop {Q : Except Stop Stream → Table → Prop} {s : Stream} {d : Nat} {L : Dir} {σ : Table}
    (hs : s.handle = some d) (hd : d ∉ σ.map Prod.fst) (hQ : Q (.ok s.closed) σ) :
    wp (Reads view) Q s.close ((d, L) :: σ) := by
  unfold Stream.close
  rw [hs]
  intro r σ' h
  simp only [Reads] at h
  have h := h (by simp)
  rw [List.filter_cons, if_neg (by simp), filter_keys hd] at h
  subst h
  exact hQ

/-- Reading the next entry. -/
theorem wp_advance {Q : Except Stop (Bool × Stream × Code) → Table → Prop} {s : Stream} {d n : Nat} {L : Dir} {σ : Table}
    {m : Nat} (hs : s.handle = some d) (hr : Shape s.root) (hn : dots L < n) (hL : Regular m L)
    (hden : ∀ e, L ≠ .denied e) (hd : d ∉ σ.map Prod.fst)
    (hdone : ∀ e, skipDots L = .done e → Q (.ok (false, s.closed, e)) σ)
    (hent : ∀ ent sub rest, skipDots L = .entry ent sub rest →
      Q (.ok (true, s.at ent (entryPath s.root ent.name), none)) ((d, rest) :: σ)) :
    wp (Reads view) Q (s.advance n) ((d, L) :: σ) := by
  obtain ⟨hdl, root, entry⟩ := s
  cases hs
  have hs : (⟨some d, root, entry⟩ : Stream).handle = some d := rfl
  induction n generalizing L with
  | zero => omega
  | succ n ih =>
    unfold Stream.advance
    rw [hs]
    intro r σ' h
    simp only [Reads, find_head] at h
    cases L with
    | denied e => exact absurd rfl (hden e)
    | done l =>
      cases l with
      | none =>
        obtain ⟨rfl, rfl⟩ := h
        apply wp_bind
        exact wp_closeTop hs hd (hdone none rfl)
      | some e =>
        obtain ⟨rfl, rfl⟩ := h
        apply wp_bind
        exact wp_closeTop hs hd (hdone (some e) rfl)
    | entry ent sub rest =>
      obtain ⟨rfl, rfl⟩ := h
      rw [List.map_cons, if_pos rfl, map_keys hd]
      obtain ⟨h1, h4, h5, h6⟩ := hL
      dsimp only
      by_cases hdot : ent.dot
      · rw [if_pos hdot]
        refine ih (by simp only [dots, if_pos hdot] at hn; omega) h5 h6 (fun e he => hdone e ?_)
          (fun a b c he => hent a b c ?_)
        · unfold skipDots; rw [if_pos hdot]; exact he
        · unfold skipDots; rw [if_pos hdot]; exact he
      · rw [if_neg hdot, if_neg h1.1, append_name hr]
        exact hent ent sub rest (by unfold skipDots; rw [if_neg hdot])

/-- An open directory of the walk. -/
structure Frame where
  h : Nat
  root : Str
  linked : Bool
  rest : Dir

/-- A stream reads what the frame says. -/
structure Reading (view : Str → Dir) (n : Nat) (s : Stream) (f : Frame) : Prop where
  handle : s.handle = some f.h
  shape : Shape s.root
  root : s.root.pathname = f.root
  regular : Regular n f.rest
  dots : dots f.rest < n
  opened : ∀ e, f.rest ≠ .denied e
  shows : Shows view f.root f.rest
  links : s.entry.cache.symlink = f.linked

inductive StackOk (view : Str → Dir) (n : Nat) : List Stream → List Frame → Prop
  | nil : StackOk view n [] []
  | cons {s ss f fs} : Reading view n s f → StackOk view n ss fs → StackOk view n (s :: ss) (f :: fs)

def table (fs : List Frame) : Table := fs.map fun f => (f.h, f.rest)

theorem table_keys (fs : List Frame) : (table fs).map Prod.fst = fs.map Frame.h := by
  simp [table, Function.comp_def]

/-- What is visited between an entry and the next of its listing; `lk` says whether a link has been read. -/
def below (sk lk : Bool) (k : Nat) (p : Str) (t : DType) (sub : Dir) : List Item :=
  if lk then [] else if t = .dir then asWalked sk false k p sub else if t = .unknown then [⟨k, .error .ENOENT⟩] else []

theorem asWalked_entry (sk lk : Bool) (k : Nat) (root : Str) {ent : Dirent} (h : ¬ ent.dot) (sub rest : Dir) :
    asWalked sk lk k root (.entry ent sub rest) = ⟨k, .ok (addElem root ent.name)⟩ ::
      (below sk (lk || ent.dtype = .lnk) (k + 1) (addElem root ent.name) ent.dtype sub ++
        asWalked sk (lk || ent.dtype = .lnk) k root rest) := by
  simp [asWalked, below, h]

/-- What is left to visit after the current entries of the stack. -/
def todo (sk : Bool) : List Frame → List Item
  | [] => []
  | f :: fs => asWalked sk f.linked fs.length f.root f.rest ++ todo sk fs

/-- The iterator is at the first of the items. -/
def Cur (view : Str → Dir) (sk : Bool) (n : Nat) (ss : List Stream) (σ : Table) (items : List Item) : Prop :=
  ∃ (s : Stream) (ss0 : List Stream) (f : Frame) (fs : List Frame) (ent : Dirent) (sub : Dir), ss = s :: ss0 ∧ Reading view n s f ∧ StackOk view n ss0 fs ∧ ((f :: fs).map Frame.h).Nodup ∧
    σ = table (f :: fs) ∧ Shape s.entry.path ∧ s.entry.path.pathname = addElem f.root ent.name ∧
    s.entry.cache.cacheType = .basic ∧ s.entry.cache.type = typeOfD ent.dtype ∧
    (ent.dtype = .dir → view (addElem f.root ent.name) = sub ∧
      Shows view (addElem f.root ent.name) sub ∧ Regular n sub ∧ dots sub < n) ∧
    items = ⟨fs.length, .ok (addElem f.root ent.name)⟩ ::
      (below sk f.linked (fs.length + 1) (addElem f.root ent.name) ent.dtype sub ++ todo sk (f :: fs))

/-- Closing everything. -/
theorem wp_closeAll {Q : Except Stop Unit → Table → Prop} {n : Nat} {ss : List Stream} {fs : List Frame} (h : StackOk view n ss fs)
    {X : Table} (hnd : (X.map Prod.fst ++ fs.map Frame.h).Nodup) (hQ : Q (.ok ()) X) :
    wp (Reads view) Q (closeAll ss) (X ++ table fs) := by
  induction h generalizing X Q with
  | nil => simpa [closeAll, table, wp] using hQ
  | @cons s ss f fs hr hss ih =>
    simp only [closeAll, Prog.bind_eq]
    apply wp_bind
    have : X ++ table (f :: fs) = (X ++ [(f.h, f.rest)]) ++ table fs := by simp [table]
    rw [this]
    refine ih (by simpa using hnd) ?_
    dsimp only
    apply wp_bind
    unfold Stream.close
    rw [hr.handle]
    intro r σ' hs
    simp only [Reads] at hs
    have hs := hs (by simp)
    have hf : f.h ∉ X.map Prod.fst := by
      intro hm
      rw [List.nodup_append] at hnd
      exact hnd.2.2 _ hm f.h (by simp) rfl
    rw [List.filter_append, filter_keys hf, List.filter_cons, if_neg (by simp), List.filter_nil, List.append_nil] at hs
    subst hs
    exact hQ

theorem typeOfD_symlink {t : DType} : typeOfD t = .symlink ↔ t = .lnk := by cases t <;> simp [typeOfD]

/-- Reading the next entry of a stream on the walk. -/
theorem wp_next {Q : Except Stop (Bool × Stream × Code) → Table → Prop} {sk : Bool} {n : Nat} {s : Stream} {f : Frame}
    (hr : Reading view n s f) {ss : List Stream} {fs : List Frame} (hss : StackOk view n ss fs)
    (hnd : ((f :: fs).map Frame.h).Nodup)
    (hdone : asWalked sk f.linked fs.length f.root f.rest = [] → Q (.ok (false, s.closed, none)) (table fs))
    (herr : ∀ e, e ≠ .EACCES → asWalked sk f.linked fs.length f.root f.rest = [⟨fs.length, .error e⟩] →
      Q (.ok (false, s.closed, some e)) (table fs))
    (hent : ∀ s' σ p xs, asWalked sk f.linked fs.length f.root f.rest = ⟨fs.length, .ok p⟩ :: xs →
      Cur view sk n (s' :: ss) σ (asWalked sk f.linked fs.length f.root f.rest ++ todo sk fs) → s'.root = s.root →
      Q (.ok (true, s', none)) σ) :
    wp (Reads view) Q (s.advance n) (table (f :: fs)) := by
  have hf : f.h ∉ (table fs).map Prod.fst := by
    rw [table_keys]
    exact (List.nodup_cons.mp hnd).1
  rw [← asWalked_skipDots] at hdone herr hent
  refine wp_advance hr.handle hr.shape hr.dots hr.regular hr.opened hf (fun e he => ?_) (fun ent sub rest he => ?_)
  · rw [he] at hdone herr hent
    have := regular_skipDots hr.regular
    rw [he] at this
    cases e with
    | none => exact hdone rfl
    | some e => exact herr e (fun h => this (by rw [h])) rfl
  · have hdot := skipDots_entry he
    have hreg := regular_skipDots hr.regular
    have hsh := shows_skipDots hr.shows
    have hdts : dots (skipDots f.rest) < n := Nat.lt_of_le_of_lt (dots_skipDots _) hr.dots
    rw [he] at hdone herr hent hreg hsh hdts
    have hpre := asWalked_entry sk f.linked fs.length f.root hdot sub rest
    refine hent _ _ _ _ hpre ?_ rfl
    rw [hpre]
    obtain ⟨h1, h4, h5, h6⟩ := hreg
    refine ⟨_, ss, ⟨f.h, f.root, f.linked || ent.dtype = .lnk, rest⟩, fs, ent, sub, rfl,
      ⟨hr.handle, hr.shape, hr.root, h5, ?_, h6, hsh.1, ?_⟩, hss, hnd, rfl, ?_, ?_, ?_, ?_, ?_, ?_⟩
    · simp only [dots, if_neg hdot] at hdts; dsimp only; omega
    · simp only [Stream.at]
      split
      · rename_i h; simp [typeOfD_symlink.mp h]
      · rename_i h
        rw [typeOfD_symlink] at h
        simp [h, hr.links]
    · simp only [Stream.at, entryPath]
      split <;> exact mkPath_shape _
    · rw [← hr.root]; exact entryPath_text hr.shape h1
    · simp only [Stream.at]; split <;> rfl
    · simp only [Stream.at]; split <;> rfl
    · intro hdir
      obtain ⟨h7, h8⟩ := hsh.2 hdot hdir
      obtain ⟨h9, h10⟩ := h4 hdot hdir
      exact ⟨h7, h8, h9, h10⟩
    · simp [todo]

theorem wp_advanceStack {Q : Except Stop (List Stream × Code) → Table → Prop} {sk : Bool} {n : Nat}
    {ss : List Stream} {fs : List Frame} (hss : StackOk view n ss fs) (hnd : (fs.map Frame.h).Nodup)
    (hdone : todo sk fs = [] → Q (.ok ([], none)) [])
    (herr : ∀ k e xs s ss' fs', todo sk fs = ⟨k, .error e⟩ :: xs → s.handle = none → StackOk view n ss' fs' →
      (fs'.map Frame.h).Nodup → Q (.ok (s :: ss', some e)) (table fs'))
    (hent : ∀ k p xs ss' σ, todo sk fs = ⟨k, .ok p⟩ :: xs → Cur view sk n ss' σ (todo sk fs) →
      Q (.ok (ss', none)) σ) :
    wp (Reads view) Q (advanceStack n ss) (table fs) := by
  induction hss with
  | nil => exact hdone rfl
  | @cons s ss f fs hr hss ih =>
    simp only [advanceStack, Prog.bind_eq]
    apply wp_bind
    refine wp_next (sk := sk) hr hss hnd (fun h => ?_) (fun e _ h => ?_) (fun s' σ p xs h hc _ => ?_)
    · have ht : todo sk (f :: fs) = todo sk fs := by simp [todo, h]
      rw [ht] at hdone herr hent
      exact ih (List.nodup_cons.mp hnd).2 hdone herr hent
    · exact herr fs.length e (todo sk fs) s.closed ss fs (by simp [todo, h]) rfl hss (List.nodup_cons.mp hnd).2
    · exact hent fs.length p (xs ++ todo sk fs) _ σ (by simp [todo, h]) hc

theorem asWalked_depth (sk lk : Bool) (k : Nat) (root : Str) (L : Dir) : ∀ x ∈ asWalked sk lk k root L, k ≤ x.depth := by
  induction L generalizing lk k root with
  | denied e =>
    intro x hx
    simp only [asWalked] at hx
    split at hx
    · cases hx
    · rw [List.mem_singleton] at hx; rw [hx]; exact Nat.le_refl _
  | done l =>
    intro x hx
    cases l with
    | none => cases hx
    | some e => simp only [asWalked, List.mem_singleton] at hx; rw [hx]; exact Nat.le_refl _
  | entry ent sub rest ih1 ih2 =>
    intro x hx
    by_cases hdot : ent.dot
    · simp only [asWalked] at hx
      rw [if_pos hdot] at hx
      exact ih2 _ _ _ x hx
    · rw [asWalked_entry _ _ _ _ hdot] at hx
      rcases List.mem_cons.mp hx with rfl | hx
      · exact Nat.le_refl _
      · rcases List.mem_append.mp hx with hx | hx
        · unfold below at hx
          split at hx
          · cases hx
          · split at hx
            · have := ih1 _ _ _ x hx; omega
            · split at hx
              · rw [List.mem_singleton] at hx; rw [hx]; exact Nat.le_succ _
              · cases hx
        · exact ih2 _ _ _ x hx

theorem below_depth (sk lk : Bool) (k : Nat) (root : Str) (t : DType) (L : Dir) : ∀ x ∈ below sk lk k root t L, k ≤ x.depth := by
  intro x hx
  unfold below at hx
  split at hx
  · cases hx
  · split at hx
    · exact asWalked_depth _ _ _ _ _ x hx
    · split at hx
      · rw [List.mem_singleton] at hx; rw [hx]; exact Nat.le_refl _
      · cases hx

theorem asWalked_head (sk lk : Bool) (k : Nat) (root : Str) (L : Dir) :
    ∀ x, (asWalked sk lk k root L).head? = some x → x.depth = k := by
  induction L generalizing lk root with
  | denied e =>
    intro x hx
    simp only [asWalked] at hx
    split at hx
    · cases hx
    · cases hx; rfl
  | done l =>
    intro x hx
    cases l with
    | none => cases hx
    | some e => cases hx; rfl
  | entry ent sub rest _ ih2 =>
    intro x hx
    simp only [asWalked] at hx
    split at hx
    · exact ih2 _ _ x hx
    · cases hx; rfl

theorem todo_head (sk : Bool) (fs : List Frame) : ∀ x, (todo sk fs).head? = some x → x.depth < fs.length := by
  induction fs with
  | nil => intro x hx; cases hx
  | cons f fs ih =>
    intro x hx
    simp only [todo] at hx
    cases hp : asWalked sk f.linked fs.length f.root f.rest with
    | nil => rw [hp] at hx; have := ih x hx; simp only [List.length_cons]; omega
    | cons y ys =>
      rw [hp] at hx
      obtain rfl : y = x := by simpa using hx
      have := asWalked_head sk f.linked fs.length f.root f.rest y (by rw [hp]; rfl)
      simp only [List.length_cons]; omega

theorem dropWhile_all {β : Type} {p : β → Bool} {l m : List β} (h : ∀ x ∈ l, p x = true) : (l ++ m).dropWhile p = m.dropWhile p := by
  induction l with
  | nil => rfl
  | cons x l ih =>
    rw [List.cons_append, List.dropWhile_cons, if_pos (h x (by simp))]
    exact ih fun y hy => h y (by simp [hy])

theorem dropWhile_head {β : Type} {p : β → Bool} {l : List β} (h : ∀ x, l.head? = some x → p x = false) : l.dropWhile p = l := by
  cases l with
  | nil => rfl
  | cons x l => rw [List.dropWhile_cons, if_neg (by rw [h x rfl]; decide)]

theorem drop_sub (sk lk : Bool) (f : Frame) (fs : List Frame) (p : Str) (t : DType) (sub : Dir) :
    (below sk lk (fs.length + 1) p t sub ++ todo sk (f :: fs)).dropWhile
      (fun y => decide (fs.length < y.depth)) = todo sk (f :: fs) := by
  rw [dropWhile_all, dropWhile_head]
  · intro x hx
    have := todo_head sk _ x hx
    simp only [List.length_cons] at this
    simp only [decide_eq_false_iff_not]; omega
  · intro x hx
    have := below_depth _ _ _ _ _ _ x hx
    simp only [decide_eq_true_eq]; omega

theorem drop_dir (sk lk : Bool) (f : Frame) (fs : List Frame) (p : Str) (t : DType) (sub : Dir) :
    (below sk lk (fs.length + 1) p t sub ++ todo sk (f :: fs)).dropWhile
      (fun y => decide (fs.length ≤ y.depth)) = todo sk fs := by
  rw [dropWhile_all]
  · simp only [todo]
    rw [dropWhile_all, dropWhile_head]
    · intro x hx
      have := todo_head sk _ x hx
      simp only [decide_eq_false_iff_not]; omega
    · intro x hx
      have := asWalked_depth _ _ _ _ _ x hx
      simp only [decide_eq_true_eq]; omega
  · intro x hx
    have := below_depth _ _ _ _ _ _ x hx
    simp only [decide_eq_true_eq]; omega

/-- The iterator has arrived at the first of the items. -/
def Landed (view : Str → Dir) (opts : DirOptions) (n : Nat) (it : RecIter) (ec : EcArg) (σ : Table) (pending : Bool) :
    List Item → Prop
  | [] => it.impl = none ∧ σ = [] ∧ ec = .ref none
  | ⟨_, .error e⟩ :: _ => it.impl = none ∧ σ = [] ∧ ec = .ref (some e)
  | ⟨k, .ok p⟩ :: xs => ∃ ss, it.impl = some (ss, opts) ∧ Cur view (opts.has .skipDenied) n ss σ (⟨k, .ok p⟩ :: xs) ∧
      it.recursion = pending ∧ ec = .ref none

theorem wp_recAdvance {Q : Except Stop (RecIter × EcArg) → Table → Prop} {opts : DirOptions} {n : Nat} {it : RecIter} {c : Code}
    {ss : List Stream} {fs : List Frame} (hi : it.impl = some (ss, opts)) (hss : StackOk view n ss fs)
    (hnd : (fs.map Frame.h).Nodup)
    (hQ : ∀ it' ec σ, Landed view opts n it' ec σ it.recursion (todo (opts.has .skipDenied) fs) → Q (.ok (it', ec)) σ) :
    wp (Reads view) Q (RecIter.advance n it (.ref c)) (table fs) := by
  unfold RecIter.advance
  simp only [hi, Prog.bind_eq, clear_ref]
  apply wp_bind
  refine wp_advanceStack (sk := opts.has .skipDenied) hss hnd (fun h => ?_) (fun k e xs s ss' fs' h hs hss' hnd' => ?_)
    (fun k p xs ss' σ h hc => ?_)
  · rw [h] at hQ
    exact hQ _ _ _ ⟨rfl, rfl, rfl⟩
  · rw [h] at hQ
    dsimp only
    apply wp_bind
    simp only [closeAll, Prog.bind_eq]
    apply wp_bind
    refine wp_closeAll (X := []) hss' (by simpa using hnd') ?_
    dsimp only
    unfold Stream.close
    rw [hs]
    exact hQ _ _ _ ⟨rfl, rfl, rfl⟩
  · rw [h] at hQ hc
    dsimp only
    obtain ⟨s, ss0, f, fs', ent, sub, rfl, hrest⟩ := hc
    exact hQ _ _ _ ⟨_, rfl, ⟨s, ss0, f, fs', ent, sub, rfl, hrest⟩, rfl, rfl⟩

/-- The cached type of an entry read from a directory. -/
theorem getSymLinkFileType_basic {e : Entry} {t : DType} (h1 : e.cache.cacheType = .basic) (h2 : e.cache.type = typeOfD t) :
    getSymLinkFileType e (.ref none) =
      .ret ((if e.cache.symlink then .symlink else typeOfD t, e),
        .ref (if e.cache.symlink = false ∧ t = .unknown then some .ENOENT else none)) := by
  unfold getSymLinkFileType
  simp only [h1, h2, Prog.bind_eq, clear_ref, reduceCtorEq, if_false, Prog.ret_bind, Bool.false_eq_true]
  cases hs : e.cache.symlink
  · cases t <;> rfl
  · rfl

theorem typeOfD_dir {t : DType} : typeOfD t = .directory ↔ t = .dir := by cases t <;> simp [typeOfD]

theorem Reading.moved {n : Nat} {s : Stream} {f : Frame} (h : Reading view n s f) : Reading view n s.moved f :=
  ⟨h.handle, mkPath_shape _, by
    simp only [Stream.moved, Path.moved, mkPath_pathname]
    rw [h.shape.stored, h.root], h.regular, h.dots, h.opened, h.shows, h.links⟩

theorem Cur.moved {sk : Bool} {n : Nat} {s : Stream} {ss : List Stream} {σ : Table} {items : List Item}
    (h : Cur view sk n (s :: ss) σ items) : Cur view sk n (s.moved :: ss) σ items := by
  obtain ⟨s', ss0, f, fs, ent, sub, he, h1, h2, h3, h4, h5, h6, h7⟩ := h
  cases he
  refine ⟨_, ss, f, fs, ent, sub, rfl, h1.moved, h2, h3, h4, mkPath_shape _, ?_, h7⟩
  simp only [Stream.moved, Path.moved, mkPath_pathname]
  rw [h5.stored, h6]

/-- Opening a directory and reading its first entry: no stream or a position at the start of its listing. -/
theorem wp_streamNew {Q : Except Stop (Stream × Code) → Table → Prop} {opts : DirOptions} {n : Nat} {p : Path}
    (hp : Shape p) {ss : List Stream} {fs : List Frame} (hss : StackOk view n ss fs) (hnd : (fs.map Frame.h).Nodup)
    {sub : Dir} (hv : view p.pathname = sub) (hsh : Shows view p.pathname sub) (hreg : Regular n sub) (hdts : dots sub < n)
    (hden : ∀ e, sub = .denied e → Q (.ok (⟨none, p, .default⟩, if opts.has .skipDenied ∧ e = .EACCES then none else some e))
      (table fs))
    (hdone : asWalked (opts.has .skipDenied) false fs.length p.pathname sub = [] → (∀ e, sub ≠ .denied e) →
      ∀ s : Stream, s.handle = none → Q (.ok (s, none)) (table fs))
    (herr : ∀ e, e ≠ .EACCES → asWalked (opts.has .skipDenied) false fs.length p.pathname sub = [⟨fs.length, .error e⟩] →
      (∀ e, sub ≠ .denied e) → ∀ s : Stream, s.handle = none → Q (.ok (s, some e)) (table fs))
    (hent : ∀ s σ q xs, asWalked (opts.has .skipDenied) false fs.length p.pathname sub = ⟨fs.length, .ok q⟩ :: xs →
      s.good = true → Cur view (opts.has .skipDenied) n (s :: ss) σ
        (asWalked (opts.has .skipDenied) false fs.length p.pathname sub ++ todo (opts.has .skipDenied) fs) →
      Q (.ok (s, none)) σ) :
    wp (Reads view) Q (Stream.new n p opts) (table fs) := by
  unfold Stream.new
  intro r σ' h
  rcases r with e | d
  · simp only [Reads] at h
    obtain ⟨h1, rfl⟩ := h
    have := hden e (by rw [← hv, h1])
    dsimp only
    split <;> rename_i hc
    · rw [if_pos hc] at this; exact this
    · rw [if_neg hc] at this; exact this
  · simp only [Reads] at h
    obtain ⟨h1, h2, rfl⟩ := h
    rw [hv] at h1
    simp only [Prog.bind_eq]
    apply wp_bind
    have hr : Reading view n ⟨some d, p, .default⟩ ⟨d, p.pathname, false, sub⟩ :=
      ⟨rfl, hp, rfl, hreg, hdts, h1, hsh, rfl⟩
    rw [table_keys] at h2
    rw [hv]
    refine wp_next (f := ⟨d, p.pathname, false, sub⟩) (sk := opts.has .skipDenied) hr hss (by
        rw [List.map_cons, List.nodup_cons]; exact ⟨h2, hnd⟩)
      (fun h => ?_) (fun e he h => ?_) (fun s' σ q xs h hc _ => ?_)
    · exact hdone h h1 _ rfl
    · exact herr e he h h1 _ rfl
    · refine hent s' σ q xs h ?_ hc
      obtain ⟨s, ss0, f, fs', ent, sub, he, h1, _⟩ := hc
      cases he
      simp [Stream.good, h1.handle]

theorem wp_ret {β σ : Type} {step : σ → Event → σ → Prop} {Q : Except Stop β → σ → Prop} {a : β} {s : σ} (h : Q (.ok a) s) :
    wp step Q (.ret a) s := h

/-- `TryRecursion` at the entry `ent`. -/
theorem wp_try {Q : Except Stop ((Bool × RecIter) × EcArg) → Table → Prop} {opts : DirOptions} {n : Nat} {it : RecIter} {c : Code}
    {s : Stream} {ss : List Stream} {f : Frame} {fs : List Frame} {ent : Dirent} {sub : Dir}
    (hf : opts.has .followSymlink = false)
    (hi : it.impl = some (s :: ss, opts)) (hr : Reading view n s f) (hss : StackOk view n ss fs)
    (hnd : ((f :: fs).map Frame.h).Nodup) (hsp : Shape s.entry.path) (hct : s.entry.cache.cacheType = .basic)
    (hty : s.entry.cache.type = typeOfD ent.dtype)
    (hdir : ent.dtype = .dir → view s.entry.path.pathname = sub ∧
      Shows view s.entry.path.pathname sub ∧ Regular n sub ∧ dots sub < n)
    {bl : List Item} (hb : bl = below (opts.has .skipDenied) f.linked (fs.length + 1) s.entry.path.pathname ent.dtype sub)
    (hnone : bl = [] → Q (.ok ((false, it), .ref none)) (table (f :: fs)))
    (herr : ∀ k e xs, bl = ⟨k, .error e⟩ :: xs → ∀ it', it'.impl = none → Q (.ok ((false, it'), .ref (some e))) [])
    (hent : ∀ k q xs, bl = ⟨k, .ok q⟩ :: xs → ∀ it' ss' σ, it'.impl = some (ss', opts) → it'.recursion = it.recursion →
      Cur view (opts.has .skipDenied) n ss' σ (bl ++ todo (opts.has .skipDenied) (f :: fs)) →
      Q (.ok ((true, it'), .ref none)) σ) :
    wp (Reads view) Q (it.tryRecursion n (.ref c)) (table (f :: fs)) := by
  have hit : ({ it with impl := some (s :: ss, opts) } : RecIter) = it := by
    obtain ⟨i, r⟩ := it; cases hi; rfl
  have hskip : ∀ m : Option Errno, (bl = [] ∧ m = none) ∨ (∃ k xs, bl = ⟨k, .error .ENOENT⟩ :: xs) ∧ m = some .ENOENT →
      wp (Reads view) Q (match m with
        | some e =>
          if e = Errno.EACCES ∧ opts.has .skipDenied = true then
            .ret ((false, { it with impl := some (s :: ss, opts) }), .ref none)
          else (closeAll (s :: ss)).bind fun _ =>
            .ret ((false, { it with impl := none }), .ref (some e))
        | none => .ret ((false, { it with impl := some (s :: ss, opts) }), .ref none)) (table (f :: fs)) := by
    rintro m (⟨h1, rfl⟩ | ⟨⟨k, xs, h1⟩, rfl⟩)
    · refine wp_ret ?_
      rw [hit]
      exact hnone h1
    · dsimp only
      rw [if_neg (by rintro ⟨h, _⟩; cases h)]
      apply wp_bind
      refine wp_closeAll (X := []) (StackOk.cons (s := s) hr hss) (by simpa using hnd) ?_
      exact herr k _ xs h1 _ rfl
  have hlk := hr.links
  unfold RecIter.tryRecursion
  simp only [hi, Prog.bind_eq, clear_ref, hf, Bool.not_false, if_true, getSymLinkFileType_basic hct hty, Prog.ret_bind, hlk]
  unfold below at hb
  cases hl : f.linked with
  | true =>
    simp only [hl, if_true] at hb ⊢
    exact hskip none (.inl ⟨hb, rfl⟩)
  | false =>
    simp only [hl, Bool.false_eq_true, if_false] at hb ⊢
    by_cases hd : ent.dtype = .dir
    · obtain ⟨hv, hsh, hreg, hdts⟩ := hdir hd
      simp only [hd, typeOfD, FStatus.isSymlink, FStatus.isDirectory, reduceCtorEq, and_false, if_false,
        show (FType.directory == FType.symlink) = false from rfl, show (FType.directory == FType.directory) = true from rfl,
        isSet_none, Bool.false_and, Bool.false_eq_true, Bool.not_true, Bool.or_self, Bool.not_false, if_true]
      rw [if_pos hd] at hb
      subst hb
      apply wp_bind
      apply wp_bind
      refine wp_streamNew (view := view) (opts := opts) hsp (StackOk.cons hr hss) hnd hv hsh hreg hdts (fun e he => ?_)
        (fun h1 h2 s' hs' => ?_) (fun e h0 h1 h2 s' hs' => ?_) (fun s' σ q xs h1 h2 h3 => ?_)
      · subst he
        simp only [Stream.good, Option.isSome_none, Bool.false_eq_true, if_false]
        by_cases hsk : opts.has .skipDenied = true ∧ e = .EACCES
        · rw [if_pos hsk]
          refine wp_ret ?_
          dsimp only
          refine wp_ret ?_
          rw [hit]
          exact hnone (by simp only [asWalked]; rw [if_pos hsk])
        · rw [if_neg hsk]
          refine wp_ret ?_
          dsimp only
          rw [if_neg (by rintro ⟨h1, h2⟩; exact hsk ⟨h2, h1⟩)]
          apply wp_bind
          refine wp_closeAll (X := []) (StackOk.cons (s := s) hr hss) (by simpa using hnd) ?_
          exact herr _ e [] (by simp only [asWalked]; rw [if_neg hsk]) _ rfl
      · simp only [Stream.good, hs', Option.isSome_none, Bool.false_eq_true, if_false]
        refine wp_ret ?_
        dsimp only
        refine wp_ret ?_
        rw [hit]
        exact hnone h1
      · simp only [Stream.good, hs', Option.isSome_none, Bool.false_eq_true, if_false]
        refine wp_ret ?_
        dsimp only
        rw [if_neg (by rintro ⟨h1, h2⟩; exact h0 h1)]
        apply wp_bind
        refine wp_closeAll (X := []) (StackOk.cons (s := s) hr hss) (by simpa using hnd) ?_
        exact herr _ e [] h1 _ rfl
      · simp only [h2, if_true]
        refine wp_ret ?_
        dsimp only
        exact wp_ret (hent _ _ _ h1 _ _ _ rfl rfl h3.moved)
    · rw [if_neg hd] at hb
      cases ht : ent.dtype <;> rw [ht] at hb hd
      case dir => exact absurd rfl hd
      case unknown => exact hskip (some .ENOENT) (.inr ⟨⟨_, _, hb⟩, rfl⟩)
      all_goals exact hskip none (.inl ⟨hb, rfl⟩)

/-- `increment`. -/
theorem wp_recIncr {Q : Except Stop (RecIter × EcArg) → Table → Prop} {opts : DirOptions} {n : Nat} {it : RecIter} {c : Code}
    {ss : List Stream} {σ : Table} {x : Item} {xs : List Item} (hf : opts.has .followSymlink = false)
    (hi : it.impl = some (ss, opts)) (hc : Cur view (opts.has .skipDenied) n ss σ (x :: xs))
    (hQ : ∀ it' ec σ, Landed view opts n it' ec σ true
      (if it.recursion then xs else xs.dropWhile fun y => x.depth < y.depth) → Q (.ok (it', ec)) σ) :
    wp (Reads view) Q (RecIter.incr n it (.ref c)) σ := by
  obtain ⟨s, ss0, f, fs, ent, sub, rfl, hr, hss, hnd, rfl, hsp, hpn, hct, hty, hdir, hitems⟩ := hc
  cases hitems
  unfold RecIter.incr
  simp only [Prog.bind_eq, clear_ref]
  apply wp_bind
  cases hrec : it.recursion with
  | false =>
    simp only [hrec, Bool.false_eq_true, if_false] at hQ ⊢
    rw [drop_sub] at hQ
    exact wp_recAdvance (it := { it with recursion := true }) hi (.cons hr hss) hnd hQ
  | true =>
    simp only [hrec, if_true] at hQ ⊢
    apply wp_bind
    rw [← hpn] at hdir hQ
    refine wp_try hf hi hr hss hnd hsp hct hty hdir rfl (fun hb => ?_) (fun k e xs hb it' h1 => ?_)
      (fun k q xs hb it' ss' σ h1 h2 h3 => ?_)
    · rw [hb, List.nil_append] at hQ
      exact wp_recAdvance (it := { it with recursion := true }) hi (.cons hr hss) hnd hQ
    · rw [hb] at hQ
      exact hQ _ _ _ ⟨h1, rfl, rfl⟩
    · rw [hb] at hQ h3
      exact hQ _ _ _ ⟨_, h1, h3, by rw [h2, hrec], rfl⟩

/-- `pop`. -/
theorem wp_recPop {Q : Except Stop (RecIter × EcArg) → Table → Prop} {opts : DirOptions} {n : Nat} {it : RecIter} {c : Code}
    {ss : List Stream} {σ : Table} {x : Item} {xs : List Item}
    (hi : it.impl = some (ss, opts)) (hc : Cur view (opts.has .skipDenied) n ss σ (x :: xs))
    (hQ : ∀ it' ec σ, Landed view opts n it' ec σ it.recursion (xs.dropWhile fun y => x.depth ≤ y.depth) →
      Q (.ok (it', ec)) σ) :
    wp (Reads view) Q (RecIter.pop n it (.ref c)) σ := by
  obtain ⟨s, ss0, f, fs, ent, sub, rfl, hr, hss, hnd, rfl, hsp, hpn, hct, hty, hdir, hitems⟩ := hc
  cases hitems
  rw [drop_dir] at hQ
  unfold RecIter.pop
  simp only [hi, Prog.bind_eq, clear_ref]
  apply wp_bind
  refine wp_closeTop hr.handle (by rw [← table, table_keys]; exact (List.nodup_cons.mp hnd).1) ?_
  dsimp only
  cases hss with
  | nil => exact hQ _ _ _ ⟨rfl, rfl, rfl⟩
  | cons h1 h2 =>
    exact wp_recAdvance (it := { it with impl := some (_, opts) }) rfl (.cons h1 h2) (List.nodup_cons.mp hnd).2 hQ

/-- What the client has seen is `l`; at the end nothing is open. -/
def Seen (l : List Obs) (o : Except Stop (List Obs)) (σ : Table) : Prop :=
  o = .ok l ∧ (l.getLast?.map Prod.fst = some none → σ = [])

/-- From an entry on. -/
def Follows (view : Str → Dir) (opts : DirOptions) (n : Nat) (acts : List Act) : Prop :=
  ∀ (it : RecIter) (ss : List Stream) (σ : Table) (items : List Item), it.impl = some (ss, opts) →
    Cur view (opts.has .skipDenied) n ss σ items →
    wp (Reads view) (Seen (follow acts items it.recursion)) (drive n acts it) σ

theorem drive_end (n : Nat) (acts : List Act) {it : RecIter} (h : it.impl = none) : drive n acts it = .ret [] := by
  cases acts with
  | nil => rfl
  | cons a acts => simp only [drive, h]

theorem StackOk.length {n : Nat} {ss : List Stream} {fs : List Frame} (h : StackOk view n ss fs) : ss.length = fs.length := by
  induction h with
  | nil => rfl
  | cons _ _ ih => simp [ih]

theorem getLast_cons_nil {β : Type} {P : β → Prop} {x : β} {l : List β} (hx : l = [] → P x)
    (h : ∀ y, l.getLast? = some y → P y) : ∀ y, (x :: l).getLast? = some y → P y := by
  cases l with
  | nil => intro y hy; simp at hy; exact hy ▸ hx rfl
  | cons z l => intro y hy; rw [List.getLast?_cons_cons] at hy; exact h y hy

/-- Arriving, and everything seen from then on. -/
theorem wp_land {opts : DirOptions} {n : Nat} {acts : List Act} (h : Follows view opts n acts) {it : RecIter} {ec : EcArg}
    {σ : Table} {items : List Item} {pending : Bool} (hl : Landed view opts n it ec σ pending items) :
    wp (Reads view) (Seen (land acts items pending))
      ((look it).bind fun v => (drive n acts it).bind fun l => .ret ((v, ec.code) :: l)) σ := by
  rcases items with _ | ⟨⟨k, e | p⟩, xs⟩
  · obtain ⟨h1, h2, h3⟩ := hl
    simp only [look, h1, drive_end n acts h1, Prog.ret_bind, h3]
    refine wp_ret ⟨?_, fun _ => h2⟩
    simp [land, EcArg.code]
  · obtain ⟨h1, h2, h3⟩ := hl
    simp only [look, h1, drive_end n acts h1, Prog.ret_bind, h3]
    refine wp_ret ⟨?_, fun _ => h2⟩
    simp [land, EcArg.code]
  · obtain ⟨ss, h1, h2, h3, h4⟩ := hl
    have hf := h it ss σ _ h1 h2
    obtain ⟨s, ss0, f, fs, ent, sub, rfl, hr, hss, hnd, hσ, hsp, hpn, hct, hty, hdir, hitems⟩ := h2
    cases hitems
    simp only [look, RecIter.deref, RecIter.depth, h1, Prog.bind_eq, Prog.ret_bind]
    apply wp_bind
    refine wp_mono ?_ hf
    rintro o σ' ⟨rfl, h6⟩
    dsimp only
    refine wp_ret ⟨?_, fun hx => h6 ?_⟩
    · rw [land, ← h3, ← hpn, h4, ← hss.length]
      simp [EcArg.code]
    · rw [land, ← h3] at hx
      cases hfo : follow acts (⟨fs.length, .ok (addElem f.root ent.name)⟩ ::
        (below (opts.has .skipDenied) f.linked (fs.length + 1) (addElem f.root ent.name) ent.dtype sub ++
          todo (opts.has .skipDenied) (f :: fs))) it.recursion with
      | nil => rw [hfo] at hx; simp at hx
      | cons y ys => rw [hfo, List.getLast?_cons_cons] at hx; exact hx

theorem follows {opts : DirOptions} {n : Nat} (hf : opts.has .followSymlink = false) (acts : List Act) :
    Follows view opts n acts := by
  induction acts with
  | nil =>
    intro it ss σ items hi hc
    exact ⟨by simp [follow], by simp [follow]⟩
  | cons a acts ih =>
    intro it ss σ items hi hc
    have hc' := hc
    obtain ⟨s, ss0, f, fs, ent, sub, _, _, _, _, _, _, _, _, _, _, hitems⟩ := hc'
    cases items with
    | nil => cases hitems
    | cons x xs =>
      clear hitems
      unfold drive
      simp only [hi]
      cases a with
      | disable =>
        have := ih it.disable ss σ (x :: xs) hi hc
        rw [follow]
        · exact this
        · intro hx; cases hx
      | incr =>
        simp only [Prog.bind_eq]
        apply wp_bind
        rw [follow]
        exact wp_recIncr hf hi hc fun it' ec σ' hL => wp_land ih hL
      | pop =>
        simp only [Prog.bind_eq]
        apply wp_bind
        rw [follow]
        exact wp_recPop hi hc fun it' ec σ' hL => wp_land ih hL

theorem wp_session {opts : DirOptions} {n : Nat} (hf : opts.has .followSymlink = false) (acts : List Act) {p : Path} (hp : Shape p)
    {L : Dir} (hv : view p.pathname = L) (hsh : Shows view p.pathname L) (hreg : Regular n L) (hdts : dots L < n) :
    wp (Reads view) (Seen (land acts (asWalked (opts.has .skipDenied) false 0 p.pathname L) true)) (session n p opts acts) [] := by
  unfold session RecIter.new
  simp only [Prog.bind_eq, clear_ref]
  apply wp_bind
  apply wp_bind
  refine wp_streamNew (view := view) (opts := opts) (fs := []) hp .nil List.nodup_nil hv hsh hreg hdts (fun e he => ?_)
    (fun h1 h2 s' hs' => ?_) (fun e h0 h1 h2 s' hs' => ?_) (fun s' σ q xs h1 h2 h3 => ?_)
  · subst he
    by_cases hsk : opts.has .skipDenied = true ∧ e = .EACCES
    · simp only [hsk, and_self, if_true]
      exact wp_land (follows hf acts) (it := ⟨none, true⟩) (by simp [asWalked, Landed, table])
    · rw [if_neg hsk]
      dsimp only
      apply wp_bind
      refine wp_ret ?_
      exact wp_land (follows hf acts) (it := ⟨none, true⟩) (by simp only [asWalked]; rw [if_neg hsk]; exact ⟨rfl, rfl, rfl⟩)
  · simp only [Stream.good, hs', Option.isSome_none, Bool.not_false, if_true]
    exact wp_land (follows hf acts) (it := ⟨none, true⟩) (by rw [show (0 : Nat) = ([] : List Frame).length from rfl, h1]; exact ⟨rfl, rfl, rfl⟩)
  · dsimp only
    apply wp_bind
    have : Prog.finally' ((⟨"recursive_directory_iterator".toList, some p, none⟩ : Handler).report (.ref none) (some e) ()) (DirIter.destroy (some s')) =
        .ret ((), .ref (some e)) := by
      simp [Handler.report, Prog.finally', DirIter.destroy, Stream.close, hs', Prog.bind_eq]
    rw [this]
    exact wp_land (follows hf acts) (it := ⟨none, true⟩) (by rw [show (0 : Nat) = ([] : List Frame).length from rfl, h1]; exact ⟨rfl, rfl, rfl⟩)
  · simp only [h2, Bool.not_true, Bool.false_eq_true, if_false]
    refine wp_land (follows hf acts) (it := ⟨some ([s'.moved], opts), true⟩) ?_
    simp only [List.length_nil, todo, List.append_nil] at h1 h3
    rw [h1] at h3 ⊢
    exact ⟨_, rfl, h3.moved, rfl, rfl⟩

end

namespace Spec

/-- What a client that only increments sees of a listing. -/
def observed : List Item → List Obs
  | [] => [(none, none)]
  | ⟨_, .error e⟩ :: _ => [(none, some e)]
  | ⟨k, .ok p⟩ :: xs => (some (p, (k : Int)), none) :: observed xs

/-- The tree with the directories refused with `EACCES` replaced by empty ones. -/
def emptied : Dir → Dir
  | .denied e => if e = .EACCES then .done none else .denied e
  | .done l => .done l
  | .entry ent sub rest => .entry ent (emptied sub) (emptied rest)

end Spec

theorem exists_fresh (l : List Nat) : ∃ d, d ∉ l := by
  have : ∃ b, ∀ x ∈ l, x < b := by
    induction l with
    | nil => exact ⟨0, by simp⟩
    | cons y l ih =>
      obtain ⟨b, hb⟩ := ih
      refine ⟨b + y + 1, fun x hx => ?_⟩
      rcases List.mem_cons.mp hx with rfl | hx
      · omega
      · have := hb x hx; omega
  obtain ⟨b, hb⟩ := this
  exact ⟨b, fun h => Nat.lt_irrefl _ (hb b h)⟩

/-- The assumption allows an answer to every call, so executions exist. -/
theorem reads_total (view : Str → Dir) (σ : Table) (c : Sys) : ∃ (r : c.Ret) (σ' : Table), Reads view σ ⟨c, r⟩ σ' := by
  cases c with
  | opendir p =>
    by_cases hv : ∃ e, view p = .denied e
    · obtain ⟨e, he⟩ := hv
      exact ⟨.error e, σ, he, rfl⟩
    · obtain ⟨d, hd⟩ := exists_fresh (σ.map Prod.fst)
      exact ⟨.ok d, (d, view p) :: σ, fun e h => hv ⟨e, h⟩, hd, rfl⟩
  | readdir d =>
    cases hf : σ.find? (·.1 = d) with
    | none => exact ⟨.ok none, σ, by simp [Reads, hf]⟩
    | some x =>
      obtain ⟨_, L⟩ := x
      rcases L with e | (_ | e) | ⟨ent, sub, rest⟩
      · exact ⟨.ok none, σ, by simp [Reads, hf]⟩
      · exact ⟨.ok none, σ, by simp [Reads, hf]⟩
      · exact ⟨.error e, σ, by simp [Reads, hf]⟩
      · exact ⟨.ok (some ent), _, by simp only [Reads, hf]; exact ⟨trivial, rfl⟩⟩
  | closedir d => exact ⟨.ok (), σ.filter (·.1 ≠ d), fun _ => rfl⟩
  | pathconf => exact ⟨0, σ, trivial⟩
  | getenv _ => exact ⟨none, σ, trivial⟩
  | winTest q x => exact ⟨(false, none), σ, trivial⟩
  | win c => exact ⟨c.fails, σ, trivial⟩
  | port c => exact ⟨c.fails, σ, trivial⟩
  | _ => exact ⟨.error .EPERM, σ, trivial⟩

theorem follow_incr (k : Nat) (items : List Item) (x : Item) (h : items.length < k) :
    follow (List.replicate k .incr) (x :: items) true = observed items := by
  induction items generalizing k x with
  | nil =>
    obtain _ | k := k
    · cases h
    · simp [List.replicate_succ, follow, land, observed]
  | cons y items ih =>
    obtain _ | k := k
    · cases h
    · rw [List.replicate_succ, follow, if_pos rfl]
      obtain ⟨d, e | p⟩ := y
      · simp [land, observed]
      · rw [land, ih k _ (by simp only [List.length_cons] at h; omega), observed]

theorem land_incr (k : Nat) (items : List Item) (h : items.length ≤ k) :
    land (List.replicate k .incr) items true = observed items := by
  rcases items with _ | ⟨⟨d, e | p⟩, items⟩
  · simp [land, observed]
  · simp [land, observed]
  · rw [land, follow_incr k items _ h, observed]

theorem asWalked_linked {L : Dir} (h : NoDirs L) (h' : Plain L) (sk a b : Bool) (k : Nat) (root : Str) :
    asWalked sk a k root L = asWalked sk b k root L := by
  induction L generalizing a b with
  | denied e => rfl
  | done l => cases l <;> rfl
  | entry ent sub rest _ ih =>
    by_cases hdot : ent.dot
    · simp only [asWalked]; rw [if_pos hdot, if_pos hdot]; exact ih h.2 h'.2.2.2 _ _
    · rw [asWalked_entry _ _ _ _ hdot, asWalked_entry _ _ _ _ hdot, ih h.2 h'.2.2.2 _ (b || ent.dtype = .lnk)]
      have h1 : ent.dtype ≠ .dir := h.1.resolve_left hdot
      have h2 := h'.1 hdot
      simp [below, h1, h2]

/-- On a plain tree the walk is the depth-first listing. -/
theorem asWalked_plain {L : Dir} (h : Plain L) (sk : Bool) (k : Nat) (root : Str) :
    asWalked sk false k root L = preorder sk k root L := by
  induction L generalizing k root with
  | denied e => rfl
  | done l => cases l <;> rfl
  | entry ent sub rest ih1 ih2 =>
    by_cases hdot : ent.dot
    · simp only [asWalked, preorder]; rw [if_pos hdot, if_pos hdot]; exact ih2 h.2.2.2 _ _
    · rw [asWalked_entry _ _ _ _ hdot]
      simp only [preorder]
      rw [if_neg hdot, ← ih2 h.2.2.2]
      by_cases hl : ent.dtype = .lnk
      · rw [asWalked_linked (h.2.1 hdot hl) h.2.2.2 sk _ false]
        simp [below, hl]
      · simp only [hl, decide_false, Bool.or_false, below, Bool.false_eq_true, if_false]
        by_cases hd : ent.dtype = .dir
        · simp only [hd, if_true]
          rw [ih1 (h.2.2.1 hdot hd)]
        · simp [hd, h.1 hdot]

theorem asWalked_emptied (L : Dir) (lk : Bool) (k : Nat) (root : Str) :
    asWalked true lk k root L = asWalked false lk k root (emptied L) := by
  induction L generalizing lk k root with
  | denied e =>
    by_cases h : e = .EACCES <;> simp [asWalked, emptied, h]
  | done l => cases l <;> rfl
  | entry ent sub rest ih1 ih2 =>
    by_cases hdot : ent.dot
    · simp only [asWalked, emptied]; rw [if_pos hdot, if_pos hdot]; exact ih2 _ _ _
    · simp only [emptied]
      rw [asWalked_entry _ _ _ _ hdot, asWalked_entry _ _ _ _ hdot, ih2]
      unfold below
      rw [ih1]

/-- C46. Every history of `increment`, `pop` and `disable_recursion_pending` after the constructor, over every
tree: the client sees exactly the positions that `land` and `follow` say, starting at the first item of the
listing. A client that has reached the end has left no directory open. -/
theorem c46_session {p : Path} (hp : Value p) {opts : DirOptions} (hf : opts.has .followSymlink = false) {n : Nat} {acts : List Act}
    {view : Str → Dir} {L : Dir} (hv : view p.pathname = L) (hsh : Shows view p.pathname L) (hreg : Regular n L) (hdts : dots L < n)
    {t : List Event} {o : Except Stop (List Obs)} {σ : Table}
    (h : Exec (session n p opts acts) t o) (hs : Steps (Reads view) [] t σ) :
    o = .ok (land acts (asWalked (opts.has .skipDenied) false 0 p.pathname L) true) ∧
      ((land acts (asWalked (opts.has .skipDenied) false 0 p.pathname L) true).getLast?.map Prod.fst = some none → σ = []) :=
  wp_sound (wp_session hf acts hp.shape hv hsh hreg hdts) h hs

/-- Executions exist whatever the tree. -/
example (view : Str → Dir) (n : Nat) (p : Path) (opts : DirOptions) (acts : List Act) :
    ∃ t o σ, Exec (session n p opts acts) t o ∧ Steps (Reads view) [] t σ :=
  exec_exists (reads_total view) _ _

/-- C43, as far as it holds: if the operating system tells the types of entries and in no listing a link comes
before a directory, repeated increments visit exactly the depth-first listing, each entry once, and then reach
the end (or stop at the first error), with nothing left open. Missing: the other trees, see `c43_violated`
and `c43_unknown_type`. -/
theorem c43_visits_partial {p : Path} (hp : Value p) {opts : DirOptions} (hf : opts.has .followSymlink = false) {n k : Nat}
    {view : Str → Dir} {L : Dir} (hv : view p.pathname = L) (hsh : Shows view p.pathname L) (hreg : Regular n L) (hdts : dots L < n)
    (hplain : Plain L) (hk : (preorder (opts.has .skipDenied) 0 p.pathname L).length ≤ k)
    {t : List Event} {o : Except Stop (List Obs)} {σ : Table}
    (h : Exec (session n p opts (List.replicate k .incr)) t o) (hs : Steps (Reads view) [] t σ) :
    o = .ok (observed (preorder (opts.has .skipDenied) 0 p.pathname L)) ∧ σ = [] := by
  obtain ⟨h1, h2⟩ := c46_session hp hf hv hsh hreg hdts h hs
  rw [asWalked_plain hplain, land_incr _ _ hk] at h1 h2
  refine ⟨h1, h2 ?_⟩
  generalize preorder (opts.has .skipDenied) 0 p.pathname L = items
  induction items with
  | nil => rfl
  | cons x xs ih =>
    obtain ⟨d, e | q⟩ := x
    · rfl
    · rw [observed]
      cases ho : observed xs with
      | nil => rw [ho] at ih; cases ih
      | cons y ys => rw [List.getLast?_cons_cons, ← ho]; exact ih

/-- C45. With `skip_permission_denied` a client cannot tell directories refused with `EACCES` from empty ones. -/
theorem c45_skip {p : Path} (hp : Value p) {opts : DirOptions} (hf : opts.has .followSymlink = false)
    (hsk : opts.has .skipDenied = true) {n : Nat} {acts : List Act}
    {view : Str → Dir} {L : Dir} (hv : view p.pathname = L) (hsh : Shows view p.pathname L) (hreg : Regular n L) (hdts : dots L < n)
    {t : List Event} {o : Except Stop (List Obs)} {σ : Table}
    (h : Exec (session n p opts acts) t o) (hs : Steps (Reads view) [] t σ) :
    o = .ok (land acts (asWalked false false 0 p.pathname (emptied L)) true) := by
  rw [(c46_session hp hf hv hsh hreg hdts h hs).1, hsk, asWalked_emptied]

/-- C45. An error in the listing that is not skipped is reported: the increment that comes to it yields the end
and the error, and everything is closed. Without `skip_permission_denied`, `asWalked` has an error for every
directory that could not be opened. -/
theorem c45_report {p : Path} (hp : Value p) {opts : DirOptions} (hf : opts.has .followSymlink = false) {n k d : Nat}
    {view : Str → Dir} {L : Dir} (hv : view p.pathname = L) (hsh : Shows view p.pathname L) (hreg : Regular n L) (hdts : dots L < n)
    {before : List (Str × Nat)} {e : Errno} {after : List Item}
    (hL : asWalked (opts.has .skipDenied) false 0 p.pathname L =
      before.map (fun x => ⟨x.2, .ok x.1⟩) ++ ⟨d, .error e⟩ :: after) (hk : before.length ≤ k)
    {t : List Event} {o : Except Stop (List Obs)} {σ : Table}
    (h : Exec (session n p opts (List.replicate k .incr)) t o) (hs : Steps (Reads view) [] t σ) :
    o = .ok (before.map (fun x => (some (x.1, (x.2 : Int)), none)) ++ [(none, some e)]) ∧ σ = [] := by
  obtain ⟨h1, h2⟩ := c46_session hp hf hv hsh hreg hdts h hs
  have : land (List.replicate k .incr) (before.map (fun x => (⟨x.2, .ok x.1⟩ : Item)) ++ ⟨d, .error e⟩ :: after) true =
      before.map (fun x => (some (x.1, (x.2 : Int)), none)) ++ [(none, some e)] := by
    clear hL h1 h2 h hs
    induction before generalizing k with
    | nil => simp [land]
    | cons x before ih =>
      obtain _ | k := k
      · cases hk
      · rw [List.map_cons, List.cons_append, land, List.replicate_succ, follow, if_pos rfl]
        rw [ih (by simpa using hk)]
        rfl
  rw [hL, this] at h1 h2
  exact ⟨h1, h2 (by simp)⟩

/-- A directory `d` with a directory `b` holding a file, seen after the entry `first`. -/
def Spec.sample (first : Dirent) : Dir :=
  .entry ⟨".".toList, .dir⟩ (.done none) (.entry first (.done none)
    (.entry ⟨"b".toList, .dir⟩ (.entry ⟨"c".toList, .reg⟩ (.done none) (.done none)) (.done none)))

/-- The names of `sample`, with `last` for the directory `b`. -/
def Spec.sampleView (first : Dirent) (s : Str) : Dir :=
  if s = "d".toList then sample first
  else if s = "d/b".toList then .entry ⟨"c".toList, .reg⟩ (.done none) (.done none)
  else .denied .ENOENT

theorem addElem_sample : addElem "d".toList "b".toList = "d/b".toList ∧ addElem "d".toList "a".toList = "d/a".toList ∧
    addElem "d/b".toList "c".toList = "d/b/c".toList := by decide

theorem sample_shows {ty : DType} (h : ty ≠ .dir) : Shows (sampleView ⟨"a".toList, ty⟩) "d".toList (sample ⟨"a".toList, ty⟩) := by
  refine ⟨⟨⟨trivial, fun _ _ => ?_⟩, fun _ hd => absurd hd h⟩, fun hd => absurd (by decide) hd⟩
  rw [addElem_sample.1]
  exact ⟨rfl, trivial, fun _ h => by cases h⟩

theorem sample_regular {ty : DType} (h : ty ≠ .dir) : Regular 9 (sample ⟨"a".toList, ty⟩) := by
  simp [Regular, sample, IsName, dots, Dirent.dot, h]

theorem value_d : Value (mkPath .posix "d".toList) := .reach (reach_mkPath _)

/-- A tree that meets the assumptions of `c43_visits_partial`: everything is visited. -/
example : Plain (sample ⟨"a".toList, .reg⟩) ∧ ∃ t o σ,
    Exec (session 9 (mkPath .posix "d".toList) .none (List.replicate 3 .incr)) t o ∧
    Steps (Reads (sampleView ⟨"a".toList, .reg⟩)) [] t σ ∧
    o = .ok [(some ("d/a".toList, 0), none), (some ("d/b".toList, 0), none), (some ("d/b/c".toList, 1), none), (none, none)] := by
  have hpl : Plain (sample ⟨"a".toList, .reg⟩) := by
    simp [Plain, NoDirs, sample, Dirent.dot]
  refine ⟨hpl, ?_⟩
  obtain ⟨t, o, σ, h1, h2⟩ := exec_exists (reads_total (sampleView ⟨"a".toList, .reg⟩))
    (session 9 (mkPath .posix "d".toList) .none (List.replicate 3 .incr)) []
  refine ⟨t, o, σ, h1, h2, ?_⟩
  exact (c43_visits_partial value_d rfl rfl (sample_shows (by decide)) (sample_regular (by decide)) (by decide) hpl (by decide) h1 h2).1

/-- C43 is violated: a directory read after a symbolic link is not entered, because the iterator never clears
its note that the entry is a link (`src/fs_dir_iterator.cpp:804-806`). Here `d/b/c` is not visited. -/
theorem c43_violated : (⟨1, .ok "d/b/c".toList⟩ : Item) ∈ preorder false 0 "d".toList (sample ⟨"a".toList, .lnk⟩) ∧
    (∃ t o σ, Exec (session 9 (mkPath .posix "d".toList) .none (List.replicate 9 .incr)) t o ∧
      Steps (Reads (sampleView ⟨"a".toList, .lnk⟩)) [] t σ) ∧
    ∀ t o σ, Exec (session 9 (mkPath .posix "d".toList) .none (List.replicate 9 .incr)) t o →
      Steps (Reads (sampleView ⟨"a".toList, .lnk⟩)) [] t σ →
      o = .ok [(some ("d/a".toList, 0), none), (some ("d/b".toList, 0), none), (none, none)] := by
  refine ⟨?_, exec_exists (reads_total _) _ _, fun t o σ h1 h2 => ?_⟩
  · have : preorder false 0 "d".toList (sample ⟨"a".toList, .lnk⟩) =
      [⟨0, .ok "d/a".toList⟩, ⟨0, .ok "d/b".toList⟩, ⟨1, .ok "d/b/c".toList⟩] := by rfl
    rw [this]; simp
  · rw [(c46_session value_d rfl rfl (sample_shows (by decide)) (sample_regular (by decide)) (by decide) h1 h2).1,
      land_incr _ _ (by decide)]
    rfl

/-- C43 is violated where the operating system does not tell the type of an entry: the next increment is an
error, though nothing is wrong with the entry. -/
theorem c43_unknown_type (t : List Event) (o : Except Stop (List Obs)) (σ : Table)
    (h : Exec (session 9 (mkPath .posix "d".toList) .none (List.replicate 9 .incr)) t o)
    (hs : Steps (Reads (sampleView ⟨"a".toList, .unknown⟩)) [] t σ) :
    o = .ok [(some ("d/a".toList, 0), none), (none, some .ENOENT)] := by
  rw [(c46_session value_d rfl rfl (sample_shows (by decide)) (sample_regular (by decide)) (by decide) h hs).1,
    land_incr _ _ (by decide)]
  rfl

/-! ## C44 -/

/-- Not `opendir`. -/
def Spec.NoOpen : Sys → Prop
  | .opendir _ => False
  | _ => True

macro "only" : tactic => `(tactic| repeat' first
  | assumption
  | exact Only.stop _
  | exact Only.ret _ trivial
  | exact Only.ret _ rfl
  | exact True.intro
  | (with_reducible refine Only.call _ _ ?_ fun r => ?_)
  | dsimp only
  | (with_reducible refine Only.bind (Q := fun _ => True) ?_ fun v _ => ?_; try dsimp only)
  | split)

variable {α : Type}

theorem only_reportMsg {S : Sys → Prop} (h : Handler) (ec : EcArg) (c : Code) (m : Str) (a : α) :
    Only S (fun _ => True) (h.reportMsg ec c m a) := by
  unfold Handler.reportMsg; only

theorem only_report {S : Sys → Prop} (h : Handler) (ec : EcArg) (c : Code) (a : α) :
    Only S (fun _ => True) (h.report ec c a) := by
  unfold Handler.report; only

theorem only_useStat {S : Sys → Prop} (st : Option Stat) : Only S (fun _ => True) (Prog.useStat st) := by
  unfold Prog.useStat; only

theorem only_ofRes {S : Sys → Prop} (r : Res α) : Only S (fun _ => True) (Prog.ofRes r) := by
  unfold Prog.ofRes; only

theorem only_updateBasic (b : Bool) (e : Entry) (ec : EcArg) : Only NoOpen (fun _ => True) (updateBasic b e ec) := by
  unfold updateBasic getFileStatus createFileStatus extractLastWriteTime
  simp only [Prog.bind_eq]
  only <;> first | exact only_reportMsg .. | exact only_report .. | exact only_useStat _ | exact only_ofRes _

theorem Only.and_all {S : Sys → Prop} {Q R : α → Prop} {p : Prog α} (h : Only S Q p) (h' : All R p) :
    Only S (fun a => Q a ∧ R a) p := by
  induction h with
  | ret a h => cases h' with | ret _ h2 => exact .ret a ⟨h, h2⟩
  | stop x => exact .stop x
  | call c k hc _ ih => cases h' with | call _ _ h2 => exact .call c k hc fun r => ih r (h2 r)

theorem only_getFileType (e : Entry) (c : Code) :
    Only NoOpen (fun r => r.1.1 = .none ∧ r.2.IsRef) (getFileType e (.ref c)) := by
  unfold getFileType
  simp only [Prog.bind_eq, clear_ref]
  split
  · refine Only.bind ((only_updateBasic _ _ _).and_all (all_updateBasic _ _ _)) ?_
    rintro ⟨e, ec⟩ ⟨_, c, rfl⟩
    exact .ret _ ⟨rfl, c, rfl⟩
  · exact .ret _ ⟨rfl, none, rfl⟩

theorem only_close (s : Stream) : Only NoOpen (fun _ => True) s.close := by
  unfold Stream.close; only

theorem only_closeAll (ss : List Stream) : Only NoOpen (fun _ => True) (closeAll ss) := by
  induction ss with
  | nil => exact .ret _ trivial
  | cons s ss ih =>
    unfold closeAll
    simp only [Prog.bind_eq]
    exact ih.bind fun _ _ => (only_close s).bind fun _ _ => .ret _ trivial

theorem only_advance (n : Nat) (s : Stream) : Only NoOpen (fun _ => True) (s.advance n) := by
  induction n generalizing s with
  | zero => exact .stop _
  | succ n ih =>
    unfold Stream.advance
    simp only [Prog.bind_eq]
    only
    all_goals first | exact only_close _ | exact ih _ | exact only_ofRes _

theorem only_advanceStack (n : Nat) (ss : List Stream) : Only NoOpen (fun _ => True) (advanceStack n ss) := by
  induction ss with
  | nil => exact .ret _ trivial
  | cons s ss ih =>
    unfold advanceStack
    simp only [Prog.bind_eq]
    only
    exact only_advance _ _

/-- The iterator follows links, if it is not at the end. -/
def Spec.Follows' (it : RecIter) : Prop := ∀ ss opts, it.impl = some (ss, opts) → opts.has .followSymlink = true

theorem only_recAdvance (n : Nat) {it : RecIter} (hit : Follows' it) (ec : EcArg) :
    Only NoOpen (fun r => Follows' r.1) (RecIter.advance n it ec) := by
  unfold RecIter.advance
  simp only [Prog.bind_eq]
  split
  · refine (only_reportMsg _ _ _ _ _).bind fun _ _ => .ret _ hit
  · rename_i ss opts hi
    refine (only_advanceStack n ss).bind fun r _ => ?_
    split
    · refine (only_closeAll _).bind fun _ _ => (only_reportMsg _ _ _ _ _).bind fun _ _ => .ret _ ?_
      intro _ _ h; cases h
    · split
      · refine .ret _ ?_
        intro _ _ h; cases h
      · refine .ret _ ?_
        intro _ _ h; cases h; exact hit _ _ hi

theorem only_recTry (n : Nat) {it : RecIter} (hit : Follows' it) (ec : EcArg) :
    Only NoOpen (fun r => Follows' r.1.2) (RecIter.tryRecursion n it ec) := by
  unfold RecIter.tryRecursion
  simp only [Prog.bind_eq]
  split
  · exact (only_reportMsg _ _ _ _ _).bind fun _ _ => .ret _ hit
  · exact .stop _
  · rename_i cur ss opts hi
    have hf := hit _ _ hi
    simp only [hf, Bool.not_true, Bool.false_eq_true, if_false]
    have hk : ∀ ss', Follows' { it with impl := some (ss', opts) } := by
      intro ss' _ _ h; cases h; exact hf
    refine Only.bind (Q := fun r => r.1 = true) ?_ ?_
    · refine (only_getFileType cur.entry none).bind fun r h => .ret _ ?_
      simp [h.1, FStatus.isDirectory]
    · rintro ⟨skip, e, m⟩ h
      cases h
      simp only [Bool.not_true, Bool.false_eq_true, if_false, Prog.ret_bind]
      split
      · split
        · exact .ret _ (hk _)
        · refine (only_closeAll _).bind fun _ _ => (only_reportMsg _ _ _ _ _).bind fun _ _ => .ret _ ?_
          intro _ _ h; cases h
      · exact .ret _ (hk _)

theorem only_drive (n : Nat) (acts : List Act) {it : RecIter} (hit : Follows' it) : Only NoOpen (fun _ => True) (drive n acts it) := by
  have hlook : ∀ it, Only NoOpen (fun _ => True) (look it) := by
    intro it
    unfold look RecIter.deref RecIter.depth
    simp only [Prog.bind_eq]
    only
  induction acts generalizing it with
  | nil => exact .ret _ trivial
  | cons a acts ih =>
    unfold drive
    split
    · exact .ret _ trivial
    · rename_i hi
      cases a with
      | disable => exact ih hit
      | incr =>
        simp only [Prog.bind_eq]
        refine Only.bind (Q := fun r : RecIter × EcArg => Follows' r.1) ?_ fun r hr => (hlook _).bind fun _ _ => (ih hr).bind fun _ _ => .ret _ trivial
        unfold RecIter.incr
        simp only [Prog.bind_eq]
        refine Only.bind (Q := fun r => Follows' r.2.1) ?_ ?_
        · split
          · exact (only_recTry n hit _).bind fun r hr => .ret _ hr
          · exact .ret _ hit
        · intro r hr
          split
          · exact .ret _ hr
          · exact only_recAdvance n (it := { r.2.1 with recursion := true }) hr _
      | pop =>
        simp only [Prog.bind_eq]
        refine Only.bind (Q := fun r : RecIter × EcArg => Follows' r.1) ?_ fun r hr => (hlook _).bind fun _ _ => (ih hr).bind fun _ _ => .ret _ trivial
        unfold RecIter.pop
        simp only [Prog.bind_eq]
        split
        · exact (only_reportMsg _ _ _ _ _).bind fun _ _ => .ret _ hit
        · exact .stop _
        · rename_i s ss opts hi
          refine (only_close _).bind fun _ _ => ?_
          split
          · refine .ret _ ?_
            intro _ _ h; cases h
          · refine only_recAdvance n ?_ _
            intro _ _ h; cases h; exact hit _ _ hi

/-- C44 is violated by every execution: an iterator constructed with `follow_directory_symlink` opens the directory
it is given and never another one, so it enters neither links nor directories. (`GetFileType` returns no type
when called with an `error_code`, `src/fs_dir_iterator.cpp:310-337`, and `TryRecursion` always does.) -/
theorem c44_violated {n : Nat} {p : Path} {opts : DirOptions} (hf : opts.has .followSymlink = true) {acts : List Act}
    {t : List Event} {o : Except Stop (List Obs)} (h : Exec (session n p opts acts) t o) :
    ∃ r t', t = ⟨.opendir p.pathname, r⟩ :: t' ∧ ∀ e ∈ t', ∀ d, e.call ≠ .opendir d := by
  have hrest : ∀ it ec, Follows' it → Only NoOpen (fun _ => True)
      ((look it).bind fun v => (drive n acts it).bind fun l => (.ret ((v, EcArg.code ec) :: l) : Prog (List Obs))) := by
    intro it ec hit
    refine Only.bind (Q := fun _ => True) ?_ fun _ _ => (only_drive n acts hit).bind fun _ _ => .ret _ trivial
    unfold look RecIter.deref RecIter.depth
    simp only [Prog.bind_eq]
    only
  unfold session RecIter.new Stream.new at h
  simp only [Prog.bind_eq, Prog.call_bind, clear_ref, exec_call] at h
  obtain ⟨r, t', rfl, h⟩ := h
  refine ⟨r, t', rfl, ?_⟩
  have aux : ∀ {q : Prog (List Obs)}, Only NoOpen (fun _ => True) q → Exec q t' o → ∀ e ∈ t', ∀ d, e.call ≠ .opendir d := by
    intro q hq h e he d hd
    have := (hq.exec h).1 e he
    rw [hd] at this
    exact this
  refine aux ?_ h
  have hnone : Follows' ⟨none, true⟩ := by intro _ _ h; cases h
  have hdes : ∀ s, Only NoOpen (fun _ => True) (DirIter.destroy s) := by
    intro s
    unfold DirIter.destroy
    cases s with
    | none => exact .ret _ trivial
    | some s => simp only [Prog.bind_eq]; exact (only_close s).bind fun _ _ => .ret _ trivial
  refine Only.bind (Q := fun r : RecIter × EcArg => Follows' r.1) ?_ fun r hr => hrest _ _ hr
  refine Only.bind (Q := fun _ => True) ?_ fun r _ => ?_
  · split
    · split <;> exact .ret _ trivial
    · exact (only_advance _ _).bind fun _ _ => .ret _ trivial
  · split
    · exact ((only_report _ _ _ _).finally' (hdes _)).bind fun _ _ => .ret _ hnone
    · split
      · exact .ret _ hnone
      · refine .ret _ ?_
        intro _ _ h; cases h; exact hf

/-- There are executions that see a directory: here `d/b` is one, and the iteration ends after it. -/
example : ∃ t o, Exec (session 9 (mkPath .posix "d".toList) .followSymlink [.incr]) t o ∧
    o = .ok [(some ("d/b".toList, 0), none), (none, none)] := by
  refine ⟨[⟨.opendir "d".toList, (.ok 3 : Except Errno Nat)⟩,
    ⟨.readdir 3, (.ok (some ⟨"b".toList, .dir⟩) : Except Errno (Option Dirent))⟩,
    ⟨.stat "d/b".toList, (.ok { mode := 0o040755, size := 0, nlink := 2, dev := 1, ino := 7, mtimeSec := 0, mtimeNsec := 0 } : Except Errno Stat)⟩,
    ⟨.readdir 3, (.ok none : Except Errno (Option Dirent))⟩, ⟨.closedir 3, (.ok () : Except Errno Unit)⟩], _, ?_, rfl⟩
  exact .call _ _ _ _ _ (.call _ _ _ _ _ (.call _ _ _ _ _ (.call _ _ _ _ _ (.call _ _ _ _ _ (.ret _)))))

end Asap
