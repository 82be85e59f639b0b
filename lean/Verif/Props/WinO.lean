import Verif.Props.WinN
import Verif.Props.WinM
import Verif.Props.WinD
import Verif.Props.DirB

/-!
# C79: recursive iteration on Windows over an unchanging tree

As for C43, C45 and C46 the specification is a depth-first listing and positions in it (`follow`, `land` and `observed` of
`Props/DirB`).
-/

namespace Asap
namespace Spec

/-- The entry is a directory: the bit 16 of its attributes. -/
def entryDir (d : FindData) : Bool := (d.attrs &&& 0x10#32) != 0#32

/-- The entry is a link or junction: a reparse point (bit 1024) with one of two tags. -/
def entryLink (d : FindData) : Bool :=
  (d.attrs &&& 0x400#32) != 0#32 && (d.tag == 0xA000000C#32 || d.tag == 0xA0000003#32)

/-- A directory as a search shows it: its entries in order, each with the directory below it (if it is one), then the error
that ends the search, 18 if there is no more. A directory that cannot be searched has only the error. -/
inductive WinDir where
  | done (e : Errno)
  | entry (ent : FindData) (sub rest : WinDir)

/-- The step of a walk for a code. -/
def stepOf (k : Nat) : Code → List Item
  | none => []
  | some c => [⟨k, .error c⟩]

/-- The depth-first listing. Links and junctions are not entered. -/
def winPreorder (opts : DirOptions) (k : Nat) (root : Str) : WinDir → List Item
  | .done e => stepOf k (openCode opts e)
  | .entry ent sub rest =>
    if dotName ent.name then winPreorder opts k root rest
    else ⟨k, .ok (winAppendText root ent.name)⟩ ::
      ((if entryDir ent ∧ ¬ entryLink ent then winPreorder opts (k + 1) (winAppendText root ent.name) sub else []) ++
        winPreorder opts k root rest)

/-- The same listing as this library walks it: directory links and junctions are entered, and once a link to a file has
been read (`linked`) no further directory of the same listing is. -/
def winWalked (opts : DirOptions) (linked : Bool) (k : Nat) (root : Str) : WinDir → List Item
  | .done e => stepOf k (openCode opts e)
  | .entry ent sub rest =>
    if dotName ent.name then winWalked opts linked k root rest
    else ⟨k, .ok (winAppendText root ent.name)⟩ ::
      ((if entryDir ent ∧ linked = false then winWalked opts false (k + 1) (winAppendText root ent.name) sub else []) ++
        winWalked opts (linked || (!entryDir ent && entryLink ent)) k root rest)

/-- Every directory below `root` is what `view` shows for its search text. -/
def WinShows (view : Str → WinDir) (root : Str) : WinDir → Prop
  | .done _ => True
  | .entry ent sub rest => WinShows view root rest ∧
    (¬ dotName ent.name → entryDir ent = true → view (searchText (winAppendText root ent.name)) = sub ∧
      WinShows view (winAppendText root ent.name) sub)

/-- No directories among the entries. -/
def WinNoDirs : WinDir → Prop
  | .done _ => True
  | .entry ent _ rest => (dotName ent.name ∨ entryDir ent = false) ∧ WinNoDirs rest

/-- No directory is a link or junction, and no link to a file comes before a directory of the same listing. -/
def WinPlain : WinDir → Prop
  | .done _ => True
  | .entry ent sub rest => (¬ dotName ent.name → entryLink ent = true → entryDir ent = false ∧ WinNoDirs rest) ∧
    (¬ dotName ent.name → entryDir ent = true → WinPlain sub) ∧ WinPlain rest

/-- The number of entries `.` and `..`. -/
def winDots : WinDir → Nat
  | .done _ => 0
  | .entry ent _ rest => (if dotName ent.name then 1 else 0) + winDots rest

/-- What is assumed of any tree: names have no separators and no colons, the access is denied only at the start of a
search, no search ends with the error 13 (`ERROR_INVALID_DATA`, the value of `permission_denied`), and `.` and `..` do not
appear `n` times in a listing. -/
def WinRegular (n : Nat) : WinDir → Prop
  | .done e => e.winValue ≠ 13
  | .entry ent sub rest => PlainName ent.name ∧
    (¬ dotName ent.name → entryDir ent = true → WinRegular n sub ∧ winDots sub < n) ∧ WinRegular n rest ∧
    (∀ e, rest = .done e → e.winValue ≠ 5)

/-- Searches under way with what is still to be read. -/
abbrev Searches := List (Nat × WinDir)

/-- How Windows answers while the tree does not change; the second component is the last error. Closing a search is
assumed not to change it. Using a handle that is not open, and all other calls, may do anything. -/
def Finds (view : Str → WinDir) (σ : Searches × Code) (ev : Event) (σ' : Searches × Code) : Prop :=
  match ev with
  | ⟨.win (.findFirst p), .error e⟩ => view p = .done e ∧ σ' = (σ.1, some e)
  | ⟨.win (.findFirst p), .ok (d, ent)⟩ => d ∉ σ.1.map Prod.fst ∧
    match view p with
    | .done _ => False
    | .entry ent' _ rest => ent = ent' ∧ σ'.1 = (d, rest) :: σ.1
  | ⟨.win (.findNext d), r⟩ => match σ.1.find? (·.1 = d) with
    | some (_, .done e) => r = .error e ∧ σ' = (σ.1, some e)
    | some (_, .entry ent _ rest) => r = .ok ent ∧ σ'.1 = σ.1.map fun x => if x.1 = d then (d, rest) else x
    | none => True
  | ⟨.win (.findClose d), _⟩ => d ∈ σ.1.map Prod.fst → σ' = (σ.1.filter (·.1 ≠ d), σ.2)
  | ⟨.win .lastError, c⟩ => c = σ.2 ∧ σ' = σ
  | _ => True

/-- A client performing `acts` until the iterator is at the end, noting what it sees. -/
def driveWin (n : Nat) : List Act → RecIter → Prog (List Obs)
  | [], _ => .ret []
  | a :: acts, it => match it.impl with
    | none => .ret []
    | some _ => match a with
      | .disable => driveWin n acts it.disable
      | .incr => (Win.RecIter.incr n it (.ref none)).bind fun x => (look x.1).bind fun v =>
        (driveWin n acts x.1).bind fun l => .ret ((v, x.2.code) :: l)
      | .pop => (Win.RecIter.pop n it (.ref none)).bind fun x => (look x.1).bind fun v =>
        (driveWin n acts x.1).bind fun l => .ret ((v, x.2.code) :: l)

/-- The client from the constructor on. -/
def sessionWin (n : Nat) (p : Path) (opts : DirOptions) (acts : List Act) : Prog (List Obs) :=
  (Win.RecIter.new n p opts (.ref none)).bind fun x => (look x.1).bind fun v =>
    (driveWin n acts x.1).bind fun l => .ret ((v, x.2.code) :: l)

end Spec
open Spec

/-- Parsing the stored text again changes nothing. -/
theorem win_reparse (s : Str) : mkPath .windows (mkPath .windows s).pathname = mkPath .windows s := by
  by_cases ht : winNames (winTail s) = []
  rotate_left
  · rw [win_pathname_named ht]
  by_cases hs : s = []
  · subst hs; rfl
  obtain ⟨f1, f2, f3, f4⟩ := win_stored_facts s
  rw [ht] at f4
  have hp := win_pathname s
  generalize (mkPath .windows s).pathname = u at *
  have hu : winComps u = winComps s := by
    rw [winComps_eq, winComps_eq, (toks_win_nil _ _).mpr ht, (toks_win_nil _ _).mpr f4, winTrail, winTrail,
      if_neg (fun h => h.2 f4), if_neg (fun h => h.2 ht), winRootComps, winRootComps, f1, f2, f3]
  have hune : u ≠ [] := by
    rintro rfl
    have hz : winRootLen s = 0 := by rw [← f2]; rfl
    rw [winStoredRest, if_pos ⟨hz, ht, hs⟩] at hp
    simp at hp
  rw [mkPath_windows, mkPath_windows, if_neg hs, if_neg hune, hu]
  by_cases hr : winRootLen s ≠ 0 ∧ winHasDir s = true
  · have : u = s := by
      rw [hp, winStoredRoot, if_neg (by simp [hr.2]), winStoredRest, if_neg (by simp [hr.1])]
      exact List.take_append_drop _ _
    rw [this]
  · have h1 : ∃ c, winComps s = [c] := by
      have hne := winComps_ne hs
      rw [winComps_eq, (toks_win_nil _ _).mpr ht, winTrail, if_neg (by simp [ht]), winRootComps] at hne ⊢
      simp only [List.append_nil] at hne ⊢
      by_cases hn : winRootLen s = 0
      · rw [if_pos hn] at hne ⊢
        cases hd : winHasDir s
        · simp [hd] at hne
        · exact ⟨_, rfl⟩
      · have : winHasDir s = false := by
          cases hd : winHasDir s
          · rfl
          · exact absurd ⟨hn, hd⟩ hr
        rw [if_neg hn, this]
        exact ⟨_, rfl⟩
    obtain ⟨c, hc⟩ := h1
    rw [trim, trim, hc]

namespace Win

theorem entryDir_has (d : FindData) : has d.attrs FILE_ATTRIBUTE_DIRECTORY = entryDir d := rfl

theorem typeOfFind_spec (d : FindData) : typeOfFind d = .directory ∧ entryDir d = true ∨
    typeOfFind d = .symlink ∧ entryDir d = false ∧ entryLink d = true ∨
    (typeOfFind d = .reparse ∨ typeOfFind d = .regular) ∧ entryDir d = false ∧ entryLink d = false := by
  unfold typeOfFind
  rw [entryDir_has]
  have hl : isLinkTag d.tag = (d.tag == 0xA000000C#32 || d.tag == 0xA0000003#32) := rfl
  have hr : has d.attrs FILE_ATTRIBUTE_REPARSE_POINT = ((d.attrs &&& 0x400#32) != 0#32) := rfl
  cases h1 : entryDir d
  · cases h2 : has d.attrs FILE_ATTRIBUTE_REPARSE_POINT
    · right; right; simp [entryLink, ← hr, h2]
    · cases h3 : isLinkTag d.tag
      · right; right; simp only [entryLink, ← hr, ← hl, h2, h3]; simp
      · right; left; simp only [entryLink, ← hr, ← hl, h2, h3]; simp
  · left; simp

theorem typeOfFind_dir {d : FindData} : typeOfFind d = .directory ↔ entryDir d = true := by
  rcases typeOfFind_spec d with ⟨h1, h2⟩ | ⟨h1, h2, _⟩ | ⟨h1 | h1, h2, _⟩ <;> simp [h1, h2]

theorem typeOfFind_link {d : FindData} : typeOfFind d = .symlink ↔ (!entryDir d && entryLink d) = true := by
  rcases typeOfFind_spec d with ⟨h1, h2⟩ | ⟨h1, h2, h3⟩ | ⟨h1 | h1, h2, h3⟩ <;> simp [h1, h2] <;> simp [h3]

/-- The listing after leading `.` and `..`. -/
def dropDots : WinDir → WinDir
  | .done e => .done e
  | .entry ent sub rest => if dotName ent.name then dropDots rest else .entry ent sub rest

theorem walked_dropDots (opts : DirOptions) (lk : Bool) (k : Nat) (root : Str) (L : WinDir) :
    winWalked opts lk k root (dropDots L) = winWalked opts lk k root L := by
  induction L with
  | done l => rfl
  | entry ent sub rest _ ih =>
    unfold dropDots
    split
    · rename_i h; rw [ih]; simp only [winWalked]; rw [if_pos h]
    · rfl

theorem dropDots_entry {L : WinDir} {ent sub rest} (h : dropDots L = .entry ent sub rest) : ¬ dotName ent.name := by
  induction L with
  | done l => cases h
  | entry ent' sub' rest' _ ih =>
    unfold dropDots at h
    split at h
    · exact ih h
    · cases h; assumption

theorem regular_dropDots {n : Nat} {L : WinDir} (h : WinRegular n L) : WinRegular n (dropDots L) := by
  induction L with
  | done l => exact h
  | entry ent sub rest _ ih =>
    unfold dropDots
    split
    · exact ih h.2.2.1
    · exact h

theorem shows_dropDots {view : Str → WinDir} {root : Str} {L : WinDir} (h : WinShows view root L) :
    WinShows view root (dropDots L) := by
  induction L with
  | done l => exact h
  | entry ent sub rest _ ih =>
    unfold dropDots
    split
    · exact ih h.1
    · exact h

theorem dots_dropDots (L : WinDir) : winDots (dropDots L) ≤ winDots L := by
  induction L with
  | done l => exact Nat.le_refl _
  | entry ent sub rest _ ih =>
    unfold dropDots
    split
    · simp only [winDots]; omega
    · exact Nat.le_refl _

/-- Not refused. -/
def Allowed (L : WinDir) : Prop := ∀ e, L = .done e → e.winValue ≠ 5

theorem allowed_dropDots {n : Nat} {L : WinDir} (h : WinRegular n L) (hd : Allowed L) : Allowed (dropDots L) := by
  induction L with
  | done e' => exact hd
  | entry ent sub rest _ ih =>
    unfold dropDots
    split
    · exact ih h.2.2.1 h.2.2.2
    · intro e h; cases h

section
variable {view : Str → WinDir} {α : Type}

theorem find_headW (d : Nat) (L : WinDir) (σ : Searches) : ((d, L) :: σ).find? (·.1 = d) = some (d, L) := by
  simp [List.find?]

theorem filter_keysW {σ : Searches} {d : Nat} (h : d ∉ σ.map Prod.fst) : σ.filter (·.1 ≠ d) = σ := by
  rw [List.filter_eq_self]
  intro x hx
  simp only [ne_eq, decide_not, Bool.not_eq_true', decide_eq_false_iff_not]
  rintro rfl
  exact h (List.mem_map.mpr ⟨x, hx, rfl⟩)

theorem map_keysW {σ : Searches} {d : Nat} {L : WinDir} (h : d ∉ σ.map Prod.fst) :
    σ.map (fun x => if x.1 = d then (d, L) else x) = σ := by
  conv => rhs; rw [← List.map_id σ]
  apply List.map_congr_left
  intro x hx
  rw [if_neg]; rfl
  rintro rfl
  exact h (List.mem_map.mpr ⟨x, hx, rfl⟩)

/-- With any last error at the start, and none said about the one at the end. -/
def wpF (view : Str → WinDir) (Q : Except Stop α → Searches → Prop) (p : Prog α) (σ : Searches) : Prop :=
  ∀ l, wp (Finds view) (fun o σ => Q o σ.1) p (σ, l)

theorem wpF_ret {Q : Except Stop α → Searches → Prop} {a : α} {σ : Searches} (h : Q (.ok a) σ) : wpF view Q (.ret a) σ :=
  fun _ => h

theorem wpF_bind {β : Type} {Q : Except Stop β → Searches → Prop} {p : Prog α} {f : α → Prog β} {σ : Searches}
    (h : wpF view (fun o σ => match o with
      | .ok a => wpF view Q (f a) σ
      | .error x => Q (.error x) σ) p σ) : wpF view Q (p.bind f) σ := by
  intro l
  apply wp_bind
  refine wp_mono ?_ (h l)
  intro o σ' h'
  cases o with
  | ok a => exact h' σ'.2
  | error x => exact h'

theorem wpF_mono {Q R : Except Stop α → Searches → Prop} {p : Prog α} {σ : Searches} (hQR : ∀ o σ, Q o σ → R o σ)
    (h : wpF view Q p σ) : wpF view R p σ := fun l => wp_mono (fun o σ h => hQR o σ.1 h) (h l)

/-- Closing a search. -/
theorem wp_closeTop {Q : Except Stop Stream → Searches → Prop} {s : Stream} {d : Nat} {L : WinDir} {σ : Searches}
    (hs : s.handle = some d) (hd : d ∉ σ.map Prod.fst) (hQ : Q (.ok { s with handle := none }) σ) :
    wpF view Q (Stream.close s) ((d, L) :: σ) := by
  intro l
  unfold Stream.close
  rw [hs]
  intro r σ' h
  simp only [Finds] at h
  have h := h (by simp)
  rw [List.filter_cons, if_neg (by simp), filter_keysW hd] at h
  subst h
  exact hQ

/-- The stream at an entry. -/
def atEntry (s : Stream) (root : Str) (ent : FindData) : Stream :=
  let c := { s.entry.cache with type := typeOfFind ent, cacheType := .basic }
  { s with entry := ⟨mkPath .windows (winAppendText root ent.name), if typeOfFind ent = .symlink then { c with symlink := true } else c⟩ }

theorem setEntry_plain {s : Stream} {root : Str} (hs : s.root = mkPath .windows root) {ent : FindData} (h : PlainName ent.name) :
    setEntry s ent = .ret (atEntry s root ent) := by
  unfold setEntry atEntry
  rw [hs, (win_append_plain root h).1, Prog.ofRes_ok, Prog.ret_bind]

/-- Reading the next entry. -/
theorem wp_advance {Q : Except Stop (Bool × Stream × Code) → Searches → Prop} {s : Stream} {d n : Nat} {L : WinDir}
    {σ : Searches} {root : Str} {m : Nat} (hs : s.handle = some d) (hr : s.root = mkPath .windows root) (hn : winDots L < n)
    (hL : WinRegular m L) (hd : d ∉ σ.map Prod.fst)
    (hdone : ∀ e, dropDots L = .done e → Q (.ok (false, { s with handle := none }, endCode e)) σ)
    (hent : ∀ ent sub rest, dropDots L = .entry ent sub rest → Q (.ok (true, atEntry s root ent, none)) ((d, rest) :: σ)) :
    wpF view Q (Stream.advance n s) ((d, L) :: σ) := by
  obtain ⟨hdl, sroot, entry⟩ := s
  cases hs
  induction n generalizing L with
  | zero => omega
  | succ n ih =>
    unfold Stream.advance
    intro l r σ' h
    simp only [Finds, find_headW] at h
    cases L with
    | done e =>
      obtain ⟨rfl, rfl⟩ := h
      refine wpF_bind ?_ _
      refine wp_closeTop rfl hd ?_
      exact wpF_ret (hdone e rfl)
    | entry ent sub rest =>
      obtain ⟨rfl, h⟩ := h
      rw [List.map_cons, if_pos rfl, map_keysW hd] at h
      obtain ⟨σ1, l1⟩ := σ'
      cases h
      obtain ⟨h1, h4, h5, h6⟩ := hL
      dsimp only
      by_cases hdot : dotName ent.name
      · rw [if_pos ((isDots_iff _).mpr hdot)]
        refine ih (by simp only [winDots, if_pos hdot] at hn; omega) h5 (fun e he => hdone e ?_)
          (fun a b c he => hent a b c ?_) l1
        · unfold dropDots; rw [if_pos hdot]; exact he
        · unfold dropDots; rw [if_pos hdot]; exact he
      · rw [if_neg (by rw [isDots_iff]; exact hdot), setEntry_plain hr h1, Prog.ret_bind]
        exact hent ent sub rest (by unfold dropDots; rw [if_neg hdot])

/-- Skipping `.` and `..` at the start. -/
theorem wp_skipDots {Q : Except Stop (Option FindData) → Searches × Code → Prop} {d n : Nat} {ent : FindData} {sub rest : WinDir}
    {σ : Searches} {l : Code} {m : Nat} (hn : winDots (.entry ent sub rest) < n) (hL : WinRegular m (.entry ent sub rest))
    (hd : d ∉ σ.map Prod.fst)
    (hdone : ∀ e, dropDots (.entry ent sub rest) = .done e → Q (.ok none) (σ, some e))
    (hent : ∀ ent' sub' rest' l, dropDots (.entry ent sub rest) = .entry ent' sub' rest' → Q (.ok (some ent')) ((d, rest') :: σ, l)) :
    wp (Finds view) Q (Win.skipDots d n ent) ((d, rest) :: σ, l) := by
  induction n generalizing ent sub rest l with
  | zero => omega
  | succ n ih =>
    unfold Win.skipDots
    by_cases hdot : dotName ent.name
    · rw [if_pos ((isDots_iff _).mpr hdot)]
      have hdrop : dropDots (.entry ent sub rest) = dropDots rest := by rw [dropDots, if_pos hdot]
      rw [hdrop] at hdone hent
      obtain ⟨h1, h4, h5, h6⟩ := hL
      simp only [winDots, if_pos hdot] at hn
      intro r σ' h
      simp only [Finds, find_headW] at h
      cases rest with
      | done e =>
        obtain ⟨rfl, rfl⟩ := h
        intro r σ' h
        simp only [Finds] at h
        have h := h (by simp)
        rw [List.filter_cons, if_neg (by simp), filter_keysW hd] at h
        subst h
        exact hdone e rfl
      | entry ent' sub' rest' =>
        obtain ⟨rfl, h⟩ := h
        rw [List.map_cons, if_pos rfl, map_keysW hd] at h
        obtain ⟨σ1, l1⟩ := σ'
        cases h
        exact ih (by omega) h5 hdone hent
    · rw [if_neg (by rw [isDots_iff]; exact hdot)]
      exact hent _ _ _ l (by rw [dropDots, if_neg hdot])

/-- An open directory of the walk. -/
structure Frame where
  h : Nat
  root : Str
  linked : Bool
  rest : WinDir

/-- A stream reads what the frame says. -/
structure Reading (view : Str → WinDir) (n : Nat) (s : Stream) (f : Frame) : Prop where
  handle : s.handle = some f.h
  root : s.root = mkPath .windows f.root
  regular : WinRegular n f.rest
  dots : winDots f.rest < n
  allowed : Allowed f.rest
  shows : WinShows view f.root f.rest
  links : s.entry.cache.symlink = f.linked

inductive StackOk (view : Str → WinDir) (n : Nat) : List Stream → List Frame → Prop
  | nil : StackOk view n [] []
  | cons {s ss f fs} : Reading view n s f → StackOk view n ss fs → StackOk view n (s :: ss) (f :: fs)

def table (fs : List Frame) : Searches := fs.map fun f => (f.h, f.rest)

theorem table_keys (fs : List Frame) : (table fs).map Prod.fst = fs.map Frame.h := by
  simp [table, Function.comp_def]

/-- What is visited between an entry and the next of its listing; `lk` says whether a link has been read. -/
def below (opts : DirOptions) (lk : Bool) (k : Nat) (p : Str) (dir : Bool) (sub : WinDir) : List Item :=
  if dir = true ∧ lk = false then winWalked opts false k p sub else []

theorem walked_entry (opts : DirOptions) (lk : Bool) (k : Nat) (root : Str) {ent : FindData} (h : ¬ dotName ent.name) (sub rest : WinDir) :
    winWalked opts lk k root (.entry ent sub rest) = ⟨k, .ok (winAppendText root ent.name)⟩ ::
      (below opts (lk || (!entryDir ent && entryLink ent)) (k + 1) (winAppendText root ent.name) (entryDir ent) sub ++
        winWalked opts (lk || (!entryDir ent && entryLink ent)) k root rest) := by
  simp only [winWalked, below]
  rw [if_neg h]
  cases hd : entryDir ent <;> simp

/-- What is left to visit after the current entries of the stack. -/
def todo (opts : DirOptions) : List Frame → List Item
  | [] => []
  | f :: fs => winWalked opts f.linked fs.length f.root f.rest ++ todo opts fs

/-- The iterator is at the first of the items. -/
def Cur (view : Str → WinDir) (opts : DirOptions) (n : Nat) (ss : List Stream) (σ : Searches) (items : List Item) : Prop :=
  ∃ (s : Stream) (ss0 : List Stream) (f : Frame) (fs : List Frame) (ent : FindData) (sub : WinDir), ss = s :: ss0 ∧
    Reading view n s f ∧ StackOk view n ss0 fs ∧ ((f :: fs).map Frame.h).Nodup ∧
    σ = table (f :: fs) ∧ s.entry.path = mkPath .windows (winAppendText f.root ent.name) ∧
    s.entry.path.pathname = winAppendText f.root ent.name ∧
    s.entry.cache.cacheType = .basic ∧ s.entry.cache.type = typeOfFind ent ∧
    (entryDir ent = true → view (searchText (winAppendText f.root ent.name)) = sub ∧
      WinShows view (winAppendText f.root ent.name) sub ∧ WinRegular n sub ∧ winDots sub < n) ∧
    items = ⟨fs.length, .ok (winAppendText f.root ent.name)⟩ ::
      (below opts f.linked (fs.length + 1) (winAppendText f.root ent.name) (entryDir ent) sub ++ todo opts (f :: fs))

/-- Closing everything. -/
theorem wp_closeAll {Q : Except Stop Unit → Searches → Prop} {n : Nat} {ss : List Stream} {fs : List Frame} (h : StackOk view n ss fs)
    {X : Searches} (hnd : (X.map Prod.fst ++ fs.map Frame.h).Nodup) (hQ : Q (.ok ()) X) :
    wpF view Q (closeAll ss) (X ++ table fs) := by
  induction h generalizing X Q with
  | nil => simpa [closeAll, table, wpF, wp] using hQ
  | @cons s ss f fs hr hss ih =>
    simp only [closeAll]
    apply wpF_bind
    have : X ++ table (f :: fs) = (X ++ [(f.h, f.rest)]) ++ table fs := by simp [table]
    rw [this]
    refine ih (by simpa using hnd) ?_
    dsimp only
    apply wpF_bind
    unfold Stream.close
    rw [hr.handle]
    intro l r σ' hs
    simp only [Finds] at hs
    have hs := hs (by simp)
    have hf : f.h ∉ X.map Prod.fst := by
      intro hm
      rw [List.nodup_append] at hnd
      exact hnd.2.2 _ hm f.h (by simp) rfl
    rw [List.filter_append, filter_keysW hf, List.filter_cons, if_neg (by simp), List.filter_nil, List.append_nil] at hs
    subst hs
    exact wpF_ret hQ

theorem codes {n : Nat} {L : WinDir} {e : Errno} (opts : DirOptions) (hr : WinRegular n L) (ha : Allowed L) (h : dropDots L = .done e) :
    openCode opts e = endCode e ∧ endCode e ≠ some .EACCES := by
  have h1 := allowed_dropDots hr ha e h
  have h2 := regular_dropDots hr
  rw [h] at h2
  refine ⟨by rw [openCode, if_neg h1], ?_⟩
  unfold endCode
  split
  · simp
  · rintro ⟨⟩; exact h2 rfl

theorem Reading.next {n : Nat} {s : Stream} {f : Frame} (hr : Reading view n s f) {ss : List Stream} {fs : List Frame}
    (hss : StackOk view n ss fs) (hnd : ((f :: fs).map Frame.h).Nodup) {ent : FindData} {sub rest : WinDir} (opts : DirOptions)
    (he : dropDots f.rest = .entry ent sub rest) :
    ∃ xs, winWalked opts f.linked fs.length f.root f.rest = ⟨fs.length, .ok (winAppendText f.root ent.name)⟩ :: xs ∧
      Cur view opts n (atEntry s f.root ent :: ss) ((f.h, rest) :: table fs)
        (winWalked opts f.linked fs.length f.root f.rest ++ todo opts fs) := by
  have hdot := dropDots_entry he
  have hreg := regular_dropDots hr.regular
  have hsh := shows_dropDots hr.shows
  have hdts : winDots (dropDots f.rest) < n := Nat.lt_of_le_of_lt (dots_dropDots _) hr.dots
  rw [he] at hreg hsh hdts
  have hpre := walked_entry opts f.linked fs.length f.root hdot sub rest
  rw [← walked_dropDots, he, hpre]
  obtain ⟨h1, h4, h5, h6⟩ := hreg
  have happ := win_append_plain f.root h1
  have hname : winNames (winTail (winAppendText f.root ent.name)) ≠ [] := by rw [happ.2.2.2.2.1]; simp
  refine ⟨_, rfl, _, ss, ⟨f.h, f.root, f.linked || (!entryDir ent && entryLink ent), rest⟩, fs, ent, sub, rfl,
    ⟨hr.handle, hr.root, h5, ?_, h6, hsh.1, ?_⟩, hss, hnd, rfl, rfl, win_pathname_named hname, ?_, ?_, ?_, ?_⟩
  · simp only [winDots, if_neg hdot] at hdts; dsimp only; omega
  · simp only [atEntry]
    split
    · rename_i h; rw [typeOfFind_link] at h; simp [h]
    · rename_i h
      rw [typeOfFind_link] at h
      simp [h, hr.links]
  · simp only [atEntry]; split <;> rfl
  · simp only [atEntry]; split <;> rfl
  · intro hdir
    obtain ⟨h7, h8⟩ := hsh.2 hdot hdir
    obtain ⟨h9, h10⟩ := h4 hdot hdir
    exact ⟨h7, h8, h9, h10⟩
  · simp [todo]

/-- Reading the next entry of a stream on the walk. -/
theorem wp_next {Q : Except Stop (Bool × Stream × Code) → Searches → Prop} {opts : DirOptions} {n : Nat} {s : Stream} {f : Frame}
    (hr : Reading view n s f) {ss : List Stream} {fs : List Frame} (hss : StackOk view n ss fs)
    (hnd : ((f :: fs).map Frame.h).Nodup)
    (hdone : ∀ c s', s'.handle = none → winWalked opts f.linked fs.length f.root f.rest = stepOf fs.length c →
      Q (.ok (false, s', c)) (table fs))
    (hent : ∀ s' σ p xs, winWalked opts f.linked fs.length f.root f.rest = ⟨fs.length, .ok p⟩ :: xs →
      Cur view opts n (s' :: ss) σ (winWalked opts f.linked fs.length f.root f.rest ++ todo opts fs) →
      Q (.ok (true, s', none)) σ) :
    wpF view Q (Stream.advance n s) (table (f :: fs)) := by
  have hf : f.h ∉ (table fs).map Prod.fst := by
    rw [table_keys]
    exact (List.nodup_cons.mp hnd).1
  refine wp_advance hr.handle hr.root hr.dots hr.regular hf (fun e he => ?_) (fun ent sub rest he => ?_)
  · refine hdone _ _ rfl ?_
    rw [← walked_dropDots, he, ← (codes opts hr.regular hr.allowed he).1]
    rfl
  · obtain ⟨xs, h1, h2⟩ := hr.next hss hnd opts he
    exact hent _ _ _ _ h1 h2

theorem wp_advanceStack {Q : Except Stop (List Stream × Code) → Searches → Prop} {opts : DirOptions} {n : Nat}
    {ss : List Stream} {fs : List Frame} (hss : StackOk view n ss fs) (hnd : (fs.map Frame.h).Nodup)
    (hdone : todo opts fs = [] → Q (.ok ([], none)) [])
    (herr : ∀ k e xs s ss' fs', todo opts fs = ⟨k, .error e⟩ :: xs → s.handle = none → StackOk view n ss' fs' →
      (fs'.map Frame.h).Nodup → Q (.ok (s :: ss', some e)) (table fs'))
    (hent : ∀ k p xs ss' σ, todo opts fs = ⟨k, .ok p⟩ :: xs → Cur view opts n ss' σ (todo opts fs) →
      Q (.ok (ss', none)) σ) :
    wpF view Q (advanceStack n ss) (table fs) := by
  induction hss with
  | nil => exact wpF_ret (hdone rfl)
  | @cons s ss f fs hr hss ih =>
    simp only [advanceStack]
    apply wpF_bind
    refine wp_next (opts := opts) hr hss hnd (fun c s' hs' h => ?_) (fun s' σ p xs h hc => ?_)
    · cases c with
      | none =>
        have ht : todo opts (f :: fs) = todo opts fs := by simp [todo, h, stepOf]
        rw [ht] at hdone herr hent
        exact ih (List.nodup_cons.mp hnd).2 hdone herr hent
      | some e =>
        exact wpF_ret (herr fs.length e (todo opts fs) s' ss fs (by simp [todo, h, stepOf]) hs' hss (List.nodup_cons.mp hnd).2)
    · exact wpF_ret (hent fs.length p (xs ++ todo opts fs) _ σ (by simp [todo, h]) hc)

theorem walked_depth (opts : DirOptions) (lk : Bool) (k : Nat) (root : Str) (L : WinDir) : ∀ x ∈ winWalked opts lk k root L, k ≤ x.depth := by
  induction L generalizing lk k root with
  | done e =>
    intro x hx
    simp only [winWalked] at hx
    cases h : openCode opts e with
    | none => rw [h] at hx; cases hx
    | some c => rw [h, stepOf, List.mem_singleton] at hx; rw [hx]; exact Nat.le_refl _
  | entry ent sub rest ih1 ih2 =>
    intro x hx
    by_cases hdot : dotName ent.name
    · simp only [winWalked] at hx
      rw [if_pos hdot] at hx
      exact ih2 _ _ _ x hx
    · rw [walked_entry _ _ _ _ hdot] at hx
      rcases List.mem_cons.mp hx with rfl | hx
      · exact Nat.le_refl _
      · rcases List.mem_append.mp hx with hx | hx
        · unfold below at hx
          split at hx
          · have := ih1 _ _ _ x hx; omega
          · cases hx
        · exact ih2 _ _ _ x hx

theorem below_depth (opts : DirOptions) (lk : Bool) (k : Nat) (root : Str) (b : Bool) (L : WinDir) : ∀ x ∈ below opts lk k root b L, k ≤ x.depth := by
  intro x hx
  unfold below at hx
  split at hx
  · exact walked_depth _ _ _ _ _ x hx
  · cases hx

theorem walked_head (opts : DirOptions) (lk : Bool) (k : Nat) (root : Str) (L : WinDir) :
    ∀ x, (winWalked opts lk k root L).head? = some x → x.depth = k := by
  induction L generalizing lk root with
  | done e =>
    intro x hx
    simp only [winWalked] at hx
    cases h : openCode opts e with
    | none => rw [h] at hx; cases hx
    | some c => rw [h] at hx; cases hx; rfl
  | entry ent sub rest _ ih2 =>
    intro x hx
    simp only [winWalked] at hx
    split at hx
    · exact ih2 _ _ x hx
    · cases hx; rfl

theorem todo_head (opts : DirOptions) (fs : List Frame) : ∀ x, (todo opts fs).head? = some x → x.depth < fs.length := by
  induction fs with
  | nil => intro x hx; cases hx
  | cons f fs ih =>
    intro x hx
    simp only [todo] at hx
    cases hp : winWalked opts f.linked fs.length f.root f.rest with
    | nil => rw [hp] at hx; have := ih x hx; simp only [List.length_cons]; omega
    | cons y ys =>
      rw [hp] at hx
      obtain rfl : y = x := by simpa using hx
      have := walked_head opts f.linked fs.length f.root f.rest y (by rw [hp]; rfl)
      simp only [List.length_cons]; omega

theorem drop_sub (opts : DirOptions) (lk : Bool) (f : Frame) (fs : List Frame) (p : Str) (b : Bool) (sub : WinDir) :
    (below opts lk (fs.length + 1) p b sub ++ todo opts (f :: fs)).dropWhile
      (fun y => decide (fs.length < y.depth)) = todo opts (f :: fs) := by
  rw [dropWhile_all, dropWhile_head]
  · intro x hx
    have := todo_head opts _ x hx
    simp only [List.length_cons] at this
    simp only [decide_eq_false_iff_not]; omega
  · intro x hx
    have := below_depth _ _ _ _ _ _ x hx
    simp only [decide_eq_true_eq]; omega

theorem drop_dir (opts : DirOptions) (lk : Bool) (f : Frame) (fs : List Frame) (p : Str) (b : Bool) (sub : WinDir) :
    (below opts lk (fs.length + 1) p b sub ++ todo opts (f :: fs)).dropWhile
      (fun y => decide (fs.length ≤ y.depth)) = todo opts fs := by
  rw [dropWhile_all]
  · simp only [todo]
    rw [dropWhile_all, dropWhile_head]
    · intro x hx
      have := todo_head opts _ x hx
      simp only [decide_eq_false_iff_not]; omega
    · intro x hx
      have := walked_depth _ _ _ _ _ x hx
      simp only [decide_eq_true_eq]; omega
  · intro x hx
    have := below_depth _ _ _ _ _ _ x hx
    simp only [decide_eq_true_eq]; omega

/-- The iterator has arrived at the first of the items. -/
def Landed (view : Str → WinDir) (opts : DirOptions) (n : Nat) (it : RecIter) (ec : EcArg) (σ : Searches) (pending : Bool) :
    List Item → Prop
  | [] => it.impl = none ∧ σ = [] ∧ ec = .ref none
  | ⟨_, .error e⟩ :: _ => it.impl = none ∧ σ = [] ∧ ec = .ref (some e)
  | ⟨k, .ok p⟩ :: xs => ∃ ss, it.impl = some (ss, opts) ∧ Cur view opts n ss σ (⟨k, .ok p⟩ :: xs) ∧
      it.recursion = pending ∧ ec = .ref none

theorem wp_recAdvance {Q : Except Stop (RecIter × EcArg) → Searches → Prop} {opts : DirOptions} {n : Nat} {it : RecIter} {c : Code}
    {ss : List Stream} {fs : List Frame} (hi : it.impl = some (ss, opts)) (hss : StackOk view n ss fs)
    (hnd : (fs.map Frame.h).Nodup)
    (hQ : ∀ it' ec σ, Landed view opts n it' ec σ it.recursion (todo opts fs) → Q (.ok (it', ec)) σ) :
    wpF view Q (RecIter.advance n it (.ref c)) (table fs) := by
  unfold RecIter.advance
  simp only [hi, clear_ref]
  apply wpF_bind
  refine wp_advanceStack (opts := opts) hss hnd (fun h => ?_) (fun k e xs s ss' fs' h hs hss' hnd' => ?_)
    (fun k p xs ss' σ h hc => ?_)
  · rw [h] at hQ
    exact wpF_ret (hQ _ _ _ ⟨rfl, rfl, rfl⟩)
  · rw [h] at hQ
    dsimp only
    apply wpF_bind
    simp only [closeAll]
    apply wpF_bind
    refine wp_closeAll (X := []) hss' (by simpa using hnd') ?_
    dsimp only
    unfold Stream.close
    rw [hs]
    exact wpF_ret (wpF_ret (hQ _ _ _ ⟨rfl, rfl, rfl⟩))
  · rw [h] at hQ hc
    dsimp only
    obtain ⟨s, ss0, f, fs', ent, sub, rfl, hrest⟩ := hc
    exact wpF_ret (hQ _ _ _ ⟨_, rfl, ⟨s, ss0, f, fs', ent, sub, rfl, hrest⟩, rfl, rfl⟩)

/-- The cached type of an entry read from a directory. -/
theorem recursionType_basic {opts : DirOptions} (hf : opts.has .followSymlink = false) {e : Entry} {ent : FindData}
    (h1 : e.cache.cacheType = .basic) (h2 : e.cache.type = typeOfFind ent) :
    recursionType opts e = .ret (!(entryDir ent && !e.cache.symlink), e, none) := by
  unfold recursionType getSymLinkFileType
  simp only [hf, h1, h2, clear_ref, reduceCtorEq, if_false, Prog.ret_bind, Bool.false_eq_true, Bool.not_false, if_true]
  cases hs : e.cache.symlink
  · rcases typeOfFind_spec ent with ⟨h3, h4⟩ | ⟨h3, h4, _⟩ | ⟨h3 | h3, h4, _⟩ <;> rw [h3, h4] <;> rfl
  · cases entryDir ent <;> rfl

theorem moved_mkPath (s : Str) : (mkPath .windows s).moved .windows = mkPath .windows s := win_reparse s

theorem Reading.moved {n : Nat} {s : Stream} {f : Frame} (h : Reading view n s f) : Reading view n (Stream.moved s) f :=
  ⟨h.handle, by simp only [Stream.moved]; rw [h.root, moved_mkPath], h.regular, h.dots, h.allowed, h.shows, h.links⟩

theorem Cur.moved {opts : DirOptions} {n : Nat} {s : Stream} {ss : List Stream} {σ : Searches} {items : List Item}
    (h : Cur view opts n (s :: ss) σ items) : Cur view opts n (Stream.moved s :: ss) σ items := by
  obtain ⟨s', ss0, f, fs, ent, sub, he, h1, h2, h3, h4, h5, h6, h7⟩ := h
  cases he
  have : s.entry.path.moved .windows = s.entry.path := by rw [h5, moved_mkPath]
  refine ⟨_, ss, f, fs, ent, sub, rfl, h1.moved, h2, h3, h4, ?_, ?_, h7⟩
  · simp only [Stream.moved]; rw [this, h5]
  · simp only [Stream.moved]; rw [this, h6]

/-- Opening a directory and reading its first entry: no stream or a position at the start of its listing. -/
theorem wp_streamNew {Q : Except Stop (Stream × Code) → Searches → Prop} {opts : DirOptions} {n : Nat} {root : Str}
    {ss : List Stream} {fs : List Frame} (hss : StackOk view n ss fs) (hnd : (fs.map Frame.h).Nodup)
    {sub : WinDir} (hv : view (searchText (mkPath .windows root).pathname) = sub) (hsh : WinShows view root sub)
    (hreg : WinRegular n sub) (hdts : winDots sub < n)
    (hdone : ∀ (c : Code) (s : Stream), s.handle = none → winWalked opts false fs.length root sub = stepOf fs.length c →
      (c = some .EACCES → opts.has .skipDenied = false) → Q (.ok (s, c)) (table fs))
    (hent : ∀ s σ q xs, winWalked opts false fs.length root sub = ⟨fs.length, .ok q⟩ :: xs →
      s.good = true → Cur view opts n (s :: ss) σ (winWalked opts false fs.length root sub ++ todo opts fs) →
      Q (.ok (s, none)) σ) :
    wpF view Q (Stream.new n (mkPath .windows root) opts) (table fs) := by
  have hcode : ∀ e : Errno, e.winValue ≠ 13 → openCode opts e = some .EACCES → opts.has .skipDenied = false := by
    intro e h1 h2
    unfold openCode at h2
    split at h2
    · split at h2
      · cases h2
      · rename_i h; simpa using h
    · unfold endCode at h2
      split at h2
      · cases h2
      · cases h2; exact absurd rfl h1
  unfold Stream.new
  rw [pattern_text]
  intro l r σ' h
  rcases r with e | ⟨d, ent⟩
  · simp only [Finds, hv] at h
    obtain ⟨rfl, rfl⟩ := h
    have h1 : e.winValue ≠ 13 := hreg
    refine hdone _ _ rfl ?_ (by rw [openError_code]; exact hcode e h1)
    rw [openError_code]
    rfl
  · simp only [Finds, hv] at h
    obtain ⟨h2, h⟩ := h
    cases sub with
    | done e => exact absurd h id
    | entry ent' sub' rest' =>
      obtain ⟨rfl, h⟩ := h
      obtain ⟨σ1, l1⟩ := σ'
      cases h
      apply wp_bind
      have hwalk := walked_dropDots opts false fs.length root (.entry ent sub' rest')
      refine wp_skipDots hdts hreg h2 (fun e he => ?_) (fun ent2 sub2 rest2 l2 he => ?_)
      · intro r σ' h
        simp only [Finds] at h
        obtain ⟨rfl, rfl⟩ := h
        have h1 := regular_dropDots hreg
        rw [he] at h1 hwalk
        have h1 : e.winValue ≠ 13 := h1
        refine hdone _ _ rfl ?_ (by rw [openError_code]; exact hcode e h1)
        rw [openError_code, ← hwalk]
        rfl
      · rw [table_keys] at h2
        have hr : Reading view n ⟨some d, mkPath .windows root, .default⟩ ⟨d, root, false, .entry ent sub' rest'⟩ :=
          ⟨rfl, rfl, hreg, hdts, (fun _ h => by cases h), hsh, rfl⟩
        have hnd' : (((⟨d, root, false, .entry ent sub' rest'⟩ : Frame) :: fs).map Frame.h).Nodup := by
          rw [List.map_cons, List.nodup_cons]; exact ⟨h2, hnd⟩
        obtain ⟨xs, h3, h4⟩ := hr.next hss hnd' opts he
        have hp : PlainName ent2.name := by
          have := regular_dropDots hreg
          rw [he] at this
          exact this.1
        dsimp only
        rw [setEntry_plain (root := root) rfl hp, Prog.ret_bind]
        exact hent _ _ _ _ h3 rfl h4

/-- `TryRecursion` at the entry `ent`. -/
theorem wp_try {Q : Except Stop ((Bool × RecIter) × EcArg) → Searches → Prop} {opts : DirOptions} {n : Nat} {it : RecIter} {c : Code}
    {s : Stream} {ss : List Stream} {f : Frame} {fs : List Frame} {ent : FindData} {sub : WinDir} {p : Str}
    (hf : opts.has .followSymlink = false)
    (hi : it.impl = some (s :: ss, opts)) (hr : Reading view n s f) (hss : StackOk view n ss fs)
    (hnd : ((f :: fs).map Frame.h).Nodup) (hsp : s.entry.path = mkPath .windows p) (hpn : s.entry.path.pathname = p)
    (hct : s.entry.cache.cacheType = .basic) (hty : s.entry.cache.type = typeOfFind ent)
    (hdir : entryDir ent = true → view (searchText p) = sub ∧ WinShows view p sub ∧ WinRegular n sub ∧ winDots sub < n)
    {bl : List Item} (hb : bl = below opts f.linked (fs.length + 1) p (entryDir ent) sub)
    (hnone : bl = [] → Q (.ok ((false, it), .ref none)) (table (f :: fs)))
    (herr : ∀ k e xs, bl = ⟨k, .error e⟩ :: xs → ∀ it', it'.impl = none → Q (.ok ((false, it'), .ref (some e))) [])
    (hent : ∀ k q xs, bl = ⟨k, .ok q⟩ :: xs → ∀ it' ss' σ, it'.impl = some (ss', opts) → it'.recursion = it.recursion →
      Cur view opts n ss' σ (bl ++ todo opts (f :: fs)) → Q (.ok ((true, it'), .ref none)) σ) :
    wpF view Q (RecIter.tryRecursion n it (.ref c)) (table (f :: fs)) := by
  have hit : ({ it with impl := some (s :: ss, opts) } : RecIter) = it := by
    obtain ⟨i, r⟩ := it; cases hi; rfl
  unfold RecIter.tryRecursion
  simp only [hi, clear_ref, recursionType_basic hf hct hty, Prog.ret_bind, Bool.not_not, hr.links]
  unfold below at hb
  by_cases hgo : entryDir ent = true ∧ f.linked = false
  · rw [if_pos hgo] at hb
    obtain ⟨hv, hsh, hreg, hdts⟩ := hdir hgo.1
    simp only [hgo.1, hgo.2, Bool.not_false, Bool.and_self, if_true]
    subst hb
    apply wpF_bind
    apply wpF_bind
    rw [hsp]
    refine wp_streamNew (view := view) (opts := opts) (root := p) (StackOk.cons hr hss) hnd (by rw [← hsp, hpn]; exact hv)
      hsh hreg hdts (fun c s' hs' h1 h2 => ?_) (fun s' σ q xs h1 h2 h3 => ?_)
    · simp only [Stream.good, hs', Option.isSome_none, Bool.false_eq_true, if_false]
      refine wpF_ret ?_
      cases c with
      | none =>
        refine wpF_ret ?_
        rw [hit]
        exact hnone h1
      | some e =>
        dsimp only
        rw [if_neg (by rintro ⟨rfl, h⟩; rw [h2 rfl] at h; cases h)]
        apply wpF_bind
        refine wp_closeAll (X := []) (StackOk.cons (s := s) hr hss) (by simpa using hnd) ?_
        exact wpF_ret (herr _ e [] h1 _ rfl)
    · simp only [h2, if_true]
      exact wpF_ret (wpF_ret (hent _ _ _ h1 _ _ _ rfl rfl h3.moved))
  · rw [if_neg hgo] at hb
    have : (entryDir ent && !f.linked) = false := by
      cases h1 : entryDir ent
      · rfl
      · cases h2 : f.linked
        · exact absurd ⟨h1, h2⟩ hgo
        · rfl
    simp only [this, Bool.false_eq_true, if_false, Prog.ret_bind]
    refine wpF_ret ?_
    rw [hit]
    exact hnone hb

/-- `increment`. -/
theorem wp_recIncr {Q : Except Stop (RecIter × EcArg) → Searches → Prop} {opts : DirOptions} {n : Nat} {it : RecIter} {c : Code}
    {ss : List Stream} {σ : Searches} {x : Item} {xs : List Item} (hf : opts.has .followSymlink = false)
    (hi : it.impl = some (ss, opts)) (hc : Cur view opts n ss σ (x :: xs))
    (hQ : ∀ it' ec σ, Landed view opts n it' ec σ true
      (if it.recursion then xs else xs.dropWhile fun y => x.depth < y.depth) → Q (.ok (it', ec)) σ) :
    wpF view Q (RecIter.incr n it (.ref c)) σ := by
  obtain ⟨s, ss0, f, fs, ent, sub, rfl, hr, hss, hnd, rfl, hsp, hpn, hct, hty, hdir, hitems⟩ := hc
  cases hitems
  unfold RecIter.incr
  simp only [clear_ref]
  apply wpF_bind
  cases hrec : it.recursion with
  | false =>
    simp only [hrec, Bool.false_eq_true, if_false] at hQ ⊢
    rw [drop_sub] at hQ
    exact wpF_ret (wp_recAdvance (it := { it with recursion := true }) hi (.cons hr hss) hnd hQ)
  | true =>
    simp only [hrec, if_true] at hQ ⊢
    apply wpF_bind
    refine wp_try hf hi hr hss hnd hsp hpn hct hty hdir rfl (fun hb => ?_) (fun k e xs hb it' h1 => ?_)
      (fun k q xs hb it' ss' σ h1 h2 h3 => ?_)
    · rw [hb, List.nil_append] at hQ
      exact wpF_ret (wp_recAdvance (it := { it with recursion := true }) hi (.cons hr hss) hnd hQ)
    · rw [hb] at hQ
      exact wpF_ret (wpF_ret (hQ _ _ _ ⟨h1, rfl, rfl⟩))
    · rw [hb] at hQ h3
      exact wpF_ret (wpF_ret (hQ _ _ _ ⟨_, h1, h3, by rw [h2, hrec], rfl⟩))

/-- `pop`. -/
theorem wp_recPop {Q : Except Stop (RecIter × EcArg) → Searches → Prop} {opts : DirOptions} {n : Nat} {it : RecIter} {c : Code}
    {ss : List Stream} {σ : Searches} {x : Item} {xs : List Item}
    (hi : it.impl = some (ss, opts)) (hc : Cur view opts n ss σ (x :: xs))
    (hQ : ∀ it' ec σ, Landed view opts n it' ec σ it.recursion (xs.dropWhile fun y => x.depth ≤ y.depth) →
      Q (.ok (it', ec)) σ) :
    wpF view Q (RecIter.pop n it (.ref c)) σ := by
  obtain ⟨s, ss0, f, fs, ent, sub, rfl, hr, hss, hnd, rfl, hsp, hpn, hct, hty, hdir, hitems⟩ := hc
  cases hitems
  rw [drop_dir] at hQ
  unfold RecIter.pop
  simp only [hi, clear_ref]
  apply wpF_bind
  refine wp_closeTop hr.handle (by rw [← table, table_keys]; exact (List.nodup_cons.mp hnd).1) ?_
  dsimp only
  cases hss with
  | nil => exact wpF_ret (hQ _ _ _ ⟨rfl, rfl, rfl⟩)
  | cons h1 h2 =>
    exact wp_recAdvance (it := { it with impl := some (_, opts) }) rfl (.cons h1 h2) (List.nodup_cons.mp hnd).2 hQ

/-- What the client has seen is `l`; at the end nothing is open. -/
def Seen (l : List Obs) (o : Except Stop (List Obs)) (σ : Searches) : Prop :=
  o = .ok l ∧ (l.getLast?.map Prod.fst = some none → σ = [])

/-- From an entry on. -/
def Follows (view : Str → WinDir) (opts : DirOptions) (n : Nat) (acts : List Act) : Prop :=
  ∀ (it : RecIter) (ss : List Stream) (σ : Searches) (items : List Item), it.impl = some (ss, opts) →
    Cur view opts n ss σ items →
    wpF view (Seen (Spec.follow acts items it.recursion)) (driveWin n acts it) σ

theorem drive_end (n : Nat) (acts : List Act) {it : RecIter} (h : it.impl = none) : driveWin n acts it = .ret [] := by
  cases acts with
  | nil => rfl
  | cons a acts => simp only [driveWin, h]

theorem StackOk.length {n : Nat} {ss : List Stream} {fs : List Frame} (h : StackOk view n ss fs) : ss.length = fs.length := by
  induction h with
  | nil => rfl
  | cons _ _ ih => simp [ih]

/-- Arriving, and everything seen from then on. -/
theorem wp_land {opts : DirOptions} {n : Nat} {acts : List Act} (h : Follows view opts n acts) {it : RecIter} {ec : EcArg}
    {σ : Searches} {items : List Item} {pending : Bool} (hl : Landed view opts n it ec σ pending items) :
    wpF view (Seen (land acts items pending))
      ((look it).bind fun v => (driveWin n acts it).bind fun l => .ret ((v, ec.code) :: l)) σ := by
  rcases items with _ | ⟨⟨k, e | p⟩, xs⟩
  · obtain ⟨h1, h2, h3⟩ := hl
    simp only [look, h1, drive_end n acts h1, Prog.ret_bind, h3]
    refine wpF_ret ⟨?_, fun _ => h2⟩
    simp [land, EcArg.code]
  · obtain ⟨h1, h2, h3⟩ := hl
    simp only [look, h1, drive_end n acts h1, Prog.ret_bind, h3]
    refine wpF_ret ⟨?_, fun _ => h2⟩
    simp [land, EcArg.code]
  · obtain ⟨ss, h1, h2, h3, h4⟩ := hl
    have hf := h it ss σ _ h1 h2
    obtain ⟨s, ss0, f, fs, ent, sub, rfl, hr, hss, hnd, hσ, hsp, hpn, hct, hty, hdir, hitems⟩ := h2
    cases hitems
    simp only [look, RecIter.deref, RecIter.depth, h1, Prog.bind_eq, Prog.ret_bind]
    apply wpF_bind
    refine wpF_mono ?_ hf
    rintro o σ' ⟨rfl, h6⟩
    dsimp only
    refine wpF_ret ⟨?_, fun hx => h6 ?_⟩
    · rw [land, ← h3, ← hpn, h4, ← hss.length]
      simp [EcArg.code]
    · rw [land, ← h3] at hx
      cases hfo : Spec.follow acts (⟨fs.length, .ok (winAppendText f.root ent.name)⟩ ::
        (below opts f.linked (fs.length + 1) (winAppendText f.root ent.name) (entryDir ent) sub ++
          todo opts (f :: fs))) it.recursion with
      | nil => rw [hfo] at hx; simp at hx
      | cons y ys => rw [hfo, List.getLast?_cons_cons] at hx; exact hx

theorem follows {opts : DirOptions} {n : Nat} (hf : opts.has .followSymlink = false) (acts : List Act) :
    Follows view opts n acts := by
  induction acts with
  | nil =>
    intro it ss σ items hi hc
    exact wpF_ret ⟨by simp [Spec.follow], by simp [Spec.follow]⟩
  | cons a acts ih =>
    intro it ss σ items hi hc
    have hc' := hc
    obtain ⟨s, ss0, f, fs, ent, sub, _, _, _, _, _, _, _, _, _, _, hitems⟩ := hc'
    cases items with
    | nil => cases hitems
    | cons x xs =>
      clear hitems
      unfold driveWin
      simp only [hi]
      cases a with
      | disable =>
        have := ih it.disable ss σ (x :: xs) hi hc
        rw [Spec.follow]
        · exact this
        · intro hx; cases hx
      | incr =>
        apply wpF_bind
        rw [Spec.follow]
        exact wp_recIncr hf hi hc fun it' ec σ' hL => wp_land ih hL
      | pop =>
        apply wpF_bind
        rw [Spec.follow]
        exact wp_recPop hi hc fun it' ec σ' hL => wp_land ih hL

theorem wp_session {opts : DirOptions} {n : Nat} (hf : opts.has .followSymlink = false) (acts : List Act) {root : Str}
    {L : WinDir} (hv : view (searchText (mkPath .windows root).pathname) = L) (hsh : WinShows view root L) (hreg : WinRegular n L)
    (hdts : winDots L < n) :
    wpF view (Seen (land acts (winWalked opts false 0 root L) true)) (sessionWin n (mkPath .windows root) opts acts) [] := by
  unfold sessionWin RecIter.new
  simp only [clear_ref]
  apply wpF_bind
  apply wpF_bind
  refine wp_streamNew (view := view) (opts := opts) (fs := []) .nil List.nodup_nil hv hsh hreg hdts
    (fun c s' hs' h1 h2 => ?_) (fun s' σ q xs h1 h2 h3 => ?_)
  · cases c with
    | none =>
      simp only [Stream.good, hs', Option.isSome_none, Bool.not_false, if_true]
      exact wpF_ret (wp_land (follows hf acts) (it := ⟨none, true⟩)
        (by rw [show (0 : Nat) = ([] : List Frame).length from rfl, h1]; exact ⟨rfl, rfl, rfl⟩))
    | some e =>
      dsimp only
      apply wpF_bind
      have : Prog.finally' ((⟨"recursive_directory_iterator".toList, some (mkPath .windows root), none⟩ : Handler).report (.ref none) (some e) ())
          (destroy (some s')) = .ret ((), .ref (some e)) := by
        simp [Handler.report, Prog.finally', destroy, Stream.close, hs', Prog.ret_bind, EcArg.assign]
      rw [this]
      exact wpF_ret (wpF_ret (wp_land (follows hf acts) (it := ⟨none, true⟩)
        (by rw [show (0 : Nat) = ([] : List Frame).length from rfl, h1]; exact ⟨rfl, rfl, rfl⟩)))
  · simp only [h2, Bool.not_true, Bool.false_eq_true, if_false]
    refine wpF_ret (wp_land (follows hf acts) (it := ⟨some ([Stream.moved s'], opts), true⟩) ?_)
    simp only [List.length_nil, todo, List.append_nil] at h1 h3
    rw [h1] at h3 ⊢
    exact ⟨_, rfl, h3.moved, rfl, rfl⟩

end
end Win


/-- The assumption allows an answer to every call, so executions exist. -/
theorem Win.finds_total (view : Str → WinDir) (σ : Searches × Code) (c : Sys) :
    ∃ (r : c.Ret) (σ' : Searches × Code), Finds view σ ⟨c, r⟩ σ' := by
  have hfail : ∀ c : WinCall, (Sys.win c).Ret := fun c => c.fails
  cases c with
  | win c =>
    cases c with
    | findFirst p =>
      cases hv : view p with
      | done e => exact ⟨.error e, _, hv, rfl⟩
      | entry ent sub rest =>
        obtain ⟨d, hd⟩ := exists_fresh (σ.1.map Prod.fst)
        exact ⟨.ok (d, ent), ((d, rest) :: σ.1, none), hd, by rw [hv]; exact ⟨rfl, rfl⟩⟩
    | findNext d =>
      cases hf : σ.1.find? (·.1 = d) with
      | none => exact ⟨.error .EPERM, σ, by simp [Finds, hf]⟩
      | some x =>
        obtain ⟨_, e | ⟨ent, sub, rest⟩⟩ := x
        · exact ⟨.error e, (σ.1, some e), by simp [Finds, hf]⟩
        · exact ⟨.ok ent, (_, none), by simp only [Finds, hf]; exact ⟨trivial, rfl⟩⟩
    | findClose d => exact ⟨.ok (), (σ.1.filter (·.1 ≠ d), σ.2), fun _ => rfl⟩
    | lastError => exact ⟨σ.2, σ, rfl, rfl⟩
    | _ => exact ⟨hfail _, σ, trivial⟩
  | pathconf => exact ⟨0, σ, trivial⟩
  | getenv _ => exact ⟨none, σ, trivial⟩
  | winTest q x => exact ⟨(false, none), σ, trivial⟩
  | port c => exact ⟨c.fails, σ, trivial⟩
  | _ => exact ⟨.error .EPERM, σ, trivial⟩

open Win

theorem walkedW_linked {L : WinDir} (h : WinNoDirs L) (opts : DirOptions) (a b : Bool) (k : Nat) (root : Str) :
    winWalked opts a k root L = winWalked opts b k root L := by
  induction L generalizing a b with
  | done e => rfl
  | entry ent sub rest _ ih =>
    by_cases hdot : dotName ent.name
    · simp only [winWalked]; rw [if_pos hdot, if_pos hdot]; exact ih h.2 _ _
    · rw [walked_entry _ _ _ _ hdot, walked_entry _ _ _ _ hdot, ih h.2 _ (b || (!entryDir ent && entryLink ent))]
      simp [Win.below, h.1.resolve_left hdot]

/-- On a plain tree the walk is the depth-first listing. -/
theorem walkedW_plain {L : WinDir} (h : WinPlain L) (opts : DirOptions) (k : Nat) (root : Str) :
    winWalked opts false k root L = winPreorder opts k root L := by
  induction L generalizing k root with
  | done e => rfl
  | entry ent sub rest ih1 ih2 =>
    by_cases hdot : dotName ent.name
    · simp only [winWalked, winPreorder]; rw [if_pos hdot, if_pos hdot]; exact ih2 h.2.2 _ _
    · rw [walked_entry _ _ _ _ hdot]
      simp only [winPreorder]
      rw [if_neg hdot, ← ih2 h.2.2]
      by_cases hl : entryLink ent = true
      · obtain ⟨h1, h2⟩ := h.1 hdot hl
        rw [walkedW_linked h2 opts _ false]
        simp [Win.below, h1]
      · simp only [Bool.not_eq_true] at hl
        simp only [hl, Bool.and_false, Bool.or_false, Win.below]
        by_cases hd : entryDir ent = true
        · simp only [hd]
          rw [ih1 (h.2.1 hdot hd)]
          simp
        · simp [hd]

/-- **C79**: every history of `increment`, `pop` and `disable_recursion_pending` after the constructor, over every tree: the
client sees exactly the positions that `land` and `follow` say, starting at the first item of the listing `winWalked`. A client
that has reached the end has left no search open. -/
theorem c79_session {root : Str} {opts : DirOptions} (hf : opts.has .followSymlink = false) {n : Nat} {acts : List Act}
    {view : Str → WinDir} {L : WinDir} (hv : view (searchText (mkPath .windows root).pathname) = L) (hsh : WinShows view root L)
    (hreg : WinRegular n L) (hdts : winDots L < n) {t : List Event} {o : Except Stop (List Obs)} {l : Code} {σ : Searches × Code}
    (h : Exec (sessionWin n (mkPath .windows root) opts acts) t o) (hs : Steps (Finds view) ([], l) t σ) :
    o = .ok (land acts (winWalked opts false 0 root L) true) ∧
      ((land acts (winWalked opts false 0 root L) true).getLast?.map Prod.fst = some none → σ.1 = []) :=
  wp_sound (Win.wp_session hf acts hv hsh hreg hdts l) h hs

/-- Executions exist whatever the tree. -/
example (view : Str → WinDir) (n : Nat) (p : Path) (opts : DirOptions) (acts : List Act) :
    ∃ t o σ, Exec (sessionWin n p opts acts) t o ∧ Steps (Finds view) ([], none) t σ :=
  exec_exists (Win.finds_total view) _ _

theorem observed_last (items : List Item) : (observed items).getLast?.map Prod.fst = some none := by
  induction items with
  | nil => rfl
  | cons x xs ih =>
    obtain ⟨d, e | q⟩ := x
    · rfl
    · rw [observed]
      cases ho : observed xs with
      | nil => rw [ho] at ih; cases ih
      | cons y ys => rw [List.getLast?_cons_cons, ← ho]; exact ih

/-- **C79**, as far as it holds: if no directory is a link or junction and in no listing a link comes before a directory,
repeated increments visit exactly the depth-first listing, each entry once, and then reach the end (or stop at the first
error, unless it is a denied access that is to be skipped), with nothing left open. Missing: the other trees, see
`c79_violated`, and `follow_directory_symlink`. -/
theorem c79_visits_partial {root : Str} {opts : DirOptions} (hf : opts.has .followSymlink = false) {n k : Nat}
    {view : Str → WinDir} {L : WinDir} (hv : view (searchText (mkPath .windows root).pathname) = L) (hsh : WinShows view root L)
    (hreg : WinRegular n L) (hdts : winDots L < n) (hplain : WinPlain L) (hk : (winPreorder opts 0 root L).length ≤ k)
    {t : List Event} {o : Except Stop (List Obs)} {l : Code} {σ : Searches × Code}
    (h : Exec (sessionWin n (mkPath .windows root) opts (List.replicate k .incr)) t o) (hs : Steps (Finds view) ([], l) t σ) :
    o = .ok (observed (winPreorder opts 0 root L)) ∧ σ.1 = [] := by
  obtain ⟨h1, h2⟩ := c79_session hf hv hsh hreg hdts h hs
  rw [walkedW_plain hplain, land_incr _ _ hk] at h1 h2
  exact ⟨h1, h2 (observed_last _)⟩

namespace Spec

/-- An entry that is an ordinary file, directory, link to a file, or junction. -/
def fileNamed (w : Str) : FindData := ⟨w, 0x80#32, 0#32⟩
def dirNamed (w : Str) : FindData := ⟨w, 0x10#32, 0#32⟩
def linkNamed (w : Str) : FindData := ⟨w, 0x420#32, 0xA000000C#32⟩
def junctionNamed (w : Str) : FindData := ⟨w, 0x410#32, 0xA0000003#32⟩

/-- No more files. -/
def noMore : WinDir := .done (.other 18)

/-- A directory with a directory `b` holding a file, seen after the entry `first`. -/
def winSample (first : FindData) : WinDir :=
  .entry (dirNamed ".".toList) noMore (.entry (dirNamed "..".toList) noMore (.entry first noMore
    (.entry (dirNamed "b".toList) (.entry (dirNamed ".".toList) noMore (.entry (fileNamed "c".toList) noMore noMore)) noMore)))

/-- The searches of `winSample` at `d`. -/
def winSampleView (first : FindData) (s : Str) : WinDir :=
  if s = "d\\*".toList then winSample first
  else if s = "d\\b\\*".toList then .entry (dirNamed ".".toList) noMore (.entry (fileNamed "c".toList) noMore noMore)
  else .done .ENOENT

end Spec

theorem winSample_names : winAppendText "d".toList "b".toList = "d\\b".toList ∧
    winAppendText "d".toList "a".toList = "d\\a".toList ∧ winAppendText "d\\b".toList "c".toList = "d\\b\\c".toList ∧
    searchText "d\\b".toList = "d\\b\\*".toList ∧ searchText (mkPath .windows "d".toList).pathname = "d\\*".toList := by
  decide +kernel

theorem winSample_shows {first : FindData} (h : entryDir first = false) :
    WinShows (winSampleView first) "d".toList (winSample first) := by
  refine ⟨⟨⟨⟨trivial, fun _ _ => ?_⟩, fun _ hd => ?_⟩, fun hd => absurd (by decide) hd⟩, fun hd => absurd (by decide) hd⟩
  · rw [show (dirNamed "b".toList).name = "b".toList from rfl, winSample_names.1, winSample_names.2.2.2.1]
    exact ⟨rfl, ⟨trivial, fun _ h => absurd h (by decide)⟩, fun hd => absurd (by decide) hd⟩
  · rw [h] at hd; cases hd

theorem winSample_regular {first : FindData} (h : entryDir first = false) (hn : PlainName first.name) :
    WinRegular 9 (winSample first) := by
  have hp : ∀ w : Str, w ≠ [] → (∀ c ∈ w, winSep c = false) → ':' ∉ w → PlainName w := fun w h1 h2 h3 => ⟨h1, h2, h3⟩
  have h5 : ∀ e : Errno, noMore = .done e → e.winValue ≠ 5 := by
    rintro _ ⟨⟩; decide
  have h13 : WinRegular 9 noMore := by show (18 : Nat) ≠ 13; decide
  refine ⟨hp _ (by decide) (by decide) (by decide), fun hd => absurd (by decide) hd,
    ⟨hp _ (by decide) (by decide) (by decide), fun hd => absurd (by decide) hd,
      ⟨hn, fun _ hd => (by rw [h] at hd; cases hd),
        ⟨hp _ (by decide) (by decide) (by decide), fun _ _ => ⟨⟨hp _ (by decide) (by decide) (by decide),
          fun hd => absurd (by decide) hd, ⟨hp _ (by decide) (by decide) (by decide), fun _ hd => absurd hd (by decide), h13, h5⟩,
          fun _ h => by cases h⟩, by decide⟩, h13, h5⟩, fun _ h => by cases h⟩, fun _ h => by cases h⟩, fun _ h => by cases h⟩

/-- A tree that meets the assumptions of `c79_visits_partial`: everything is visited. -/
example : WinPlain (winSample (fileNamed "a".toList)) ∧ ∃ t o σ,
    Exec (sessionWin 9 (mkPath .windows "d".toList) .none (List.replicate 3 .incr)) t o ∧
    Steps (Finds (winSampleView (fileNamed "a".toList))) ([], none) t σ ∧
    o = .ok [(some ("d\\a".toList, 0), none), (some ("d\\b".toList, 0), none), (some ("d\\b\\c".toList, 1), none), (none, none)] := by
  have hpl : WinPlain (winSample (fileNamed "a".toList)) := by
    refine ⟨fun hd => absurd (by decide) hd, fun hd => absurd (by decide) hd, fun hd => absurd (by decide) hd,
      fun hd => absurd (by decide) hd, fun _ hl => absurd hl (by decide), fun _ hd => absurd hd (by decide),
      fun _ hl => absurd hl (by decide), fun _ _ => ⟨fun hd => absurd (by decide) hd, fun hd => absurd (by decide) hd,
        fun _ hl => absurd hl (by decide), fun _ hd => absurd hd (by decide), trivial⟩, trivial⟩
  refine ⟨hpl, ?_⟩
  obtain ⟨t, o, σ, h1, h2⟩ := exec_exists (Win.finds_total (winSampleView (fileNamed "a".toList)))
    (sessionWin 9 (mkPath .windows "d".toList) .none (List.replicate 3 .incr)) ([], none)
  refine ⟨t, o, σ, h1, h2, ?_⟩
  have hpre : winPreorder .none 0 "d".toList (winSample (fileNamed "a".toList)) =
    [⟨0, .ok "d\\a".toList⟩, ⟨0, .ok "d\\b".toList⟩, ⟨1, .ok "d\\b\\c".toList⟩] := by rfl
  rw [(c79_visits_partial rfl (by rw [winSample_names.2.2.2.2]; rfl) (winSample_shows (by decide))
    (winSample_regular (by decide) ⟨by decide, by decide, by decide⟩) (by decide) hpl (by rw [hpre]; decide) h1 h2).1, hpre]
  rfl

/-- C79 is violated: a directory read after a link to a file is not entered, because the iterator never clears its note that
the entry is a link. Here `d\b\c` is not visited. -/
theorem c79_violated : (⟨1, .ok "d\\b\\c".toList⟩ : Item) ∈ winPreorder .none 0 "d".toList (winSample (linkNamed "a".toList)) ∧
    (∃ t o σ, Exec (sessionWin 9 (mkPath .windows "d".toList) .none (List.replicate 9 .incr)) t o ∧
      Steps (Finds (winSampleView (linkNamed "a".toList))) ([], none) t σ) ∧
    ∀ t o σ, Exec (sessionWin 9 (mkPath .windows "d".toList) .none (List.replicate 9 .incr)) t o →
      Steps (Finds (winSampleView (linkNamed "a".toList))) ([], none) t σ →
      o = .ok [(some ("d\\a".toList, 0), none), (some ("d\\b".toList, 0), none), (none, none)] := by
  refine ⟨?_, exec_exists (Win.finds_total _) _ _, fun t o σ h1 h2 => ?_⟩
  · have : winPreorder .none 0 "d".toList (winSample (linkNamed "a".toList)) =
      [⟨0, .ok "d\\a".toList⟩, ⟨0, .ok "d\\b".toList⟩, ⟨1, .ok "d\\b\\c".toList⟩] := by rfl
    rw [this]; simp
  · have : winWalked .none false 0 "d".toList (winSample (linkNamed "a".toList)) =
      [⟨0, .ok "d\\a".toList⟩, ⟨0, .ok "d\\b".toList⟩] := by rfl
    rw [(c79_session rfl (by rw [winSample_names.2.2.2.2]; rfl) (winSample_shows (by decide))
      (winSample_regular (by decide) ⟨by decide, by decide, by decide⟩) (by decide) h1 h2).1, this, land_incr _ _ (by decide)]
    rfl

/-! ## A junction that leads to its own directory -/

namespace Spec

/-- Every search finds one junction, `j`: as if it led to the directory it is in. -/
def loopView (_ : Str) : WinDir := .entry (junctionNamed "j".toList) noMore noMore

/-- The path after following the junction `k` times. -/
def loopPath (root : Str) : Nat → Str
  | 0 => winAppendText root "j".toList
  | k + 1 => winAppendText (loopPath root k) "j".toList

end Spec

/-- The iterator is at the junction, `k` levels down. -/
def Win.AtLoop (opts : DirOptions) (root : Str) (k : Nat) (it : RecIter) : Prop :=
  ∃ (s : Stream) (ss : List Stream), it.impl = some (s :: ss, opts) ∧ it.recursion = true ∧ ss.length = k ∧
    s.entry.path = mkPath .windows (loopPath root k) ∧ s.entry.path.pathname = loopPath root k ∧
    s.entry.cache.cacheType = .basic ∧ s.entry.cache.type = typeOfFind (junctionNamed "j".toList) ∧ s.entry.cache.symlink = false

theorem Win.wp_loopNew {opts : DirOptions} {n : Nat} (hn : 0 < n) (p : Str) (σ : Searches × Code) :
    wp (Finds loopView) (fun o _ => ∃ d, o = .ok (atEntry ⟨some d, mkPath .windows p, .default⟩ p (junctionNamed "j".toList), none))
      (Stream.new n (mkPath .windows p) opts) σ := by
  obtain ⟨n, rfl⟩ : ∃ m, n = m + 1 := ⟨n - 1, by omega⟩
  unfold Stream.new
  rintro (e | ⟨d, ent⟩) σ' h
  · exact absurd h.1 (by simp [loopView])
  · obtain ⟨h1, h2⟩ := h
    obtain ⟨rfl, _⟩ : ent = junctionNamed "j".toList ∧ _ := h2
    dsimp only
    unfold Win.skipDots
    rw [if_neg (show ¬ isDots (junctionNamed "j".toList).name = true by decide), Prog.ret_bind]
    dsimp only
    rw [setEntry_plain (root := p) rfl ⟨by decide, by decide, by decide⟩, Prog.ret_bind]
    exact ⟨d, rfl⟩

theorem Win.loop_pathname (p : Str) : (mkPath .windows (winAppendText p "j".toList)).pathname = winAppendText p "j".toList :=
  win_pathname_named (by rw [(win_append_plain p ⟨by decide, by decide, by decide⟩).2.2.2.2.1]; simp)

theorem Win.wp_loopIncr {opts : DirOptions} (hf : opts.has .followSymlink = false) {n : Nat} (hn : 0 < n) {root : Str} {k : Nat}
    {it : RecIter} (h : AtLoop opts root k it) (σ : Searches × Code) :
    wp (Finds loopView) (fun o _ => ∃ it', o = .ok (it', .ref none) ∧ AtLoop opts root (k + 1) it')
      (RecIter.incr n it (.ref none)) σ := by
  obtain ⟨s, ss, h1, h2, h3, h4, h5, h6, h7, h8⟩ := h
  unfold RecIter.incr RecIter.tryRecursion
  have hj : entryDir (junctionNamed "j".toList) = true := by decide
  simp only [h1, h2, clear_ref, recursionType_basic hf h6 h7, Prog.ret_bind, h8, hj, Bool.not_false, Bool.and_self, Bool.not_true,
    if_true]
  simp only [Prog.bind_assoc]
  apply wp_bind
  rw [h4]
  refine wp_mono ?_ (wp_loopNew (opts := opts) hn (loopPath root k) σ)
  rintro o σ' ⟨d, rfl⟩
  have hg : (atEntry ⟨some d, mkPath .windows (loopPath root k), .default⟩ (loopPath root k) (junctionNamed "j".toList)).good = true := rfl
  simp only [hg, if_true, Prog.ret_bind, Bool.true_or]
  refine ⟨_, rfl, _, _, rfl, rfl, by simp [h3], ?_, ?_, rfl, rfl, rfl⟩
  · simp only [Stream.moved, atEntry]
    rw [moved_mkPath]; rfl
  · simp only [Stream.moved, atEntry]
    rw [moved_mkPath]; exact loop_pathname _

theorem Win.wp_loopDrive {opts : DirOptions} (hf : opts.has .followSymlink = false) {n : Nat} (hn : 0 < n) {root : Str} (m : Nat)
    {k : Nat} {it : RecIter} (h : AtLoop opts root k it) (ec : EcArg) (hec : ec = .ref none) (σ : Searches × Code) :
    wp (Finds loopView) (fun o _ => o = .ok ((List.range (m + 1)).map fun i => (some (loopPath root (k + i), ((k + i : Nat) : Int)), none)))
      ((look it).bind fun v => (driveWin n (List.replicate m .incr) it).bind fun l => .ret ((v, ec.code) :: l)) σ := by
  subst hec
  have hlook : look it = .ret (some (loopPath root k, (k : Int))) := by
    obtain ⟨s, ss, h1, h2, h3, h4, h5, h6⟩ := h
    simp only [look, RecIter.deref, RecIter.depth, h1, Prog.bind_eq, Prog.ret_bind, h5]
    simp [h3]
  rw [hlook, Prog.ret_bind]
  induction m generalizing k it σ with
  | zero => exact rfl
  | succ m ih =>
    have h' := h
    obtain ⟨s, ss, h1, _⟩ := h
    rw [List.replicate_succ]
    unfold driveWin
    simp only [h1]
    rw [Prog.bind_assoc]
    apply wp_bind
    refine wp_mono ?_ (wp_loopIncr hf hn h' σ)
    rintro o σ' ⟨it', rfl, h2⟩
    have hlook : look it' = .ret (some (loopPath root (k + 1), ((k + 1 : Nat) : Int))) := by
      obtain ⟨s, ss, h1, h2, h3, h4, h5, h6⟩ := h2
      simp only [look, RecIter.deref, RecIter.depth, h1, Prog.bind_eq, Prog.ret_bind, h5]
      simp [h3]
    dsimp only
    apply wp_bind
    refine wp_mono ?_ (by have := ih h2 σ' hlook; rw [hlook, Prog.ret_bind]; exact this)
    rintro o σ'' rfl
    show Except.ok _ = Except.ok _
    rw [List.range_succ_eq_map (n := m + 1), List.map_cons, List.map_map]
    refine congrArg (fun l => Except.ok ((some (loopPath root k, (k : Int)), none) :: l)) (List.map_congr_left fun i _ => ?_)
    simp only [Function.comp]
    rw [show k + 1 + i = k + Nat.succ i by omega]

/-- C79 is violated: without `follow_directory_symlink` junctions are entered, so if one leads to the directory it is in, the
iteration does not end: for every `m`, every execution of `m` increments reaches the depth `m`. The depth-first listing has one
entry. -/
theorem c79_violated_junction {opts : DirOptions} (hf : opts.has .followSymlink = false) {n : Nat} (hn : 0 < n) (root : Str) (m : Nat) :
    winPreorder opts 0 root (loopView []) = [⟨0, .ok (loopPath root 0)⟩] ∧
    (∃ t o σ, Exec (sessionWin n (mkPath .windows root) opts (List.replicate m .incr)) t o ∧ Steps (Finds loopView) ([], none) t σ) ∧
    ∀ t o σ, Exec (sessionWin n (mkPath .windows root) opts (List.replicate m .incr)) t o → Steps (Finds loopView) ([], none) t σ →
      o = .ok ((List.range (m + 1)).map fun i => (some (loopPath root i, (i : Int)), none)) := by
  refine ⟨?_, exec_exists (Win.finds_total _) _ _, fun t o σ h1 h2 => ?_⟩
  · simp only [loopView, winPreorder]
    rw [if_neg (by decide), if_neg (by decide)]
    rfl
  · refine wp_sound (Q := fun o (_ : Searches × Code) =>
      o = .ok ((List.range (m + 1)).map fun i => (some (loopPath root i, (i : Int)), none))) ?_ h1 h2
    unfold sessionWin Win.RecIter.new
    simp only [clear_ref, Prog.bind_assoc]
    apply wp_bind
    refine wp_mono ?_ (Win.wp_loopNew (opts := opts) hn root _)
    rintro o σ' ⟨d, rfl⟩
    have hg : (atEntry ⟨some d, mkPath .windows root, .default⟩ root (junctionNamed "j".toList)).good = true := rfl
    simp only [hg, Bool.not_true, Bool.false_eq_true, if_false, Prog.ret_bind]
    have := Win.wp_loopDrive hf hn (root := root) m (k := 0)
      (it := ⟨some ([Win.Stream.moved (atEntry ⟨some d, mkPath .windows root, .default⟩ root (junctionNamed "j".toList))], opts), true⟩)
      ⟨_, _, rfl, rfl, rfl, by simp only [Win.Stream.moved, atEntry]; rw [moved_mkPath]; rfl,
        by simp only [Win.Stream.moved, atEntry]; rw [moved_mkPath]; exact Win.loop_pathname _, rfl, rfl, rfl⟩ (.ref none) rfl σ'
    simpa only [Nat.zero_add] using this

/-! ## `follow_directory_symlink` -/

/-- Not the start of a search. -/
def Spec.NoSearch : Sys → Prop
  | .win (.findFirst _) => False
  | _ => True

namespace Win

theorem noSearch_of {c : Sys} (h : NoFind c) : NoSearch c := by
  cases c with
  | win c => cases c <;> first | trivial | exact absurd h (by simp [NoFind, findCall])
  | _ => trivial

theorem ns_reportMsg {α : Type} (h : Handler) (ec : EcArg) (c : Code) (m : Str) (d : α) :
    Only NoSearch (fun _ => True) (h.reportMsg ec c m d) := (nf_reportMsg h ec c m d).mono (fun _ => noSearch_of) fun _ h => h

theorem ns_close (s : Stream) : Only NoSearch (fun _ => True) (Stream.close s) := by
  unfold Stream.close; only

theorem ns_closeAll (ss : List Stream) : Only NoSearch (fun _ => True) (closeAll ss) := by
  induction ss with
  | nil => exact .ret _ trivial
  | cons s ss ih =>
    unfold closeAll
    exact ih.bind fun _ _ => (ns_close s).bind fun _ _ => .ret _ trivial

theorem ns_setEntry (s : Stream) (ent : FindData) : Only NoSearch (fun _ => True) (setEntry s ent) := by
  unfold setEntry
  refine (only_ofRes _).bind fun _ _ => ?_
  only

theorem ns_advance (n : Nat) (s : Stream) : Only NoSearch (fun _ => True) (Stream.advance n s) := by
  induction n generalizing s with
  | zero => exact .stop _
  | succ n ih =>
    unfold Stream.advance
    split
    · exact .ret _ trivial
    · refine .call _ _ trivial fun r => ?_
      split
      · exact (ns_close _).bind fun _ _ => .ret _ trivial
      · split
        · exact ih _
        · exact (ns_setEntry _ _).bind fun _ _ => .ret _ trivial

theorem ns_skipDots (d n : Nat) (ent : FindData) : Only NoSearch (fun _ => True) (Win.skipDots d n ent) := by
  induction n generalizing ent with
  | zero => exact .stop _
  | succ n ih =>
    unfold Win.skipDots
    split
    · refine .call _ _ trivial fun r => ?_
      split
      · exact .call _ _ trivial fun _ => .ret _ trivial
      · exact ih _
    · exact .ret _ trivial

theorem ns_advanceStack (n : Nat) (ss : List Stream) : Only NoSearch (fun _ => True) (advanceStack n ss) := by
  induction ss with
  | nil => exact .ret _ trivial
  | cons s ss ih =>
    unfold advanceStack
    refine (ns_advance _ _).bind fun r _ => ?_
    only

theorem ns_recAdvance (n : Nat) {it : RecIter} (hit : Follows' it) (ec : EcArg) :
    Only NoSearch (fun r => Follows' r.1) (RecIter.advance n it ec) := by
  unfold RecIter.advance
  dsimp only
  split
  · exact (ns_reportMsg _ _ _ _ _).bind fun _ _ => .ret _ hit
  · rename_i ss opts hi
    refine (ns_advanceStack n ss).bind fun r _ => ?_
    split
    · refine (ns_closeAll _).bind fun _ _ => (ns_reportMsg _ _ _ _ _).bind fun _ _ => .ret _ ?_
      intro _ _ h; cases h
    · split
      · refine .ret _ ?_
        intro _ _ h; cases h
      · refine .ret _ ?_
        intro _ _ h; cases h; exact hit _ _ hi

theorem ns_getFileType (e : Entry) (c : Code) : Only NoSearch (fun r => r.1.1 = .none) (getFileType e (.ref c)) := by
  unfold getFileType
  simp only [clear_ref]
  refine Only.bind (Q := fun r : Entry × EcArg => r.2.IsRef) ?_ ?_
  · split
    · exact (((nf_updateBasic _ _ _).and_all (rel_updateBasic _ _ _).isRef)).mono (fun _ => noSearch_of) fun _ h => h.2
    · exact .ret _ ⟨none, rfl⟩
  · rintro ⟨e, ec⟩ ⟨c, rfl⟩
    simp only [ne_eq, reduceCtorEq, not_false_eq_true, if_true]
    exact .ret _ rfl

theorem ns_recTry (n : Nat) {it : RecIter} (hit : Follows' it) (ec : EcArg) :
    Only NoSearch (fun r => Follows' r.1.2) (RecIter.tryRecursion n it ec) := by
  unfold RecIter.tryRecursion
  dsimp only
  split
  · exact (ns_reportMsg _ _ _ _ _).bind fun _ _ => .ret _ hit
  · exact .stop _
  · rename_i cur ss opts hi
    have hf := hit _ _ hi
    have hk : ∀ ss', Follows' { it with impl := some (ss', opts) } := by
      intro ss' _ _ h; cases h; exact hf
    refine Only.bind (Q := fun r => r.1 = true) ?_ ?_
    · unfold recursionType
      simp only [hf, Bool.not_true, Bool.false_eq_true, if_false]
      refine (ns_getFileType cur.entry none).bind fun r h => .ret _ ?_
      simp [h, FStatus.isDirectory]
    · rintro ⟨skip, e, m⟩ h
      cases h
      simp only [Bool.not_true, Bool.false_eq_true, if_false, Prog.ret_bind]
      split
      · split
        · exact .ret _ (hk _)
        · refine (ns_closeAll _).bind fun _ _ => (ns_reportMsg _ _ _ _ _).bind fun _ _ => .ret _ ?_
          intro _ _ h; cases h
      · exact .ret _ (hk _)

theorem ns_look (it : RecIter) : Only NoSearch (fun _ => True) (look it) := by
  unfold look
  simp only [Prog.bind_eq]
  unfold Asap.RecIter.deref Asap.RecIter.depth
  only

theorem ns_drive (n : Nat) (acts : List Act) {it : RecIter} (hit : Follows' it) :
    Only NoSearch (fun _ => True) (driveWin n acts it) := by
  induction acts generalizing it with
  | nil => exact .ret _ trivial
  | cons a acts ih =>
    unfold driveWin
    split
    · exact .ret _ trivial
    · rename_i hi
      cases a with
      | disable => exact ih hit
      | incr =>
        dsimp only
        refine Only.bind (Q := fun r : RecIter × EcArg => Follows' r.1) ?_ fun r hr => (ns_look _).bind fun _ _ => (ih hr).bind fun _ _ => .ret _ trivial
        unfold RecIter.incr
        refine Only.bind (Q := fun r => Follows' r.2.1) ?_ ?_
        · split
          · exact (ns_recTry n hit _).bind fun r hr => .ret _ hr
          · exact .ret _ hit
        · intro r hr
          split
          · exact .ret _ hr
          · exact ns_recAdvance n (it := { r.2.1 with recursion := true }) hr _
      | pop =>
        dsimp only
        refine Only.bind (Q := fun r : RecIter × EcArg => Follows' r.1) ?_ fun r hr => (ns_look _).bind fun _ _ => (ih hr).bind fun _ _ => .ret _ trivial
        unfold RecIter.pop
        dsimp only
        split
        · exact (ns_reportMsg _ _ _ _ _).bind fun _ _ => .ret _ hit
        · exact .stop _
        · rename_i s ss opts hi
          refine (ns_close _).bind fun _ _ => ?_
          split
          · refine .ret _ ?_
            intro _ _ h; cases h
          · refine ns_recAdvance n ?_ _
            intro _ _ h; cases h; exact hit _ _ hi

end Win

/-- C79 is violated by every execution with `follow_directory_symlink`: the iterator searches the directory it is given and
never another one, so it enters neither links nor directories. -/
theorem c79_violated_follow {n : Nat} {p : Path} {opts : DirOptions} (hf : opts.has .followSymlink = true) {acts : List Act}
    {t : List Event} {o : Except Stop (List Obs)} (h : Exec (sessionWin n p opts acts) t o) :
    ∃ r t', t = ⟨.win (.findFirst (searchText p.pathname)), r⟩ :: t' ∧ ∀ e ∈ t', ∀ d, e.call ≠ .win (.findFirst d) := by
  have hrest : ∀ it ec, Follows' it → Only NoSearch (fun _ => True)
      ((look it).bind fun v => (driveWin n acts it).bind fun l => (.ret ((v, EcArg.code ec) :: l) : Prog (List Obs))) := by
    intro it ec hit
    exact (Win.ns_look it).bind fun _ _ => (Win.ns_drive n acts hit).bind fun _ _ => .ret _ trivial
  unfold sessionWin Win.RecIter.new Win.Stream.new at h
  simp only [Prog.call_bind, clear_ref, exec_call] at h
  obtain ⟨r, t', rfl, h⟩ := h
  refine ⟨r, t', by rw [← pattern_text], ?_⟩
  have aux : ∀ {q : Prog (List Obs)}, Only NoSearch (fun _ => True) q → Exec q t' o → ∀ e ∈ t', ∀ d, e.call ≠ .win (.findFirst d) := by
    intro q hq h e he d hd
    have := (hq.exec h).1 e he
    rw [hd] at this
    exact this
  refine aux ?_ h
  have hnone : Follows' ⟨none, true⟩ := by intro _ _ h; cases h
  have hdes : ∀ s, Only NoSearch (fun _ => True) (Win.destroy s) := by
    intro s
    cases s with
    | none => exact .ret _ trivial
    | some s => exact Only.bind (Win.ns_close s) fun _ _ => .ret _ trivial
  refine Only.bind (Q := fun r : RecIter × EcArg => Follows' r.1) ?_ fun r hr => hrest _ _ hr
  refine Only.bind (Q := fun _ => True) ?_ fun r _ => ?_
  · split
    · exact .ret _ trivial
    · refine (Win.ns_skipDots _ _ _).bind fun x _ => ?_
      split
      · exact .call _ _ trivial fun _ => .ret _ trivial
      · exact (Win.ns_setEntry _ _).bind fun _ _ => .ret _ trivial
  · split
    · refine Only.bind (Q := fun _ => True) ?_ fun _ _ => .ret _ hnone
      exact (only_report _ _ _ _).finally' (hdes _)
    · split
      · exact .ret _ hnone
      · refine .ret _ ?_
        intro _ _ h; cases h; exact hf

/-- There are executions that see a directory: here `d\b` is one, and the iteration ends after it. -/
example : ∃ t o σ, Exec (sessionWin 9 (mkPath .windows "d".toList) .followSymlink [.incr, .incr, .incr]) t o ∧
    Steps (Finds (winSampleView (fileNamed "a".toList))) ([], none) t σ := exec_exists (Win.finds_total _) _ _

end Asap
