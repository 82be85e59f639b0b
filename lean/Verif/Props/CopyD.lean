import Verif.Props.CopyB
import Verif.Props.CopyC
import Verif.Props.RemoveA

/-!
# C50: a recursive copy reproduces the tree

The disk holds a source tree with the contents of its files and the targets of its links, a destination that grows,
the two open files of a transfer, and everything else. The specification knows what the calls `copy` makes do to the
two trees, and nothing about any other call: it could change everything.
-/

namespace Asap
namespace Spec

/-- A file of the tree. -/
inductive Kind where
  | file (b : Bytes)
  | dir
  | link (target : Str)
  deriving DecidableEq

def Kind.type : Kind → FType
  | .file _ => .regular
  | .dir => .directory
  | .link _ => .symlink

/-- The entries of a directory: name, kind, and its own entries if it is a directory. -/
inductive Forest where
  | nil
  | node (name : Str) (k : Kind) (sub rest : Forest)

/-- A file with its entries. -/
abbrev Plant := Kind × Forest

def Forest.names : Forest → List Str
  | .nil => []
  | .node w _ _ rest => w :: rest.names

def Forest.child : Forest → Str → Option Plant
  | .nil, _ => none
  | .node v k sub rest, w => if v = w then some (k, sub) else rest.child w

/-- The file reached through the names `ws`. -/
def seek : Option Plant → List Str → Option Plant
  | x, [] => x
  | none, _ :: _ => none
  | some (_, sub), w :: ws => seek (sub.child w) ws

/-- The number of files and of bytes in them. -/
def Kind.weight : Kind → Nat
  | .file b => 1 + b.length
  | _ => 1
def Forest.weight : Forest → Nat
  | .nil => 0
  | .node _ k sub rest => k.weight + sub.weight + rest.weight

/-- A file there can be: its size is a file size; a link has a target that is no longer than `cap` and not
just repeated slashes (it would be copied as one slash); without `links` it is not a link. -/
def Kind.Proper (cap : Nat) (links : Prop) : Kind → Prop
  | .file b => b.length < 2 ^ 63
  | .dir => True
  | .link t => links ∧ t ≠ [] ∧ t.length ≤ cap ∧ stored t = t

/-- Names are names and differ, and only directories have entries. -/
def Forest.Proper (cap : Nat) (links : Prop) : Forest → Prop
  | .nil => True
  | .node w k sub rest => IsName w ∧ w ≠ ".".toList ∧ w ≠ "..".toList ∧ w ∉ rest.names ∧ k.Proper cap links ∧
    (k ≠ .dir → sub = .nil) ∧ sub.Proper cap links ∧ rest.Proper cap links

def Plant.Proper (cap : Nat) (links : Prop) (x : Plant) : Prop :=
  x.1.Proper cap links ∧ (x.1 ≠ .dir → x.2 = .nil) ∧ x.2.Proper cap links

/-- The source, the destination by the names leading to its files, the file being read with its contents and offset,
the file being written with its offset, and everything else. -/
structure Garden (ω : Type) where
  src : Option Plant
  dst : List Str → Option Kind
  rfd : Option (Nat × Bytes × Nat)
  wfd : Option (Nat × List Str × Nat)
  outside : ω

/-- One more file, or another one there. -/
def grow (dst : List Str → Option Kind) (ws : List Str) (k : Kind) : List Str → Option Kind :=
  fun v => if v = ws then some k else dst v

/-- A file can be made there. -/
def Free (dst : List Str → Option Kind) (ws : List Str) : Prop :=
  dst ws = none ∧ (ws ≠ [] → dst ws.dropLast = some .dir)

/-- A number not in use. -/
def Garden.fresh {ω : Type} (g : Garden ω) (fd : Nat) : Prop := (∀ x, g.rfd = some x → x.1 ≠ fd) ∧ (∀ x, g.wfd = some x → x.1 ≠ fd)

/-- The attributes of a file of the source. No file has the number 0. -/
def Reveals (may : Prop) (k : Kind) : Except Errno Stat → Prop
  | .ok st => typeOf st.mode = k.type ∧ (∀ b, k = .file b → st.size.toInt = b.length) ∧ st.ino ≠ 0
  | .error _ => may

/-- A listing of a directory: its names in any order with any types, and at most `k` times `.` or `..`. -/
def Forest.Listed (k : Nat) (sub : Forest) (l : List Dirent) : Prop :=
  dotCount l ≤ k ∧ (∀ e ∈ l, IsName e.name) ∧ ((l.filter fun e => ¬ e.dot).map Dirent.name).Perm sub.names

/-- The operating system, without other processes, for a source named `S` and a destination named `D`. Paths have at most `cap`
characters. If `may`, any call may fail, without effect; the kernel may refuse `sendfile` in any case. `read` and
`sendfile` may transfer less than asked for; `write` does not. -/
def copying (ω : Type) (S D : Str) (k cap : Nat) (may : Prop) : Laws (Garden ω) where
  opens g x r := ∀ ws sub, (∀ w ∈ ws, IsName w) → x = ws.foldl addElem S → seek g.src ws = some (.dir, sub) → sub.Proper cap True →
    match r with
    | .ok l => sub.Listed k l
    | .error _ => may
  does g ev g' := match ev with
    | ⟨.stat x, r⟩ =>
      (∀ ws, (∀ w ∈ ws, IsName w) → x = ws.foldl addElem S → ∀ kd sub, seek g.src ws = some (kd, sub) → kd.Proper cap True → (∀ t, kd ≠ .link t) →
        g' = g ∧ Reveals may kd r) ∧
      (∀ ws, (∀ w ∈ ws, IsName w) → x = ws.foldl addElem D → g.dst ws = none → g' = g ∧ ∃ e, r = .error e ∧ (may ∨ e = .ENOENT))
    | ⟨.lstat x, r⟩ =>
      (∀ ws, (∀ w ∈ ws, IsName w) → x = ws.foldl addElem S → ∀ kd sub, seek g.src ws = some (kd, sub) → kd.Proper cap True →
        g' = g ∧ Reveals may kd r) ∧
      (∀ ws, (∀ w ∈ ws, IsName w) → x = ws.foldl addElem D → ∀ kd, g.dst ws = some kd → g' = g ∧ ∀ e, r = .error e → may)
    | ⟨.mkdir x _, r⟩ => ∀ ws, (∀ w ∈ ws, IsName w) → x = ws.foldl addElem D → Free g.dst ws →
      match r with
      | .ok () => g' = { g with dst := grow g.dst ws .dir }
      | .error e => may ∧ e ≠ .EEXIST ∧ g' = g
    | ⟨.symlink t x, r⟩ => ∀ ws, (∀ w ∈ ws, IsName w) → x = ws.foldl addElem D → Free g.dst ws →
      match r with
      | .ok () => g' = { g with dst := grow g.dst ws (.link t) }
      | .error _ => may ∧ g' = g
    | ⟨.pathconf, r⟩ => r = (cap : Int) ∧ g' = g
    | ⟨.readlink x n, r⟩ => ∀ ws, (∀ w ∈ ws, IsName w) → x = ws.foldl addElem S → ∀ t sub, seek g.src ws = some (.link t, sub) →
      match r with
      | .ok s => s = t.take n ∧ g' = g
      | .error _ => may ∧ g' = g
    | ⟨.openf x fl _, r⟩ =>
      (∀ ws, (∀ w ∈ ws, IsName w) → x = ws.foldl addElem S → ∀ b sub, seek g.src ws = some (.file b, sub) →
        fl.write = false → fl.creat = false → g.rfd = none →
        match r with
        | .ok fd => g.fresh fd ∧ g' = { g with rfd := some (fd, b, 0) }
        | .error _ => may ∧ g' = g) ∧
      (∀ ws, (∀ w ∈ ws, IsName w) → x = ws.foldl addElem D → Free g.dst ws → fl.write = true → fl.creat = true → g.wfd = none →
        match r with
        | .ok fd => g.fresh fd ∧ g' = { g with dst := grow g.dst ws (.file []), wfd := some (fd, ws, 0) }
        | .error _ => may ∧ g' = g)
    | ⟨.close fd, _⟩ => g' = { g with rfd := g.rfd.filter (fun x => x.1 != fd), wfd := g.wfd.filter (fun x => x.1 != fd) }
    | ⟨.read fd n, r⟩ => ∀ b off, g.rfd = some (fd, b, off) →
      match r with
      | .ok data => data = (b.drop off).take data.length ∧ data.length ≤ n ∧ (data = [] → b.length ≤ off ∨ n = 0) ∧
        g' = { g with rfd := some (fd, b, off + data.length) }
      | .error _ => may ∧ g' = g
    | ⟨.write fd data, r⟩ => ∀ ws off b, g.wfd = some (fd, ws, off) → g.dst ws = some (.file b) →
      match r with
      | .ok n => n = data.length ∧ g' = { g with dst := grow g.dst ws (.file (overwrite b off data)), wfd := some (fd, ws, off + n) }
      | .error _ => may ∧ g' = g
    | ⟨.sendfile out inp n, r⟩ => ∀ b ro ws wo c, g.rfd = some (inp, b, ro) → g.wfd = some (out, ws, wo) → g.dst ws = some (.file c) →
      match r with
      | .ok m => m ≤ n ∧ m ≤ b.length - ro ∧ (m = 0 → n = 0 ∨ b.length ≤ ro) ∧
        g' = { g with dst := grow g.dst ws (.file (overwrite c wo ((b.drop ro).take m))), rfd := some (inp, b, ro + m), wfd := some (out, ws, wo + m) }
      | .error _ => g' = g
    | _ => True

/-- The number of files and bytes. -/
def Plant.weight (x : Plant) : Nat := x.1.weight + x.2.weight

end Spec
open Spec

/-! ## Trees -/

theorem seek_append (x : Option Plant) (ws : List Str) (vs : List Str) : seek x (ws ++ vs) = seek (seek x ws) vs := by
  induction ws generalizing x with
  | nil => rfl
  | cons w ws ih =>
    cases x with
    | none => cases vs <;> rfl
    | some c => exact ih _

theorem forest_child {s : Forest} {w : Str} (h : w ∈ s.names) : ∃ c, s.child w = some c := by
  induction s with
  | nil => simp [Forest.names] at h
  | node v t sub rest _ ih =>
    simp only [Forest.names, List.mem_cons, Forest.child] at h ⊢
    by_cases hv : v = w
    · exact ⟨(t, sub), by simp [hv]⟩
    · simp only [hv, if_false]; exact ih (by rcases h with h | h; exact absurd h.symm hv; exact h)

theorem forest_no_child {s : Forest} {w : Str} (h : w ∉ s.names) : s.child w = none := by
  induction s with
  | nil => rfl
  | node v t sub rest _ ih =>
    simp only [Forest.names, List.mem_cons, not_or, Forest.child] at h ⊢
    rw [if_neg (Ne.symm h.1)]
    exact ih h.2

theorem forest_nil {s : Forest} (h : s.names = []) : s = .nil := by
  cases s with
  | nil => rfl
  | node => simp [Forest.names] at h

theorem kind_weight_pos (k : Kind) : 1 ≤ k.weight := by cases k <;> simp [Kind.weight]

theorem forest_names_le (s : Forest) : s.names.length ≤ s.weight := by
  induction s with
  | nil => simp [Forest.names, Forest.weight]
  | node v t sub rest _ ih =>
    have := kind_weight_pos t
    simp only [Forest.names, Forest.weight, List.length_cons]; omega

theorem forest_child_weight {s : Forest} {w : Str} {c : Plant} (h : s.child w = some c) : c.weight ≤ s.weight := by
  induction s with
  | nil => simp [Forest.child] at h
  | node v t sub rest _ ih =>
    simp only [Forest.child, Forest.weight] at h ⊢
    by_cases hv : v = w
    · simp only [hv, if_true, Option.some.injEq] at h; subst h; simp only [Plant.weight]; omega
    · simp only [hv, if_false] at h; have := ih h; omega

section
variable {ω : Type} {S D : Str} {k cap : Nat} {may links : Prop} {T : List (Nat × List Dirent)}

theorem Spec.Forest.Proper.child {s : Forest} (hs : s.Proper cap links) {w : Str} {c : Plant} (h : s.child w = some c) :
    IsName w ∧ w ≠ ".".toList ∧ w ≠ "..".toList ∧ c.Proper cap links := by
  induction s with
  | nil => simp [Forest.child] at h
  | node v t' sub' rest _ ih =>
    obtain ⟨h1, h2, h3, h7, h4, h5, h6, h8⟩ := hs
    simp only [Forest.child] at h
    split at h <;> rename_i hv
    · cases h; subst hv; exact ⟨h1, h2, h3, h4, h5, h6⟩
    · exact ih h8 h

theorem Spec.Forest.Proper.nodup {s : Forest} (hs : s.Proper cap links) : s.names.Nodup := by
  induction s with
  | nil => simp [Forest.names]
  | node v t' sub' rest _ ih =>
    obtain ⟨h1, h2, h3, h7, h4, h5, h6, h8⟩ := hs
    simp only [Forest.names, List.nodup_cons]
    exact ⟨h7, ih h8⟩

theorem Spec.Kind.Proper.weaken {kd : Kind} (h : kd.Proper cap links) : kd.Proper cap True := by
  cases kd with
  | file b => exact h
  | dir => trivial
  | link t => exact ⟨trivial, h.2⟩

theorem Spec.Forest.Proper.weaken {s : Forest} (hs : s.Proper cap links) : s.Proper cap True := by
  induction s with
  | nil => trivial
  | node v t' sub' rest ih1 ih2 =>
    obtain ⟨h1, h2, h3, h7, h4, h5, h6, h8⟩ := hs
    exact ⟨h1, h2, h3, h7, h4.weaken, h5, ih1 h6, ih2 h8⟩

/-! ## A file -/

theorem grow_same (dst : List Str → Option Kind) (ws : List Str) (a b : Kind) : grow (grow dst ws a) ws b = grow dst ws b := by
  funext v
  simp only [grow]
  split <;> rfl

theorem grow_at (dst : List Str → Option Kind) (ws : List Str) (a : Kind) : grow dst ws a ws = some a := if_pos rfl

/-- The transfer has reached offset `i`. -/
def transfer (g : Garden ω) (ws : List Str) (inp out : Nat) (b : Bytes) (i : Nat) : Garden ω :=
  { g with dst := grow g.dst ws (.file (b.take i)), rfd := some (inp, b, i), wfd := some (out, ws, i) }

theorem transfer_grow (g : Garden ω) (ws : List Str) (inp out : Nat) (b : Bytes) {i m : Nat} {data : Bytes} (hi : i ≤ b.length)
    (hd : data = (b.drop i).take m) :
    grow (transfer g ws inp out b i).dst ws (.file (overwrite (b.take i) i data)) = grow g.dst ws (.file (b.take (i + m))) := by
  have hl : (b.take i).length = i := by simp; omega
  have h7 := overwrite_end (b.take i) data
  rw [hl] at h7
  rw [h7, hd, take_add_drop]
  exact grow_same _ _ _ _

theorem wpG_default {g : Garden ω} {ws : List Str} {inp out : Nat} {b : Bytes} {Q : Except Stop Code → Os (Garden ω) → Prop} :
    ∀ (n i : Nat), i ≤ b.length → b.length - i < n →
    Q (.ok none) ⟨transfer g ws inp out b b.length, T⟩ → (may → ∀ e i j, Q (.ok (some e)) ⟨{ transfer g ws inp out b i with rfd := some (inp, b, j) }, T⟩) →
    wp (copying ω S D k cap may).step Q (copyDefault inp out n) ⟨transfer g ws inp out b i, T⟩
  | 0, _, _, h, _, _ => by omega
  | n + 1, i, hi, hn, h1, h2 => by
    simp only [copyDefault]
    intro r σ' hs
    obtain ⟨g', T'⟩ := σ'
    simp only [Laws.step, copying] at hs
    obtain ⟨hs, hT⟩ := hs
    subst T'
    have hs := hs b i rfl
    rcases r with e | data
    · obtain ⟨hm, rfl⟩ := hs
      exact h2 hm e i i
    simp only at hs
    obtain ⟨ha, hb, hc, rfl⟩ := hs
    simp only
    have hlen : data.length ≤ b.length - i := by
      have := congrArg List.length ha
      simp at this
      omega
    by_cases hd : data = []
    · subst hd
      simp only [List.isEmpty_nil, if_true]
      have : i = b.length := by
        rcases hc rfl with h | h
        · omega
        · simp [bufsiz] at h
      subst this
      exact h1
    · rw [if_neg (by simpa using hd)]
      have hpos : 0 < data.length := List.length_pos_iff.mpr hd
      intro r σ' hs
      obtain ⟨g', T'⟩ := σ'
      simp only [Laws.step, copying] at hs
      obtain ⟨hs, hT⟩ := hs
      subst T'
      have hs := hs ws i (b.take i) rfl (grow_at _ _ _)
      rcases r with e | m
      · obtain ⟨hm, rfl⟩ := hs
        exact h2 hm e i _
      simp only at hs
      obtain ⟨rfl, rfl⟩ := hs
      have := transfer_grow g ws inp out b hi ha
      simp only at this ⊢
      rw [this]
      exact wpG_default n (i + data.length) (by omega) (by omega) h1 h2

theorem wpG_sendLoop {g : Garden ω} {ws : List Str} {inp out : Nat} {b : Bytes} {Q : Except Stop Code → Os (Garden ω) → Prop} :
    ∀ (n i : Nat), i ≤ b.length → b.length - i < n →
    Q (.ok none) ⟨transfer g ws inp out b b.length, T⟩ → (∀ e i, i ≤ b.length → Q (.ok (some e)) ⟨transfer g ws inp out b i, T⟩) →
    wp (copying ω S D k cap may).step Q (sendLoop out inp n (b.length - i)) ⟨transfer g ws inp out b i, T⟩
  | 0, _, _, h, _, _ => by omega
  | n + 1, i, hi, hn, h1, h2 => by
    simp only [sendLoop]
    intro r σ' hs
    obtain ⟨g', T'⟩ := σ'
    simp only [Laws.step, copying] at hs
    obtain ⟨hs, hT⟩ := hs
    subst T'
    have hs := hs b i ws i (b.take i) rfl rfl (grow_at _ _ _)
    rcases r with e | m
    · subst hs
      exact h2 e i hi
    simp only at hs
    obtain ⟨ha, hb, hc, rfl⟩ := hs
    have := transfer_grow g ws inp out b hi (m := m) rfl
    simp only at this ⊢
    rw [this]
    split <;> rename_i hcount
    · rw [show (b.length : Int) - i - m = b.length - (i + m : Nat) by omega]
      have : m ≠ 0 := by
        intro h0
        have := hc h0
        omega
      exact wpG_sendLoop n (i + m) (by omega) (by omega) h1 h2
    · have : i + m = b.length := by omega
      rw [this]
      exact h1

theorem wpG_transfer {g : Garden ω} {ws : List Str} {inp out : Nat} {b : Bytes} {Q : Except Stop Code → Os (Garden ω) → Prop} (sf : Bool)
    {n : Nat} (hn : b.length < n) (h1 : Q (.ok none) ⟨transfer g ws inp out b b.length, T⟩)
    (h2 : may → ∀ e i j, Q (.ok (some e)) ⟨{ transfer g ws inp out b i with rfd := some (inp, b, j) }, T⟩) :
    wp (copying ω S D k cap may).step Q (doCopyFile sf n inp out b.length) ⟨transfer g ws inp out b 0, T⟩ := by
  unfold doCopyFile
  simp only [Prog.bind_eq]
  cases sf with
  | false => exact wpG_default n 0 (by omega) (by omega) h1 h2
  | true =>
    simp only [if_true, copySendfile]
    apply wp_bind
    split
    · exact wpG_default n 0 (by omega) (by omega) h1 h2
    · simp only [Prog.bind_eq]
      apply wp_bind
      rw [show (b.length : Int) = b.length - (0 : Nat) by omega]
      refine wpG_sendLoop n 0 (by omega) (by omega) h1 (fun e i hi => ?_)
      simp only [wp, Option.isNone_some, Bool.false_eq_true, if_false]
      exact wpG_default n i hi (by omega) h1 h2

/-- A descriptor is closed. -/
def shut (fd : Nat) (g : Garden ω) : Garden ω :=
  { g with rfd := g.rfd.filter (fun x => x.1 != fd), wfd := g.wfd.filter (fun x => x.1 != fd) }

theorem wpG_closing {α : Type} {p : Prog α} {fd : Nat} {Q : Except Stop α → Os (Garden ω) → Prop} {s : Os (Garden ω)}
    (h : wp (copying ω S D k cap may).step (fun o s => (∃ a, o = .ok a) ∧ Q o ⟨shut fd s.disk, s.table⟩) p s) :
    wp (copying ω S D k cap may).step Q (p.finally' (closeFd fd)) s := by
  apply wp_finally
  refine wp_mono ?_ h
  rintro o s' ⟨⟨a, rfl⟩, h⟩
  refine ⟨fun _ => ?_, fun hu => absurd trivial hu⟩
  intro r s'' hs
  obtain ⟨g', T'⟩ := s''
  simp only [Laws.step, copying] at hs
  obtain ⟨h1, h2⟩ := hs
  subst h1 h2
  exact h

theorem wpG_copyFile (sf : Bool) {n : Nat} {g : Garden ω} {q q' : Path} {ws : List Str} {b : Bytes} {sub : Forest} {opts : CopyOptions} {c : Code}
    {Q : Except Stop (Bool × EcArg) → Os (Garden ω) → Prop} (hws : ∀ w ∈ ws, IsName w) (hq : q.pathname = ws.foldl addElem S)
    (hq' : q'.pathname = ws.foldl addElem D) (hf : seek g.src ws = some (.file b, sub)) (hb : b.length < 2 ^ 63) (hfree : Free g.dst ws)
    (hr : g.rfd = none) (hw : g.wfd = none) (hn : b.length < n) (h1 : Q (.ok (true, .ref none)) ⟨{ g with dst := grow g.dst ws (.file b) }, T⟩)
    (h2 : may → ∀ e dst, Q (.ok (false, .ref (some e))) ⟨{ g with dst := dst }, T⟩) :
    wp (copying ω S D k cap may).step Q (copyFile sf n q q' opts (.ref c)) ⟨g, T⟩ := by
  obtain ⟨src, dst, rfd, wfd, out⟩ := g
  simp only at hr hw hf hfree h1 h2
  subst hr hw
  unfold copyFile
  simp only [clear_ref]
  intro r σ' hs
  obtain ⟨g', T'⟩ := σ'
  simp only [Laws.step, copying] at hs
  obtain ⟨⟨hs, -⟩, hT⟩ := hs
  subst T'
  have hs := hs ws hws hq b sub hf trivial trivial trivial
  rcases r with e | inp
  · obtain ⟨hm, rfl⟩ := hs
    exact h2 hm e dst
  obtain ⟨-, rfl⟩ := hs
  apply wpG_closing
  simp only [copyOpened, Prog.bind_eq, refreshStatus_eq, Prog.call_bind]
  have shut0 : ∀ d' : List Str → Option Kind, shut inp (⟨src, d', some (inp, b, 0), none, out⟩ : Garden ω) = ⟨src, d', none, none, out⟩ := by
    intro d'; simp [shut]
  intro r σ' hs
  obtain ⟨g', T'⟩ := σ'
  simp only [Laws.step, copying] at hs
  obtain ⟨⟨hs, -⟩, hT⟩ := hs
  subst T'
  obtain ⟨rfl, hs2⟩ := hs ws hws hq _ sub hf hb
  rcases r with e | f
  · simp only [Prog.ret_bind, ne_eq, reduceCtorEq, not_false_eq_true, if_true]
    refine ⟨⟨_, rfl⟩, ?_⟩
    rw [shut0]
    exact h2 hs2 e dst
  obtain ⟨hty, hsz, -⟩ := hs2
  have hsz := hsz b rfl
  have hreg : (statusOf f).isRegular = true := by simp [FStatus.isRegular, statusOf_type, hty, Kind.type]
  simp only [Prog.ret_bind, ne_eq, not_true_eq_false, if_false, hreg, Bool.not_true, Bool.false_eq_true]
  simp only [getFileStatus_ref, Prog.call_bind]
  intro r σ' hs
  obtain ⟨g', T'⟩ := σ'
  simp only [Laws.step, copying] at hs
  obtain ⟨⟨-, hs⟩, hT⟩ := hs
  subst T'
  obtain ⟨rfl, e, rfl, he⟩ := hs ws hws hq' hfree.1
  simp only [Prog.ret_bind, FStatus.known, FStatus.exists', typeOfErr, EcArg.code]
  by_cases hm : e = .ENOENT ∨ e = .ENOTDIR
  · simp only [hm, if_true, bne, Bool.not_and, show (FType.notFound == FType.none) = false from rfl,
        show (FType.notFound == FType.notFound) = true from rfl, Bool.not_true, Bool.not_false, Bool.or_true,
        Bool.false_eq_true, if_false]
    unfold copyInto
    intro r σ' hs
    obtain ⟨g', T'⟩ := σ'
    simp only [Laws.step, copying] at hs
    obtain ⟨⟨-, hs⟩, hT⟩ := hs
    subst T'
    have hs := hs ws hws hq' hfree trivial rfl trivial
    rcases r with e | wf
    · obtain ⟨hm, rfl⟩ := hs
      refine ⟨⟨_, rfl⟩, ?_⟩
      rw [shut0]
      exact h2 hm e dst
    obtain ⟨hfr, rfl⟩ := hs
    have hne : inp ≠ wf := hfr.1 _ rfl
    apply wpG_closing
    have shut1 : ∀ d' i j, shut inp (shut wf (⟨src, d', some (inp, b, i), some (wf, ws, j), out⟩ : Garden ω)) = ⟨src, d', none, none, out⟩ := by
      intro d' i j; simp [shut, hne]
    simp only [Prog.bind_eq, refreshStatus_eq, Prog.call_bind]
    intro r σ' hs
    obtain ⟨g', T'⟩ := σ'
    simp only [Laws.step, copying] at hs
    obtain ⟨⟨-, hs⟩, hT⟩ := hs
    subst T'
    obtain ⟨rfl, hs2⟩ := hs ws hws hq' _ (grow_at _ _ _)
    rcases r with e | st
    · simp only [Prog.ret_bind, ne_eq, reduceCtorEq, not_false_eq_true, if_true]
      refine ⟨⟨_, rfl⟩, ⟨_, rfl⟩, ?_⟩
      simp only
      rw [shut1]
      exact h2 (hs2 e rfl) e _
    simp only [Prog.ret_bind, ne_eq, not_true_eq_false, if_false]
    apply wp_bind
    rw [hsz]
    refine wpG_transfer (g := ⟨src, dst, some (inp, b, 0), none, out⟩) (ws := ws) sf hn ?_ ?_
    · simp only [not_true_eq_false, if_false]
      refine ⟨⟨_, rfl⟩, ⟨_, rfl⟩, ?_⟩
      simp only [transfer, shut1, List.take_length]
      exact h1
    · intro hm e i j
      simp only [reduceCtorEq, not_false_eq_true, if_true]
      refine ⟨⟨_, rfl⟩, ⟨_, rfl⟩, ?_⟩
      simp only [transfer, shut1]
      exact h2 hm e _
  · simp only [hm, if_false, bne, show (FType.none == FType.none) = true from rfl, Bool.not_true, Bool.not_false, if_true]
    refine ⟨⟨_, rfl⟩, ?_⟩
    rw [shut0]
    exact h2 (he.resolve_right fun h => hm (.inl h)) e dst

/-! ## A link -/

theorem wpG_copySymlink {g : Garden ω} {q q' : Path} {ws : List Str} {t : Str} {sub : Forest} {c : Code}
    {Q : Except Stop (Unit × EcArg) → Os (Garden ω) → Prop} (hws : ∀ w ∈ ws, IsName w) (hq : q.pathname = ws.foldl addElem S)
    (hq' : q'.pathname = ws.foldl addElem D) (hf : seek g.src ws = some (.link t, sub)) (ht : Kind.Proper cap links (.link t)) (hfree : Free g.dst ws)
    (h1 : Q (.ok ((), .ref none)) ⟨{ g with dst := grow g.dst ws (.link t) }, T⟩)
    (h2 : may → ∀ e, Q (.ok ((), .ref (some e))) ⟨g, T⟩) :
    wp (copying ω S D k cap may).step Q (copySymlink q q' (.ref c)) ⟨g, T⟩ := by
  obtain ⟨-, ht1, ht2, ht3⟩ := ht
  have hpos : 0 < t.length := List.length_pos_iff.mpr ht1
  unfold copySymlink readSymlink
  simp only [clear_ref, Prog.bind_eq, Prog.call_bind]
  intro r σ' hs
  obtain ⟨g', T'⟩ := σ'
  simp only [Laws.step, copying] at hs
  obtain ⟨⟨rfl, hg⟩, hT⟩ := hs
  subst T' g'
  dsimp only
  rw [if_pos (by omega)]
  intro r σ' hs
  obtain ⟨g', T'⟩ := σ'
  simp only [Laws.step, copying] at hs
  obtain ⟨hs, hT⟩ := hs
  subst T'
  have hs := hs ws hws hq t sub hf
  rcases r with e | x
  · obtain ⟨hm, rfl⟩ := hs
    exact h2 hm e
  obtain ⟨hx, rfl⟩ := hs
  rw [Int.toNat_natCast, List.take_of_length_le ht2] at hx
  subst hx
  simp only
  rw [if_pos ⟨by omega, hpos⟩]
  simp only [Prog.ret_bind, EcArg.isSet, EcArg.code, Bool.false_eq_true, if_false]
  unfold createSymlink createSymlinkAs
  simp only [clear_ref]
  intro r σ' hs
  obtain ⟨g', T'⟩ := σ'
  simp only [Laws.step, copying] at hs
  obtain ⟨hs, hT⟩ := hs
  subst T'
  have hs := hs ws hws hq' hfree
  rcases r with e | u
  · obtain ⟨hm, rfl⟩ := hs
    exact h2 hm e
  simp only [mkPath_pathname, ht3] at hs
  subst hs
  exact h1

/-! ## A directory -/

theorem wp_onThrow {α σ : Type} {step : σ → Event → σ → Prop} {Q : Except Stop α → σ → Prop} {p : Prog α} {d : Prog Unit} {s : σ}
    (h : wp step (fun o s => Q o s ∧ ∀ x, o ≠ .error (.thrown x)) p s) : wp step Q (p.onThrow d) s := by
  induction p generalizing s with
  | ret a => exact h.1
  | stop x =>
    cases x with
    | thrown x => exact absurd rfl (h.2 x)
    | fault f => exact h.1
    | fuel => exact h.1
  | call c k ih => exact fun r s' hs => ih r (h r s' hs)

theorem prefix_snoc {ws vs : List Str} {w v : Str} : (ws ++ [w]) <+: (ws ++ v :: vs) ↔ w = v := by
  rw [List.prefix_append_right_inj, List.cons_prefix_cons]
  simp

theorem not_prefix_self {ws : List Str} {w : Str} : ¬ (ws ++ [w]) <+: ws := by
  intro h
  have := h.length_le
  simp at this
  omega

/-- The claim for a file and everything below it, with `n` levels. -/
def Reproduces (ω : Type) (S D : Str) (k cap : Nat) (may : Prop) (sf : Bool) (opts : CopyOptions) (n : Nat) : Prop :=
  ∀ (g : Garden ω) (T : List (Nat × List Dirent)) (q q' : Path) (ws : List Str) (x : Plant) (c : Code) (Q : Except Stop (Unit × EcArg) → Os (Garden ω) → Prop),
    Shape q → Shape q' → (∀ w ∈ ws, IsName w) → q.pathname = ws.foldl addElem S → q'.pathname = ws.foldl addElem D →
    seek g.src ws = some x → x.Proper cap (copiesLinks opts) → (∀ v, g.dst (ws ++ v) = none) → (ws ≠ [] → g.dst ws.dropLast = some .dir) →
    g.rfd = none → g.wfd = none → x.weight + k + 3 ≤ n →
    (∀ dst, (∀ v, dst (ws ++ v) = (seek (some x) v).map Prod.fst) → (∀ v, ¬ ws <+: v → dst v = g.dst v) →
      Q succeeds ⟨{ g with dst := dst }, T⟩) →
    (may → ∀ e dst, Q (fails e) ⟨{ g with dst := dst }, T⟩) →
    wp (copying ω S D k cap may).step Q (copy sf n q q' opts (.ref c)) ⟨g, T⟩

theorem wpG_copyLoop {sf : Bool} {opts : CopyOptions} {n : Nat} (ih : Reproduces ω S D k cap may sf opts n) {hd : Handler} {to : Path} (ht : Shape to)
    {ws : List Str} (hws : ∀ w ∈ ws, IsName w) (hto : to.pathname = ws.foldl addElem D) {sub : Forest} (hp : sub.Proper cap (copiesLinks opts))
    (hn : sub.weight + k + 3 ≤ n) : ∀ (m : Nat) {g : Garden ω} {T : List (Nat × List Dirent)} {s : Stream} {d : Nat}
    {rest : List Dirent} {w : Str} {Q : Except Stop (Unit × EcArg) → Os (Garden ω) → Prop},
    s.Live d → s.root.pathname = ws.foldl addElem S → s.entry.path = mkPath .posix (appendText s.root.pathname w) → d ∉ T.map Prod.fst →
    seek g.src ws = some (.dir, sub) → (∀ v ∈ w :: realNames rest, v ∈ sub.names) → (w :: realNames rest).Nodup → (∀ e ∈ rest, IsName e.name) → dotCount rest ≤ k →
    g.dst ws = some .dir → (∀ v ∈ w :: realNames rest, ∀ vs, g.dst (ws ++ v :: vs) = none) →
    (∀ v, v ∉ w :: realNames rest → ∀ vs, g.dst (ws ++ v :: vs) = (seek (sub.child v) vs).map Prod.fst) →
    g.rfd = none → g.wfd = none → (realNames rest).length + k + 2 ≤ m →
    (∀ dst, dst ws = some .dir → (∀ v vs, dst (ws ++ v :: vs) = (seek (sub.child v) vs).map Prod.fst) → (∀ v, ¬ ws <+: v → dst v = g.dst v) →
      Q succeeds ⟨{ g with dst := dst }, T⟩) →
    (may → ∀ e dst, Q (fails e) ⟨{ g with dst := dst }, T⟩) →
    wp (copying ω S D k cap may).step Q (copyLoop hd (fun a b ec => copy sf n a b opts ec) to m (some s) none (.ref none)) ⟨g, (d, rest) :: T⟩
  | 0, _, _, _, _, _, _, _, _, _, _, _, _, _, _, _, _, _, _, _, _, _, h, _, _ => by omega
  | m + 1, g, T, s, d, rest, w, Q, hl, hr, he, hd, hf, hmem, hnd, hnm, hdc, hdir, hrem, hdone, hrf, hwf, hm, h1, h2 => by
    obtain ⟨x, hc⟩ := forest_child (hmem w (by simp))
    obtain ⟨hw, -, -, hx⟩ := hp.child hc
    have hxw := forest_child_weight hc
    obtain ⟨hp1, hp2⟩ := target_path (to := to) (src := s.root) ht hw
    have hws' : ∀ v ∈ ws ++ [w], IsName v := by
      intro v hv
      rcases List.mem_append.mp hv with h | h
      · exact hws v h
      · exact (List.mem_singleton.mp h) ▸ hw
    unfold copyLoop
    simp only [ne_eq, not_true_eq_false, if_false, Prog.bind_eq, he, hp1, hp2, Prog.ofRes_ok, Prog.ret_bind]
    apply wp_bind
    apply wp_onThrow
    refine ih g _ _ _ (ws ++ [w]) x _ _ (mkPath_shape _) (mkPath_shape _) hws' ?_ ?_ ?_ hx ?_ ?_ hrf hwf (by omega) (fun dst ha hb => ?_) (fun hmay e dst => ?_)
    · rw [mkPath_pathname, stored_appendText _ _ (startsSlash_name hw.2) hl.root.stored, hr, foldl_snoc ws hw]
    · rw [mkPath_pathname, stored_appendText _ _ (startsSlash_name hw.2) ht.stored, hto, foldl_snoc ws hw]
    · rw [seek_append, hf]; exact hc
    · intro v
      rw [List.append_assoc]
      exact hrem w (by simp) v
    · intro _
      rw [List.dropLast_concat]
      exact hdir
    · refine ⟨?_, fun x h => by cases h⟩
      simp only [isSet_none, Bool.false_eq_true, if_false]
      apply wp_bind
      obtain ⟨hnw, hnd'⟩ := List.nodup_cons.mp hnd
      have kdir : dst ws = some .dir := by rw [hb ws not_prefix_self]; exact hdir
      have krem : ∀ v ∈ realNames rest, ∀ vs, dst (ws ++ v :: vs) = none := by
        intro v hv vs
        rw [hb _ (by rw [prefix_snoc]; rintro rfl; exact hnw hv)]
        exact hrem v (by simp [hv]) vs
      have kdone : ∀ v, v ∉ realNames rest → ∀ vs, dst (ws ++ v :: vs) = (seek (sub.child v) vs).map Prod.fst := by
        intro v hv vs
        by_cases hvw : w = v
        · subst hvw
          have := ha vs
          rw [List.append_assoc] at this
          rw [hc]
          exact this
        · rw [hb _ (by rw [prefix_snoc]; exact hvw)]
          exact hdone v (by simp [hv, Ne.symm hvw]) vs
      have kframe : ∀ v, ¬ ws <+: v → dst v = g.dst v := fun v hv => hb v fun h => hv ((List.prefix_append ws [w]).trans h)
      refine wpK_incr hl (by omega) hnm hd (fun hdots => ?_) (fun pre ent rest' hrest hpre hent => ?_)
      · dsimp only [EcArg.code]
        obtain ⟨m, rfl⟩ : ∃ j, m = j + 1 := ⟨m - 1, by omega⟩
        unfold copyLoop
        rw [realNames_dots hdots] at kdone
        exact h1 dst kdir (fun v vs => kdone v (by simp) vs) kframe
      · dsimp only [EcArg.code]
        subst hrest
        rw [realNames_split hpre hent] at krem kdone hm hnd' hmem
        refine wpG_copyLoop ih ht hws hto hp hn m (hl.at ent _) hr rfl hd hf (fun v hv => hmem v (by simp only [List.mem_cons] at hv ⊢; exact .inr hv)) hnd'
          (fun e h => hnm e (by simp [h])) (Nat.le_trans dotCount_split hdc) kdir krem kdone hrf hwf (by simp only [List.length_cons] at hm; omega) ?_ ?_
        · intro dst' a1 a2 a3
          exact h1 dst' a1 a2 fun v hv => (a3 v hv).trans (kframe v hv)
        · intro hmay e dst'
          exact h2 hmay e dst'
    · refine ⟨?_, fun x h => by cases h⟩
      simp only [isSet_some, if_true]
      apply wp_bind
      refine wpK_destroy hl.handle hd ?_
      exact h2 hmay e dst

/-- The options ask for a full copy. -/
def Spec.fullCopy (opts : CopyOptions) : Prop :=
  (recursive opts ∨ opts = 0) ∧ ¬ makesLinks opts ∧ ¬ skipsLinks opts ∧ ¬ directoriesOnly opts ∧ ¬ makesHardLinks opts

theorem has_false {opts o : CopyOptions} {P : Prop} (h : opts.has o = true ↔ P) (hn : ¬ P) : opts.has o = false := by
  cases hx : opts.has o
  · rfl
  · exact absurd (h.mp hx) hn

theorem wpG_createDirectoryLike {g : Garden ω} {q q' : Path} {ws : List Str} {sub : Forest} {c : Code}
    {Q : Except Stop (Bool × EcArg) → Os (Garden ω) → Prop} (hws : ∀ w ∈ ws, IsName w) (hq : q.pathname = ws.foldl addElem S)
    (hq' : q'.pathname = ws.foldl addElem D) (hf : seek g.src ws = some (.dir, sub)) (hfree : Free g.dst ws)
    (h1 : Q (.ok (true, .ref none)) ⟨{ g with dst := grow g.dst ws .dir }, T⟩)
    (h2 : may → ∀ e, Q (.ok (false, .ref (some e))) ⟨g, T⟩) :
    wp (copying ω S D k cap may).step Q (createDirectoryLike q' q (.ref c)) ⟨g, T⟩ := by
  unfold createDirectoryLike
  simp only [clear_ref, Prog.bind_eq, getFileStatus_ref, Prog.call_bind]
  intro r σ' hs
  obtain ⟨g', T'⟩ := σ'
  simp only [Laws.step, copying] at hs
  obtain ⟨⟨hs, -⟩, hT⟩ := hs
  subst T'
  obtain ⟨rfl, hs2⟩ := hs ws hws hq .dir sub hf trivial (by intro t h; cases h)
  rcases r with e | st
  · simp only [Prog.ret_bind, EcArg.code]
    split
    · exact h2 hs2 e
    · split
      · exact h2 hs2 _
      · rename_i h3 h4
        exfalso
        revert h3 h4
        simp only [FStatus.isDirectory, typeOfErr]
        split <;> simp [FStatus.known]
  · have hty : (statusOf st).isDirectory = true := by simp [FStatus.isDirectory, statusOf_type, hs2.1, Kind.type]
    simp only [Prog.ret_bind, statusOf_known, hty, Prog.useStat, Bool.not_true, Bool.false_eq_true, if_false]
    intro r σ' hs
    obtain ⟨g', T'⟩ := σ'
    simp only [Laws.step, copying] at hs
    obtain ⟨hs, hT⟩ := hs
    subst T'
    have hs := hs ws hws hq' hfree
    rcases r with e | u
    · obtain ⟨hm, hne, rfl⟩ := hs
      simp only [hne, if_false]
      exact h2 hm e
    · subst hs
      exact h1

theorem reproduces {sf : Bool} {opts : CopyOptions} (ho : fullCopy opts) (n : Nat) : Reproduces ω S D k cap may sf opts n := by
  obtain ⟨ho1, ho2, ho3, ho4, ho5⟩ := ho
  have o1 : (opts.has .recursive || opts == CopyOptions.none) = true := by
    rcases ho1 with h | h
    · rw [(has_recursive opts).mpr h]; rfl
    · rw [h]; rfl
  have o2 := has_false (has_makeLinks opts) ho2
  have o3 := has_false (has_skipLinks opts) ho3
  have o4 := has_false (has_directoriesOnly opts) ho4
  have o5 := has_false (has_makeHardLinks opts) ho5
  induction n with
  | zero => intro g T q q' ws x c Q _ _ _ _ _ _ _ _ _ _ _ h; omega
  | succ n ih =>
    intro g T q q' ws ⟨kd, sub⟩ c Q hsh hsh' hws hq hq' hf hp hdst hpar hrf hwf hn h1 h2
    obtain ⟨hp1, hp2, hp3⟩ := hp
    simp only at hp1 hp2 hp3
    have hfree : Free g.dst ws := ⟨by simpa using hdst [], hpar⟩
    unfold copy
    simp only [o2, o3, Bool.or_self, Bool.false_or, Bool.false_eq_true, if_false, clear_ref, Prog.bind_eq]
    -- after the first look
    have after : ∀ (st : Stat), Reveals may kd (.ok st) → wp (copying ω S D k cap may).step Q
        ((getFileStatus q' (some .zero) (.ref none)).bind fun __x =>
          if (!__x.1.1.known) = true then Handler.report ⟨"copy".toList, some q, some q'⟩ (.ref none) __x.2.code ()
          else (Prog.useStat (some st)).bind fun f => (Prog.useStat __x.1.2).bind fun t =>
            if copyRejects (statusOf st) __x.1.1 f t = true then Handler.report ⟨"copy".toList, some q, some q'⟩ (.ref none) (some .ENOSYS) ()
            else copyDispatch (fun a b ec => copy sf n a b opts ec) sf n ⟨"copy".toList, some q, some q'⟩ q q' opts (statusOf st) __x.1.1 (.ref none))
        ⟨g, T⟩ := by
      rintro st ⟨hty, -, hino⟩
      simp only [getFileStatus_ref, Prog.call_bind]
      intro r σ' hs
      obtain ⟨g', T'⟩ := σ'
      simp only [Laws.step, copying] at hs
      obtain ⟨⟨-, hs⟩, hT⟩ := hs
      subst T'
      obtain ⟨hg, e, rfl, he⟩ := hs ws hws hq' hfree.1
      subst g'
      simp only [Prog.ret_bind, EcArg.code, Prog.useStat]
      by_cases hm : e = .ENOENT ∨ e = .ENOTDIR
      · have hte : typeOfErr e = .notFound := if_pos hm
        have hrej : copyRejects (statusOf st) { type := .notFound } st .zero = false := by
          have : statEquivalent st .zero = false := by
            simp only [statEquivalent, Bool.and_eq_false_iff, beq_eq_false_iff_ne]
            exact .inr hino
          simp only [copyRejects, this, FStatus.isOther, FStatus.exists', FStatus.known, FStatus.isRegular, FStatus.isDirectory, FStatus.isSymlink, statusOf_type, hty]
          cases kd <;> rfl
        simp only [hte, show (FStatus.known { type := .notFound }) = true from rfl, Bool.not_true, Bool.false_eq_true, if_false, hrej]
        unfold copyDispatch
        simp only [FStatus.isSymlink, FStatus.isRegular, FStatus.isDirectory, statusOf_type, hty, o2, o3, o4, o5, Bool.false_eq_true, if_false,
          show (FStatus.exists' { type := .notFound }) = false from rfl, Bool.not_false, if_true]
        cases kd with
        | link t =>
          simp only [Kind.type, beq_self_eq_true, if_true]
          refine wpG_copySymlink hws hq hq' hf hp1 hfree ?_ (fun hm e => h2 hm e g.dst)
          refine h1 _ (fun v => ?_) (fun v hv => ?_)
          · have hs : sub = .nil := hp2 (by simp)
            subst hs
            cases v with
            | nil => simp [grow, seek]
            | cons v vs =>
              simp only [grow, seek, Forest.child]
              rw [if_neg (by simp), hdst]
              cases vs <;> rfl
          · simp only [grow]
            rw [if_neg]
            rintro rfl
            exact hv (List.prefix_refl _)
        | file b =>
          simp only [Kind.type, show (FType.regular == FType.symlink) = false from rfl, show (FType.notFound == FType.directory) = false from rfl, beq_self_eq_true, Bool.false_eq_true, if_false, if_true]
          apply wp_bind
          refine wpG_copyFile sf hws hq hq' hf hp1 hfree hrf hwf (by simp only [Plant.weight, Kind.weight] at hn; omega) ?_ (fun hm e dst => h2 hm e dst)
          refine h1 _ (fun v => ?_) (fun v hv => ?_)
          · have hs : sub = .nil := hp2 (by simp)
            subst hs
            cases v with
            | nil => simp [grow, seek]
            | cons v vs =>
              simp only [grow, seek, Forest.child]
              rw [if_neg (by simp), hdst]
              cases vs <;> rfl
          · simp only [grow]
            rw [if_neg]
            rintro rfl
            exact hv (List.prefix_refl _)
        | dir =>
          simp only [Kind.type, show (FType.directory == FType.symlink) = false from rfl, show (FType.directory == FType.regular) = false from rfl, beq_self_eq_true, Bool.false_eq_true, if_false,
            Bool.and_false, Bool.true_and, o1, if_true]
          unfold copyDir
          simp only [show (FStatus.exists' { type := .notFound }) = false from rfl, Bool.not_false, if_true, Prog.bind_eq, Prog.bind_assoc]
          apply wp_bind
          refine wpG_createDirectoryLike hws hq hq' hf hfree ?_ (fun hm e => h2 hm e g.dst)
          simp only [Prog.ret_bind, isSet_none, Bool.false_eq_true, if_false]
          apply wp_bind
          have hlen := forest_names_le sub
          simp only [Plant.weight, Kind.weight] at hn
          have hdst' : ∀ v vs, grow g.dst ws .dir (ws ++ v :: vs) = none := by
            intro v vs
            simp only [grow]
            rw [if_neg (by simp)]
            exact hdst _
          have hframe : ∀ v, ¬ ws <+: v → grow g.dst ws .dir v = g.dst v := by
            intro v hv
            simp only [grow]
            rw [if_neg]
            rintro rfl
            exact hv (List.prefix_refl _)
          have hend : ∀ dst : List Str → Option Kind, dst ws = some .dir → (∀ v vs, dst (ws ++ v :: vs) = (seek (sub.child v) vs).map Prod.fst) →
              ∀ v, dst (ws ++ v) = (seek (some (.dir, sub)) v).map Prod.fst := by
            intro dst a1 a2 v
            cases v with
            | nil => simpa [seek] using a1
            | cons v vs => exact a2 v vs
          refine wpK_new hsh (fun e h => ?_) (fun l h => ?_) (fun l h hd => ?_) (fun l d pre ent rest h hl hpre hent hd => ?_)
          · rw [if_neg (by rintro ⟨h, -⟩; exact absurd h (by decide))]
            simp only [isSet_some, if_true]
            exact h2 (h ws sub hws hq hf hp3.weaken) e _
          · have hl := h ws sub hws hq hf hp3.weaken
            exact ⟨by have := hl.1; omega, hl.2.1⟩
          · have hl := h ws sub hws hq hf hp3.weaken
            have hnil : sub = .nil := by
              have := hl.2.2
              rw [show ((l.filter fun e => ¬ e.dot).map Dirent.name) = realNames l from rfl, realNames_dots hd] at this
              exact forest_nil this.symm.eq_nil
            subst hnil
            obtain ⟨n, rfl⟩ : ∃ j, n = j + 1 := ⟨n - 1, by omega⟩
            simp only [isSet_none, Bool.false_eq_true, if_false, copyLoop]
            refine h1 _ (hend _ (grow_at _ _ _) fun v vs => ?_) hframe
            rw [hdst']
            cases vs <;> rfl
          · have hls := h ws sub hws hq hf hp3.weaken
            subst hl
            have hls' := hls.2.2
            rw [show (((pre ++ ent :: rest).filter fun e => ¬ e.dot).map Dirent.name) = realNames (pre ++ ent :: rest) from rfl,
              realNames_split hpre hent] at hls'
            have hll := hls'.length_eq
            simp only [List.length_cons] at hll
            simp only [isSet_none, Bool.false_eq_true, if_false]
            refine wpG_copyLoop ih hsh' hws hq' hp3 (by omega) n (s := Stream.at ⟨some d, q, .default⟩ ent _) (w := ent.name)
              (Stream.Live.at (s := ⟨some d, q, .default⟩) ⟨rfl, hsh⟩ ent _) hq rfl hd hf (fun v hv => hls'.mem_iff.mp hv) (hls'.nodup_iff.mpr hp3.nodup)
              (fun e he => hls.2.1 e (by simp [he])) (Nat.le_trans dotCount_split hls.1) (grow_at _ _ _) (fun v _ vs => hdst' v vs) ?_ hrf hwf (by omega) ?_ (fun hm e dst => h2 hm e dst)
            · intro v hv vs
              dsimp only
              rw [hdst', forest_no_child fun h => hv (hls'.mem_iff.mpr h)]
              cases vs <;> rfl
            · intro dst a1 a2 a3
              exact h1 dst (hend dst a1 a2) fun v hv => (a3 v hv).trans (hframe v hv)
      · have hte : typeOfErr e = .none := if_neg hm
        simp only [hte, show (FStatus.known { type := .none }) = false from rfl, Bool.not_false, if_true]
        exact h2 (he.resolve_right fun h => hm (.inl h)) e g.dst
    by_cases hcl : opts.has .copySymlinks = true
    · simp only [hcl, if_true, getLinkStatus_ref, Prog.call_bind]
      intro r σ' hs
      obtain ⟨g', T'⟩ := σ'
      simp only [Laws.step, copying] at hs
      obtain ⟨⟨hs, -⟩, hT⟩ := hs
      subst T'
      obtain ⟨hg, hs2⟩ := hs ws hws hq kd sub hf hp1.weaken
      subst g'
      rcases r with e | st
      · simp only [Prog.ret_bind, isSet_some, if_true]
        exact h2 hs2 e g.dst
      · simp only [Prog.ret_bind, isSet_none, Bool.false_eq_true, if_false]
        exact after st hs2
    · have hcl' : opts.has .copySymlinks = false := by simpa using hcl
      simp only [hcl', Bool.false_eq_true, if_false]
      rw [getFileStatus_ref q (some .zero) none, Prog.call_bind]
      intro r σ' hs
      obtain ⟨g', T'⟩ := σ'
      simp only [Laws.step, copying] at hs
      obtain ⟨⟨hs, -⟩, hT⟩ := hs
      subst T'
      obtain ⟨hg, hs2⟩ := hs ws hws hq kd sub hf hp1.weaken (by
        rintro t rfl
        exact hcl ((has_copyLinks opts).mpr hp1.1))
      subst g'
      rcases r with e | st
      · simp only [Prog.ret_bind, isSet_some, if_true]
        exact h2 hs2 e g.dst
      · simp only [Prog.ret_bind, isSet_none, Bool.false_eq_true, if_false]
        exact after st hs2

/-- C50. If nothing is at `to`, `copy` of a tree of directories, files and (with `copy_symlinks`) links ends (`n` levels and rounds are
enough). Either it reports success, and what is at `to` is the tree: at each name there is what there is in the
source, of the same type, with the same contents or the same target, and nothing at other names. Or some call failed
and the error is reported. In both cases the source and everything outside `to` are unchanged, and all files and
directories opened are closed.
Missing, because it is false: the kernel may write less than it is given (`c26_violated`), a listing may break off
(`c51_violated`), `to` may be inside `from` (`c50_violated`). -/
theorem c50_copy_partial {sf : Bool} {opts : CopyOptions} (ho : fullCopy opts) {n : Nat} {src to : Path} (hs : Shape src) (ht : Shape to) {c : Code}
    {x : Plant} (hx : x.Proper cap (copiesLinks opts)) (hn : x.weight + k + 3 ≤ n) {s s' : Os (Garden ω)} (h1 : s.disk.src = some x)
    (h2 : ∀ ws, s.disk.dst ws = none) (h3 : s.disk.rfd = none) (h4 : s.disk.wfd = none) {t : List Event} {o : Except Stop (Unit × EcArg)}
    (he : Exec (copy sf n src to opts (.ref c)) t o) (hk : Steps (copying ω src.pathname to.pathname k cap may).step s t s') :
    ((o = succeeds ∧ ∀ ws, s'.disk.dst ws = (seek (some x) ws).map Prod.fst) ∨ (may ∧ ∃ e, o = fails e)) ∧
    s'.disk.src = s.disk.src ∧ s'.disk.outside = s.disk.outside ∧ s'.disk.rfd = none ∧ s'.disk.wfd = none ∧ s'.table = s.table := by
  refine wp_sound (step := (copying ω src.pathname to.pathname k cap may).step)
    (Q := fun o s' => ((o = succeeds ∧ ∀ ws, s'.disk.dst ws = (seek (some x) ws).map Prod.fst) ∨ (may ∧ ∃ e, o = fails e)) ∧
      s'.disk.src = s.disk.src ∧ s'.disk.outside = s.disk.outside ∧ s'.disk.rfd = none ∧ s'.disk.wfd = none ∧ s'.table = s.table) ?_ he hk
  refine reproduces ho n s.disk s.table src to [] x c _ hs ht (by simp) rfl rfl h1 hx (fun v => h2 v) (by simp) h3 h4 hn (fun dst ha hb => ?_) (fun hm e dst => ?_)
  · exact ⟨.inl ⟨rfl, fun ws => ha ws⟩, rfl, rfl, h3, h4, rfl⟩
  · exact ⟨.inr ⟨hm, e, rfl⟩, rfl, rfl, h3, h4, rfl⟩

/-! ## The assumptions can be met -/

/-- No path leads both into the source and into the destination. -/
def Spec.Apart (S D : Str) : Prop :=
  ∀ ws vs : List Str, (∀ w ∈ ws, IsName w) → (∀ w ∈ vs, IsName w) → ws.foldl addElem S ≠ vs.foldl addElem D

theorem forest_listing (k : Nat) {sub : Forest} (h : sub.Proper cap links) : ∃ l, sub.Listed k l := by
  refine ⟨sub.names.map (⟨·, .unknown⟩), ?_⟩
  have hall : ∀ w ∈ sub.names, IsName w ∧ w ≠ ".".toList ∧ w ≠ "..".toList := by
    intro w hw
    obtain ⟨x, hc⟩ := forest_child hw
    obtain ⟨h1, h2, h3, _⟩ := h.child hc
    exact ⟨h1, h2, h3⟩
  have hd : ∀ e ∈ sub.names.map (⟨·, .unknown⟩ : Str → Dirent), ¬ e.dot := by
    intro e he
    obtain ⟨w, hw, rfl⟩ := List.mem_map.mp he
    obtain ⟨_, h2, h3⟩ := hall w hw
    rintro (h | h)
    · exact h2 h
    · exact h3 h
  refine ⟨?_, ?_, ?_⟩
  · rw [dotCount, List.countP_eq_zero.mpr (by simpa using hd)]
    exact Nat.zero_le _
  · intro e he
    obtain ⟨w, hw, rfl⟩ := List.mem_map.mp he
    exact (hall w hw).1
  · rw [List.filter_eq_self.mpr (by simpa using hd), List.map_map]
    simp [Function.comp_def]

theorem exists_reveals {kd : Kind} (h : kd.Proper cap links) : ∃ st, Reveals may kd (.ok st) := by
  cases kd with
  | file b =>
    refine ⟨⟨0, 1, 0o100000, 1, BitVec.ofNat 64 b.length, 0, 0, 0⟩, (by decide : typeOf 0o100000 = .regular), ?_, by simp⟩
    intro b' hb
    cases hb
    have hb : b.length < 2 ^ 63 := h
    simp only
    rw [BitVec.toInt_eq_toNat_of_lt] <;> rw [BitVec.toNat_ofNat, Nat.mod_eq_of_lt (by omega)]
    omega
  | dir => exact ⟨⟨0, 1, 0o040000, 1, 0, 0, 0, 0⟩, by decide, by simp, by decide⟩
  | link t => exact ⟨⟨0, 1, 0o120000, 1, 0, 0, 0, 0⟩, (by decide : typeOf 0o120000 = .symlink), by simp, by decide⟩

theorem copying_total (hap : Apart S D) (s : Os (Garden ω)) (c : Sys) :
    ∃ (r : c.Ret) (s' : Os (Garden ω)), (copying ω S D k cap may).step s ⟨c, r⟩ s' := by
  apply Laws.total
  · intro g x
    by_cases h : ∃ ws sub, (∀ w ∈ ws, IsName w) ∧ x = ws.foldl addElem S ∧ seek g.src ws = some (.dir, sub) ∧ sub.Proper cap True
    · obtain ⟨ws, sub, h1, h2, h3, h4⟩ := h
      obtain ⟨l, hl⟩ := forest_listing k h4
      refine ⟨.ok l, fun vs sub' g1 g2 g3 g4 => ?_⟩
      obtain rfl := under_inj h1 g1 (h2 ▸ g2)
      rw [h3] at g3
      cases g3
      exact hl
    · exact ⟨.error .ENOENT, fun ws sub h1 h2 h3 h4 => absurd ⟨ws, sub, h1, h2, h3, h4⟩ h⟩
  · intro g c
    cases c with
    | stat x =>
      by_cases h : ∃ ws kd sub, (∀ w ∈ ws, IsName w) ∧ x = ws.foldl addElem S ∧ seek g.src ws = some (kd, sub) ∧ kd.Proper cap True
      · obtain ⟨ws, kd, sub, h1, h2, h3, h4⟩ := h
        obtain ⟨st, hst⟩ := exists_reveals (may := may) h4
        refine ⟨.ok st, g, fun vs g1 g2 kd' sub' g3 g4 _ => ?_, fun vs g1 g2 => absurd (h2.symm.trans g2) (hap _ _ h1 g1)⟩
        obtain rfl := under_inj h1 g1 (h2 ▸ g2)
        rw [h3] at g3
        cases g3
        exact ⟨rfl, hst⟩
      · exact ⟨.error .ENOENT, g, fun ws h1 h2 kd sub h3 h4 _ => absurd ⟨ws, kd, sub, h1, h2, h3, h4⟩ h, fun _ _ _ _ => ⟨rfl, _, rfl, .inr rfl⟩⟩
    | lstat x =>
      by_cases h : ∃ ws kd sub, (∀ w ∈ ws, IsName w) ∧ x = ws.foldl addElem S ∧ seek g.src ws = some (kd, sub) ∧ kd.Proper cap True
      · obtain ⟨ws, kd, sub, h1, h2, h3, h4⟩ := h
        obtain ⟨st, hst⟩ := exists_reveals (may := may) h4
        refine ⟨.ok st, g, fun vs g1 g2 kd' sub' g3 g4 => ?_, fun _ _ _ _ _ => ⟨rfl, fun e h => by cases h⟩⟩
        obtain rfl := under_inj h1 g1 (h2 ▸ g2)
        rw [h3] at g3
        cases g3
        exact ⟨rfl, hst⟩
      · exact ⟨.ok .zero, g, fun ws h1 h2 kd sub h3 h4 => absurd ⟨ws, kd, sub, h1, h2, h3, h4⟩ h, fun _ _ _ _ _ => ⟨rfl, fun e h => by cases h⟩⟩
    | mkdir x m =>
      by_cases h : ∃ ws, (∀ w ∈ ws, IsName w) ∧ x = ws.foldl addElem D ∧ Free g.dst ws
      · obtain ⟨ws, h1, h2, h3⟩ := h
        refine ⟨.ok (), { g with dst := grow g.dst ws .dir }, fun vs g1 g2 _ => ?_⟩
        obtain rfl := under_inj h1 g1 (h2 ▸ g2)
        rfl
      · exact ⟨.ok (), g, fun ws h1 h2 h3 => absurd ⟨ws, h1, h2, h3⟩ h⟩
    | symlink t x =>
      by_cases h : ∃ ws, (∀ w ∈ ws, IsName w) ∧ x = ws.foldl addElem D ∧ Free g.dst ws
      · obtain ⟨ws, h1, h2, h3⟩ := h
        refine ⟨.ok (), { g with dst := grow g.dst ws (.link t) }, fun vs g1 g2 _ => ?_⟩
        obtain rfl := under_inj h1 g1 (h2 ▸ g2)
        rfl
      · exact ⟨.ok (), g, fun ws h1 h2 h3 => absurd ⟨ws, h1, h2, h3⟩ h⟩
    | pathconf => exact ⟨(cap : Int), g, rfl, rfl⟩
    | readlink x m =>
      by_cases h : ∃ ws t sub, (∀ w ∈ ws, IsName w) ∧ x = ws.foldl addElem S ∧ seek g.src ws = some (.link t, sub)
      · obtain ⟨ws, t, sub, h1, h2, h3⟩ := h
        refine ⟨.ok (t.take m), g, fun vs g1 g2 t' sub' g3 => ?_⟩
        obtain rfl := under_inj h1 g1 (h2 ▸ g2)
        rw [h3] at g3
        cases g3
        exact ⟨rfl, rfl⟩
      · exact ⟨.ok [], g, fun ws h1 h2 t sub h3 => absurd ⟨ws, t, sub, h1, h2, h3⟩ h⟩
    | openf x fl m =>
      obtain ⟨fd, hfd⟩ := exists_other ((g.rfd.toList.map Prod.fst) ++ (g.wfd.toList.map Prod.fst))
      have hfr : g.fresh fd := by
        constructor
        · intro y hy
          rintro rfl
          exact hfd (by simp [hy])
        · intro y hy
          rintro rfl
          exact hfd (by simp [hy])
      by_cases h : ∃ ws b sub, (∀ w ∈ ws, IsName w) ∧ x = ws.foldl addElem S ∧ seek g.src ws = some (.file b, sub)
      · obtain ⟨ws, b, sub, h1, h2, h3⟩ := h
        refine ⟨.ok fd, { g with rfd := some (fd, b, 0) }, fun vs g1 g2 b' sub' g3 _ _ _ => ?_, fun vs g1 g2 => absurd (h2.symm.trans g2) (hap _ _ h1 g1)⟩
        obtain rfl := under_inj h1 g1 (h2 ▸ g2)
        rw [h3] at g3
        cases g3
        exact ⟨hfr, rfl⟩
      · by_cases h' : ∃ ws : List Str, (∀ w ∈ ws, IsName w) ∧ x = ws.foldl addElem D
        · obtain ⟨ws, h1, h2⟩ := h'
          refine ⟨.ok fd, { g with dst := grow g.dst ws (.file []), wfd := some (fd, ws, 0) }, fun ws h1 h2 b sub h3 => absurd ⟨ws, b, sub, h1, h2, h3⟩ h, fun vs g1 g2 _ _ _ _ => ?_⟩
          obtain rfl := under_inj h1 g1 (h2 ▸ g2)
          exact ⟨hfr, rfl⟩
        · exact ⟨.ok fd, g, fun ws h1 h2 b sub h3 => absurd ⟨ws, b, sub, h1, h2, h3⟩ h, fun ws h1 h2 => absurd ⟨ws, h1, h2⟩ h'⟩
    | close fd => exact ⟨.ok (), _, rfl⟩
    | read fd m =>
      by_cases h : ∃ b off, g.rfd = some (fd, b, off)
      · obtain ⟨b, off, h⟩ := h
        refine ⟨.ok ((b.drop off).take m), { g with rfd := some (fd, b, off + ((b.drop off).take m).length) }, fun b' off' h' => ?_⟩
        rw [h] at h'
        cases h'
        refine ⟨?_, by simp; omega, fun h0 => ?_, rfl⟩
        · rw [List.length_take, ← List.take_take, List.take_length]
        · have := congrArg List.length h0
          simp at this
          omega
      · exact ⟨.ok [], g, fun b off h' => absurd ⟨b, off, h'⟩ h⟩
    | write fd data =>
      by_cases h : ∃ ws off b, g.wfd = some (fd, ws, off) ∧ g.dst ws = some (.file b)
      · obtain ⟨ws, off, b, h, hb⟩ := h
        refine ⟨.ok data.length, { g with dst := grow g.dst ws (.file (overwrite b off data)), wfd := some (fd, ws, off + data.length) }, fun ws' off' b' h' hb' => ?_⟩
        rw [h] at h'
        cases h'
        rw [hb] at hb'
        cases hb'
        exact ⟨rfl, rfl⟩
      · exact ⟨.ok 0, g, fun ws off b h1 h2 => absurd ⟨ws, off, b, h1, h2⟩ h⟩
    | sendfile out inp m => exact ⟨.error .EINVAL, g, fun _ _ _ _ _ _ _ _ => rfl⟩
    | getenv x => exact ⟨none, g, trivial⟩
    | winTest q x => exact ⟨(false, none), g, trivial⟩
    | win c => exact ⟨c.fails, g, trivial⟩
    | port c => exact ⟨c.fails, g, trivial⟩
    | _ => exact ⟨.error .ENOENT, g, trivial⟩

namespace Spec
/-- A directory with a link, and a directory holding a file and an empty directory. -/
def samplePlant : Plant :=
  (.dir, .node "l".toList (.link "..".toList) .nil
    (.node "s".toList .dir (.node "f".toList (.file [1, 2, 3]) .nil (.node "e".toList .dir .nil .nil)) .nil))
end Spec

/-- It is copied, with and without `sendfile`. -/
example (sf : Bool) : (∃ t o s', Exec (copy sf 20 (mkPath .posix "a".toList) (mkPath .posix "b".toList) 24 (.ref none)) t o ∧
      Steps (copying Unit "a".toList "b".toList 2 4096 False).step ⟨⟨some samplePlant, fun _ => none, none, none, ()⟩, []⟩ t s') ∧
    ∀ t o s', Exec (copy sf 20 (mkPath .posix "a".toList) (mkPath .posix "b".toList) 24 (.ref none)) t o →
      Steps (copying Unit "a".toList "b".toList 2 4096 False).step ⟨⟨some samplePlant, fun _ => none, none, none, ()⟩, []⟩ t s' →
      o = succeeds ∧ s'.disk.dst ["s".toList, "f".toList] = some (.file [1, 2, 3]) ∧ s'.disk.dst ["l".toList] = some (.link "..".toList) ∧
        s'.disk.dst ["x".toList] = none := by
  have hap : Apart "a".toList "b".toList := by
    intro ws vs hw hv h
    have := congrArg filenames h
    rw [filenames_under _ _ hw, filenames_under _ _ hv] at this
    rw [filenames_noSlash (by decide), filenames_noSlash (by decide)] at this
    simp at this
  refine ⟨exec_exists (copying_total hap) _ _, fun t o s' h1 h2 => ?_⟩
  have hp : (mkPath .posix "a".toList).pathname = "a".toList := by decide
  have hp' : (mkPath .posix "b".toList).pathname = "b".toList := by decide
  have := c50_copy_partial (x := samplePlant) (k := 2) (cap := 4096) (may := False) (by unfold fullCopy; decide) (mkPath_shape _) (mkPath_shape _)
    (by simp [samplePlant, Plant.Proper, Kind.Proper, Forest.Proper, IsName, Forest.names, copiesLinks]; decide) (by decide) rfl (fun _ => rfl) rfl rfl h1 (by rw [hp, hp']; exact h2)
  rcases this.1 with ⟨h3, h4⟩ | ⟨h3, -⟩
  · exact ⟨h3, by rw [h4]; decide, by rw [h4]; decide, by rw [h4]; decide⟩
  · exact h3.elim

/-! ## A copy into itself -/

namespace Spec
/-- `p/w/w/…` -/
def nest (p w : Str) (j : Nat) : Str := (List.replicate j w).foldl addElem p

/-- The state is the number of directories below the directory `p`, each the only entry `w` of the one before. -/
def nesting (p w : Str) : Laws Nat where
  opens m x r := ∀ j ≤ m, x = nest p w j → r = .ok (if j < m then [⟨w, .dir⟩] else [])
  does m ev m' := match ev with
    | ⟨.stat x, r⟩ => ∀ j, x = nest p w j → m' = m ∧
      match r with
      | .ok st => j ≤ m ∧ typeOf st.mode = .directory ∧ st.ino ≠ 0
      | .error e => m < j ∧ e = .ENOENT
    | ⟨.mkdir x _, r⟩ => x = nest p w (m + 1) → r = .ok () ∧ m' = m + 1
    | _ => True
end Spec

theorem nest_inj {p w : Str} (hw : IsName w) {i j : Nat} (h : nest p w i = nest p w j) : i = j := by
  have := under_inj (by intro v hv; rw [List.eq_of_mem_replicate hv]; exact hw) (by intro v hv; rw [List.eq_of_mem_replicate hv]; exact hw) h
  simpa using congrArg List.length this

theorem nesting_total (p : Str) {w : Str} (hw : IsName w) (s : Os Nat) (c : Sys) :
    ∃ (r : c.Ret) (s' : Os Nat), (nesting p w).step s ⟨c, r⟩ s' := by
  apply Laws.total
  · intro m x
    by_cases h : ∃ j, x = nest p w j
    · obtain ⟨j, rfl⟩ := h
      exact ⟨.ok (if j < m then [⟨w, .dir⟩] else []), fun j' _ h => by rw [nest_inj hw h]⟩
    · exact ⟨.ok [], fun j _ h' => absurd ⟨j, h'⟩ h⟩
  · intro m c
    cases c with
    | stat x =>
      by_cases h : ∃ j, x = nest p w j
      · obtain ⟨j, rfl⟩ := h
        by_cases hj : j ≤ m
        · exact ⟨.ok ⟨0, 1, 0o040000, 1, 0, 0, 0, 0⟩, m, fun j' h => ⟨rfl, by rw [← nest_inj hw h]; exact hj, by decide, by decide⟩⟩
        · exact ⟨.error .ENOENT, m, fun j' h => ⟨rfl, by rw [← nest_inj hw h]; omega, rfl⟩⟩
      · exact ⟨.error .ENOENT, m, fun j h' => absurd ⟨j, h'⟩ h⟩
    | mkdir x md => exact ⟨.ok (), m + 1, fun _ => ⟨rfl, rfl⟩⟩
    | pathconf => exact ⟨(0 : Int), m, trivial⟩
    | getenv x => exact ⟨none, m, trivial⟩
    | winTest q x => exact ⟨(false, none), m, trivial⟩
    | port c => exact ⟨c.fails, m, trivial⟩
    | win c => exact ⟨c.fails, m, trivial⟩
    | _ => exact ⟨.error .ENOENT, m, trivial⟩

theorem wpN_copy {sf : Bool} {p w : Str} (hw : IsName w) (hdot : w ≠ ".".toList ∧ w ≠ "..".toList) (n : Nat) : ∀ (i : Nat) (T : List (Nat × List Dirent)) (q q' : Path) (c : Code),
    Shape q → Shape q' → q.pathname = nest p w i → q'.pathname = nest p w (i + 1) →
    wp (nesting p w).step (fun o _ => o = .error .fuel) (copy sf n q q' .recursive (.ref c)) ⟨i, T⟩ := by
  induction n with
  | zero => intro i T q q' c _ _ _ _; rfl
  | succ n ih =>
    intro i T q q' c hsh hsh' hq hq'
    have o1 : CopyOptions.recursive.has .createSymlinks = false := by decide
    have o2 : CopyOptions.recursive.has .skipSymlinks = false := by decide
    have o3 : CopyOptions.recursive.has .copySymlinks = false := by decide
    have o4 : CopyOptions.recursive.has .recursive = true := by decide
    unfold copy
    simp only [o1, o2, o3, Bool.or_self, Bool.false_eq_true, if_false, clear_ref, Prog.bind_eq]
    rw [getFileStatus_ref q (some .zero) none, Prog.call_bind]
    intro r σ' hs
    obtain ⟨m', T'⟩ := σ'
    simp only [Laws.step, nesting] at hs
    obtain ⟨hs, hT⟩ := hs
    obtain ⟨hm, hs2⟩ := hs i hq
    subst T' m'
    rcases r with e | st
    · have := hs2.1; omega
    obtain ⟨-, hty, hino⟩ := hs2
    simp only [Prog.ret_bind, isSet_none, Bool.false_eq_true, if_false]
    rw [getFileStatus_ref q' (some .zero) none, Prog.call_bind]
    intro r σ' hs
    obtain ⟨m', T'⟩ := σ'
    simp only [Laws.step, nesting] at hs
    obtain ⟨hs, hT⟩ := hs
    obtain ⟨hm, hs2⟩ := hs (i + 1) hq'
    subst T' m'
    rcases r with e | st'
    rotate_left
    · have := hs2.1; omega
    obtain ⟨-, rfl⟩ := hs2
    have hrej : copyRejects (statusOf st) { type := .notFound } st .zero = false := by
      have : statEquivalent st .zero = false := by
        simp only [statEquivalent, Bool.and_eq_false_iff, beq_eq_false_iff_ne]
        exact .inr hino
      simp only [copyRejects, this, FStatus.isOther, FStatus.exists', FStatus.known, FStatus.isRegular, FStatus.isDirectory, FStatus.isSymlink, statusOf_type, hty]
      rfl
    simp only [Prog.ret_bind, EcArg.code, Prog.useStat, show typeOfErr .ENOENT = .notFound from rfl, show (FStatus.known { type := .notFound }) = true from rfl, Bool.not_true, Bool.false_eq_true, if_false, hrej]
    unfold copyDispatch
    simp only [FStatus.isSymlink, FStatus.isRegular, FStatus.isDirectory, statusOf_type, hty, o1, o4, show (FType.directory == FType.symlink) = false from rfl,
      show (FType.directory == FType.regular) = false from rfl, beq_self_eq_true, Bool.false_eq_true, if_false, Bool.and_false, Bool.true_and, Bool.true_or, if_true]
    unfold copyDir createDirectoryLike
    simp only [show (FStatus.exists' { type := .notFound }) = false from rfl, Bool.not_false, if_true, Prog.bind_eq, clear_ref, getFileStatus_ref, Prog.call_bind]
    intro r σ' hs
    obtain ⟨m', T'⟩ := σ'
    simp only [Laws.step, nesting] at hs
    obtain ⟨hs, hT⟩ := hs
    obtain ⟨hm, hs2⟩ := hs i hq
    subst T' m'
    rcases r with e | st2
    · have := hs2.1; omega
    obtain ⟨-, hty2, -⟩ := hs2
    have hdir : (statusOf st2).isDirectory = true := by simp [FStatus.isDirectory, statusOf_type, hty2]
    simp only [Prog.ret_bind, statusOf_known, hdir, Prog.useStat, Bool.not_true, Bool.false_eq_true, if_false, Prog.call_bind]
    intro r σ' hs
    obtain ⟨m', T'⟩ := σ'
    simp only [Laws.step, nesting] at hs
    obtain ⟨hs, hT⟩ := hs
    obtain ⟨rfl, hm⟩ := hs hq'
    subst T' m'
    simp only [Prog.ret_bind, isSet_none, Bool.false_eq_true, if_false]
    apply wp_bind
    have hentdot : ¬ (⟨w, .dir⟩ : Dirent).dot := by
      rintro (h | h)
      · exact hdot.1 h
      · exact hdot.2 h
    by_cases hn : n = 0
    · subst hn
      unfold DirIter.new
      simp only [clear_ref, Prog.bind_eq]
      apply wp_bind
      unfold Stream.new
      intro r σ' hs
      rcases r with e | d
      · simp only [Laws.step, nesting] at hs
        obtain ⟨hs, -⟩ := hs
        have := hs i (by omega) hq
        cases this
      · rfl
    refine wpK_new hsh (fun e h => ?_) (fun l h => ?_) (fun l h hd => ?_) (fun l d pre ent rest h hl hpre hent hd => ?_)
    · have := h i (by omega) hq
      cases this
    · have := h i (by omega) hq
      rw [if_pos (by omega)] at this
      cases this
      refine ⟨?_, by simpa using hw⟩
      simp only [dotCount, List.countP_cons, hentdot, List.countP_nil, decide_false]
      simp
      omega
    · have := h i (by omega) hq
      rw [if_pos (by omega)] at this
      cases this
      exact absurd (hd _ (by simp)) hentdot
    · have := h i (by omega) hq
      rw [if_pos (by omega)] at this
      cases this
      have hent' : ent.name = w := by
        have := congrArg (List.map Dirent.name) hl
        cases pre with
        | nil => simp at this; exact this.1.symm
        | cons a as => simp at this
      obtain ⟨n, rfl⟩ : ∃ j, n = j + 1 := ⟨n - 1, by omega⟩
      obtain ⟨hp1, hp2⟩ := target_path (to := q') (src := q) hsh' hw
      simp only [isSet_none, Bool.false_eq_true, if_false]
      unfold copyLoop
      simp only [Stream.at, hent', ne_eq, not_true_eq_false, if_false, Prog.bind_eq, hp1, hp2, Prog.ofRes_ok, Prog.ret_bind]
      apply wp_bind
      have hsnoc : ∀ j, nest p w (j + 1) = appendText (nest p w j) w := by
        intro j
        unfold nest
        rw [foldl_snoc _ hw, List.replicate_succ']
      have key := ih (i + 1) ((d, rest) :: T) (mkPath .posix (appendText q.pathname w)) (mkPath .posix (appendText q'.pathname w)) none (mkPath_shape _) (mkPath_shape _) (by
          rw [mkPath_pathname, stored_appendText _ _ (startsSlash_name hw.2) hsh.stored, hq, hsnoc]) (by
          rw [mkPath_pathname, stored_appendText _ _ (startsSlash_name hw.2) hsh'.stored, hq', ← hsnoc])
      apply wp_onThrow
      refine wp_mono ?_ key
      rintro o s rfl
      exact ⟨rfl, fun x h => by cases h⟩

/-- C50 is false when `to` is inside `from`: `copy` makes the new directory, then lists `from`, finds the new directory there and copies it
into itself, and so on. It makes directories without end: no number of levels is enough. -/
theorem c50_violated (sf : Bool) (n : Nat) :
    (∃ t o s', Exec (copy sf n (mkPath .posix "d".toList) (mkPath .posix "d/w".toList) .recursive (.ref none)) t o ∧
      Steps (nesting "d".toList "w".toList).step ⟨0, []⟩ t s') ∧
    ∀ t o s', Exec (copy sf n (mkPath .posix "d".toList) (mkPath .posix "d/w".toList) .recursive (.ref none)) t o →
      Steps (nesting "d".toList "w".toList).step ⟨0, []⟩ t s' → o = .error .fuel := by
  have hw : IsName "w".toList := by unfold IsName; decide
  refine ⟨exec_exists (nesting_total _ hw) _ _, fun t o s' h1 h2 => ?_⟩
  exact wp_sound (step := (nesting "d".toList "w".toList).step) (Q := fun o _ => o = .error .fuel)
    (wpN_copy hw (by decide) n 0 [] _ _ none (mkPath_shape _) (mkPath_shape _) (by decide) (by decide)) h1 h2

end
end Asap
