import Verif.Props.WinF
import Verif.Props.WinA
import Verif.Ops.Agree

/-!
# C68, C69: `last_write_time` and `read_symlink` on Windows
-/

namespace Asap
open Spec Win

/-! ## C68 -/

namespace Spec

/-- The last write times of the objects a path can lead to, and the objects behind open handles. -/
structure Clocks where
  time : Nat → BitVec 64
  handle : Nat → Option Nat

/-- Windows on times: a path that can be opened leads to `goal p`, the object behind any
links, or with `FILE_FLAG_OPEN_REPARSE_POINT` to `here p`, which may be a link; `SetFileTime` sets the time of the object opened or
fails and changes nothing; `GetFileTime` tells it. Other calls change no time. -/
def TimeLaw (here goal : Str → Nat) (s : Clocks) (e : Event) (s' : Clocks) : Prop :=
  match e with
  | ⟨.win (.createFile p o), .ok h⟩ =>
      s' = { s with handle := fun k => if k = h then some (if o.reparse then here p else goal p) else s.handle k }
  | ⟨.win (.setFileTime h ft), .ok _⟩ => ∃ i, s.handle h = some i ∧
      s' = { s with time := fun k => if k = i then ft.high ++ ft.low else s.time k }
  | ⟨.win (.getFileTime h), .ok ft⟩ => s' = s ∧ ∃ i, s.handle h = some i ∧ ft.high ++ ft.low = s.time i
  | ⟨.win (.closeHandle h), _⟩ => s' = { s with handle := fun k => if k = h then none else s.handle k }
  | _ => s' = s

end Spec

/-- A scope with an open file, for times. -/
theorem wp_withFile_time {α : Type} {here goal : Str → Nat} {Q : Except Stop α → (Nat → BitVec 64) → Prop} {p : Path} {o : WinOpen}
    {fail : Errno → Prog α} {body : Nat → Prog α} {s : Clocks}
    (hf : ∀ e, wp (TimeLaw here goal) (fun o s => Q o s.time) (fail e) s)
    (hb : ∀ h s', s'.time = s.time → s'.handle h = some (if o.reparse then here p.pathname else goal p.pathname) →
      wp (TimeLaw here goal) (fun o s => Q o s.time) (body h) s') :
    wp (TimeLaw here goal) (fun o s => Q o s.time) (withFile p o fail body) s := by
  rintro (e | h) s' h1
  · cases h1
    exact hf e
  · have h1 : s' = { s with handle := fun k => if k = h then some (if o.reparse then here p.pathname else goal p.pathname) else s.handle k } := h1
    subst h1
    refine wp_finally (wp_mono ?_ (hb h _ rfl (by simp)))
    intro o s ho
    refine ⟨fun _ r s' hc => ?_, fun _ => ho⟩
    have hc : s' = { s with handle := fun k => if k = h then none else s.handle k } := hc
    rw [hc]
    exact ho

theorem wp_winGetTime (c : SysClock) (here goal : Str → Nat) (p : Path) (ec : Code) (s : Clocks) :
    wp (TimeLaw here goal) (fun o s' => s'.time = s.time ∧ ((∃ e, o = .ok (timeMin, .ref (some e))) ∨
        ∃ ft : FileTime, ft.high ++ ft.low = s.time (goal p.pathname) ∧
          ((∃ t, fromWindowsFileTime c ft = .ok t ∧ o = .ok (t, .ref none)) ∨
            ∃ x, fromWindowsFileTime c ft = .error x ∧ o = .error (.fault x))))
      (Win.lastWriteTime c p (.ref ec)) s := by
  refine wp_withFile_time (Q := fun (o : Except Stop (Int × EcArg)) τ => τ = s.time ∧ ((∃ e, o = .ok (timeMin, .ref (some e))) ∨
        ∃ ft : FileTime, ft.high ++ ft.low = s.time (goal p.pathname) ∧
          ((∃ t, fromWindowsFileTime c ft = .ok t ∧ o = .ok (t, .ref none)) ∨
            ∃ x, fromWindowsFileTime c ft = .error x ∧ o = .error (.fault x))))
    (fun e => ⟨rfl, .inl ⟨e, rfl⟩⟩) ?_
  intro h s1 ht hh
  rintro (e | ft) s2 h1
  · cases h1
    exact ⟨ht, .inl ⟨e, rfl⟩⟩
  · obtain ⟨rfl, i, hi, hq⟩ := h1
    rw [hh] at hi
    cases hi
    rw [ht] at hq
    dsimp only
    cases hr : fromWindowsFileTime c ft with
    | ok t => exact ⟨ht, .inr ⟨ft, hq, .inl ⟨t, hr, rfl⟩⟩⟩
    | error x => exact ⟨ht, .inr ⟨ft, hq, .inr ⟨x, hr, rfl⟩⟩⟩

theorem wp_winSetTime (c : SysClock) (here goal : Str → Nat) (p : Path) (t : Int) (ec : Code) (s : Clocks) (h0 : 0 ≤ t)
    (h1 : t * c.nanos < 2 ^ 63) :
    wp (TimeLaw here goal) (fun o s' => (s'.time = s.time ∧ ∃ e, o = .ok ((), .ref (some e))) ∨
        o = .ok ((), .ref none) ∧ ∃ ft, toWindowsFileTime c t = .ok (ft, none) ∧
          s'.time = fun k => if k = goal p.pathname then ft.high ++ ft.low else s.time k)
      (Win.setLastWriteTime c p t (.ref ec)) s := by
  obtain ⟨ft, hft, _⟩ := c58_to_partial c t h0 h1
  refine wp_withFile_time (Q := fun (o : Except Stop (Unit × EcArg)) τ => (τ = s.time ∧ ∃ e, o = .ok ((), .ref (some e))) ∨
        o = .ok ((), .ref none) ∧ ∃ ft, toWindowsFileTime c t = .ok (ft, none) ∧
          τ = fun k => if k = goal p.pathname then ft.high ++ ft.low else s.time k)
    (fun e => .inl ⟨rfl, e, rfl⟩) ?_
  intro h s1 ht hh
  rw [hft]
  rintro (e | u) s2 h2
  · cases h2
    exact .inl ⟨ht, e, rfl⟩
  · obtain ⟨i, hi, rfl⟩ := h2
    rw [hh] at hi
    cases hi
    exact .inr ⟨rfl, ft, rfl, by simp only [ht]; rfl⟩

/-- **C68**: setting the time of a path and reading it back: if both succeed, the time read is the time set without the
part below a second, for the times from 1970 on and before `2^63` nanoseconds later; if setting fails no time is changed; the
time of no other object is changed. Missing: earlier times are refused, later ones overflow (`c58_violated`). -/
theorem c68_round_trip_partial (c : SysClock) (here goal : Str → Nat) (p : Path) (t : Int) (e e' : Code) (tr : List Event)
    (o : Except Stop (EcArg × Int × EcArg)) (s s' : Clocks) (h0 : 0 ≤ t) (h1 : t * c.nanos < 2 ^ 63)
    (h : Exec ((Win.setLastWriteTime c p t (.ref e)).bind fun a => (Win.lastWriteTime c p (.ref e')).bind fun b =>
      .ret (a.2, b.1, b.2)) tr o) (hl : Steps (TimeLaw here goal) s tr s') :
    (∀ k, k ≠ goal p.pathname → s'.time k = s.time k) ∧
    ((∀ a b x, o = .ok (a, b, x) → a = .ref none → x = .ref none → b * c.nanos = t * c.nanos / 1000000000 * 1000000000) ∧
    (∀ a b x m, o = .ok (a, b, x) → a = .ref (some m) → s'.time = s.time)) := by
  refine wp_sound (Q := fun o s' => (∀ k, k ≠ goal p.pathname → s'.time k = s.time k) ∧
    ((∀ a b x, o = .ok (a, b, x) → a = .ref none → x = .ref none → b * c.nanos = t * c.nanos / 1000000000 * 1000000000) ∧
    (∀ a b x m, o = .ok (a, b, x) → a = .ref (some m) → s'.time = s.time))) ?_ h hl
  refine wp_bind (wp_mono ?_ (wp_winSetTime c here goal p t e s h0 h1))
  rintro o1 s1 (⟨hs, m, rfl⟩ | ⟨rfl, ft, hft, hs⟩)
  · refine wp_bind (wp_mono ?_ (wp_winGetTime c here goal p e' s1))
    rintro o2 s2 ⟨h2, ho⟩
    rcases ho with ⟨x, rfl⟩ | ⟨ft, hq, ⟨t', h3, rfl⟩ | ⟨x, h3, rfl⟩⟩
    · refine ⟨fun k _ => by rw [h2, hs], fun a b y ho ha => ?_, fun _ _ _ _ _ _ => by rw [h2, hs]⟩
      cases ho
      cases ha
    · refine ⟨fun k _ => by rw [h2, hs], fun a b y ho ha => ?_, fun _ _ _ _ _ _ => by rw [h2, hs]⟩
      cases ho
      cases ha
    · refine ⟨fun k _ => by rw [h2, hs], fun a b y ho => ?_, fun _ _ _ _ _ _ => by rw [h2, hs]⟩
      cases ho
  · obtain ⟨ft', t', h4, h5, h6⟩ := c58_round_trip_partial c t h0 h1
    rw [hft] at h4
    cases h4
    refine wp_bind (wp_mono ?_ (wp_winGetTime c here goal p e' s1))
    rintro o2 s2 ⟨h2, ho⟩
    have hother : ∀ k, k ≠ goal p.pathname → s2.time k = s.time k := by
      intro k hk
      rw [h2, hs]
      simp [hk]
    rcases ho with ⟨x, rfl⟩ | ⟨ft2, hq, ho⟩
    · refine ⟨hother, fun a b y ho _ hx => ?_, fun a b y m ho ha => ?_⟩
      · cases ho
        cases hx
      · cases ho
        cases ha
    · have : ft2 = ft := by
        rw [hs] at hq
        simp only [if_true] at hq
        obtain ⟨q1, q2⟩ := halves_inj hq
        cases ft
        cases ft2
        simp_all
      subst this
      rw [h5] at ho
      rcases ho with ⟨t2, h7, rfl⟩ | ⟨x, h7, rfl⟩
      · cases h7
        refine ⟨hother, fun a b y ho _ _ => ?_, fun a b y m ho ha => ?_⟩
        · cases ho
          exact h6
        · cases ho
          cases ha
      · cases h7

/-- **C68**: the time read is the start of the second in which the file, the one behind any links, was last written. -/
theorem c68_read (c : SysClock) (here goal : Str → Nat) (p : Path) (e : Code) (tr : List Event)
    (o : Except Stop (Int × EcArg)) (s s' : Clocks) (h : Exec (Win.lastWriteTime c p (.ref e)) tr o)
    (hl : Steps (TimeLaw here goal) s tr s') : s'.time = s.time ∧ ∀ t, o = .ok (t, .ref none) →
      nanosSince1601 c t ≤ (s.time (goal p.pathname)).toNat * 100 ∧
      (s.time (goal p.pathname)).toNat * 100 < nanosSince1601 c t + 1000000000 ∧ nanosSince1601 c t % 1000000000 = 0 := by
  obtain ⟨h1, h2⟩ := wp_sound (wp_winGetTime c here goal p e s) h hl
  refine ⟨h1, ?_⟩
  rintro t rfl
  rcases h2 with ⟨x, hx⟩ | ⟨ft, hq, ⟨t', h3, h4⟩ | ⟨x, _, h4⟩⟩
  · cases hx
  · cases h4
    obtain ⟨_, h5, h6, h7⟩ := (c58_from c ft).1 t h3
    have hn : nanosOf ft = (s.time (goal p.pathname)).toNat * 100 := by
      rw [← hq, nanosOf, intervals]
      rw [BitVec.toNat_append, ← Nat.shiftLeft_add_eq_or_of_lt ft.low.isLt, Nat.shiftLeft_eq]
      omega
    rw [hn] at h5 h6
    exact ⟨h5, h6, h7⟩
  · cases h4

/-- 1.2345678 s after 1970, set and read back on Microsoft's clock: one second. -/
example : ∃ (tr : List Event) (s s' : Clocks),
    Exec ((Win.setLastWriteTime .msvc (mkPath .windows "f".toList) 12345678 (.ref none)).bind fun a =>
      (Win.lastWriteTime .msvc (mkPath .windows "f".toList) (.ref none)).bind fun b => .ret (a.2, b.1, b.2)) tr
      (.ok (.ref none, 10000000, .ref none)) ∧ Steps (TimeLaw (fun _ => 1) (fun _ => 0)) s tr s' :=
  let ft : FileTime := ⟨BitVec.ofNat 32 116444736012345678, BitVec.ofNat 32 (116444736012345678 / 2 ^ 32)⟩
  ⟨[⟨.win (.createFile "f".toList { Win.follow with access := FILE_WRITE_ATTRIBUTES }), (.ok 4 : Except Errno Nat)⟩,
    ⟨.win (.setFileTime 4 ft), (.ok () : Except Errno Unit)⟩, ⟨.win (.closeHandle 4), (.ok () : Except Errno Unit)⟩,
    ⟨.win (.createFile "f".toList { Win.follow with access := FILE_READ_ATTRIBUTES }), (.ok 4 : Except Errno Nat)⟩,
    ⟨.win (.getFileTime 4), (.ok ft : Except Errno FileTime)⟩, ⟨.win (.closeHandle 4), (.ok () : Except Errno Unit)⟩],
    ⟨fun _ => 0, fun _ => none⟩, _, feed_exec (by decide +kernel),
    .cons rfl (.cons ⟨0, rfl, rfl⟩ (.cons rfl (.cons rfl (.cons ⟨rfl, 0, rfl, rfl⟩ (.cons rfl (.nil _))))))⟩

/-! ## C69 -/

namespace Spec

/-- The answer of `FSCTL_GET_REPARSE_POINT` for a link whose print name is `text`, in units of 16 bits: a header of
`head` units in which units 6 and 7 are offset and length of the print name in bytes, and the names. `head` is 10 for a
symbolic link (`SymbolicLinkReparseBuffer` has a field `Flags`) and 8 for a mount point. -/
def LinkBuffer (head : Nat) (ws text : List (BitVec 16)) : Prop :=
  ∃ h before after : List (BitVec 16), h.length = head ∧ ws = h ++ before ++ text ++ after ∧
    (h.getD 6 0#16).toNat = 2 * before.length ∧ (h.getD 7 0#16).toNat = 2 * text.length ∧ ws.length ≤ 8196

/-- Text of units, each a character. -/
def wideText (ws : List (BitVec 16)) : Str := ws.map fun w => Char.ofNat w.toNat

end Spec

theorem units_eq (a b c : List (BitVec 16)) : units (a ++ b ++ c) a.length b.length = b := by
  apply List.ext_getElem
  · simp [units]
  · intro i h1 h2
    simp only [units, List.getElem_map, List.getElem_range, unit, List.getD_eq_getElem?_getD, List.append_assoc]
    rw [List.getElem?_append_right (by omega), List.getElem?_append_left (by omega)]
    simp [h2]

/-- Two calls, then the handle is closed: the link is opened itself, and its data read. -/
theorem exec_readSymlink {p : Path} {c : Code} {t : List Event} {o : Except Stop (Path × EcArg)}
    (h : Exec (Win.readSymlink p (.ref c)) t o) :
    (∃ e, t = [⟨.win (.createFile p.pathname Win.openReparse), (.error e : Except Errno Nat)⟩] ∧
      o = .ok (.default, .ref (some e))) ∨
    ∃ fd, (∃ e rc, t = [⟨.win (.createFile p.pathname Win.openReparse), (.ok fd : Except Errno Nat)⟩,
        ⟨.win (.reparse fd), (.error e : Except Errno (List (BitVec 16)))⟩, ⟨.win (.closeHandle fd), rc⟩] ∧
        o = .ok (.default, .ref (some e))) ∨
      (∃ ws rc, t = [⟨.win (.createFile p.pathname Win.openReparse), (.ok fd : Except Errno Nat)⟩,
        ⟨.win (.reparse fd), (.ok ws : Except Errno (List (BitVec 16)))⟩, ⟨.win (.closeHandle fd), rc⟩] ∧
        ∃ r, printName ws = .ok r ∧ o = .ok (r, .ref none)) ∨
      ∃ ws x, t = [⟨.win (.createFile p.pathname Win.openReparse), (.ok fd : Except Errno Nat)⟩,
        ⟨.win (.reparse fd), (.ok ws : Except Errno (List (BitVec 16)))⟩] ∧ printName ws = .error x ∧ o = .error (.fault x) := by
  simp only [Win.readSymlink, withFile, clear_ref] at h
  rcases exec_call.mp h with ⟨r, t1, rfl, h1⟩
  rcases r with e | fd
  · simp only [Handler.report, exec_ret] at h1
    obtain ⟨rfl, rfl⟩ := h1
    exact .inl ⟨e, rfl, rfl⟩
  · right
    refine ⟨fd, ?_⟩
    rcases exec_finally_call.mp h1 with ⟨hu, t2, rc, rfl, h2⟩ | ⟨hu, h2⟩
    · rcases exec_call.mp h2 with ⟨r, t3, rfl, h3⟩
      rcases r with e | ws
      · simp only [Handler.report, exec_ret] at h3
        obtain ⟨rfl, rfl⟩ := h3
        exact .inl ⟨e, rc, rfl, rfl⟩
      · cases hn : printName ws with
        | ok r =>
          simp only [hn, Prog.ofRes, Prog.ret_bind, exec_ret] at h3
          obtain ⟨rfl, rfl⟩ := h3
          exact .inr (.inl ⟨ws, rc, rfl, r, hn, rfl⟩)
        | error x =>
          simp only [hn, Prog.ofRes] at h3
          obtain ⟨rfl, rfl⟩ := exec_stop.mp h3
          exact hu.elim
    · rcases exec_call.mp h2 with ⟨r, t3, rfl, h3⟩
      rcases r with e | ws
      · simp only [Handler.report, exec_ret] at h3
        obtain ⟨rfl, rfl⟩ := h3
        exact absurd trivial hu
      · cases hn : printName ws with
        | ok r =>
          simp only [hn, Prog.ofRes, Prog.ret_bind, exec_ret] at h3
          obtain ⟨rfl, rfl⟩ := h3
          exact absurd trivial hu
        | error x =>
          simp only [hn, Prog.ofRes] at h3
          obtain ⟨rfl, rfl⟩ := exec_stop.mp h3
          exact .inr (.inr ⟨ws, x, rfl, hn, rfl⟩)

theorem printName_link {ws text : List (BitVec 16)} (h : LinkBuffer 10 ws text) :
    printName ws = .ok (mkPath .windows (wideText text)) := by
  obtain ⟨hd, before, after, h1, rfl, h2, h3, h4⟩ := h
  have e6 : unit (hd ++ before ++ text ++ after) 6 = hd.getD 6 0#16 := by
    simp only [unit, List.getD_eq_getElem?_getD, List.append_assoc]
    rw [List.getElem?_append_left (by omega)]
  have e7 : unit (hd ++ before ++ text ++ after) 7 = hd.getD 7 0#16 := by
    simp only [unit, List.getD_eq_getElem?_getD, List.append_assoc]
    rw [List.getElem?_append_left (by omega)]
  have hu : units (hd ++ before ++ text ++ after) (10 + before.length) text.length = text := by
    have := units_eq (hd ++ before) text after
    rwa [List.length_append, h1] at this
  simp only [List.length_append] at h4
  simp only [printName, e6, e7, h2, h3, show 2 * before.length / 2 = before.length by omega,
    show 2 * text.length / 2 = text.length by omega, hu]
  rw [if_pos (by simp only [bufUnits]; omega)]
  rfl

/-- **C69**, partial: `read_symlink` opens the path itself, reads its data once and closes it; errors of either step are reported.
For data of a symbolic link the result is the path of the print name, exactly. Missing: mount points (`c69_violated`). -/
theorem c69_read_symlink_partial (p : Path) (c : Code) (t : List Event) (o : Except Stop (Path × EcArg))
    (h : Exec (Win.readSymlink p (.ref c)) t o)
    (hb : ∀ fd ws, (⟨.win (.reparse fd), (.ok ws : Except Errno (List (BitVec 16)))⟩ : Event) ∈ t → ∃ text, LinkBuffer 10 ws text) :
    (∃ e, t = [⟨.win (.createFile p.pathname ⟨8#32, true, true, true⟩), (.error e : Except Errno Nat)⟩] ∧
      o = .ok (.default, .ref (some e))) ∨
    ∃ fd rc r, t = [⟨.win (.createFile p.pathname ⟨8#32, true, true, true⟩), (.ok fd : Except Errno Nat)⟩,
        ⟨.win (.reparse fd), r⟩, ⟨.win (.closeHandle fd), rc⟩] ∧
      ((∃ e, r = .error e ∧ o = .ok (.default, .ref (some e))) ∨
        ∃ ws, r = .ok ws ∧ ∀ text, LinkBuffer 10 ws text → o = .ok (mkPath .windows (wideText text), .ref none)) := by
  rcases exec_readSymlink h with h1 | ⟨fd, ⟨e, rc, rfl, rfl⟩ | ⟨ws, rc, rfl, r, hr, rfl⟩ | ⟨ws, x, rfl, hr, rfl⟩⟩
  · exact .inl h1
  · exact .inr ⟨fd, rc, _, rfl, .inl ⟨e, rfl, rfl⟩⟩
  · refine .inr ⟨fd, rc, _, rfl, .inr ⟨ws, rfl, fun text ht => ?_⟩⟩
    rw [printName_link ht] at hr
    cases hr
    rfl
  · obtain ⟨text, ht⟩ := hb fd ws (by simp)
    rw [printName_link ht] at hr
    cases hr

/-- For a mount point the text starts two characters late and ends two characters late. -/
theorem printName_mount {ws text : List (BitVec 16)} {a b : BitVec 16}
    (h : ∃ hd before after : List (BitVec 16), hd.length = 8 ∧ ws = hd ++ before ++ text ++ (a :: b :: after) ∧
      (hd.getD 6 0#16).toNat = 2 * before.length ∧ (hd.getD 7 0#16).toNat = 2 * text.length ∧ ws.length ≤ 8196) :
    printName ws = .ok (mkPath .windows (wideText ((text ++ [a, b]).drop 2))) := by
  obtain ⟨hd, before, after, h1, rfl, h2, h3, h4⟩ := h
  have e6 : unit (hd ++ before ++ text ++ (a :: b :: after)) 6 = hd.getD 6 0#16 := by
    simp only [unit, List.getD_eq_getElem?_getD, List.append_assoc]
    rw [List.getElem?_append_left (by omega)]
  have e7 : unit (hd ++ before ++ text ++ (a :: b :: after)) 7 = hd.getD 7 0#16 := by
    simp only [unit, List.getD_eq_getElem?_getD, List.append_assoc]
    rw [List.getElem?_append_left (by omega)]
  have hlen : ((text ++ [a, b]).drop 2).length = text.length := by simp
  have hu : units (hd ++ before ++ text ++ (a :: b :: after)) (10 + before.length) text.length = (text ++ [a, b]).drop 2 := by
    have := units_eq (hd ++ before ++ (text ++ [a, b]).take 2) ((text ++ [a, b]).drop 2) after
    rw [List.append_assoc _ (List.take _ _), List.take_append_drop, hlen] at this
    have h5 : (hd ++ before ++ (text ++ [a, b]).take 2).length = 10 + before.length := by
      simp only [List.length_append, List.length_take, List.length_cons, List.length_nil, h1]
      omega
    rw [h5] at this
    simpa using this
  simp only [List.length_append, List.length_cons] at h4
  simp only [printName, e6, e7, h2, h3, show 2 * before.length / 2 = before.length by omega,
    show 2 * text.length / 2 = text.length by omega, hu]
  rw [if_pos (by simp only [bufUnits]; omega)]
  rfl

/-- Data of the mount point made by `mklink /j`, to `C:\d`: header, `\??\C:\d` and `C:\d`, each with a zero after it. -/
def junction : List (BitVec 16) :=
  [3, 0xA000, 36, 0, 0, 16, 18, 8] ++ "\\??\\C:\\d".toList.map (fun ch => BitVec.ofNat 16 ch.toNat) ++ [0] ++
    "C:\\d".toList.map (fun ch => BitVec.ofNat 16 ch.toNat) ++ [0]

/-- Data of a symbolic link to `C:\d`. -/
def linkData : List (BitVec 16) :=
  [0xC, 0xA000, 36, 0, 8, 16, 0, 8, 0, 0] ++ "C:\\d".toList.map (fun ch => BitVec.ofNat 16 ch.toNat) ++
    "\\??\\C:\\d".toList.map (fun ch => BitVec.ofNat 16 ch.toNat)

/-- **C69** fails for mount points: read from one that leads to `C:\d`, the text is `\d` and two zeros. -/
theorem c69_violated : ∃ (p : Path) (ws text : List (BitVec 16)) (t : List Event) (r : Path),
    LinkBuffer 8 ws text ∧ wideText text = "C:\\d".toList ∧
    (⟨.win (.reparse 4), (.ok ws : Except Errno (List (BitVec 16)))⟩ : Event) ∈ t ∧
    Exec (Win.readSymlink p (.ref none)) t (.ok (r, .ref none)) ∧ r.pathname = "\\d\x00\x00".toList := by
  refine ⟨mkPath .windows "j".toList, junction, "C:\\d".toList.map (fun ch => BitVec.ofNat 16 ch.toNat),
    [⟨.win (.createFile "j".toList Win.openReparse), (.ok 4 : Except Errno Nat)⟩,
      ⟨.win (.reparse 4), (.ok junction : Except Errno (List (BitVec 16)))⟩,
      ⟨.win (.closeHandle 4), (.ok () : Except Errno Unit)⟩],
    mkPath .windows "\\d\x00\x00".toList, ⟨[3, 0xA000, 36, 0, 0, 16, 18, 8],
      "\\??\\C:\\d".toList.map (fun ch => BitVec.ofNat 16 ch.toNat) ++ [0], [0], rfl, ?_, by decide, by decide, by decide⟩,
    by decide, by simp, feed_exec (by rfl), by decide⟩
  decide

/-- A symbolic link to `C:\d` is read correctly. -/
example : LinkBuffer 10 linkData ("C:\\d".toList.map fun ch => BitVec.ofNat 16 ch.toNat) ∧
    Exec (Win.readSymlink (mkPath .windows "l".toList) (.ref none))
      [⟨.win (.createFile "l".toList Win.openReparse), (.ok 4 : Except Errno Nat)⟩,
        ⟨.win (.reparse 4), (.ok linkData : Except Errno (List (BitVec 16)))⟩,
        ⟨.win (.closeHandle 4), (.ok () : Except Errno Unit)⟩] (.ok (mkPath .windows "C:\\d".toList, .ref none)) :=
  ⟨⟨[0xC, 0xA000, 36, 0, 8, 16, 0, 8, 0, 0], [], "\\??\\C:\\d".toList.map (fun ch => BitVec.ofNat 16 ch.toNat), rfl, by decide,
    by decide, by decide, by decide⟩, feed_exec (by rfl)⟩

end Asap
