import Verif.Win.Ops
import Verif.Os.Eval
import Verif.Os.Ghost

/-!
# What Windows knows of a file system, as a specification

Names and the objects they lead to, independent of the library; the answers of the calls that look at files are related
to them by `Spec.WinLaw`.
-/

namespace Asap

deriving instance DecidableEq for Except

namespace Spec

/-- A file system object: directory or not, the tag if it is a reparse point, its identity, size, last write
time and number of names. -/
structure WinObj where
  dir : Bool
  tag : Option (BitVec 32)
  volume : BitVec 32
  index : BitVec 64
  size : BitVec 64
  time : BitVec 64
  links : BitVec 32
  deriving DecidableEq, Repr

/-- Names: `look` is what a name itself denotes, `goal` what it leads to when reparse points are followed. An object is
determined by volume and index. -/
structure WinDisk where
  look : Str → Option WinObj
  goal : Str → Option WinObj
  missing : ∀ p, look p = none → goal p = none
  plain : ∀ p x, look p = some x → x.tag = none → goal p = some x
  unique : ∀ p q x y, goal p = some x → goal q = some y → x.volume = y.volume → x.index = y.index → x = y

/-- The errors that say that there is nothing: file, path, drive, net path not found, drive not ready, invalid
parameter, name, path. -/
def Absent (e : Errno) : Prop := e.winValue ∈ [2, 3, 15, 21, 53, 87, 123, 161]

instance (e : Errno) : Decidable (Absent e) := by unfold Absent; infer_instance

/-- `FILE_ATTRIBUTE_DIRECTORY` (bit 4) and `FILE_ATTRIBUTE_REPARSE_POINT` (bit 10) of an object. -/
def AttrsOf (a : BitVec 32) (x : WinObj) : Prop := a.getLsbD 4 = x.dir ∧ a.getLsbD 10 = x.tag.isSome

/-- `BY_HANDLE_FILE_INFORMATION` of an object. -/
def InfoOf (i : WinInfo) (x : WinObj) : Prop :=
  AttrsOf i.attrs x ∧ i.volume = x.volume ∧ i.indexHigh ++ i.indexLow = x.index ∧ i.sizeHigh ++ i.sizeLow = x.size ∧
    i.time.high ++ i.time.low = x.time ∧ i.links = x.links

/-- `WIN32_FILE_ATTRIBUTE_DATA` of an object. -/
def DataOf (i : WinAttrs) (x : WinObj) : Prop := AttrsOf i.attrs x ∧ i.sizeHigh ++ i.sizeLow = x.size

/-- Open handles. -/
abbrev Handles := Nat → Option WinObj

/-- What a path leads to when opened. -/
def WinDisk.opened (D : WinDisk) (p : Str) (o : WinOpen) : Option WinObj := if o.reparse then D.look p else D.goal p

/-- The answers of Windows while nobody changes the file system `D`, and the handles open afterwards. Any call may fail;
an `Absent` error says that there is nothing. Calls not mentioned may answer anything and leave the handles alone. -/
def WinLaw (D : WinDisk) (hs : Handles) (e : Event) (hs' : Handles) : Prop :=
  match e with
  | ⟨.win (.getAttrs p), r⟩ => hs' = hs ∧ match r with
    | .ok a => ∃ x, D.look p = some x ∧ AttrsOf a x
    | .error e => Absent e → D.look p = none
  | ⟨.win (.getAttrsEx p), r⟩ => hs' = hs ∧ match r with
    | .ok a => ∃ x, D.look p = some x ∧ DataOf a x
    | .error e => Absent e → D.look p = none
  | ⟨.win (.createFile p o), r⟩ => match r with
    | .ok h => hs h = none ∧ ∃ x, D.opened p o = some x ∧ hs' = fun k => if k = h then some x else hs k
    | .error e => hs' = hs ∧ (Absent e → D.opened p o = none)
  | ⟨.win (.closeHandle h), _⟩ => hs' = fun k => if k = h then none else hs k
  | ⟨.win (.infoByHandle h), r⟩ => hs' = hs ∧ match r with
    | .ok i => ∃ x, hs h = some x ∧ InfoOf i x
    | .error e => ¬ Absent e
  | ⟨.win (.attrTag h), r⟩ => hs' = hs ∧ match r with
    | .ok a => ∃ x, hs h = some x ∧ AttrsOf a x
    | .error e => ¬ Absent e
  | ⟨.win (.reparse h), r⟩ => hs' = hs ∧ match r with
    | .ok ws => ∃ x, hs h = some x ∧ x.tag = some (ws.getD 1 0#16 ++ ws.getD 0 0#16)
    | .error e => ¬ Absent e
  | ⟨.win (.getFileTime h), r⟩ => hs' = hs ∧ match r with
    | .ok ft => ∃ x, hs h = some x ∧ ft.high ++ ft.low = x.time
    | .error e => ¬ Absent e
  | ⟨.win (.getPerms p _), r⟩ => hs' = hs ∧ match r with
    | .ok _ => True
    | .error e => Absent e → D.look p = none
  | _ => hs' = hs

/-- No handle is open. -/
def noHandles : Handles := fun _ => none

/-- A call that fails only where there is nothing. -/
def WinWilling (e : Event) : Prop :=
  match e with
  | ⟨.win (.getAttrs _), .error e⟩ | ⟨.win (.getAttrsEx _), .error e⟩ | ⟨.win (.createFile _ _), .error e⟩
  | ⟨.win (.infoByHandle _), .error e⟩ | ⟨.win (.attrTag _), .error e⟩ | ⟨.win (.reparse _), .error e⟩
  | ⟨.win (.getFileTime _), .error e⟩ | ⟨.win (.getPerms _ _), .error e⟩ => Absent e
  | _ => True

/-- A disk with a directory `d`, a file `f` of 5 bytes with the second name `g`, a symbolic link `l` to `d`, a
link `k` to `f`, a link `x` that leads nowhere, and a reparse point `r` of another kind that is a file. -/
def sampleObj : Str → Option WinObj
  | ['d'] => some ⟨true, none, 7, 1, 0, 100, 1⟩
  | ['f'] | ['g'] => some ⟨false, none, 7, 2, 5, 200, 2⟩
  | ['l'] => some ⟨true, some 0xA000000C#32, 7, 3, 0, 300, 1⟩
  | ['k'] => some ⟨false, some 0xA000000C#32, 7, 6, 0, 600, 1⟩
  | ['x'] => some ⟨false, some 0xA000000C#32, 7, 4, 0, 400, 1⟩
  | ['r'] => some ⟨false, some 0x9000001A#32, 7, 5, 9, 500, 1⟩
  | _ => none

/-- What a path leads to, as a file type. -/
def fileKind : Option WinObj → FType
  | none => .notFound
  | some x => if x.dir then .directory else .regular

/-- What a path itself denotes, as a file type: symbolic links and mount points are links, other reparse points have a
type of their own. -/
def linkKind : Option WinObj → FType
  | none => .notFound
  | some x =>
    match x.tag with
    | some t => if t = 0xA000000C#32 ∨ t = 0xA0000003#32 then .symlink else .reparse
    | none => if x.dir then .directory else .regular

/-- What the names of the sample lead to. -/
def sampleGoal : Str → Option WinObj
  | ['l'] => sampleObj ['d']
  | ['k'] => sampleObj ['f']
  | ['x'] => none
  | p => sampleObj p

/-- The sample. -/
def sampleDisk : WinDisk where
  look := sampleObj
  goal := sampleGoal
  missing p h := by
    unfold sampleGoal
    split
    · simp [sampleObj] at h
    · simp [sampleObj] at h
    · rfl
    · exact h
  plain p x h ht := by
    unfold sampleGoal
    split
    · simp only [sampleObj, Option.some.injEq] at h
      subst h
      cases ht
    · simp only [sampleObj, Option.some.injEq] at h
      subst h
      cases ht
    · simp only [sampleObj, Option.some.injEq] at h
      subst h
      cases ht
    · exact h
  unique p q x y hx hy _ hi := by
    have key : ∀ p x, sampleGoal p = some x → x = ⟨true, none, 7, 1, 0, 100, 1⟩ ∨ x = ⟨false, none, 7, 2, 5, 200, 2⟩ ∨
        x = ⟨true, some 0xA000000C#32, 7, 3, 0, 300, 1⟩ ∨ x = ⟨false, some 0xA000000C#32, 7, 4, 0, 400, 1⟩ ∨
        x = ⟨false, some 0x9000001A#32, 7, 5, 9, 500, 1⟩ ∨ x = ⟨false, some 0xA000000C#32, 7, 6, 0, 600, 1⟩ := by
      intro p x h
      have h' : ∃ q, sampleObj q = some x := by
        unfold sampleGoal at h
        split at h
        · exact ⟨_, h⟩
        · exact ⟨_, h⟩
        · cases h
        · exact ⟨_, h⟩
      obtain ⟨q, h'⟩ := h'
      unfold sampleObj at h'
      split at h' <;> simp only [Option.some.injEq, reduceCtorEq] at h' <;> subst h' <;> simp
    rcases key p x hx with rfl | rfl | rfl | rfl | rfl | rfl <;>
      rcases key q y hy with rfl | rfl | rfl | rfl | rfl | rfl <;>
      first | rfl | (exact absurd hi (by decide))

end Spec
open Spec

/-- Every call has an answer that obeys the law. -/
theorem winLaw_total (D : WinDisk) (hs : Handles) (c : Sys) : ∃ (r : c.Ret) (hs' : Handles), WinLaw D hs ⟨c, r⟩ hs' := by
  have h : ¬ Absent (.other 50) := by decide
  cases c with
  | win c =>
    refine ⟨c.fails, ?_⟩
    cases c <;> first
      | exact ⟨hs, rfl⟩
      | exact ⟨hs, rfl, fun x => absurd x h⟩
      | exact ⟨hs, rfl, h⟩
      | exact ⟨_, rfl⟩
  | pathconf => exact ⟨(0 : Int), hs, rfl⟩
  | getenv _ => exact ⟨none, hs, rfl⟩
  | port c => exact ⟨c.fails, hs, rfl⟩
  | winTest _ _ => exact ⟨(false, none), hs, rfl⟩
  | _ => exact ⟨.error .EPERM, hs, rfl⟩

end Asap
