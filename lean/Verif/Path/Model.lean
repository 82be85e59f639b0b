import Verif.Basic

/-!
# Model of `class path`

Function by function model of `include/filesystem/fs_path.h` and
`src/fs_path.cpp`. `Plat` selects the `ASAP_WINDOWS` branches.
-/

namespace Asap

/-- `path::Type` (`include/filesystem/fs_path.h:356`). -/
inductive PType where
  | multi
  | rootName
  | rootDir
  | filename
  deriving DecidableEq, Repr

/-- `path::Component` (`include/filesystem/fs_path.h:535-540`): a sub-path with
its text, its type and its offset `pos_` in the parent's text.
Simplified: the element's own `components_` vector is left out. It is empty
when the element is created; `std::vector` reallocation move-constructs elements
and so re-parses them, which on POSIX changes nothing (`Asap.reparse_elem`) and
on Windows nothing unless the second character of a name is a colon
(`Asap.c90_reparse_partial`, `Asap.c90_violated`): for such texts the model
describes the elements as they are created. -/
structure Comp where
  name : Str
  type : PType
  pos : Nat
  deriving DecidableEq, Repr

/-- The data members of `path` (`include/filesystem/fs_path.h:381-386`):
`pathname_`, `components_`, `type_`. -/
structure Path where
  pathname : Str
  comps : List Comp
  type : PType
  deriving DecidableEq, Repr

/-- A component seen as a `path` (copying it slices off `pos_`),
`include/filesystem/fs_path.h:535`. -/
def Comp.toPath (c : Comp) : Path := ⟨c.name, [], c.type⟩

/-- The default constructor `path()` (`include/filesystem/fs_path.h:53`, member
initialiser of `type_` at line 386): empty text, type `MULTI`. -/
def Path.default : Path := ⟨[], [], .multi⟩

/-- `path::preferred_separator` (`include/filesystem/fs_path.h:42-46`). -/
def prefSep : Plat → Char
  | .posix => '/'
  | .windows => '\\'

/-- `path::IsDirSeparator` (`include/filesystem/fs_path.h:348-354`). -/
def isSep (pl : Plat) (c : Char) : Bool :=
  c == '/' || (pl == .windows && c == '\\')

/-- `std::replace(.., slash, preferred_separator)`, used in
`src/fs_path.cpp:365-382`. A no-op in the POSIX build. -/
def preferSlashes (pl : Plat) (s : Str) : Str :=
  match pl with
  | .posix => s
  | .windows => s.map fun c => if c = '/' then '\\' else c

/-- `path::AddRootName` (`src/fs_path.cpp:365-372`). -/
def addRootName (pl : Plat) (s : Str) (len : Nat) : Comp :=
  ⟨preferSlashes pl (s.take len), .rootName, 0⟩

/-- `path::AddRootDir` (`src/fs_path.cpp:374-383`). -/
def addRootDir (pl : Plat) (s : Str) (pos : Nat) : Comp :=
  ⟨preferSlashes pl ((s.drop pos).take 1), .rootDir, pos⟩

/-- `path::AddFilename` (`src/fs_path.cpp:385-387`). -/
def addFilename (s : Str) (pos len : Nat) : Comp :=
  ⟨(s.drop pos).take len, .filename, pos⟩

/-- The loop `while (pos < len && !IsDirSeparator(pathname_[pos])) ++pos`
looking for the end of a root name (`src/fs_path.cpp:43-46`). The first argument
is the rest of the text from `pos` on (the loop's cursor). -/
def findSep (pl : Plat) : Str → Nat → Nat
  | [], pos => pos
  | c :: cs, pos => if isSep pl c then pos else findSep pl cs (pos + 1)

/-- The main scanning loop of `SplitComponents` (`src/fs_path.cpp:82-92`):
returns the final `back` and the elements added. The second text argument is
the rest of the text from `pos` on (the loop's cursor). -/
def scanLoop (pl : Plat) (s : Str) : Str → Nat → Nat → List Comp → Nat × List Comp
  | [], _, back, acc => (back, acc)
  | c :: cs, pos, back, acc =>
    if isSep pl c then
      scanLoop pl s cs (pos + 1) (pos + 1)
        (if back ≠ pos then acc ++ [addFilename s back (pos - back)] else acc)
    else scanLoop pl s cs (pos + 1) back acc

/-- `path::Trim` (`src/fs_path.cpp:108-115`). -/
def trim (p : Path) : Path :=
  match p.comps with
  | [c] => ⟨c.name, [], c.type⟩
  | _ => p

/-- The root part of `SplitComponents` (`src/fs_path.cpp:37-80`) for a non-empty
text: either the whole text is slashes (early return, `src/fs_path.cpp:60-66`),
or the root elements and the position where scanning starts. -/
def splitRoot (pl : Plat) (s : Str) : Option (List Comp × Nat) :=
  match s with
  | [] => some ([], 0)
  | c0 :: rest =>
    if isSep pl c0 then
      if pl = .windows ∧ s.length > 2 ∧ rest.head? = some c0 then
        match rest.tail.head? with
        | none => some ([], 0)
        | some c2 =>
          if !isSep pl c2 then
            let pos := findSep pl (s.drop 3) 3
            if pos < s.length then
              some ([addRootName pl s pos, addRootDir pl s pos], pos)
            else some ([addRootName pl s pos], pos)
          else some ([addRootDir pl s 0], 0)
      else if s.all (· == '/') then none
      else some ([addRootDir pl s 0], 1)
    else if pl = .windows ∧ s.length > 1 ∧ rest.head? = some ':' then
      match rest.tail.head? with
      | some c2 =>
        if isSep pl c2 then some ([addRootName pl s 2, addRootDir pl s 2], 2)
        else some ([addRootName pl s 2], 2)
      | none => some ([addRootName pl s 2], 2)
    else some ([], 0)

/-- `path::SplitComponents` (`src/fs_path.cpp:25-106`) on the text `s`; gives
the whole resulting object. `components_.back()` on an empty vector
(`src/fs_path.cpp:99`) is `Fault.ub`. -/
def splitComponents (pl : Plat) (s : Str) : Res Path :=
  match s.getLast? with
  | none => .ok ⟨[], [], .filename⟩
  | some lastCh =>
    match splitRoot pl s with
    | none => .ok (trim ⟨s, [addRootDir pl s 0], .rootDir⟩)
    | some (root, pos0) =>
      let r := scanLoop pl s (s.drop pos0) pos0 pos0 root
      let back := r.1
      let comps := r.2
      -- after the loop `pos = max pos0 len`, and `pos0 ≤ len` always
      let pos := max pos0 s.length
      if back ≠ pos then
        .ok (trim ⟨s, comps ++ [addFilename s back (pos - back)], .multi⟩)
      else if isSep pl lastCh then
        match comps.getLast? with
        | none => .error .ub
        | some c =>
          if c.type = .filename then
            .ok (trim ⟨s, comps ++ [⟨[], .filename, s.length⟩], .multi⟩)
          else .ok (trim ⟨s, comps, .multi⟩)
      else .ok (trim ⟨s, comps, .multi⟩)

/-- The constructors from text, `path(string_type&&)` and `path(const Source&)`
(`include/filesystem/fs_path.h:62-89`). Total: `splitComponents` never
faults, see `Asap.splitComponents_total`. Conversions from wide characters
(`nowide`) are not modelled. -/
def mkPath (pl : Plat) (s : Str) : Path :=
  match splitComponents pl s with
  | .ok p => p
  | .error _ => .default

/-- The move constructor `path(path&&)` (`include/filesystem/fs_path.h:72-75`):
takes the text and re-parses it. Also what `return local;` does when the copy
is not elided. -/
def Path.moved (pl : Plat) (p : Path) : Path := mkPath pl p.pathname

/-- `return ret;` of a local: with copy elision the object itself, otherwise a
move construction. -/
def returned (pl : Plat) (elide : Bool) (p : Path) : Path :=
  if elide then p else p.moved pl

/-- `path::clear` (`include/filesystem/fs_path.h:177-180`). -/
def Path.clear (pl : Plat) (_p : Path) : Path := mkPath pl []

/-- `path::operator=(path&&)` (`src/fs_path.cpp:121-127`): the new value of
`*this` and of the source `p` (distinct objects). -/
def Path.moveAssign (pl : Plat) (_self p : Path) : Path × Path :=
  (p, p.clear pl)

/-- `p = std::move(p)`: `path::operator=(path&&)` (`src/fs_path.cpp:121-127`) when
source and destination are the same object; the final `p.clear()` empties it. -/
def Path.selfMoveAssign (pl : Plat) (p : Path) : Path := p.clear pl

/-- `path::empty` (`include/filesystem/fs_path.h:254`). -/
def Path.isEmpty (p : Path) : Bool := p.pathname.isEmpty

/-- The sequence visited from `begin()` to `end()` (`src/fs_path.cpp:393-405`
with the iterator operations `src/fs_path.cpp:407-451`; the iterator itself is
modelled in `Verif/Path/Iter.lean`, where the two are proved to agree). -/
def Path.elems (p : Path) : List Path :=
  match p.type with
  | .multi => p.comps.map Comp.toPath
  | _ => if p.isEmpty then [] else [p]

/-- The texts of the elements visited by iteration. -/
def Path.names (p : Path) : List Str := p.elems.map Path.pathname

/-! ## Decomposition and queries -/

/-- `path::has_root_name` (`src/fs_path.cpp:152-156`). -/
def hasRootName (p : Path) : Bool :=
  p.type == .rootName ||
    match p.comps.head? with
    | some c => c.type == .rootName
    | none => false

/-- `path::root_name` (`src/fs_path.cpp:196-205`). -/
def rootName (p : Path) : Path :=
  if p.type = .rootName then p
  else match p.comps.head? with
    | some c => if c.type = .rootName then c.toPath else .default
    | none => .default

/-- The components after an optional leading element of type `t`
(the `++it` steps in `src/fs_path.cpp:216-218, 251-256`). -/
def skipType (t : PType) : List Comp → List Comp
  | [] => []
  | c :: cs => if c.type = t then cs else c :: cs

/-- `path::root_directory` (`src/fs_path.cpp:207-226`). `pathname_[1]` is a
string subscript. -/
def rootDirectory (pl : Plat) (p : Path) : Res Path :=
  match p.type with
  | .rootDir => .ok p
  | .rootName => do
      let c ← charAt p.pathname 1
      if c = ':' then .ok (mkPath pl []) else .ok .default
  | _ =>
    match (skipType .rootName p.comps).head? with
    | some c => .ok (if c.type = .rootDir then c.toPath else .default)
    | none => .ok .default

/-- `path::has_root_directory` (`src/fs_path.cpp:158-160`). -/
def hasRootDirectory (pl : Plat) (p : Path) : Res Bool := do
  let r ← rootDirectory pl p
  return !r.isEmpty

/-- `path::root_path` (`src/fs_path.cpp:228-245`). -/
def rootPath (pl : Plat) (p : Path) : Path :=
  match p.type with
  | .rootName => p
  | .rootDir => p
  | _ =>
    match p.comps with
    | [] => .default
    | c :: cs =>
      if c.type = .rootName then
        match cs.head? with
        | some d => if d.type = .rootDir then mkPath pl (c.name ++ [prefSep pl]) else c.toPath
        | none => c.toPath
      else if c.type = .rootDir then c.toPath
      else .default

/-- `path::has_root_path` (`src/fs_path.cpp:162`). -/
def hasRootPath (pl : Plat) (p : Path) : Bool := !(rootPath pl p).isEmpty

/-- `path::relative_path` (`src/fs_path.cpp:247-264`). -/
def relativePath (pl : Plat) (p : Path) : Res Path :=
  match p.type with
  | .filename => .ok p
  | _ =>
    match (skipType .rootDir (skipType .rootName p.comps)).head? with
    | some c => do
        let s ← substrFrom p.pathname c.pos
        return mkPath pl s
    | none => .ok .default

/-- `path::has_relative_path` (`src/fs_path.cpp:164-166`). -/
def hasRelativePath (pl : Plat) (p : Path) : Res Bool := do
  let r ← relativePath pl p
  return !r.isEmpty

/-- `path::AppendSeparatorIfNeeded` (`src/fs_path.cpp:599-610`), on the text. -/
def appendSepIfNeeded (pl : Plat) (s : Str) : Str :=
  match s.getLast? with
  | none => s
  | some c =>
    if (pl = .windows ∧ c = ':') ∨ isSep pl c = true then s else s ++ [prefSep pl]

/-- The loop of `parent_path` that rebuilds the text
(`src/fs_path.cpp:286-293`). -/
def rejoin (pl : Plat) : List Comp → Str → Str
  | [], acc => acc
  | [c], acc => acc ++ c.name
  | c :: cs, acc => rejoin pl cs (appendSepIfNeeded pl (acc ++ c.name))

/-- The elements `parent_path` keeps (`src/fs_path.cpp:279-283`): all but the
last, and all but the last two if the last is empty. -/
def parentComps (comps : List Comp) : Res (List Comp) :=
  match comps.getLast? with
  | none => .error .assertFail
  | some l =>
    if l.name = [] then
      if comps.dropLast = [] then .error .ub else .ok comps.dropLast.dropLast
    else .ok comps.dropLast

/-- `path::parent_path` (`src/fs_path.cpp:266-297`). `elide` says whether
`return ret;` elides the move (clang does, gcc does not because of the other
`return` statements). -/
def parentPath (pl : Plat) (elide : Bool) (p : Path) : Res Path := do
  let hr ← hasRelativePath pl p
  if !hr then return p
  if p.type = .multi then
    let kept ← parentComps p.comps
    return returned pl elide ⟨rejoin pl kept [], kept, .multi⟩
  return .default

/-- `path::has_parent_path` (`src/fs_path.cpp:168`). -/
def hasParentPath (pl : Plat) (elide : Bool) (p : Path) : Res Bool := do
  let r ← parentPath pl elide p
  return !r.isEmpty

/-- `path::filename` (`src/fs_path.cpp:299-316`). -/
def filename (pl : Plat) (p : Path) : Res Path :=
  match p.pathname.getLast? with
  | none => .ok .default
  | some lastCh =>
    match p.type with
    | .filename => .ok p
    | .multi =>
      if lastCh = prefSep pl then .ok .default
      else
        match p.comps.getLast? with
        | none => .error .assertFail
        | some l => .ok (if l.type = .filename then l.toPath else .default)
    | _ => .ok .default

/-- `path::has_filename` (`src/fs_path.cpp:170`). -/
def hasFilename (pl : Plat) (p : Path) : Res Bool := do
  let f ← filename pl p
  return !f.isEmpty

/-- `std::string::rfind('.')`. -/
def rfindDot (s : Str) : Option Nat :=
  match s.reverse.findIdx? (· == '.') with
  | none => none
  | some i => some (s.length - 1 - i)

/-- The string that `FindExtension` looks at (`src/fs_path.cpp:340-349`), if any:
the text itself for a filename, the last element's for `MULTI`. -/
def extSource (p : Path) : Option Str :=
  match p.type with
  | .filename => some p.pathname
  | .multi =>
    match p.comps.getLast? with
    | some c => if c.type = .filename then some c.name else none
    | none => none
  | _ => none

/-- `path::FindExtension` (`src/fs_path.cpp:338-361`): the filename text (null
pointer is `none`) and the position of the extension (`npos` is `none`). -/
def findExtension (p : Path) : Option (Str × Option Nat) :=
  match extSource p with
  | none => none
  | some s =>
    match s with
    | [] => none
    | c0 :: _ =>
      if s.length ≤ 2 ∧ c0 = '.' then some (s, none)
      else some (s, match rfindDot s with
        | some 0 => none
        | r => r)

/-- `path::has_stem` (`src/fs_path.cpp:141-144`). -/
def hasStem (p : Path) : Bool := (findExtension p).isSome

/-- `path::has_extension` (`src/fs_path.cpp:146-150`). -/
def hasExtension (p : Path) : Bool :=
  match findExtension p with
  | some (_, some i) => i ≠ 0
  | _ => false

/-- `path::stem` (`src/fs_path.cpp:318-327`). -/
def stem (pl : Plat) (p : Path) : Path :=
  match findExtension p with
  | none => .default
  | some (s, none) => mkPath pl s
  | some (s, some i) => if i = 0 then mkPath pl s else mkPath pl (s.take i)

/-- `path::extension` (`src/fs_path.cpp:329-336`). -/
def extension (pl : Plat) (p : Path) : Path :=
  match findExtension p with
  | some (s, some i) => if i ≠ 0 then mkPath pl (s.drop i) else .default
  | _ => .default

/-- `path::is_absolute` (`src/fs_path.cpp:172-188`). -/
def isAbsolute (pl : Plat) (p : Path) : Res Bool :=
  match pl with
  | .windows => do
    if hasRootName p then
      let rn := (rootName p).pathname
      let c0 ← charAt rn 0
      let c1 ← charAt rn 1
      if isSep pl c0 && isSep pl c1 then return true
    hasRootDirectory pl p
  | .posix => do
    let d ← hasRootDirectory pl p
    return d || hasRootName p

/-! ## Comparison and hash -/

/-- `do_compare` (`src/fs_path.cpp:457-480`) on the texts of the elements;
`cmpt` is the running counter. -/
def doCompare : List Str → List Str → Int → Int
  | a :: as, b :: bs, cmpt =>
    if strLt a b then -cmpt
    else if strLt b a then cmpt
    else doCompare as bs (cmpt + 1)
  | [], [], _ => 0
  | [], _ :: _, cmpt => -cmpt
  | _ :: _, [], cmpt => cmpt

/-- The four branches of `path::compare` on the representations
(`src/fs_path.cpp:486-506`). -/
def compareTypes (p q : Path) : Int :=
  match p.type, q.type with
  | .multi, .multi => doCompare (p.comps.map Comp.name) (q.comps.map Comp.name) 1
  | .multi, _ => doCompare (p.comps.map Comp.name) [q.pathname] 1
  | _, .multi => doCompare [p.pathname] (q.comps.map Comp.name) 1
  | _, _ => strCompare p.pathname q.pathname

/-- `path::compare(const path&)` (`src/fs_path.cpp:482-507`). -/
def Path.compare (p q : Path) : Int :=
  if p.isEmpty && q.isEmpty then 0 else compareTypes p q

/-- `operator==` (`include/filesystem/fs_path.h:470-472`). -/
def Path.eqv (p q : Path) : Bool := p.compare q == 0

/-- `operator<` (`include/filesystem/fs_path.h:454-456`). -/
def Path.lt (p q : Path) : Bool := decide (p.compare q < 0)

/-- `operator<=` (`include/filesystem/fs_path.h:458-460`). -/
def Path.le (p q : Path) : Bool := !(q.lt p)

/-- `operator>` (`include/filesystem/fs_path.h:462-464`). -/
def Path.gt (p q : Path) : Bool := q.lt p

/-- `operator>=` (`include/filesystem/fs_path.h:466-468`). -/
def Path.ge (p q : Path) : Bool := !(p.lt q)

/-- One step of `hash_value` (`src/fs_path.cpp:620-623`). -/
def hashStep (h : Str → UInt64) (seed : UInt64) (x : Str) : UInt64 :=
  seed ^^^ (h x + (0x9e3779b9 : UInt64) + (seed <<< 6) + (seed >>> 2))

/-- `hash_value` (`src/fs_path.cpp:612-625`); `h` is `std::hash<std::string>`
and `size_t` has 64 bits. -/
def hashValue (h : Str → UInt64) (p : Path) : UInt64 :=
  p.names.foldl (hashStep h) 0

/-! ## Append and concatenation -/

/-- The text built by `operator/=` from `*this`, the separator flag and the right
operand: `lhs + sep + rhs` (`src/fs_path.cpp:576-595`). `bigEnough` is the outcome
of the capacity test at line 576. -/
def appendFinish (pl : Plat) (bigEnough : Bool) (lhs : Str) (addSep : Bool) (rhs : Str) : Path :=
  if bigEnough then
    -- in-place branch, lines 588-594
    mkPath pl ((if addSep then lhs ++ [prefSep pl] else lhs) ++ rhs)
  else
    -- build a new path and swap, lines 578-586
    let tmp := if addSep then lhs ++ [prefSep pl] else lhs
    let newp := mkPath pl (tmp ++ rhs)
    newp

/-- `lhs` in `operator/=` when the right operand has a root directory
(`src/fs_path.cpp:549-558`): everything but the root name is removed. -/
def appendRootOnly (self : Path) : Str :=
  if self.type = .rootName then self.pathname
  else match self.comps.head? with
    | some c => if c.type = .rootName then c.name else []
    | none => []

/-- `rhs` in `operator/=` (`src/fs_path.cpp:563-570`): the right operand without
its root name. -/
def appendRhs (p : Path) : Str :=
  if p.type = .rootName then []
  else match p.comps.head? with
    | some c => if c.type = .rootName then p.pathname.drop c.name.length else p.pathname
    | none => p.pathname

/-- `path::operator/=(const path&)` (`src/fs_path.cpp:522-597`). -/
def appendWith (pl : Plat) (bigEnough : Bool) (self p : Path) : Res Path := do
  let pAbs ← isAbsolute pl p
  if (pAbs && !hasRootName self) ||
      (hasRootName p && !(Path.eqv (rootName p) (rootName self))) then
    return p
  let pRootDir ← hasRootDirectory pl p
  let lhs : Str := if pRootDir then appendRootOnly self else self.pathname
  let addSep ←
    if pRootDir then pure false
    else do
      let hf ← hasFilename pl self
      if hf then pure true
      else do
        let rd ← hasRootDirectory pl self
        if rd then pure false else isAbsolute pl self
  return appendFinish pl bigEnough lhs addSep (appendRhs p)

/-- `operator/=` and `operator/` (`src/fs_path.cpp:522-597`,
`include/filesystem/fs_path.h:505-509`). The outcome does not depend on
the capacity test (`Asap.append_capacity_irrelevant`); this is the re-allocating
branch. -/
def append (pl : Plat) (self p : Path) : Res Path := appendWith pl false self p

/-- `path::operator+=` in all overloads and `concat`
(`include/filesystem/fs_path.h:131-165, 482-502`). -/
def concat (pl : Plat) (p : Path) (s : Str) : Path := mkPath pl (p.pathname ++ s)

/-! ## Modifiers -/

/-- `path::make_preferred` (`src/fs_path.cpp:631-636`): only the text changes. -/
def makePreferred (pl : Plat) (p : Path) : Path :=
  { p with pathname := preferSlashes pl p.pathname }

/-- `path::remove_filename` (`src/fs_path.cpp:638-657`). `std::prev(cmpt)` with
`cmpt == begin()` is `Fault.ub`. -/
def removeFilename (pl : Plat) (p : Path) : Res Path :=
  match p.type with
  | .multi =>
    match p.comps.getLast? with
    | none => .ok p
    | some c =>
      if c.type = .filename ∧ c.name ≠ [] then do
        let s ← eraseFrom p.pathname c.pos
        match p.comps.dropLast.getLast? with
        | none => .error .ub
        | some pr =>
          if pr.type = .rootDir ∨ pr.type = .rootName then
            return trim ⟨s, p.comps.dropLast, .multi⟩
          else
            return ⟨s, p.comps.dropLast ++ [⟨[], .filename, c.pos⟩], .multi⟩
      else .ok p
  | .filename => .ok (p.clear pl)
  | _ => .ok p

/-- `path::replace_filename` (`src/fs_path.cpp:659-663`), with a replacement that
is a different object than `*this`. -/
def replaceFilename (pl : Plat) (p r : Path) : Res Path := do
  let q ← removeFilename pl p
  append pl q r

/-- `p.replace_filename(p)`: `src/fs_path.cpp:659-663` when the replacement is
`*this`; the operand of `operator/=` is then already changed. -/
def replaceFilenameSelf (pl : Plat) (p : Path) : Res Path := do
  let q ← removeFilename pl p
  append pl q q

/-- The text after removing the old extension in `replace_extension`
(`src/fs_path.cpp:666-677`). The test `ext.first != &back.pathname_` (line 673)
is never true, because `FindExtension` returned that very pointer. -/
def eraseExtension (p : Path) : Res Str :=
  match findExtension p with
  | some (_, some i) =>
    if p.type = .filename then eraseFrom p.pathname i
    else
      match p.comps.getLast? with
      | none => .error .ub
      | some back => eraseFrom p.pathname (back.pos + i)
  | _ => .ok p.pathname

/-- `path::replace_extension` (`src/fs_path.cpp:665-686`), with a replacement
that is a different object than `*this`. -/
def replaceExtension (pl : Plat) (p r : Path) : Res Path := do
  let s ← eraseExtension p
  let s' := match r.pathname with
    | [] => s
    | c :: _ => if c ≠ '.' then s ++ ['.'] else s
  return mkPath pl (s' ++ r.pathname)

/-- `p.replace_extension(p)`: `src/fs_path.cpp:665-686` when the replacement is
`*this`; its text is read after the old extension was erased and, at the end,
after the dot was appended. -/
def replaceExtensionSelf (pl : Plat) (p : Path) : Res Path := do
  let s ← eraseExtension p
  let s' := match s with
    | [] => s
    | c :: _ => if c ≠ '.' then s ++ ['.'] else s
  return mkPath pl (s' ++ s')

/-! ## Lexical operations -/

/-- `is_dot` (`src/fs_path.cpp:688-694`). -/
def isDot (s : Str) : Bool := s == ['.']

/-- `is_dotdot` (`src/fs_path.cpp:696-700`). -/
def isDotDot (s : Str) : Bool := s == ['.', '.']

/-- The branch of `lexically_normal` for `..` when the result so far has a
relative part but no filename (`src/fs_path.cpp:744-767`). `elem` is
`std::prev(ret.end(), 2)`. -/
def normalDotDotSlash (pl : Plat) (ret p : Path) : Res Path :=
  if ret.type ≠ .multi then .error .assertFail
  else
    match ret.comps.reverse with
    | back :: elem :: before => do
      let hf ← hasFilename pl elem.toPath
      if hf && !isDotDot elem.name then
        match before with
        | [] => return ret.clear pl
        | pr :: _ =>
          let s ← eraseFrom ret.pathname elem.pos
          if pr.type = .filename then
            return ⟨s, before.reverse ++ [back], ret.type⟩
          else
            return ⟨s, before.reverse, ret.type⟩
      else append pl ret p
    | _ => .error .assertFail

/-- One iteration of the loop of `lexically_normal` (`src/fs_path.cpp:724-773`). -/
def normalStep (pl : Plat) (ret p : Path) : Res Path :=
  if pl = .windows ∧ (p.type = .rootName ∨ p.type = .rootDir) then
    append pl ret (mkPath pl (preferSlashes pl p.pathname))
  else if isDotDot p.pathname then do
    let hf ← hasFilename pl ret
    if hf then
      let f ← filename pl ret
      if !isDotDot f.pathname then removeFilename pl ret else append pl ret p
    else
      let hr ← hasRelativePath pl ret
      if !hr then
        let rd ← hasRootDirectory pl ret
        if !rd then append pl ret p else return ret
      else normalDotDotSlash pl ret p
  else if isDot p.pathname then append pl ret .default
  else append pl ret p

/-- The end of `lexically_normal` (`src/fs_path.cpp:775-788`). -/
def normalFinish (pl : Plat) (ret : Path) : Path :=
  match ret.comps.reverse with
  | back :: pr :: before =>
    if back.name = [] ∧ isDotDot pr.name then
      ⟨ret.pathname.dropLast, (pr :: before).reverse, ret.type⟩
    else ret
  | _ => if ret.isEmpty then mkPath pl ['.'] else ret

/-- `path::lexically_normal` (`src/fs_path.cpp:702-790`). `elide` as in
`parentPath` (here all compilers elide). -/
def lexicallyNormal (pl : Plat) (elide : Bool) (p : Path) : Res Path :=
  if p.isEmpty then .ok (returned pl elide .default)
  else do
    let ret ← p.elems.foldlM (normalStep pl) .default
    return returned pl elide (normalFinish pl ret)

/-- `std::mismatch` on the two element ranges (`src/fs_path.cpp:803`): the two
remaining ranges. Elements are compared with `operator==`. -/
def mismatch : List Path → List Path → List Path × List Path
  | a :: as, b :: bs => if a.eqv b then mismatch as bs else (a :: as, b :: bs)
  | as, bs => (as, bs)

/-- The counter `n` in `lexically_relative` (`src/fs_path.cpp:809-817`). -/
def relCount (bs : List Path) : Int :=
  bs.foldl (fun n b =>
    if isDotDot b.pathname then n - 1 else if isDot b.pathname then n else n + 1) 0

/-- `path::lexically_relative` (`src/fs_path.cpp:792-829`). -/
def lexicallyRelative (pl : Plat) (p base : Path) : Res Path := do
  if !(Path.eqv (rootName p) (rootName base)) then return .default
  let pa ← isAbsolute pl p
  let ba ← isAbsolute pl base
  if pa ≠ ba then return .default
  let pd ← hasRootDirectory pl p
  let bd ← hasRootDirectory pl base
  if !pd && bd then return .default
  let (as, bs) := mismatch p.elems base.elems
  match as, bs with
  | [], [] => return mkPath pl ['.']
  | _, _ =>
    let n := relCount bs
    if n ≥ 0 then
      let ups ← (List.replicate n.toNat (mkPath pl ['.', '.'])).foldlM (append pl) .default
      as.foldlM (append pl) ups
    else return .default

/-- `path::lexically_proximate` (`include/filesystem/fs_path.h:233-239`). -/
def lexicallyProximate (pl : Plat) (p base : Path) : Res Path := do
  let r ← lexicallyRelative pl p base
  if r.pathname = [] then return p else return r

/-! ## Generic format -/

/-- `path::make_generic` and `generic_string`
(`include/filesystem/fs_path.h:594-628`); the flag is `add_slash`. -/
def genericGo : List Path → Bool → Str → Str
  | [], _, str => str
  | e :: es, addSlash, str =>
    match e.type with
    | .rootName => genericGo es addSlash (str ++ e.pathname.map fun c => if c = '\\' then '/' else c)
    | .rootDir => genericGo es addSlash (str ++ ['/'])
    | t => genericGo es (t = .filename) ((if addSlash then str ++ ['/'] else str) ++ e.pathname)

/-- `path::generic_string` (`include/filesystem/fs_path.h:594-628`). -/
def genericString (p : Path) : Str := genericGo p.elems false []

end Asap
