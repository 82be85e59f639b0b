import Verif.Basic

/-!
# Independent specification vocabulary for Windows paths

Nothing here refers to the model of the code. A text may begin with a root name (two equal separators and a
host, or one character and a colon); after it, a separator is the root directory; the rest is cut at
separators.
-/

namespace Asap.Spec

/-- Both kinds of slash separate. -/
def winSep (c : Char) : Bool := c == '/' || c == '\\'

/-- The number of characters of the root name (0 if there is none). -/
def winRootLen : Str → Nat
  | a :: b :: c :: rest =>
    if winSep a && b == a && !winSep c then 3 + (rest.takeWhile (!winSep ·)).length
    else if !winSep a && b == ':' then 2 else 0
  | [a, b] => if !winSep a && b == ':' then 2 else 0
  | _ => 0

/-- With preferred separators. -/
def winPrefer (s : Str) : Str := s.map fun c => if c = '/' then '\\' else c

/-- The text of the root name. -/
def winRootName (s : Str) : Str := winPrefer (s.take (winRootLen s))

/-- What follows the root name. -/
def winTail (s : Str) : Str := s.drop (winRootLen s)

/-- There is a root directory. -/
def winHasDir (s : Str) : Bool := (winTail s).head?.any winSep

/-- Cut a text at every separator; always at least one (possibly empty) piece. -/
def winPieces : Str → List Str
  | [] => [[]]
  | c :: cs =>
    if winSep c then [] :: winPieces cs
    else match winPieces cs with
      | [] => [[c]]
      | g :: gs => (c :: g) :: gs

/-- The non-empty pieces between separators. -/
def winNames (s : Str) : List Str := (winPieces s).filter (· ≠ [])

/-- The relative part of the text: what follows the root name and the separators after it. -/
def winRelative (s : Str) : Str := (winTail s).dropWhile winSep

/-- The text ends with a separator. -/
def winEndsSep (s : Str) : Bool := s.getLast?.any winSep

/-- The element sequence of a Windows path text according to the path grammar. -/
def winElements (s : Str) : List Str :=
  (if winRootLen s = 0 then [] else [winRootName s]) ++
  (if winHasDir s then [['\\']] else []) ++ winNames (winTail s) ++
  (if winEndsSep s ∧ winNames (winTail s) ≠ [] then [[]] else [])

end Asap.Spec

namespace Asap.Spec

/-- A network root name (`//host`). -/
def winUnc (s : Str) : Bool := decide (2 < winRootLen s)

/-- The filename: the last piece, if the text does not end with a separator. -/
def winFile (s : Str) : Str := if winEndsSep s then [] else (winNames (winTail s)).getLastD []

/-- The elements of `s / t`: a different root name replaces everything, a root directory everything but
the root name, and otherwise the names follow those of `s`, under a root directory if `s` is a network name. -/
def winAppended (s t : Str) : List Str :=
  if winRootName t ≠ [] ∧ winRootName t ≠ winRootName s then winElements t
  else if winHasDir t then
    (if winRootLen s = 0 then [] else [winRootName s]) ++ [['\\']] ++ winNames (winTail t) ++
      (if winEndsSep t ∧ winNames (winTail t) ≠ [] then [[]] else [])
  else
    (if winRootLen s = 0 then [] else [winRootName s]) ++ (if winHasDir s ∨ winUnc s then [['\\']] else []) ++
      winNames (winTail s) ++ winNames (winTail t) ++
      (if (winNames (winTail t) ≠ [] ∧ winEndsSep t) ∨ (winNames (winTail t) = [] ∧ winNames (winTail s) ≠ [])
        then [[]] else [])

end Asap.Spec
