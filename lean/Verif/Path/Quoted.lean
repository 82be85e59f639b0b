import Verif.Path.Model

/-!
# Stream insertion and extraction

Model of `operator<<` and `operator>>` (`include/filesystem/fs_path.h:511-533`)
on top of `std::quoted` with delimiter `"` and escape `\`. The stream is the
list of characters still to be read. Simplified: `char` streams with default
flags; stream errors other than end of input do not occur.
-/

namespace Asap

/-- `std::quoted` on output: escape delimiter and escape character
(used at `include/filesystem/fs_path.h:513`). -/
def quoteBody : Str → Str
  | [] => []
  | c :: cs => if c = '"' ∨ c = '\\' then '\\' :: c :: quoteBody cs else c :: quoteBody cs

/-- `operator<<(std::ostream&, const path&)` (`include/filesystem/fs_path.h:512-515`):
the characters appended to the stream. -/
def streamOut (p : Path) : Str := '"' :: quoteBody p.pathname ++ ['"']

/-- `std::isspace` in the classic locale, skipped by formatted extraction
(used at `include/filesystem/fs_path.h:529`). -/
def isSpace (c : Char) : Bool :=
  c == ' ' || c == '\t' || c == '\n' || c == '\x0b' || c == '\x0c' || c == '\r'

/-- The loop of `std::quoted` on input after the opening delimiter (used at
`include/filesystem/fs_path.h:529`): text read, whether the stream is still good,
and the rest of the stream. The flag says that the escape character was just
read. -/
def quoteRead : Bool → Str → Str → Str × Bool × Str
  | _, [], acc => (acc, false, [])
  | true, c :: cs, acc => quoteRead false cs (acc ++ [c])
  | false, c :: cs, acc =>
    if c = '\\' then quoteRead true cs acc
    else if c = '"' then (acc, true, cs)
    else quoteRead false cs (acc ++ [c])

/-- `operator>>` (`include/filesystem/fs_path.h:525-533`): new value of the path,
whether the stream is still good, and the rest of the stream. Without an opening
delimiter a whitespace-delimited word is read. -/
def streamIn (pl : Plat) (old : Path) (input : Str) : Path × Bool × Str :=
  match input.dropWhile isSpace with
  | [] => (old, false, [])
  | c :: cs =>
    if c = '"' then
      let r := quoteRead false cs []
      if r.2.1 then (mkPath pl r.1, true, r.2.2) else (old, false, r.2.2)
    else
      -- `is >> tmp` reads a word; reaching the end of input leaves `eofbit` only
      (mkPath pl ((c :: cs).takeWhile fun x => !isSpace x), true, (c :: cs).dropWhile fun x => !isSpace x)

theorem quoteRead_body : ∀ (s acc rest : Str),
    quoteRead false (quoteBody s ++ '"' :: rest) acc = (acc ++ s, true, rest)
  | [], acc, rest => by simp [quoteBody, quoteRead]
  | c :: s, acc, rest => by
    have ih := quoteRead_body s (acc ++ [c]) rest
    by_cases hc : c = '"' ∨ c = '\\'
    · simp only [quoteBody, hc, if_true, List.cons_append, quoteRead]
      rw [ih]; simp
    · have h1 : c ≠ '\\' := fun h => hc (Or.inr h)
      have h2 : c ≠ '"' := fun h => hc (Or.inl h)
      simp only [quoteBody, h1, h2, or_self, if_false, List.cons_append, quoteRead]
      rw [ih]; simp

theorem stream_roundtrip (pl : Plat) (p old : Path) (ws rest : Str) (hws : ∀ c ∈ ws, isSpace c = true) :
    streamIn pl old (ws ++ streamOut p ++ rest) = (mkPath pl p.pathname, true, rest) := by
  have h : ∀ l : Str, (∀ c ∈ l, isSpace c = true) → (l ++ streamOut p ++ rest).dropWhile isSpace =
      '"' :: (quoteBody p.pathname ++ '"' :: rest) := by
    intro l
    induction l with
    | nil => intro _; simp [streamOut, isSpace]
    | cons c l ih =>
      intro hl
      have := hl c (by simp)
      simp only [List.cons_append, List.dropWhile_cons, this, if_true]
      exact ih (fun d hd => hl d (by simp [hd]))
  unfold streamIn
  rw [h ws hws]
  simp [quoteRead_body]

end Asap
