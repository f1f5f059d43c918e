import Verif.Model.Statements

/-! Model of `re_matches!` with the regular expressions as they are written in the source.

`Model/Nom.lean` has, for each regular expression of the crate, a function that finds the match.  Here the text of the
expression is read by the rules of the crate `regex` (the part of its syntax that is used), the matches are found by
the rules of that crate (leftmost-first, `find_iter`), and `re_matches!` is the macro of nom 4.0.0.  `Props/Regex.lean`
proves that the two are the same for every text.  External code; no sources in /repo. -/
namespace ElmParser
namespace Rx

/-- A regular expression: `^`, a class of characters given by ranges, and the ways to put them together. -/
inductive Re where
  | start
  | cls (negated : Bool) (ranges : List (Char × Char))
  | eps
  | seq (a b : Re)
  | alt (a b : Re)
  | star (a : Re)
  | plus (a : Re)
  deriving DecidableEq, Repr

/-! ### Reading the text of a regular expression -/

/-- The characters with a meaning of their own. -/
def special (c : Char) : Bool := c ∈ c!"\\.+*?()|[]{}^$"

/-- After a backslash: `\n`, or a character that would have a meaning without it.  Everything else is refused. -/
def escape (c : Char) : Option Char :=
  if c = 'n' then some '\n' else if special c || c == '-' || c == '/' then some c else none

/-- One character of a class, perhaps escaped. -/
def classChar : Str → Option (Char × Str)
  | '\\' :: c :: s => (escape c).map (·, s)
  | c :: s => if c = '\\' ∨ c = '[' ∨ c = ']' then none else some (c, s)
  | [] => none

/-- The set operations `&&`, `--` and `~~`, which are not modelled. -/
def setOperation : Str → Bool
  | '&' :: '&' :: _ => true
  | '-' :: '-' :: _ => true
  | '~' :: '~' :: _ => true
  | _ => false

/-- The inside of a class up to `]`: `a-z` is a range unless `]` or `-` follows the first `-`. -/
def classItems : Nat → Str → Option (List (Char × Char) × Str)
  | 0, _ => none
  | n + 1, s =>
    match s with
    | ']' :: s => some ([], s)
    | s =>
      if setOperation s then none
      else match classChar s with
        | none => none
        | some (a, '-' :: ']' :: r) => (classItems n ('-' :: ']' :: r)).map fun x => ((a, a) :: x.1, x.2)
        | some (a, '-' :: '-' :: r) => (classItems n ('-' :: '-' :: r)).map fun x => ((a, a) :: x.1, x.2)
        | some (a, '-' :: r) =>
          match classChar r with
          | none => none
          | some (b, r) => (classItems n r).map fun x => ((a, b) :: x.1, x.2)
        | some (a, r) => (classItems n r).map fun x => ((a, a) :: x.1, x.2)

/-- A class after `[`: `^` negates, `-` at the beginning is a character. -/
def classP (s : Str) : Option (Re × Str) :=
  let (neg, s) := match s with
    | '^' :: s => (true, s)
    | s => (false, s)
  match s with
  | '-' :: s => (classItems (s.length + 1) s).map fun x => (.cls neg (('-', '-') :: x.1), x.2)
  | s => (classItems (s.length + 1) s).map fun x => (.cls neg x.1, x.2)

/-- An expression without operators around it. -/
def atom (self : Str → Option (Re × Str)) : Str → Option (Re × Str)
  | '^' :: s => some (.start, s)
  | '.' :: s => some (.cls true [('\n', '\n')], s)
  | '[' :: s => classP s
  | '(' :: s =>
    match self s with
    | some (r, ')' :: s) => some (r, s)
    | _ => none
  | '\\' :: c :: s => (escape c).map fun d => (.cls false [(d, d)], s)
  | c :: s => if special c then none else some (.cls false [(c, c)], s)
  | [] => none

/-- An atom with `*` or `+` after it.  `*?`, `+?` and the like are refused. -/
def repeated (self : Str → Option (Re × Str)) (s : Str) : Option (Re × Str) :=
  match atom self s with
  | some (_, _ :: '?' :: _) => none
  | some (r, '*' :: s) => some (.star r, s)
  | some (r, '+' :: s) => some (.plus r, s)
  | x => x

/-- Atoms one after the other, up to `|`, `)` or the end. -/
def sequence (self : Str → Option (Re × Str)) : Nat → Str → Option (Re × Str)
  | 0, _ => none
  | n + 1, s =>
    match s with
    | [] => some (.eps, [])
    | '|' :: _ => some (.eps, s)
    | ')' :: _ => some (.eps, s)
    | s =>
      match repeated self s with
      | none => none
      | some (a, s) => (sequence self n s).map fun x => (if x.1 = .eps then a else .seq a x.1, x.2)

/-- Sequences separated by `|`. -/
def alternation : Nat → Str → Option (Re × Str)
  | 0, _ => none
  | n + 1, s =>
    match sequence (alternation n) (s.length + 1) s with
    | none => none
    | some (a, '|' :: s) => (alternation n s).map fun x => (.alt a x.1, x.2)
    | some (a, s) => some (a, s)

/-- `Regex::new`. -/
def parse (s : Str) : Option Re :=
  match alternation (s.length + 1) s with
  | some (r, []) => some r
  | _ => none

/-! ### Finding matches -/

/-- A place in the text: the number of characters before it, and what follows. -/
abbrev Pos := Nat × Str

/-- Whether a class has a character. -/
def inClass (neg : Bool) (ranges : List (Char × Char)) (c : Char) : Bool :=
  neg != ranges.any fun r => decide (r.1 ≤ c) && decide (c ≤ r.2)

/-- A greedy loop: once more first, then stop.  No round may be empty. -/
def loop (f : Pos → List Pos) : Nat → Pos → List Pos
  | 0, p => [p]
  | n + 1, p => ((f p).filter fun q => q.2.length < p.2.length).flatMap (loop f n) ++ [p]

/-- Where a match that starts at the place may end, the preferred end first: an alternative comes before those to the
right of it, more rounds of a loop before fewer. -/
def Re.run : Re → Pos → List Pos
  | .start, p => if p.1 = 0 then [p] else []
  | .cls neg ranges, p =>
    match p.2 with
    | [] => []
    | c :: s => if inClass neg ranges c then [(p.1 + 1, s)] else []
  | .eps, p => [p]
  | .seq a b, p => (a.run p).flatMap b.run
  | .alt a b, p => a.run p ++ b.run p
  | .star a, p => loop a.run p.2.length p
  | .plus a, p => (a.run p).flatMap fun q => loop a.run q.2.length q

/-- `find_at`: the first place from which there is a match, with the preferred end. -/
def find (re : Re) : Str → Nat → Option (Pos × Pos)
  | [], n => ((re.run (n, [])).head?).map ((n, []), ·)
  | c :: s, n =>
    match (re.run (n, c :: s)).head? with
    | some q => some ((n, c :: s), q)
    | none => find re s (n + 1)

/-- `find_iter`: search on from the end of the last match; after an empty match, one character further on.  An empty
match right after another match does not count.  `last` is the end of the match before. -/
def findIter (re : Re) : Nat → Option Nat → Pos → List (Pos × Pos)
  | 0, _, _ => []
  | k + 1, last, p =>
    match find re p.2 p.1 with
    | none => []
    | some (a, b) =>
      let found : List (Pos × Pos) := if a.1 = b.1 ∧ last = some b.1 then [] else [(a, b)]
      if a.1 = b.1 then
        match b.2 with
        | [] => found
        | _ :: s => found ++ findIter re k (some b.1) (b.1 + 1, s)
      else found ++ findIter re k (some b.1) b

/-- `re_matches!` of nom 4.0.0: the texts of all matches, and the input after the last one; `Err::Error` if there is
none.  `Regex::new(..).unwrap()` panics for what is no regular expression. -/
def reMatches (pattern : Str) : Parser (List Str) := fun s =>
  match parse pattern with
  | none => .panic
  | some re =>
    let ms := findIter re (s.length + 1) none (0, s)
    match ms.getLast? with
    | none => .err
    | some m => .ok (ms.map fun m => m.1.2.take (m.2.1 - m.1.1)) m.2.2

/-! ### The parsers that use regular expressions -/

/-- src/ast/helpers.rs:18-34 `lo_name`. -/
def loName : Parser Name :=
  tag c!"_" </> (do
    let v ← reMatches c!"^([a-z][a-zA-Z0-9_]*)"
    let name ← index v 0
    if name ∈ reservedWords then Parser.fail else pure name)

/-- src/ast/helpers.rs:47-49 `up_name`. -/
def upName : Parser Name := do
  let c ← reMatches c!"^([A-Z][a-zA-Z0-9_]*)"
  index c 0

/-- src/ast/helpers.rs:51-64 `operator`. -/
def operator : Parser Name := do
  let c ← reMatches c!"^([-+\\\\-\\\\/*=.$<>:&|^?%#@~!]+)"
  let op ← index c 0
  if op ∈ reservedOperators then Parser.fail else pure op

/-- src/ast/helpers.rs:78-80 `single_line_comment`. -/
def singleLineComment : Parser Str := do
  let v ← preceded (tag c!"--") (reMatches c!"^(.*)")
  index v 0

/-- src/ast/expression/string.rs:5-15 `single_string`. -/
def singleString : Parser Str := do
  let v ← delimited (char '"') (reMatches c!"^(\\\\\\\\|\\\\\"|[^\"\\n])*") (char '"')
  index v 0

/-- src/ast/expression/string.rs:17-23 `multi_string`. -/
def multiString : Parser Str := do
  let v ← delimited (tag c!"\"\"\"") (reMatches c!"^([^\"]*)") (tag c!"\"\"\"")
  index v 0

/-- src/ast/type_/mod.rs:10-12 `type_variable`. -/
def typeVariable : Parser Ty := do
  let c ← reMatches c!"^([a-z][a-z1-9_]*)"
  let n ← index c 0
  pure (.TypeVariable n)

/-- src/ast/statement/comment.rs:5-10 `single_line_comment`. -/
def lineCommentStatement : Parser Statement := do
  let v ← preceded (tag c!"--") (reMatches c!"^(.*)")
  let t ← index v 0
  pure (.Comment t)

end Rx
end ElmParser
