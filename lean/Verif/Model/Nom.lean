/-
Model of the part of the `nom` 4.0.0 combinator library (with `CompleteStr`
input) and of the `regex` crate that elm-parser uses.

`nom` and `regex` are external crates; their sources are not in /repo.  The
definitions below are the documented behaviour of these macros on
`CompleteStr`; they belong to the trusted base (see DESIGN.md).

Conventions
* A Rust `&str` is a `List Char`: the list of its Unicode scalar values.
  Byte offsets are not modelled (every slice the crate takes is on a char
  boundary by construction of nom / regex).
* `IResult` is `Res`.  `CompleteStr` never yields `Err::Incomplete`, and no
  parser of the crate yields `Err::Failure`, so one error value `err` is
  enough; the error payload (used only in `{:#?}` output) is not modelled.
* `Res.panic` is a Rust panic (out-of-range index).
* `Res.div` is "the budget of the recursion or of a loop ran out"; theorem
  `C01` shows it never happens.
-/
namespace ElmParser

/-- Rust `&str` / `String`, as the list of its `char`s. -/
abbrev Str := List Char

/-- `c!"abc"` is the literal `['a', 'b', 'c']`. -/
syntax:max "c!" str : term
macro_rules
  | `(c! $s:str) => do
    let cs := s.getString.toList.toArray.map Lean.Syntax.mkCharLit
    `([ $[$cs],* ])

/-- nom `IResult<CompleteStr, O>` together with the two ways of not returning. -/
inductive Res (α : Type) where
  | ok (v : α) (rest : Str)
  | err
  | panic
  | div
  deriving Repr

/-- Sequencing of results: `Ok((i, o)) => f(o)(i)`, everything else is passed on. -/
def Res.andThen {α β : Type} (x : Res α) (f : α → Str → Res β) : Res β :=
  match x with
  | .ok v r => f v r
  | .err => .err
  | .panic => .panic
  | .div => .div

/-- `Err::Error(_) => y`, everything else is passed on. -/
def Res.orElse {α : Type} (x : Res α) (y : Res α) : Res α :=
  match x with
  | .err => y
  | x => x

/-- A nom parser over `CompleteStr`. -/
abbrev Parser (α : Type) := Str → Res α

/-- Parser that consumes nothing and returns `v`. -/
def Parser.pure {α : Type} (v : α) : Parser α := fun s => .ok v s

/-- nom `do_parse!` sequencing. -/
def Parser.bind {α β : Type} (p : Parser α) (f : α → Parser β) : Parser β :=
  fun s => (p s).andThen f

instance : Monad Parser where
  pure := Parser.pure
  bind := Parser.bind

/-- Parser that always returns `Err::Error`. -/
def Parser.fail {α : Type} : Parser α := fun _ => .err

/-- nom `alt!(p | q)`: ordered choice, `q` is tried on the same input only when
`p` returned `Err::Error`. -/
def alt {α : Type} (p q : Parser α) : Parser α := fun s => (p s).orElse (q s)

@[inherit_doc] infixr:20 " </> " => alt

/-- nom `map!(p, f)`. -/
def pmap {α β : Type} (p : Parser α) (f : α → β) : Parser β := do
  let v ← p
  pure (f v)

/-- nom `value!(v, p)`. -/
def value {α β : Type} (v : β) (p : Parser α) : Parser β := pmap p (fun _ => v)

/-- nom `map_res!(p, f)`; `none` is Rust's `Err(_)`. -/
def mapRes {α β : Type} (p : Parser α) (f : α → Option β) : Parser β := do
  let v ← p
  match f v with
  | some w => pure w
  | none => Parser.fail

/-- nom `opt!(p)`. -/
def opt {α : Type} (p : Parser α) : Parser (Option α) :=
  pmap p some </> pure none

/-- nom `preceded!(p, q)`. -/
def preceded {α β : Type} (p : Parser α) (q : Parser β) : Parser β := do
  let _ ← p
  q

/-- nom `terminated!(p, q)`. -/
def terminated {α β : Type} (p : Parser α) (q : Parser β) : Parser α := do
  let v ← p
  let _ ← q
  pure v

/-- nom `delimited!(p, q, r)`. -/
def delimited {α β γ : Type} (p : Parser α) (q : Parser β) (r : Parser γ) : Parser β := do
  let _ ← p
  let v ← q
  let _ ← r
  pure v

/-- nom `separated_pair!(p, sep, q)`. -/
def separatedPair {α β γ : Type} (p : Parser α) (sep : Parser γ) (q : Parser β) :
    Parser (α × β) := do
  let a ← p
  let _ ← sep
  let b ← q
  pure (a, b)

/-- nom `char!(c)`. -/
def char (c : Char) : Parser Char := fun s =>
  match s with
  | [] => .err
  | d :: r => if d = c then .ok d r else .err

/-- Does `s` start with `t`?  If so, what is left. -/
def stripPrefix : Str → Str → Option Str
  | [], s => some s
  | _ :: _, [] => none
  | c :: t, d :: s => if d = c then stripPrefix t s else none

/-- nom `tag!(t)`. -/
def tag (t : Str) : Parser Str := fun s =>
  match stripPrefix t s with
  | some r => .ok t r
  | none => .err

/-- `split_at_position` of nom's `InputTakeAtPosition` for `CompleteStr`
(with the negated predicate): the longest prefix of characters satisfying `f`. -/
def takeWhile0 (f : Char → Bool) : Parser Str := fun s =>
  .ok (s.takeWhile f) (s.dropWhile f)

/-- `split_at_position1`: the same, but `Err::Error` when the prefix is empty.
nom `is_a!(set)` is `takeWhile1 (· ∈ set)`. -/
def takeWhile1 (f : Char → Bool) : Parser Str := fun s =>
  match s.takeWhile f with
  | [] => .err
  | c :: cs => .ok (c :: cs) (s.dropWhile f)

/-- nom `digit` (= `digit1`). -/
def isDigit (c : Char) : Bool := '0' ≤ c ∧ c ≤ '9'
@[inherit_doc isDigit]
def digit : Parser Str := takeWhile1 isDigit

/-- nom's `multispace` character class: space, tab, CR, LF. -/
def isMultispace (c : Char) : Bool := c = ' ' ∨ c = '\t' ∨ c = '\r' ∨ c = '\n'
/-- nom `multispace0`. -/
def multispace0 : Parser Str := takeWhile0 isMultispace
/-- nom `multispace` (= `multispace1`). -/
def multispace : Parser Str := takeWhile1 isMultispace
/-- nom `space1`: spaces and tabs. -/
def space1 : Parser Str := takeWhile1 (fun c => c = ' ' ∨ c = '\t')

/-- nom `anychar`. -/
def anychar : Parser Char := fun s =>
  match s with
  | [] => .err
  | c :: r => .ok c r

/-- nom `take!(n)`: exactly `n` characters. -/
def take (n : Nat) : Parser Str := fun s =>
  if s.length < n then .err else .ok (s.take n) (s.drop n)

/-- First occurrence of `t` in `s`: the text before it and the text after it
(nom `find_substring`). -/
def findSubstring (t : Str) : Str → Option (Str × Str)
  | [] => match stripPrefix t [] with
      | some r => some ([], r)
      | none => none
  | c :: s => match stripPrefix t (c :: s) with
      | some r => some ([], r)
      | none => match findSubstring t s with
          | some (a, b) => some (c :: a, b)
          | none => none

/-- nom `take_until_and_consume!(t)`. -/
def takeUntilAndConsume (t : Str) : Parser Str := fun s =>
  match findSubstring t s with
  | some (a, b) => .ok a b
  | none => .err

/-- nom `eof!()`. -/
def eof : Parser Unit := fun s =>
  match s with
  | [] => .ok () []
  | _ :: _ => .err

/-- The loop of nom `many0!`.  A round that consumes nothing ends the loop
(`i.at_eof()` is always true for `CompleteStr`). -/
def many0Loop {α : Type} (p : Parser α) : Nat → Parser (List α)
  | 0 => fun _ => .div
  | n + 1 => fun s =>
    match p s with
    | .err => .ok [] s
    | .panic => .panic
    | .div => .div
    | .ok v r =>
      if r = s then .ok [] s
      else (many0Loop p n r).andThen fun vs r' => .ok (v :: vs) r'

/-- nom `many0!(p)`. -/
def many0 {α : Type} (p : Parser α) : Parser (List α) := fun s =>
  many0Loop p (s.length + 1) s

/-- nom `many1!(p)`: the first round must succeed, later rounds are as in
`many0!` (a round that consumes nothing ends the loop). -/
def many1 {α : Type} (p : Parser α) : Parser (List α) := do
  let v ← p
  let vs ← many0 p
  pure (v :: vs)

/-- The loop of nom `separated_list!` / `separated_nonempty_list!` after the
first element: a separator and an element.  It stops, giving back the input
from before the separator, as soon as the separator or the element fails or
consumes nothing. -/
def sepLoop {α β : Type} (sep : Parser β) (p : Parser α) : Nat → Parser (List α)
  | 0 => fun _ => .div
  | n + 1 => fun s =>
    match sep s with
    | .err => .ok [] s
    | .panic => .panic
    | .div => .div
    | .ok _ s2 =>
      if s2.length = s.length then .ok [] s
      else match p s2 with
        | .err => .ok [] s
        | .panic => .panic
        | .div => .div
        | .ok v s3 =>
          if s3.length = s2.length then .ok [] s
          else (sepLoop sep p n s3).andThen fun vs r => .ok (v :: vs) r

/-- nom `separated_nonempty_list!(sep, p)`. -/
def sepNonemptyList {α β : Type} (sep : Parser β) (p : Parser α) : Parser (List α) := fun s =>
  (p s).andThen fun v r =>
    if r.length = s.length then .err
    else (sepLoop sep p (r.length + 1) r).andThen fun vs r' => .ok (v :: vs) r'

/-- nom `separated_list!(sep, p)`: like `separated_nonempty_list!`, but an
`Err::Error` of the first element gives the empty list. -/
def sepList {α β : Type} (sep : Parser β) (p : Parser α) : Parser (List α) := fun s =>
  match p s with
  | .err => .ok [] s
  | .panic => .panic
  | .div => .div
  | .ok v r =>
    if r.length = s.length then .err
    else (sepLoop sep p (r.length + 1) r).andThen fun vs r' => .ok (v :: vs) r'

/-- An anchored (`^...`) regular expression: the leftmost-first match at the
start of the input, as (matched text, rest). -/
abbrev Regex := Str → Option (Str × Str)

/-- nom `re_matches!(re)` for an anchored regex: the vector of all matches,
which for a regex starting with `^` has exactly one element, or `Err::Error`. -/
def reMatches (re : Regex) : Parser (List Str) := fun s =>
  match re s with
  | some (m, r) => .ok [m] r
  | none => .err

/-- Rust `v[i]` on a `Vec`: panics when out of range. -/
def index {α : Type} (v : List α) (i : Nat) : Parser α := fun s =>
  match v[i]? with
  | some x => .ok x s
  | none => .panic

/-- Regex `^([h][t]*)`. -/
def reHeadTail (h t : Char → Bool) : Regex := fun s =>
  match s with
  | [] => none
  | c :: r => if h c then some (c :: r.takeWhile t, r.dropWhile t) else none

/-- Regex `^([f]*)`. -/
def reStar (f : Char → Bool) : Regex := fun s => some (s.takeWhile f, s.dropWhile f)

/-- Regex `^([f]+)`. -/
def rePlus (f : Char → Bool) : Regex := reHeadTail f f

end ElmParser
