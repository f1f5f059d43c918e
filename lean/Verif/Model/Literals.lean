import Verif.Model.Helpers

/-! Model of the non-recursive expression parsers: src/ast/expression/
{variable,access,access_function,string,float,integer,character}.rs. -/
namespace ElmParser

/-- src/ast/expression/variable.rs:6-11 `lower_case`. -/
def lowerCase : Parser Expr := pmap loName (fun v => .Variable [v])

/-- src/ast/expression/variable.rs:13-18 `upper_with_dots`. -/
def upperWithDots : Parser Expr := pmap (sepNonemptyList (char '.') upName) .Variable

/-- src/ast/expression/variable.rs:20-31 `op`. -/
def op : Parser Expr :=
  pmap
    (delimited (char '(')
      (operator </> takeWhile1 (fun c => c == ','))
      (char ')'))
    (fun s => .Variable [s])

/-- src/ast/expression/variable.rs:33-39 `variable`. -/
def variableP : Parser Expr := lowerCase </> upperWithDots </> op

/-- src/ast/expression/access.rs:11-15 one `.name`. -/
def dotName : Parser Name := do
  let _ ← char '.'
  let name ← loName
  pure name

/-- src/ast/expression/access.rs:7-19 `access`. -/
def access : Parser Expr := do
  let var ← variableP
  let accessors ← many1 dotName
  pure (.Access var accessors)

/-- src/ast/expression/access_function.rs:6-12 `access_function`. -/
def accessFunction : Parser Expr := do
  let _ ← char '.'
  let name ← loName
  pure (.AccessFunction name)

/-- The regex `^(\\\\|\\"|[^"\n])*` of src/ast/expression/string.rs:9 with
leftmost-first semantics: at every position try two backslashes, then backslash
quote, then any character but quote and newline; stop when none applies.
Nothing follows the star, so the greedy choice is never undone. -/
def stringBody : Str → Str × Str
  | [] => ([], [])
  | c :: d :: s =>
    if c = '\\' ∧ (d = '\\' ∨ d = '"') then
      let x := stringBody s
      (c :: d :: x.1, x.2)
    else if c ≠ '"' ∧ c ≠ '\n' then
      let x := stringBody (d :: s)
      (c :: x.1, x.2)
    else ([], c :: d :: s)
  | [c] => if c ≠ '"' ∧ c ≠ '\n' then ([c], []) else ([], [c])

/-- src/ast/expression/string.rs:5-15 `single_string`. -/
def singleString : Parser Str := do
  let v ← delimited (char '"') (reMatches fun s => some (stringBody s)) (char '"')
  index v 0

/-- src/ast/expression/string.rs:17-23 `multi_string`. -/
def multiString : Parser Str := do
  let v ← delimited (tag c!"\"\"\"") (reMatches (reStar fun c => c != '"')) (tag c!"\"\"\"")
  index v 0

/-- src/ast/expression/string.rs:25-33 `string`. -/
def string : Parser Expr := pmap (multiString </> singleString) .String

/-- src/ast/expression/float.rs:8-11 and integer.rs:8-11: the optional sign. -/
def sign : Parser Str :=
  pmap (opt (char '+' </> char '-')) (fun o => match o with | some c => [c] | none => [])

/-- src/ast/expression/float.rs:6-17 `float`. -/
def float : Parser Expr := do
  let sgn ← sign
  let start ← digit
  let _ ← char '.'
  let end_ ← digit
  pure (.Float (sgn ++ start ++ c!"." ++ end_))

/-- src/ast/expression/integer.rs:6-15 `integer`. -/
def integer : Parser Expr := do
  let sgn ← sign
  let number ← digit
  pure (.Integer (sgn ++ number))

/-- Value of a hexadecimal digit (Rust `char::to_digit(16)`). -/
def hexVal (c : Char) : Option Nat :=
  if '0' ≤ c ∧ c ≤ '9' then some (c.toNat - '0'.toNat)
  else if 'a' ≤ c ∧ c ≤ 'f' then some (c.toNat - 'a'.toNat + 10)
  else if 'A' ≤ c ∧ c ≤ 'F' then some (c.toNat - 'A'.toNat + 10)
  else none

/-- `u8::from_str_radix(code, 16)` on the two characters taken by
src/ast/expression/character.rs:13-14.  Rust accepts one leading `+` and, for an
unsigned type, no leading `-`.  Two hexadecimal digits cannot overflow a `u8`. -/
def fromHex (code : Str) : Option Nat :=
  match code with
  | [a, b] =>
    if a = '+' then hexVal b
    else match hexVal a, hexVal b with
      | some x, some y => some (16 * x + y)
      | _, _ => none
  | _ => none

/-- src/ast/expression/character.rs:11-21: `\xHH`.  The `println!` on line 18
is in `Trace.lean`. -/
def hexChar : Parser Char :=
  mapRes (preceded (tag c!"\\x") (pmap (take 2) fromHex)) (fun r => r.map Char.ofNat)

/-- src/ast/expression/character.rs:8-24 `character_content`. -/
def characterContent : Parser Char := hexChar </> anychar

/-- src/ast/expression/character.rs:26-33 `character`. -/
def character : Parser Expr :=
  pmap (delimited (char '\'') characterContent (char '\'')) .Character

end ElmParser
