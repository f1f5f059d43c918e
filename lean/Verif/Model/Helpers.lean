import Verif.Model.Ast

/-! Model of src/ast/helpers.rs: names, operators, whitespace and layout. -/
namespace ElmParser

/-- src/ast/helpers.rs:11-14 `RESERVED_WORDS`. -/
def reservedWords : List Str :=
  [c!"module", c!"where", c!"import", c!"as", c!"exposing", c!"type", c!"alias", c!"port",
   c!"if", c!"then", c!"else", c!"let", c!"in", c!"case", c!"of"]

/-- src/ast/helpers.rs:16 `RESERVED_OPERATORS`. -/
def reservedOperators : List Str :=
  [c!"=", c!".", c!"..", c!"->", c!"--", c!"|", c!":"]

/-- Regex class `[a-z]`. -/
def isLower (c : Char) : Bool := 'a' ≤ c ∧ c ≤ 'z'
/-- Regex class `[A-Z]`. -/
def isUpper (c : Char) : Bool := 'A' ≤ c ∧ c ≤ 'Z'
/-- Regex class `[a-zA-Z0-9_]`. -/
def isIdent (c : Char) : Bool := isLower c || isUpper c || isDigit c || c == '_'

/-- src/ast/helpers.rs:21-33, the second alternative of `lo_name`: regex
`^([a-z][a-zA-Z0-9_]*)`, then reject reserved words. -/
def loNameRe : Parser Name := do
  let v ← reMatches (reHeadTail isLower isIdent)
  let name ← index v 0
  if name ∈ reservedWords then Parser.fail else pure name

/-- src/ast/helpers.rs:18-34 `lo_name`. -/
def loName : Parser Name := tag c!"_" </> loNameRe

/-- src/ast/helpers.rs:36-38 `function_name`. -/
def functionName : Parser Name := pmap loName (fun s => s)

/-- src/ast/helpers.rs:47-49 `up_name`: regex `^([A-Z][a-zA-Z0-9_]*)`. -/
def upName : Parser Name := do
  let c ← reMatches (reHeadTail isUpper isIdent)
  index c 0

/-- src/ast/helpers.rs:40-45 `module_name`. -/
def moduleName : Parser (List Name) := sepNonemptyList (char '.') upName

/-- The character class `[-+\\-\\/*=.$<>:&|^?%#@~!]` of src/ast/helpers.rs:54.
`\\-\\` is the one-element range from `\` to `\`. -/
def isOpChar (c : Char) : Bool := c ∈ c!"-+\\/*=.$<>:&|^?%#@~!"

/-- src/ast/helpers.rs:51-64 `operator`. -/
def operator : Parser Name := do
  let c ← reMatches (rePlus isOpChar)
  let op ← index c 0
  if op ∈ reservedOperators then Parser.fail else pure op

/-- src/ast/helpers.rs:66-68 `spaces`. -/
def spaces : Parser Str := takeWhile1 (fun c => c == ' ')

/-- src/ast/helpers.rs:70-72 `spaces0`. -/
def spaces0 : Parser Str := pmap (opt (takeWhile1 (fun c => c == ' '))) (fun s => s.getD [])

/-- src/ast/helpers.rs:74-76 `spaces_and_newlines`. -/
def spacesAndNewlines : Parser Str := takeWhile1 (fun c => c == ' ' || c == '\n')

/-- The regex `^(.*)` of src/ast/helpers.rs:79: `.` is any character but `\n`. -/
def reLine : Regex := reStar (fun c => c != '\n')

/-- src/ast/helpers.rs:78-80 `single_line_comment`. -/
def singleLineComment : Parser Str := do
  let v ← preceded (tag c!"--") (reMatches reLine)
  index v 0

/-- src/ast/helpers.rs:83-87 `IR`. -/
inductive IR where
  | EQ | GT | GTE
  deriving DecidableEq, Repr

/-- src/ast/helpers.rs:89-94 `SpacesContent`. -/
inductive SpacesContent where
  | Spaces | Comment | NewLineAndSpaces
  deriving DecidableEq, Repr

/-- Rust `n as u32` on a `usize`: truncation. -/
def asU32 (n : Nat) : Nat := n % 4294967296

/-- src/ast/helpers.rs:102-108: one newline and the indentation after it.  The
second alternative is never reached because `spaces0` never fails. -/
def newLineItem : Parser (SpacesContent × Nat) :=
  preceded (char '\n')
    ((pmap spaces0 fun s => (.NewLineAndSpaces, asU32 s.length))
      </> (pmap singleLineComment fun _ => (.Comment, 0)))

/-- src/ast/helpers.rs:99-110: one round of the outer `many1!`. -/
def gapItem (indentation : Nat) : Parser (List (SpacesContent × Nat)) :=
  value [(.Spaces, indentation)] spaces
    </> (pmap singleLineComment fun _ => [(.Comment, 0)])
    </> many1 newLineItem

/-- src/ast/helpers.rs:112-145: the closure of `map_res!`. -/
def gapCheck (indentation : Nat) (ir : IR) (v : List (List (SpacesContent × Nat))) :
    Option Nat :=
  let new_indent := ((v.getLast?.getD []).getLast?.getD (.Spaces, 0)).2
  let has_new_line := v.any fun subv => subv.any fun x => x.1 == .NewLineAndSpaces
  match ir with
  | .EQ => if !has_new_line || new_indent == indentation then some new_indent else none
  | .GT => if !has_new_line || decide (new_indent > indentation) then some new_indent else none
  | .GTE => if !has_new_line || decide (new_indent ≥ indentation) then some new_indent else none

/-- src/ast/helpers.rs:96-147 `spaces_or_new_lines_and_indent`. -/
def gap (indentation : Nat) (ir : IR) : Parser Nat :=
  mapRes (many1 (gapItem indentation)) (gapCheck indentation ir)

/-- src/ast/helpers.rs:149-156 `opt_spaces_or_new_lines_and_indent`. -/
def optGap (indentation : Nat) (ir : IR) : Parser Nat :=
  pmap (opt (gap indentation ir)) (fun v => v.getD indentation)

/-- src/ast/helpers.rs:158-176 `new_line_and_same_indent`. -/
def newLineAndSameIndent (indentation : Nat) : Parser Nat :=
  mapRes (preceded (char '\n') (pmap spaces0 fun s => asU32 s.length))
    (fun new_indent => if new_indent == indentation then some new_indent else none)

end ElmParser
