import Verif.Spec.Lex

/-! A scanner: one pass over a text that finds strings, character literals, comments, words, operator symbols and
brackets.  It knows nothing of declarations, expressions or types, and nothing here refers to the parser model.

The scanner rejects a text in which
* a bracket outside strings, characters and comments is not closed by its partner,
* a word or a closing bracket is directly followed by an operator symbol, other than the dot of `a.b` or,
  directly inside braces, `=`, `:` or `|`,
* an operator symbol is directly followed by a word or an opening bracket, other than the dot, the backslash of a
  function, the sign of a number or, directly inside braces, `=`, `:` or `|`,
* a closing bracket or a literal is directly followed by a word or an opening bracket or a literal, or a word by a
  literal, `[` or `{`,
* a string or character literal or a block comment is not finished, or
* a character occurs outside strings, characters and comments that belongs to no token.

There are texts in which a scanner cannot tell what two dashes mean without parsing: `(--` may start a comment or an
operator in parentheses, `->--` an operator or an arrow with a comment, `---` a comment or an operator, `{--` a block
comment or a record with a line comment.  There it gives up.

With `kw` the scanner also looks at the words `let`, `in`, `if`, `then`, `else`, `case` and `of`.  They are matched
like brackets and together with them: `let` is closed by `in`, `case` by `of`, `if` by `then` and `then` by `else`. -/
namespace ElmParser.Spec

/-- What the scanner has read last. -/
inductive Pos where
  /-- white space, a comma, an opening bracket or nothing -/
  | gap
  /-- `(` -/
  | paren
  /-- `{` -/
  | brace
  /-- `{-` -/
  | braceDash
  /-- a word or a number, not necessarily complete: its characters so far -/
  | word (w : Str)
  /-- a literal or a closing bracket -/
  | closed
  /-- `""` -/
  | quotes
  /-- the operator symbols `w`, and whether they directly follow a `(` -/
  | op (paren : Bool) (w : Str)
  /-- a `-` directly after a word, a literal or a closing bracket -/
  | dash
  /-- the two dashes of a comment -/
  | dashes
  /-- inside a line comment -/
  | line
  /-- inside a block comment -/
  | block
  /-- inside a block comment, after a dash -/
  | blockDash
  /-- the quote that starts a string -/
  | quote
  /-- inside a one-line string -/
  | str
  /-- inside a one-line string, after a backslash -/
  | strEscape
  /-- inside a string with three quotes, after `n` of the closing quotes -/
  | str3 (n : Nat)
  /-- the quote that starts a character literal -/
  | char
  /-- a quote and the character -/
  | charEnd
  /-- a quote and a backslash -/
  | charEscape
  /-- a quote, `\x` and all but `n` of the two digits -/
  | charHex (n : Nat)

/-- The state of the scanner: it has given up, or where it is and what is still open, that is opening brackets and
the first letters of the words `let`, `if`, `then` and `case`. -/
inductive Scan where
  | unclear
  | at (p : Pos) (open_ : List Char)

/-- The bracket that `c` closes. -/
def opener (c : Char) : Option Char :=
  if c = ')' then some '(' else if c = ']' then some '[' else if c = '}' then some '{' else none

/-- The words that are matched. -/
def blockWords : List Str := [c!"let", c!"in", c!"if", c!"then", c!"else", c!"case", c!"of"]

/-- What the word `w` closes. -/
def wordCloses (w : Str) : Option Char :=
  if w = c!"in" then some 'l' else if w = c!"of" then some 'c' else if w = c!"then" then some 'i'
  else if w = c!"else" then some 't' else none

/-- What the word `w` opens. -/
def wordOpens (w : Str) : Option Char :=
  if w = c!"let" then some 'l' else if w = c!"case" then some 'c' else if w = c!"if" then some 'i'
  else if w = c!"then" then some 't' else none

/-- What is open after the end of the word `w`. -/
def endWord (kw : Bool) (w : Str) (k : List Char) : Option (List Char) :=
  if kw then
    (match wordCloses w, k with
      | none, k => some k
      | some _, [] => none
      | some o, o' :: k => if o = o' then some k else none).map fun k =>
    match wordOpens w with
      | none => k
      | some o => o :: k
  else some k

/-- Directly inside braces. -/
def inBraces : List Char → Bool
  | '{' :: _ => true
  | _ => false

/-- The operator symbols without the `=` of a record field. -/
def afterEquals (b : Bool) : Str → Str
  | '=' :: w => if b then w else '=' :: w
  | w => w

/-- The operator symbols `w` may be directly followed by the character `c` of a word: `.a`, `\a`, `-1`, and in braces
`=a`, `:a` and `|a`. -/
def gluesWord (b : Bool) (w : Str) (c : Char) : Bool :=
  (b && (w == c!"=" || w == c!":" || w == c!"|")) ||
  (let v := afterEquals b w
   v == c!"." || v == c!"\\" || v == c!"\\." ||
    (decide (Digit c) && (v == c!"+" || v == c!"-" || v == c!"\\+" || v == c!"\\-")))

/-- The operator symbols `w` may be directly followed by an opening bracket or a literal: `\(`, and in braces `=(`
and `:(`. -/
def gluesOpen (b : Bool) (w : Str) : Bool :=
  (b && (w == c!"=" || w == c!":")) || afterEquals b w == c!"\\"

/-- After an opening bracket or the start of a literal. -/
def openAt (c : Char) (k : List Char) : Option Scan :=
  if c = '(' then some (.at .paren ('(' :: k))
  else if c = '[' then some (.at .gap ('[' :: k))
  else if c = '{' then some (.at .brace ('{' :: k))
  else if c = '"' then some (.at .quote k)
  else if c = '\'' then some (.at .char k)
  else none

/-- After a closing bracket. -/
def closeAt (c : Char) : List Char → Option Scan
  | [] => none
  | o :: k => if opener c = some o then some (.at .closed k) else none

/-- The next character `c` after a gap. -/
def afterGap (c : Char) (k : List Char) : Option Scan :=
  if White c ∨ c = ',' then some (.at .gap k)
  else if IdentChar c then some (.at (.word [c]) k)
  else if OpChar c then some (.at (.op false [c]) k)
  else if (opener c).isSome then closeAt c k
  else openAt c k

/-- The next character `c` after a complete token. -/
def afterToken (c : Char) (k : List Char) : Option Scan :=
  if White c ∨ c = ',' then some (.at .gap k)
  else if c = '-' then some (.at .dash k)
  else if c = '.' ∨ (inBraces k ∧ c ∈ ['=', ':', '|']) then some (.at (.op false [c]) k)
  else if (opener c).isSome then closeAt c k
  else none

/-- The next character `c` after operator symbols. -/
def afterOp (paren : Bool) (w : Str) (c : Char) (k : List Char) : Option Scan :=
  if White c then (if w = c!"." then none else some (.at .gap k))
  else if IdentChar c then (if gluesWord (inBraces k) w c then some (.at (.word [c]) k) else none)
  else if OpChar c then
    (if c = '-' ∧ w.getLast? = some '-' then
      (if w = c!"-" ∧ paren = false then some (.at .dashes k) else some .unclear)
    else some (.at (.op paren (w ++ [c])) k))
  else if (opener c).isSome then (if paren ∨ w = c!".." then closeAt c k else none)
  else if gluesOpen (inBraces k) w then openAt c k
  else none

/-- One character. -/
def stepAt (kw : Bool) (p : Pos) (k : List Char) (c : Char) : Option Scan :=
  match p with
  | .gap => afterGap c k
  | .paren => if OpChar c then some (.at (.op true [c]) k) else afterGap c k
  | .brace => if c = '-' then some (.at .braceDash k) else afterGap c k
  | .braceDash => if c = '-' then some .unclear else some (.at .block k.tail)
  | .word w =>
      if IdentChar c then some (.at (.word (w ++ [c])) k)
      else (endWord kw w k).bind fun k => if c = '(' then openAt c k else afterToken c k
  | .closed => afterToken c k
  | .quotes => if c = '"' then some (.at (.str3 0) k) else afterToken c k
  | .op q w => afterOp q w c k
  | .dash => if c = '-' then some (.at .dashes k) else none
  | .dashes => if c = '\n' then some (.at .gap k) else if OpChar c then some .unclear else some (.at .line k)
  | .line => if c = '\n' then some (.at .gap k) else some (.at .line k)
  | .block => if c = '-' then some (.at .blockDash k) else some (.at .block k)
  | .blockDash =>
      if c = '}' then some (.at .closed k) else if c = '-' then some (.at .blockDash k) else some (.at .block k)
  | .quote =>
      if c = '"' then some (.at .quotes k) else if c = '\\' then some (.at .strEscape k)
      else if c = '\n' then none else some (.at .str k)
  | .str =>
      if c = '"' then some (.at .closed k) else if c = '\\' then some (.at .strEscape k)
      else if c = '\n' then none else some (.at .str k)
  | .strEscape => if c = '\n' then none else some (.at .str k)
  | .str3 n =>
      if c = '"' then (if n = 2 then some (.at .closed k) else some (.at (.str3 (n + 1)) k)) else some (.at (.str3 0) k)
  | .char => if c = '\\' then some (.at .charEscape k) else some (.at .charEnd k)
  | .charEnd => if c = '\'' then some (.at .closed k) else none
  | .charEscape => if c = '\'' then some (.at .closed k) else if c = 'x' then some (.at (.charHex 2) k) else none
  | .charHex n =>
      if n = 0 then (if c = '\'' then some (.at .closed k) else none) else some (.at (.charHex (n - 1)) k)

/-- All characters of a text, from a state of the scanner. -/
def scanFrom (kw : Bool) : Scan → Str → Option Scan
  | σ, [] => some σ
  | .unclear, _ :: _ => some .unclear
  | .at p k, c :: s => (stepAt kw p k c).bind fun σ => scanFrom kw σ s

/-- The text may end here: not inside a literal or a block comment, not after a single dash, and nothing is open. -/
def Scan.final (kw : Bool) : Scan → Bool
  | .unclear => true
  | .at p k => match p with
    | .word w => endWord kw w k == some []
    | .gap | .closed | .quotes | .op _ _ | .dashes | .line => k.isEmpty
    | _ => false

/-- The scanner accepts the text, or gives up. -/
def scansWith (kw : Bool) (s : Str) : Bool := ((scanFrom kw (.at .gap []) s).map (Scan.final kw)).getD false

/-- The scanner accepts the text, or gives up; words are not looked at. -/
def scans (s : Str) : Bool := scansWith false s

/-- The scanner accepts the text, or gives up; words are matched, too. -/
def scansWords (s : Str) : Bool := scansWith true s

end ElmParser.Spec
