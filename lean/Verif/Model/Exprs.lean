import Verif.Model.Types
import Verif.Model.Literals

/-! Model of src/ast/expression/mod.rs and src/ast/expression/function.rs.

The whole expression grammar is recursive through `expression`.  In the model
each function takes the parser `self` that stands for the recursive calls of
`expression`; `exprN` ties the knot with a budget on the nesting depth, and
`expression` uses a budget that is proved sufficient in `Proofs/Total.lean`. -/
namespace ElmParser

/-- `expression`, as a parameter. -/
abbrev ExprRec := Nat → Parser Expr

/-- src/ast/expression/mod.rs:30-46 `tuple`. -/
def tuple (self : ExprRec) (indentation : Nat) : Parser Expr :=
  pmap
    (delimited
      (char '(')
      (sepList (char ',') (delimited multispace0 (self indentation) multispace0))
      (char ')'))
    .Tuple

/-- src/ast/expression/mod.rs:48-67 `list`. -/
def list (self : ExprRec) (indentation : Nat) : Parser Expr :=
  pmap
    (delimited
      (preceded (char '[') (opt (gap indentation .GTE)))
      (opt (sepList (commaSep indentation) (self indentation)))
      (terminated (opt (gap indentation .GTE)) (char ']')))
    (fun o => .List (o.getD []))

/-- src/ast/expression/mod.rs:79-87 one field of a record. -/
def recordField (self : ExprRec) (indentation : Nat) : Parser (Name × Expr) :=
  separatedPair
    loName
    (delimited (opt (gap indentation .GTE)) (char '=') (opt (gap indentation .GTE)))
    (self indentation)

/-- src/ast/expression/mod.rs:69-93 `record`. -/
def record (self : ExprRec) (indentation : Nat) : Parser Expr :=
  pmap
    (delimited
      (preceded (char '{') (opt (gap indentation .GTE)))
      (sepList (commaSep indentation) (recordField self indentation))
      (terminated (opt (gap indentation .GTE)) (char '}')))
    .Record

/-- src/ast/expression/mod.rs:101-106 one field of a simplified record. -/
def simplifiedField : Parser (Name × Expr) := do
  let _ ← multispace0
  let name ← loName
  let _ ← multispace0
  pure (name, .Variable [name])

/-- src/ast/expression/mod.rs:95-112 `simplified_record` (its indentation
argument is unused). -/
def simplifiedRecord : Parser Expr :=
  pmap
    (delimited (char '{') (sepList (char ',') simplifiedField) (char '}'))
    .Record

/-- src/ast/expression/mod.rs:128-135 one field of a record update. -/
def updateField (self : ExprRec) (indentation : Nat) : Parser (Name × Expr) := do
  let name ← loName
  let _ ← multispace0
  let _ ← char '='
  let _ ← multispace0
  let e ← self indentation
  pure (name, e)

/-- src/ast/expression/mod.rs:114-141 `record_update`. -/
def recordUpdate (self : ExprRec) (indentation : Nat) : Parser Expr :=
  delimited
    (preceded (char '{') (optGap indentation .GTE))
    (do
      let name ← loName
      let _ ← optGap indentation .GTE
      let _ ← char '|'
      let _ ← multispace0
      let pairs ← sepList
        (delimited (optGap indentation .GTE) (char ',') (optGap indentation .GTE))
        (updateField self indentation)
      pure (.RecordUpdate name pairs))
    (terminated (gap indentation .GTE) (char '}'))

/-- src/ast/expression/mod.rs:143-149 `parens`. -/
def parens (self : ExprRec) (indentation : Nat) : Parser Expr :=
  delimited (char '(') (self indentation) (char ')')

/-- src/ast/expression/mod.rs:153-169 `term`. -/
def termF (self : ExprRec) (indentation : Nat) : Parser Expr :=
  access
    </> variableP
    </> accessFunction
    </> string
    </> float
    </> integer
    </> character
    </> parens self indentation
    </> list self indentation
    </> tuple self indentation
    </> recordUpdate self indentation
    </> record self indentation
    </> simplifiedRecord

/-- src/ast/expression/mod.rs:173-183 `lambda`. -/
def lambda (self : ExprRec) (indentation : Nat) : Parser Expr := do
  let _ ← char '\\'
  let args ← sepNonemptyList space1 (termF self indentation)
  let _ ← gap indentation .GTE
  let _ ← tag c!"->"
  let new_indent ← gap indentation .GTE
  let body ← self new_indent
  pure (.Lambda args body)

/-- src/ast/expression/mod.rs:187-208 `application_or_var`.  The indexings
`v[0]`, `v[1]` are checked. -/
def applicationOrVar (self : ExprRec) (indentation : Nat) : Parser Expr := do
  let v ← sepList (gap indentation .GT) (termF self indentation)
  if v.isEmpty then Parser.fail
  else if v.length == 1 then index v 0
  else do
    let a ← index v 0
    let b ← index v 1
    pure ((v.drop 2).foldl (fun app entry => .Application app entry) (.Application a b))

/-- src/ast/expression/function.rs:12-15 and 26-29: the name of a function. -/
def functionNameOrOp : Parser Name :=
  loName </> delimited (char '(') operator (char ')')

/-- src/ast/expression/function.rs:10-22 `function_signature`. -/
def functionSignature (indentation : Nat) : Parser FunctionSignature := do
  let name ← functionNameOrOp
  let _ ← spaces
  let _ ← char ':'
  let new_indent ← gap indentation .GT
  let t ← typeAnnotation new_indent
  pure { name := name, type_ := t }

/-- src/ast/expression/function.rs:24-37 `function_definition`. -/
def functionDefinitionF (self : ExprRec) (indentation : Nat) : Parser FunctionDefinition := do
  let name ← functionNameOrOp
  let args ← many0 (preceded spaces (termF self indentation))
  let _ ← spaces
  let _ ← char '='
  let new_indent ← gap indentation .GT
  let body ← self new_indent
  pure (.mk name args body)

/-- src/ast/expression/function.rs:39-50 `function`. -/
def functionF (self : ExprRec) (indentation : Nat) : Parser Function := do
  let signature ← opt (terminated (functionSignature indentation) (newLineAndSameIndent indentation))
  let definition ← functionDefinitionF self indentation
  pure (.mk signature definition)

/-- src/ast/expression/mod.rs:212-219 `let_binding_target`. -/
def letBindingTarget (self : ExprRec) (indentation : Nat) : Parser Expr :=
  variableP
    </> list self indentation
    </> tuple self indentation
    </> simplifiedRecord

/-- src/ast/expression/mod.rs:221-230 `let_binding`. -/
def letBinding (self : ExprRec) (indentation : Nat) : Parser LetEntry := do
  let binding ← letBindingTarget self indentation
  let _ ← gap indentation .GTE
  let _ ← char '='
  let new_indent ← gap indentation .GTE
  let e ← self new_indent
  pure (.LetBinding binding e)

/-- src/ast/expression/mod.rs:235-238 one entry of a `let`. -/
def letEntry (self : ExprRec) (indentation : Nat) : Parser LetEntry :=
  letBinding self indentation </> pmap (functionF self indentation) .LetFunction

/-- src/ast/expression/mod.rs:232-240 `let_bindings`. -/
def letBindings (self : ExprRec) (indentation : Nat) : Parser (List LetEntry) :=
  sepNonemptyList (gap indentation .EQ) (letEntry self indentation)

/-- src/ast/expression/mod.rs:242-253 `let_expression`. -/
def letExpression (self : ExprRec) (indentation : Nat) : Parser Expr := do
  let _ ← tag c!"let"
  let assignment_indentation ← gap indentation .GTE
  let assignments ← letBindings self assignment_indentation
  let _ ← gap indentation .GTE
  let _ ← tag c!"in"
  let _ ← gap indentation .GTE
  let e ← self indentation
  pure (.Let assignments e)

/-- src/ast/expression/mod.rs:257-266 `case`. -/
def caseBranch (self : ExprRec) (indentation : Nat) : Parser (Expr × Expr) := do
  let matcher ← self indentation
  let _ ← gap indentation .GTE
  let _ ← tag c!"->"
  let new_indent ← gap indentation .GTE
  let e ← self new_indent
  pure (matcher, e)

/-- src/ast/expression/mod.rs:268-273 `cases`. -/
def casesP (self : ExprRec) (indentation : Nat) : Parser (List (Expr × Expr)) :=
  sepNonemptyList (gap indentation .EQ) (caseBranch self indentation)

/-- src/ast/expression/mod.rs:275-286 `case_expression`. -/
def caseExpression (self : ExprRec) (indentation : Nat) : Parser Expr := do
  let _ ← tag c!"case"
  let _ ← gap indentation .GTE
  let e ← self indentation
  let _ ← gap indentation .GTE
  let _ ← tag c!"of"
  let new_indent ← gap indentation .GTE
  let cs ← casesP self new_indent
  pure (.Case e cs)

/-- src/ast/expression/mod.rs:290-305 `if_expression`. -/
def ifExpression (self : ExprRec) (indentation : Nat) : Parser Expr := do
  let _ ← tag c!"if"
  let _ ← gap indentation .GTE
  let test ← self indentation
  let _ ← gap indentation .GTE
  let _ ← tag c!"then"
  let new_if_indent ← gap indentation .GTE
  let if_exp ← self new_if_indent
  let _ ← gap indentation .GTE
  let _ ← tag c!"else"
  let new_else_indent ← gap indentation .GTE
  let else_exp ← self new_else_indent
  pure (.If test if_exp else_exp)

/-- src/ast/expression/mod.rs:309-317 `operator_or_as`. -/
def operatorOrAs : Parser Expr :=
  pmap (tag c!"as" </> operator) (fun op => .Variable [op])

/-- src/ast/expression/mod.rs:324-330 the operator part of `binary`. -/
def binaryTail (self : ExprRec) (indentation : Nat) : Parser (Expr × Expr) := do
  let _ ← gap indentation .GTE
  let op ← operatorOrAs
  let _ ← multispace
  let e ← self indentation
  pure (op, e)

/-- src/ast/expression/mod.rs:319-341 `binary`. -/
def binary (self : ExprRec) (indentation : Nat) : Parser Expr := do
  let a ← applicationOrVar self indentation
  let operator_exp ← opt (binaryTail self indentation)
  pure (match operator_exp with
    | some (op, exp) => .BinOp op a exp
    | none => a)

/-- src/ast/expression/mod.rs:343-351 `expression`. -/
def expressionF (self : ExprRec) (indentation : Nat) : Parser Expr :=
  binary self indentation
    </> letExpression self indentation
    </> caseExpression self indentation
    </> ifExpression self indentation
    </> lambda self indentation

/-- Nesting budget. -/
def exprN : Nat → ExprRec
  | 0 => fun _ _ => .div
  | n + 1 => expressionF (exprN n)

/-- src/ast/expression/mod.rs:343 `pub expression`: with a budget of the input
length plus one. -/
def expression : ExprRec := fun indentation s => exprN (s.length + 1) indentation s

/-- src/ast/expression/mod.rs:153 `pub term`. -/
def term (indentation : Nat) : Parser Expr := termF expression indentation
/-- src/ast/expression/function.rs:39 `pub function`. -/
def function (indentation : Nat) : Parser Function := functionF expression indentation
/-- src/ast/expression/function.rs:24 `function_definition`. -/
def functionDefinition (indentation : Nat) : Parser FunctionDefinition :=
  functionDefinitionF expression indentation

end ElmParser
