import Verif.Model.Debug

/-! The parser with a record of what it does besides returning a result.

This file repeats src/ast/type_/mod.rs, src/ast/expression/{character,mod,function}.rs, the part of src/ast/statement
that leads to types and expressions, and the two binaries, over parsers that also give the list of events: a call of
`expression`, a call of `type_`, and a line printed by src/ast/expression/character.rs:18.  Events in alternatives that
were abandoned are in the list.  `free p` is a parser without events.  `Proofs/Trace.lean` shows that leaving out the
events gives the model of `Model/Types.lean`, `Model/Exprs.lean` and `Model/Statements.lean`, and that the events
satisfy the recursive equations of the source. -/
namespace ElmParser.Trace

/-- What a parser does besides returning a result. -/
inductive Event where
  /-- a call of `expression` -/
  | call
  /-- a call of `type_` -/
  | ty
  /-- src/ast/expression/character.rs:18 `println!("{:?}", r)`; `none` is an `Err` -/
  | hex (r : Option Nat)
  deriving DecidableEq, Repr

/-- A parser with its events. -/
abbrev TP (α : Type) := Str → Res α × List Event

/-- A parser without events. -/
def free {α : Type} (p : Parser α) : TP α := fun s => (p s, [])

/-- An event. -/
def emit (e : Event) : TP Unit := fun s => (.ok () s, [e])

/-- What follows a successful parser, with its events. -/
def andThen {α β : Type} (x : Res α × List Event) (f : α → TP β) : Res β × List Event :=
  match x with
  | (.ok v r, n) => ((f v r).1, n ++ (f v r).2)
  | (.err, n) => (.err, n)
  | (.panic, n) => (.panic, n)
  | (.div, n) => (.div, n)

/-- `Parser.bind`, with events. -/
def TP.bind {α β : Type} (p : TP α) (f : α → TP β) : TP β := fun s => andThen (p s) f

instance : Monad TP where
  pure v := free (Parser.pure v)
  bind := TP.bind

/-- nom `alt!`: the events of an alternative that fails have happened. -/
def alt {α : Type} (p q : TP α) : TP α := fun s =>
  match p s with
  | (.err, n) => ((q s).1, n ++ (q s).2)
  | x => x

@[inherit_doc] local infixr:20 " </> " => alt

/-- nom `map!`. -/
def pmap {α β : Type} (p : TP α) (f : α → β) : TP β := do
  let v ← p
  pure (f v)

/-- nom `opt!`. -/
def opt {α : Type} (p : TP α) : TP (Option α) := pmap p some </> pure none

/-- nom `preceded!`. -/
def preceded {α β : Type} (p : TP α) (q : TP β) : TP β := do
  let _ ← p
  q

/-- nom `terminated!`. -/
def terminated {α β : Type} (p : TP α) (q : TP β) : TP α := do
  let v ← p
  let _ ← q
  pure v

/-- nom `delimited!`. -/
def delimited {α β γ : Type} (p : TP α) (q : TP β) (r : TP γ) : TP β := do
  let _ ← p
  let v ← q
  let _ ← r
  pure v

/-- nom `separated_pair!`. -/
def separatedPair {α β γ : Type} (p : TP α) (sep : TP γ) (q : TP β) : TP (α × β) := do
  let a ← p
  let _ ← sep
  let b ← q
  pure (a, b)

/-- The loop of nom `many0!`. -/
def many0Loop {α : Type} (p : TP α) : Nat → TP (List α)
  | 0 => free fun _ => .div
  | n + 1 => fun s =>
    match p s with
    | (.err, k) => (.ok [] s, k)
    | (.panic, k) => (.panic, k)
    | (.div, k) => (.div, k)
    | (.ok v r, k) =>
      if r = s then (.ok [] s, k)
      else andThen (.ok v r, k) fun v => do
        let vs ← many0Loop p n
        pure (v :: vs)

/-- nom `many0!`. -/
def many0 {α : Type} (p : TP α) : TP (List α) := fun s => many0Loop p (s.length + 1) s

/-- The loop of nom `separated_list!`. -/
def sepLoop {α β : Type} (sep : TP β) (p : TP α) : Nat → TP (List α)
  | 0 => free fun _ => .div
  | n + 1 => fun s =>
    match sep s with
    | (.err, k) => (.ok [] s, k)
    | (.panic, k) => (.panic, k)
    | (.div, k) => (.div, k)
    | (.ok _ s2, k) =>
      if s2.length = s.length then (.ok [] s, k)
      else match p s2 with
        | (.err, l) => (.ok [] s, k ++ l)
        | (.panic, l) => (.panic, k ++ l)
        | (.div, l) => (.div, k ++ l)
        | (.ok v s3, l) =>
          if s3.length = s2.length then (.ok [] s, k ++ l)
          else andThen (.ok v s3, k ++ l) fun v => do
            let vs ← sepLoop sep p n
            pure (v :: vs)

/-- nom `separated_nonempty_list!`. -/
def sepNonemptyList {α β : Type} (sep : TP β) (p : TP α) : TP (List α) := fun s =>
  andThen (p s) fun v r =>
    if r.length = s.length then (.err, [])
    else (do
      let vs ← sepLoop sep p (r.length + 1)
      pure (v :: vs) : TP (List α)) r

/-- nom `separated_list!`. -/
def sepList {α β : Type} (sep : TP β) (p : TP α) : TP (List α) := fun s =>
  match p s with
  | (.err, k) => (.ok [] s, k)
  | (.panic, k) => (.panic, k)
  | (.div, k) => (.div, k)
  | (.ok v r, k) =>
    if r.length = s.length then (.err, k)
    else andThen (.ok v r, k) fun v => do
      let vs ← sepLoop sep p (r.length + 1)
      pure (v :: vs)

/-- Records a call of `p`. -/
def mark {α : Type} (e : Event) (p : TP α) : TP α := fun s => ((p s).1, e :: (p s).2)

/-! ### Types -/

/-- `type_` and `type_annotation`, as parameters. -/
structure TyTRec where
  type_ : Nat → TP Ty
  typeAnnotation : Nat → TP Ty

/-- src/ast/type_/mod.rs:24-40 `type_tuple`. -/
def typeTuple (self : TyTRec) (indentation : Nat) : TP Ty :=
  pmap
    (delimited
      (preceded (free (char '(')) (opt (free (gap indentation .GTE))))
      (sepList (free (commaSep indentation)) (self.type_ indentation))
      (terminated (opt (free (gap indentation .GTE))) (free (char ')'))))
    .TypeTuple

/-- src/ast/type_/mod.rs:42-51 `type_record_pair`. -/
def typeRecordPair (self : TyTRec) (indentation : Nat) : TP (Name × Ty) := do
  let name ← free loName
  let _ ← opt (free (gap indentation .GTE))
  let _ ← free (char ':')
  let _ ← opt (free (gap indentation .GTE))
  let t ← self.typeAnnotation indentation
  pure (name, t)

/-- src/ast/type_/mod.rs:53-62 `type_record_pairs`. -/
def typeRecordPairs (self : TyTRec) (indentation : Nat) : TP (List (Name × Ty)) :=
  sepList (free (commaSep indentation)) (typeRecordPair self indentation)

/-- src/ast/type_/mod.rs:64-79 `type_record_constructor`. -/
def typeRecordConstructor (self : TyTRec) (indentation : Nat) : TP Ty :=
  delimited
    (free (char '{'))
    (do
      let _ ← free (gap indentation .GTE)
      let var ← free typeVariable
      let _ ← free (gap indentation .GTE)
      let _ ← free (char '|')
      let _ ← free (gap indentation .GTE)
      let record_pairs ← typeRecordPairs self indentation
      let _ ← free (gap indentation .GTE)
      pure (.TypeRecordConstructor var record_pairs))
    (free (char '}'))

/-- src/ast/type_/mod.rs:81-90 `type_record`. -/
def typeRecord (self : TyTRec) (indentation : Nat) : TP Ty :=
  delimited
    (preceded (free (char '{')) (opt (free (gap indentation .GTE))))
    (pmap (typeRecordPairs self indentation) .TypeRecord)
    (terminated (opt (free (gap indentation .GTE))) (free (char '}')))

/-- The parenthesised alternative of src/ast/type_/mod.rs:99-103 and 131-135. -/
def typeParens (self : TyTRec) (indentation : Nat) : TP Ty :=
  delimited
    (preceded (free (char '(')) (opt (free (gap indentation .GTE))))
    (self.typeAnnotation indentation)
    (terminated (opt (free (gap indentation .GTE))) (free (char ')')))

/-- src/ast/type_/mod.rs:92-105 `type_parameter`. -/
def typeParameter (self : TyTRec) (indentation : Nat) : TP Ty :=
  free typeVariable
    </> free typeConstant
    </> typeRecordConstructor self indentation
    </> typeRecord self indentation
    </> typeTuple self indentation
    </> typeParens self indentation

/-- src/ast/type_/mod.rs:113-119: one argument of a type constructor. -/
def typeArg (self : TyTRec) (indentation : Nat) : TP Ty := do
  let new_indent ← free (gap indentation .GT)
  let type_ ← typeParameter self new_indent
  pure type_

/-- src/ast/type_/mod.rs:107-122 `type_constructor`. -/
def typeConstructorF (self : TyTRec) (indentation : Nat) : TP Ty := do
  let first ← free (ElmParser.sepNonemptyList (char '.') upName)
  let second ← many0 (typeArg self indentation)
  pure (.TypeConstructor first second)

/-- src/ast/type_/mod.rs:124-137 `type_`. -/
def typeF (self : TyTRec) (indentation : Nat) : TP Ty := mark .ty <|
  typeConstructorF self indentation
    </> free typeVariable
    </> typeRecordConstructor self indentation
    </> typeRecord self indentation
    </> typeTuple self indentation
    </> typeParens self indentation

/-- src/ast/type_/mod.rs:139-171 `type_annotation`. -/
def typeAnnotationF (self : TyTRec) (indentation : Nat) : TP Ty := do
  let v ← sepNonemptyList (free arrowSep) (typeF self indentation)
  if v.isEmpty then free Parser.fail
  else if v.length == 1 then free (index v 0)
  else match buildArrows v.reverse with
    | some app => pure app
    | none => free Parser.fail

/-- Nesting budget. -/
def tyN : Nat → TyTRec
  | 0 => { type_ := fun _ => free fun _ => .div, typeAnnotation := fun _ => free fun _ => .div }
  | n + 1 => { type_ := typeF (tyN n), typeAnnotation := typeAnnotationF (tyN n) }

/-- With a budget of the input length plus one. -/
def tyRec : TyTRec where
  type_ ind s := (tyN (s.length + 1)).type_ ind s
  typeAnnotation ind s := (tyN (s.length + 1)).typeAnnotation ind s

/-- src/ast/type_/mod.rs:124 `pub type_`. -/
def type_ (indentation : Nat) : TP Ty := tyRec.type_ indentation
/-- src/ast/type_/mod.rs:139 `pub type_annotation`. -/
def typeAnnotation (indentation : Nat) : TP Ty := tyRec.typeAnnotation indentation
/-- src/ast/type_/mod.rs:107 `pub type_constructor`. -/
def typeConstructor (indentation : Nat) : TP Ty := typeConstructorF tyRec indentation

/-! ### Expressions -/

/-- `expression`, as a parameter. -/
abbrev TRec := Nat → TP Expr

/-- src/ast/expression/character.rs:11-21: `\xHH`; the closure of `map_res!` prints what it is given. -/
def hexChar : TP Char := do
  let r ← free (ElmParser.preceded (tag c!"\\x") (ElmParser.pmap (take 2) fromHex))
  let _ ← emit (.hex r)
  match r.map Char.ofNat with
  | some c => pure c
  | none => free Parser.fail

/-- src/ast/expression/character.rs:8-24 `character_content`. -/
def characterContent : TP Char := hexChar </> free anychar

/-- src/ast/expression/character.rs:26-33 `character`. -/
def character : TP Expr :=
  pmap (delimited (free (char '\'')) characterContent (free (char '\''))) .Character

/-- src/ast/expression/mod.rs:30-46 `tuple`. -/
def tuple (self : TRec) (indentation : Nat) : TP Expr :=
  pmap
    (delimited
      (free (char '('))
      (sepList (free (char ',')) (delimited (free multispace0) (self indentation) (free multispace0)))
      (free (char ')')))
    .Tuple

/-- src/ast/expression/mod.rs:48-67 `list`. -/
def list (self : TRec) (indentation : Nat) : TP Expr :=
  pmap
    (delimited
      (preceded (free (char '[')) (opt (free (gap indentation .GTE))))
      (opt (sepList (free (commaSep indentation)) (self indentation)))
      (terminated (opt (free (gap indentation .GTE))) (free (char ']'))))
    (fun o => .List (o.getD []))

/-- src/ast/expression/mod.rs:79-87 one field of a record. -/
def recordField (self : TRec) (indentation : Nat) : TP (Name × Expr) :=
  separatedPair
    (free loName)
    (delimited (opt (free (gap indentation .GTE))) (free (char '=')) (opt (free (gap indentation .GTE))))
    (self indentation)

/-- src/ast/expression/mod.rs:69-93 `record`. -/
def record (self : TRec) (indentation : Nat) : TP Expr :=
  pmap
    (delimited
      (preceded (free (char '{')) (opt (free (gap indentation .GTE))))
      (sepList (free (commaSep indentation)) (recordField self indentation))
      (terminated (opt (free (gap indentation .GTE))) (free (char '}'))))
    .Record

/-- src/ast/expression/mod.rs:128-135 one field of a record update. -/
def updateField (self : TRec) (indentation : Nat) : TP (Name × Expr) := do
  let name ← free loName
  let _ ← free multispace0
  let _ ← free (char '=')
  let _ ← free multispace0
  let e ← self indentation
  pure (name, e)

/-- src/ast/expression/mod.rs:114-141 `record_update`. -/
def recordUpdate (self : TRec) (indentation : Nat) : TP Expr :=
  delimited
    (preceded (free (char '{')) (free (optGap indentation .GTE)))
    (do
      let name ← free loName
      let _ ← free (optGap indentation .GTE)
      let _ ← free (char '|')
      let _ ← free multispace0
      let pairs ← sepList
        (delimited (free (optGap indentation .GTE)) (free (char ',')) (free (optGap indentation .GTE)))
        (updateField self indentation)
      pure (.RecordUpdate name pairs))
    (terminated (free (gap indentation .GTE)) (free (char '}')))

/-- src/ast/expression/mod.rs:143-149 `parens`. -/
def parens (self : TRec) (indentation : Nat) : TP Expr :=
  delimited (free (char '(')) (self indentation) (free (char ')'))

/-- src/ast/expression/mod.rs:153-169 `term`. -/
def termF (self : TRec) (indentation : Nat) : TP Expr :=
  (free access)
    </> (free variableP)
    </> (free accessFunction)
    </> (free string)
    </> (free float)
    </> (free integer)
    </> character
    </> parens self indentation
    </> list self indentation
    </> tuple self indentation
    </> recordUpdate self indentation
    </> record self indentation
    </> (free simplifiedRecord)

/-- src/ast/expression/mod.rs:173-183 `lambda`. -/
def lambda (self : TRec) (indentation : Nat) : TP Expr := do
  let _ ← free (char '\\')
  let args ← sepNonemptyList (free space1) (termF self indentation)
  let _ ← free (gap indentation .GTE)
  let _ ← free (tag c!"->")
  let new_indent ← free (gap indentation .GTE)
  let body ← self new_indent
  pure (.Lambda args body)

/-- src/ast/expression/mod.rs:187-208 `application_or_var`.  The indexings
`v[0]`, `v[1]` are checked. -/
def applicationOrVar (self : TRec) (indentation : Nat) : TP Expr := do
  let v ← sepList (free (gap indentation .GT)) (termF self indentation)
  if v.isEmpty then free Parser.fail
  else if v.length == 1 then free (index v 0)
  else do
    let a ← free (index v 0)
    let b ← free (index v 1)
    pure ((v.drop 2).foldl (fun app entry => .Application app entry) (.Application a b))

/-- src/ast/expression/function.rs:10-22 `function_signature`. -/
def functionSignature (indentation : Nat) : TP FunctionSignature := do
  let name ← free functionNameOrOp
  let _ ← free spaces
  let _ ← free (char ':')
  let new_indent ← free (gap indentation .GT)
  let t ← typeAnnotation new_indent
  pure { name := name, type_ := t }

/-- src/ast/expression/function.rs:24-37 `function_definition`. -/
def functionDefinitionF (self : TRec) (indentation : Nat) : TP FunctionDefinition := do
  let name ← free functionNameOrOp
  let args ← many0 (preceded (free spaces) (termF self indentation))
  let _ ← free spaces
  let _ ← free (char '=')
  let new_indent ← free (gap indentation .GT)
  let body ← self new_indent
  pure (.mk name args body)

/-- src/ast/expression/function.rs:39-50 `function`. -/
def functionF (self : TRec) (indentation : Nat) : TP Function := do
  let signature ← opt (terminated (functionSignature indentation) (free (newLineAndSameIndent indentation)))
  let definition ← functionDefinitionF self indentation
  pure (.mk signature definition)

/-- src/ast/expression/mod.rs:212-219 `let_binding_target`. -/
def letBindingTarget (self : TRec) (indentation : Nat) : TP Expr :=
  (free variableP)
    </> list self indentation
    </> tuple self indentation
    </> (free simplifiedRecord)

/-- src/ast/expression/mod.rs:221-230 `let_binding`. -/
def letBinding (self : TRec) (indentation : Nat) : TP LetEntry := do
  let binding ← letBindingTarget self indentation
  let _ ← free (gap indentation .GTE)
  let _ ← free (char '=')
  let new_indent ← free (gap indentation .GTE)
  let e ← self new_indent
  pure (.LetBinding binding e)

/-- src/ast/expression/mod.rs:235-238 one entry of a `let`. -/
def letEntry (self : TRec) (indentation : Nat) : TP LetEntry :=
  letBinding self indentation </> pmap (functionF self indentation) .LetFunction

/-- src/ast/expression/mod.rs:232-240 `let_bindings`. -/
def letBindings (self : TRec) (indentation : Nat) : TP (List LetEntry) :=
  sepNonemptyList (free (gap indentation .EQ)) (letEntry self indentation)

/-- src/ast/expression/mod.rs:242-253 `let_expression`. -/
def letExpression (self : TRec) (indentation : Nat) : TP Expr := do
  let _ ← free (tag c!"let")
  let assignment_indentation ← free (gap indentation .GTE)
  let assignments ← letBindings self assignment_indentation
  let _ ← free (gap indentation .GTE)
  let _ ← free (tag c!"in")
  let _ ← free (gap indentation .GTE)
  let e ← self indentation
  pure (.Let assignments e)

/-- src/ast/expression/mod.rs:257-266 `case`. -/
def caseBranch (self : TRec) (indentation : Nat) : TP (Expr × Expr) := do
  let matcher ← self indentation
  let _ ← free (gap indentation .GTE)
  let _ ← free (tag c!"->")
  let new_indent ← free (gap indentation .GTE)
  let e ← self new_indent
  pure (matcher, e)

/-- src/ast/expression/mod.rs:268-273 `cases`. -/
def casesP (self : TRec) (indentation : Nat) : TP (List (Expr × Expr)) :=
  sepNonemptyList (free (gap indentation .EQ)) (caseBranch self indentation)

/-- src/ast/expression/mod.rs:275-286 `case_expression`. -/
def caseExpression (self : TRec) (indentation : Nat) : TP Expr := do
  let _ ← free (tag c!"case")
  let _ ← free (gap indentation .GTE)
  let e ← self indentation
  let _ ← free (gap indentation .GTE)
  let _ ← free (tag c!"of")
  let new_indent ← free (gap indentation .GTE)
  let cs ← casesP self new_indent
  pure (.Case e cs)

/-- src/ast/expression/mod.rs:290-305 `if_expression`. -/
def ifExpression (self : TRec) (indentation : Nat) : TP Expr := do
  let _ ← free (tag c!"if")
  let _ ← free (gap indentation .GTE)
  let test ← self indentation
  let _ ← free (gap indentation .GTE)
  let _ ← free (tag c!"then")
  let new_if_indent ← free (gap indentation .GTE)
  let if_exp ← self new_if_indent
  let _ ← free (gap indentation .GTE)
  let _ ← free (tag c!"else")
  let new_else_indent ← free (gap indentation .GTE)
  let else_exp ← self new_else_indent
  pure (.If test if_exp else_exp)

/-- src/ast/expression/mod.rs:324-330 the operator part of `binary`. -/
def binaryTail (self : TRec) (indentation : Nat) : TP (Expr × Expr) := do
  let _ ← free (gap indentation .GTE)
  let op ← free operatorOrAs
  let _ ← free multispace
  let e ← self indentation
  pure (op, e)

/-- src/ast/expression/mod.rs:319-341 `binary`. -/
def binary (self : TRec) (indentation : Nat) : TP Expr := do
  let a ← applicationOrVar self indentation
  let operator_exp ← opt (binaryTail self indentation)
  pure (match operator_exp with
    | some (op, exp) => .BinOp op a exp
    | none => a)

/-- src/ast/expression/mod.rs:343-351 `expression`. -/
def expressionF (self : TRec) (indentation : Nat) : TP Expr :=
  binary self indentation
    </> letExpression self indentation
    </> caseExpression self indentation
    </> ifExpression self indentation
    </> lambda self indentation

/-- Nesting budget. -/
def exprN : Nat → TRec
  | 0 => fun _ => free fun _ => .div
  | n + 1 => fun indentation => mark .call (expressionF (exprN n) indentation)

/-- src/ast/expression/mod.rs:343 `pub expression`: with a budget of the input
length plus one. -/
def expression : TRec := fun indentation s => exprN (s.length + 1) indentation s

/-- src/ast/expression/mod.rs:153 `pub term`. -/
def term (indentation : Nat) : TP Expr := termF expression indentation

/-- src/ast/expression/function.rs:39 `pub function`. -/
def function (indentation : Nat) : TP Function := functionF expression indentation

/-! ### Statements -/

/-- src/ast/statement/type_declaration.rs:7-20 `type_alias_declaration`. -/
def typeAliasDeclaration : TP Statement := do
  let _ ← free (tag c!"type")
  let _ ← free spaces
  let _ ← free (tag c!"alias")
  let _ ← free spaces
  let name ← type_ 0
  let _ ← free spaces
  let _ ← free (char '=')
  let _ ← free (gap 1 .GTE)
  let declaration ← typeAnnotation 1
  pure (.TypeAliasDeclaration name declaration)

/-- src/ast/statement/type_declaration.rs:22-36 `type_declaration`. -/
def typeDeclaration (indentation : Nat) : TP Statement := do
  let _ ← free (tag c!"type")
  let _ ← free spaces
  let name ← type_ indentation
  let new_indent ← free (gap 0 .GT)
  let _ ← free (char '=')
  let _ ← free (gap new_indent .GTE)
  let definition ← sepNonemptyList
    (free (ElmParser.delimited (gap new_indent .GTE) (char '|') spaces))
    (typeConstructor new_indent)
  pure (.TypeDeclaration name definition)

/-- src/ast/statement/port.rs:8-19 `port_type_declaration`. -/
def portTypeDeclaration : TP Statement := do
  let _ ← free (tag c!"port")
  let _ ← free spaces
  let name ← free loName
  let _ ← free spaces
  let _ ← free (char ':')
  let new_indent ← free (gap 0 .GT)
  let t ← typeAnnotation new_indent
  pure (.PortTypeDeclaration name t)

/-- src/ast/statement/port.rs:21-33 `port_declaration`. -/
def portDeclaration : TP Statement := do
  let _ ← free (tag c!"port")
  let _ ← free spaces
  let name ← free loName
  let args ← free (ElmParser.many0 (ElmParser.preceded spaces loName))
  let _ ← free spaces
  let _ ← free (char '=')
  let new_indent ← free (gap 0 .GT)
  let exp ← expression new_indent
  pure (.PortDeclaration name args exp)

/-- src/ast/statement/mod.rs:25-39 `statement`. -/
def statement : TP Statement :=
  free portModuleDeclaration
    </> free effectModuleDeclaration
    </> free moduleDeclaration
    </> free importStatement
    </> typeAliasDeclaration
    </> typeDeclaration 0
    </> portTypeDeclaration
    </> portDeclaration
    </> pmap (function 0) .Function
    </> free infixDeclaration
    </> free comment

/-- src/ast/statement/mod.rs:41-50 `statements`. -/
def statements : TP (List Statement) :=
  delimited (free multispace0) (sepNonemptyList (free multispace0) statement) (free multispace0)

/-- src/ast/mod.rs:12-14 `file`. -/
def file : TP (List Statement) := terminated statements (free eof)

/-! ### The binaries -/

/-- One call of `println!`, by the parser or by a binary. -/
inductive Line where
  /-- src/ast/expression/character.rs:18 -/
  | hex (r : Option Nat)
  | msg (m : Msg)

/-- What a run prints, and how it ends. -/
structure Output where
  out : List Line
  exit : Exit

/-- The lines among the events. -/
def lines (es : List Event) : List Line :=
  es.filterMap fun
    | .call => none
    | .ty => none
    | .hex r => some (.hex r)

/-- src/check.rs:35-60 `main`. -/
def checkMain (read : Str → Read) (args : List Str) : Output :=
  if args.length < 2 then
    match args with
    | [] => ⟨[], .panicked⟩
    | prog :: _ => ⟨[.msg (.usage prog)], .code 1⟩
  else
    match args[1]? with
    | none => ⟨[], .panicked⟩
    | some filename =>
      match read filename with
      | .failed => ⟨[], .panicked⟩
      | .contents contents =>
        match file contents with
        | (.ok ast _, es) => ⟨lines es ++ [.msg (.names (getImportedNames ast))], .code 0⟩
        | (.err, es) => ⟨lines es ++ [.msg (.error (failure contents))], .code 0⟩
        | (.panic, es) => ⟨lines es, .panicked⟩
        | (.div, es) => ⟨lines es, .diverged⟩

/-- src/dump.rs:20-45 `dump_file`: the lines printed, and how the program ends if it does. -/
def dumpFile (read : Str → Read) (filename : Str) (quiet : Bool) : List Line × Option Exit :=
  match read filename with
  | .failed => ([], some .panicked)
  | .contents contents =>
    match file contents with
    | (.ok ast _, es) => (lines es ++ [.msg (if quiet then .parsed filename else .tree ast)], none)
    | (.err, es) => (lines es ++ [.msg (if quiet then .failed filename else .error (failure contents))], none)
    | (.panic, es) => (lines es, some .panicked)
    | (.div, es) => (lines es, some .diverged)

/-- src/dump.rs:47-66 `dump_directory`. -/
def dumpDirectory (read : Str → Read) (quiet : Bool) : List (Option Entry) → Output
  | [] => ⟨[], .code 0⟩
  | none :: _ => ⟨[], .code 0⟩
  | some ent :: walk =>
    if ent.isDir then dumpDirectory read quiet walk
    else match ent.path with
      | none => dumpDirectory read quiet walk
      | some path =>
        if extension path ≠ some c!"elm" then dumpDirectory read quiet walk
        else match dumpFile read path quiet with
          | (ls, some e) => ⟨ls, e⟩
          | (ls, none) =>
            let o := dumpDirectory read quiet walk
            ⟨ls ++ o.out, o.exit⟩

/-- src/dump.rs:68-91 `main`. -/
def dumpMain (read : Str → Read) (isDir : Str → Option Bool) (walk : Str → List (Option Entry))
    (path : Option Str) (quiet : Bool) : Output :=
  match path with
  | none => ⟨[], .code 0⟩
  | some path =>
    match isDir path with
    | none => ⟨[], .panicked⟩
    | some true => dumpDirectory read quiet (walk path)
    | some false =>
      match dumpFile read path quiet with
      | (ls, some e) => ⟨ls, e⟩
      | (ls, none) => ⟨ls, .code 0⟩

/-- One `println!`.  For the parser's: `{:?}` of a `Result<u8, ParseIntError>`.  Of the kinds of a `ParseIntError` only
`InvalidDigit` arises: two characters are neither empty nor too large a number. -/
def lineText (st : Style) (error : Str) : Line → Str
  | .hex (some n) => c!"Ok(" ++ natText 10 n ++ c!")\n"
  | .hex none => c!"Err(ParseIntError { kind: InvalidDigit })\n"
  | .msg m => msgText st error m

/-- The standard output of a run. -/
def stdout (st : Style) (error : Str) (o : Output) : Str := o.out.flatMap (lineText st error)

end ElmParser.Trace
