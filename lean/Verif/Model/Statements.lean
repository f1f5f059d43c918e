import Verif.Model.Exprs

/-! Model of src/ast/statement/*.rs and src/ast/mod.rs. -/
namespace ElmParser

/-- src/ast/statement/comment.rs:5-10 `single_line_comment`. -/
def lineCommentStatement : Parser Statement := do
  let v ← preceded (tag c!"--") (reMatches reLine)
  let t ← index v 0
  pure (.Comment t)

/-- src/ast/statement/comment.rs:12-20 `multi_line_comment`. -/
def multiLineComment : Parser Statement :=
  pmap (preceded (tag c!"{-") (takeUntilAndConsume c!"-}")) .Comment

/-- src/ast/statement/comment.rs:22-27 `comment`. -/
def comment : Parser Statement := lineCommentStatement </> multiLineComment

/-- src/ast/statement/export.rs:8-10 `all_export`. -/
def allExport : Parser ExportSet := pmap (tag c!"..") (fun _ => .AllExport)

/-- src/ast/statement/export.rs:12-20 `function_export`. -/
def functionExport : Parser ExportSet :=
  pmap (functionName </> delimited (char '(') operator (char ')')) .FunctionExport

/-- src/ast/statement/export.rs:22-30 `constructor_subset_exports`. -/
def constructorSubsetExports : Parser ExportSet :=
  pmap (sepNonemptyList (tag c!", ") (pmap upName .FunctionExport)) .SubsetExport

/-- src/ast/statement/export.rs:32-46 `constructor_exports`. -/
def constructorExports : Parser (Option ExportSet) :=
  opt (delimited (char '(') (allExport </> constructorSubsetExports) (char ')'))

/-- src/ast/statement/export.rs:48-54 `type_export`. -/
def typeExport : Parser ExportSet := do
  let name ← upName
  let constructors ← constructorExports
  pure (.TypeExport name constructors)

/-- src/ast/statement/export.rs:56-67 `subset_export`. -/
def subsetExport : Parser ExportSet :=
  pmap
    (sepNonemptyList
      (delimited (opt spacesAndNewlines) (char ',') (opt spacesAndNewlines))
      (functionExport </> typeExport))
    .SubsetExport

/-- src/ast/statement/export.rs:69-78 `exports`. -/
def exports : Parser ExportSet :=
  delimited
    (preceded (char '(') (opt (gap 0 .GTE)))
    (allExport </> subsetExport)
    (terminated (opt (gap 0 .GTE)) (char ')'))

/-- src/ast/statement/module.rs:7-20 `port_module_declaration`. -/
def portModuleDeclaration : Parser Statement := do
  let _ ← tag c!"port"
  let _ ← gap 0 .GT
  let _ ← tag c!"module"
  let _ ← gap 0 .GT
  let name ← moduleName
  let _ ← gap 0 .GT
  let _ ← tag c!"exposing"
  let _ ← gap 0 .GT
  let exps ← exports
  pure (.PortModuleDeclaration name exps)

/-- src/ast/statement/module.rs:36-43 one `name = Type` of an effect module. -/
def effectField : Parser (Name × Name) := do
  let lname ← loName
  let _ ← opt spaces
  let _ ← char '='
  let _ ← opt spaces
  let uname ← upName
  pure (lname, uname)

/-- src/ast/statement/module.rs:22-53 `effect_module_declaration`. -/
def effectModuleDeclaration : Parser Statement := do
  let _ ← tag c!"effect"
  let _ ← gap 0 .GT
  let _ ← tag c!"module"
  let _ ← gap 0 .GT
  let name ← moduleName
  let _ ← gap 0 .GT
  let _ ← tag c!"where"
  let _ ← gap 0 .GT
  let where_ ← delimited (char '{') (sepList (tag c!", ") effectField) (char '}')
  let _ ← gap 0 .GT
  let _ ← tag c!"exposing"
  let _ ← gap 0 .GT
  let exps ← exports
  pure (.EffectModuleDeclaration name where_ exps)

/-- src/ast/statement/module.rs:55-66 `module_declaration`. -/
def moduleDeclaration : Parser Statement := do
  let _ ← tag c!"module"
  let _ ← gap 0 .GT
  let name ← moduleName
  let _ ← gap 0 .GT
  let _ ← tag c!"exposing"
  let _ ← gap 0 .GT
  let exps ← exports
  pure (.ModuleDeclaration name exps)

/-- src/ast/statement/import.rs:7-26 `import_statement`. -/
def importStatement : Parser Statement := do
  let _ ← tag c!"import"
  let _ ← spaces
  let name ← moduleName
  let alias ← opt (preceded (delimited spaces (tag c!"as") spaces) upName)
  let exposing ← opt (preceded (delimited spaces (tag c!"exposing") spaces) exports)
  pure (.ImportStatement name alias exposing)

/-- src/ast/statement/type_declaration.rs:7-20 `type_alias_declaration`. -/
def typeAliasDeclaration : Parser Statement := do
  let _ ← tag c!"type"
  let _ ← spaces
  let _ ← tag c!"alias"
  let _ ← spaces
  let name ← type_ 0
  let _ ← spaces
  let _ ← char '='
  let _ ← gap 1 .GTE
  let declaration ← typeAnnotation 1
  pure (.TypeAliasDeclaration name declaration)

/-- src/ast/statement/type_declaration.rs:22-36 `type_declaration`. -/
def typeDeclaration (indentation : Nat) : Parser Statement := do
  let _ ← tag c!"type"
  let _ ← spaces
  let name ← type_ indentation
  let new_indent ← gap 0 .GT
  let _ ← char '='
  let _ ← gap new_indent .GTE
  let definition ← sepNonemptyList
    (delimited (gap new_indent .GTE) (char '|') spaces)
    (typeConstructor new_indent)
  pure (.TypeDeclaration name definition)

/-- src/ast/statement/port.rs:8-19 `port_type_declaration`. -/
def portTypeDeclaration : Parser Statement := do
  let _ ← tag c!"port"
  let _ ← spaces
  let name ← loName
  let _ ← spaces
  let _ ← char ':'
  let new_indent ← gap 0 .GT
  let t ← typeAnnotation new_indent
  pure (.PortTypeDeclaration name t)

/-- src/ast/statement/port.rs:21-33 `port_declaration`. -/
def portDeclaration : Parser Statement := do
  let _ ← tag c!"port"
  let _ ← spaces
  let name ← loName
  let args ← many0 (preceded spaces loName)
  let _ ← spaces
  let _ ← char '='
  let new_indent ← gap 0 .GT
  let exp ← expression new_indent
  pure (.PortDeclaration name args exp)

/-- Rust `str::parse::<i64>()` on a non-empty string of ASCII digits: the
decimal value, or an error when it exceeds `i64::MAX`. -/
def parseI64 (s : Str) : Option Int :=
  let n := s.foldl (fun acc c => 10 * acc + (c.toNat - '0'.toNat)) 0
  if n ≤ 9223372036854775807 then some (n : Int) else none

/-- src/ast/statement/infix.rs:8-24 `infix_declaration`. -/
def infixDeclaration : Parser Statement := do
  let type_ ← value Assoc.L (tag c!"infixl")
    </> value Assoc.R (tag c!"infixr")
    </> value Assoc.N (tag c!"infix")
  let _ ← spaces
  let value ← mapRes digit parseI64
  let _ ← spaces
  let name ← loName </> operator
  pure (.InfixDeclaration type_ value name)

/-- src/ast/statement/mod.rs:25-39 `statement`. -/
def statement : Parser Statement :=
  portModuleDeclaration
    </> effectModuleDeclaration
    </> moduleDeclaration
    </> importStatement
    </> typeAliasDeclaration
    </> typeDeclaration 0
    </> portTypeDeclaration
    </> portDeclaration
    </> pmap (function 0) .Function
    </> infixDeclaration
    </> comment

/-- src/ast/statement/mod.rs:41-50 `statements`. -/
def statements : Parser (List Statement) :=
  delimited multispace0 (sepNonemptyList multispace0 statement) multispace0

/-- src/ast/mod.rs:12-14 `file`. -/
def file : Parser (List Statement) := terminated statements eof

end ElmParser
