import Verif.Model.Nom

/-! The abstract syntax tree, src/ast/*/core.rs and src/ast/binop.rs. -/
namespace ElmParser

/-- src/ast/helpers.rs:3 `pub type Name = String`. -/
abbrev Name := Str

/-- src/ast/binop.rs:1-6. -/
inductive Assoc where
  | N | L | R
  deriving DecidableEq, Repr

/-- src/ast/type_/core.rs:3-11 (`Type`). -/
inductive Ty where
  | TypeConstructor (name : List Name) (args : List Ty)
  | TypeVariable (name : Name)
  | TypeRecordConstructor (base : Ty) (fields : List (Name × Ty))
  | TypeRecord (fields : List (Name × Ty))
  | TypeTuple (items : List Ty)
  | TypeApplication (arg res : Ty)
  deriving Repr

/-- src/ast/expression/core.rs:4-8. -/
structure FunctionSignature where
  name : Name
  type_ : Ty
  deriving Repr

mutual
/-- src/ast/expression/core.rs:29-48 (`Expression`). -/
inductive Expr where
  | Character (c : Char)
  | String (s : Str)
  | Integer (s : Str)
  | Float (s : Str)
  | Variable (name : List Name)
  | List (items : List Expr)
  | Tuple (items : List Expr)
  | Access (e : Expr) (names : List Name)
  | AccessFunction (name : Name)
  | Record (fields : List (Name × Expr))
  | RecordUpdate (name : Name) (fields : List (Name × Expr))
  | If (test thn els : Expr)
  | Let (entries : List LetEntry) (body : Expr)
  | Case (scrutinee : Expr) (cases : List (Expr × Expr))
  | Lambda (args : List Expr) (body : Expr)
  | Application (f x : Expr)
  | BinOp (op l r : Expr)
  deriving Repr

/-- src/ast/expression/core.rs:10-15. -/
inductive FunctionDefinition where
  | mk (name : Name) (args : List Expr) (body : Expr)
  deriving Repr

/-- src/ast/expression/core.rs:17-21. -/
inductive Function where
  | mk (signature : Option FunctionSignature) (definition : FunctionDefinition)
  deriving Repr

/-- src/ast/expression/core.rs:23-27. -/
inductive LetEntry where
  | LetFunction (f : Function)
  | LetBinding (target value : Expr)
  deriving Repr
end

/-- src/ast/statement/core.rs:7-13. -/
inductive ExportSet where
  | AllExport
  | SubsetExport (items : List ExportSet)
  | FunctionExport (name : Name)
  | TypeExport (name : Name) (constructors : Option ExportSet)
  deriving Repr

/-- src/ast/statement/core.rs:15-28. -/
inductive Statement where
  | ModuleDeclaration (name : List Name) (exports : ExportSet)
  | PortModuleDeclaration (name : List Name) (exports : ExportSet)
  | EffectModuleDeclaration (name : List Name) (wher : List (Name × Name)) (exports : ExportSet)
  | ImportStatement (name : List Name) (alias : Option Name) (exposing : Option ExportSet)
  | TypeAliasDeclaration (name decl : Ty)
  | TypeDeclaration (name : Ty) (constructors : List Ty)
  | PortTypeDeclaration (name : Name) (type_ : Ty)
  | PortDeclaration (name : Name) (args : List Name) (body : Expr)
  | Function (f : Function)
  | InfixDeclaration (assoc : Assoc) (prec : Int) (name : Name)
  | Comment (text : Str)
  deriving Repr

end ElmParser
