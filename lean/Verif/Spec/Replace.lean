import Verif.Model.Ast

/-! Trees with a hole. -/
namespace ElmParser.Spec

mutual
/-- An expression in which one part is left open. -/
inductive ExprCtx where
  | here
  | list (before : List Expr) (k : ExprCtx) (after : List Expr)
  | tuple (before : List Expr) (k : ExprCtx) (after : List Expr)
  | record (before : List (Name × Expr)) (n : Name) (k : ExprCtx) (after : List (Name × Expr))
  | update (r : Name) (before : List (Name × Expr)) (n : Name) (k : ExprCtx) (after : List (Name × Expr))
  | ifTest (k : ExprCtx) (b c : Expr)
  | ifThen (a : Expr) (k : ExprCtx) (c : Expr)
  | ifElse (a b : Expr) (k : ExprCtx)
  | lambdaArg (before : List Expr) (k : ExprCtx) (after : List Expr) (body : Expr)
  | lambdaBody (args : List Expr) (k : ExprCtx)
  | function (k : ExprCtx) (x : Expr)
  | argument (f : Expr) (k : ExprCtx)
  | left (o : Expr) (k : ExprCtx) (b : Expr)
  | right (o : Expr) (a : Expr) (k : ExprCtx)
  | letEntry (before : List LetEntry) (k : EntryCtx) (after : List LetEntry) (e : Expr)
  | letBody (ls : List LetEntry) (k : ExprCtx)
  | caseOf (k : ExprCtx) (bs : List (Expr × Expr))
  | caseBranch (e : Expr) (before : List (Expr × Expr)) (k : BranchCtx) (after : List (Expr × Expr))

/-- An entry of a `let` in which one part, which is not in the left side of a binding, is left open. -/
inductive EntryCtx where
  | binding (t : Expr) (k : ExprCtx)
  | body (sg : Option FunctionSignature) (n : Name) (args : List Expr) (k : ExprCtx)
  | arg (sg : Option FunctionSignature) (n : Name) (before : List Expr) (k : ExprCtx) (after : List Expr) (e : Expr)

/-- A branch of a `case` in which one part is left open. -/
inductive BranchCtx where
  | pattern (k : ExprCtx) (e : Expr)
  | body (p : Expr) (k : ExprCtx)
end

mutual
/-- The expression with `x` in the open place. -/
def ExprCtx.fill : ExprCtx → Expr → Expr
  | .here, x => x
  | .list b k a, x => .List (b ++ k.fill x :: a)
  | .tuple b k a, x => .Tuple (b ++ k.fill x :: a)
  | .record b n k a, x => .Record (b ++ (n, k.fill x) :: a)
  | .update r b n k a, x => .RecordUpdate r (b ++ (n, k.fill x) :: a)
  | .ifTest k b c, x => .If (k.fill x) b c
  | .ifThen a k c, x => .If a (k.fill x) c
  | .ifElse a b k, x => .If a b (k.fill x)
  | .lambdaArg b k a body, x => .Lambda (b ++ k.fill x :: a) body
  | .lambdaBody as k, x => .Lambda as (k.fill x)
  | .function k y, x => .Application (k.fill x) y
  | .argument f k, x => .Application f (k.fill x)
  | .left o k b, x => .BinOp o (k.fill x) b
  | .right o a k, x => .BinOp o a (k.fill x)
  | .letEntry b k a e, x => .Let (b ++ k.fill x :: a) e
  | .letBody ls k, x => .Let ls (k.fill x)
  | .caseOf k bs, x => .Case (k.fill x) bs
  | .caseBranch e b k a, x => .Case e (b ++ k.fill x :: a)

/-- The entry with `x` in the open place. -/
def EntryCtx.fill : EntryCtx → Expr → LetEntry
  | .binding t k, x => .LetBinding t (k.fill x)
  | .body sg n as k, x => .LetFunction (.mk sg (.mk n as (k.fill x)))
  | .arg sg n b k a e, x => .LetFunction (.mk sg (.mk n (b ++ k.fill x :: a) e))

/-- The branch with `x` in the open place. -/
def BranchCtx.fill : BranchCtx → Expr → Expr × Expr
  | .pattern k e, x => (k.fill x, e)
  | .body p k, x => (p, k.fill x)
end

mutual

/-- With `x` in the open place, no field around it is a variable with the name of the field: such a field may have been
written `{ a }`, so there is no text for its value alone. -/
def ExprCtx.Proper : ExprCtx → Expr → Prop
  | .here, _ => True
  | .record _ n k _, x => k.fill x ≠ .Variable [n] ∧ k.Proper x
  | .list _ k _, x | .tuple _ k _, x | .update _ _ _ k _, x | .ifTest k _ _, x | .ifThen _ k _, x | .ifElse _ _ k, x
  | .lambdaArg _ k _ _, x | .lambdaBody _ k, x | .function k _, x | .argument _ k, x | .left _ k _, x | .right _ _ k, x
  | .letBody _ k, x | .caseOf k _, x => k.Proper x
  | .letEntry _ k _ _, x => k.Proper x
  | .caseBranch _ _ k _, x => k.Proper x

@[inherit_doc ExprCtx.Proper]
def EntryCtx.Proper : EntryCtx → Expr → Prop
  | .binding _ k, x | .body _ _ _ k, x | .arg _ _ _ k _ _, x => k.Proper x

@[inherit_doc ExprCtx.Proper]
def BranchCtx.Proper : BranchCtx → Expr → Prop
  | .pattern k _, x | .body _ k, x => k.Proper x
end

/-- A declaration in which a part of an expression is left open. -/
inductive DeclCtx where
  /-- in the body of a function -/
  | body (sg : Option FunctionSignature) (n : Name) (args : List Expr) (k : ExprCtx)
  /-- in an argument of a function -/
  | arg (sg : Option FunctionSignature) (n : Name) (before : List Expr) (k : ExprCtx) (after : List Expr) (e : Expr)
  /-- in the body of a port -/
  | port (n : Name) (args : List Name) (k : ExprCtx)

/-- The declaration with `x` in the open place. -/
def DeclCtx.fill : DeclCtx → Expr → Statement
  | .body sg n as k, x => .Function (.mk sg (.mk n as (k.fill x)))
  | .arg sg n b k a e, x => .Function (.mk sg (.mk n (b ++ k.fill x :: a) e))
  | .port n as k, x => .PortDeclaration n as (k.fill x)

/-- The expression around the open place. -/
def DeclCtx.expr : DeclCtx → ExprCtx
  | .body _ _ _ k | .arg _ _ _ k _ _ | .port _ _ k => k

/-- A type in which one part is left open. -/
inductive TyCtx where
  | here
  | con (ns : List Name) (before : List Ty) (k : TyCtx) (after : List Ty)
  | tuple (before : List Ty) (k : TyCtx) (after : List Ty)
  | record (before : List (Name × Ty)) (n : Name) (k : TyCtx) (after : List (Name × Ty))
  | extended (v : Ty) (before : List (Name × Ty)) (n : Name) (k : TyCtx) (after : List (Name × Ty))
  | source (k : TyCtx) (u : Ty)
  | target (t : Ty) (k : TyCtx)

/-- The type with `x` in the open place. -/
def TyCtx.fill : TyCtx → Ty → Ty
  | .here, x => x
  | .con ns b k a, x => .TypeConstructor ns (b ++ k.fill x :: a)
  | .tuple b k a, x => .TypeTuple (b ++ k.fill x :: a)
  | .record b n k a, x => .TypeRecord (b ++ (n, k.fill x) :: a)
  | .extended v b n k a, x => .TypeRecordConstructor v (b ++ (n, k.fill x) :: a)
  | .source k u, x => .TypeApplication (k.fill x) u
  | .target t k, x => .TypeApplication t (k.fill x)

/-- A declaration in which a part of a type is left open. -/
inductive TyDeclCtx where
  /-- in the right side of a type alias -/
  | alias (t : Ty) (k : TyCtx)
  /-- in an argument of a constructor of a type -/
  | constructor (t : Ty) (before : List Ty) (ns : List Name) (b : List Ty) (k : TyCtx) (a : List Ty) (after : List Ty)
  /-- in the type of a port -/
  | port (n : Name) (k : TyCtx)
  /-- in the signature of a function -/
  | signature (n : Name) (k : TyCtx) (d : FunctionDefinition)

/-- The declaration with `x` in the open place. -/
def TyDeclCtx.fill : TyDeclCtx → Ty → Statement
  | .alias t k, x => .TypeAliasDeclaration t (k.fill x)
  | .constructor t before ns b k a after, x =>
    .TypeDeclaration t (before ++ .TypeConstructor ns (b ++ k.fill x :: a) :: after)
  | .port n k, x => .PortTypeDeclaration n (k.fill x)
  | .signature n k d, x => .Function (.mk (some ⟨n, k.fill x⟩) d)

end ElmParser.Spec
