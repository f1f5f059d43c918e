import Verif.Model.Ast

/-! The type variables that occur in a tree. -/
namespace ElmParser.Spec

mutual
/-- The variables of a type. -/
def tyVars : Ty → List Name
  | .TypeConstructor _ ts => tysVars ts
  | .TypeVariable n => [n]
  | .TypeRecordConstructor b fs => tyVars b ++ tyFieldVars fs
  | .TypeRecord fs => tyFieldVars fs
  | .TypeTuple ts => tysVars ts
  | .TypeApplication a b => tyVars a ++ tyVars b
def tysVars : List Ty → List Name
  | [] => []
  | t :: ts => tyVars t ++ tysVars ts
def tyFieldVars : List (Name × Ty) → List Name
  | [] => []
  | (_, t) :: fs => tyVars t ++ tyFieldVars fs
end

mutual
/-- The type variables in an expression: those in the signatures of its local functions. -/
def exprTyVars : Expr → List Name
  | .Character _ | .String _ | .Integer _ | .Float _ | .Variable _ | .AccessFunction _ => []
  | .List es | .Tuple es => exprsTyVars es
  | .Access e _ => exprTyVars e
  | .Record fs | .RecordUpdate _ fs => fieldTyVars fs
  | .If a b c => exprTyVars a ++ exprTyVars b ++ exprTyVars c
  | .Let ls e => entriesTyVars ls ++ exprTyVars e
  | .Case e bs => exprTyVars e ++ branchTyVars bs
  | .Lambda as e => exprsTyVars as ++ exprTyVars e
  | .Application a b => exprTyVars a ++ exprTyVars b
  | .BinOp o a b => exprTyVars o ++ exprTyVars a ++ exprTyVars b
def exprsTyVars : List Expr → List Name
  | [] => []
  | e :: es => exprTyVars e ++ exprsTyVars es
def fieldTyVars : List (Name × Expr) → List Name
  | [] => []
  | (_, e) :: fs => exprTyVars e ++ fieldTyVars fs
def branchTyVars : List (Expr × Expr) → List Name
  | [] => []
  | (p, e) :: bs => exprTyVars p ++ exprTyVars e ++ branchTyVars bs
def entriesTyVars : List LetEntry → List Name
  | [] => []
  | l :: ls => entryTyVars l ++ entriesTyVars ls
def entryTyVars : LetEntry → List Name
  | .LetBinding t e => exprTyVars t ++ exprTyVars e
  | .LetFunction f => functionTyVars f
/-- The type variables in a function: those in its signature, its arguments and its body. -/
def functionTyVars : Function → List Name
  | .mk none (.mk _ as e) => exprsTyVars as ++ exprTyVars e
  | .mk (some g) (.mk _ as e) => tyVars g.type_ ++ (exprsTyVars as ++ exprTyVars e)
end

/-- The type variables in a statement. -/
def statementTyVars : Statement → List Name
  | .TypeAliasDeclaration t u => tyVars t ++ tyVars u
  | .TypeDeclaration t us => tyVars t ++ tysVars us
  | .PortTypeDeclaration _ t => tyVars t
  | .PortDeclaration _ _ e => exprTyVars e
  | .Function f => functionTyVars f
  | _ => []

end ElmParser.Spec
