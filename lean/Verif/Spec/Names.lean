import Verif.Spec.Exprs

/-! The names that occur in a tree, type variables excepted. -/
namespace ElmParser.Spec

mutual
/-- Constructor and field names of a type. -/
def tyNames : Ty → List Name
  | .TypeConstructor ns ts => ns ++ tysNames ts
  | .TypeVariable _ => []
  | .TypeRecordConstructor b fs => tyNames b ++ tyFieldNames fs
  | .TypeRecord fs => tyFieldNames fs
  | .TypeTuple ts => tysNames ts
  | .TypeApplication a b => tyNames a ++ tyNames b
def tysNames : List Ty → List Name
  | [] => []
  | t :: ts => tyNames t ++ tysNames ts
def tyFieldNames : List (Name × Ty) → List Name
  | [] => []
  | (n, t) :: fs => n :: (tyNames t ++ tyFieldNames fs)
end

mutual
/-- All names in an expression: variables, constructors, qualifiers, fields, accessors, functions
and operators; only the operator `as` is left out. -/
def exprNames : Expr → List Name
  | .Character _ | .String _ | .Integer _ | .Float _ => []
  | .Variable ns => ns
  | .List es | .Tuple es => exprsNames es
  | .Access e ns => exprNames e ++ ns
  | .AccessFunction n => [n]
  | .Record fs => fieldNames fs
  | .RecordUpdate n fs => n :: fieldNames fs
  | .If a b c => exprNames a ++ exprNames b ++ exprNames c
  | .Let ls e => entriesNames ls ++ exprNames e
  | .Case e bs => exprNames e ++ branchNames bs
  | .Lambda as e => exprsNames as ++ exprNames e
  | .Application a b => exprNames a ++ exprNames b
  | .BinOp o a b => (exprNames o).filter (· != c!"as") ++ exprNames a ++ exprNames b
def exprsNames : List Expr → List Name
  | [] => []
  | e :: es => exprNames e ++ exprsNames es
def fieldNames : List (Name × Expr) → List Name
  | [] => []
  | (n, e) :: fs => n :: (exprNames e ++ fieldNames fs)
def branchNames : List (Expr × Expr) → List Name
  | [] => []
  | (p, e) :: bs => exprNames p ++ exprNames e ++ branchNames bs
def entriesNames : List LetEntry → List Name
  | [] => []
  | l :: ls => entryNames l ++ entriesNames ls
def entryNames : LetEntry → List Name
  | .LetBinding t e => exprNames t ++ exprNames e
  | .LetFunction f => functionNames f
/-- The names in a function: its name, those in its arguments and body and in its signature. -/
def functionNames : Function → List Name
  | .mk none (.mk n as e) => n :: (exprsNames as ++ exprNames e)
  | .mk (some g) (.mk n as e) => g.name :: (tyNames g.type_ ++ n :: (exprsNames as ++ exprNames e))
end

end ElmParser.Spec
