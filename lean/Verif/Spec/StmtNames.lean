import Verif.Spec.Names
import Verif.Spec.Statements

/-! The names that occur in statements, type variables excepted. -/
namespace ElmParser.Spec

mutual
def exportNames : ExportSet → List Name
  | .AllExport => []
  | .SubsetExport es => exportsNames es
  | .FunctionExport n => [n]
  | .TypeExport n none => [n]
  | .TypeExport n (some e) => n :: exportNames e
def exportsNames : List ExportSet → List Name
  | [] => []
  | e :: es => exportNames e ++ exportsNames es
end

/-- All names in a statement. -/
def statementNames : Statement → List Name
  | .ModuleDeclaration ns e => ns ++ exportNames e
  | .PortModuleDeclaration ns e => ns ++ exportNames e
  | .EffectModuleDeclaration ns fs e => ns ++ fs.flatMap (fun f => [f.1, f.2]) ++ exportNames e
  | .ImportStatement ns a e => ns ++ a.toList ++ e.toList.flatMap exportNames
  | .TypeAliasDeclaration t u => tyNames t ++ tyNames u
  | .TypeDeclaration t us => tyNames t ++ us.flatMap tyNames
  | .PortTypeDeclaration n t => n :: tyNames t
  | .PortDeclaration n as e => n :: as ++ exprNames e
  | .Function f => functionNames f
  | .InfixDeclaration _ _ n => [n]
  | .Comment _ => []

end ElmParser.Spec
