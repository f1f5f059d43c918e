import Verif.Spec.Lex
import Verif.Model.Ast

/-! The characters Elm's grammar does not mention. -/
namespace ElmParser.Spec

/-- The grammar mentions letters and digits of ASCII, `_`, space, tab, carriage return, newline, and these signs. -/
def mentioned (c : Char) : Bool :=
  ('a' ≤ c ∧ c ≤ 'z') ∨ ('A' ≤ c ∧ c ≤ 'Z') ∨ ('0' ≤ c ∧ c ≤ '9') ∨
  c ∈ c!"_ \t\r\n()[]{},\"'" ∨ c ∈ c!"-+\\/*=.$<>:&|^?%#@~!"

/-- One character in place of all that are not mentioned. -/
def blank (c : Char) : Char := if mentioned c then c else ';'

/-- The two texts are equal but for characters that are not mentioned: where one of them has such a character, the
other has one too. -/
def Alike (s t : Str) : Prop := s.map blank = t.map blank

mutual
/-- The expression with `blank` applied to the characters of its literals. -/
def exprBlank : Expr → Expr
  | .String s => .String (s.map blank)
  | .Character c => .Character (blank c)
  | .Integer s => .Integer s
  | .Float s => .Float s
  | .Variable ns => .Variable ns
  | .List es => .List (exprsBlank es)
  | .Tuple es => .Tuple (exprsBlank es)
  | .Access e ns => .Access (exprBlank e) ns
  | .AccessFunction n => .AccessFunction n
  | .Record fs => .Record (fieldsBlank fs)
  | .RecordUpdate n fs => .RecordUpdate n (fieldsBlank fs)
  | .If a b c => .If (exprBlank a) (exprBlank b) (exprBlank c)
  | .Let ls e => .Let (entriesBlank ls) (exprBlank e)
  | .Case e bs => .Case (exprBlank e) (branchesBlank bs)
  | .Lambda as e => .Lambda (exprsBlank as) (exprBlank e)
  | .Application a b => .Application (exprBlank a) (exprBlank b)
  | .BinOp o a b => .BinOp (exprBlank o) (exprBlank a) (exprBlank b)
def exprsBlank : List Expr → List Expr
  | [] => []
  | e :: es => exprBlank e :: exprsBlank es
def fieldsBlank : List (Name × Expr) → List (Name × Expr)
  | [] => []
  | (n, e) :: fs => (n, exprBlank e) :: fieldsBlank fs
def branchesBlank : List (Expr × Expr) → List (Expr × Expr)
  | [] => []
  | (p, e) :: bs => (exprBlank p, exprBlank e) :: branchesBlank bs
def entriesBlank : List LetEntry → List LetEntry
  | [] => []
  | l :: ls => entryBlank l :: entriesBlank ls
def entryBlank : LetEntry → LetEntry
  | .LetBinding t e => .LetBinding (exprBlank t) (exprBlank e)
  | .LetFunction f => .LetFunction (functionBlank f)
def definitionBlank : FunctionDefinition → FunctionDefinition
  | .mk n as e => .mk n (exprsBlank as) (exprBlank e)
@[inherit_doc exprBlank]
def functionBlank : Function → Function
  | .mk o d => .mk o (definitionBlank d)
end

/-- The statement with `blank` applied to the characters of its literals and comments. -/
def statementBlank : Statement → Statement
  | .PortDeclaration n as e => .PortDeclaration n as (exprBlank e)
  | .Function f => .Function (functionBlank f)
  | .Comment t => .Comment (t.map blank)
  | s => s

end ElmParser.Spec
