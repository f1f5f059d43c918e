import Verif.Spec.Lex
import Verif.Model.Ast

/-! Changing the indentation of the lines of a text. -/
namespace ElmParser.Spec

/-- `reindentFrom φ o s`: the text `s` with the indentation `n` of every line replaced by `φ n`.  With `o = none` the text
starts within a line, with `o = some n` it starts after a newline and `n` spaces. -/
def reindentFrom (φ : Nat → Nat) : Option Nat → Str → Str
  | none, [] => []
  | some n, [] => sp (φ n)
  | none, c :: s => if c = '\n' then '\n' :: reindentFrom φ (some 0) s else c :: reindentFrom φ none s
  | some n, c :: s =>
    if c = ' ' then reindentFrom φ (some (n + 1)) s
    else sp (φ n) ++ (if c = '\n' then '\n' :: reindentFrom φ (some 0) s else c :: reindentFrom φ none s)

/-- The text `s` with `φ n` spaces instead of `n` spaces after every newline (`n` is the number of all spaces
directly after the newline).  What comes before the first newline is left as it is. -/
def reindent (φ : Nat → Nat) (s : Str) : Str := reindentFrom φ none s

/-- Some line of `s` other than the first is indented by exactly `n` spaces. -/
def Indent (s : Str) (n : Nat) : Prop := ∃ a r, s = a ++ '\n' :: (sp n ++ r) ∧ Next (· ≠ ' ') r

/-- `φ` keeps the order of the indentations in `L`, keeps the first column, and stays in the range of Rust's `u32`. -/
def Rescales (φ : Nat → Nat) (L : Nat → Prop) : Prop :=
  φ 0 = 0 ∧ (∀ a b, L a → L b → a < b → φ a < φ b) ∧ ∀ n, L n → n < 4294967296 ∧ φ n < 4294967296

mutual
/-- The expression with `g` applied to the contents of all string literals. -/
def exprMap (g : Str → Str) : Expr → Expr
  | .String s => .String (g s)
  | .Character c => .Character c
  | .Integer s => .Integer s
  | .Float s => .Float s
  | .Variable ns => .Variable ns
  | .List es => .List (exprsMap g es)
  | .Tuple es => .Tuple (exprsMap g es)
  | .Access e ns => .Access (exprMap g e) ns
  | .AccessFunction n => .AccessFunction n
  | .Record fs => .Record (fieldsMap g fs)
  | .RecordUpdate n fs => .RecordUpdate n (fieldsMap g fs)
  | .If a b c => .If (exprMap g a) (exprMap g b) (exprMap g c)
  | .Let ls e => .Let (entriesMap g ls) (exprMap g e)
  | .Case e bs => .Case (exprMap g e) (branchesMap g bs)
  | .Lambda as e => .Lambda (exprsMap g as) (exprMap g e)
  | .Application a b => .Application (exprMap g a) (exprMap g b)
  | .BinOp o a b => .BinOp (exprMap g o) (exprMap g a) (exprMap g b)
def exprsMap (g : Str → Str) : List Expr → List Expr
  | [] => []
  | e :: es => exprMap g e :: exprsMap g es
def fieldsMap (g : Str → Str) : List (Name × Expr) → List (Name × Expr)
  | [] => []
  | (n, e) :: fs => (n, exprMap g e) :: fieldsMap g fs
def branchesMap (g : Str → Str) : List (Expr × Expr) → List (Expr × Expr)
  | [] => []
  | (p, e) :: bs => (exprMap g p, exprMap g e) :: branchesMap g bs
def entriesMap (g : Str → Str) : List LetEntry → List LetEntry
  | [] => []
  | l :: ls => entryMap g l :: entriesMap g ls
def entryMap (g : Str → Str) : LetEntry → LetEntry
  | .LetBinding t e => .LetBinding (exprMap g t) (exprMap g e)
  | .LetFunction f => .LetFunction (functionMap g f)
def definitionMap (g : Str → Str) : FunctionDefinition → FunctionDefinition
  | .mk n as e => .mk n (exprsMap g as) (exprMap g e)
@[inherit_doc exprMap]
def functionMap (g : Str → Str) : Function → Function
  | .mk o d => .mk o (definitionMap g d)
end

/-- The statement with `g` applied to the contents of all string literals and comments. -/
def statementMap (g : Str → Str) : Statement → Statement
  | .PortDeclaration n as e => .PortDeclaration n as (exprMap g e)
  | .Function f => .Function (functionMap g f)
  | .Comment t => .Comment (g t)
  | s => s

mutual
/-- The contents of all string literals of the expression. -/
def exprTexts : Expr → List Str
  | .String s => [s]
  | .Character _ => []
  | .Integer _ => []
  | .Float _ => []
  | .Variable _ => []
  | .List es => exprsTexts es
  | .Tuple es => exprsTexts es
  | .Access e _ => exprTexts e
  | .AccessFunction _ => []
  | .Record fs => fieldsTexts fs
  | .RecordUpdate _ fs => fieldsTexts fs
  | .If a b c => exprTexts a ++ exprTexts b ++ exprTexts c
  | .Let ls e => entriesTexts ls ++ exprTexts e
  | .Case e bs => exprTexts e ++ branchesTexts bs
  | .Lambda as e => exprsTexts as ++ exprTexts e
  | .Application a b => exprTexts a ++ exprTexts b
  | .BinOp o a b => exprTexts o ++ exprTexts a ++ exprTexts b
def exprsTexts : List Expr → List Str
  | [] => []
  | e :: es => exprTexts e ++ exprsTexts es
def fieldsTexts : List (Name × Expr) → List Str
  | [] => []
  | (_, e) :: fs => exprTexts e ++ fieldsTexts fs
def branchesTexts : List (Expr × Expr) → List Str
  | [] => []
  | (p, e) :: bs => exprTexts p ++ exprTexts e ++ branchesTexts bs
def entriesTexts : List LetEntry → List Str
  | [] => []
  | l :: ls => entryTexts l ++ entriesTexts ls
def entryTexts : LetEntry → List Str
  | .LetBinding t e => exprTexts t ++ exprTexts e
  | .LetFunction f => functionTexts f
def definitionTexts : FunctionDefinition → List Str
  | .mk _ as e => exprsTexts as ++ exprTexts e
def functionTexts : Function → List Str
  | .mk _ d => definitionTexts d
end

/-- The contents of all string literals and comments of the statement. -/
def statementTexts : Statement → List Str
  | .PortDeclaration _ _ e => exprTexts e
  | .Function f => functionTexts f
  | .Comment t => [t]
  | _ => []

end ElmParser.Spec
