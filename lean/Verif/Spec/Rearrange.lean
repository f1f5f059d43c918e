import Verif.Spec.Flat
import Verif.Spec.Exprs

/-! Blocks written with one entry on each line. -/
namespace ElmParser.Spec

/-- Entries of a `let` without a further `let` or `case` inside. -/
def FlatEntry : LetEntry → Prop
  | .LetBinding t e => Flat t ∧ Flat e
  | .LetFunction f => FlatFunction f

/-- Branches of a `case` without `let` and a further `case` inside. -/
def FlatBranch (b : Expr × Expr) : Prop := Flat b.1 ∧ Flat b.2

/-- Each text on a line of its own, `i` spaces from the left. -/
def onLines (i : Nat) : List Str → Str
  | [] => []
  | c :: cs => '\n' :: sp i ++ c ++ onLines i cs

/-- A `let` with the entries `cs` in column `i`, `in` in column `j`, and the body `d`. -/
def letText (i j : Nat) (cs : List Str) (d : Str) : Str :=
  c!"let" ++ onLines i cs ++ '\n' :: sp j ++ c!"in" ++ c!" " ++ d

/-- A `case` of `d` with the branches `cs` in column `i`. -/
def caseText (i : Nat) (d : Str) (cs : List Str) : Str :=
  c!"case" ++ c!" " ++ d ++ c!" " ++ c!"of" ++ onLines i cs

/-- The texts `cs` stand in the text in this order, without overlap. -/
inductive InOrder : List Str → Str → Prop
  | nil {s} : InOrder [] s
  | cons {u c cs s} : InOrder cs s → InOrder (c :: cs) (u ++ c ++ s)

end ElmParser.Spec
