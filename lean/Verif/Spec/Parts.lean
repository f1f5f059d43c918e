import Verif.Spec.Header
import Verif.Spec.Rearrange

/-! Blocks in the usual layout: each entry of a `let` and each branch of a `case` has its body on a new line, further to the
right.  Independent of the parser model. -/
namespace ElmParser.Spec

/-- The text of a branch in column `i` up to its body, which stands in column `m`: a pattern, the arrow and the gaps. -/
inductive BranchHead (i m : Nat) : (Expr → Expr × Expr) → Str → Prop
  | mk {p c g1 k g2} : SrcAt True i 0 (.expr p) c → GapTxt i .GTE k g1 → GapTxt i .GTE m g2 → (∀ t, g2 ≠ '-' :: t) →
      BranchHead i m (fun e => (p, e)) (c ++ g1 ++ c!"->" ++ g2)

/-- The text of an entry in column `i` up to its body, which stands in column `m`: the left side of a binding, or the
header of a function with a signature or arguments. -/
inductive EntryHead (i m : Nat) : (Expr → LetEntry) → Str → Prop
  | binding {t c w g} : SrcAt True i 0 (.target t) c → SpacesTxt w → GapTxt i .GT m g →
      EntryHead i m (fun e => .LetBinding t e) (c ++ w ++ c!"=" ++ g)
  | function {sg n as h g} : HeaderAt i sg n as h → sg ≠ none ∨ as ≠ [] → GapTxt i .GT m g →
      EntryHead i m (fun e => .LetFunction (.mk sg (.mk n as e))) (h ++ g)

/-- A part of a block: the text up to the body, the column of the body, the body, and what the part is with a body. -/
structure Part (α : Type) where
  make : Expr → α
  head : Str
  col : Nat
  body : Str

/-- The text of a part. -/
def Part.text {α : Type} (p : Part α) : Str := p.head ++ p.body

/-- The part is in the usual layout in column `i`: its body stands further to the right, and in it nothing is left open, and
it does not end in white space, with an operator symbol or with `as`. -/
structure Part.Laid {α : Type} (head : Nat → Nat → (Expr → α) → Str → Prop) (i : Nat) (p : Part α) : Prop where
  head : head i p.col p.make p.head
  right : i < p.col
  some : p.body ≠ []
  noGap : NoGap p.body
  shut : Shut p.body
  ends : Ends p.body

end ElmParser.Spec
