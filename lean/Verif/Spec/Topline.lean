import Verif.Spec.Header

/-! Declarations that stand before other text.  Independent of the parser model. -/
namespace ElmParser.Spec

/-- The text begins as a declaration in column 0 does, be it right or wrong: with a letter, an underscore or an opening
bracket, and not with the word `as`. -/
structure TopLine (y : Str) : Prop where
  head : ∃ x t, y = x :: t ∧ (Lower x ∨ x = '_' ∨ x = '(' ∨ x = '{')
  notAs : ¬ ∃ w t, y = c!"as" ++ w :: t ∧ White w

/-- Texts with an end of line and some number of blank lines after each, in front of the text `y`. -/
def ahead : List (Str × Nat) → Str → Str
  | [], y => y
  | (c, k) :: cs, y => c ++ '\n' :: (List.replicate k '\n' ++ ahead cs y)

end ElmParser.Spec
