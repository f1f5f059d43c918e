import Verif.Spec.Shut

/-! Lines that are indented less than a block.  Independent of the parser model. -/
namespace ElmParser.Spec

/-- The text does not end in white space, with an operator symbol, or with the word `as`: after these the parser skips
white space whatever its indentation. -/
def Ends (u : Str) : Prop :=
  (∀ v c, u = v ++ [c] → ¬ White c ∧ ¬ OpChar c) ∧ ∀ v c, u = v ++ c :: c!"as" → ¬ White c

/-- The text is empty, or a line end and, after any blank lines and comments, something other than an arrow, all on
lines that are indented by fewer than `n` columns. -/
inductive Below (n : Nat) : Str → Prop
  | nil : Below n []
  | line {ls : List Line} {last : Line} {t : Str} : (∀ l ∈ ls, l.ok ∧ l.spaces < n) → last.ok → last.spaces < n →
      (last.comment = none ∧ NoGap t ∧ ¬ c!"->" <+: t) ∨ (last.comment ≠ none ∧ t = []) →
      Below n ('\n' :: (gapText ls last ++ t))

end ElmParser.Spec
