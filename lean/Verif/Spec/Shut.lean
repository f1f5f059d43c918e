import Verif.Spec.Nested

/-! Texts in which nothing is left open.  Independent of the parser model. -/
namespace ElmParser.Spec

/-- A closing bracket. -/
def Close (c : Char) : Prop := c ∈ [')', ']', '}']
instance : DecidablePred Close := fun _ => inferInstanceAs (Decidable (_ ∈ _))

/-- Every bracket is closed by its partner, every string and character literal is finished, and every line comment
reaches the end of its line within the text.  A line comment begins where no operator symbol stands before or after
its two dashes. -/
inductive Shut : Str → Prop
  | nil : Shut []
  | char {c s} : ¬ Bracket c → c ≠ '"' → c ≠ '\'' → (c = '-' → Next (· ≠ '-') s) → (OpChar c → ¬ c!"--" <+: s) →
      Shut s → Shut (c :: s)
  | pair {o c a s} : Partners o c → Shut a → Shut s → Shut (o :: (a ++ c :: s))
  | string {w s} : StringText w → (w = [] → Next (· ≠ '"') s) → Shut s → Shut ('"' :: (w ++ '"' :: s))
  | longString {w s} : '"' ∉ w → Shut s → Shut ('"' :: '"' :: '"' :: (w ++ '"' :: '"' :: '"' :: s))
  | character {w c s} : CharText w c → Shut s → Shut ('\'' :: (w ++ '\'' :: s))
  | comment {w s} : '\n' ∉ w → Next (fun c => ¬ OpChar c) w → Shut ('\n' :: s) → Shut ('-' :: '-' :: (w ++ '\n' :: s))

/-- What may stand between the parentheses of an operator used as a name: an operator, or commas. -/
def OpText (a : Str) : Prop := Operator a ∨ (a ≠ [] ∧ ∀ c ∈ a, c = ',')

end ElmParser.Spec
