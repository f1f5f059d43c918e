import Verif.Spec.Scan

/-! Brackets and spaces in a text without strings, characters and comments.  Independent of the parser model. -/
namespace ElmParser.Spec

/-- A bracket. -/
def Bracket (c : Char) : Prop := c ∈ ['(', ')', '[', ']', '{', '}']
instance : DecidablePred Bracket := fun _ => inferInstanceAs (Decidable (_ ∈ _))

/-- `o` and `c` are a pair of brackets. -/
def Partners (o c : Char) : Prop := (o, c) ∈ [('(', ')'), ('[', ']'), ('{', '}')]
instance (o c : Char) : Decidable (Partners o c) := inferInstanceAs (Decidable (_ ∈ _))

/-- The brackets of the text are properly nested, and all are closed. -/
inductive Nested : Str → Prop
  | nil : Nested []
  | char {c s} : ¬ Bracket c → Nested s → Nested (c :: s)
  | pair {o c a s} : Partners o c → Nested a → Nested s → Nested (o :: (a ++ c :: s))

/-- No string, no character literal, no line comment and no block comment. -/
structure Bare (s : Str) : Prop where
  string : '"' ∉ s
  char : '\'' ∉ s
  line : ∀ a b, s ≠ a ++ c!"--" ++ b
  block : ∀ a b, s ≠ a ++ c!"{-" ++ b

/-- The characters `y` and `x` may be neighbours, `braces` saying whether there are braces in the text: after a word or
a closing bracket no operator symbol but the dot; before a word or an opening bracket no operator symbol but the dot,
the backslash and the sign of a number.  Where there are braces, also `=`, `:` and `|`. -/
structure Neighbours (braces : Prop) (y x : Char) : Prop where
  after : IdentChar y ∨ y ∈ [')', ']', '}'] → OpChar x → x = '.' ∨ (braces ∧ x ∈ ['=', ':', '|'])
  before : OpChar y → IdentChar x ∨ x ∈ ['(', '[', '{'] →
    y = '.' ∨ y = '\\' ∨ (y ∈ ['+', '-'] ∧ Digit x) ∨ (braces ∧ y ∈ ['=', ':', '|'])
  /-- no word and no opening bracket directly after a closing bracket -/
  closed : y ∈ [')', ']', '}'] → ¬ (IdentChar x ∨ x ∈ ['(', '[', '{'])
  /-- no `[` and no `{` directly after a word -/
  word : IdentChar y → x ∉ ['[', '{']

end ElmParser.Spec
