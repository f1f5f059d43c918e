import Verif.Spec.Lex
import Verif.Spec.Rename

/-! Texts that differ in what should not matter: how many spaces stand between two tokens of a line or at its end, how many
blank lines there are, and what the comments say. -/
namespace ElmParser.Spec.Spacing

/-- After a newline the number of spaces is the indentation; after a comma some lists require exactly one space. -/
def Kept (c : Char) : Prop := c = '\n' ∨ c = ','
instance : DecidablePred Kept := fun _ => inferInstanceAs (Decidable (_ ∨ _))

/-- The last character that decides what may change, after the character `c`. -/
def seen (p c : Char) : Char := if c = ' ' ∧ Kept p then p else c

/-- Lines of spaces only. -/
def blankLines (ks : List Nat) : Str := ks.flatMap fun k => sp k ++ ['\n']

/-- `Like K p s t`: the texts `s` and `t`, after the character `p`, differ in their spacing and in the texts of comments only.
The comments are related by `K`.  String and character literals are the same, also those with spaces or dashes in them. -/
inductive Like (K : Str → Str → Prop) : Char → Str → Str → Prop
  | nil {p} : Like K p [] []
  /-- a character outside literals and comments -/
  | char {p c s t} : c ≠ '"' → c ≠ '\'' → (c = '-' ∨ c = '{' → Next (· ≠ '-') s) → Like K (seen p c) s t →
      Like K p (c :: s) (c :: t)
  /-- any number of spaces instead of another, but not none -/
  | spaces {p k k' s t} : ¬ Kept p → Like K ' ' s t → Like K p (sp (k + 1) ++ s) (sp (k' + 1) ++ t)
  /-- any number of blank lines instead of another, but not none -/
  | blank {p k ks k' ks' s t} : Like K '\n' s t →
      Like K p ('\n' :: blankLines (k :: ks) ++ s) ('\n' :: blankLines (k' :: ks') ++ t)
  /-- a line comment, unless it could be part of an operator -/
  | comment {p u v s t} : ¬ OpChar p → '\n' ∉ u → '\n' ∉ v → Next (fun c => ¬ OpChar c) u → Next (fun c => ¬ OpChar c) v →
      Next (· = '\n') s → K u v → Like K p s t → Like K p ('-' :: '-' :: u ++ s) ('-' :: '-' :: v ++ t)
  /-- two dashes that could be part of an operator: the rest of the line is the same -/
  | dashes {p w s t} : (∀ c ∈ w, c ≠ '"' ∧ c ≠ '\'' ∧ c ≠ '\n' ∧ c ≠ '{') → Next (· = '\n') s → Like K p s t →
      Like K p ('-' :: '-' :: w ++ s) ('-' :: '-' :: w ++ t)
  /-- a block comment; `{--` could also be a brace and a line comment -/
  | block {p w w' s t} : w ≠ [] → w' ≠ [] → Next (· ≠ '-') w → Next (· ≠ '-') w' → ¬ c!"-}" <:+: w → ¬ c!"-}" <:+: w' →
      K w w' → Like K '}' s t → Like K p ('{' :: '-' :: w ++ '-' :: '}' :: s) ('{' :: '-' :: w' ++ '-' :: '}' :: t)
  | string {p w s t} : StringText w → (w = [] → Next (· ≠ '"') s) → Like K '"' s t →
      Like K p ('"' :: w ++ '"' :: s) ('"' :: w ++ '"' :: t)
  | longString {p w s t} : '"' ∉ w → Like K '"' s t →
      Like K p ('"' :: '"' :: '"' :: w ++ '"' :: '"' :: '"' :: s) ('"' :: '"' :: '"' :: w ++ '"' :: '"' :: '"' :: t)
  | character {p c s t} : Like K '\'' s t → Like K p ('\'' :: c :: '\'' :: s) ('\'' :: c :: '\'' :: t)
  | hexadecimal {p a b s t} : Like K '\'' s t →
      Like K p ('\'' :: '\\' :: 'x' :: a :: b :: '\'' :: s) ('\'' :: '\\' :: 'x' :: a :: b :: '\'' :: t)

/-- The statements are the same, or comments related by `K`. -/
inductive StmtLike (K : Str → Str → Prop) : Statement → Statement → Prop
  | same {x} : StmtLike K x x
  | comment {u v} : K u v → StmtLike K (.Comment u) (.Comment v)

/-- The text with one space instead of several, except in the indentation of a line and after a comma. -/
def squeeze : Char → Str → Str
  | _, [] => []
  | p, c :: s => if c = ' ' ∧ p = ' ' then squeeze p s else c :: squeeze (seen p c) s

end ElmParser.Spec.Spacing
