import Verif.Model.Helpers

/-! Specification of the lexical level: what names, operators, numbers and the
white space between tokens are.  Nothing here refers to the parser model; only
the types `Str`, `Name`, `IR` and the notation `c!"..."` for a list of characters are shared. -/
namespace ElmParser.Spec

/-- `a`..`z` -/
def Lower (c : Char) : Prop := 97 ≤ c.toNat ∧ c.toNat ≤ 122
/-- `A`..`Z` -/
def Upper (c : Char) : Prop := 65 ≤ c.toNat ∧ c.toNat ≤ 90
/-- `0`..`9` -/
def Digit (c : Char) : Prop := 48 ≤ c.toNat ∧ c.toNat ≤ 57
/-- A character that continues a name. -/
def IdentChar (c : Char) : Prop := Lower c ∨ Upper c ∨ Digit c ∨ c = '_'
/-- A character of an operator. -/
def OpChar (c : Char) : Prop :=
  c ∈ ['+', '-', '/', '*', '=', '.', '$', '<', '>', ':', '&', '|', '^', '?', '%', '#', '@', '~',
    '!', '\\']

instance : DecidablePred Lower := fun _ => inferInstanceAs (Decidable (_ ∧ _))
instance : DecidablePred Upper := fun _ => inferInstanceAs (Decidable (_ ∧ _))
instance : DecidablePred Digit := fun _ => inferInstanceAs (Decidable (_ ∧ _))
instance : DecidablePred IdentChar := fun _ => inferInstanceAs (Decidable (_ ∨ _))
instance : DecidablePred OpChar := fun _ => inferInstanceAs (Decidable (_ ∈ _))

/-- The reserved words of the language. -/
def keywords : List Str :=
  [c!"as", c!"alias", c!"case", c!"else", c!"exposing", c!"if", c!"import", c!"in", c!"let",
   c!"module", c!"of", c!"port", c!"then", c!"type", c!"where"]

/-- The operator symbols with a fixed meaning. -/
def reservedOps : List Str := [c!"=", c!":", c!"|", c!"->", c!"..", c!".", c!"--"]

/-- The next character of `s`, if there is one, satisfies `P`. -/
def Next (P : Char → Prop) (s : Str) : Prop := ∀ c r, s = c :: r → P c

/-- A word: a head character and any number of further ones. -/
def Word (H T : Char → Prop) (w : Str) : Prop := ∃ c cs, w = c :: cs ∧ H c ∧ ∀ x ∈ cs, T x

/-- A value name: `_`, or a lower-case word that is not a keyword. -/
def LoName (w : Str) : Prop := w = ['_'] ∨ (Word Lower IdentChar w ∧ w ∉ keywords)
/-- A type, constructor or module name. -/
def UpName (w : Str) : Prop := Word Upper IdentChar w
/-- An operator. -/
def Operator (w : Str) : Prop := w ≠ [] ∧ (∀ c ∈ w, OpChar c) ∧ w ∉ reservedOps
/-- A type variable as the parser knows it: lower-case letters, `1`..`9` and `_`;
no upper-case letters, no `0`, keywords included. -/
def TyVarChar (c : Char) : Prop := Lower c ∨ (49 ≤ c.toNat ∧ c.toNat ≤ 57) ∨ c = '_'
instance : DecidablePred TyVarChar := fun _ => inferInstanceAs (Decidable (_ ∨ _))
@[inherit_doc TyVarChar] def TyVar (w : Str) : Prop := Word Lower TyVarChar w

/-- A non-empty run of digits. -/
def Digits (w : Str) : Prop := w ≠ [] ∧ ∀ c ∈ w, Digit c
/-- An optional sign. -/
def Sign (w : Str) : Prop := w = [] ∨ w = ['+'] ∨ w = ['-']
/-- The text of an integer literal. -/
def IntText (w : Str) : Prop := ∃ s d, w = s ++ d ∧ Sign s ∧ Digits d
/-- The text of a float literal. -/
def FloatText (w : Str) : Prop := ∃ s d e, w = s ++ d ++ '.' :: e ∧ Sign s ∧ Digits d ∧ Digits e

/-- Names joined by dots. -/
def dotted : List Name → Str
  | [] => []
  | [n] => n
  | n :: ns => n ++ '.' :: dotted ns

/-- The text of a one-line string literal: plain characters (not a quote, a
backslash or a newline) and backslashes followed by any character but a newline. -/
inductive StringText : Str → Prop
  | nil : StringText []
  | plain {c : Char} {s : Str} : c ≠ '"' → c ≠ '\\' → c ≠ '\n' → StringText s → StringText (c :: s)
  | escape {c : Char} {s : Str} : c ≠ '\n' → StringText s → StringText ('\\' :: c :: s)

/-- `c` is a hexadecimal digit of value `v`. -/
def HexDigit (c : Char) (v : Nat) : Prop :=
  (Digit c ∧ v + 48 = c.toNat) ∨ ((97 ≤ c.toNat ∧ c.toNat ≤ 102) ∧ v + 87 = c.toNat) ∨
    ((65 ≤ c.toNat ∧ c.toNat ≤ 70) ∧ v + 55 = c.toNat)

/-- `a b` is the code of a `\x` escape with value `v`: two hexadecimal digits, or
(an accident of Rust's number parser) a plus sign and one. -/
def HexCode (a b : Char) (v : Nat) : Prop :=
  (∃ x y, HexDigit a x ∧ HexDigit b y ∧ v = 16 * x + y) ∨ (a = '+' ∧ HexDigit b v)

/-- `w` is the spelling, between the quotes, of the character `c`. -/
def CharText (w : Str) (c : Char) : Prop :=
  w = [c] ∨ ∃ a b v, w = ['\\', 'x', a, b] ∧ HexCode a b v ∧ c = Char.ofNat v

/-- White space that `statements` skips. -/
def White (c : Char) : Prop := c = ' ' ∨ c = '\t' ∨ c = '\r' ∨ c = '\n'

instance : DecidablePred White := fun _ => inferInstanceAs (Decidable (_ ∨ _))

/-! ### Layout gaps -/

/-- A line of a gap: some spaces and possibly a line comment with this text. -/
structure Line where
  spaces : Nat
  comment : Option Str

/-- `n` spaces. -/
def sp (n : Nat) : Str := List.replicate n ' '

/-- The text of an optional comment. -/
def commentText : Option Str → Str
  | none => []
  | some t => '-' :: '-' :: t

/-- The text of a line, without its line end. -/
def Line.text (l : Line) : Str := sp l.spaces ++ commentText l.comment

/-- Comments do not contain line ends. -/
def Line.ok (l : Line) : Prop := ∀ t, l.comment = some t → '\n' ∉ t

/-- The text of a gap: complete lines and the line on which the next token stands. -/
def gapText : List Line → Line → Str
  | [], last => last.text
  | l :: ls, last => l.text ++ '\n' :: gapText ls last

/-- `r` does not start with something that would belong to a gap. -/
def NoGap (r : Str) : Prop :=
  Next (fun c => c ≠ ' ' ∧ c ≠ '\n') r ∧ ∀ t, r ≠ '-' :: '-' :: t

/-- `ls`, `last` is the maximal gap at the start of `s`, and `r` is what follows:
a token, or the end of the text right after a comment. -/
structure Gap (s : Str) (ls : List Line) (last : Line) (r : Str) : Prop where
  split : s = gapText ls last ++ r
  nonempty : gapText ls last ≠ []
  lines : ∀ l ∈ ls, l.ok
  lastOk : last.ok
  stop : (last.comment = none ∧ NoGap r) ∨ (last.comment ≠ none ∧ r = [])

/-- The column of the token after a gap; after a comment (at the end of the text) 0. -/
def column (last : Line) : Nat := if last.comment = none then last.spaces else 0

/-- The relation requested by an `IR`. -/
def Rel : IR → Nat → Nat → Prop
  | .EQ, a, b => a = b
  | .GT, a, b => a > b
  | .GTE, a, b => a ≥ b
instance (ir : IR) (a b : Nat) : Decidable (Rel ir a b) := by
  cases ir <;> unfold Rel <;> infer_instance

end ElmParser.Spec
