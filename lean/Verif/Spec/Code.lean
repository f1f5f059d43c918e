import Verif.Spec.Nested

/-! The part of a text outside string and character literals and comments, as the scanner of Spec/Scan.lean finds it. -/
namespace ElmParser.Spec

/-- Not inside a literal or a comment. -/
def Pos.code : Pos → Bool
  | .gap | .paren | .brace | .word _ | .closed | .quotes | .op _ _ => true
  | _ => false

/-- The character `c`, read at the position `p` and followed by `s`, belongs to the code: it is not inside a literal or a
comment and does not begin a block comment. -/
def Pos.keeps (p : Pos) (c : Char) (s : Str) : Bool :=
  p.code && !(c == '{' && s.head? == some '-') && !(match p with | .brace => c == '-' | _ => false)

/-- The characters of a text that belong to the code, from a state of the scanner. -/
def codeFrom : Scan → Str → Str
  | .at p k, c :: s => match stepAt false p k c with
    | none => []
    | some σ => (if p.keeps c s then [c] else []) ++ codeFrom σ s
  | _, _ => []

/-- The text without the contents of literals and comments; of the signs around them only those that begin a literal or
a line comment remain. -/
def code (s : Str) : Str := codeFrom (.at .gap []) s

/-- The scanner reads the text to its end. -/
def Clear (s : Str) : Prop := scanFrom false (.at .gap []) s ≠ some .unclear

/-- The scanner is at the position `p`, with the brackets `k` open, after the text `a`. -/
def After (a : Str) (p : Pos) (k : List Char) : Prop := scanFrom false (.at .gap []) a = some (.at p k)

end ElmParser.Spec
