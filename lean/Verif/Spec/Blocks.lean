import Verif.Spec.Nested

/-! The words that frame an expression, and the brackets, in a text without strings, characters and comments.
Independent of the parser model. -/
namespace ElmParser.Spec

/-- The word `w` as a list of marks. -/
def markWord (w : Str) : List Str := if w ∈ blockWords then [w] else []

/-- The marks of a text, `w` being the characters of a word directly before the text. -/
def marksFrom : Str → Str → List Str
  | w, [] => markWord w
  | w, c :: s =>
    if IdentChar c then marksFrom (w ++ [c]) s
    else markWord w ++ ((if Bracket c then [[c]] else []) ++ marksFrom [] s)

/-- The marks of a text: its brackets and its words `let`, `in`, `if`, `then`, `else`, `case` and `of`, in order.
A word is a longest run of letters, digits and underscores. -/
def marks (s : Str) : List Str := marksFrom [] s

/-- The marks are properly nested, and nothing is left open: brackets in pairs, each `let` with its `in`, each `case`
with its `of`, each `if` with its `then` and its `else`. -/
inductive Blocks : List Str → Prop
  | nil : Blocks []
  | bracket {o c a s} : Partners o c → Blocks a → Blocks s → Blocks ([o] :: (a ++ [c] :: s))
  | let_ {a s} : Blocks a → Blocks s → Blocks (c!"let" :: (a ++ c!"in" :: s))
  | case_ {a s} : Blocks a → Blocks s → Blocks (c!"case" :: (a ++ c!"of" :: s))
  | if_ {a b s} : Blocks a → Blocks b → Blocks s → Blocks (c!"if" :: (a ++ c!"then" :: (b ++ c!"else" :: s)))

end ElmParser.Spec
