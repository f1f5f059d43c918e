import Verif.Model.Statements

/-! Behaviour of the code a user may not expect, as concrete instances evaluated by the kernel.  DESIGN.md
lists them with the theorems that state the general facts. -/
namespace ElmParser

-- Spaces inside parentheses make a one-element tuple; the empty tuple with a space is rejected.
example : expression 0 c!"(a)" = .ok (.Variable [c!"a"]) [] := rfl
example : expression 0 c!"( a )" = .ok (.Tuple [.Variable [c!"a"]]) [] := rfl
example : expression 0 c!"( )" = .err := rfl
-- A parenthesised type is a one-element tuple, unless it is a function type.
example : type_ 0 c!"(a)" = .ok (.TypeTuple [.TypeVariable c!"a"]) [] := rfl
example : typeAnnotation 0 c!"(a -> b)" = .ok (.TypeApplication (.TypeVariable c!"a") (.TypeVariable c!"b")) [] := rfl
-- A tuple type cannot have a function type as a component.
example : typeAnnotation 0 c!"(a -> b, c)" = .err := rfl
-- Type arguments never have arguments of their own without parentheses, and lose the constructor shape with them.
example : typeAnnotation 0 c!"Maybe (List a)" = .ok (.TypeConstructor [c!"Maybe"]
    [.TypeTuple [.TypeConstructor [c!"List"] [.TypeVariable c!"a"]]]) [] := rfl
-- A record update needs white space before the closing brace.
example : expression 0 c!"{ a | b = 1 }" = .ok (.RecordUpdate c!"a" [(c!"b", .Integer c!"1")]) [] := rfl
example : expression 0 c!"{ a | b = 1}" = .err := rfl
-- Type variables are not checked against the reserved words and cannot contain 0.
example : typeAnnotation 0 c!"module" = .ok (.TypeVariable c!"module") [] := rfl
example : type_ 0 c!"a0" = .ok (.TypeVariable c!"a") c!"0" := rfl
-- No precedence.
example : expression 0 c!"a * b + c" = .ok (.BinOp (.Variable [c!"*"]) (.Variable [c!"a"])
    (.BinOp (.Variable [c!"+"]) (.Variable [c!"b"]) (.Variable [c!"c"]))) [] := rfl
-- `a - 1` is a subtraction, `a -1` an application, `a-1` only `a`.
example : expression 0 c!"a -1" = .ok (.Application (.Variable [c!"a"]) (.Integer c!"-1")) [] := rfl
example : expression 0 c!"a-1" = .ok (.Variable [c!"a"]) c!"-1" := rfl
-- Character escapes.
example : term 0 c!"'\\n'" = .err := rfl
example : term 0 c!"'''" = .ok (.Character '\'') [] := rfl
example : term 0 c!"'\\x+5'" = .ok (.Character '\x05') [] := rfl
-- An empty or blank file is rejected, and so are statements without white space between them.
example : file [] = .err := rfl
example : file c!" \n" = .err := rfl
example : file c!"{-a-}{-b-}" = .err := rfl
-- Block comments do not nest and are not allowed inside an expression.
example : file c!"{- a {- b -} -}" = .err := rfl
example : file c!"a = f {- b -} c" = .err := rfl
-- Tabs are not allowed inside an expression either.
example : file c!"a = f\tc" = .err := rfl
-- A blank line between signature and definition.
example : file c!"a : Int\n\na = 1" = .err := rfl
example : file c!"a : Int \na = 1" = .err := rfl
-- The signature may be that of another function.
example : ∃ x, file c!"a : Int\nb = 1" = .ok [x] [] := ⟨_, rfl⟩
-- Exposed constructors need exactly `, ` between them.
example : file c!"module A exposing (T(A,B))" = .err := rfl
example : ∃ x, file c!"module A exposing (T(A, B))" = .ok [x] [] := ⟨_, rfl⟩
-- An infix priority is any i64.
example : file c!"infixl 9223372036854775807 +" = .ok [.InfixDeclaration .L 9223372036854775807 c!"+"] [] := rfl
example : file c!"infixl 9223372036854775808 +" = .err := rfl
-- A binding on the line of its `let` takes the indentation of the surrounding block, not its column.
example : ∃ e, expression 0 c!"let a = 1\nb = 2\nin a" = .ok e [] := ⟨_, rfl⟩
example : expression 0 c!"let a = 1\n    b = 2\nin a" = .err := rfl
-- `---` is an operator although `--` starts a comment.
example : operator c!"---" = .ok c!"---" [] := rfl

-- A byte order mark, Windows line endings and tabs make a file fail.
example : file c!"﻿a = 1" = .err := rfl
example : file c!"a =\r\n  1" = .err := rfl
example : file c!"a =\n\t1" = .err := rfl
-- In a type alias an argument on its own line may be indented by two spaces but not by one.
example : file c!"type alias A = B\n a" = .err := rfl
example : ∃ x, file c!"type alias A = B\n  a" = .ok [x] [] := ⟨_, rfl⟩

-- Two `let` entries on one line are normally one application; only a bracket, a backslash or a keyword starts another part.
example : expression 0 c!"let a = 1 b = 2 in b" = .err := rfl
example : ∃ x y b, expression 0 c!"let a =\n      b [\n  x] = c\nin a" = .ok (.Let [x, y] b) [] := ⟨_, _, _, rfl⟩
example : ∃ a x y, expression 0 c!"case a of b -> c \\x -> e -> f" = .ok (.Case a [x, y]) [] := ⟨_, _, _, rfl⟩
-- Two declarations on one line.
example : ∃ x y, file c!"f = 1 import A" = .ok [x, y] [] := ⟨_, _, rfl⟩
example : ∃ x y, file c!"f = 1\tg = 2" = .ok [x, y] [] := ⟨_, _, rfl⟩
example : file c!"f = 1 g = 2" = .err := rfl

-- For that reason one of the examples of the crate itself, examples/BrowserElement.elm, is rejected: it contains
-- `model.toggleCount + 1}`.  With a space before the brace it is accepted.
set_option maxRecDepth 20000 in
example : file c!"module BrowserElement exposing (..)\n\nimport Browser exposing (..)\nimport Html exposing (..)\nimport Html.Events exposing (onClick)\n\ntype alias Model =\n  { toggleCount: Int\n  , isToggled: Bool\n  }\n\ntype Msg\n  = Toggle\n  | Reset\n\ntype alias Flags = {}\n\nview : Model -> Html Msg\nview model =\n  div []\n    [ button [ onClick Toggle ] [ text \"Toggle\" ]\n    , button [ onClick Reset ] [ text \"Reset\" ]\n    , text (if model.isToggled then \"Yup\" else \"Nope\")\n    ]\n\nupdate : Msg -> Model -> (Model, Cmd msg)\nupdate msg model =\n  case msg of\n    Toggle ->\n      ({ model | isToggled = not model.isToggled, toggleCount = model.toggleCount + 1}, Cmd.none)\n    Reset ->\n      ({ model | isToggled = False, toggleCount = 0 }, Cmd.none)\n\ninit : Flags -> (Model, Cmd msg)\ninit flags =\n  ({ toggleCount = 0, isToggled = False }, Cmd.none)\n\nmain = Browser.element\n  { init = init\n  , update = update\n  , subscriptions = (\\_ -> Sub.none)\n  , view = view\n  }\n" = .err := by rfl
set_option maxRecDepth 20000 in
example : ∃ sts, file c!"module BrowserElement exposing (..)\n\nimport Browser exposing (..)\nimport Html exposing (..)\nimport Html.Events exposing (onClick)\n\ntype alias Model =\n  { toggleCount: Int\n  , isToggled: Bool\n  }\n\ntype Msg\n  = Toggle\n  | Reset\n\ntype alias Flags = {}\n\nview : Model -> Html Msg\nview model =\n  div []\n    [ button [ onClick Toggle ] [ text \"Toggle\" ]\n    , button [ onClick Reset ] [ text \"Reset\" ]\n    , text (if model.isToggled then \"Yup\" else \"Nope\")\n    ]\n\nupdate : Msg -> Model -> (Model, Cmd msg)\nupdate msg model =\n  case msg of\n    Toggle ->\n      ({ model | isToggled = not model.isToggled, toggleCount = model.toggleCount + 1 }, Cmd.none)\n    Reset ->\n      ({ model | isToggled = False, toggleCount = 0 }, Cmd.none)\n\ninit : Flags -> (Model, Cmd msg)\ninit flags =\n  ({ toggleCount = 0, isToggled = False }, Cmd.none)\n\nmain = Browser.element\n  { init = init\n  , update = update\n  , subscriptions = (\\_ -> Sub.none)\n  , view = view\n  }\n" = .ok sts [] ∧ sts.length = 11 := ⟨_, by rfl, by rfl⟩

end ElmParser
