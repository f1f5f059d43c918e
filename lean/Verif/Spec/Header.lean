import Verif.Spec.Statements
import Verif.Spec.Offside

/-! Definitions in the usual layout: the body starts on a new line.  Independent of the parser model. -/
namespace ElmParser.Spec

/-- The text of a definition in column `ind` up to `=`: an optional signature on lines before, the name and the arguments. -/
inductive HeaderAt (ind : Nat) : Option FunctionSignature → Name → List Expr → Str → Prop
  | plain {n as m cs w} : FnName n m → SrcAt True ind 0 (.fargs as) cs → SpacesTxt w → HeaderAt ind none n as (m ++ cs ++ w ++ c!"=")
  | signed {n as h n' m' w g i t c k} : FnName n' m' → SpacesTxt w → GapTxt ind .GT i g → TySrc i (.ann t) c → k % 4294967296 = ind →
      HeaderAt ind none n as h → HeaderAt ind (some ⟨n', t⟩) n as (m' ++ w ++ c!":" ++ g ++ c ++ '\n' :: (sp k ++ h))

/-- The text of a definition in the first column up to `=`. -/
abbrev Header : Option FunctionSignature → Name → List Expr → Str → Prop := HeaderAt 0

/-- The text of a declaration with a body, up to `=`: a definition, or a port with its arguments.  With a body it makes
the declaration that is given as a function of the body. -/
inductive DeclHeader : (Expr → Statement) → Str → Prop
  | fn {sg n as h} : Header sg n as h → DeclHeader (fun e => .Function (.mk sg (.mk n as e))) h
  | port {n as w1 cs w2} : SpacesTxt w1 → LoName n → PortArgs as cs → SpacesTxt w2 →
      DeclHeader (fun e => .PortDeclaration n as e) (c!"port" ++ w1 ++ n ++ cs ++ w2 ++ c!"=")

/-- A header, a gap with a line break after which the body stands in column `i`, and a body in which nothing is left open
and which does not end in white space, with an operator symbol or with `as`. -/
def Laid (c : Str) : Prop := ∃ mk h g i d, DeclHeader mk h ∧ GapTxt 0 .GT i g ∧ 0 < i ∧ c = h ++ g ++ d ∧ NoGap d ∧ Shut d ∧ Ends d

/-- Texts, each on a new line, after some number of blank lines. -/
def rows : List (Nat × Str) → Str
  | [] => []
  | (k, c) :: cs => '\n' :: (List.replicate k '\n' ++ (c ++ rows cs))

end ElmParser.Spec
