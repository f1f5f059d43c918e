import Verif.Spec.Header

/-! Declarations that end with a type or with constructors, and signatures.  Independent of the parser model. -/
namespace ElmParser.Spec

/-- The text of a type alias up to its type, or of a port up to its type.  With a type it makes the declaration that is
given as a function of the type; the number is the indentation that lines of the type must have at least. -/
inductive TypeHeader : (Ty → Statement) → Nat → Str → Prop
  | alias_ {t c w1 w2 w3 g i} : SpacesTxt w1 → SpacesTxt w2 → TySrc 0 (.ty t) c → SpacesTxt w3 → GapTxt 1 .GTE i g →
      TypeHeader (fun u => .TypeAliasDeclaration t u) 1 (c!"type" ++ w1 ++ c!"alias" ++ w2 ++ c ++ w3 ++ c!"=" ++ g)
  | port {n w1 w2 g i} : SpacesTxt w1 → LoName n → SpacesTxt w2 → GapTxt 0 .GT i g →
      TypeHeader (fun u => .PortTypeDeclaration n u) i (c!"port" ++ w1 ++ n ++ w2 ++ c!":" ++ g)

/-- The text of a custom type up to its first constructor; the number is the column of the `=`. -/
inductive CustomHeader : Ty → Nat → Str → Prop
  | mk {t w c g1 g2 i j} : SpacesTxt w → TySrc 0 (.ty t) c → GapTxt 0 .GT i g1 → GapTxt i .GTE j g2 →
      CustomHeader t i (c!"type" ++ w ++ c ++ g1 ++ c!"=" ++ g2)

/-- What can follow the constructors of a custom type whose `=` stands in column `i`: lines that are indented less, or by as
much if, past blank lines and comments, there is no `|`. -/
def BelowBar (i : Nat) (b : Str) : Prop := Below i b ∨ (Below (i + 1) b ∧ ∀ ls last t, ¬ Gap b ls last ('|' :: t))

/-- The text of a signature up to its type; the number is the column the type stands in. -/
inductive SignatureHeader : Name → Nat → Str → Prop
  | mk {n m w g i} : FnName n m → SpacesTxt w → GapTxt 0 .GT i g → SignatureHeader n i (m ++ w ++ c!":" ++ g)

end ElmParser.Spec
