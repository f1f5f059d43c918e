import Verif.Spec.TypeHeader
import Verif.Spec.Topline

/-! Declarations, right or wrong, of which it is clear where they end.  Independent of the parser model. -/
namespace ElmParser.Spec

/-- A header and a text that is meant to be the body, the type or the constructors: nothing is left open in it, and it does
not end in white space, with an operator symbol or with `as`.  A body stands on a line of its own. -/
inductive Chunk : Str → Prop
  | decl {mk h g d i} : DeclHeader mk h → ¬ c!"infix" <+: h → GapTxt 0 .GT i g → 0 < i → d ≠ [] → NoGap d → Shut d → Ends d →
      Chunk (h ++ g ++ d)
  | type_ {mk h d i} : TypeHeader mk i h → d ≠ [] → NoGap d → Shut d → Ends d → Chunk (h ++ d)
  | custom {t h d i} : CustomHeader t i h → d ≠ [] → NoGap d → Shut d → Ends d → Chunk (h ++ d)

end ElmParser.Spec
