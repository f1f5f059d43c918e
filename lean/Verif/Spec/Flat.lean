import Verif.Model.Ast

/-! Expressions and declarations without blocks. -/
namespace ElmParser.Spec

/-- The expressions without `let` and `case`. -/
inductive Flat : Expr → Prop
  | char {c} : Flat (.Character c)
  | string {s} : Flat (.String s)
  | int {n} : Flat (.Integer n)
  | float {n} : Flat (.Float n)
  | var {ns} : Flat (.Variable ns)
  | list {es} : (∀ e ∈ es, Flat e) → Flat (.List es)
  | tuple {es} : (∀ e ∈ es, Flat e) → Flat (.Tuple es)
  | access {e ns} : Flat e → Flat (.Access e ns)
  | accessFn {n} : Flat (.AccessFunction n)
  | record {fs} : (∀ f ∈ fs, Flat f.2) → Flat (.Record fs)
  | update {n fs} : (∀ f ∈ fs, Flat f.2) → Flat (.RecordUpdate n fs)
  | if_ {a b c} : Flat a → Flat b → Flat c → Flat (.If a b c)
  | lambda {as e} : (∀ a ∈ as, Flat a) → Flat e → Flat (.Lambda as e)
  | app {f x} : Flat f → Flat x → Flat (.Application f x)
  | binop {o a b} : Flat o → Flat a → Flat b → Flat (.BinOp o a b)

/-- The functions whose arguments and body are without `let` and `case`. -/
def FlatFunction : Function → Prop
  | .mk _ (.mk _ as e) => (∀ a ∈ as, Flat a) ∧ Flat e

/-- The declarations without `let` and `case`. -/
def FlatStatement : Statement → Prop
  | .Function f => FlatFunction f
  | .PortDeclaration _ _ e => Flat e
  | _ => True

end ElmParser.Spec
