import Verif.Proofs.Unfold

/-! # C65: the recursive equations of the source have exactly one solution

`expression` calls itself through `term`, `let`, `case`, `if` and lambdas
(`src/ast/expression/mod.rs`), `type_` and `type_annotation` call each other
(`src/ast/type_/mod.rs`).  In Rust that recursion is a call; in the model it is a budget on the
nesting depth.  The theorems below do not mention the budget: whatever function answers, on
every text and for every indentation, what the body of the Rust function answers with that very
function put in the place of the recursive calls, is the function of the model.  The candidate
may also run forever or abort on some texts (`Res.div`, `Res.panic`); the equations rule that
out. -/
namespace ElmParser

/-- C65: `e` satisfies the equation of `expression` if and only if it is `expression`. -/
theorem C65_expression (e : ExprRec) : (∀ ind, e ind = expressionF e ind) ↔ e = expression := by
  constructor
  · intro h
    have hle : ∀ n ind, Le (exprN n ind) (e ind) := by
      intro n
      induction n with
      | zero => exact fun _ _ => .inl rfl
      | succ n ih =>
        intro ind
        rw [h ind]
        exact le_expressionF ih ind
    funext ind s
    rw [expression_apply]
    exact (le_eq (hle _ ind) (ne_div_of_good (good_exprN (s.length + 1) ind) (Nat.lt_succ_self _))).symm
  · rintro rfl ind
    exact expression_unfold ind

/-- C65: `R` satisfies the two equations of `type_` and `type_annotation` if and only if it is
the pair of these functions. -/
theorem C65_type (R : TyRec) :
    (∀ ind, R.type_ ind = typeF R ind ∧ R.typeAnnotation ind = typeAnnotationF R ind) ↔
      R.type_ = type_ ∧ R.typeAnnotation = typeAnnotation := by
  constructor
  · intro h
    have hle : ∀ n, TyLe (tyN n) R := by
      intro n
      induction n with
      | zero => exact ⟨fun _ _ => .inl rfl, fun _ _ => .inl rfl⟩
      | succ n ih =>
        refine ⟨fun ind => ?_, fun ind => ?_⟩
        · rw [(h ind).1]; exact le_typeF ih ind
        · rw [(h ind).2]; exact le_typeAnnotationF ih ind
    constructor
    · funext ind s
      rw [type_apply]
      exact (le_eq ((hle _).ty ind) (ne_div_of_good ((goodRec_tyN (s.length + 1)).ty ind) (Nat.lt_succ_self _))).symm
    · funext ind s
      rw [typeAnnotation_apply]
      exact (le_eq ((hle _).ann ind) (ne_div_of_good ((goodRec_tyN (s.length + 1)).ann ind) (Nat.lt_succ_self _))).symm
  · obtain ⟨t, a⟩ := R
    rintro ⟨rfl, rfl⟩ ind
    exact ⟨type_unfold ind, typeAnnotation_unfold ind⟩

/-- Two functions that agree with the source on its recursive calls answer the same on every
text: here on a text with a parenthesis, a list and a lambda inside each other. -/
example (e : ExprRec) (h : ∀ ind, e ind = expressionF e ind) :
    e 0 c!"(\\x -> [x, 1])" =
      .ok (.Lambda [.Variable [c!"x"]] (.List [.Variable [c!"x"], .Integer c!"1"])) [] := by
  rw [(C65_expression e).1 h]; rfl

/-- The hypothesis is met: `expression` satisfies its equation. -/
example : ∀ ind, expression ind = expressionF expression ind := (C65_expression expression).2 rfl

example : tyRec.type_ 0 c!"Maybe (a -> b)" = type_ 0 c!"Maybe (a -> b)" := by
  rw [((C65_type tyRec).1 fun ind => ⟨type_unfold ind, typeAnnotation_unfold ind⟩).1]

/-- The equations are not satisfied by everything: the parser that never answers is no solution,
nor is the one that always fails. -/
example : ¬ ∀ ind, (fun _ _ => .div : ExprRec) ind = expressionF (fun _ _ => .div) ind := by
  intro h
  have := (C65_expression _).1 h
  have := (congrFun (congrFun this 0) c!"x").trans (rfl : expression 0 c!"x" = .ok (.Variable [c!"x"]) [])
  cases this

example : ¬ ∀ ind, (fun _ _ => .err : ExprRec) ind = expressionF (fun _ _ => .err) ind := by
  intro h
  have := (C65_expression _).1 h
  have := (congrFun (congrFun this 0) c!"x").trans (rfl : expression 0 c!"x" = .ok (.Variable [c!"x"]) [])
  cases this

end ElmParser
