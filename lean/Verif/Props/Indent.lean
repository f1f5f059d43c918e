import Verif.Proofs.OneLine
import Verif.Proofs.Lower
import Verif.Props.Exact

/-! Property C72: when the indentation a parser is given matters. -/
namespace ElmParser
open Spec

/-! ### C72 -/

/-- C72: on one line the indentation does not matter: the same value, the same rest and the same rejections. -/
theorem C72_line_expression {s : Str} (hs : '\n' ∉ s) (i j : Nat) : expression i s = expression j s :=
  (OneLine.expression i j s hs).eq
@[inherit_doc C72_line_expression]
theorem C72_line_term {s : Str} (hs : '\n' ∉ s) (i j : Nat) : term i s = term j s :=
  (OneLine.termF OneLine.expression i j s hs).eq
@[inherit_doc C72_line_expression]
theorem C72_line_function {s : Str} (hs : '\n' ∉ s) (i j : Nat) : function i s = function j s :=
  (OneLine.functionF OneLine.expression i j s hs).eq
@[inherit_doc C72_line_expression]
theorem C72_line_type {s : Str} (hs : '\n' ∉ s) (i j : Nat) : type_ i s = type_ j s := (OneLine.type_ i j s hs).eq
@[inherit_doc C72_line_expression]
theorem C72_line_annotation {s : Str} (hs : '\n' ∉ s) (i j : Nat) : typeAnnotation i s = typeAnnotation j s :=
  (OneLine.typeAnnotation i j s hs).eq

/-- C72: an expression without `let` and `case` that is read at some indentation is also read at every smaller one,
where what follows ends it there. -/
theorem C72_lower_expression {i j : Nat} {c r : Str} {e : Expr} (h : expression i (c ++ r) = .ok e r) (he : Flat e)
    (hj : j ≤ i) (hr : Stop j r) : expression j (c ++ r) = .ok e r := by
  obtain ⟨d, ed, hd⟩ := eSound_expression h
  rw [List.append_cancel_right ed]
  exact expression_complete (src_lower hd he hj) hr
@[inherit_doc C72_lower_expression]
theorem C72_lower_term {i j : Nat} {c r : Str} {e : Expr} (h : term i (c ++ r) = .ok e r) (he : Flat e)
    (hj : j ≤ i) (hr : TermStop r) : term j (c ++ r) = .ok e r := by
  obtain ⟨d, ed, hd⟩ := termF_sound eSound_expression h
  rw [List.append_cancel_right ed]
  exact term_complete (src_lower hd he hj) hr
@[inherit_doc C72_lower_expression]
theorem C72_lower_definition {i j : Nat} {c r : Str} {n : Name} {as : List Expr} {e : Expr}
    (h : functionDefinition i (c ++ r) = .ok (.mk n as e) r) (he : Flat e) (has : ∀ a ∈ as, Flat a)
    (hj : j ≤ i) (hr : Stop j r) : functionDefinition j (c ++ r) = .ok (.mk n as e) r := by
  obtain ⟨d, ed, hd⟩ := functionDefinitionF_sound eSound_expression h
  rw [List.append_cancel_right ed]
  exact src_complete (src_lower (st' := True) (j' := j + 1) hd ⟨has, he⟩ hj) (Nat.le_refl _) r (Stop.at.2 hr)
/-- C72: the same for types, without restriction. -/
theorem C72_lower_type {i j : Nat} {c r : Str} {t : Ty} (h : type_ i (c ++ r) = .ok t r) (hj : j ≤ i) (hr : TyStop j r) :
    type_ j (c ++ r) = .ok t r := by
  obtain ⟨d, ed, hd⟩ := type_sound h
  rw [List.append_cancel_right ed]
  exact type_complete (ty_lower hd hj) hr
@[inherit_doc C72_lower_type]
theorem C72_lower_annotation {i j : Nat} {c r : Str} {t : Ty} (h : typeAnnotation i (c ++ r) = .ok t r) (hj : j ≤ i)
    (hr : TyStop j r) : typeAnnotation j (c ++ r) = .ok t r := by
  obtain ⟨d, ed, hd⟩ := typeAnnotation_sound h
  rw [List.append_cancel_right ed]
  exact typeAnnotation_complete (ty_lower hd hj) hr

/-! Cases. -/

/-- A `case` on one line. -/
example : expression 7 c!"case x of A -> f 1" = expression 0 c!"case x of A -> f 1" := C72_line_expression (by decide) _ _
example : expression 7 c!"f (1" = expression 0 c!"f (1" := C72_line_expression (by decide) _ _
example : term 7 c!"[ a, b ]" = term 0 c!"[ a, b ]" := C72_line_term (by decide) _ _
example : function 7 c!"f x = x" = function 0 c!"f x = x" := C72_line_function (by decide) _ _
example : type_ 7 c!"A b" = type_ 0 c!"A b" := C72_line_type (by decide) _ _
example : typeAnnotation 7 c!"A -> b" = typeAnnotation 0 c!"A -> b" := C72_line_annotation (by decide) _ _
/-- On two lines it does matter. -/
example : expression 2 c!"f\n  x" = .ok (.Variable [c!"f"]) c!"\n  x" ∧
    expression 1 c!"f\n  x" = .ok (.Application (.Variable [c!"f"]) (.Variable [c!"x"])) [] := ⟨rfl, rfl⟩
/-- An application on two lines, read at 1 and at 0. -/
example : expression 0 (c!"f\n  x" ++ []) = .ok (.Application (.Variable [c!"f"]) (.Variable [c!"x"])) [] :=
  C72_lower_expression (i := 1) rfl (.app .var .var) (by decide) (stop_nil 0)
example : term 0 (c!"(f\n  x)" ++ c!")") = .ok (.Application (.Variable [c!"f"]) (.Variable [c!"x"])) c!")" :=
  C72_lower_term (i := 1) rfl (.app .var .var) (by decide) (next_cons.2 (by decide))
example : functionDefinition 0 (c!"g =\n  f" ++ []) = .ok (.mk c!"g" [] (.Variable [c!"f"])) [] :=
  C72_lower_definition (i := 1) rfl .var (by simp) (by decide) (stop_nil 0)
example : type_ 0 (c!"A\n  b" ++ []) = .ok (.TypeConstructor [c!"A"] [.TypeVariable c!"b"]) [] :=
  C72_lower_type (i := 1) rfl (by decide) (tyStop_nil 0)
example : typeAnnotation 0 (c!"A\n  b" ++ []) = .ok (.TypeConstructor [c!"A"] [.TypeVariable c!"b"]) [] :=
  C72_lower_annotation (i := 1) rfl (by decide) (tyStop_nil 0)
/-- C72: with `let` the smaller indentation may be the wrong one: the entries of a block that starts on the line of the `let`
must stand at the indentation itself. -/
theorem C72_let : (∃ e, expression 4 c!"let x = 1\n    y = 2\n    in x" = .ok e []) ∧
    expression 0 c!"let x = 1\n    y = 2\n    in x" = .err := ⟨⟨_, rfl⟩, rfl⟩

end ElmParser
