import Verif.Proofs.TypeLinearFile
import Verif.Props.Linear

/-! C62: exponential backtracking in types needs parentheses. -/
namespace ElmParser
open Spec

/-- C62: a text without opening parentheses is read as a type with at most one call of `type_` per character, and one more,
whatever records, extended records, arguments and arrows it contains or begins. -/
theorem C62_annotation {s : Str} (ind : Nat) (h : '(' ∉ s) : Trace.types (Trace.typeAnnotation ind s) ≤ s.length + 1 :=
  Trace.TyLin.types_annotation ind h

/-- C62: the same without arrows. -/
theorem C62_type {s : Str} (ind : Nat) (h : '(' ∉ s) : Trace.types (Trace.type_ ind s) ≤ s.length + 1 :=
  (Trace.TyLin.tidy_type ind h).1
example := C62_type (s := c!"{ x : List a, y : { b | z : Int } } -> c") 0 (by decide)

/-- C62: such declarations and signatures take at most one call of `type_` per character. -/
theorem C62_declarations {s : Str} (ind : Nat) (h : '(' ∉ s) :
    Trace.types (Trace.typeAliasDeclaration s) ≤ s.length ∧ Trace.types (Trace.typeDeclaration ind s) ≤ s.length ∧
      Trace.types (Trace.portTypeDeclaration s) ≤ s.length ∧ Trace.types (Trace.functionSignature ind s) ≤ s.length :=
  ⟨Trace.TyLin.types_typeAliasDeclaration h, Trace.TyLin.types_typeDeclaration ind h, Trace.TyLin.types_portTypeDeclaration h,
    Trace.TyLin.types_functionSignature ind h⟩
example := C62_declarations (s := c!"type alias A b = { x : List b }") 0 (by decide)

/-- C62: an expression without the letter sequence `let` calls `type_` not at all; parentheses are allowed here. -/
theorem C62_expression {s : Str} (ind : Nat) (h : ¬ c!"let" <:+: s) : Trace.types (Trace.expression ind s) = 0 :=
  (Trace.TyLin.mu_expression ind s h).1

/-- C62: a file without opening parentheses and the letter sequence `let` takes at most quadratically many calls of `type_`. -/
theorem C62_file {s : Str} (h : '(' ∉ s) (hl : ¬ c!"let" <:+: s) : Trace.types (Trace.file s) ≤ (s.length + 1) ^ 2 := by
  rw [Nat.pow_two]
  exact Trace.TyLin.types_file h hl

/-- C62: without `case`, too, `expression` and `type_` together are called at most quadratically often. -/
theorem C62_both {s : Str} (h : Straight s) :
    Trace.calls (Trace.file s) + Trace.types (Trace.file s) ≤ 2 * (s.length + 1) ^ 2 := by
  have h1 := C61_file h
  have h2 := C62_file h.paren h.let_
  omega

/-! Such texts. -/

example (ind : Nat) : Trace.types (Trace.typeAnnotation ind c!"Dict { a | b : List { c : d -> { e | f : Int -> ") ≤ 49 :=
  C62_annotation ind (by decide)

/-- Records in records: one call for each, and one for what is inside. -/
example : Trace.types (Trace.typeAnnotation 0 c!"{a:{a:{a:b}}}") = 4 := by
  set_option maxRecDepth 20000 in decide

/-- An extended record that turns out not to be one is not read again as a record. -/
example : Trace.types (Trace.typeAnnotation 0 c!"{ a | b : { c | d : e } ?") = 3 := by
  set_option maxRecDepth 20000 in decide

/-- With parentheses more calls than the bound allows. -/
example : c!"((((((a".length + 1 < Trace.types (Trace.typeAnnotation 0 c!"((((((a") := by
  set_option maxRecDepth 20000 in decide

example (ind : Nat) : Trace.types (Trace.expression ind c!"\\x -> f (g (x, [1])) { y | z = case x of a -> (b)") = 0 :=
  C62_expression ind (not_infix (c := 'l') (by decide) (by decide))

example : Trace.types (Trace.file c!"type D = E A | F { g : D }\n\nport p : { a : D }\n\nh : D -> A { b | g : D }\nh x = [x]\n") ≤ 84 ^ 2 :=
  C62_file (by decide) (not_infix (c := 'l') (by decide) (by decide))
example := C62_both (s := c!"\\x y -> if x then [{ a = [1, { b | d = [y] }], c = ") straight_example

end ElmParser
