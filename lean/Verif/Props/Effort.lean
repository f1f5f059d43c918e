import Verif.Proofs.TraceOffside
import Verif.Props.Offside
import Verif.Props.Linear

/-! C84: the work a block or a bracket takes does not depend on what comes after it. -/
namespace ElmParser
open Spec

namespace Trace.Two
variable {α : Type}

/-- The events of a parser that is always defined. -/
theorem A.events {P : (Str → Str → Prop) → Prop} {p : TP α} {q : Parser α} (h : A P p p) (hq : ∀ s, q s ≠ .div ∧ q s ≠ .panic)
    (e : Er p q) {T : Str → Str → Prop} (hT : P T) {s s' : Str} (hs : T s s') : (p s).2 = (p s').2 :=
  (h T hT s s' hs).events (by rw [e s]; exact hq s) (by rw [e s']; exact hq s')

theorem lined {u b : Str} (hu : Shut u) (he : Spec.Ends u) : Lined b [] (u ++ b) u := ⟨u, ⟨hu, he⟩, rfl, (List.append_nil u).symm⟩

theorem cl_function (ind : Nat) : A ClT (function ind) (function ind) :=
  a_functionF cl_expression cl_words cl_gaps (fun _ => cl_expression _) trivial
theorem ln_function {n ind : Nat} (hi : n ≤ ind) : A (LnT n) (function ind) (function ind) :=
  a_functionF cl_expression ln_words ln_gaps (fun hi => ln_expression hi) hi

end Trace.Two

/-- **C84.** Before a line end behind which the lines are indented by fewer columns, `expression` makes the same calls and
prints the same lines as if the text ended there, whether it succeeds or fails. -/
theorem C84_expression {u b : Str} {ind : Nat} (hu : Shut u) (he : Spec.Ends u) (hb : Below ind b) :
    (Trace.expression ind (u ++ b)).2 = (Trace.expression ind u).2 :=
  (Trace.Two.ln_expression (Nat.le_refl ind)).events (C01_expression_total ind) (Trace.er_expression ind)
    (.mk ⟨hb, .nil⟩) (Trace.Two.lined hu he)

/-- **C84** for a function with its signature. -/
theorem C84_function {u b : Str} {ind : Nat} (hu : Shut u) (he : Spec.Ends u) (hb : Below ind b) :
    (Trace.function ind (u ++ b)).2 = (Trace.function ind u).2 :=
  (Trace.Two.ln_function (Nat.le_refl ind)).events (C01_function_total ind) (Trace.er_function ind)
    (.mk ⟨hb, .nil⟩) (Trace.Two.lined hu he)

/-- **C84** for a type, before a line that is not indented more. -/
theorem C84_type {u b : Str} {ind : Nat} (hu : Shut u) (he : Spec.Ends u) (hb : Below (ind + 1) b) :
    (Trace.typeAnnotation ind (u ++ b)).2 = (Trace.typeAnnotation ind u).2 :=
  (Trace.Two.ln_typeAnnotation (Nat.le_refl (ind + 1))).events (C01_typeAnnotation_total ind) (Trace.er_typeAnnotation ind)
    (.mk ⟨hb, .nil⟩) (Trace.Two.lined hu he)

/-- **C84.** What stands after a closing bracket changes neither the calls nor the lines printed on the way to it. -/
theorem C84_brackets {u : Str} (hu : Shut u) {x : Char} (hx : Close x) (ind : Nat) (r r' : Str) :
    (Trace.expression ind (u ++ x :: r)).2 = (Trace.expression ind (u ++ x :: r')).2 :=
  (Trace.Two.cl_expression ind).events (C01_expression_total ind) (Trace.er_expression ind) (.mk hx) ⟨u, hu, rfl, rfl⟩

/-- **C84** for a function in brackets, as in a `let` there. -/
theorem C84_function_brackets {u : Str} (hu : Shut u) {x : Char} (hx : Close x) (ind : Nat) (r r' : Str) :
    (Trace.function ind (u ++ x :: r)).2 = (Trace.function ind (u ++ x :: r')).2 :=
  (Trace.Two.cl_function ind).events (C01_function_total ind) (Trace.er_function ind) (.mk hx) ⟨u, hu, rfl, rfl⟩

/-- **C84** for a type in brackets. -/
theorem C84_type_brackets {u : Str} (hu : Shut u) {x : Char} (hx : Close x) (ind : Nat) (r r' : Str) :
    (Trace.typeAnnotation ind (u ++ x :: r)).2 = (Trace.typeAnnotation ind (u ++ x :: r')).2 :=
  (Trace.Two.cl_typeAnnotation ind).events (C01_typeAnnotation_total ind) (Trace.er_typeAnnotation ind) (.mk hx) ⟨u, hu, rfl, rfl⟩

/-- **C84.** So a block without parentheses, `let` and `case` takes at most one call per character of the block and one
more, whatever is in the rest of the text. -/
theorem C84_linear {u b : Str} {ind : Nat} (hu : Shut u) (he : Spec.Ends u) (hb : Below ind b) (hs : Straight u) :
    Trace.calls (Trace.expression ind (u ++ b)) ≤ u.length + 1 := by
  unfold Trace.calls Trace.num
  rw [C84_expression hu he hb]
  exact C61_linear ind hs

/-- **C84.** The same up to a closing bracket. -/
theorem C84_linear_brackets {u : Str} (hu : Shut u) {x : Char} (hx : Close x) (ind : Nat) (r : Str) (hs : Straight (u ++ [x])) :
    Trace.calls (Trace.expression ind (u ++ x :: r)) ≤ u.length + 2 := by
  unfold Trace.calls Trace.num
  rw [C84_brackets hu hx ind r []]
  have := C61_linear ind hs
  rw [List.length_append] at this
  exact this

/-! ### Examples -/

/-- A list with a character in a text without brackets. -/
theorem Trace.Two.ex_list : Shut c!"f [a, '\\x41'] 2" := by
  refine Sh.plain_shut (w := c!"f ") (by decide) ?_ (next_cons.2 (by decide))
  refine Shut.pair (a := c!"a, '\\x41'") (c := ']') (by decide) ?_ (Sh.ex_plain (by decide))
  refine Sh.plain_shut (w := c!"a, ") (by decide) ?_ (next_cons.2 (by decide))
  exact .character (w := c!"\\x41") (c := 'A') (.inr ⟨'4', '1', 65, rfl, fromHex_iff.1 rfl, rfl⟩) .nil

/-- Three calls and one printed line, whatever stands further to the left. -/
example : (Trace.expression 6 (c!"f [a, '\\x41'] 2" ++ c!"\n\n    -- then\n    in x")).2 =
    [.call, .call, .call, .hex (some 65)] :=
  (C84_expression Trace.Two.ex_list (Of.ex_ends (v := c!"f [a, '\\x41'") rfl (by decide) (by decide)) Of.ex_below).trans rfl
/-- The same before a closing bracket. -/
example (r : Str) : (Trace.expression 6 (c!"f [a, '\\x41'] 2" ++ ')' :: r)).2 = [.call, .call, .call, .hex (some 65)] :=
  (C84_brackets Trace.Two.ex_list (x := ')') (by decide) 6 r []).trans rfl
/-- A conditional without `else` takes its three calls in vain. -/
example : Trace.calls (Trace.expression 6 (c!"if a then b" ++ c!"\n\n    -- then\n    in x")) = 3 := by
  unfold Trace.calls Trace.num
  rw [C84_expression (Sh.ex_plain (by decide)) (Of.ex_ends (v := c!"if a the") (by rfl) (by decide) (by decide)) Of.ex_below]
  rfl
example := C84_function (u := c!"f : a\n      f x = x") (ind := 6) (Sh.ex_plain (by decide))
  (Of.ex_ends (v := c!"f : a\n      f x ") rfl (by decide) (by decide)) Of.ex_below
example := C84_type (u := c!"List a ->\n b") (ind := 5) (Sh.ex_plain (by decide))
  (Of.ex_ends (v := c!"List a ->") rfl (by decide) (by decide)) Of.ex_below
example := C84_function_brackets (u := c!"f : a\nf x = x") (Sh.ex_plain (by decide)) (x := ']') (by decide) 0
example := C84_type_brackets (u := c!"List a -> b") (Sh.ex_plain (by decide)) (x := ')') (by decide) 0

/-- The text of the example. -/
theorem Trace.Two.ex_straight : Straight c!"f [a, '\\x41'] 2" where
  paren := by decide
  let_ := not_infix (c := 'l') (by decide) (by decide)
  case := not_infix (c := 'c') (by decide) (by decide)
example : Trace.calls (Trace.expression 6 (c!"f [a, '\\x41'] 2" ++ c!"\n\n    -- then\n    in x")) ≤ 16 :=
  C84_linear Trace.Two.ex_list (Of.ex_ends (v := c!"f [a, '\\x41'") rfl (by decide) (by decide)) Of.ex_below Trace.Two.ex_straight
example (r : Str) : Trace.calls (Trace.expression 6 (c!"x" ++ ']' :: r)) ≤ 3 :=
  C84_linear_brackets (Sh.ex_plain (by decide)) (by decide) 6 r
    { paren := by decide, let_ := not_infix (c := 'l') (by decide) (by decide), case := not_infix (c := 'c') (by decide) (by decide) }

/-- A line that is indented as much is part of the block and takes calls of its own. -/
example : Trace.calls (Trace.expression 6 c!"[a]") = 2 ∧ Trace.calls (Trace.expression 6 (c!"[a]" ++ c!"\n      + [b]")) = 4 := ⟨rfl, rfl⟩

end ElmParser
