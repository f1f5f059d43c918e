import Verif.Proofs.Offside
import Verif.Props.Shield

/-! C76: a line that is indented less ends a block. -/
namespace ElmParser
open Spec

/-- **C76.** An expression that is read with an indentation does not see past a line end behind which the lines are
indented by fewer columns: it is read (or refused) as if the text ended there. -/
theorem C76_expression {u b : Str} {ind : Nat} (hu : Shut u) (he : Ends u) (hb : Below ind b) (e : Expr) (r : Str) :
    expression ind (u ++ b) = .ok e r ↔ ∃ w, expression ind u = .ok e w ∧ r = w ++ b :=
  Of.answer (Of.exOk_expression.outer (Nat.le_refl _)) (C01_expression_total ind) hu he hb e r

/-- **C76** for a function with its signature. -/
theorem C76_function {u b : Str} {ind : Nat} (hu : Shut u) (he : Ends u) (hb : Below ind b) (f : Function) (r : Str) :
    function ind (u ++ b) = .ok f r ↔ ∃ w, function ind u = .ok f w ∧ r = w ++ b :=
  Of.answer (Of.s_functionF Of.exOk_expression (Nat.le_refl _)) (C01_function_total ind) hu he hb f r

/-- **C76** for a type: it ends at a line that is not indented more. -/
theorem C76_type {u b : Str} {ind : Nat} (hu : Shut u) (he : Ends u) (hb : Below (ind + 1) b) (t : Ty) (r : Str) :
    typeAnnotation ind (u ++ b) = .ok t r ↔ ∃ w, typeAnnotation ind u = .ok t w ∧ r = w ++ b :=
  Of.answer (Of.s_typeAnnotation (Nat.le_refl _)) (C01_typeAnnotation_total ind) hu he hb t r

/-- **C76.** So a text is refused before such a line end exactly if it is refused alone. -/
theorem C76_refused {u b : Str} {ind : Nat} (hu : Shut u) (he : Ends u) (hb : Below ind b) :
    expression ind (u ++ b) = .err ↔ expression ind u = .err := by
  rcases err_or_ok (fun k => cons_expression k ind) (u ++ b) with h | ⟨e, r, h, -⟩
  · refine ⟨fun _ => ?_, fun _ => h⟩
    rcases err_or_ok (fun k => cons_expression k ind) u with h' | ⟨e, r, h', -⟩
    · exact h'
    · rw [(C76_expression hu he hb e _).2 ⟨r, h', rfl⟩] at h; cases h
  · refine ⟨fun h' => absurd (h.symm.trans h') (by simp), fun h' => ?_⟩
    obtain ⟨w, h2, -⟩ := (C76_expression hu he hb e r).1 h
    rw [h'] at h2; cases h2

/-- **C76.** And what is an expression as a whole stays one, with the rest of the text after it. -/
theorem C76_block {u b : Str} {ind : Nat} (hu : Shut u) (he : Ends u) (hb : Below ind b) (e : Expr) :
    expression ind (u ++ b) = .ok e b ↔ expression ind u = .ok e [] := by
  rw [C76_expression hu he hb]
  constructor
  · rintro ⟨w, h, hr⟩
    cases w with
    | nil => exact h
    | cons c w =>
      have := congrArg List.length hr
      simp at this
      omega
  · intro h; exact ⟨[], h, rfl⟩

/-! ### Examples -/

/-- The text ends with this character. -/
theorem Of.ex_ends {u v : Str} {x y c : Char} (h : u = v ++ [x, y, c]) (hc : ¬ White c ∧ ¬ OpChar c)
    (ha : ¬ (y = 'a' ∧ c = 's')) : Ends u := by
  subst h
  refine ⟨fun w d e => ?_, fun w d e => ?_⟩
  · obtain ⟨-, rfl⟩ := Of.append_last (v := v ++ [x, y]) (c := c) (by simpa using e)
    exact hc
  · have := List.append_inj' (s₁ := v ++ [x]) (t₁ := [y, c]) (s₂ := w ++ [d]) (t₂ := c!"as") (by simpa using e) rfl
    simp only [List.cons.injEq, and_true] at this
    exact absurd this.2 ha

/-- Two lines of a text that goes on further to the left. -/
theorem Of.ex_below : Below 6 c!"\n\n    -- then\n    in x" :=
  .line (n := 6) (ls := [⟨0, none⟩, ⟨4, some c!" then"⟩]) (last := ⟨4, none⟩) (t := c!"in x")
    (by
      intro l hl
      simp only [List.mem_cons, List.not_mem_nil, or_false] at hl
      rcases hl with rfl | rfl
      · exact ⟨fun _ h => (nomatch h), by decide⟩
      · exact ⟨fun t h => by cases h; decide, by decide⟩)
    (fun _ h => (nomatch h)) (by decide) (.inl ⟨rfl, ⟨next_cons.2 (by decide), by simp⟩, by decide⟩)

set_option maxRecDepth 20000 in
/-- The cases of a `case` end where `in` stands further to the left. -/
example : expression 6 (c!"case x of\n        A -> 1\n        B -> 2" ++ c!"\n\n    -- then\n    in x") =
    .ok (.Case (.Variable [c!"x"]) [(.Variable [c!"A"], .Integer c!"1"), (.Variable [c!"B"], .Integer c!"2")])
      c!"\n\n    -- then\n    in x" :=
  (C76_block (Sh.ex_plain (by decide)) (Of.ex_ends (v := c!"case x of\n        A -> 1\n        B -") rfl (by decide) (by decide))
    Of.ex_below _).2 rfl
/-- A conditional without `else` is refused, whatever stands further to the left. -/
example : expression 6 (c!"if a then b" ++ c!"\n\n    -- then\n    in x") = .err :=
  (C76_refused (Sh.ex_plain (by decide)) (Of.ex_ends (v := c!"if a the") (by rfl) (by decide) (by decide)) Of.ex_below).2 rfl
example := C76_expression (u := c!"f x") (ind := 6) (Sh.ex_plain (by decide))
  (Of.ex_ends (v := []) rfl (by decide) (by decide)) Of.ex_below
example := C76_function (u := c!"f : a\n      f x = x") (ind := 6) (Sh.ex_plain (by decide))
  (Of.ex_ends (v := c!"f : a\n      f x ") rfl (by decide) (by decide)) Of.ex_below
example := C76_type (u := c!"List a ->\n b") (ind := 5) (Sh.ex_plain (by decide))
  (Of.ex_ends (v := c!"List a ->") rfl (by decide) (by decide)) Of.ex_below

/-- A line that is indented as much or more belongs to the block. -/
example : expression 6 c!"f" = .ok (.Variable [c!"f"]) [] ∧
    expression 6 (c!"f" ++ c!"\n       x") = .ok (.Application (.Variable [c!"f"]) (.Variable [c!"x"])) [] := ⟨rfl, rfl⟩
/-- After an operator and after `as` the parser goes on wherever the next line begins, and before the arrow of a type too. -/
example : expression 6 (c!"a +" ++ c!"\nb") = .ok (.BinOp (.Variable [c!"+"]) (.Variable [c!"a"]) (.Variable [c!"b"])) [] ∧
    expression 6 (c!"a as" ++ c!"\nb") = .ok (.BinOp (.Variable [c!"as"]) (.Variable [c!"a"]) (.Variable [c!"b"])) [] ∧
    typeAnnotation 6 (c!"a" ++ c!"\n-> b") = .ok (.TypeApplication (.TypeVariable c!"a") (.TypeVariable c!"b")) [] :=
  ⟨rfl, rfl, rfl⟩

end ElmParser
