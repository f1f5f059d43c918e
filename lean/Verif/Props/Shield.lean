import Verif.Proofs.Shield
import Verif.Props.Totality

/-! C75: a closing bracket shields what stands before it from what follows. -/
namespace ElmParser
open Spec

/-- The rest of a text is what the parser has left of the part before the bracket. -/
theorem Sh.answer {α : Type} {p : Parser α} (h : Sh.S p p) (hp : ∀ s, p s ≠ .div ∧ p s ≠ .panic)
    (hc : ∀ k, Cons k p) {u : Str} (hu : Shut u) {x : Char} (hx : Close x) :
    (∀ r, p (u ++ x :: r) = .err) ∨
    ∃ v c w, u = c ++ w ∧ c ≠ [] ∧ Shut w ∧ ∀ r, p (u ++ x :: r) = .ok v (w ++ x :: r) := by
  have key := fun r => (h u x [] r hu hx).defined (hp _) (hp _)
  rcases key [] with ⟨e, -⟩ | ⟨v, w, hw, e, -⟩
  · refine .inl fun r => ?_
    rcases key r with ⟨-, e'⟩ | ⟨_, _, _, e', -⟩
    · exact e'
    · rw [e] at e'; cases e'
  · obtain ⟨c, hcw, hne⟩ : ∃ c, u = c ++ w ∧ c ≠ [] := by
      rcases err_or_ok hc (u ++ [x]) with e' | ⟨v', t, e', ⟨c, hs⟩, hl⟩
      · rw [e] at e'; cases e'
      · rw [e] at e'
        cases e'
        rw [← List.append_assoc] at hs
        refine ⟨c, (List.append_cancel_right hs).symm, ?_⟩
        rintro rfl
        rw [← hs] at hl
        simp at hl
    refine .inr ⟨v, c, w, hcw, hne, hw, fun r => ?_⟩
    rcases key r with ⟨e', -⟩ | ⟨v', w', _, e', e2⟩
    · rw [e] at e'; cases e'
    · rw [e] at e'
      obtain ⟨rfl, h⟩ := Res.ok.inj e'
      cases List.append_cancel_right h
      exact e2

/-- **C75.** In front of a closing bracket whose partner is not in the text, an expression is read (or refused)
without regard to what comes after the bracket, and it ends before the bracket. -/
theorem C75_expression {u : Str} (hu : Shut u) {x : Char} (hx : Close x) (ind : Nat) :
    (∀ r, expression ind (u ++ x :: r) = .err) ∨
    ∃ e c w, u = c ++ w ∧ c ≠ [] ∧ Shut w ∧ ∀ r, expression ind (u ++ x :: r) = .ok e (w ++ x :: r) :=
  Sh.answer (Sh.exOk_expression ind) (C01_expression_total ind) (fun k => cons_expression k ind) hu hx

/-- **C75** for a single term. -/
theorem C75_term {u : Str} (hu : Shut u) {x : Char} (hx : Close x) (ind : Nat) :
    (∀ r, term ind (u ++ x :: r) = .err) ∨
    ∃ e c w, u = c ++ w ∧ c ≠ [] ∧ Shut w ∧ ∀ r, term ind (u ++ x :: r) = .ok e (w ++ x :: r) :=
  Sh.answer (Sh.s_termF Sh.exOk_expression ind) (C01_term_total ind) (fun k => cons_term k ind) hu hx

/-- **C75** for a function with its signature. -/
theorem C75_function {u : Str} (hu : Shut u) {x : Char} (hx : Close x) (ind : Nat) :
    (∀ r, function ind (u ++ x :: r) = .err) ∨
    ∃ f c w, u = c ++ w ∧ c ≠ [] ∧ Shut w ∧ ∀ r, function ind (u ++ x :: r) = .ok f (w ++ x :: r) :=
  Sh.answer (Sh.s_functionF Sh.exOk_expression ind) (C01_function_total ind) (fun k => cons_function k ind) hu hx

/-- **C75** for a type. -/
theorem C75_type {u : Str} (hu : Shut u) {x : Char} (hx : Close x) (ind : Nat) :
    (∀ r, typeAnnotation ind (u ++ x :: r) = .err) ∨
    ∃ t c w, u = c ++ w ∧ c ≠ [] ∧ Shut w ∧ ∀ r, typeAnnotation ind (u ++ x :: r) = .ok t (w ++ x :: r) :=
  Sh.answer (Sh.tyOk_tyRec.ann ind) (C01_typeAnnotation_total ind) (fun k => cons_typeAnnotation k ind) hu hx

/-- **C75.** Something in brackets is one term, or no term at all, whatever comes after it: only an operator used as a
name can be continued, by field names. -/
theorem C75_brackets {o c : Char} (h : Partners o c) {a : Str} (ha : Shut a) (hop : o = '(' → ¬ OpText a) (ind : Nat) :
    (∀ r, term ind (o :: (a ++ c :: r)) = .err) ∨ ∃ e, ∀ r, term ind (o :: (a ++ c :: r)) = .ok e r :=
  Sh.Q.answer (Sh.q_termF Sh.exOk_expression ind) (C01_term_total ind) h ha hop

/-- **C75** for a type in brackets. -/
theorem C75_type_brackets {o c : Char} (h : Partners o c) {a : Str} (ha : Shut a) (hop : o = '(' → ¬ OpText a) (ind : Nat) :
    (∀ r, type_ ind (o :: (a ++ c :: r)) = .err) ∨ ∃ t, ∀ r, type_ ind (o :: (a ++ c :: r)) = .ok t r :=
  Sh.Q.answer (fun o a c r r' h1 h2 h3 => by
    rw [type_apply, type_apply]
    exact Sh.q_typeF (Sh.tyOk_tyN _ _) ind o a c r r' h1 h2 h3) (C01_type_total ind) h ha hop

/-- **C75.** So the answer for something in brackets is the answer for its text alone. -/
theorem C75_alone {o c : Char} (h : Partners o c) {a : Str} (ha : Shut a) (hop : o = '(' → ¬ OpText a) (ind : Nat) (e : Expr)
    (r : Str) : term ind (o :: (a ++ c :: r)) = .ok e r ↔ term ind (o :: (a ++ [c])) = .ok e [] := by
  rcases C75_brackets h ha hop ind with k | ⟨e', k⟩
  · rw [k, k]; simp
  · rw [k, k]; simp

/-! ### Examples -/

/-- No bracket, no quote and no two dashes. -/
def Sh.plain : Str → Bool
  | [] => true
  | c :: s => !decide (Bracket c) && c != '"' && c != '\'' && !(c == '-' && s.head? == some '-') && Sh.plain s

theorem Sh.plain_shut {w s : Str} (h : Sh.plain w = true) (hs : Shut s) (hn : Next (· ≠ '-') s) : Shut (w ++ s) := by
  induction w with
  | nil => exact hs
  | cons c w ih =>
    simp only [Sh.plain, Bool.and_eq_true, Bool.not_eq_true', decide_eq_false_iff_not, bne_iff_ne, ne_eq,
      Bool.and_eq_false_iff, beq_eq_false_iff_ne] at h
    obtain ⟨⟨⟨⟨h1, h2⟩, h3⟩, h4⟩, h5⟩ := h
    refine .char h1 h2 h3 ?_ (fun _ => ?_) (ih h5)
    · rintro rfl
      cases w with
      | nil => exact hn
      | cons d w =>
        refine next_cons.2 ?_
        rcases h4 with h | h
        · exact absurd rfl h
        · exact fun e => h (by simp [e])
    · rintro ⟨t, e⟩
      cases w with
      | nil =>
        have e : '-' :: '-' :: t = s := e
        subst e
        exact next_cons.1 hn rfl
      | cons d w =>
        have e1 : '-' :: '-' :: t = d :: (w ++ s) := e
        obtain ⟨rfl, e2⟩ := List.cons.inj e1
        cases w with
        | nil =>
          have e3 : '-' :: t = s := e2
          subst e3
          exact next_cons.1 hn rfl
        | cons d w =>
          obtain ⟨rfl, -⟩ := List.cons.inj e2
          simp [Sh.plain] at h5

theorem Sh.ex_plain {w : Str} (h : Sh.plain w = true) : Shut w := by
  have := Sh.plain_shut h .nil (next_nil _)
  rwa [List.append_nil] at this

/-- A `case` with a list, a string that contains a bracket and a comment that contains one. -/
theorem Sh.ex_case : Shut c!"case x of\n  A -> [1]\n  _ -> \")\" -- (\n  " := by
  refine Sh.plain_shut (w := c!"case x of\n  A -> ") (by decide) ?_ (next_cons.2 (by decide))
  refine Shut.pair (a := c!"1") (c := ']') (by decide) (Sh.ex_plain (by decide)) ?_
  refine Sh.plain_shut (w := c!"\n  _ -> ") (by decide) ?_ (next_cons.2 (by decide))
  refine Shut.string (w := c!")") (.plain (by decide) (by decide) (by decide) .nil) (by simp) ?_
  refine .char (by decide) (by decide) (by decide) (by simp) (fun h => absurd h (by decide)) ?_
  exact .comment (w := c!" (") (by decide) (next_cons.2 (by decide)) (Sh.ex_plain (by decide))

set_option maxRecDepth 20000 in
example (r : Str) : expression 0 (c!"case x of\n  A -> [1]\n  _ -> \")\" -- (\n  " ++ ')' :: r) =
    .ok (.Case (.Variable [c!"x"]) [(.Variable [c!"A"], .List [.Integer c!"1"]), (.Variable [c!"_"], .String c!")")])
      (c!" -- (\n  " ++ ')' :: r) := by
  have e0 : expression 0 (c!"case x of\n  A -> [1]\n  _ -> \")\" -- (\n  " ++ ')' :: []) =
    .ok (.Case (.Variable [c!"x"]) [(.Variable [c!"A"], .List [.Integer c!"1"]), (.Variable [c!"_"], .String c!")")])
      (c!" -- (\n  " ++ ')' :: []) := rfl
  rcases C75_expression Sh.ex_case (x := ')') (by decide) 0 with h | ⟨e, c, w, -, -, -, h⟩
  · rw [h] at e0; cases e0
  · rw [h] at e0
    obtain ⟨rfl, e1⟩ := Res.ok.inj e0
    rw [h, List.append_cancel_right e1]

/-- A function between brackets. -/
example := C75_function (u := c!"f : a\nf x = x") (Sh.ex_plain (by decide)) (x := ']') (by decide) 0
/-- A term and a type. -/
example := C75_term (u := c!"x.y") (Sh.ex_plain (by decide)) (x := '}') (by decide) 0
example := C75_type (u := c!"List a -> b") (Sh.ex_plain (by decide)) (x := ')') (by decide) 0

theorem Sh.ex_if : ¬ OpText c!"if a then b else c" := by
  rintro (⟨-, h, -⟩ | ⟨-, h⟩)
  · exact absurd (h 'i' (by simp)) (by decide)
  · exact absurd (h 'i' (by simp)) (by decide)

/-- A conditional in parentheses. -/
example (r : Str) : term 0 (c!"(if a then b else c)" ++ r) =
    .ok (.If (.Variable [c!"a"]) (.Variable [c!"b"]) (.Variable [c!"c"])) r :=
  (C75_alone (o := '(') (c := ')') (a := c!"if a then b else c") (by decide) (Sh.ex_plain (by decide)) (fun _ => Sh.ex_if) 0 _ r).2
    rfl
/-- A record without a value is no term, whatever follows. -/
example (r : Str) : term 0 (c!"{a = }" ++ r) = .err := by
  rcases C75_brackets (o := '{') (c := '}') (a := c!"a = ") (by decide) (Sh.ex_plain (by decide)) (by simp) 0 with h | ⟨e, h⟩
  · exact h r
  · exact absurd (h []) (by intro e; cases e)
example := C75_type_brackets (o := '{') (c := '}') (a := c!" a : Int, b : c -> d ") (by decide) (Sh.ex_plain (by decide))
  (by simp) 0

/-- A comment that does not end before the bracket is not shielded, nor is an operator used as a name. -/
example : expression 0 (c!"f --" ++ ')' :: c!"") = .ok (.Variable [c!"f"]) c!" --)" ∧
    expression 0 (c!"f --" ++ ')' :: c!"\n x") = .ok (.Application (.Variable [c!"f"]) (.Variable [c!"x"])) [] ∧
    term 0 c!"(+)" = .ok (.Variable [c!"+"]) [] ∧
    term 0 c!"(+).x" = .ok (.Access (.Variable [c!"+"]) [c!"x"]) [] := ⟨rfl, rfl, rfl, rfl⟩

end ElmParser
